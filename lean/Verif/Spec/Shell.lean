import Verif.Py.Str
import Verif.Py.Chars

set_option autoImplicit false

/-! Independent specification: how a POSIX shell splits a simple command into words, and which results
a user calls done. -/
namespace Pibronic.Spec.Shell
open Py

/-- Characters that stand for themselves outside quotes. -/
def plain (c : Char) : Bool := c.isAlphanum || c!"/._-+=:,%@".contains c

/-- Words of a simple command: blanks separate words, everything between single quotes is taken as it is.
`none`: the command ends inside quotes, or has another character outside quotes that is special.
`cur` is the word that is being read. -/
def lex : Bool → Option Str → Str → Option (List Str)
  | true, _, [] => none
  | false, cur, [] => some cur.toList
  | true, cur, c :: s =>
    if c = '\'' then lex false cur s else lex true (some (cur.getD [] ++ [c])) s
  | false, cur, c :: s =>
    if c = '\'' then lex true (some (cur.getD [])) s
    else if c = ' ' then (lex false none s).map (cur.toList ++ ·)
    else if plain c then lex false (some (cur.getD [] ++ [c])) s
    else none

/-- The words of a command. -/
def words (cmd : Str) : Option (List Str) := lex false none cmd

/-- A path that can stand between double quotes in a Python program that stands between single quotes
in a shell command and goes through `str.format`. -/
def Harmless (p : Str) : Prop := ∀ c ∈ p, c ∉ c!"{}'\"\\\n"

end Pibronic.Spec.Shell

import Verif.Py.Json

set_option autoImplicit false

/-!
`json.dumps(v)` and `json.dump(v, file)` with the default separators `", "` and `": "`
(CPython's `json/encoder.py`; part of the trusted base, like `Verif/Py/Json.lean`).
-/
namespace Pibronic.Py

mutual
/-- `json.dumps(v)` -/
def dumpsDefault : Json → Str
  | .null => c!"null"
  | .bool true => c!"true"
  | .bool false => c!"false"
  | .int z => intStr z
  | .float t => t
  | .str s => encStr s
  | .list [] => c!"[]"
  | .list (v :: l) => '[' :: (dumpsDefault v ++ dumpsDefaultItems l)
  | .dict [] => c!"{}"
  | .dict ((k, v) :: l) => '{' :: (encStr k ++ ':' :: ' ' :: (dumpsDefault v ++ dumpsDefaultPairs l))
/-- the items after the first one, and the closing bracket -/
def dumpsDefaultItems : List Json → Str
  | [] => c!"]"
  | v :: l => ',' :: ' ' :: (dumpsDefault v ++ dumpsDefaultItems l)
/-- the items after the first one, and the closing brace -/
def dumpsDefaultPairs : List (Str × Json) → Str
  | [] => c!"}"
  | (k, v) :: l =>
    ',' :: ' ' :: (encStr k ++ ':' :: ' ' :: (dumpsDefault v ++ dumpsDefaultPairs l))
end

end Pibronic.Py

"""Write COVERAGE.md: for each function in /repo, the definitions of the model that cite its lines."""
import ast, glob, os, re

ROOT = '/repo/pibronic'
EXAMPLES = ('artificial_systems', 'paper_1.5025058')
HERE = os.path.dirname(os.path.dirname(os.path.abspath(__file__)))


def functions(path):
    out = []

    def walk(node, prefix):
        for c in ast.iter_child_nodes(node):
            if isinstance(c, ast.FunctionDef):
                out.append((prefix + c.name, c.lineno, c.end_lineno))
                walk(c, prefix + c.name + '.')
            elif isinstance(c, ast.ClassDef):
                walk(c, prefix + c.name + '.')

    walk(ast.parse(open(path).read()), '')
    return out


def citations():
    """(python file name, first line, last line, lean file, definition)"""
    out = []
    for p in sorted(glob.glob(HERE + '/lean/Verif/Model/*.lean') + glob.glob(HERE + '/lean/Verif/Py/*.lean')):
        s = open(p).read()
        for m in re.finditer(r'/--(.*?)-/\s*(?:@\[[^\]]*\]\s*)?(?:open [A-Za-z ]+ in\s*)?(?:/--.*?-/\s*)?'
                             r'(?:noncomputable |private )*(?:def|structure|inductive|abbrev)\s+(\S+)', s, re.S):
            for c in re.finditer(r'((?:(?:' + '|'.join(EXAMPLES) + r')/)?[a-z_0-9]+\.py):((?:\d+(?:-\d+)?(?:,\s*)?)+)', m.group(1)):
                for r in re.findall(r'(\d+)(?:-(\d+))?', c.group(2)):
                    a = int(r[0])
                    b = int(r[1] or r[0])
                    out.append((c.group(1), a, b, os.path.basename(p)[:-5], m.group(2)))
    return out


def main():
    cites = citations()
    names = {}
    lines = ['# Functions of /repo and the definitions that model them', '',
             'Generated by tools/coverage.py from the citations in the comments of the model. A definition is '
             'listed at every function whose lines it cites.', '']
    done = total = 0
    files = sorted(glob.glob(ROOT + '/**/*.py', recursive=True))
    for e in EXAMPLES:
        files += sorted(glob.glob('/repo/examples/' + e + '/*.py'))
    for p in files:
        fs = functions(p)
        if not fs:
            continue
        base = os.path.basename(p)
        rel = os.path.relpath(p, '/repo')
        if rel.startswith('examples'):
            base = os.path.relpath(p, '/repo/examples')
        lines += ['## ' + rel, '', '| function | lines | model |', '|---|---|---|']
        for n, a, b in fs:
            inner = [(x, y) for k, x, y in fs if k.startswith(n + '.')]
            hit = []
            for f, x, y, l, d in cites:
                if f == base and x <= b and y >= a and not any(u <= x and y <= v for u, v in inner):
                    if f in ('pimc.py', '__init__.py') and not (rel.startswith('pibronic/pimc') or rel.startswith('pibronic/server/') and False):
                        continue
                    e = l + '.' + d
                    if e not in hit:
                        hit.append(e)
            total += 1
            done += bool(hit)
            lines.append(f"| `{n}` | {a}-{b} | {', '.join(hit) if hit else '—'} |")
        lines.append('')
    lines.insert(3, f'{done} of {total} functions are cited.')
    lines.insert(4, '')
    open(HERE + '/COVERAGE.md', 'w').write('\n'.join(lines))
    print(done, total)


if __name__ == '__main__':
    main()

"""Regenerate the generated sections of DESIGN.md: coverage of the code, and axioms of theorems.

The axioms are obtained by running Lean on the built project; pass --no-axioms to skip this.
"""
import ast, glob, os, re, subprocess, sys, tempfile

root = os.path.join(os.path.dirname(os.path.abspath(__file__)), '..')
lean = os.path.join(root, 'lean')


def cited_lines():
    cites = {}
    for fn in glob.glob(f'{lean}/Verif/**/*.lean', recursive=True):
        if not any(d in fn for d in ('/Model/', '/Py/', '/Spec/')):
            continue
        text = open(fn).read()
        for m in re.finditer(r'cdtb/(\w+)\.py:\s*((?:\d+(?:-\d+)?(?:\s*\([^)]*\))?(?:\s*,\s*|\s+and\s+)?)+)', text):
            for a in re.finditer(r'(\d+)(?:-(\d+))?', re.sub(r'\([^)]*\)', '', m.group(2))):
                lo = int(a.group(1))
                cites.setdefault(m.group(1), set()).update(range(lo, int(a.group(2) or lo) + 1))
    return cites


def functions(tree):
    def walk(node, prefix):
        for child in ast.iter_child_nodes(node):
            if isinstance(child, ast.FunctionDef):
                yield prefix + child.name, child.lineno, child.end_lineno
            elif isinstance(child, ast.ClassDef):
                yield from walk(child, prefix + child.name + '.')
            elif isinstance(child, (ast.If, ast.Try)):
                yield from walk(child, prefix)
    return list(walk(tree, ''))


def coverage():
    cites = cited_lines()
    out = ['| file | functions modelled | not modelled (or only through what they return) |', '|---|---|---|']
    for f in sorted(glob.glob('/repo/cdtb/*.py')):
        mod = os.path.basename(f)[:-3]
        lines = cites.get(mod, set())
        fs = functions(ast.parse(open(f).read()))
        if not fs:
            continue
        missing = []
        done = 0
        for name, lo, hi in fs:
            if any(i in lines for i in range(lo, hi + 1)):
                done += 1
            else:
                missing.append(f'`{name}` ({lo}-{hi})')
        out.append(f'| {mod}.py | {done} of {len(fs)} | {", ".join(missing)} |')
    return '\n'.join(out)


def axioms():
    names = []
    for f in sorted(glob.glob(f'{lean}/Verif/Props/C*.lean')):
        names += re.findall(r'^theorem (C\d+_\w+)', open(f).read(), re.M)
    names.sort(key=lambda n: (int(n[1:3]), n))
    with tempfile.NamedTemporaryFile('w', suffix='.lean', delete=False) as f:
        f.write('import Verif\n' + ''.join(f'#print axioms Cdtb.{n}\n' for n in names))
    out = subprocess.run(['lake', 'env', 'lean', f.name], cwd=lean, capture_output=True, text=True).stdout
    os.unlink(f.name)
    groups = {}
    found = set()
    for m in re.finditer(r"'Cdtb\.(\w+)' (does not depend on any axioms|depends on axioms: \[([^\]]*)\])", out):
        ax = ', '.join(sorted(x.strip() for x in (m.group(3) or '').split(',') if x.strip())) or 'none'
        groups.setdefault(ax, []).append(m.group(1))
        found.add(m.group(1))
    assert found == set(names), sorted(set(names) - found)[:5]
    res = []
    for ax, ns in sorted(groups.items()):
        res.append(f'* **{ax}** ({len(ns)} theorems): ' + ', '.join(f'`{n}`' for n in ns))
    return '\n'.join(res)


path = os.path.join(root, 'DESIGN.md')
text = open(path).read()


def put(text, key, content):
    begin, end = f'<!-- begin {key} -->\n', f'\n<!-- end {key} -->'
    i, j = text.index(begin), text.index(end)
    return text[:i + len(begin)] + content + text[j:]


text = put(text, 'coverage', coverage())
if '--no-axioms' not in sys.argv:
    text = put(text, 'axioms', axioms())
open(path, 'w').write(text)

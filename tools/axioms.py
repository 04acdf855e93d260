"""List the axioms of the theorems of the manifest, and put the list into DESIGN.md.

Needs a built /verif/lean.
"""
import json, os, re, subprocess, tempfile
V = os.path.dirname(os.path.dirname(os.path.abspath(__file__)))
names = []
for c in json.load(open(V + '/MANIFEST.json'))['claims']:
    for t in c['theorems']:
        if t not in names: names.append(t)
src = 'import Verif\nopen Rustextile\n' + ''.join(f'#print axioms {n}\n' for n in names)
with tempfile.NamedTemporaryFile('w', suffix='.lean', delete=False) as f: f.write(src)
out = subprocess.run(['lake', 'env', 'lean', f.name], cwd=V + '/lean', capture_output=True, text=True).stdout
os.unlink(f.name)
groups = {}
for m in re.finditer(r"'(?:Rustextile\.)?([\w.']+)' (does not depend on any axioms|depends on axioms: \[([^\]]*)\])", out):
    ax = ', '.join(sorted(x.strip() for x in m.group(3).split(','))) if m.group(3) else 'none'
    groups.setdefault(ax, []).append(m.group(1))
n = sum(map(len, groups.values()))
assert n == len(names), (n, len(names), out[:2000])
text = ''
for ax in sorted(groups, key=len):
    text += f'* **{ax}**: ' + ', '.join(f'`{t}`' for t in sorted(groups[ax])) + '\n'
p = V + '/DESIGN.md'
d = open(p).read()
a, b = '<!-- axioms -->\n', '<!-- end of axioms -->\n'
i, j = d.index(a) + len(a), d.index(b)
open(p, 'w').write(d[:i] + text + d[j:])
print({k: len(v) for k, v in groups.items()})

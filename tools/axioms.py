"""Rewrites the generated part of DESIGN.md: the axioms every theorem of MANIFEST.json depends on.

Run after `lake build` in /verif/lean.
"""
import json, os, re, subprocess, tempfile
root = os.path.dirname(os.path.dirname(os.path.abspath(__file__)))
claims = json.load(open(os.path.join(root, 'MANIFEST.json')))['claims']
thms = []
for c in claims:
    for t in c['theorems']:
        if t not in thms: thms.append(t)
with tempfile.NamedTemporaryFile('w', suffix='.lean', delete=False) as f:
    f.write('import Verif\n' + ''.join(f'#print axioms {t}\n' for t in thms))
out = subprocess.run(['lake', 'env', 'lean', f.name], cwd=os.path.join(root, 'lean'), capture_output=True, text=True).stdout
out = re.sub(r'\n\s+', ' ', out)
groups = {}
for m in re.finditer(r"'(\S+)' (?:depends on axioms: \[([^\]]*)\]|does not depend on any axioms)", out):
    ax = ', '.join(sorted(a.strip() for a in (m.group(2) or '').split(',') if a.strip()))
    groups.setdefault(ax or 'no axioms', []).append(m.group(1))
n = sum(map(len, groups.values()))
assert n == len(thms), (n, len(thms), out[-2000:])
txt = f'{n} theorems are named in `MANIFEST.json`. `#print axioms` reports:\n'
for ax, ts in sorted(groups.items(), key=lambda x: -len(x[1])):
    txt += f'\n**{ax}** ({len(ts)}):\n' + ', '.join('`' + t.removeprefix('Props.') + '`' for t in sorted(ts)) + '.\n'
p = os.path.join(root, 'DESIGN.md')
d = open(p).read()
a, b = '<!-- generated by tools/axioms.py -->\n', '<!-- end -->'
d = d[:d.index(a) + len(a)] + txt + d[d.index(b):]
open(p, 'w').write(d)

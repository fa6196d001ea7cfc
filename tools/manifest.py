"""Writes MANIFEST.json from tools/claims.txt.

claims.txt: one block per property:  ID status / indented theorem names / note: ...
"""
import json, os, re
root = os.path.dirname(os.path.dirname(os.path.abspath(__file__)))
claims, cur = [], None
for line in open(os.path.join(root, 'tools', 'claims.txt')):
    line = line.rstrip('\n')
    if not line.strip() or line.startswith('#'):
        continue
    if not line.startswith(' '):
        pid, status = line.split()
        cur = {'property': pid, 'status': status, 'theorems': [], 'note': ''}
        claims.append(cur)
    elif line.strip().startswith('note:'):
        cur['note'] = line.strip()[5:].strip()
    else:
        cur['theorems'] += line.split()
# every theorem named must exist in the sources
src = ''
names = set()
for d, _, fs in os.walk(os.path.join(root, 'lean', 'Verif')):
    for f in fs:
        if f.endswith('.lean'):
            ns = []
            for l in open(os.path.join(d, f)):
                m = re.match(r'namespace\s+(\S+)', l)
                if m: ns.append(m.group(1))
                m = re.match(r'end\s+(\S+)', l)
                if m and ns and ns[-1] == m.group(1): ns.pop()
                m = re.match(r'(?:private |protected )?theorem\s+(\S+)', l)
                if m: names.add('.'.join(ns + [m.group(1)]))
bad = [t for c in claims for t in c['theorems'] if t not in names]
ids = [json.loads(l)['id'] for l in open(os.path.join(root, 'properties.jsonl'))]
have = [c['property'] for c in claims]
print('missing theorems:', bad)
print('properties without claim:', [i for i in ids if i not in have])
print('duplicate claims:', [i for i in set(have) if have.count(i) > 1])
claims.sort(key=lambda c: int(c['property'][1:]))
json.dump({'claims': claims}, open(os.path.join(root, 'MANIFEST.json'), 'w'), indent=1)

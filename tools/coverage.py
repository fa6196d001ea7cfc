"""Lists the functions of /repo/src/sims_pars whose lines no definition of the model cites."""
import ast, os, re, sys
repo = '/repo/src/sims_pars'
root = os.path.dirname(os.path.dirname(os.path.abspath(__file__)))
cites = {}
for d, _, fs in os.walk(os.path.join(root, 'lean', 'Verif')):
    for f in fs:
        if not f.endswith('.lean'): continue
        txt = open(os.path.join(d, f)).read()
        for m in re.finditer(r'/repo/src/sims_pars/([\w/]+\.py):((?:\d+(?:-\d+)?(?:,\s*)?)+)', txt):
            for r in re.findall(r'(\d+)(?:-(\d+))?', m.group(2)):
                a = int(r[0]); b = int(r[1] or a)
                cites.setdefault(m.group(1), set()).update(range(a, b + 1))
def walk(body, pre):
    for n in body:
        if isinstance(n, ast.ClassDef): yield from walk(n.body, pre + n.name + '.')
        elif isinstance(n, ast.FunctionDef):
            s = n.body[0].lineno; yield pre + n.name, n.lineno, n.end_lineno
tot = cov = 0
for d, _, fs in sorted(os.walk(repo)):
    for f in sorted(fs):
        if not f.endswith('.py'): continue
        p = os.path.relpath(os.path.join(d, f), repo)
        c = cites.get(p, set())
        fns = list(walk(ast.parse(open(os.path.join(d, f)).read()).body, ''))
        yes = [n for n, a, b in fns if c & set(range(a, b + 1))]
        no = [f'{n}:{a}-{b}' for n, a, b in fns if not c & set(range(a, b + 1))]
        tot += len(fns); cov += len(yes)
        print(f'{p}: {len(yes)}/{len(fns)}', *(['  missing ' + ', '.join(no)] if no else []), sep='\n')
print('total', cov, '/', tot)

#!/usr/bin/env python3
"""Mechanical wrong-program tests.  Every definition of the model is edited by a fixed list of textual operators
(comparison, sign, constant, branch, connective, order), a few edits per definition; each edit is built in a scratch
copy, and the build stops at the first theorem that no longer checks.  One line per edit is appended to
seeded/AUTO.jsonl; edits already there are skipped.
Usage: automutate.py [edits per definition] [file ...]
With NEW=1 in the environment, definitions that have an edit in seeded/mutants.jsonl are left out.
With RETRY=1, only the edits that survived when last tried are tried, again."""
import json, os, random, re, signal, subprocess, sys, time
sys.path.insert(0, os.path.dirname(__file__))
import importlib.util

ROOT, SCR = '/verif', os.environ.get('SCR', '/tmp/am')
OUT = f'{ROOT}/seeded/AUTO.jsonl'
OPS = [
    (r' < ', ' ≤ '), (r' ≤ ', ' < '), (r' > ', ' ≥ '), (r' ≥ ', ' > '),
    (r' ∈ ', ' ∉ '), (r' ∉ ', ' ∈ '), (r' == ', ' != '), (r' != ', ' == '), (r' ≠ ', ' = '),
    (r' && ', ' || '), (r' \|\| ', ' && '), (r' ∧ ', ' ∨ '), (r' ∨ ', ' ∧ '),
    (r'¬ ?', ''), (r'(?<=[ (])!(?=\w)', ''),
    (r' \+ ', ' - '), (r' - ', ' + '), (r' \* ', ' + '), (r' / ', ' * '),
    (r'\btrue\b', 'false'), (r'\bfalse\b', 'true'),
    (r'(?<![\w.])0(?![\w.])', '1'), (r'(?<![\w.])1(?![\w.])', '2'), (r'(?<![\w.])2(?![\w.])', '1'),
    (r'\.any\b', '.all'), (r'\.all\b', '.any'), (r'\.reverse\b', ''),
    (r'\bif (?!let)(?!←)(?!h )([^\n]*?) then\b', r'if ¬ (\1) then'), (r'\bif ← ([^\n]*?) then\b', r'if !(← \1) then'),
    (r'\bmax\b', 'min'), (r'\bmin\b', 'max'), (r'\.1\b', '.2'), (r'\.2\b', '.1'),
    (r'\.KeyError', '.ValueError'), (r'\.ValueError', '.KeyError'), (r'\.TypeError', '.KeyError'),
    (r'\.AttributeError', '.KeyError'), (r'\.AssertionError', '.KeyError'), (r'\.IndexError', '.KeyError'),
    (r'\bpreds\b', 'succs'), (r'\bsuccs\b', 'preds'), (r'\bancestors\b', 'descendants'), (r'\bdescendants\b', 'ancestors'),
    (r'\(([\w.]+) \+\+ ([\w.]+|\[\w+\])\)', r'(\2 ++ \1)'), (r' \+\+ \[\w+\]', ''),
    (r'\.erase \w+', ''), (r'\.set \w+ \w+', ''), (r'\btl\b', 'hd'), (r'\bsome (\w+)\b(?= =>)', r'none'),
    (r'\.isDist\b', '.isExo'), (r'\.isExo\b', '.isDist'), (r'\.isSome\b', '.isNone'), (r'\.isNone\b', '.isSome'),
    (r':: \(?(\w+) ', r':: id (\1) '), (r'\bpure \(\)', 'fail .KeyError'), (r'\.dedup\b', ''),
    (r'\bhead\?', 'getLast?'), (r'\.take ', '.drop '), (r'\.drop ', '.take '), (r'\bgetD (\w+) ', r'getD (\1+1) '),
    (r'\bparents\b', 'children'), (r'\bchildren\b', 'parents'), (r'\broots\b', 'leaves'), (r'\bleaves\b', 'roots'),
    (r'\{ (\w+) with [^{}\n]*\}', r'\1'), (r', (\w+) := [^,{}\n]+(?= \})', ''),
    (r'\bfoldl\b', 'foldr'), (r'\bexp\b', 'log'), (r'\blog\b', 'exp'),
]


def sh(cmd):
    return subprocess.run(cmd, shell=True, capture_output=True, text=True)


def load_mutate():
    src = open(f'{ROOT}/tools/mutate.py').read().replace('\nmain()\n', '\n')
    ns = {}
    exec(compile(src, 'mutate', 'exec'), ns)
    return ns


M = load_mutate()


def spans(s):
    """(name, start, end) of the code of every definition, without its comment."""
    out = []
    ns = []
    for m in re.finditer(r'^(?:(namespace|end) (\S+)|(?:@\[[^\]]*\] *)?(?:private |protected |noncomputable )*(def|abbrev) (\S+))', s, re.M):
        if m.group(1) == 'namespace':
            ns.append(m.group(2))
        elif m.group(1) == 'end':
            if ns and ns[-1] == m.group(2):
                ns.pop()
        else:
            e = re.compile(r'^(?:/-|def |abbrev |theorem |lemma |structure |inductive |instance |namespace |end\b|variable|@\[|mutual|section|noncomputable|open |set_option|termination_by|decreasing_by|private |protected )', re.M).search(s, m.end())
            end = e.start() if e else len(s)
            c = re.search(r':=|\n  \|', s[m.start():end])
            st = m.start() + (c.start() if c else 0)
            out.append(('.'.join(ns + [m.group(4)]), st, end))
    return out


def edits(s, st, end):
    body = s[st:end]
    res = []
    for pat, rep in OPS:
        for m in re.finditer(pat, body):
            new = re.sub(pat, rep, m.group(0)) if '\\' in rep else rep
            if re.sub(pat, rep, m.group(0)) == m.group(0):
                continue
            # not inside a comment
            line0 = body.rfind('\n', 0, m.start()) + 1
            if '--' in body[line0:m.start()]:
                continue
            try:
                new = m.expand(rep)
            except Exception:
                continue
            res.append((st + m.start(), st + m.end(), new))
    return res


def build(limit=1500):
    """Build until the first error outside the edited file; returns (output, timed out)."""
    env = dict(os.environ)
    p = subprocess.Popen(f'ulimit -v 24000000; cd {SCR}/lean && exec lake build', shell=True, stdout=subprocess.PIPE,
                         stderr=subprocess.STDOUT, text=True, env=env, start_new_session=True)
    out, t0, late = [], time.time(), False
    import threading
    timer = threading.Timer(limit, lambda: os.killpg(p.pid, signal.SIGKILL))
    timer.start()
    hit = False
    for l in p.stdout:
        out.append(l)
        if re.match(r'error: Verif/', l):
            hit = True
        if hit and re.match(r'^(✔|✖|ℹ|⚠)', l) or (hit and re.match(r'error: Lean exited', l)):
            break
    late = not timer.is_alive()
    timer.cancel()
    try:
        os.killpg(p.pid, signal.SIGKILL)
    except ProcessLookupError:
        pass
    rc = p.wait()
    return ''.join(out), late, (rc == 0 and not hit)


def main():
    per = int(sys.argv[1]) if len(sys.argv) > 1 else 2
    files = sys.argv[2:]
    if not files:
        files = sorted('Model/' + f for f in os.listdir(f'{ROOT}/lean/Verif/Model')) + \
                sorted('Py/' + f for f in os.listdir(f'{ROOT}/lean/Verif/Py')) 
    seen = {}
    if os.path.exists(OUT):
        seen = {(json.loads(l)['definition'], json.loads(l)['line'], json.loads(l)['new']): json.loads(l)['survived']
                for l in open(OUT) if l.strip()}
    retry = os.environ.get('RETRY')
    if not os.path.exists(f'{SCR}/base'):
        sh(f'mkdir -p {SCR} && cp -a {ROOT}/lean {SCR}/base')
        M['strip_examples'](f'{SCR}/base/Verif/Props')
        r = sh(f'cd {SCR}/base && lake build')
        if r.returncode:
            print(r.stdout, r.stderr); sys.exit(1)
    hand = set()
    if os.environ.get('NEW'):
        hand = {json.loads(l)['definition'] for l in open(f'{ROOT}/seeded/mutants.jsonl') if l.strip()}
    for f in files:
        src = open(f'{SCR}/base/Verif/{f}').read()
        for name, st, end in spans(src):
            if name in hand:
                continue
            es = edits(src, st, end)
            random.Random(name).shuffle(es)
            done = 0
            ops = set()
            for a, b, new in es:
                if done >= per:
                    break
                if (src[a:b], new) in ops:
                    continue
                ops.add((src[a:b], new))
                l0 = src.rfind('\n', 0, a) + 1
                l1 = src.find('\n', b)
                line = src[l0:l1].strip()
                newline = (src[l0:a] + new + src[b:l1]).strip()
                if retry and not seen.get((name, line, newline)):
                    continue
                if (name, line, newline) in seen and not retry:
                    done += 1
                    continue
                sh(f'rm -rf {SCR}/lean && cp -a {SCR}/base {SCR}/lean')
                p = f'{SCR}/lean/Verif/{f}'
                open(p, 'w').write(src[:a] + new + src[b:])
                t0 = time.time()
                # the edited file by itself first
                mod = 'Verif.' + f[:-5].replace('/', '.')
                r = sh(f'ulimit -v 24000000; cd {SCR}/lean && lake build {mod}')
                if r.returncode:
                    names = [M['enclosing'](p, int(x)) for x in re.findall(r'error: Verif/' + re.escape(f) + r':(\d+):', r.stdout + r.stderr)]
                    if name in names or not names:
                        continue            # the edit does not compile by itself
                    out, late, ok = r.stdout + r.stderr, False, False
                else:
                    out, late, ok = build()
                failed = []
                for g, ln in re.findall(r'error: (Verif/\S+\.lean):(\d+):', out):
                    n = M['enclosing'](f'{SCR}/lean/{g}', int(ln))
                    if n and n not in failed:
                        failed.append(n)
                done += 1
                e = {'definition': name, 'file': f, 'line': line, 'new': newline, 'first_failed': failed,
                     'survived': ok and not failed, 'seconds': round(time.time() - t0)}
                if late:
                    e['note'] = 'build cut off'
                if not failed and not ok:
                    e['note'] = 'build failed: ' + out[-300:]
                print(json.dumps(e, ensure_ascii=False), flush=True)
                with open(OUT, 'a') as fo:
                    fo.write(json.dumps(e, ensure_ascii=False) + '\n')


main()

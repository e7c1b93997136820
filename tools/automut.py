#!/usr/bin/env python3
"""Mechanical wrong programs.

usage: automut.py SEED [COUNT] [NAME-REGEX]
For definitions of the model that cite /repo, one token is changed (a comparison, a constant, a connective, a shift), in a scratch copy
(/root/seed2), and everything is rebuilt until something fails. Killed mutants are added to /verif/seeded/LOG.jsonl, survivors to
/root/seed2/survivors.jsonl for inspection by hand. Waits while /tmp/vc.lock exists.
"""
import sys, os, re, json, subprocess, shutil, random, time, signal, threading
sys.path.insert(0, os.path.dirname(os.path.abspath(__file__)))
SRC = '/verif/lean'; ROOT = '/root/seed2'; SCR = ROOT + '/lean'; LOG = '/verif/seeded/LOG.jsonl'
OPS = [(r' < ', ' ≤ '), (r' ≤ ', ' < '), (r' > ', ' ≥ '), (r' ≥ ', ' > '), (r' = ', ' ≠ '), (r' ≠ ', ' = '), (r' == ', ' != '),
       (r' ∧ ', ' ∨ '), (r' ∨ ', ' ∧ '), (r' && ', ' || '), (r' \|\| ', ' && '), (r' &&& ', ' ||| '), (r' \|\|\| ', ' &&& '),
       (r' <<< ', ' >>> '), (r' >>> ', ' <<< '), (r' \+ 1\b', ''), (r' - 1\b', ''), (r' \+ ', ' - '), (r' - ', ' + '), (r' \* ', ' + '),
       (r' / ', ' * '), (r' % ', ' / '), (r'\btrue\b', 'false'), (r'\bfalse\b', 'true'), (r' \+\+ ', None), (r'(?<![\w.#])\d+\b(?!#)', 'INC'),
       (r'\bmax\b', 'min'), (r'\bmin\b', 'max'), (r'!(?=\w)', '')]

def defs():
    out = []
    for d, _, fs in sorted(os.walk(SRC + '/Verif')):
        for f in sorted(fs):
            if not f.endswith('.lean'): continue
            p = os.path.join(d, f); s = open(p).read()
            for m in re.finditer(r'/--((?:(?!-/).)*?)-/\s*\n(?:@\[[^\]]*\]\s*\n?)?(?:private )?def (\S+)(.*?)(?=\n\n|\Z)', s, re.S):
                if re.search(r'(hpp|cpp):\d', m.group(1)):
                    out.append((os.path.relpath(p, SRC), m.group(2), m.start(3), m.end(3)))
    return out

def mutants(s, a, b):
    body = s[a:b]
    k = body.find(':=')
    k2 = body.find('\n  |')
    st = min(x for x in (k, k2) if x >= 0) if max(k, k2) >= 0 else 0
    res = []
    for pat, new in OPS:
        if new is None: continue
        for m in re.finditer(pat, body):
            if m.start() < st: continue
            line = body[body.rfind('\n', 0, m.start()) + 1:m.end()]
            if pat == r' = ' and 'if' not in line and '=' not in line: continue
            t = str(int(m.group(0)) + 1) if new == 'INC' else new
            res.append((a + m.start(), a + m.end(), t))
    return res

def sync():
    os.makedirs(ROOT, exist_ok=True)
    if os.path.exists(SCR + '/Verif'): shutil.rmtree(SCR + '/Verif')
    os.makedirs(SCR, exist_ok=True)
    for n in os.listdir(SRC):
        if n == '.lake': continue
        s = os.path.join(SRC, n); d = os.path.join(SCR, n)
        if os.path.isdir(s): shutil.copytree(s, d)
        else: shutil.copy2(s, d)
    if not os.path.exists(SCR + '/.lake'): shutil.copytree(SRC + '/.lake', SCR + '/.lake', symlinks=True)

def decl_at(path, line):
    name = None
    for i, l in enumerate(open(path), 1):
        if i > line: break
        m = re.match(r'\s*(?:@\[.*\]\s*)?(?:private )?(theorem|def|example|instance|structure)\s*([^\s:({\[]*)', l)
        if m: name = m.group(2) or m.group(1)
    return name

def build():
    """(failed declarations, finished cleanly)"""
    p = subprocess.Popen(['lake', 'build'], cwd=SCR, stdout=subprocess.PIPE, stderr=subprocess.STDOUT, text=True, start_new_session=True)
    fails = []; first = [None]
    def stop():
        try: os.killpg(p.pid, signal.SIGKILL)
        except ProcessLookupError: pass
    timer = threading.Timer(4000, stop); timer.start()
    late = None
    for l in p.stdout:
        m = re.match(r'error: (Verif/\S+?\.lean):(\d+):\d+', l)
        if m:
            d = m.group(1)[:-5].replace('/', '.') + ':' + str(decl_at(SCR + '/' + m.group(1), int(m.group(2))))
            if d not in fails: fails.append(d)
            if late is None:
                late = threading.Timer(15, stop); late.start()
    rc = p.wait(); timer.cancel()
    if late: late.cancel()
    return fails, rc == 0

def main():
    rnd = random.Random(int(sys.argv[1])); count = int(sys.argv[2]) if len(sys.argv) > 2 else 10 ** 9
    pat = re.compile(sys.argv[3]) if len(sys.argv) > 3 else None
    sync()
    ds = [x for x in defs() if not pat or pat.search(x[0] + ':' + x[1])]
    rnd.shuffle(ds)
    if os.environ.get('FRESH'):        # only definitions that were never changed before
        seen = {json.loads(l)['definition'].split('def ')[-1].strip() for l in open(LOG)}
        ds = [x for x in ds if x[1] not in seen]
    print(len(ds), 'definitions', flush=True)
    if not build()[1]: sys.exit('the unchanged copy does not build')
    done = 0
    for f, name, a, b in ds:
        if done >= count: break
        p = SCR + '/' + f; s = open(p).read()
        ms = mutants(s, a, b)
        rnd.shuffle(ms)
        for (i, j, t) in ms[:4]:
            while os.path.exists('/tmp/vc.lock'): time.sleep(20)
            ls = s.rfind('\n', 0, i) + 1; le = s.find('\n', j)
            old = s[ls:le].strip(); new = (s[ls:i] + t + s[j:le]).strip()
            open(p, 'w').write(s[:i] + t + s[j:])
            t0 = time.time()
            try: fails, ok = build()
            finally: open(p, 'w').write(s)
            mod = f[:-5].replace('/', '.')
            if any(x == mod + ':' + name for x in fails): continue       # does not compile
            if not fails and not ok:
                print('ERROR   ', f, name, old, '=>', new, flush=True); continue
            rec = dict(definition=f + ':def ' + name, edit=old + '  =>  ' + new, claim_broken='mechanical change of the program', failed=fails,
                       failed_property_theorems=sorted({x.split(':')[1] for x in fails if re.match(r'C\d\d', x.split(':')[1])}), survived=not fails, tightened=[])
            print('killed  ' if fails else 'SURVIVED', int(time.time() - t0), f, name, '|', old[:100], '=>', new[:100], '|', fails[:2], flush=True)
            with open(LOG if fails else ROOT + '/survivors.jsonl', 'a') as g: g.write(json.dumps(rec) + '\n')
            done += 1
            break
main()

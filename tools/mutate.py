#!/usr/bin/env python3
"""Runs mutations of the model in a scratch copy. usage: mutate.py mutations.json results.jsonl [scratch [source]]
A mutation: {"id", "file" (relative to lean/Verif), "definition", "old", "new", "claim"}.
Result: the failing declarations and the modules that could not be built; the build is stopped half a minute after the first failure."""
import json, os, re, shutil, signal, subprocess, sys, threading, time

root = os.path.dirname(os.path.dirname(os.path.abspath(__file__)))
muts = json.load(open(sys.argv[1]))
out = sys.argv[2]
scratch = sys.argv[3] if len(sys.argv) > 3 else '/tmp/mutw/lean'
source = sys.argv[4] if len(sys.argv) > 4 else os.path.join(root, 'lean')
done = set()
if os.path.exists(out):
    done = {json.loads(l)['id'] for l in open(out)}


def decl_at(path, line):
    name = None
    for i, l in enumerate(open(path).read().split('\n')[:line]):
        m = re.match(r'(?:@\[.*\]\s*)?(?:private |noncomputable |protected )*(theorem|lemma|def|instance|example|structure|inductive|abbrev)\s*([^\s:({\[]*)', l)
        if m:
            name = m.group(2) if m.group(1) != 'example' and m.group(2) else '%s@%d' % (m.group(1), i + 1)
    return name


def imports():
    deps = {}
    for d, _, fs in os.walk(os.path.join(scratch, 'Verif')):
        for f in fs:
            if f.endswith('.lean'):
                p = os.path.join(d, f)
                mod = os.path.relpath(p, scratch)[:-5].replace('/', '.')
                deps[mod] = re.findall(r'^import (Verif\S*)', open(p).read(), re.M)
    return deps


for m in muts:
    if m['id'] in done:
        continue
    shutil.rmtree(scratch, ignore_errors=True)
    os.makedirs(scratch)
    # keep modification times so that nothing else is rebuilt
    subprocess.run(['cp', '-a', source + '/.', scratch])
    # the tests of /repo are not properties: they must not be what catches an edit
    shutil.rmtree(os.path.join(scratch, 'Verif', 'Tests'), ignore_errors=True)
    top = os.path.join(scratch, 'Verif.lean')
    lines = open(top).read().split('\n')
    open(top, 'w').write('\n'.join(l for l in lines if not l.startswith('import Verif.Tests')))
    p = os.path.join(scratch, 'Verif', m['file'])
    s = open(p).read()
    if s.count(m['old']) != 1:
        print(m['id'], 'BAD: pattern occurs', s.count(m['old']), 'times')
        continue
    open(p, 'w').write(s.replace(m['old'], m['new']))
    t = time.time()
    r = subprocess.Popen(['lake', 'build'], cwd=scratch, stdout=subprocess.PIPE, stderr=subprocess.STDOUT, text=True,
                         start_new_session=True)
    txt, timer = '', None
    for line in r.stdout:
        txt += line
        if timer is None and re.match(r'error: Verif/', line):
            timer = threading.Timer(30, os.killpg, (r.pid, signal.SIGKILL))
            timer.start()
    r.wait()
    if timer:
        timer.cancel()
    failed, mods = [], set()
    for f, line in re.findall(r'error: (Verif/\S+\.lean):(\d+):\d+', txt):
        d = decl_at(os.path.join(scratch, f), int(line))
        mods.add(f[:-5].replace('/', '.'))
        x = '%s:%s' % (f[6:-5], d)
        if x not in failed:
            failed.append(x)
    deps = imports()
    blocked = set()
    ch = True
    while ch:
        ch = False
        for a, ds in deps.items():
            if a not in blocked and any(d in mods or d in blocked for d in ds):
                blocked.add(a)
                ch = True
    res = dict(id=m['id'], definition=m['definition'], file=m['file'], claim=m['claim'], ok=r.returncode == 0, failed=failed,
               blocked=sorted(x[6:] for x in blocked if x.startswith('Verif.Props')), secs=round(time.time() - t))
    open(out, 'a').write(json.dumps(res) + '\n')
    print(m['id'], 'SURVIVED' if r.returncode == 0 else 'killed', failed[:6], res['secs'], flush=True)

"""Writes lean/Verif.lean (all modules) and MANIFEST.json (theorems named Cnn_* under Verif/Props)."""
import json
import os
import re

LEAN = '/verif/lean'
NOTES = json.load(open('/verif/tools/notes.json')) if os.path.exists('/verif/tools/notes.json') else {}

mods = []
for d, _, fs in os.walk(LEAN + '/Verif'):
    for f in fs:
        if f.endswith('.lean'):
            mods.append(os.path.relpath(os.path.join(d, f), LEAN)[:-5].replace('/', '.'))
mods.sort()
with open(LEAN + '/Verif.lean', 'w') as f:
    f.write(''.join('import %s\n' % m for m in mods))

thms = {}
for m in mods:
    if not m.startswith('Verif.Props'):
        continue
    src = open(LEAN + '/' + m.replace('.', '/') + '.lean').read()
    for name in re.findall(r'^theorem (C\d\d+_\w+)', src, re.M):
        thms.setdefault(name.split('_')[0], []).append('Props.' + name)

claims = []
for line in open('/verif/properties.jsonl'):
    pid = json.loads(line)['id']
    ts = thms.pop(pid, [])
    note = NOTES.get(pid, {})
    if not ts:
        status = note.get('status', 'not_applicable')
        text = note.get('note', 'not yet modelled')
    else:
        partial = any(t.endswith('_partial') or t.endswith('_false') for t in ts)
        status = note.get('status', 'partial' if partial else 'proved')
        text = note.get('note', '')
    claims.append({'property': pid, 'status': status, 'theorems': ts, 'note': text})
assert not thms, thms
with open('/verif/MANIFEST.json', 'w') as f:
    f.write('{"claims": [\n' + ',\n'.join(json.dumps(c, ensure_ascii=False) for c in claims) + '\n]}\n')
print({s: sum(c['status'] == s for c in claims) for s in ('proved', 'partial', 'not_applicable')},
      sum(len(c['theorems']) for c in claims), 'theorems')

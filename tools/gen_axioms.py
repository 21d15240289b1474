#!/usr/bin/env python3
"""Writes AXIOMS.md: the axioms every property theorem depends on. Needs a finished build."""
import json, os, re, subprocess, tempfile

root = os.path.dirname(os.path.dirname(os.path.abspath(__file__)))
claims = json.load(open(os.path.join(root, 'MANIFEST.json')))['claims']
names = []
for c in claims:
    for t in c.get('theorems', []):
        if t not in names:
            names.append(t)
with tempfile.NamedTemporaryFile('w', suffix='.lean', delete=False) as f:
    f.write('import Verif\n' + ''.join('#print axioms %s\n' % n for n in names))
out = subprocess.run(['lake', 'env', 'lean', f.name], cwd=os.path.join(root, 'lean'), capture_output=True, text=True).stdout
os.unlink(f.name)
out = re.sub(r'\n\s+', ' ', out)
groups = {}
for line in out.splitlines():
    m = re.match(r"'(.*)' (depends on axioms: \[(.*)\]|does not depend on any axioms)", line)
    if m:
        groups.setdefault(m.group(3) or 'none', []).append(m.group(1))
with open(os.path.join(root, 'AXIOMS.md'), 'w') as f:
    f.write('# Axioms of the property theorems\n\nWritten by `tools/gen_axioms.py` from `#print axioms`.\n')
    for k in sorted(groups):
        f.write('\n## %s\n\n' % k + ''.join('* `%s`\n' % n for n in groups[k]))
print({k: len(v) for k, v in groups.items()}, len(names))

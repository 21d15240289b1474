#!/usr/bin/env python3
"""Appends results of mutate.py to seeded/LOG.jsonl. usage: mutlog.py mutations.json results.jsonl [extra.json]
extra.json: {id: {"tightened": [...], "note": "..."}}
"killed" only says that the build failed. "evidence" says where: "property" if a property theorem or its example failed, "lemma" if
only helper lemmas did (their proofs follow the text of the model, so that they may fail though no property is false), "model" if the
edited model itself did not build."""
import json, sys


def evidence(ok, failed):
    if ok:
        return ''
    for start, kind in (('Props/', 'property'), ('Lemmas/', 'lemma'), ('Spec/', 'lemma')):
        if any(f.startswith(start) for f in failed):
            return kind
    return 'model'


muts = {m['id']: m for m in json.load(open(sys.argv[1]))}
extra = json.load(open(sys.argv[3])) if len(sys.argv) > 3 else {}
with open('/verif/seeded/LOG.jsonl', 'a') as f:
    for line in open(sys.argv[2]):
        r = json.loads(line)
        m = muts[r['id']]
        x = extra.get(r['id'], {})
        f.write(json.dumps({'id': r['id'], 'definition': m['definition'], 'file': 'lean/Verif/' + m['file'],
                            'edit': '%s  ==>  %s' % (m['old'], m['new']), 'claim': m['claim'],
                            'result': 'survived' if r['ok'] else 'killed',
                            'evidence': evidence(r['ok'], r['failed']), 'failed': r['failed'],
                            'blocked_modules': r['blocked'], 'tightened': x.get('tightened', []),
                            'note': x.get('note', '')}, ensure_ascii=False) + '\n')

"""Turns the results of the mutation runs into /verif/seeded/LOG.jsonl."""
import json, sys, glob, os
TIGHT = {'m015': ['C17_variant (added: before it, swapping bold and italic variants of a built-in typeface went unnoticed)']}
extra = '/tmp/mut2/tight.json'
if os.path.exists(extra): TIGHT.update(json.load(open(extra)))
out = []
for f in sorted(glob.glob('/tmp/mut2/r[1-9]*.jsonl')):
    for l in open(f):
        d = json.loads(l)
        if 'props' not in d: continue
        out.append({'id': d['id'], 'definition': d['file'] + ': ' + d['definition'], 'edit': d['edit'], 'old': d['old'], 'new': d['new'], 'claim': d['claim'],
                    'lemmas_failed': sorted({n for _, n, _ in d['direct']}), 'theorems_failed': d['props'],
                    'theorems_tightened': TIGHT.get(d['id'], [])})
with open('/verif/seeded/LOG.jsonl', 'w') as fh:
    for d in out: fh.write(json.dumps(d) + '\n')
print(len(out), 'mutations;', sum(not any(t.startswith(d['claim']) for t in d['theorems_failed']) for d in out), 'missed')

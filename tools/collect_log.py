#!/usr/bin/env python3
"""Turn the output of mutate.py into seeded/LOG.jsonl, one line per attempt."""
import json, os, sys
out = sys.argv[1] if len(sys.argv) > 1 else '/tmp/mut.out'
log = '/verif/seeded/LOG.jsonl'
have = {}
if os.path.exists(log):
    for l in open(log):
        d = json.loads(l)
        have[d['id']] = d
tight = json.load(open('/verif/seeded/tightened.json'))
order = list(have)
for l in open(out):
    d = json.loads(l)
    e = {'id': d['id'], 'file': d['file'], 'definition': d['definition'], 'edit': d['edit'],
         'claim_broken': d['claim'], 'old': d['old'], 'new': d['new'],
         'theorems_failed': sorted(set(d.get('props_failed') or [])),
         'lemmas_failed_first': sorted(set(d.get('failed') or [])),
         'theorems_tightened': tight.get(d['id'], [])}
    if d.get('stuck'):
        e['note'] = 'the edited model itself did not elaborate: ' + str(d['stuck'])[:200]
    if d['id'] not in have:
        order.append(d['id'])
    have[d['id']] = e
with open(log, 'w') as f:
    for i in order:
        f.write(json.dumps(have[i], ensure_ascii=False) + '\n')
print(len(order), 'entries;', sum(1 for i in order if not have[i]['theorems_failed']), 'without a failed property theorem')

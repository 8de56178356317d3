#!/usr/bin/env python3
"""prop.py ID field=value ...  : edit or append one property in properties.jsonl"""
import json, sys, os
p = os.path.join(os.path.dirname(__file__), '..', 'properties.jsonl')
rows = [json.loads(l) for l in open(p)]
i = sys.argv[1]
kv = dict(a.split('=', 1) for a in sys.argv[2:])
if 'anchors' in kv: kv['anchors'] = [a.strip() for a in kv['anchors'].split(';')]
for r in rows:
    if r['id'] == i:
        r.update(kv); break
else:
    rows.append(dict(id=i, **kv))
open(p, 'w').write(''.join(json.dumps(r, ensure_ascii=False) + '\n' for r in rows))

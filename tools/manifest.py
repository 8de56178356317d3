#!/usr/bin/env python3
"""Regenerates MANIFEST.json from the theorem names in lean/Verif and tools/notes.json."""
import json, re, glob, os
root = os.path.dirname(os.path.dirname(os.path.abspath(__file__)))
notes = json.load(open(os.path.join(root, 'tools', 'notes.json')))
thms = {}
for f in sorted(glob.glob(os.path.join(root, 'lean/Verif/**/*.lean'), recursive=True)):
    stack = []
    for line in open(f):
        if m := re.match(r"namespace (\S+)", line): stack.append(m.group(1))
        elif re.match(r"(noncomputable )?section\b|mutual\b", line): stack.append(None)
        elif re.match(r"end\b", line) and stack: stack.pop()
        elif m := re.match(r"theorem ((?:[A-Za-z]+\.)*(C\d\d+)_[\w']+)", line):
            thms.setdefault(m.group(2), []).append('.'.join([x for x in stack if x] + [m.group(1)]))
claims = []
for line in open(os.path.join(root, 'properties.jsonl')):
    if not line.strip():
        continue
    i = json.loads(line)['id']
    if i in thms:
        n = notes.get(i, {})
        part = any(t.endswith('_partial') for t in thms[i])
        st = n.get('status', 'partial' if part else 'proved')
        claims.append({"property": i, "status": st, "theorems": thms[i], "note": n.get('note', '')})
    elif i in notes and notes[i].get('status') == 'not_applicable':
        claims.append({"property": i, "status": 'not_applicable', "theorems": [], "note": notes[i]['note']})
    else:
        print('no theorem for', i)
with open(os.path.join(root, 'MANIFEST.json'), 'w') as f:
    f.write('{"claims": [\n' + ',\n'.join(' ' + json.dumps(c) for c in claims) + '\n]}\n')
print(len(claims), 'claims')

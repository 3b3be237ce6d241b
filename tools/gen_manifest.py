#!/usr/bin/env python3
"""Writes /verif/MANIFEST.json from the theorem names in lean/Verif/Props and tools/notes.json."""
import glob, json, os, re
root = os.path.dirname(os.path.dirname(os.path.abspath(__file__)))
ths = {}
for f in sorted(glob.glob(root + '/lean/Verif/Props/*.lean')):
    for m in re.finditer(r'^theorem (C\d\d\d?)(_\w+)', open(f).read(), re.M):
        ths.setdefault(m.group(1), []).append('Yupp.' + m.group(1) + m.group(2))
notes = json.load(open(root + '/tools/notes.json'))
claims = []
for line in open(root + '/properties.jsonl'):
    i = json.loads(line)['id']
    n = notes.get(i, {})
    t = ths.get(i, [])
    st = n.get('status') or ('proved' if t else None)
    if st is None:
        continue
    claims.append({'property': i, 'status': st, 'theorems': t, 'note': n.get('note', '')})
json.dump({'claims': claims}, open(root + '/MANIFEST.json', 'w'), indent=1)
open(root + '/MANIFEST.json', 'a').write('\n')
print(len(claims), 'claims')

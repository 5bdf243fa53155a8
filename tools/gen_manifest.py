#!/usr/bin/env python3
"""Collect the property theorems (TEflow.Cnn_*) into MANIFEST.json; also regenerates lean/Verif.lean."""
import re, glob, json, os
root = os.path.dirname(os.path.dirname(os.path.abspath(__file__)))
NOTES = json.load(open(os.path.join(root, 'tools', 'manifest_notes.json')))
th = {}
mods = []
for p in sorted(glob.glob(root + '/lean/Verif/**/*.lean', recursive=True)):
    mods.append(os.path.relpath(p, root + '/lean')[:-5].replace('/', '.'))
    if '/Props/' in p:
        for m in re.finditer(r'^theorem (C(\d+)_\w+)', open(p).read(), re.M):
            th.setdefault('C' + m.group(2), []).append('TEflow.' + m.group(1))
claims = []
for l in open(root + '/properties.jsonl'):
    i = json.loads(l)['id']
    n = NOTES.get(i, {})
    t = th.get(i, [])
    if not t and 'status' not in n:
        continue
    st = n.get('status', 'partial' if any(x.endswith('_partial') for x in t) else 'proved')
    claims.append({'property': i, 'status': st, 'theorems': t, 'note': n.get('note', '')})
json.dump({'claims': claims}, open(root + '/MANIFEST.json', 'w'), indent=1)
open(root + '/lean/Verif.lean', 'w').write(''.join(f'import {m}\n' for m in mods))
print(len(claims), 'claims', sum(len(c['theorems']) for c in claims), 'theorems')

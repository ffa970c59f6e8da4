#!/usr/bin/env python3
"""Regenerate MANIFEST.json from the theorem names in lean/Verif/Props and the notes in tools/notes.json.

Theorems are named Cnn_...; a property with a `_refuted` or `_partial` theorem is `partial`, unless notes.json
overrides the status."""
import json, re, glob, os
root = os.path.dirname(os.path.dirname(os.path.abspath(__file__)))
notes = json.load(open(f'{root}/tools/notes.json'))
th = {}
for f in sorted(glob.glob(f'{root}/lean/Verif/Props/*.lean')):
    for m in re.finditer(r'^theorem ((C\d+)_\w+)', open(f).read(), re.M):
        th.setdefault(m.group(2), []).append('Verif.' + m.group(1))
claims = []
for l in open(f'{root}/properties.jsonl'):
    p = json.loads(l)['id']
    ts = th.get(p, [])
    if not ts:
        continue
    n = notes.get(p, {})
    st = n.get('status') or ('partial' if any(t.endswith('_refuted') or t.endswith('_partial') for t in ts) else 'proved')
    claims.append({'property': p, 'status': st, 'theorems': ts, 'note': n.get('note', '')})
json.dump({'claims': claims}, open(f'{root}/MANIFEST.json', 'w'), indent=1, ensure_ascii=False)
print({s: sum(c['status'] == s for c in claims) for s in ('proved', 'partial', 'not_applicable')})

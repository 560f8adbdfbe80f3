#!/usr/bin/env python3
"""Write MANIFEST.json: every theorem named Cxx_... in lean/Verif/Props is listed under property Cxx."""
import json, re, glob, os
here = os.path.dirname(os.path.abspath(__file__))
props = [json.loads(l) for l in open(here + '/properties.jsonl') if l.strip()]
notes = json.load(open(here + '/notes.json')) if os.path.exists(here + '/notes.json') else {}
thms = {}
for f in sorted(glob.glob(here + '/lean/Verif/**/*.lean', recursive=True)):
    for m in re.finditer(r'^theorem (C(\d+)_\w+)', open(f).read(), re.M):
        thms.setdefault('C' + m.group(2), []).append(m.group(1))
claims = []
for p in props:
    i = p['id']
    n = notes.get(i, {})
    ts = thms.get(i, [])
    if not ts:
        continue
    status = n.get('status') or ('partial' if any(t.endswith('_partial') for t in ts) else 'proved')
    claims.append({'property': i, 'status': status, 'theorems': ts, 'note': n.get('note', '')})
json.dump({'claims': claims}, open(here + '/MANIFEST.json', 'w'), indent=1)
print(len(claims), 'claims;', [p['id'] for p in props if p['id'] not in thms], 'missing')

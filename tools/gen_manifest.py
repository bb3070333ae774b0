#!/usr/bin/env python3
"""Regenerate MANIFEST.json (and lean/Verif.lean) from the theorem names C<nn>_* in lean/Verif/Props."""
import json, re, pathlib
root = pathlib.Path('/verif')
notes = json.load(open(root / 'tools/notes.json'))
thms = {}
for f in sorted((root / 'lean/Verif/Props').glob('*.lean')):
    for m in re.finditer(r'^theorem (C(\d\d)_\w+)', f.read_text(), re.M):
        thms.setdefault('C' + m.group(2), []).append('Fides.' + m.group(1))
claims = []
for l in open(root / 'properties.jsonl'):
    pid = json.loads(l)['id']
    ts = thms.get(pid, [])
    auto = 'partial' if any(t.endswith('_partial') or 'counterexample' in t for t in ts) else 'proved'
    st, note = notes.get(pid, (auto, ''))
    if st == 'auto': st = auto
    if not ts: continue
    claims.append({'property': pid, 'status': st, 'theorems': ts, 'note': note})
json.dump({'claims': claims}, open(root / 'MANIFEST.json', 'w'), indent=1)
mods = sorted(str(p.relative_to(root / 'lean'))[:-5].replace('/', '.') for p in (root / 'lean/Verif').rglob('*.lean'))
open(root / 'lean/Verif.lean', 'w').write(''.join(f'import {m}\n' for m in mods))
print(len(claims), 'claims', sum(len(c['theorems']) for c in claims), 'theorems')

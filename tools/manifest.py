#!/usr/bin/env python3
"""Regenerate MANIFEST.json from the theorem names in lean/Verif/Props/*.lean and tools/notes.json."""
import json, re, pathlib
root = pathlib.Path(__file__).resolve().parent.parent
notes = json.loads((root / 'tools/notes.json').read_text())
th = {}
for f in sorted((root / 'lean/Verif/Props').glob('*.lean')):
    ns = []
    for line in f.read_text().splitlines():
        m = re.match(r'namespace (\S+)', line)
        if m: ns.append(m.group(1))
        m = re.match(r'end (\S+)', line)
        if m and ns and ns[-1] == m.group(1): ns.pop()
        m = re.match(r'theorem (C\d\d)_(\w+)', line)
        if m: th.setdefault(m.group(1), []).append('.'.join(ns + [m.group(1) + '_' + m.group(2)]))
claims = []
for line in (root / 'properties.jsonl').read_text().splitlines():
    p = json.loads(line)['id']
    n = notes.get(p, {})
    st = n.get('status')
    if st is None:
        if p not in th: continue
        st = 'partial' if any(t.endswith('_partial') for t in th[p]) else 'proved'
    claims.append({'property': p, 'status': st, 'theorems': th.get(p, []), 'note': n.get('note', '')})
(root / 'MANIFEST.json').write_text(json.dumps({'claims': claims}, indent=1, ensure_ascii=False) + '\n')
for c in claims: print(c['property'], c['status'], len(c['theorems']))

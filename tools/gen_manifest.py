#!/usr/bin/env python3
"""Build MANIFEST.json from the theorem names C<nn>_... in lean/Verif/Props (run from anywhere)."""
import json, os, re, glob
root = os.path.dirname(os.path.dirname(os.path.abspath(__file__)))
ids = [json.loads(l)['id'] for l in open(os.path.join(root, 'properties.jsonl'))]
thms = {}
for f in sorted(glob.glob(os.path.join(root, 'lean/Verif/Props/*.lean'))):
    ns = []
    for line in open(f):
        m = re.match(r'namespace (\S+)', line)
        if m: ns.append(m.group(1))
        m = re.match(r'end (\S+)', line)
        if m and ns and ns[-1] == m.group(1): ns.pop()
        m = re.match(r'(?:protected )?theorem (C(\d\d)_\S+)', line)
        if m: thms.setdefault('C' + m.group(2), []).append('.'.join(ns + [m.group(1)]))
try:
    from manifest_notes import NOTES, STATUS
except ImportError:
    NOTES, STATUS = {}, {}
claims = []
for i in ids:
    t = thms.get(i, [])
    if not t and i not in STATUS: continue
    part = any(x.endswith('_partial') for x in t) or all('_refuted' in x for x in t)
    claims.append(dict(property=i, status=STATUS.get(i, 'partial' if part else 'proved'), theorems=t, note=NOTES.get(i, '')))
json.dump({'claims': claims}, open(os.path.join(root, 'MANIFEST.json'), 'w'), indent=1)
missing = [i for i in ids if i not in {c['property'] for c in claims}]
print(len(claims), 'claims;', sum(len(c['theorems']) for c in claims), 'theorems; missing:', missing)
print('no note:', [c['property'] for c in claims if not c['note']])

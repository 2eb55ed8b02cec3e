#!/usr/bin/env python3
"""Regenerate MANIFEST.json from the theorem names in lean/Verif/Props (prefix Cnn_) and tools/notes.json."""
import json, os, re, glob
root = os.path.dirname(os.path.dirname(os.path.abspath(__file__)))
props = [json.loads(l) for l in open(os.path.join(root, 'properties.jsonl'))]
notes = json.load(open(os.path.join(root, 'tools/notes.json')))
th = {}
for f in sorted(glob.glob(os.path.join(root, 'lean/Verif/Props/*.lean'))):
    ns = []
    for line in open(f):
        m = re.match(r'namespace (\S+)', line)
        if m: ns.append(m.group(1))
        m = re.match(r'end (\S+)', line)
        if m and ns and ns[-1] == m.group(1): ns.pop()
        m = re.match(r'(?:protected )?theorem (C\d+)_(\S+)', line)
        if m: th.setdefault(m.group(1), []).append('.'.join(ns + [m.group(1) + '_' + m.group(2)]))
claims = []
for p in props:
    i = p['id']; t = th.get(i, [])
    part = any(x.endswith('_partial') or x.endswith('_refuted') for x in t)
    status = 'not_applicable' if not t else ('partial' if part else 'proved')
    n = notes.get(i, '')
    if isinstance(n, dict):
        status = n.get('status', status); n = n.get('note', '')
    if not t: status = 'not_applicable'; n = n or 'not modelled yet'
    claims.append(dict(property=i, status=status, theorems=t, note=n))
json.dump({'claims': claims}, open(os.path.join(root, 'MANIFEST.json'), 'w'), indent=1)
import collections
print(collections.Counter(c['status'] for c in claims), sum(len(c['theorems']) for c in claims))

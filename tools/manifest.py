#!/usr/bin/env python3
"""Regenerates MANIFEST.json: the theorems of a property Cxx are the theorems in lean/Verif/Props whose
names start with Cxx_, plus EXTRA; the status and the note come from the table below."""
import json, re, glob, os
root = os.path.dirname(os.path.dirname(os.path.abspath(__file__)))
thms = {}
for p in sorted(glob.glob(root + '/lean/Verif/Props/*.lean')):
    ns = []
    for l in open(p):
        m = re.match(r'\s*namespace (\S+)', l)
        if m: ns.append(m.group(1))
        m = re.match(r'\s*end (\S+)', l)
        if m and ns and ns[-1] == m.group(1): ns.pop()
        m = re.match(r'\s*theorem (\S+)', l)
        if m:
            n = '.'.join(ns + [m.group(1)])
            q = re.match(r'(C\d+)_', m.group(1))
            if q: thms.setdefault(q.group(1), []).append(n)
T = json.load(open(root + '/tools/status.json'))
props = [json.loads(l)['id'] for l in open(root + '/properties.jsonl') if l.strip()]
claims = []
for c in props:
    st, note, *extra = T.get(c, ['', ''])
    ts = thms.get(c, []) + (extra[0] if extra else [])
    if not ts and st != 'not_applicable': print('missing', c); continue
    if not st: print('no status', c); continue
    claims.append({'property': c, 'status': st, 'theorems': ts, 'note': note})
for c in thms:
    if c not in props: print('theorem for unknown property', c)
json.dump({'claims': claims}, open(root + '/MANIFEST.json', 'w'), indent=1, ensure_ascii=False)
print(len(claims), 'claims')

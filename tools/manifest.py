#!/usr/bin/env python3
"""Rebuilds MANIFEST.json from the theorem names found in lean/Verif/Properties and tools/status.json."""
import json, re, glob, os
root = os.path.dirname(os.path.dirname(os.path.abspath(__file__)))
status = json.load(open(root + '/tools/status.json'))
thms = {}
for f in sorted(glob.glob(root + '/lean/Verif/Properties/*.lean')):
    ns = []
    for line in open(f):
        m = re.match(r'namespace (\S+)', line)
        if m: ns.append(m.group(1))
        m = re.match(r'end (\S+)', line)
        if m and ns and ns[-1] == m.group(1): ns.pop()
        m = re.match(r'(?:protected )?theorem ((?:C\d\d\d?_)+\S*)', line)
        if m:
            name = '.'.join(ns + [m.group(1)])
            for c in re.findall(r'(C\d\d\d?)_', m.group(1)):
                thms.setdefault(c, []).append(name)
claims = []
for line in open(root + '/properties.jsonl'):
    p = json.loads(line)
    i = p['id']
    t = thms.get(i, [])
    if not t:
        print('no theorem for', i)
        continue
    st = status.get(i)
    if st is None:
        print('no status for', i); continue
    claims.append({"property": i, "status": st[0], "theorems": t, "note": st[1]})
json.dump({"claims": claims}, open(root + '/MANIFEST.json', 'w'), indent=1)
print(len(claims), 'claims')

#!/usr/bin/env python3
"""Writes MANIFEST.json; checks that every theorem named exists in lean/Verif/Props."""
import json, re, glob, sys
P = {}
def c(pid, status, thms, note=""):
    P[pid] = (status, thms.split(), note)
exec(open('/verif/tools/claims.py').read())
names = {}
for f in glob.glob('/verif/lean/Verif/**/*.lean', recursive=True):
    ns = []
    for line in open(f):
        m = re.match(r'namespace (\S+)', line)
        if m: ns.append(m.group(1))
        m = re.match(r'end (\S+)', line)
        if m and ns and ns[-1] == m.group(1): ns.pop()
        m = re.match(r'(?:@\[.*\] )?theorem (\S+)', line)
        if m: names.setdefault(m.group(1), '.'.join(ns + [m.group(1)]))
ids = [json.loads(l)['id'] for l in open('/verif/properties.jsonl')]
bad = [t for (_, ts, _) in P.values() for t in ts if t not in names]
if bad: print('unknown theorems', bad); sys.exit(1)
out = []
for i in ids:
    if i not in P: print('no claim for', i); continue
    s, ts, n = P[i]
    out.append({"property": i, "status": s, "theorems": [names[t] for t in ts], "note": n})
json.dump({"claims": out}, open('/verif/MANIFEST.json', 'w'), indent=1)
print(len(out), 'claims')
# theorems in Props named C.. that no claim lists
listed = {t for (_, ts, _) in P.values() for t in ts}
print('unlisted:', sorted(t for t in names if re.match(r'(not_)?C\d\d', t) and t not in listed))

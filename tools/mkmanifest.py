#!/usr/bin/env python3
"""Collect theorem names from lean/Verif/Props by their C?? prefix and write MANIFEST.json.
Notes and status overrides are in tools/status.json."""
import json, re, glob, os
root = os.path.dirname(os.path.dirname(os.path.abspath(__file__)))
props = [json.loads(l)["id"] for l in open(f"{root}/properties.jsonl")]
found = {p: [] for p in props}
for f in sorted(glob.glob(f"{root}/lean/Verif/Props/**/*.lean", recursive=True)):
    ns = []
    for line in open(f):
        m = re.match(r"namespace (\S+)", line)
        if m: ns.append(m.group(1))
        m = re.match(r"end (\S+)", line)
        if m and ns and ns[-1] == m.group(1): ns.pop()
        m = re.match(r"theorem (C(\d+)_\w+)", line)
        if m: found["C" + m.group(2)].append(".".join(ns + [m.group(1)]))
st = json.load(open(f"{root}/tools/status.json"))
claims = []
for p in props:
    if not found[p]: continue
    s = st.get(p, {})
    claims.append({"property": p, "status": s.get("status", "proved"), "theorems": found[p], "note": s.get("note", "")})
json.dump({"claims": claims}, open(f"{root}/MANIFEST.json", "w"), indent=1, ensure_ascii=False)
print(len(claims), "claims;", "missing:", [p for p in props if not found[p]])

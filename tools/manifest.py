#!/usr/bin/env python3
# writes MANIFEST.json; theorem names are collected by their C-number prefix
import json, re, glob, os
root = os.path.join(os.path.dirname(os.path.abspath(__file__)), "..")
N = {}   # property -> (status, note)
exec(open(os.path.join(root, "tools", "manifest_notes.py")).read())
thms = {}
for f in sorted(glob.glob(os.path.join(root, "lean/Verif/*/*.lean"))):
    ns = []
    for line in open(f):
        m = re.match(r"namespace (\S+)", line)
        if m: ns.append(m.group(1))
        m = re.match(r"end (\S+)", line)
        if m and ns and ns[-1] == m.group(1): ns.pop()
        m = re.match(r"(?:protected )?theorem (C\d\d+)(?![0-9])(\w*)", line)
        if m: thms.setdefault(m.group(1), []).append(".".join(ns + [m.group(1) + m.group(2)]))
for line in open(os.path.join(root, "properties.jsonl")):
    pid = json.loads(line)["id"]
    if pid in thms and pid not in N: print("no status for", pid)
    if not thms.get(pid): print("no theorem for", pid)
claims = [{"property": p, "status": N[p][0], "theorems": thms.get(p, []), "note": N[p][1]} for p in sorted(N, key=lambda x: int(x[1:]))]
json.dump({"claims": claims}, open(os.path.join(root, "MANIFEST.json"), "w"), indent=1)
print(len(claims), "claims", sum(len(c["theorems"]) for c in claims), "theorems")

#!/usr/bin/env python3
"""Writes /verif/MANIFEST.json from the table below and checks that each named theorem occurs in the sources."""
import json, re, glob, os
root = os.path.dirname(os.path.dirname(os.path.abspath(__file__)))
T = {}
def claim(pid, status, ns, thms, note=""):
    T[pid] = dict(property=pid, status=status, theorems=[f"Verif.{t}" if "." in t and t[0].isupper() else f"Verif.{ns}.{t}" for t in thms.split()], note=note)
exec(open(os.path.join(root, "tools", "claims.py")).read())
names = set()
for f in glob.glob(root + "/lean/Verif/**/*.lean", recursive=True):
    ns = []
    for line in open(f):
        m = re.match(r"namespace (\S+)", line)
        if m: ns.append(m.group(1))
        m = re.match(r"end (\S+)", line)
        if m and ns and m.group(1) == ns[-1]: ns.pop()
        m = re.match(r"(?:private |protected )?theorem (\S+)", line)
        if m: names.add(".".join(ns + [m.group(1)]))
for c in T.values():
    for t in c["theorems"]:
        if t not in names: print("MISSING", c["property"], t)
props = [json.loads(l)["id"] for l in open(root + "/properties.jsonl")]
for p in props:
    if p not in T: print("no claim for", p)
json.dump({"claims": [T[p] for p in props if p in T]}, open(root + "/MANIFEST.json", "w"), indent=1)
print(len(T), "claims", sum(len(c["theorems"]) for c in T.values()), "theorems")

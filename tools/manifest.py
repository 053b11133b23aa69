#!/usr/bin/env python3
"""Writes MANIFEST.json from the claims below; checks that every theorem named
exists in the Lean sources and every property of properties.jsonl has a claim."""
import json, os, re, glob
root = os.path.dirname(os.path.dirname(os.path.abspath(__file__)))
exec(open(os.path.join(root, "tools", "claims.py")).read())
props = [json.loads(l)["id"] for l in open(os.path.join(root, "properties.jsonl"))]
src = {}
for f in glob.glob(os.path.join(root, "lean/Verif/**/*.lean"), recursive=True):
    ns = []
    for line in open(f):
        m = re.match(r"namespace (\S+)", line)
        if m: ns.append(m.group(1))
        m = re.match(r"end (\S+)", line)
        if m and ns and ns[-1] == m.group(1): ns.pop()
        m = re.match(r"(?:private )?theorem (\S+)", line)
        if m: src[".".join(ns + [m.group(1)])] = f
out = []
for pid in props:
    if pid not in CLAIMS:
        print("noclaim", pid, end=" "); continue
    status, thms, note = CLAIMS[pid]
    for t in thms:
        if t not in src: print("MISSING theorem", pid, t)
    out.append({"property": pid, "status": status, "theorems": thms, "note": note})
for t in CLAIMS:
    if t not in props: print("claim without property", t)
json.dump({"claims": out}, open(os.path.join(root, "MANIFEST.json"), "w"), indent=1)
# axiom check, to be run with: cd lean && lake env lean /tmp/AxiomCheck.lean
names = [t for c in out for t in c["theorems"]]
seen = set(); names = [n for n in names if not (n in seen or seen.add(n))]
with open("/tmp/AxiomCheck.lean", "w") as g:
    g.write("import Verif\n")
    for n in names: g.write("#print axioms %s\n" % n)

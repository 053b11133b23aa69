#!/usr/bin/env python3
"""Applies seeded mistakes to a scratch copy of the Lean project and records which theorems fail.
usage: mutate.py file-with-MUTANTS.py [first [last]]
MUTANTS is a list of (module path, definition, old text, new text, broken claims, comment)."""
import json, os, re, shutil, subprocess, sys
root = os.path.dirname(os.path.dirname(os.path.abspath(__file__)))
scratch = "/tmp/mut/lean"
exec(open(sys.argv[1]).read())
first = int(sys.argv[2]) if len(sys.argv) > 2 else 0
last = int(sys.argv[3]) if len(sys.argv) > 3 else len(MUTANTS)
os.makedirs("/tmp/mut", exist_ok=True)
subprocess.run(["rsync", "-a", "--delete", root + "/lean/", scratch + "/"]) if shutil.which("rsync") else \
    (shutil.rmtree(scratch, ignore_errors=True), shutil.copytree(root + "/lean", scratch))
def decl_at(path, line):
    name = None
    for i, l in enumerate(open(path), 1):
        if i > line: break
        m = re.match(r"(?:@\[[^\]]*\] )?(?:private )?(theorem|def|abbrev|instance|example|structure|inductive)\s*(\S*)", l)
        if m: name = m.group(2) if m.group(1) != "example" else "example@%d" % i
    return name
def levels(mod):
    """The module, then those that import it, then those that import these, at last everything; what is caught early need not be built."""
    imports = {}
    for d, _, fs in os.walk(os.path.join(scratch, "Verif")):
        for f in fs:
            if f.endswith(".lean"):
                p = os.path.join(d, f)
                imports[os.path.relpath(p, scratch)[:-5].replace("/", ".")] = set(re.findall(r"^import (Verif\S*)", open(p).read(), re.M))
    seen = {"Verif." + mod.replace("/", ".")}
    for _ in range(3):
        yield sorted(seen)
        seen |= {m for m, i in imports.items() if i & seen}
    yield []
for n, (mod, dfn, old, new, claims, comment) in list(enumerate(MUTANTS))[first:last]:
    path = os.path.join(scratch, "Verif", mod + ".lean")
    text = open(path).read()
    if text.count(old) < 1:
        print(n, "NOT FOUND", mod, dfn); continue
    k = 0
    if text.count(old) > 1:
        k = text.index("def " + dfn)
    i = text.index(old, k)
    open(path, "w").write(text[:i] + new + text[i+len(old):])
    for targets in levels(mod):
        r = subprocess.run(["lake", "build"] + targets, cwd=scratch, capture_output=True, text=True)
        if r.returncode: break
    out = r.stdout + r.stderr
    failed = []
    for m in re.finditer(r"error: (Verif/\S+\.lean):(\d+):", out):
        d = decl_at(os.path.join(scratch, m.group(1)), int(m.group(2)))
        if d and d not in failed: failed.append(d)
    open(path, "w").write(text)
    rec = {"definition": mod + ": " + dfn, "edit": comment or (old.strip() + "  ->  " + new.strip()), "breaks": claims,
           "failed": failed, "tightened": []}
    print(n, dfn, "SURVIVED" if r.returncode == 0 else "failed: " + ", ".join(failed))
    sys.stdout.flush()
    with open("/tmp/mut/log.jsonl", "a") as g: g.write(json.dumps(rec, ensure_ascii=False) + "\n")

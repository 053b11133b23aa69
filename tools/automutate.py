#!/usr/bin/env python3
"""Makes small random changes to model definitions (those whose comment cites C code), in a scratch copy, and
records which theorems fail.  usage: automutate.py seed count [prefix ...]   -> /tmp/mut/auto.jsonl"""
import json, os, random, re, signal, subprocess, sys
root = os.path.dirname(os.path.dirname(os.path.abspath(__file__)))
scratch = "/tmp/mut/lean"
seed, count = int(sys.argv[1]), int(sys.argv[2])
prefixes = sys.argv[3:] or [""]
random.seed(seed)
subprocess.run(["rm", "-rf", scratch]); subprocess.run(["cp", "-a", root + "/lean", scratch])
OPS = [(r" ≤ ", " < "), (r" < ", " ≤ "), (r" ≥ ", " > "), (r" > ", " ≥ "), (r" \+ 1\b", ""), (r"\btrue\b", "false"), (r"\bfalse\b", "true"),
       (r" && ", " || "), (r" \|\| ", " && "), (r" ∧ ", " ∨ "), (r" ∨ ", " ∧ "), (r" ≠ ", " = "), (r" != ", " == "), (r" == ", " != "),
       (r" \+ ", " - "), (r" - ", " + "), (r" \* ", " + "), (r"\.err\b", ".ub"), (r"\.ub\b", ".err"), (r"\bnone\b", "none_"),
       (r"(?<![\w.])(\d+)(?![\w.])", None)]
cands = []
for d, _, fs in os.walk(root + "/lean/Verif"):
    for f in fs:
        rel = os.path.relpath(os.path.join(d, f), root + "/lean/Verif")
        if not f.endswith(".lean") or not any(rel.startswith(p) for p in prefixes): continue
        text = open(os.path.join(d, f)).read()
        for m in re.finditer(r"/--((?:(?!-/).)*?\.c:\d(?:(?!-/).)*?)-/\n(?:@\[[^\]]*\]\s*)?def (\S+)((?:(?!\n\n).)*)", text, re.S):
            start, body = m.start(3), m.group(3)
            k = body.find(":=") if ":=" in body else body.find("\n")
            if k < 0: continue
            for pat, rep in OPS:
                for x in re.finditer(pat, body[k:]):
                    i = start + k + x.start()
                    new = str(int(x.group(1)) + 1) if rep is None else rep
                    if new == "none_": continue
                    cands.append((rel, m.group(2), i, x.group(0), new))
random.shuffle(cands)
def decl_at(path, line):
    name = None
    for i, l in enumerate(open(path), 1):
        if i > line: break
        m = re.match(r"(?:@\[[^\]]*\] )?(?:private )?(theorem|def|abbrev|instance|example|structure|inductive)\s*(\S*)", l)
        if m: name = m.group(2) if m.group(1) != "example" else "example@%d" % i
    return name
def build():
    """builds until the first module fails"""
    r = subprocess.Popen(["lake", "build"], cwd=scratch, stdout=subprocess.PIPE, stderr=subprocess.STDOUT, text=True, start_new_session=True)
    out = ""
    for line in r.stdout:
        out += line
        if "Lean exited with code" in line:
            os.killpg(r.pid, signal.SIGKILL); break
    r.wait()
    return r.returncode, out
def restore():
    """the build directory as it was"""
    subprocess.run(["rm", "-rf", scratch + "/.lake/build"]); subprocess.run(["cp", "-a", pristine, scratch + "/.lake/build"])
pristine = "/tmp/mut/pristine"
subprocess.run(["rm", "-rf", pristine]); subprocess.run(["cp", "-a", scratch + "/.lake/build", pristine])
restore()
print(len(cands), "candidates"); done = 0
for rel, name, i, old, new in cands:
    if done >= count: break
    path = os.path.join(scratch, "Verif", rel)
    text = open(path).read()
    mut = text[:i] + new + text[i+len(old):]
    open(path, "w").write(mut)
    code, out = build()
    failed = []
    for m in re.finditer(r"error: (Verif/\S+\.lean):(\d+):", out):
        d = decl_at(os.path.join(scratch, m.group(1)), int(m.group(2)))
        if d and d not in failed: failed.append(d)
    open(path, "w").write(text); restore()
    if name in failed and code != 0:
        continue   # does not typecheck
    done += 1
    a = mut.rfind("\n", 0, i) + 1; b = mut.find("\n", i)
    a0 = text.rfind("\n", 0, i) + 1; b0 = text.find("\n", i + len(old))
    edit = text[a0:b0].strip() + "  ->  " + mut[a:b].strip()
    rec = {"definition": rel[:-5] + ": " + name, "edit": edit, "breaks": [], "failed": failed, "tightened": []}
    print(done, rel, name, "SURVIVED" if code == 0 else "failed " + ",".join(failed)[:100], "|", edit if code == 0 else ""); sys.stdout.flush()
    with open("/tmp/mut/auto.jsonl", "a") as g: g.write(json.dumps(rec, ensure_ascii=False) + "\n")

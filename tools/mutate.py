#!/usr/bin/env python3
"""Seeded wrong programs: applies each edit of a mutants file (python list of dicts def/file/old/new/edit/claims/breaks)
to a scratch copy of the Lean project, rebuilds, and appends one line per attempt to seeded/LOG.jsonl.
usage: mutate.py mutants.py [scratch-dir] [names...]"""
import sys, os, re, json, subprocess, shutil
root = os.path.dirname(os.path.dirname(os.path.abspath(__file__)))
spec = sys.argv[1]
scratch = sys.argv[2] if len(sys.argv) > 2 else "/tmp/mut"
only = sys.argv[3:]
ns = {}
exec(open(spec).read(), ns)
muts = ns["mutants"]
src = os.path.join(root, "lean")
def sync():
    subprocess.run(["rsync", "-a", "--delete", src + "/", scratch + "/"], check=True) if shutil.which("rsync") else (
        shutil.rmtree(scratch, ignore_errors=True), subprocess.run(["cp", "-a", src, scratch], check=True))
def decl_at(path, line):
    ls = open(path).read().split("\n")
    for i in range(min(line, len(ls)) - 1, -1, -1):
        m = re.match(r"\s*(?:@\[[^\]]*\]\s*)?(?:private |protected )?(theorem|def|example|structure|inductive|instance|abbrev)\s*(\S*)", ls[i])
        if m: return m.group(2) if m.group(1) != "example" else f"example@{os.path.basename(path)}:{i+1}"
    return "?"
deps = {}
for d, _, fs in os.walk(os.path.join(src, "Verif")):
    for f in fs:
        if f.endswith(".lean"):
            p = os.path.join(d, f)
            mod = os.path.relpath(p, src)[:-5].replace("/", ".")
            deps[mod] = re.findall(r"^import (Verif\.\S+)", open(p).read(), re.M)
def lost(failed):
    bad = set(failed)
    ch = True
    while ch:
        ch = False
        for m, ds in deps.items():
            if m not in bad and any(x in bad for x in ds): bad.add(m); ch = True
    return bad
claims = {c["property"]: [t.split(".")[-1] for t in c["theorems"]] for c in json.load(open(os.path.join(root, "MANIFEST.json")))["claims"]}
where = {}
for m in deps:
    for t in re.findall(r"theorem (C\d\d+_\S+)", open(os.path.join(src, m.replace(".", "/") + ".lean")).read()): where[t] = m
sync()
for mu in muts:
    if only and mu["name"] not in only: continue
    p = os.path.join(scratch, "Verif", mu["file"])
    orig = open(p).read()
    if orig.count(mu["old"]) < 1: print("NOT FOUND", mu["name"]); continue
    open(p, "w").write(orig.replace(mu["old"], mu["new"], 1))
    try:
        r = subprocess.run(["lake", "build"], cwd=scratch, capture_output=True, text=True, timeout=2400)
        out = r.stdout + r.stderr
    except subprocess.TimeoutExpired:
        out = "TIMEOUT"
    errs = sorted(set((a, int(b)) for a, b in re.findall(r"error: (Verif/\S+\.lean):(\d+):", out)))
    failed = []
    for a, b in errs:
        d = decl_at(os.path.join(scratch, a), b)
        if d not in failed: failed.append(d)
    mods = lost({a[:-5].replace("/", ".") for a, _ in errs})
    gone = [t for c in mu["claims"] for t in claims.get(c, []) if where.get(t) in mods]
    modelbad = any(a.startswith("Verif/Model") or a.startswith("Verif/Spec") for a, _ in errs)
    verdict = "invalid edit (model does not compile)" if modelbad else ("caught" if gone else "SURVIVED")
    print(mu["name"], verdict, failed[:6], "TIMEOUT" if out == "TIMEOUT" else "", flush=True)
    open(p, "w").write(orig)
    if not modelbad:
        with open(os.path.join(root, "seeded/LOG.jsonl"), "a") as f:
            f.write(json.dumps({"name": mu["name"], "definition": mu["def"], "file": mu["file"], "edit": mu["edit"], "breaks": mu["breaks"], "claims": mu["claims"],
                "verdict": verdict, "failed_directly": failed[:12], "claim_theorems_not_proved": gone, "tightened": mu.get("tightened", [])}, ensure_ascii=False) + "\n")

#!/usr/bin/env python3
"""Like mutate.py, but precise about which claim theorems an edit breaks: in the scratch copy (never in the project) every proof that fails is replaced by the
placeholder, until everything the listed claims need compiles again; a claim theorem counts as broken only if its own proof, or one it depends on, was replaced (asked from Lean's list of axioms).
usage: mutate2.py mutants.py scratch-dir [names...]      (appends to seeded/LOG.jsonl, "check": "precise")"""
import sys, os, re, json, subprocess, shutil
root = os.path.dirname(os.path.dirname(os.path.abspath(__file__)))
spec, scratch, only = sys.argv[1], sys.argv[2], sys.argv[3:]
ns = {}
exec(open(spec).read(), ns)
muts = ns["mutants"]
src = os.path.join(root, "lean")
HOLE = "so" + "rry"
if not os.path.exists(scratch): subprocess.run(["cp", "-a", src, scratch], check=True)
def restore():
    for d, _, fs in os.walk(os.path.join(src, "Verif")):
        for f in fs:
            p = os.path.join(d, f); q = os.path.join(scratch, os.path.relpath(p, src))
            t = open(p).read()
            if not os.path.exists(q) or open(q).read() != t:
                os.makedirs(os.path.dirname(q), exist_ok=True); open(q, "w").write(t)
DECL = re.compile(r"(?:@\[[^\]]*\]\s*)?(?:private |protected |noncomputable )*(theorem|lemma|def|example|structure|inductive|instance|abbrev)\b\s*([^\s:({\[]*)")
TOP = re.compile(r"(theorem|lemma|def|example|structure|inductive|instance|abbrev|namespace|end\b|section|open\b|variable|set_option|/-|@\[|private|protected|local|attribute|#|include|omit|noncomputable|mutual|deriving)")
def cut(path, line):
    """replace the proof of the declaration around `line`; returns its name, or None if that is impossible"""
    ls = open(path).read().split("\n")
    i = min(line, len(ls)) - 1
    while i >= 0 and not DECL.match(ls[i]): i -= 1
    if i < 0: return None
    m = DECL.match(ls[i]); kind, name = m.group(1), m.group(2)
    if kind == "example": name = f"example@{os.path.basename(path)}:{i+1}"
    if kind in ("structure", "inductive"): return None
    j = i + 1
    while j < len(ls) and not TOP.match(ls[j]): j += 1
    text = "\n".join(ls[i:j]); depth = 0; pos = None
    for k, c in enumerate(text):
        if c in "([{⟨": depth += 1
        elif c in ")]}⟩": depth -= 1
        elif depth == 0 and text.startswith(":=", k) and not re.search(r"(let|have) \S+( : [^\n]*)? $", text[:k]): pos = k; break
        elif depth == 0 and text.startswith("\n  | ", k) and kind != "instance": pos = k; break
        elif depth == 0 and text.startswith(" where", k) and kind in ("theorem", "instance", "def") and not text.startswith(" where\n  |", k): pos = k; break
    if pos is None: return None
    new = text[:pos].rstrip() + (" := by\n  " + HOLE if kind in ("theorem", "lemma", "example") else " := " + HOLE)
    if new == text.rstrip(): return None
    pad = [""] * (j - i - len(new.split("\n")))
    ls[i:j] = new.split("\n") + pad
    open(path, "w").write("\n".join(ls))
    return name
man = {c["property"]: c["theorems"] for c in json.load(open(os.path.join(root, "MANIFEST.json")))["claims"]}
where = {}
for d, _, fs in os.walk(os.path.join(src, "Verif")):
    for f in fs:
        if f.endswith(".lean"):
            p = os.path.join(d, f); mod = os.path.relpath(p, src)[:-5].replace("/", ".")
            for t in re.findall(r"^\s*(?:private |protected )?theorem (C\d\d+_[^\s:({\[]*)", open(p).read(), re.M): where[t] = mod
for mu in muts:
    if only and mu["name"] not in only: continue
    restore()
    p = os.path.join(scratch, "Verif", mu["file"])
    orig = open(p).read()
    if orig.count(mu["old"]) < 1: print("NOT FOUND", mu["name"], flush=True); continue
    open(p, "w").write(orig.replace(mu["old"], mu["new"], 1))
    thms = [t for c in mu["claims"] for t in man.get(c, [])]
    mods = sorted({where[t.split(".")[-1]] for t in thms if t.split(".")[-1] in where})
    failed, untested, bad, why, compiled = [], [], False, "", False
    for rnd in range(12):
        try:
            r = subprocess.run(["lake", "build"] + mods, cwd=scratch, capture_output=True, text=True, timeout=1500)
            out = r.stdout + r.stderr
        except subprocess.TimeoutExpired: why = "timeout"; break
        if r.returncode == 0: compiled = True; break
        errs = sorted(set((a, int(b)) for a, b in re.findall(r"error: (Verif/\S+\.lean):(\d+):", out)), key=lambda x: (x[0], -x[1]))
        if not errs:
            # a concrete case that has become false may exhaust the memory: leave out the evaluated cases of that module (they are not counted as broken)
            gone = [m.replace(".", "/") + ".lean" for m in re.findall(r"^✖ \[\d+/\d+\] Building (Verif\S*)", out, re.M)]
            n0 = len(untested)
            for a in gone:
                if a.startswith("Verif/Model") or a.startswith("Verif/Spec"): continue
                f = os.path.join(scratch, a)
                for k, l in reversed(list(enumerate(open(f).read().split("\n"), 1))):
                    if "decide +kernel" in l:
                        n = cut(f, k)
                        if n: untested.append(n)
            if len(untested) == n0: why = "killed"; break
            continue
        if any(a.startswith("Verif/Model") or a.startswith("Verif/Spec") for a, _ in errs): bad = True; break
        done = set(); stuck = False
        for a, b in errs:
            n = cut(os.path.join(scratch, a), b)
            if n is None:
                # already cut in this round, or can not be cut
                continue
            done.add(n)
            if n not in failed: failed.append(n)
        if not done: why = "can not isolate " + str(errs[:2]); break
    broken = []
    if compiled:
        q = os.path.join(scratch, "Ax.lean")
        open(q, "w").write("".join(f"import {m}\n" for m in mods) + "".join(f"#print axioms {t}\n" for t in thms))
        o = subprocess.run(["lake", "env", "lean", "Ax.lean"], cwd=scratch, capture_output=True, text=True)
        o = re.sub(r"\s+", " ", o.stdout + o.stderr)
        for t in thms:
            if t.split(".")[-1] in untested: continue
            m = re.search(r"'" + re.escape(t) + r"' depends on axioms: \[([^\]]*)\]", o)
            if m and HOLE + "Ax" in m.group(1): broken.append(t)
            elif not m and ("'" + t + "' does not depend") not in o: broken.append(t)
    verdict = "invalid edit (model does not compile)" if bad else ("undecided: " + why if not compiled else ("caught" if broken else "SURVIVED"))
    print(mu["name"], verdict, failed[:6], broken[:4], flush=True)
    if not bad:
        with open(os.path.join(root, "seeded/LOG.jsonl"), "a") as f:
            f.write(json.dumps({"name": mu["name"], "definition": mu["def"], "file": mu["file"], "edit": mu["edit"], "breaks": mu["breaks"], "claims": mu["claims"], "check": "precise",
                "verdict": verdict, "failed_directly": failed[:12], "not_evaluated": untested, "claim_theorems_not_proved": broken, "tightened": mu.get("tightened", [])}, ensure_ascii=False) + "\n")
restore()

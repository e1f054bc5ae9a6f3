#!/usr/bin/env python3
"""Regenerates lean/Verif.lean (imports) and MANIFEST.json (from tools/claims.py)."""
import json, os, re, subprocess, sys
root = os.path.dirname(os.path.dirname(os.path.abspath(__file__)))
mods = []
for d in ["Model", "Spec", "Proofs", "Props"]:
    p = os.path.join(root, "lean/Verif", d)
    if os.path.isdir(p):
        for f in sorted(os.listdir(p)):
            if f.endswith(".lean"):
                mods.append(f"Verif.{d}.{f[:-5]}")
open(os.path.join(root, "lean/Verif.lean"), "w").write("".join(f"import {m}\n" for m in mods))
ns = {}
exec(open(os.path.join(root, "tools/claims.py")).read(), ns)
thms = set()
dup = set()
for d, _, fs in os.walk(os.path.join(root, "lean/Verif")):
    for f in fs:
        txt = open(os.path.join(d, f)).read()
        stack = []
        for line in txt.split("\n"):
            m = re.match(r"\s*namespace\s+(\S+)", line)
            if m: stack.append(m.group(1)); continue
            m = re.match(r"\s*(?:noncomputable )?(?:section|mutual)\b\s*(\S*)", line)
            if m: stack.append(None); continue
            m = re.match(r"\s*end\b\s*(\S*)\s*$", line)
            if m and stack: stack.pop(); continue
            m = re.match(r"\s*(?:@\[[^\]]*\]\s*)?(?:private\s+|protected\s+)?theorem\s+(\S+)", line)
            if m: thms.add(".".join([s for s in stack if s] + [m.group(1)]))
claims = []
for pid, (status, names, note) in ns["claims"].items():
    full = []
    for n in names:
        c = [t for t in thms if t == n or t.endswith("." + n)]
        if len(c) != 1: print("PROBLEM", pid, n, c)
        full += c
    claims.append({"property": pid, "status": status, "theorems": full, "note": note})
props = [json.loads(l)["id"] for l in open(os.path.join(root, "properties.jsonl")) if l.strip()]
for p in props:
    if p not in ns["claims"]: print("no claim for", p)
for t in thms:
    b = t.split(".")[-1]
    m = re.match(r"C(\d\d+)_", b)
    if m and not any(t in c["theorems"] for c in claims): print("theorem not in manifest:", t)
json.dump({"claims": claims}, open(os.path.join(root, "MANIFEST.json"), "w"), indent=1, ensure_ascii=False)

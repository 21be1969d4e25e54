#!/usr/bin/env python3
"""Regenerate MANIFEST.json.

Every theorem `cNN_...` in lean/Verif/Props belongs to property CNN; tools/claims.json gives the
status and the note of each property and may list further theorems.
"""
import json, re, pathlib
root = pathlib.Path(__file__).resolve().parent.parent
claims = json.load(open(root / "tools" / "claims.json"))
props = [json.loads(l)["id"] for l in open(root / "properties.jsonl") if l.strip()]
src = {}
for f in sorted((root / "lean" / "Verif").rglob("*.lean")):
    ns = []
    for line in f.read_text().splitlines():
        m = re.match(r"namespace\s+(\S+)", line)
        if m: ns.append(m.group(1))
        m = re.match(r"end\s+(\S+)", line)
        if m and ns and ns[-1] == m.group(1): ns.pop()
        m = re.match(r"(?:protected )?theorem\s+([^\s:({\[]+)", line)
        if m: src[".".join(ns + [m.group(1)])] = f
by = {}
for t, f in src.items():
    if "/Props/" in str(f):
        m = re.match(r"c(\d\d+)_", t.split(".")[-1])
        if m and "C" + m.group(1) in props: by.setdefault("C" + m.group(1), []).append(t)
out = []
for pid in props:
    c = claims.get(pid)
    th = list(by.get(pid, []))
    if c is None:
        if th: print("no claim entry for", pid)
        out.append({"property": pid, "status": "partial", "theorems": th, "note": "not modelled yet" if not th else ""})
        continue
    for t in c.get("theorems", []):
        if t not in src: print("MISSING theorem", t, "for", pid)
        elif t not in th: th.append(t)
    if not th and c["status"] != "not_applicable": print("no theorem for", pid)
    if c["status"] == "proved" and th and all(t.endswith("_partial") for t in th): print("status?", pid)
    out.append({"property": pid, "status": c["status"], "theorems": th, "note": c["note"]})
json.dump({"claims": out}, open(root / "MANIFEST.json", "w"), indent=1)
print(sum(1 for o in out if o["theorems"]), "of", len(out), "properties have theorems;",
      sum(len(o["theorems"]) for o in out), "theorems")

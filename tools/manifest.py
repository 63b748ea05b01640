#!/usr/bin/env python3
"""Regenerate MANIFEST.json and lean/Verif.lean from the theorems found in lean/Verif/Props."""
import json, os, re, glob

ROOT = os.path.dirname(os.path.dirname(os.path.abspath(__file__)))
NOTES = json.load(open(os.path.join(ROOT, "tools/notes.json")))

claims = []
props = [json.loads(l) for l in open(os.path.join(ROOT, "properties.jsonl"))]
mods = sorted(glob.glob(os.path.join(ROOT, "lean/Verif/Props/*.lean")))
theorems = {}
for m in mods:
    for name in re.findall(r"^theorem (C\d+_\w+)", open(m).read(), re.M):
        theorems.setdefault(name.split("_")[0], []).append(name)
for p in props:
    i = p["id"]
    ths = theorems.get(i, [])
    if not ths:
        continue
    n = NOTES.get(i, {})
    status = n.get("status", "partial" if any(t.endswith("_partial") for t in ths) else "proved")
    claims.append({"property": i, "status": status, "theorems": ["Cdtb." + t for t in ths], "note": n.get("note", p["title"])})
json.dump({"claims": claims}, open(os.path.join(ROOT, "MANIFEST.json"), "w"), indent=1)
with open(os.path.join(ROOT, "lean/Verif.lean"), "w") as f:
    for m in mods:
        f.write("import Verif.Props." + os.path.basename(m)[:-5] + "\n")
ids = {p["id"] for p in props}
print(len(claims), "claims;", sum(len(c["theorems"]) for c in claims), "theorems; missing:", sorted(ids - {c["property"] for c in claims}), "unknown:", sorted(set(theorems) - ids))

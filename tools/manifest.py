#!/usr/bin/env python3
"""Regenerates MANIFEST.json from the theorem names `Cnn_*` in lean/Verif/Props and tools/notes.json."""
import json, os, re, glob
root = os.path.dirname(os.path.dirname(os.path.abspath(__file__)))
props = [json.loads(l) for l in open(os.path.join(root, "properties.jsonl")) if l.strip()]
notes = json.load(open(os.path.join(root, "tools", "notes.json")))
thms = {}
for f in sorted(glob.glob(os.path.join(root, "lean/Verif/Props/*.lean"))):
    for m in re.finditer(r"^theorem (C(\d\d\d?)_\w+)", open(f).read(), re.M):
        thms.setdefault("C" + m.group(2), []).append("Srep." + m.group(1))
claims = []
for p in props:
    i = p["id"]
    if i not in notes:
        continue
    n = notes[i]
    claims.append({"property": i, "status": n["status"], "theorems": thms.get(i, []), "note": n["note"]})
    if not thms.get(i) and n["status"] != "not_applicable":
        print("no theorem for", i)
for i in thms:
    if i not in notes:
        print("no note for", i, thms[i])
json.dump({"claims": claims}, open(os.path.join(root, "MANIFEST.json"), "w"), indent=1, ensure_ascii=False)
print(len(claims), "claims", sum(len(c["theorems"]) for c in claims), "theorems")

#!/usr/bin/env python3
"""Write MANIFEST.json: theorems are found by their name prefix Cnn_ in lean/Verif/Props."""
import json, re, glob, os
root = os.path.dirname(os.path.dirname(os.path.abspath(__file__)))
props = [json.loads(l) for l in open(f"{root}/properties.jsonl")]
thms = {}
for f in sorted(glob.glob(f"{root}/lean/Verif/Props/*.lean")):
    for m in re.finditer(r"^theorem (C\d\d+)_(\w+)", open(f).read(), re.M):
        thms.setdefault(m.group(1), []).append(f"Mau.{m.group(1)}_{m.group(2)}")
notes = json.load(open(f"{root}/tools/notes.json"))
claims = []
for p in props:
    i = p["id"]
    n = notes.get(i, {})
    ts = thms.get(i, [])
    status = n.get("status") or ("proved" if ts else None)
    if status is None:
        continue
    claims.append({"property": i, "status": status, "theorems": ts, "note": n.get("note", p["title"])})
json.dump({"claims": claims}, open(f"{root}/MANIFEST.json", "w"), indent=1)
print(len(claims), "claims", [p["id"] for p in props if p["id"] not in {c["property"] for c in claims}])

#!/usr/bin/env python3
"""Regenerates MANIFEST.json: collects the theorems named C<nn>_* in lean/Verif/Props and adds status and notes."""
import json, re, glob, os
root = os.path.dirname(os.path.dirname(os.path.abspath(__file__)))
props = [json.loads(l) for l in open(f"{root}/properties.jsonl")]
thms = {}
for f in sorted(glob.glob(f"{root}/lean/Verif/Props/*.lean")):
    for m in re.finditer(r"^(?:theorem|lemma)\s+((C\d+)_\S+)", open(f).read(), re.M):
        thms.setdefault(m.group(2), []).append("Verif.Props." + m.group(1))
notes = json.load(open(f"{root}/tools/notes.json"))
claims = []
for p in props:
    i = p["id"]
    t = thms.get(i, [])
    n = notes.get(i, {})
    if not t and not n:
        continue
    status = n.get("status") or ("partial" if any(x.endswith(("_partial", "_false")) for x in t) else "proved")
    claims.append({"property": i, "status": status, "theorems": t, "note": n.get("note", p["title"])})
json.dump({"claims": claims}, open(f"{root}/MANIFEST.json", "w"), indent=1)
print(len(claims), "claims,", sum(len(c["theorems"]) for c in claims), "theorems; missing:",
      [p["id"] for p in props if p["id"] not in {c["property"] for c in claims}])

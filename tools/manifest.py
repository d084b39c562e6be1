#!/usr/bin/env python3
"""Regenerate MANIFEST.json from the theorem names in lean/Verif/Props and tools/status.json."""
import json, pathlib, re
root = pathlib.Path(__file__).resolve().parent.parent
thms = {}
for f in sorted((root / "lean/Verif/Props").glob("*.lean")):
    ns = "Verif.Props"
    for m in re.finditer(r"^theorem (c(\d\d+)_\w+)", f.read_text(), re.M):
        thms.setdefault("C" + m.group(2), []).append(ns + "." + m.group(1))
status = json.loads((root / "tools/status.json").read_text())
ids = [json.loads(l)["id"] for l in (root / "properties.jsonl").read_text().splitlines() if l.strip()]
claims = []
for i in ids:
    if i not in status:
        print("no status:", i)
        continue
    st, note = status[i]
    if st == "not_applicable":
        claims.append({"property": i, "status": st, "theorems": [], "note": note})
        continue
    if i not in thms:
        print("no theorem:", i)
        continue
    claims.append({"property": i, "status": st, "theorems": thms[i], "note": note})
(root / "MANIFEST.json").write_text(json.dumps({"claims": claims}, indent=1) + "\n")
print(len(claims), "claims")

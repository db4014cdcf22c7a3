#!/usr/bin/env python3
"""Regenerate MANIFEST.json from the theorems named C<nn>_* under lean/Verif/Props.

Status and note of a property come from tools/notes.json; the status defaults to "proved".
"""
import json
import pathlib
import re

root = pathlib.Path(__file__).resolve().parent.parent
props = [json.loads(l) for l in (root / "properties.jsonl").read_text().splitlines() if l.strip()]
notes = json.loads((root / "tools" / "notes.json").read_text())
found = {}
for path in sorted((root / "lean" / "Verif" / "Props").glob("*.lean")):
    for name in re.findall(r"^theorem (C\d+_\w+)", path.read_text(), re.M):
        found.setdefault(name.split("_")[0], []).append("Poppy." + name)
claims = []
for p in props:
    n = notes.get(p["id"], {})
    thms = found.get(p["id"], [])
    status = n.get("status", "proved" if thms else None)
    if status is None:
        continue
    claims.append({"property": p["id"], "status": status, "theorems": thms, "note": n.get("note", "")})
(root / "MANIFEST.json").write_text(json.dumps({"claims": claims}, indent=1, ensure_ascii=False) + "\n")
print(len(claims), "claims;", "missing:", [p["id"] for p in props if p["id"] not in {c["property"] for c in claims}])

# The audit file: the axioms of every theorem of the manifest.
audit = ["import Verif.Props." + p.stem for p in sorted((root / "lean" / "Verif" / "Props").glob("*.lean"))]
audit += ["", "/-! The axioms used by the theorems of MANIFEST.json (generated by tools/gen_manifest.py). -/", ""]
audit += ["#print axioms " + t for c in claims for t in c["theorems"]]
(root / "lean" / "Verif" / "Audit.lean").write_text("\n".join(audit) + "\n")

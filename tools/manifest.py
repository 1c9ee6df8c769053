#!/usr/bin/env python3
"""Write /verif/MANIFEST.json and lean/Verif.lean from the Lean sources.

Every theorem named Cxx_... under lean/Verif/Props is listed for property Cxx.
STATUS (tools/status.json) gives the status and the note of each property.
"""
import json, re, pathlib
root = pathlib.Path(__file__).resolve().parent.parent
lean = root / "lean"
files = sorted((lean / "Verif").rglob("*.lean"))
mods = [".".join(f.relative_to(lean).with_suffix("").parts) for f in files]
(lean / "Verif.lean").write_text("".join(f"import {m}\n" for m in mods))
thms = {}
for f in files:
    if "Props" not in f.parts: continue
    ns = []
    for line in f.read_text().splitlines():
        m = re.match(r"namespace (\S+)", line)
        if m: ns.append(m.group(1))
        m = re.match(r"end (\S+)", line)
        if m and ns and ns[-1] == m.group(1): ns.pop()
        m = re.match(r"theorem (C\d\d+_\S+)", line)
        if m: thms.setdefault(m.group(1).split("_")[0], []).append(".".join(ns + [m.group(1)]))
status = json.loads((root / "tools/status.json").read_text())
props = [json.loads(l)["id"] for l in (root / "properties.jsonl").read_text().splitlines()]
claims = []
for p in props:
    if p not in status: continue
    s = status[p]
    claims.append({"property": p, "status": s["status"], "theorems": thms.get(p, []), "note": s["note"]})
    if s["status"] != "not_applicable" and not thms.get(p): print("no theorems for", p)
for p in thms:
    if p not in status: print("no status for", p)
(root / "MANIFEST.json").write_text(json.dumps({"claims": claims}, indent=1) + "\n")
print(len(claims), "claims", sum(len(v) for v in thms.values()), "theorems")

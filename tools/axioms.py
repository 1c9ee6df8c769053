#!/usr/bin/env python3
"""Write /verif/AXIOMS.md: the axioms each theorem of MANIFEST.json depends on.

Needs a finished `lake build` in /verif/lean.
"""
import json, pathlib, re, subprocess, tempfile
root = pathlib.Path(__file__).resolve().parent.parent
claims = json.loads((root / "MANIFEST.json").read_text())["claims"]
names = [t for c in claims for t in c["theorems"]]
with tempfile.NamedTemporaryFile("w", suffix=".lean", delete=False) as f:
    f.write("import Verif\n" + "".join(f"#print axioms {n}\n" for n in names))
out = subprocess.run(["lake", "env", "lean", f.name], cwd=root / "lean", capture_output=True, text=True).stdout
out = re.sub(r"\n\s+", " ", out)
sets = {}
for line in out.splitlines():
    m = re.match(r"'(\S+)' depends on axioms: \[(.*)\]", line)
    if m: sets.setdefault(m.group(2), []).append(m.group(1)); continue
    m = re.match(r"'(\S+)' does not depend on any axioms", line)
    if m: sets.setdefault("none", []).append(m.group(1)); continue
    print("?", line)
seen = sum(len(v) for v in sets.values())
assert seen == len(names), (seen, len(names))
text = "# Axioms of the manifest theorems\n\nWritten by `tools/axioms.py` from `#print axioms`.\n"
for s in sorted(sets, key=len):
    text += f"\n## {s} ({len(sets[s])})\n\n" + ", ".join(f"`{n}`" for n in sets[s]) + "\n"
(root / "AXIOMS.md").write_text(text)
print({s: len(v) for s, v in sets.items()})

#!/usr/bin/env python3
"""Writes MANIFEST.json and lean/Verif/Axioms.lean from tools/claims.txt.

claims.txt: blocks "Cnn status | note" followed by indented theorem names."""
import json, os, re
root = os.path.dirname(os.path.dirname(os.path.abspath(__file__)))
claims = []
cur = None
for line in open(os.path.join(root, "tools", "claims.txt")):
    line = line.rstrip("\n")
    if not line.strip():
        continue
    if line.startswith(" "):
        cur["theorems"] += ["Thema.Props." + t for t in line.split()]
    else:
        head, note = line.split("|", 1)
        pid, status = head.split()
        cur = {"property": pid, "status": status, "theorems": [], "note": note.strip()}
        claims.append(cur)
json.dump({"claims": claims}, open(os.path.join(root, "MANIFEST.json"), "w"), indent=1)
open(os.path.join(root, "MANIFEST.json"), "a").write("\n")
props = sorted(f[:-5] for f in os.listdir(os.path.join(root, "lean/Verif/Props")) if f.endswith(".lean"))
with open(os.path.join(root, "lean/Verif/Axioms.lean"), "w") as f:
    for p in props:
        f.write(f"import Verif.Props.{p}\n")
    f.write("\n/-! Axioms of every property theorem, printed at build time (generated by\n`tools/mkmanifest.py`). -/\n\n")
    for c in claims:
        for t in c["theorems"]:
            f.write(f"#print axioms {t}\n")
with open(os.path.join(root, "lean/Verif.lean"), "w") as f:
    for p in props:
        f.write(f"import Verif.Props.{p}\n")
    f.write("import Verif.Axioms\n")
# consistency: every property listed exactly once
ids = [json.loads(l)["id"] for l in open(os.path.join(root, "properties.jsonl"))]
have = [c["property"] for c in claims]
print("missing:", [i for i in ids if i not in have], "dup:", [i for i in have if have.count(i) > 1])
src = "".join(open(os.path.join(root, "lean/Verif/Props", p + ".lean")).read() for p in props)
ths = re.findall(r"^theorem (C\d\d\w*)", src, re.M)
listed = {t.split(".")[-1] for c in claims for t in c["theorems"]}
print("unlisted theorems:", [t for t in ths if t not in listed])
print("unknown theorems:", [t for t in listed if t not in ths])

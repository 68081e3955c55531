"""Regenerates section 5 of DESIGN.md from properties.jsonl and MANIFEST.json."""
import json, os
R = os.path.join(os.path.dirname(os.path.abspath(__file__)), "..")
P = {}
for l in open(os.path.join(R, "properties.jsonl")):
    d = json.loads(l)
    P[d["id"]] = d
M = json.load(open(os.path.join(R, "MANIFEST.json")))["claims"]
p = os.path.join(R, "DESIGN.md")
s = open(p).read()
head = "## 5. Findings"
s = s[:s.index(head)]
s += head + """ (places where the code does not do what it says)

Each line is a property that is not proved as stated, with what is missing.
Where the note says that the property is false, the listed theorems prove the
refutation ("general": for every input of the kind described; "witness": for one
concrete input) besides the part that holds (suffix `_partial`).

"""
for c in M:
    if c["status"] != "partial":
        continue
    s += "* **%s** %s.  %s\n  Theorems: %s.\n" % (
        c["property"], P[c["property"]]["title"], c["note"],
        ", ".join("`%s`" % t for t in c["theorems"]))
open(p, "w").write(s)

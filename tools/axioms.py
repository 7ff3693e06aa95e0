#!/usr/bin/env python3
"""Rewrite the section of DESIGN.md listing the axioms each claimed theorem depends on.

Run from anywhere after `lake build`; uses MANIFEST.json."""
import collections, json, os, re, subprocess, tempfile

ROOT = os.path.dirname(os.path.dirname(os.path.abspath(__file__)))
BEGIN, END = "<!-- axioms: begin -->", "<!-- axioms: end -->"

claims = json.load(open(f"{ROOT}/MANIFEST.json"))["claims"]
names = sorted({t for c in claims for t in c["theorems"]})
with tempfile.NamedTemporaryFile("w", suffix=".lean", delete=False) as f:
    f.write("import Verif\n" + "".join(f"#print axioms {n}\n" for n in names))
out = subprocess.run(["lake", "env", "lean", f.name], cwd=f"{ROOT}/lean", capture_output=True, text=True).stdout
os.unlink(f.name)
deps = {}
for m in re.finditer(r"'([^']+)' (does not depend on any axioms|depends on axioms: \[([^\]]*)\])", out):
    deps[m[1]] = tuple(sorted(a.strip() for a in (m[3] or "").split(",") if a.strip()))
missing = [n for n in names if n not in deps]
if missing:
    raise SystemExit(f"no answer for {missing}")
groups = collections.defaultdict(lambda: collections.defaultdict(list))
for n in names:
    module, short = n.rsplit(".", 1)
    groups[deps[n]][module.replace("Verif.Props.", "")].append(short)
text = [BEGIN, "(generated by `tools/axioms.py`)", ""]
for axioms in sorted(groups, key=lambda a: (len(a), a)):
    text.append(f"* **{', '.join(f'`{a}`' for a in axioms) or 'no axioms'}**")
    for module in sorted(groups[axioms]):
        text.append(f"  * {module}: {', '.join(sorted(groups[axioms][module]))}")
text.append(END)
design = open(f"{ROOT}/DESIGN.md").read()
pre, rest = design.split(BEGIN)
post = rest.split(END)[1]
open(f"{ROOT}/DESIGN.md", "w").write(pre + "\n".join(text) + post)
print({k: sum(map(len, v.values())) for k, v in groups.items()})

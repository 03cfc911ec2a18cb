#!/usr/bin/env python3
"""Write THEOREMS.md: every property theorem with its comment, its file and the axioms it depends on (needs a built project)."""
import re, json, pathlib, subprocess, tempfile
root = pathlib.Path(__file__).resolve().parent.parent
lean = root / "lean"
claims = json.loads((root / "MANIFEST.json").read_text())["claims"]
titles = {json.loads(l)["id"]: json.loads(l)["title"] for l in (root / "properties.jsonl").read_text().splitlines()}
info = {}
for p in sorted((lean / "Verif" / "Props").rglob("*.lean")):
    lines = p.read_text().splitlines()
    for i, line in enumerate(lines):
        m = re.match(r"theorem (C\d\d+_\S+)", line)
        if not m: continue
        doc, j = "", i - 1
        while j >= 0 and re.match(r"(set_option|open) ", lines[j]): j -= 1
        if j >= 0 and lines[j].rstrip().endswith("-/"):
            k = j
            while not lines[k].startswith("/--"): k -= 1
            doc = " ".join(s.strip() for s in lines[k:j + 1])[3:-2].strip()
        info[m.group(1)] = (p.relative_to(root), i + 1, doc)
names = [t for c in claims for t in c["theorems"]]
with tempfile.NamedTemporaryFile("w", suffix=".lean", delete=False) as f:
    f.write("import Verif\n" + "".join(f"#print axioms {n}\n" for n in names))
out = subprocess.run(["lake", "env", "lean", f.name], cwd=lean, capture_output=True, text=True).stdout
ax = {}
for m in re.finditer(r"'(\S+)' (?:depends on axioms: \[([^\]]*)\]|does not depend on any axioms)", out):
    ax[m.group(1)] = ", ".join(x.strip() for x in (m.group(2) or "").replace("\n", " ").split(",")) or "none"
assert all(n in ax for n in names), [n for n in names if n not in ax]
L = ["# The theorems, property by property", "",
     "Generated by `scripts/theorems.py` from the comments above the theorems and from `#print axioms`. The axioms are Lean's own three:",
     "`propext`, `Classical.choice`, `Quot.sound`; each theorem lists those it depends on.", ""]
for c in claims:
    L.append(f"## {c['property']} {titles[c['property']]} ({c['status']})")
    if c["note"]: L += ["", c["note"]]
    L.append("")
    for n in c["theorems"]:
        short = n.split(".")[-1]
        p, line, doc = info[short]
        L.append(f"* `{short}` ({p}) — {re.sub(r'^[*][*]C[0-9]+[.][*][*] *', '', doc)} _Axioms: {ax[n]}._")
    L.append("")
(root / "THEOREMS.md").write_text("\n".join(L))
from collections import Counter
print(Counter(ax[n] for n in names))

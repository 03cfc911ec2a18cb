#!/usr/bin/env python3
"""Regenerate lean/Verif.lean and MANIFEST.json from the property theorems (named Cnn_...) in lean/Verif/Props."""
import re, json, pathlib
root = pathlib.Path(__file__).resolve().parent.parent
lean = root / "lean"
mods = sorted(str(p.relative_to(lean)).replace("/", ".")[:-5] for p in (lean / "Verif").rglob("*.lean"))
(lean / "Verif.lean").write_text("".join(f"import {m}\n" for m in mods))
notes = json.loads((root / "scripts" / "notes.json").read_text())
thms = {}
for p in sorted((lean / "Verif" / "Props").rglob("*.lean")):
    ns = []
    for line in p.read_text().splitlines():
        m = re.match(r"namespace (\S+)", line)
        if m: ns.append(m.group(1))
        m = re.match(r"end (\S+)", line)
        if m and ns and ns[-1] == m.group(1): ns.pop()
        m = re.match(r"theorem (C(\d\d+)_\S+)", line)
        if m: thms.setdefault("C" + m.group(2), []).append(".".join(ns + [m.group(1)]))
claims = []
for line in (root / "properties.jsonl").read_text().splitlines():
    pid = json.loads(line)["id"]
    n = notes.get(pid, {})
    if pid in thms:
        claims.append({"property": pid, "status": n.get("status", "proved"), "theorems": thms[pid], "note": n.get("note", "")})
    elif n:
        claims.append({"property": pid, "status": n["status"], "theorems": [], "note": n.get("note", "")})
    else:
        print("missing", pid)
(root / "MANIFEST.json").write_text(json.dumps({"claims": claims}, indent=1) + "\n")
print(len(claims), "claims", sum(len(c["theorems"]) for c in claims), "theorems")

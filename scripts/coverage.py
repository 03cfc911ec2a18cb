#!/usr/bin/env python3
"""Which lines of /repo are cited by the model: prints, per source file, the uncited line ranges that hold code."""
import re, pathlib, sys
root = pathlib.Path(__file__).resolve().parent.parent
repo = pathlib.Path(sys.argv[1] if len(sys.argv) > 1 else "/repo")
cited = {}
for p in (root / "lean" / "Verif").rglob("*.lean"):
    cur = None
    for m in re.finditer(r"([a-z_]+/(?:src/)?[a-z_0-9/]+\.rs)?:(\d+(?:-\d+)?(?:,\s*\d+(?:-\d+)?)*)", p.read_text()):
        if m.group(1): cur = m.group(1)
        if not cur: continue
        for r in m.group(2).split(","):
            a, _, b = r.strip().partition("-")
            cited.setdefault(cur, set()).update(range(int(a), int(b or a) + 1))
tot = cov = 0
for f in sorted(repo.rglob("*.rs")):
    rel = str(f.relative_to(repo))
    if "/tests/" in rel or "/benches/" in rel: continue
    lines = f.read_text().splitlines()
    test = next((i for i, l in enumerate(lines) if l.strip().startswith("#[cfg(test)]")), len(lines))
    code = [i + 1 for i, l in enumerate(lines[:test]) if l.strip() and not l.strip().startswith(("//", "use ", "#[", "#![")) and re.search(r"\w", l)]
    un = [i for i in code if i not in cited.get(rel, set())]
    tot += len(code); cov += len(code) - len(un)
    rs = []
    for i in un:
        if rs and all(j not in code or j in un for j in range(rs[-1][1] + 1, i + 1)): rs[-1][1] = i
        else: rs.append([i, i])
    print(f"{rel}: {len(code) - len(un)}/{len(code)} cited; not: " + " ".join(f"{a}-{b}" if a != b else str(a) for a, b in rs))
print(f"total {cov}/{tot}")

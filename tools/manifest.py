#!/usr/bin/env python3
"""Writes MANIFEST.json from the table below; checks that every named theorem exists."""
import json, re, pathlib

root = pathlib.Path(__file__).resolve().parent.parent
CLAIMS = []

def claim(prop, status, theorems, note=""):
    CLAIMS.append({"property": prop, "status": status, "theorems": theorems.split(), "note": note})

exec((root / "tools" / "claims.py").read_text())

# existence check: fully qualified names from `namespace` / `theorem` lines
names = set()
for f in (root / "lean" / "Verif").rglob("*.lean"):
    stack = []
    for line in f.read_text().splitlines():
        m = re.match(r"namespace (\S+)", line)
        if m: stack.append(m.group(1))
        m = re.match(r"end (\S+)", line)
        if m and stack and stack[-1] == m.group(1): stack.pop()
        m = re.match(r"(?:@\[.*\] )?(?:private |protected )?theorem (\S+)", line)
        if m: names.add(".".join(stack + [m.group(1)]))
missing = [t for c in CLAIMS for t in c["theorems"] if t not in names]
props = [json.loads(l)["id"] for l in (root / "properties.jsonl").read_text().splitlines() if l.strip()]
absent = [p for p in props if p not in {c["property"] for c in CLAIMS}]
print("missing theorems:", missing)
print("properties without claim:", absent)
CLAIMS.sort(key=lambda c: c["property"])
(root / "MANIFEST.json").write_text(json.dumps({"claims": CLAIMS}, indent=1, ensure_ascii=False) + "\n")

#!/bin/sh
# Prints the axioms of every theorem named in MANIFEST.json and fails if one of them
# depends on anything but propext, Classical.choice and Quot.sound.
cd "$(dirname "$0")/../lean" || exit 1
lake build || exit 1
f=$(mktemp /tmp/axXXXX.lean)
echo "import Verif" > "$f"
python3 - >> "$f" <<'PY'
import json
for c in json.load(open("../MANIFEST.json"))["claims"]:
    for t in c["theorems"]:
        print("#print axioms", t)
PY
lake env lean "$f" > /tmp/axioms.out 2>&1
cat /tmp/axioms.out
if grep -q "error" /tmp/axioms.out; then echo "FAIL: unknown theorem"; exit 1; fi
if tr '\n' ' ' < /tmp/axioms.out | grep -o "\[[^]]*\]" | tr -d '[]' | tr ',' '\n' | tr -d ' ' \
    | sort -u | grep -v -x -e propext -e Classical.choice -e Quot.sound; then
  echo "FAIL: unexpected axioms"; exit 1
fi
echo OK

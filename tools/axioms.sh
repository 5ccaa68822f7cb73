#!/bin/bash
# Write AXIOMS.txt: for every theorem of MANIFEST.json, the axioms it depends on (needs an up-to-date `lake build`).
root=$(cd "$(dirname "$0")/.." && pwd)
cd "$root/lean"
f=$(mktemp --suffix=.lean)
(echo "import Verif"; python3 -c "
import json
for c in json.load(open('$root/MANIFEST.json'))['claims']:
    for t in c['theorems']: print('#print axioms', t)") > "$f"
lake env lean "$f" 2>&1 | tr '\n' ' ' | sed "s/ '/\n'/g" | sed "s/^'\([^']*\('[^d ]\)*[^']*\)' depends on axioms: \[\(.*\)\] *$/\1: \3/; s/^'\(.*\)' does not depend on any axioms *$/\1: none/; s/  */ /g" > "$root/AXIOMS.txt"
rm -f "$f"

#!/bin/bash
# Print the theorems of MANIFEST.json that are missing or depend on other axioms than propext, Classical.choice and Quot.sound.
root=$(cd "$(dirname "$0")/.." && pwd)
cd "$root/lean"
f=$(mktemp --suffix=.lean)
(echo "import Verif"; python3 -c "
import json
for c in json.load(open('$root/MANIFEST.json'))['claims']:
    for t in c['theorems']: print('#print axioms', t)") > "$f"
lake env lean "$f" 2>&1 | tr '\n' ' ' | sed "s/ '/\n'/g" | grep -vE "(does not depend on any axioms|depends on axioms: \[(propext|Classical.choice|Quot.sound)(, *(propext|Classical.choice|Quot.sound))*\]) *$"
rm -f "$f"

#!/bin/sh
# Prints, for every theorem named in MANIFEST.json, the axioms it depends on (needs a finished `lake build`).
cd "$(dirname "$0")/.." || exit 1
python3 - > /tmp/axioms_audit.lean <<'P'
import json
print('import Verif')
seen=set()
for c in json.load(open('MANIFEST.json'))['claims']:
    for t in c['theorems']:
        if t not in seen:
            seen.add(t); print('#print axioms '+t)
P
cd lean && lake env lean /tmp/axioms_audit.lean

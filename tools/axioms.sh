#!/bin/sh
# Print the axioms of every theorem named in MANIFEST.json.
cd "$(dirname "$0")/../lean" || exit 1
t=$(mktemp --suffix=.lean)
echo "import Verif" > "$t"
python3 - >> "$t" <<'PY'
import json
for c in json.load(open('../MANIFEST.json'))['claims']:
    for n in c['theorems']: print('#print axioms', n)
PY
lake env lean "$t"
rm -f "$t"

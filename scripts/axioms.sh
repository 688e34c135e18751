#!/bin/sh
# Print the axioms of every theorem named in MANIFEST.json (run from anywhere, after `lake build`).
cd "$(dirname "$0")/../lean" || exit 1
tmp=$(mktemp --suffix=.lean)
{ echo "import Verif"
  python3 -c "
import json
for c in json.load(open('../MANIFEST.json'))['claims']:
    for t in c['theorems']: print('#print axioms', t)"; } > "$tmp"
lake env lean "$tmp"
rm -f "$tmp"

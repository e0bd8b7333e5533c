#!/bin/sh
# Print the axioms of every theorem named in MANIFEST.json (after `lake build` in lean/).
cd "$(dirname "$0")/../lean" || exit 1
python3 - <<'PY' > /tmp/axioms.lean
import json
print("import Verif")
for c in json.load(open("../MANIFEST.json"))["claims"]:
    for t in c["theorems"]:
        print("#print axioms", t)
PY
lake env lean /tmp/axioms.lean

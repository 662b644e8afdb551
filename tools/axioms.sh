#!/bin/sh
# print axioms of every theorem named in MANIFEST.json
cd "$(dirname "$0")/../lean" || exit 1
T=$(mktemp -d)/Ax.lean
{ echo "import Verif"; python3 - <<'PY'
import json
m=json.load(open("../MANIFEST.json"))
for c in m["claims"]:
    for t in c["theorems"]: print("#print axioms",t)
PY
} > "$T"
lake env lean "$T"

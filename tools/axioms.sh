#!/bin/sh
# Prints the axioms of each theorem named in MANIFEST.json (after `lake build`); the output is kept in tools/axioms.txt.
cd "$(dirname "$0")/../lean" || exit 1
f=$(mktemp /tmp/axiomsXXXXXX.lean)
python3 - > "$f" <<'P'
import json
print("import Verif")
for c in json.load(open("../MANIFEST.json"))["claims"]:
    for t in c["theorems"]:
        print("#print axioms", t)
P
lake env lean "$f" | tr '\n' ' ' | sed "s/ '/\n'/g; s/  */ /g" ; echo
rm -f "$f"

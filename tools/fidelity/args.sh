#!/bin/sh
# Compares Model/Args with argparse and pathlib. Usage: args.sh PYTHON3.11 (after lake build)
set -e
here=$(cd "$(dirname "$0")" && pwd)
mkdir -p /tmp/fa
"$1" "$here/args.py" /tmp/fa
cp "$here/Args.txt" /tmp/fa/A.lean
(cd "$here/../../lean" && lake env lean /tmp/fa/A.lean)

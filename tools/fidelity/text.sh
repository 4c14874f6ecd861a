#!/bin/sh
# Compares the expressions and string functions of the model with python. Usage: text.sh PYTHON3.11 (after lake build)
set -e
here=$(cd "$(dirname "$0")" && pwd)
mkdir -p /tmp/ft
"$1" "$here/text.py" /tmp/ft
cp "$here/Text.txt" /tmp/ft/T.lean
(cd "$here/../../lean" && lake env lean /tmp/ft/T.lean)

#!/bin/sh
# Compares the model with the expectations in the repository's own tests. Nothing of the repository is run: the fixtures are
# read as text, the model (Lean) is executed on them. Usage: run.sh (after lake build)
set -e
here=$(cd "$(dirname "$0")" && pwd)
mkdir -p /tmp/fid && cd /tmp/fid
python3 "$here/gen.py" tests
cp "$here/Fid.txt" Fid.lean
(cd "$here/../../lean" && lake env lean --run /tmp/fid/Fid.lean) > out.txt
python3 "$here/cmp.py"
# renders the pages of example/stage1 again
cp "$here/Stage1.txt" Stage1.lean
(ulimit -s unlimited; cd "$here/../../lean" && lake env lean --run /tmp/fid/Stage1.lean)

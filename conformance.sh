#!/bin/sh
# Compiles the model with the primitives of lean/Verif/Conformance to a program and runs it on the test vectors of the repository.
# Needs a finished `lake build` in lean/. Arguments: a scratch directory, and the directory of the vectors (/repo/testdata).
set -e
ir=$(cd "$(dirname "$0")/lean/.lake/build/ir" && pwd)
out=${1:?scratch directory}
mkdir -p "$out"
for f in $(cd "$ir" && find Verif/Model Verif/Conformance -name '*.c'); do
	leanc -c -O2 -o "$out/$(echo "$f" | tr / _).o" "$ir/$f"
done
leanc -o "$out/conformance" "$out"/*.o
"$out/conformance" "${2:-/repo/testdata}"

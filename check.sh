#!/bin/sh
# Compiles the executable model and runs the tests of the repository on it (lean/Verif/Check/Samples.lean).
# usage: check.sh [directory of the tests]
set -e
cd "$(dirname "$0")/lean"
lake build Verif.Check.Samples
out=$(mktemp -d)
trap 'rm -rf "$out"' EXIT
for m in Model/Basic Model/Common Model/Options Model/Lzw Model/Streaming Model/Converter Model/Decoder Model/Encoder \
    Model/FrameNew Ref/Lzw Check/Samples; do
  leanc -O2 -c ".lake/build/ir/Verif/$m.c" -o "$out/$(echo $m | tr / _).o"
done
leanc -o "$out/samples" "$out"/*.o
"$out/samples" "${1:-/repo/tests}"

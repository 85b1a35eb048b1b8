#!/bin/sh
# Regenerates lean/Verif.lean, which imports every module.
cd "$(dirname "$0")/../lean" && (cd Verif && find . -name '*.lean' | sed 's|^\./|Verif.|; s|/|.|g; s|\.lean$||' | sort | sed 's/^/import /') > Verif.lean

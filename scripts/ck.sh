#!/bin/bash
# regenerate, check, build, commit, vcheck:  scripts/ck.sh "message"
cd /verif; python3 scripts/props.py; scripts/imports.sh; python3 scripts/manifest.py
grep -rnwE "sorry|#exit|#guard_msgs|native_decide|bv_decide|admit" lean/Verif && exit 1
(cd lean && lake build > /tmp/build.log 2>&1) || { grep -A15 "error" /tmp/build.log | head -40; exit 1; }
git add -A; git commit -qm "$1"; vcheck | tail -5

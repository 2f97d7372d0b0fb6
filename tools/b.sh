#!/bin/sh
# build modules, showing only errors (with context)
cd /verif/lean && lake build "$@" 2>&1 | awk '/^(error|✖)/{p=1} /^(warning|✔|⚠|ℹ|trace)/{p=0} /^Build completed/{p=1} p' | head -${N:-70}

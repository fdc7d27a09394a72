#!/bin/sh
# Rewrites lean/Verif.lean so that it imports every module under lean/Verif.
cd "$(dirname "$0")/../lean" && find Verif -name '*.lean' | LC_ALL=C sort | sed 's|/|.|g; s|\.lean$||; s|^|import |' > Verif.lean

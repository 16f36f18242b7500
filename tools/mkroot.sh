#!/bin/sh
# regenerate lean/Verif.lean from the modules present
cd /verif/lean && (find Verif -name '*.lean' | sort | sed 's/\.lean$//; s,/,.,g; s/^/import /') > Verif.lean

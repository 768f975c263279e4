#!/bin/bash
# Regenerate lean/Verif.lean: import every module under lean/Verif.
cd "$(dirname "$0")/../lean" && find Verif -name '*.lean' | sort | sed 's/\.lean$//; s#/#.#g; s/^/import /' > Verif.lean

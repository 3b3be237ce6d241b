#!/bin/sh
# Prints every property theorem that depends on an axiom other than the three standard ones.
cd "$(dirname "$0")/../lean" || exit 1
f=$(mktemp /tmp/axXXXXXX.lean)
echo 'import Verif' > "$f"
grep -ho '^theorem C[0-9]*_[A-Za-z0-9_]*' Verif/Props/*.lean | sed 's/theorem /#print axioms Yupp./' >> "$f"
lake env lean "$f" | tr -d '\n' | sed "s/'Yupp/\n'Yupp/g" | sed 's/propext//;s/Classical.choice//;s/Quot.sound//' | grep -v 'does not depend' | grep -v '\[[ ,]*\]'
rm -f "$f"

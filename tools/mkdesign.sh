#!/bin/sh
# Renew the list of axioms at the end of DESIGN.md (needs a finished lake build).
cd /verif
sed -i '/^## Axioms of each theorem/,$d' DESIGN.md
{ echo '## Axioms of each theorem'; echo 'From `#print axioms` (tools/axioms.py), grouped by the set of axioms:'; echo; python3 tools/axioms.py; } >> DESIGN.md

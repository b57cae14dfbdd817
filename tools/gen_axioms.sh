#!/bin/bash
# Writes AXIOMS.md: the axioms every theorem named in MANIFEST.json depends on, as reported by Lean.
cd "$(dirname "$0")/.."
python3 - > /tmp/axioms.lean <<'PY'
import json
print("import Verif")
seen=set()
for c in json.load(open('MANIFEST.json'))['claims']:
    for t in c['theorems']:
        if t not in seen:
            seen.add(t); print("#print axioms "+t)
PY
(cd lean && lake env lean /tmp/axioms.lean) > /tmp/axioms.txt
python3 - > AXIOMS.md <<'PY'
import re,json
txt=open('/tmp/axioms.txt').read()
ax={}
for m in re.finditer(r"'([^']+)' (?:depends on axioms: \[([^\]]*)\]|does not depend on any axioms)",txt):
    ax[m.group(1)]=' '.join((m.group(2) or '').split()) or 'none'
print("# Axioms of the theorems named in MANIFEST.json\n\nGenerated by tools/gen_axioms.sh with `#print axioms`.\n")
from collections import defaultdict
g=defaultdict(list)
for c in json.load(open('MANIFEST.json'))['claims']:
    for t in c['theorems']:
        a=ax[t]
        if (c['property'],t) not in g[a]: g[a].append((c['property'],t))
for a in sorted(g):
    print("## %s\n"%a)
    for p,t in g[a]: print("- %s `%s`"%(p,t))
    print()
PY

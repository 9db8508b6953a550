#!/usr/bin/env python3
"""Regenerates AXIOMS.md: the axioms each theorem of MANIFEST.json depends on.
Run after `lake build`."""
import json, os, re, subprocess, tempfile
ROOT = os.path.abspath(os.path.join(os.path.dirname(__file__), '..'))
cl = json.load(open(os.path.join(ROOT, 'MANIFEST.json')))['claims']
names = []
for c in cl:
    for t in c['theorems']:
        if t not in names: names.append(t)
src = "import Verif\n" + "".join("#print axioms %s\n" % n for n in names)
f = os.path.join(tempfile.mkdtemp(), 'Ax.lean')
open(f, 'w').write(src)
out = subprocess.run(['lake', 'env', 'lean', f], cwd=os.path.join(ROOT, 'lean'), capture_output=True, text=True).stdout
out = re.sub(r'\s+', ' ', out)
ax = {}
for m in re.finditer(r"'([^']+(?:'[^']*)*?)' (does not depend on any axioms|depends on axioms: \[([^\]]*)\])", out):
    ax[m.group(1)] = m.group(3) or 'none'
with open(os.path.join(ROOT, 'AXIOMS.md'), 'w') as g:
    g.write("# Axioms per theorem (`#print axioms`, regenerate with tools/mkaxioms.py)\n\n")
    for c in cl:
        g.write("## %s (%s)\n" % (c['property'], c['status']))
        for t in c['theorems']:
            g.write("* `%s`: %s\n" % (t, ax.get(t, '?')))
print(len(names), sum(1 for n in names if n not in ax), sorted({a for v in ax.values() for a in v.split(', ')}))

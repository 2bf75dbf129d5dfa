#!/usr/bin/env python3
"""Write AXIOMS.md: the axioms every theorem of MANIFEST.json depends on."""
import json, os, re, subprocess
root = os.path.dirname(os.path.dirname(os.path.abspath(__file__)))
claims = json.load(open(root + '/MANIFEST.json'))['claims']
names = [t for c in claims for t in c['theorems']]
open('/tmp/ax.lean', 'w').write('import Verif\n' + ''.join(f'#print axioms {t}\n' for t in names))
out = subprocess.run(['lake', 'env', 'lean', '/tmp/ax.lean'], cwd=root + '/lean', capture_output=True, text=True).stdout
out = re.sub(r'\n +', ' ', out)
ax = {}
for l in out.splitlines():
    m = re.match(r"'([^']+)' (?:depends on axioms: \[(.*)\]|does not depend on any axioms)", l)
    if m: ax[m.group(1)] = m.group(2) or 'none'
w = ['# Axioms of the theorems', '', 'Generated by `tools/axioms.py` from `#print axioms`.', '', '| property | theorem | axioms |', '|---|---|---|']
for c in claims:
    for t in c['theorems']: w.append(f"| {c['property']} | `{t}` | {ax[t]} |")
open(root + '/AXIOMS.md', 'w').write('\n'.join(w) + '\n')

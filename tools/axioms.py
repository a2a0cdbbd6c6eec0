#!/usr/bin/env python3
"""Prints, for every theorem in MANIFEST.json, the axioms it depends on (run after `lake build`)."""
import json, os, re, subprocess, tempfile
root = os.path.dirname(os.path.dirname(os.path.abspath(__file__)))
ths = [t for c in json.load(open(root + '/MANIFEST.json'))['claims'] for t in c['theorems']]
with tempfile.NamedTemporaryFile('w', suffix='.lean', delete=False) as f:
    f.write('import Verif\n' + ''.join(f'#print axioms {t}\n' for t in ths))
out = subprocess.run(['lake', 'env', 'lean', f.name], cwd=root + '/lean', capture_output=True, text=True).stdout
os.unlink(f.name)
groups = {}
for m in re.finditer(r"'([^']+)' (?:depends on axioms: \[([^\]]*)\]|does not depend on any axioms)", out):
    groups.setdefault(re.sub(r'\s+', ' ', m.group(2) or ''), []).append(m.group(1).replace('Verif.Props.', ''))
assert sum(map(len, groups.values())) == len(ths), out
for ax, ts in sorted(groups.items(), key=lambda x: len(x[0])):
    print(f'* **{ax or "no axioms"}**: ' + ', '.join(f'`{t}`' for t in ts))

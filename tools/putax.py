#!/usr/bin/env python3
"""Put the axiom lists printed by tools/axioms.py into DESIGN.md."""
import subprocess, sys
ax = subprocess.run([sys.executable, 'tools/axioms.py'], capture_output=True, text=True, check=True).stdout.strip()
t = open('DESIGN.md').read()
i = t.index('Axioms of each theorem')
i = t.index('\n* **', i)
j = t.index('\n\n', i)
open('DESIGN.md', 'w').write(t[:i] + '\n' + ax + t[j:])

#!/usr/bin/env python3
"""Regenerates MANIFEST.json from the theorem names in lean/Verif/Props and tools/notes.json."""
import re, json, glob, os
root = os.path.dirname(os.path.dirname(os.path.abspath(__file__)))
ths = {}
for f in sorted(glob.glob(root + '/lean/Verif/Props/**/*.lean', recursive=True)):
    for m in re.finditer(r'^theorem (C\d\d)(_\w+)', open(f).read(), re.M):
        ths.setdefault(m.group(1), []).append('Verif.Props.' + m.group(1) + m.group(2))
notes = json.load(open(root + '/tools/notes.json'))
claims = []
for line in open(root + '/properties.jsonl'):
    if not line.strip():
        continue
    pid = json.loads(line)['id']
    n = notes.get(pid, {})
    if pid in ths:
        claims.append({'property': pid, 'status': n.get('status', 'proved'), 'theorems': ths[pid], 'note': n.get('note', '')})
    elif 'status' in n:
        claims.append({'property': pid, 'status': n['status'], 'theorems': [], 'note': n['note']})
json.dump({'claims': claims}, open(root + '/MANIFEST.json', 'w'), indent=1, ensure_ascii=False)
print(len(claims), 'claims;', 'missing:', [json.loads(l)['id'] for l in open(root + '/properties.jsonl') if l.strip() and json.loads(l)['id'] not in [c['property'] for c in claims]])

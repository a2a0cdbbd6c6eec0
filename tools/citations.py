#!/usr/bin/env python3
"""List citations `src/x.rs:a-b `name`` whose range does not contain `fn name` (last path component)."""
import re, os
bad = n = 0
for d, _, fs in os.walk('lean/Verif'):
    for f in fs:
        p = os.path.join(d, f)
        t = open(p).read()
        for m in re.finditer(r'(src/[\w/]+\.rs):(\d+)(?:-(\d+))?,? `([^`]+)`', t):
            file, a, b, name = m.group(1), int(m.group(2)), int(m.group(3) or m.group(2)), m.group(4)
            src = open('/repo/' + file).read().split('\n')
            n += 1
            seg = '\n'.join(src[a - 1:b])
            last = re.sub(r'<.*', '', name.split('::')[-1].split(' ')[0].split('(')[0]) if not name.startswith(('Drop for', 'impl')) else name
            key = 'impl' if last == name and ' for ' in name else None
            ok = (re.search(r'\b' + re.escape(last) + r'\b', seg) is not None) if not key else (re.search(name.replace('Drop for ', r'Drop for '), seg) is not None)
            # also require that the range begins and ends sensibly: balanced braces
            if ok and seg.count('{') != seg.count('}'): ok = False
            if not ok:
                bad += 1
                print(f'{p}:{t[:m.start()].count(chr(10)) + 1}: {m.group(0)}')
print(n, 'citations', bad, 'doubtful')

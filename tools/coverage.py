#!/usr/bin/env python3
"""Which functions of /repo/src are cited by a definition of the model?  Lists those that are not (line ranges from comments
`src/<file>.rs:a-b`, further ranges of the same file separated by commas or `and`)."""
import os, re, sys
ROOT = os.path.dirname(os.path.dirname(os.path.abspath(__file__)))
REPO = '/repo'
cited = {}
for d, _, fs in os.walk(ROOT + '/lean/Verif'):
    for f in fs:
        t = open(os.path.join(d, f)).read()
        for c in re.findall(r'/-.*?-/', t, re.S):
            c = re.sub(r'\s+', ' ', c)
            # ranges following a file name up to the next file name
            parts = re.split(r'(src/[\w/]+\.rs)', c)
            for i in range(1, len(parts), 2):
                for a, b in re.findall(r'(?<![\w.])(\d{1,4})(?:-(\d{1,4}))?(?![\w.]*\))', parts[i+1]):
                    a = int(a); b = int(b or a)
                    if b >= a: cited.setdefault(parts[i], []).append((a, b))
tot = miss = 0
for d, _, fs in os.walk(REPO + '/src'):
    for f in sorted(fs):
        p = os.path.relpath(os.path.join(d, f), REPO)
        ls = open(os.path.join(REPO, p)).read().split('\n')
        test = False
        for i, l in enumerate(ls, 1):
            if re.match(r'\s*(#\[cfg\(test\)\]|mod tests?\b)', l): test = True
            m = re.match(r'\s*(?:pub(?:\([^)]*\))? )?(?:unsafe |const |default )*fn (\w+)', l)
            if m and not test:
                # body end: matching braces
                depth = 0; j = i; started = False
                while j <= len(ls):
                    depth += ls[j-1].count('{') - ls[j-1].count('}')
                    if '{' in ls[j-1]: started = True
                    if (started and depth <= 0) or (not started and ';' in ls[j-1]): break
                    j += 1
                tot += 1
                if not started: tot -= 1; continue
                if not any(a <= j and b >= i for a, b in cited.get(p, [])):
                    miss += 1; print(f'{p}:{i}-{j} {m.group(1)}')
print(tot, 'functions,', miss, 'not cited')

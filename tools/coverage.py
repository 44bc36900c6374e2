#!/usr/bin/env python3
"""Write COVERAGE.md: for every C file of /repo, the lines cited by the definitions of the model."""
import re, os, glob, collections
files = []
for root, d, f in os.walk('/repo'):
    files += [os.path.relpath(os.path.join(root, x), '/repo') for x in f if x.endswith('.c')]
cit = collections.defaultdict(lambda: collections.defaultdict(set))
for m in sorted(glob.glob('/verif/lean/Verif/Model/*.lean')):
    for com in re.findall(r'/-.*?-/', open(m).read(), re.S):
        cur = None
        for t in re.finditer(r'([\w/]+\.[ch])\b|(\d{2,5})\s*[-–]\s*(\d{2,5})', com):
            if t.group(1):
                cur = os.path.basename(t.group(1))
            elif cur:
                cit[cur][os.path.basename(m)[:-5]].update(range(int(t.group(2)), int(t.group(3)) + 1))
def ranges(s):
    s = sorted(s); out = []; i = 0
    while i < len(s):
        j = i
        while j + 1 < len(s) and s[j + 1] <= s[j] + 4: j += 1
        out.append('%d-%d' % (s[i], s[j]) if j > i else '%d' % s[i]); i = j + 1
    return ', '.join(out)
with open('/verif/COVERAGE.md', 'w') as f:
    f.write('# Which lines of /repo are modelled\n\nGenerated by `tools/coverage.py` from the citations in the comments of '
            '`lean/Verif/Model`.  Line ranges less than five lines apart are joined.  Lines between functions, '
            'file headers and debug output are not cited.\n\n| File | Lines | Model | Lines cited |\n|---|---|---|---|\n')
    for p in sorted(files):
        n = sum(1 for _ in open('/repo/' + p, errors='replace'))
        c = cit.get(os.path.basename(p), {})
        ls = {x for s in c.values() for x in s if x <= n}
        f.write('| %s | %d | %s | %s |\n' % (p, n, ', '.join(sorted(c)) or '–', ranges(ls) or 'none'))

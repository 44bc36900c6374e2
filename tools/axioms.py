#!/usr/bin/env python3
"""Write AXIOMS.md: the axioms every theorem of MANIFEST.json depends on (#print axioms)."""
import json, re, subprocess, collections
m = json.load(open('/verif/MANIFEST.json'))
names = sorted({t for c in m['claims'] for t in c['theorems']})
src = 'import Verif\n' + ''.join('#print axioms %s\n' % n for n in names)
open('/tmp/axioms_check.lean', 'w').write(src)
out = subprocess.run(['lake', 'env', 'lean', '/tmp/axioms_check.lean'], cwd='/verif/lean',
                     capture_output=True, text=True).stdout
out = re.sub(r'\n\s+', ' ', out)
by = collections.defaultdict(list)
seen = set()
for l in out.split('\n'):
    g = re.match(r"'(.*)' depends on axioms: \[(.*)\]", l)
    h = re.match(r"'(.*)' does not depend on any axioms", l)
    if g:
        by[', '.join(sorted(x.strip() for x in g.group(2).split(',')))].append(g.group(1)); seen.add(g.group(1))
    elif h:
        by['none'].append(h.group(1)); seen.add(h.group(1))
assert len(seen) == len(names), set(names) - seen
with open('/verif/AXIOMS.md', 'w') as f:
    f.write('# Axioms of the theorems\n\nGenerated by `tools/axioms.py` with `#print axioms` for every theorem '
            'named in MANIFEST.json.\n')
    for k in sorted(by):
        f.write('\n## %s (%d theorems)\n\n' % (k, len(by[k])))
        f.write(', '.join('`%s`' % n for n in sorted(by[k])) + '\n')
print({k: len(v) for k, v in by.items()})

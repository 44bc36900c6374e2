#!/usr/bin/env python3
"""Refreshes the `-- start-end` line citations of the opcode cases in Model/VM.lean."""
import re
src=open('/repo/insn16/libexec/libexec_run.c').read().split('\n')
cases=[]
for n,l in enumerate(src,1):
    m=re.match(r'\s+case (o\w+)\s*:',l)
    if m: cases.append((m.group(1),n))
    if re.match(r'\s+default\s*:',l): cases.append(('default',n))
rng={}
for i,(c,n) in enumerate(cases):
    e=cases[i+1][1]-1 if i+1<len(cases) else n+3
    # trim trailing comments/blank lines
    while e>n and not re.search(r'(break;|return .*;|branchOut;|\})\s*$',src[e-1]): e-=1
    rng[c]=(n,e)
f='/verif/lean/Verif/Model/VM.lean'
out=[]
for l in open(f).read().split('\n'):
    m=re.match(r'(  \| some \.(\w+) => .*?)(\s*-- [0-9 \-]+)?$',l)
    m2=re.match(r'(  \| some \.(\w+) => .*)',l)
    if m2:
        body=re.sub(r'\s+-- [0-9\-]+$','',l)
        name='o'+m2.group(2).rstrip('_').upper()
        if name in rng:
            a,b=rng[name]
            l=body.ljust(82)+' -- %d-%d'%(a,b)
    out.append(l)
open(f,'w').write('\n'.join(out))

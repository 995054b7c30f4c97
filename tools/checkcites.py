#!/usr/bin/env python3
"""Checks the citations in the model: `file.go:a-b `name`` must overlap the definition of name in /repo; every range must exist."""
import re,glob,os
files={}
for p in glob.glob('/repo/**/*.go',recursive=True):
    if p.endswith('_test.go'): continue
    files.setdefault(os.path.basename(p),[]).append(p)
bad=0
for f in sorted(glob.glob('/verif/lean/Verif/Model/*.lean')):
    t=open(f).read()
    for m in re.finditer(r'((?:[\w]+/)*\w+\.go):(\d+)(?:-(\d+))?((?:, \d+(?:-\d+)?)*)(?: \(?`([\w.()*]+)`)?',t):
        name,a,b,more,fn=m.groups(); a=int(a); b=int(b or a)
        c=[p for ps in files.values() for p in ps if p.endswith('/'+name)]
        line=t[:m.start()].count('\n')+1
        if not c: print(f'{os.path.basename(f)}:{line}: no file {name}'); bad+=1; continue
        ok=False
        for p in c:
            L=open(p).read().split('\n')
            if b<=len(L):
                if fn:
                    short=fn.split('.')[-1].strip('()*')
                    d=[i+1 for i,l in enumerate(L) if re.match(r'(func (\([^)]*\) )?|type |\t?)'+re.escape(short)+r'\b',l)]
                    if not d or any(a-2<=i<=b for i in d): ok=True
                else: ok=True
        if not ok: print(f'{os.path.basename(f)}:{line}: {m.group(0)}'); bad+=1
print(bad,'bad')

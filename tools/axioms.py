#!/usr/bin/env python3
"""Rewrites the last section of DESIGN.md ("Axioms per theorem") from `#print axioms` of all theorems in MANIFEST.json. Needs a built project."""
import json,os,re,subprocess,tempfile
root=os.path.join(os.path.dirname(os.path.abspath(__file__)),'..')
claims=json.load(open(root+'/MANIFEST.json'))['claims']
names=sorted({t for c in claims for t in c['theorems']})
f=tempfile.NamedTemporaryFile('w',suffix='.lean',delete=False)
f.write('import Verif\n'+''.join(f'#print axioms {n}\n' for n in names)); f.close()
out=subprocess.run(['lake','env','lean',f.name],cwd=root+'/lean',capture_output=True,text=True).stdout
out=re.sub(r'\n\s+',' ',out)
ax={}
for l in out.splitlines():
    m=re.match(r"'(.*)' depends on axioms: \[(.*)\]",l)
    if m: ax[m[1]]=m[2]
    m=re.match(r"'(.*)' does not depend",l)
    if m: ax[m[1]]='none'
assert set(ax)==set(names),sorted(set(names)^set(ax))[:5]
groups={}
for n in names: groups.setdefault(ax[n],[]).append(n)
p=root+'/DESIGN.md'; s=open(p).read()
head=s[:s.index('## Axioms per theorem')]
t='## Axioms per theorem\n\n(All theorems of `MANIFEST.json`; `IPP.` omitted.)\n'
for g in sorted(groups,key=len):
    t+=f'\n**{g}** ({len(groups[g])}): '+', '.join('`'+n.replace('IPP.','',1)+'`' for n in groups[g])+'\n'
open(p,'w').write(head+t)

#!/usr/bin/env python3
"""Writes AXIOMS.md: for every theorem of MANIFEST.json the axioms Lean reports (`#print axioms`).
Run after `lake build`; needs the compiled modules in lean/.lake."""
import json,subprocess,re,os,tempfile
root=os.path.dirname(os.path.dirname(os.path.abspath(__file__)))
claims=json.load(open(root+'/MANIFEST.json'))['claims']
names=[]
for c in claims:
    for t in c['theorems']:
        if t not in names: names.append(t)
f=tempfile.NamedTemporaryFile('w',suffix='.lean',delete=False)
f.write('import Verif\n'+''.join('#print axioms %s\n'%n for n in names)); f.close()
out=subprocess.run(['lake','env','lean',f.name],cwd=root+'/lean',capture_output=True,text=True).stdout
ax={}
for m in re.finditer(r"'([^']+(?:'[^' ]*)*)' (does not depend on any axioms|depends on axioms: \[([^\]]*)\])",out):
    ax[m.group(1)]='none' if m.group(3) is None else ', '.join(sorted(x.strip() for x in m.group(3).replace('\n',' ').split(',')))
groups={}
for n in names: groups.setdefault(ax.get(n,'?'),[]).append(n)
with open(root+'/AXIOMS.md','w') as o:
    o.write('# Axioms of the theorems in MANIFEST.json (output of `#print axioms`, grouped; made by tools/genaxioms.py)\n')
    for g in sorted(groups): 
        o.write('\n## %s (%d theorems)\n\n'%(g,len(groups[g]))+'\n'.join('- `%s`'%n for n in sorted(groups[g]))+'\n')
print({g:len(v) for g,v in groups.items()}, len(names))

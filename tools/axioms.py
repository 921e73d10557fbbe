"""Writes AXIOMS.md: for every theorem named in MANIFEST.json, what `#print axioms` says.
Run after `lake build`, from anywhere."""
import json,os,re,subprocess,tempfile
root=os.path.dirname(os.path.dirname(os.path.abspath(__file__)))
m=json.load(open(root+'/MANIFEST.json'))
names=[t for c in m['claims'] for t in c['theorems']]
src='import Verif\nopen Verif\n'+''.join(f'#print axioms {n}\n' for n in names)
p=os.path.join(tempfile.gettempdir(),'ax_check.lean'); open(p,'w').write(src)
out=subprocess.run(['lake','env','lean',p],cwd=root+'/lean',capture_output=True,text=True).stdout
out=re.sub(r'\s+',' ',out)
ax={}
for a,b in re.findall(r"'([\w.']+)' depends on axioms: \[([^\]]*)\]",out): ax[a]=b.strip()
for a in re.findall(r"'([\w.']+)' does not depend on any axioms",out): ax[a]='(none)'
groups={}
for n in names:
    k=[a for a in ax if a==n or a.endswith('.'+n)]
    groups.setdefault(ax[k[0]] if k else 'UNKNOWN',[]).append(n)
with open(root+'/AXIOMS.md','w') as f:
    f.write('# Axioms each theorem depends on\n\nGenerated by `tools/axioms.py` from `#print axioms`.\n')
    for g in sorted(groups,key=lambda g:-len(groups[g])):
        f.write(f'\n## {g}: {len(groups[g])} theorems\n\n'+', '.join(f'`{n}`' for n in groups[g])+'\n')
for g in groups: print(g,len(groups[g]))

"""Regenerates MANIFEST.json: collects theorem names Cnn_* from lean/Verif/Props and adds notes."""
import json,re,glob,os
root=os.path.dirname(os.path.dirname(os.path.abspath(__file__)))
props=[json.loads(l) for l in open(root+'/properties.jsonl')]
notes=json.load(open(root+'/tools/notes.json'))
thms={}
for f in sorted(glob.glob(root+'/lean/Verif/Props/*.lean')+glob.glob(root+'/lean/Verif/Link/*.lean')):
    for m in re.finditer(r'^theorem\s+((?:\w+\.)*(C\d+)_[\w\']+)',open(f).read(),re.M):
        thms.setdefault(m.group(2),[]).append(m.group(1).removeprefix('_root_.Verif.'))
claims=[]
for p in props:
    i=p['id']; t=thms.get(i,[])
    n=notes.get(i,{})
    partial=any('_partial' in x or '_refuted' in x for x in t)
    st=n.get('status') or ('partial' if partial else 'proved')
    if not t: 
        if st=='not_applicable': claims.append(dict(property=i,status=st,theorems=[],note=n.get('note','')))
        else: print(i,'none')
        continue
    claims.append(dict(property=i,status=st,theorems=t,note=n.get('note','')))
json.dump({'claims':claims},open(root+'/MANIFEST.json','w'),indent=1,ensure_ascii=False)
for c in claims: print(c['property'],c['status'],len(c['theorems']),'NO NOTE' if c['status']=='partial' and not c['note'] else '')

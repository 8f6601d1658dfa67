import re,glob,json
notes=json.load(open('/verif/tools/notes.json'))
props=[json.loads(l)['id'] for l in open('/verif/properties.jsonl')]
th={}
for f in sorted(glob.glob('/verif/lean/Verif/Props/*.lean')):
    src=open(f).read()
    for m in re.finditer(r'^theorem (C(\d\d\d?)_\w+)',src,re.M):
        ns=re.findall(r'^namespace (PS\S*)',src[:m.start()],re.M)[-1]
        th.setdefault('C'+m.group(2),[]).append(ns+'.'+m.group(1))
claims=[]
for p in props:
    n=notes.get(p,{})
    t=th.get(p,[])
    if t:
        st=n.get('status','proved')
    else:
        st='partial'; n={'note':n.get('note','Not proved yet.')}
    claims.append({'property':p,'status':st,'theorems':t,'note':n.get('note','')})
json.dump({'claims':claims},open('/verif/MANIFEST.json','w'),indent=1)
mods=sorted(glob.glob('/verif/lean/Verif/**/*.lean',recursive=True))
order=['Model','Spec','Lemmas','Props']
ms=[m[len('/verif/lean/'):-5].replace('/','.') for m in mods]
ms.sort(key=lambda m:(order.index(m.split('.')[1]) if m.split('.')[1] in order else 9,m))
open('/verif/lean/Verif.lean','w').write('\n'.join('import '+m for m in ms)+'\n')
print(sum(1 for c in claims if c['theorems']),'of',len(claims), 'missing', [c['property'] for c in claims if not c['theorems']])

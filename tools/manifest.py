import re,glob,json,os
root='/verif/lean'
mods=sorted(os.path.relpath(p,root)[:-5].replace('/','.') for p in glob.glob(root+'/Verif/**/*.lean',recursive=True))
order={'Model':0,'Spec':1,'Lemmas':2,'Props':3}
mods.sort(key=lambda m:(order[m.split('.')[1]],m))
open(root+'/Verif.lean','w').write(''.join(f'import {m}\n' for m in mods))
props=[json.loads(l) for l in open('/verif/properties.jsonl')]
th={}
for m in mods:
    if '.Props.' not in m: continue
    s=open(root+'/'+m.replace('.','/')+'.lean').read()
    ns=[]
    for l in s.split('\n'):
        mm=re.match(r'namespace (\S+)',l)
        if mm: ns.append(mm.group(1))
        mm=re.match(r'end (\S+)\s*$',l)
        if mm and ns and ns[-1]==mm.group(1): ns.pop()
        mm=re.match(r'(?:@\[.*\] )?theorem ((C\d+)_\S+)',l)
        if mm: th.setdefault(mm.group(2),[]).append('.'.join(ns+[mm.group(1)]))
try: cfg=json.load(open('/verif/tools/status.json'))
except Exception: cfg={}
claims=[]
for p in props:
    i=p['id']; t=th.get(i,[])
    c=cfg.get(i,{})
    if t:
        claims.append({'property':i,'status':c.get('status','proved'),'theorems':t,'note':c.get('note','')})
        if not c.get('note'): print('no note',i)
    elif c: claims.append({'property':i,'status':c['status'],'theorems':[],'note':c.get('note','')})
json.dump({'claims':claims},open('/verif/MANIFEST.json','w'),indent=1)
print(len(claims),sum(len(c['theorems']) for c in claims), [p['id'] for p in props if p['id'] not in th])

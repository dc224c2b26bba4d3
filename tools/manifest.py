#!/usr/bin/env python3
"""Regenerates MANIFEST.json: property theorems are those named Cnn_* in lean/Verif."""
import re,json,glob,os
root=os.path.dirname(os.path.dirname(os.path.abspath(__file__)))
notes=json.load(open(root+'/tools/notes.json'))   # id -> [status, note]
th={}
imported=set(re.findall(r'^import (\S+)',open(root+'/lean/Verif.lean').read(),re.M))
for f in sorted(glob.glob(root+'/lean/Verif/**/*.lean',recursive=True)):
    src=open(f).read()
    ns=[]
    for l in src.split('\n'):
        m=re.match(r'namespace (\S+)',l)
        if m: ns.append(m.group(1))
        m=re.match(r'end (\S+)',l)
        if m and ns and ns[-1]==m.group(1): ns.pop()
        m=re.match(r'theorem (C\d\d\w*)',l)
        if m: th.setdefault(m.group(1)[:3] if not re.match(r'C\d{3}',m.group(1)) else m.group(1)[:4],[]).append('.'.join(ns+[m.group(1)]))
props=[json.loads(l)['id'] for l in open(root+'/properties.jsonl')]
claims=[]
for p in props:
    if p in th and p in notes:
        claims.append(dict(property=p,status=notes[p][0],theorems=th[p],note=notes[p][1]))
json.dump({"claims":claims},open(root+'/MANIFEST.json','w'),indent=1)
print(len(claims),'claims; missing',[p for p in props if p not in [c['property'] for c in claims]])

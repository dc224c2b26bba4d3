"""Helper: addprop(id,title,statement,quantifier,why,anchors,design) and note(id,status,text)."""
import json,os
root=os.path.dirname(os.path.dirname(os.path.abspath(__file__)))
def addprop(id,title,statement,quantifier,why,anchors,design):
    p=root+'/properties.jsonl'
    ids=[json.loads(l)['id'] for l in open(p)]
    if id not in ids:
        open(p,'a').write(json.dumps(dict(id=id,title=title,statement=statement,quantifier=quantifier,why_tests_cant=why,anchors=anchors))+'\n')
    d=root+'/DESIGN.md'
    s=open(d).read()
    if f'* **{id} ' not in s:
        open(d,'w').write(s.rstrip('\n')+f'\n* **{id} {title}** — {design}\n')
def note(id,status,text):
    f=root+'/tools/notes.json'
    n=json.load(open(f)); n[id]=[status,text]
    json.dump(n,open(f,'w'),indent=1)

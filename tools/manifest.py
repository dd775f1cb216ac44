import json,re,glob
ths={}
for f in sorted(glob.glob('/verif/lean/Verif/Props/*.lean')):
    ns=[]
    for line in open(f):
        m=re.match(r'namespace (\S+)',line)
        if m: ns.append(m.group(1)); continue
        m=re.match(r'end (\S+)',line)
        if m and ns and ns[-1]==m.group(1): ns.pop(); continue
        m=re.match(r'(?:protected )?theorem (C(\d\d+)_\w+)',line)
        if m: ths.setdefault('C'+m.group(2),[]).append('.'.join(ns+[m.group(1)]))
exec(open('/tmp/w/notes.py').read())
claims=[]
for l in open('/verif/properties.jsonl'):
    p=json.loads(l)['id']
    t=ths.get(p,[])
    st,note=NOTES.get(p,(None,""))
    if st is None: st='proved' if t else 'not_applicable'
    if not t:
        print("no theorem",p); continue
    if st=='proved' and any(x.endswith('_partial') for x in t): print("WARN partial?",p)
    claims.append(dict(property=p,status=st,theorems=t,note=note))
json.dump(dict(claims=claims),open('/verif/MANIFEST.json','w'),indent=1)
print(len(claims), sum(len(c['theorems']) for c in claims))

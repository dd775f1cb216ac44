import json,re,sys,glob
props={}
for l in open('/verif/properties.jsonl'):
    x=json.loads(l); props[x['id']]=x
man={c['property']:c for c in json.load(open('/verif/MANIFEST.json'))['claims']}
src={}
for f in glob.glob('/verif/lean/Verif/Props/*.lean'):
    s=open(f).read()
    for m in re.finditer(r'((?:/--(?:(?!-/).)*?-/\s*)?)theorem (\S+)(.*?):=(?= by\n| by$|\n| )',s,re.S):
        src[m.group(2)]=(f,m.group(1)+'theorem '+m.group(2)+m.group(3))
for i in sys.argv[1:]:
    p=props[i]; c=man[i]
    print('=====',i,p['title']); print(p['statement']); print('Q:',p['quantifier']); print('NOTE:',c['note'])
    for t in c['theorems']:
        k=t.split('.')[-1]
        r=src.get(k) or src.get(t)
        print('--',t, r[0].split('/')[-1] if r else '??'); print(r[1] if r else '')

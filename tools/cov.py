import re,os,glob,collections
cov=collections.defaultdict(set)
for f in glob.glob('/verif/lean/Verif/**/*.lean',recursive=True):
    s=open(f).read()
    for m in re.finditer(r'([\w/]+\.(?:h|cpp|tcc)):([\d,\-– ]+)',s):
        for part in re.split(r'[, ]+',m.group(2)):
            mm=re.match(r'^(\d+)(?:[-–](\d+))?$',part)
            if mm:
                a=int(mm.group(1));b=int(mm.group(2) or a)
                if b<a: 
                    continue
                cov[m.group(1)].update(range(a,b+1))
for root,d,fs in os.walk('/repo/src'):
    for f in sorted(fs):
        p=os.path.join(root,f);rel=p[len('/repo/src/'):]
        lines=open(p,errors='replace').read().split('\n')
        c=set()
        for k in cov:
            if rel==k or rel.endswith('/'+k) or k.endswith('/'+rel) : c|=cov[k]
        code=[i+1 for i,l in enumerate(lines) if l.strip() and not l.strip().startswith(('//','/*','*','#','}','{','namespace'))]
        un=[i for i in code if i not in c]
        if len(un)>5:
            # ranges
            r=[];
            for i in un:
                if r and i-r[-1][1]<=2: r[-1][1]=i
                else: r.append([i,i])
            print(rel,len(code),len(un),' '.join(f'{a}-{b}' for a,b in r if b-a>=2))

# writes /verif/AXIOMS.md: the axioms each claimed theorem depends on (run after lake build)
import json,re,subprocess
m=json.load(open('/verif/MANIFEST.json'))
ts=[t for c in m['claims'] for t in c['theorems']]
open('/tmp/ax.lean','w').write('import Verif\n'+''.join(f'#print axioms {t}\n' for t in ts))
s=subprocess.run(['lake','env','lean','/tmp/ax.lean'],cwd='/verif/lean',capture_output=True,text=True).stdout
ax={}
for k in re.finditer(r"'([^']+)' (does not depend on any axioms|depends on axioms: \[([^\]]*)\])",s):
    ax[k.group(1)]=re.sub(r'\s+',' ',k.group(3) or 'none')
out=['# Axioms each claimed theorem depends on','','Generated by tools/axioms.py from `#print axioms`.','','| theorem | axioms |','|---|---|']
for t in ts: out.append(f'| {t} | {ax[t]} |')
open('/verif/AXIOMS.md','w').write('\n'.join(out)+'\n')
bad=[a for a in ax.values() if set(x.strip() for x in a.split(','))-{'none','propext','Classical.choice','Quot.sound'}]
print(len(ax),bad)

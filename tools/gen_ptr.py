import re
src=open('/repo/tests/pointer_test.cpp').read()
T={'void':'voidT','Obj':'objT','Obj*':'objP','Obj**':'objPP','Child*':'childP','Parent*':'parentP','SmartChild':'sChild','SmartParent':'sParent'}
def arg(s):
    s=s.replace('const','').replace(' ','')
    return T[s]+'.val'
V={'o':'objT','po':'objP','ppo':'objPP','cpo':'objP','pc':'childP','pp':'parentP','sc':'sChild','sp':'sParent'}
M={'Exact':'.exact','Partial':'.part','None':'.none'}
out=[]
n=0
for m in re.finditer(r'BOOST_AUTO_TEST_CASE\((\w+)\)\n\{(.*?)\n\}\n',src,re.S):
    name,body=m.groups()
    ls=[]
    for l in body.split('\n'):
        l=l.strip()
        t=re.match(r'BOOST_CHECK_EQUAL\((\w+)\.test<(.*?)\((.*?)\)>\(\),\s*Match::(\w+)\)',l)
        if t:
            fn,ret,a,mt=t.groups()
            ls.append(f'    {fn}.test e {arg(ret)} [{arg(a)}] = {M[mt]}')
            continue
        t=re.search(r'(\w+Fn)\.call<(.*?)>\((Value\()?(\w+)\s*\)',l)
        if t:
            fn,ret,val,a=t.groups()
            if fn not in('ptrFn','ptrPtrFn','constPtrFn','childFn','parentFn','smartChildFn','smartParentFn'): continue
            act=f'(.dyn ⟨{V[a]}.lref, {a}, none⟩)' if val else f'(.native {V[a]}.lref {a})'
            if l.startswith('CHECK_ERROR'): ls.append(f'    throws (call {fn} {arg(ret)} {act}) = true')
            elif l.startswith('BOOST_CHECK'): ls.append(f'    points {a} (call {fn} {arg(ret)} {act}) = true')
            else: ls.append(f'    runs (call {fn} {arg(ret)} {act}) = true')
    if not ls: continue
    n+=len(ls)
    out.append(f'/-- pointer_test.cpp, {name} -/\nexample :\n'+' ∧\n'.join(ls)+' := by decide +kernel\n')
print(n)
open('/verif/lean/Verif/Conform/Pointer.lean','w').write(open('/tmp/w/ptr_head.lean').read()+'\n'.join(out)+open('/tmp/w/ptr_tail.lean').read())

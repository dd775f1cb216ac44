import re
src=open('/repo/tests/function_test.cpp').read()
T={'void':'voidT','int':'intT','unsigned':'uintT','Value':'valueT','Child':'childT','Parent':'parentT','Conv':'convT','Object':'objectT'}
def arg(s):
    s=s.strip()
    c=s.startswith('const ')
    if c: s=s[6:]
    if s.endswith('&&'): return f'{T[s[:-2].strip()]}.rref'
    if s.endswith('&'):
        t=T[s[:-1].strip()]
        return f'{t}.cref' if c else f'{t}.lref'
    return f'{T[s]}.val'
FN={
 'basics':('fn','Fn.make "foo".toList uintT.val [uintT.val, intT.lref, intT.cref, intT.rref] 40'),
 'void_test':('fn','Fn.make "foo".toList voidT.val [] 41'),
 'copy_test':('fn','Fn.make "foo".toList intT.val [intT.val] 42'),
 'lValue_test':('fn','Fn.make "foo".toList intT.lref [intT.lref] 43'),
 'constLValue_test':('fn','Fn.make "foo".toList intT.cref [intT.cref] 44'),
 'rValue_test':('fn','Fn.make "foo".toList voidT.val [intT.rref] 46'),
}
out=[]
for m in re.finditer(r'BOOST_AUTO_TEST_CASE\((\w+)\)\n\{(.*?)\n\}\n',src,re.S):
    name,body=m.groups()
    tests=re.findall(r'BOOST_CHECK_EQUAL\((\w+)\.test<(.*?)\((.*?)\)>\(\),\s*Match::(\w+)\)',body)
    if not tests: continue
    out.append(f'/-- function_test.cpp, {name} -/\nexample :')
    ls=[]
    for fn,ret,args,mt in tests:
        a=args.strip()
        al=[] if a in('','void') else [arg(x) for x in a.split(',')]
        mm={'Exact':'.exact','Partial':'.part','None':'.none'}[mt]
        f=('childParent' if name.startswith('child') else 'converters')+'_'+fn if fn!='fn' else name.replace('_test','')+'Fn'
        ls.append(f'    {f}.test e {arg(ret)} [{", ".join(al)}] = {mm}')
    out.append(' ∧\n'.join(ls)+' := by decide +kernel\n')
open('/tmp/w/fn_gen.txt','w').write('\n'.join(out))
print(sum(x.count('test e') for x in out))

import re
s=open('/verif/lean/Verif/Model/Json/Typed.lean').read()
def grab(start,end):
    i=s.index(start); j=s.index(end,i); return s[i:j].rstrip()+'\n'
pv=grab("def parseV (env","/-- `json::parse(reader, value)`")
pv=pv.replace("def parseV (env : Env) (c : PCache) :","def parseS (env : Env) (look : Nat × TyId × JV × Reader → PCache) :")
pv=pv.replace("match Assoc.get c ty with","match Assoc.get (look (n, ty, v, r)) ty with").replace("parseV env c","parseS env look")
ie=grab("def isEmptyV","/-- `printer->print(writer, value)`")
ie=ie.replace("def isEmptyV (env : Env) (c : WCache) : JV → TyId → Res Bool","def isEmptyS (env : Env) (look : JV × TyId → WCache) : JV → TyId → Res Bool").replace("match Assoc.get c ty with","match Assoc.get (look (v, ty)) ty with").replace("isEmptyV env c","isEmptyS env look")
pr=grab("def printV","/-- `json::print") if "/-- `json::print" in s else None
print(pv[:300]); print(ie[:300]); print(pr[-600:] if pr else 'NO')
open('/tmp/w/share_parts.txt','w').write(pv+'\n@@@\n'+ie+'\n@@@\n'+(pr or ''))

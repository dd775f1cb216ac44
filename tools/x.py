base='/tmp/wk/lean/Verif/'
def rep(a,b,c=1):
    global s
    assert s.count(a)==c,(a,s.count(a))
    s=s.replace(a,b)
f=base+'Lemmas/Json/SoundV.lean'
s=open(f).read()
i=s.index('theorem parseFloat_sound')
h=s[:i]; s=s[i:]
s=s.replace("""  obtain ⟨p, hp1, h⟩ := bind_ok h
  obtain ⟨x, hx, h⟩ := bind_ok h
""","""  obtain ⟨p, hp1, h⟩ := bind_ok h
  obtain ⟨_, _, h⟩ := bind_ok h
  obtain ⟨x, hx, h⟩ := bind_ok h
""",1)
s=h+s
i=s.index('theorem parseFloat_keeps')
h=s[:i]; s=s[i:]
s=s.replace("""  obtain ⟨p, hp1, h⟩ := bind_ok h
  obtain ⟨b, hb, h⟩ := bind_ok h
""","""  obtain ⟨p, hp1, h⟩ := bind_ok h
  obtain ⟨_, _, h⟩ := bind_ok h
  obtain ⟨b, hb, h⟩ := bind_ok h
""",1)
s=h+s
open(f,'w').write(s)
f=base+'Lemmas/Json/GraphFrame.lean'
s=open(f).read()
rep("""      · exact objLoop_inv hf n _ _ _ _ hc h""","""      · exact objLoop_inv hf n _ _ _ _ hc (mayAssert_bind h).2""")
rep("""      · exact arrLoop_inv hf n _ _ _ _ _ hc h""","""      · exact arrLoop_inv hf n _ _ _ _ _ hc (mayAssert_bind h).2""")
rep("""  · obtain ⟨q, _, h⟩ := Res.bind_ok h
    split at h
    · obtain ⟨e""","""  · obtain ⟨q, _, h⟩ := Res.bind_ok (mayAssert_bind h).2
    split at h
    · obtain ⟨e""",2)
open(f,'w').write(s)
f=base+'Props/JsonLex.lean'
s=open(f).read()
rep("obtain ⟨p', hp', h⟩ := bind_ok h","obtain ⟨p', hp', h⟩ := Res.bind_ok h")
open(f,'w').write(s)

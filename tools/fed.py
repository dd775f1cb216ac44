f='/tmp/wk/lean/Verif/Lemmas/Json/Fed.lean'
s=open(f).read()
def rep(a,b,c=1):
    global s
    assert s.count(a)==c,(a,s.count(a))
    s=s.replace(a,b)
rep("""  rw [h1]
  show Except.ok _ = _
  unfold Reader.assertToken
  rw [if_pos hx]; rfl""","""  rw [h1]
  show (r'.mayAssert t x >>= _) = _
  rw [mayAssert_eq r' hx]
  show Except.ok _ = _
  unfold Reader.assertToken
  rw [if_pos hx]; rfl""")
rep("""    rw [hl.2.ub]
    show Except.ok _ = _
    unfold Reader.assertToken
""","""    rw [hl.2.ub]
    show ((lexToken r).2.mayAssert (lexToken r).1 _ >>= _) = _
    rw [mayAssert_eq _ (by rw [hl.1])]
    show Except.ok _ = _
    unfold Reader.assertToken
""")
open(f,'w').write(s)

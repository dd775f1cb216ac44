base='/tmp/wk/lean/Verif/'
def rep(a,b,c=1):
    global s
    assert s.count(a)==c,(a,s.count(a))
    s=s.replace(a,b)
f=base+'Props/JsonRound.lean'
s=open(f).read()
print(s[:400])
rep("(hx : IntGram (env.fmtG x)) (u : JV) :\n    ∃ n0, ∀ n, n0 ≤ n → (∃ w","(hx : IntGram (env.fmtG x)) (hl : (env.fmtG x).length ≤ 969) (u : JV) :\n    ∃ n0, ∀ n, n0 ≤ n → (∃ w")
rep("""      rw [e1, okb]
      rfl
    rw [this]
    rfl""","""      rw [e1, okb]
      have hb : Brief (⟨.int, .buffer⟩, r) := by
        intro z hz
        have : r.buf = z := Option.some.inj hz
        rw [← this, e3 _ rfl]; exact hl
      have := invalid_safe hb (n := "float") (Or.inl (by decide))
      show (do let f ← Token.asFloatText ⟨.int, .buffer⟩ r; Except.ok (f, r) : Res (Bytes × Reader)) = _
      unfold Token.asFloatText
      rw [if_neg (by simp)]
      show Except.error (Token.invalid ⟨.int, .buffer⟩ r "float") = _
      rw [this]
    rw [this]
    rfl""")
rep("""/-- 2.0 is printed as `2`. -/
example : IntGram (Ex.env.fmtG Ex.f20) := ⟨""","""/-- 2.0 is printed as `2`. -/
example : IntGram (Ex.env.fmtG Ex.f20) ∧ (Ex.env.fmtG Ex.f20).length ≤ 969 := ⟨⟨""")
i=s.index("(Ex.env.fmtG Ex.f20).length ≤ 969 :="); s=s[:i]+s[i:].replace("by unfold Digits; decide, by decide⟩","by unfold Digits; decide, by decide⟩, by decide⟩",1)
i=s.index('import'); s=s[:i]+"import Verif.Lemmas.Json.Safe\n"+s[i:]
open(f,'w').write(s)

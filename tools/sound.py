import re
f='/tmp/wk/lean/Verif/Lemmas/Json/Sound.lean'
s=open(f).read()
def rep(a,b,c=1):
    global s
    assert s.count(a)==c,(a,s.count(a))
    s=s.replace(a,b)
rep("""    rw [hq, okb] at hp
    injection hp with hp
    subst hp
    obtain ⟨h1, h2⟩ := assert_err he
    refine""","""    rw [hq, okb] at hp
    obtain ⟨-, hp⟩ := mayAssert_bind hp
    injection hp with hp
    subst hp
    obtain ⟨h1, h2⟩ := assert_err he
    refine""")
rep("""      · have hx2 : (e.2.assertToken""","""      · obtain ⟨-, h⟩ := mayAssert_bind h
        have hx2 : (e.2.assertToken""",2)
rep("""      rw [if_neg hx] at h
      apply Classical""","""      rw [if_neg hx] at h
      obtain ⟨-, h⟩ := mayAssert_bind h
      apply Classical""",2)
rep("""          rw [if_neg hend] at h
          have e1 : (e.1, v) = Tok.comma""","""          rw [if_neg hend] at h
          obtain ⟨-, h⟩ := mayAssert_bind h
          have e1 : (e.1, v) = Tok.comma""",2)
rep("""  · obtain ⟨p2, hp2, h⟩ := bind_ok h
    have h2 : (p.2.assert""","""  · obtain ⟨-, h⟩ := mayAssert_bind h
    obtain ⟨p2, hp2, h⟩ := bind_ok h
    have h2 : (p.2.assert""",2)
rep("""  · rw [if_neg hnull] at h
    obtain ⟨p2""","""  · rw [if_neg hnull] at h
    obtain ⟨-, h⟩ := mayAssert_bind h
    obtain ⟨p2""",2)
open(f,'w').write(s)
f='/tmp/wk/lean/Verif/Lemmas/Json/GraphSim.lean'
s=open(f).read()
rep("""theorem objLoop_sim {""","""theorem Sim.may {σ τ : Type} {R : σ → τ → Prop} {r : Reader} {t : Token} {x : TokType} {f : Res (σ × Reader)}
    {g : Res (τ × Reader)} (h : Sim R f g) :
    Sim R (r.mayAssert t x >>= fun _ => f) (r.mayAssert t x >>= fun _ => g) := by
  rcases mayAssert_or r t x with e | e <;> rw [e]
  · exact h
  · exact rfl

theorem objLoop_sim {""")
rep("exact objLoop_sim hf n c.1 b' _ e2","exact Sim.may (objLoop_sim hf n c.1 b' _ e2)")
rep("exact arrLoop_sim hf n (i + 1) c.1 b' _ e2","exact Sim.may (arrLoop_sim hf n (i + 1) c.1 b' _ e2)")
rep("""    · cases h2 : (p.2""","""    · apply Sim.may
      cases h2 : (p.2""",2)
open(f,'w').write(s)

import re
f='/tmp/wk/lean/Verif/Lemmas/Json/Mem.lean'
s=open(f).read()
s=s.replace("have herr : (r1.error .unexpectedChar).buf = r1.buf := by\n        unfold Reader.error; split <;> rfl","have herr : (r1.error (.unexpectedChar c)).buf = r1.buf := by\n        unfold Reader.error; split <;> rfl")
open(f,'w').write(s)
f='/tmp/wk/lean/Verif/Lemmas/Json/Loop.lean'
s=open(f).read()
def rep(a,b,c=1):
    global s
    assert s.count(a)==c,(a,s.count(a))
    s=s.replace(a,b)
rep("""theorem expectToken_fine (r""","""theorem verrorFormat_or (m : Bytes) : (∃ s, verrorFormat m = .ok s) ∨ verrorFormat m = .error .ub := by
  unfold verrorFormat makeString
  simp only
  split
  · exact Or.inl ⟨_, rfl⟩
  · exact Or.inr rfl

theorem format_or (r : Reader) (m : Msg) : r.format m = .ok () ∨ r.format m = .error .ub := by
  unfold Reader.format
  split
  · exact Or.inl rfl
  · rcases verrorFormat_or m.text with ⟨s, h⟩ | h
    · rw [h]; exact Or.inl rfl
    · rw [h]; exact Or.inr rfl

/-- Raising an error about a token either works or is undefined. -/
theorem mayAssert_or (r : Reader) (t : Token) (x : TokType) :
    r.mayAssert t x = .ok () ∨ r.mayAssert t x = .error .ub := by
  unfold Reader.mayAssert
  split
  · exact Or.inl rfl
  · exact format_or r _

theorem invalid_or (t : Token) (r : Reader) (n : String) : t.invalid r n = .err ∨ t.invalid r n = .ub := by
  unfold Token.invalid
  generalize hm : ascii "invalid conversion of token " ++ cstr (printToken t.type (t.text r)) ++ ascii " to <" ++
    ascii n ++ ascii ">" = m
  rcases verrorFormat_or m with ⟨s, h⟩ | h
  · rw [h]; exact Or.inl rfl
  · rw [h]; exact Or.inr rfl

theorem mayAssert_eq {t : Token} {x : TokType} (r : Reader) (h : t.type = x) : r.mayAssert t x = .ok () := by
  unfold Reader.mayAssert; rw [if_pos h]

theorem mayAssert_not_ok {r : Reader} {t : Token} {x : TokType} (h : r.ok = false) (ht : r.err ≠ none) :
    r.mayAssert t x = .ok () := by
  unfold Reader.mayAssert Reader.format
  split
  · rfl
  · cases he : r.err with
    | none => exact absurd he ht
    | some e => rfl

theorem mayAssert_fine (r : Reader) (t : Token) (x : TokType) : Fine (r.mayAssert t x) (fun _ => True) := by
  rcases mayAssert_or r t x with h | h <;> rw [h]
  · exact Fine.ok trivial
  · exact Fine.err (by decide)

theorem invalid_ne (t : Token) (r : Reader) (n : String) : t.invalid r n ≠ .diverge := by
  rcases invalid_or t r n with h | h <;> rw [h] <;> decide

/-- The value of a computation that first formats a message. -/
theorem mayAssert_bind {α : Type} {r : Reader} {t : Token} {x : TokType} {k : Unit → Res α} {v : α}
    (h : (r.mayAssert t x >>= k) = .ok v) : r.mayAssert t x = .ok () ∧ k () = .ok v := by
  rcases mayAssert_or r t x with h2 | h2
  · rw [h2] at h; exact ⟨h2, h⟩
  · rw [h2] at h; cases h

theorem expectToken_fine (r""")
rep("""  have ha := assertToken_p p.2 p.1 x
  exact Fine.ok""","""  have ha := assertToken_p p.2 p.1 x
  apply Fine.bind (mayAssert_fine p.2 p.1 x)
  intro _ _
  exact Fine.ok""")
rep("""        · exact Fine.ok trivial
        · exact Fine.err (by decide)
      intro _ _""","""        · exact Fine.ok trivial
        · exact Fine.err (invalid_ne _ _ _)
      intro _ _""")
rep("""      · have ha := assertToken_p e.2 e.1 .separator
""","""      · have ha := assertToken_p e.2 e.1 .separator
        apply Fine.bind (mayAssert_fine e.2 e.1 _)
        intro _ _
""",2)
rep("""  · have ha := assertToken_p p.2 p.1 .objectStart
""","""  · have ha := assertToken_p p.2 p.1 .objectStart
    apply Fine.bind (mayAssert_fine p.2 p.1 _)
    intro _ _
""")
rep("""  · have ha := assertToken_p p.2 p.1 .arrayStart
""","""  · have ha := assertToken_p p.2 p.1 .arrayStart
    apply Fine.bind (mayAssert_fine p.2 p.1 _)
    intro _ _
""")
rep("Le.ite (Le.refl _) (ih m (by omega) _ _))","Le.ite (Le.refl _) (Le.bind (Le.refl _) fun _ => ih m (by omega) _ _))")
rep("Le.ite (Le.refl _) (ih m (by omega) _ _ _))","Le.ite (Le.refl _) (Le.bind (Le.refl _) fun _ => ih m (by omega) _ _ _))")
rep("Le.ite (Le.refl _) (Le.bind (Le.refl _) fun q =>","Le.ite (Le.refl _) (Le.bind (Le.refl _) fun _ => Le.bind (Le.refl _) fun q =>",2)
open(f,'w').write(s)

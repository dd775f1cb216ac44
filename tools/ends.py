import re
f='/tmp/wk/lean/Verif/Lemmas/Json/Ends.lean'
s=open(f).read()
def rep(a,b,c=1):
    global s
    assert s.count(a)==c,(a,s.count(a))
    s=s.replace(a,b)
for k in ('arrayStart','objectStart'):
    rep("""  · have ha := assertToken_p p.2 p.1 .%s
"""%k,"""  · have ha := assertToken_p p.2 p.1 .%s
    apply Fine.bind (mayAssert_fine p.2 p.1 _)
    intro _ _
"""%k)
for k in ('Bool','Int','String'):
    i=s.index('unfold Token.as'+k); j=s.index('exact Fine.err (by decide)',i)
    s=s[:j]+'exact Fine.err (invalid_ne _ _ _)'+s[j+len('exact Fine.err (by decide)'):]
rep("""  simp only
  apply Fine.bind (P := fun _ => True)
  · unfold Token.asFloatText
    split
    · exact Fine.ok trivial
    · exact Fine.err (by decide)""","""  simp only
  apply Fine.bind (P := fun _ => True)
  · split
    · exact Fine.ok trivial
    · exact mayAssert_fine _ _ _
  intro _ _
  apply Fine.bind (P := fun _ => True)
  · unfold Token.asFloatText
    split
    · exact Fine.ok trivial
    · exact Fine.err (invalid_ne _ _ _)""")
open(f,'w').write(s)
f='/tmp/wk/lean/Verif/Props/JsonLex.lean'
s=open(f).read()
rep("""        rw [hp, okb] at h
        have := hnext r p n hp h1 h2
        refine ih _ r' n h ?_ ?_""","""        rw [hp, okb] at h
        obtain ⟨p', hp', h⟩ := bind_ok h
        obtain ⟨-, hp'⟩ := mayAssert_bind hp'
        injection hp' with hp'
        subst hp'
        have := hnext r p n hp h1 h2
        refine ih _ r' n h ?_ ?_""")
rep("e.msg = .utf8Header)","e.msg = .utf8Header 0x80)")
rep("(·.msg == .utf8Header)","(·.msg == .utf8Header 0x80)")
rep("e.msg = .unexpectedChar ∧","e.msg = .unexpectedChar 64 ∧")
rep("e.msg == .unexpectedChar &&","e.msg == .unexpectedChar 64 &&")
i=s.index("/-- `Reader::expectToken`: the next"); j=s.index("/-- non-vacuity: on `7` a string is")
s=s[:i]+'''/-- `Reader::expectToken`: the next token if it is of the type asked for; otherwise a token of type `EOS`, whatever the
text has, and the reader is in error: about this token, unless there was an error before. Formatting the message, which
includes the text of the token, is undefined if it has more than 1024 bytes. -/
theorem C49_expect (r r0 : Reader) (t : Token) (x : TokType) (hn : r.nextToken = .ok (t, r0)) :
    (t.type = x → r.expectToken x = .ok (t, r0)) ∧
    (t.type ≠ x → r0.err ≠ none ∨ (Msg.unexpectedToken t.type (t.text r0) x).text.length ≤ 1024 →
      ∃ r', r.expectToken x = .ok (⟨.eos, .none⟩, r') ∧ r'.err ≠ none ∧
        (r0.err = none → r'.err = some ⟨r0.line, r0.pos, .unexpectedToken t.type (t.text r0) x⟩) ∧
        (∀ e, r0.err = some e → r'.err = some e)) ∧
    (t.type ≠ x → r0.err = none → 1024 < (Msg.unexpectedToken t.type (t.text r0) x).text.length →
      r.expectToken x = .error .ub) := by
  have hx : r.expectToken x = (r0.mayAssert t x >>= fun _ =>
      .ok (if (r0.assertToken t x).1 then t else ⟨.eos, .none⟩, (r0.assertToken t x).2)) := by
    unfold Reader.expectToken
    rw [hn]; rfl
  rw [hx]
  refine ⟨?_, ?_, ?_⟩
  · intro h
    rw [mayAssert_eq _ h]
    show Except.ok _ = _
    unfold Reader.assertToken
    simp [h]
  · intro h hfit
    have hm : r0.mayAssert t x = .ok () := by
      unfold Reader.mayAssert
      rw [if_neg h]
      rcases hfit with he | hl
      · exact format_err _ he
      · exact format_fits _ hl
    rw [hm]
    unfold Reader.assertToken
    rw [if_neg h]
    exact ⟨_, rfl, Reader.error_err _ _, fun h0 => C49_error_at_current_line r0 _ h0, fun e he => by rw [Reader.error_of_err he, he]⟩
  · intro h he hl
    unfold Reader.mayAssert
    rw [if_neg h, format_long he hl]
    rfl

'''+s[j:]
open(f,'w').write(s)
f='/tmp/wk/lean/Verif/Lemmas/Json/Loop.lean'
s=open(f).read()
rep("""/-- Raising an error about a token either""","""theorem store_length (s : Bytes) : ∀ (b : List (Option Byte)) (i : Nat), (store b i s).length = b.length := by
  induction s with
  | nil => intro b i; rfl
  | cons c s ih => intro b i; unfold store; rw [ih, List.length_set]

theorem verrorFormat_fits {m : Bytes} (h : m.length ≤ 1024) : ∃ s, verrorFormat m = .ok s := by
  unfold verrorFormat makeString vsnprintf
  simp only [store_length]
  rw [if_pos (by simpa [newBuf] using h)]
  exact ⟨_, rfl⟩

theorem verrorFormat_long {m : Bytes} (h : 1024 < m.length) : verrorFormat m = .error .ub := by
  unfold verrorFormat makeString vsnprintf
  simp only [store_length]
  rw [if_neg (by simpa [newBuf] using h)]

theorem format_err {r : Reader} (m : Msg) (h : r.err ≠ none) : r.format m = .ok () := by
  unfold Reader.format
  cases he : r.err with
  | none => exact absurd he h
  | some e => rfl

theorem format_fits (r : Reader) {m : Msg} (h : m.text.length ≤ 1024) : r.format m = .ok () := by
  unfold Reader.format
  obtain ⟨s, e⟩ := verrorFormat_fits h
  split
  · rfl
  · rw [e]

theorem format_long {r : Reader} {m : Msg} (he : r.err = none) (h : 1024 < m.text.length) : r.format m = .error .ub := by
  unfold Reader.format
  rw [he, verrorFormat_long h]

/-- Raising an error about a token either""")
open(f,'w').write(s)

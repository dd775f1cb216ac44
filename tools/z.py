base='/tmp/wk/lean/Verif/'
import re
def rep(a,b,c=1):
    global s
    assert s.count(a)==c,(a,s.count(a))
    s=s.replace(a,b)
f=base+'Lemmas/Json/Safe.lean'
s=open(f).read()
rep("""  unfold Token.text Reader.error
  split <;> (cases t.val <;> rfl)""","""  unfold Token.text Reader.error
  split
  · rfl
  · rfl
  · split <;> rfl""")
rep("""theorem readNumber_err (r""","""@[simp] theorem pop_err (r : Reader) : r.pop.2.err = r.err := by unfold Reader.pop; repeat' split; all_goals rfl
@[simp] theorem peek_err' (r : Reader) : r.peek.2.err = r.err := by unfold Reader.peek; repeat' split; all_goals rfl

theorem readDigits_err (r : Reader) : (readDigits r).err = r.err := by
  fun_induction readDigits r <;> simp_all [Reader.save]

theorem readChar_err (r : Reader) (c : Byte) : (readChar r c).2.err = r.err := by
  unfold readChar; repeat' split
  all_goals simp [Reader.save]

theorem readChars_err (r : Reader) (c d : Byte) : (readChars r c d).2.err = r.err := by
  unfold readChars; repeat' split
  all_goals simp [Reader.save]

theorem readNumber_err (r""")
rep("""theorem next_safe (hb : ¬ Unsafe o s0) (h : Hist o s0 Q r) : Safe r.nextToken (fun p =>
    Hist o s0 (fun ts => ∃ ts' v s y, Q ts' ∧ ts = ts' ++ [(p.1, v)] ∧ Reads o s [(p.1, v)] y) p.2) := by
""","""/-- the token can be written about -/
def Brief (p : Token × Reader) : Prop := ∀ x, p.1.text p.2 = some x → x.length ≤ 969

theorem length_cstr (s : Bytes) : (cstr s).length ≤ s.length := (List.takeWhile_sublist _).length_le

theorem print_length (t : TokType) : t.print.length ≤ 6 := by cases t <;> decide

theorem printToken_length {p : Token × Reader} (h : Brief p) : (printToken p.1.type (p.1.text p.2)).length ≤ 985 := by
  unfold printToken
  have h1 := print_length p.1.type
  have e1 : (ascii "<Token ").length = 7 := by decide
  have e2 : (ascii ">").length = 1 := by decide
  have e3 : (ascii ": ").length = 2 := by decide
  cases hx : p.1.text p.2 with
  | none => simp only [List.length_append, List.length_nil, e1, e2]; omega
  | some x =>
    have := h x hx
    simp only [List.length_append, e1, e2, e3]; omega

theorem mayAssert_safe {p : Token × Reader} (h : Brief p) (x : TokType) : p.2.mayAssert p.1 x = .ok () := by
  unfold Reader.mayAssert
  split
  · rfl
  · apply format_fits
    unfold Msg.text
    have h1 := printToken_length h
    have h2 := length_cstr (printToken p.1.type (p.1.text p.2))
    have h3 := print_length x
    have e1 : (ascii "unexpected token <").length = 18 := by decide
    have e2 : (ascii ">, expecting <").length = 14 := by decide
    have e3 : (ascii ">").length = 1 := by decide
    simp only [List.length_append, e1, e2, e3]
    omega

theorem invalid_safe {p : Token × Reader} (h : Brief p) {n : String} (hn : (ascii n).length ≤ 5) : p.1.invalid p.2 n = .err := by
  unfold Token.invalid
  obtain ⟨s, e⟩ := verrorFormat_fits (m := ascii "invalid conversion of token " ++ cstr (printToken p.1.type (p.1.text p.2)) ++
    ascii " to <" ++ ascii n ++ ascii ">") (by
      have h1 := printToken_length h
      have h2 := length_cstr (printToken p.1.type (p.1.text p.2))
      have e1 : (ascii "invalid conversion of token ").length = 28 := by decide
      have e2 : (ascii " to <").length = 5 := by decide
      have e3 : (ascii ">").length = 1 := by decide
      simp only [List.length_append, e1, e2, e3]
      omega)
  rw [e]

theorem next_safe (hb : ¬ Unsafe o s0) (h : Hist o s0 Q r) : Safe r.nextToken (fun p =>
    Hist o s0 (fun ts => ∃ ts' v s y, Q ts' ∧ ts = ts' ++ [(p.1, v)] ∧ Reads o s [(p.1, v)] y) p.2 ∧ Brief p) := by
""")
i=s.index("theorem next_safe ("); j=s.index("theorem peek_safe")
t=s[i:j]
t=t.replace("""    refine ⟨?_, fun hk => ?_⟩
""","""    refine ⟨⟨?_, fun hk => ?_⟩, ?_⟩
""")
t=t.replace("""        exact hist_lex hb h ht
""","""        refine ⟨hist_lex hb h ht, fun hx => absurd ?_ hx⟩
        rw [(lexToken_step r).tok]; exact ht
""")
t=t.replace("""        exact h.1
""","""        exact ⟨h.1.1, fun hx => absurd rfl hx⟩
""")
t=t.rstrip()+"""
    · unfold Reader.nextToken at hp
      split at hp
      · rename_i ht
        unfold Reader.checked at hp
        rw [if_neg (by rw [hist_lex hb h ht]; simp)] at hp
        injection hp with hp
        rw [← hp]
        exact hist_short hb h ht
      · rename_i ht
        injection hp with hp
        rw [← hp]
        exact h.1.2 ht

"""
s=s[:i]+t+s[j:]
i=s.index("theorem peek_safe ("); j=s.index("theorem assert_safe")
t=s[i:j]
t=t.replace("""        exact hist_lex hb h ht
""","""        exact ⟨hist_lex hb h ht, fun _ => hist_short hb h ht⟩
""")
s=s[:i]+t+s[j:]
rep("""∧ Reads o s [(t, v)] y ∧ t.type = x) p.2) := by
  unfold Reader.expectToken
  refine Safe.bind (next_safe hb h) fun p hp => Safe.ok ?_
  refine (assert_safe hp p.1 x).imp ?_
  rintro ts ⟨⟨ts', v, s, y, h1, h2, h3⟩, h4⟩
  exact ⟨ts', p.1, v, s, y, h1, h2, h3, h4⟩""","""∧ Reads o s [(t, v)] y ∧ t.type = x) p.2 ∧ Brief p) := by
  unfold Reader.expectToken
  refine Safe.bind (next_safe hb h) fun p ⟨hp, hs⟩ => ?_
  rw [mayAssert_safe hs]
  refine Safe.ok ⟨(assert_safe hp p.1 x).imp ?_, ?_⟩
  · rintro ts ⟨⟨ts', v, s, y, h1, h2, h3⟩, h4⟩
    exact ⟨ts', p.1, v, s, y, h1, h2, h3, h4⟩
  · unfold Reader.assertToken
    split
    · exact hs
    · intro x hx; cases hx""")
rep("""      refine Safe.bind (next_safe hb hq) fun e he => ?_
      split
      · exact Safe.ok he.inv
      · refine ih""","""      refine Safe.bind (next_safe hb hq) fun e ⟨he, hs⟩ => ?_
      split
      · exact Safe.ok he.inv
      · rw [mayAssert_safe hs]
        refine ih""")
rep("""    · refine Safe.bind (expect_safe hb h .string) fun p hp => ?_
""","""    · refine Safe.bind (expect_safe hb h .string) fun p ⟨hp, hps⟩ => ?_
""")
rep("""        · exact Safe.ok trivial
        · exact Safe.err (by decide)
      refine Safe.bind (expect_safe hb hp .keySeparator) fun q hq => ?_""","""        · exact Safe.ok trivial
        · rw [invalid_safe hps (by decide)]; exact Safe.err (by decide)
      refine Safe.bind (expect_safe hb hp .keySeparator) fun q ⟨hq, _⟩ => ?_""")
rep("""      refine Safe.bind (next_safe hb hd) fun e he => ?_
      split
      · exact Safe.ok he.inv
      · exact ih""","""      refine Safe.bind (next_safe hb hd) fun e ⟨he, hs⟩ => ?_
      split
      · exact Safe.ok he.inv
      · rw [mayAssert_safe hs]
        exact ih""")
for k in ('array','object'):
    rep("""  refine Safe.bind (next_safe hb h) fun p hp => ?_
  split
  · exact Safe.ok hp.inv
  · refine Safe.bind (peek_safe hb (assert_safe hp p.1 .%sStart"""%k,"""  refine Safe.bind (next_safe hb h) fun p ⟨hp, hs⟩ => ?_
  split
  · exact Safe.ok hp.inv
  · rw [mayAssert_safe hs]
    refine Safe.bind (peek_safe hb (assert_safe hp p.1 .%sStart"""%k)
s=s.replace("(expect_safe hb hq _) fun e he => Safe.ok he.inv","(expect_safe hb hq _) fun e he => Safe.ok he.1.inv")
s=s.replace("(next_safe hb hp) fun q hq => Safe.ok hq.inv","(next_safe hb hp) fun q hq => Safe.ok hq.1.inv")
rep("exact Safe.bind (expect_safe hb h _) fun p hp => Safe.ok hp.inv","exact Safe.bind (expect_safe hb h _) fun p hp => Safe.ok hp.1.inv")
s=s.replace("refine Safe.bind (expect_safe hb h _) fun p hp => Safe.bind (P := fun _ => True) ?_ fun b _ => Safe.ok hp.inv","refine Safe.bind (expect_safe hb h _) fun p ⟨hp, hs⟩ => Safe.bind (P := fun _ => True) ?_ fun b _ => Safe.ok hp.inv")
for k in ('Bool','Int','String'):
    i=s.index('unfold Token.as'+k, s.index('parse%s_safe'%k)); j=s.index('exact Safe.err (by decide)',i)
    s=s[:j]+'rw [invalid_safe hs (by decide)]; exact Safe.err (by decide)'+s[j+len('exact Safe.err (by decide)'):]
rep("""  refine Safe.bind (next_safe hb h) fun p hp => ?_
  have h3""","""  refine Safe.bind (next_safe hb h) fun p ⟨hp, hs⟩ => ?_
  have hs2 : Brief (p.1, if p.1.type = .int then p.2 else (p.2.assertToken p.1 .float).2) := by
    split
    · exact hs
    · unfold Reader.assertToken
      split
      · exact hs
      · intro x hx
        rw [show Token.text p.1 (p.2.error _) = p.1.text p.2 from text_error _ _ _] at hx
        exact hs x hx
  have h3""")
rep("""  simp only
  refine Safe.bind (P := fun _ => True) ?_ fun b _ => Safe.ok h3
  unfold Token.asFloatText
  split
  · exact Safe.ok trivial
  · exact Safe.err (by decide)""","""  have h4 : (if p.1.type = .int then (.ok () : Res Unit) else p.2.mayAssert p.1 .float) = .ok () := by
    rw [mayAssert_safe hs]; split <;> rfl
  rw [h4]
  refine Safe.bind (P := fun _ => True) ?_ fun b _ => Safe.ok h3
  unfold Token.asFloatText
  split
  · exact Safe.ok trivial
  · rw [invalid_safe hs2 (by decide)]; exact Safe.err (by decide)""")
open(f,'w').write(s)

base='/tmp/wk/lean/Verif/'
def rep(a,b,c=1):
    global s
    assert s.count(a)==c,(a,s.count(a))
    s=s.replace(a,b)
f=base+'Lemmas/Json/Safe.lean'
s=open(f).read()
rep("unfold Reader.pop; repeat' split; all_goals rfl","by\n  unfold Reader.pop\n  repeat' split\n  all_goals rfl".replace("by\n  ","",1))
rep("unfold Reader.peek; repeat' split; all_goals rfl","unfold Reader.peek\n  repeat' split\n  all_goals rfl")
s=s.replace("r.pop.2.err = r.err := by unfold","r.pop.2.err = r.err := by\n  unfold").replace("r.peek.2.err = r.err := by unfold","r.peek.2.err = r.err := by\n  unfold")
rep("theorem print_length","""theorem print_length5 {t : TokType} (h : t ≠ .string) : t.print.length ≤ 5 := by
  cases t <;> first | decide | exact absurd rfl h

theorem print_length""")
rep("""theorem mayAssert_safe""","""theorem printToken_length5 {p : Token × Reader} (h : Brief p) (hs : p.1.type ≠ .string) :
    (printToken p.1.type (p.1.text p.2)).length ≤ 984 := by
  unfold printToken
  have h1 := print_length5 hs
  have e1 : (ascii "<Token ").length = 7 := by decide
  have e2 : (ascii ">").length = 1 := by decide
  have e3 : (ascii ": ").length = 2 := by decide
  cases hx : p.1.text p.2 with
  | none => simp only [List.length_append, List.length_nil, e1, e2]; omega
  | some x =>
    have := h x hx
    simp only [List.length_append, e1, e2, e3]; omega

theorem mayAssert_safe""")
rep("{n : String} (hn : (ascii n).length ≤ 5) :","{n : String}\n    (hn : (ascii n).length ≤ 5 ∨ (p.1.type ≠ .string ∧ (ascii n).length ≤ 6)) :")
rep("""      have h1 := printToken_length h
      have h2 := length_cstr (printToken p.1.type (p.1.text p.2))
      have e1 : (ascii "invalid""","""      have h1 := printToken_length h
      have h1' := printToken_length5 h
      have h2 := length_cstr (printToken p.1.type (p.1.text p.2))
      have e1 : (ascii "invalid""")
rep("""      simp only [List.length_append, e1, e2, e3]
      omega)""","""      simp only [List.length_append, e1, e2, e3]
      rcases hn with hn | ⟨hn1, hn2⟩
      · omega
      · have := h1' hn1
        omega)""")
rep("invalid_safe hps (by decide)","invalid_safe hps (Or.inr ⟨by assumption, by decide⟩)")
i=s.index('theorem parseString_safe')
s=s[:i]+s[i:].replace("invalid_safe hs (by decide)","invalid_safe hs (Or.inr ⟨by assumption, by decide⟩)",1)
s=s.replace("(by decide)]; exact Safe.err","(Or.inl (by decide))]; exact Safe.err")
s=s.replace("""  · rw [mayAssert_safe hs]
    refine Safe.bind (peek""","""  · rw [mayAssert_safe hs, okb]
    refine Safe.bind (peek""")
s=s.replace("""  rw [h4]
  refine Safe.bind""","""  rw [h4, okb]
  refine Safe.bind""")
open(f,'w').write(s)

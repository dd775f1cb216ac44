base='/tmp/wk/lean/Verif/'
def rep(a,b,c=1):
    global s
    assert s.count(a)==c,(a,s.count(a))
    s=s.replace(a,b)
f=base+'Props/JsonGraph.lean'
s=open(f).read()
rep("rw [h1, okb, if_neg (by rw [ho]; decide), show (r1.assert","rw [h1, okb, if_neg (by rw [ho]; decide), mayAssert_eq r1 ho, okb, show (r1.assert")
open(f,'w').write(s)
f=base+'Props/JsonRefuse.lean'
s=open(f).read()
for k in ('array','object'):
    rep("  show ((r1.assertToken _ .%sStart).2.peekToken"%k,"  rw [mayAssert_eq r1 (by rfl), okb]\n  show ((r1.assertToken _ .%sStart).2.peekToken"%k)
open(f,'w').write(s)
f=base+'Props/JsonRead.lean'
s=open(f).read()
rep("""/-- Parsing is defined on every text, except where validation is on and a string is broken off or has a byte
0xFF, and - if there are object types at all - where a value is missing. -/""","""/-- Parsing is defined on every text, except where validation is on and a string is broken off or has a byte
0xFF, where a string or a number has more than 969 bytes, and - if there are object types at all - where a value is
missing. -/""")
rep("""(s : Bytes) (hb : ¬ BrokenString o s) (hm :""","""(s : Bytes) (hb : ¬ BrokenString o s) (hl : ¬ LongToken o s) (hm :""")
rep("(parseV_safe hb g1","(parseV_safe (fun h => h.elim hb hl) g1")
rep("""/-- A text that begins with a document is never undefined, whatever the type. -/""","""theorem sep_quote {o : ROpts} {w s z : Bytes} (hw : Sep o w) (h : 34 :: z = w ++ s) : w = [] := by
  cases hw with
  | nil => rfl
  | ws c w hc _ =>
    injection h with h _
    subst h
    exact absurd hc (by decide)
  | comment body w _ _ _ =>
    simp only [List.append_assoc, List.cons_append] at h
    injection h with h _
    cases h

theorem lexeme_quote {o : ROpts} {a s z : Bytes} {t : Token} {v : Option Bytes} (hl : Lexeme o a t v) (h : 34 :: z = a ++ s) :
    ∃ t v, StrBody o t v ∧ z = t ++ 34 :: s := by
  have num : ∀ {a s : Bytes}, IntText a → 34 :: z = a ++ s → False := by
    rintro a s ⟨c, ds, rfl, hc, _⟩ h
    injection h with h _
    subst h
    rcases hc with h | h
    · cases h
    · have := h 34 (by simp)
      revert this; decide
  cases hl with
  | string t v hb =>
    simp only [List.append_assoc, List.cons_append, List.nil_append] at h
    injection h with _ h
    exact ⟨t, v, hb, h⟩
  | int _ hi => exact (num hi h).elim
  | float _ hf =>
    obtain ⟨i, f, x, rfl, hi, _⟩ := hf
    rw [List.append_assoc, List.append_assoc] at h
    exact (num hi h).elim
  | _ => injection h with h _; cases h

/-- Where a text has nothing but tokens, a quote opens a string. -/
theorem spells_quote {o : ROpts} {z : Bytes} {ts : List Tok} (h : Spells o (34 :: z) ts) :
    ∃ t v z', StrBody o t v ∧ z = t ++ 34 :: z' := by
  obtain ⟨y, hr, w, hw, hy⟩ := h
  cases ts with
  | nil =>
    have := reads_nil_inv hr
    subst this
    rcases hy with hy | ⟨_, body, _, hy⟩
    · have := sep_quote hw (s := []) (by rw [hy]; simp)
      subst this; cases hy
    · rw [List.append_assoc] at hy
      have := sep_quote hw hy
      subst this
      injection hy with hy _
      cases hy
  | cons p ts =>
    obtain ⟨t, v⟩ := p
    obtain ⟨w', a, s', e, h1, h2, _, _⟩ := reads_cons_inv hr
    rw [List.append_assoc] at e
    have := sep_quote h1 e
    subst this
    obtain ⟨t', v', h3, h4⟩ := lexeme_quote h2 e
    exact ⟨t', v', s', h3, h4⟩

/-- A text that is a document whose strings and numbers have at most 969 bytes is never undefined, whatever the type. -/""")
rep("""(s : Bytes) (x : JTree) (hx : Spells o s x.toks) (n : Nat) :
    (parse env n c ty u (Reader.open o s)).1 ≠ .error .ub := by""","""(s : Bytes) (x : JTree) (hx : Spells o s x.toks) (hl : ∀ t a, (t, some a) ∈ x.toks → a.length ≤ 969) (n : Nat) :
    (parse env n c ty u (Reader.open o s)).1 ≠ .error .ub := by""")
rep("""  · rintro _ ⟨ts, a, b, z, h1, h2⟩
    obtain ⟨T2, e, _⟩ := spells_unique ⟨y, hx, hy⟩ h1
""","""  · rintro (⟨ts, t, a, z, h1, h2⟩ | ⟨ts, w, z, h1, h2, h3, _⟩)
    · obtain ⟨T2, e, _⟩ := spells_unique ⟨y, hx, hy⟩ h1
      have := hl t a (by rw [e]; simp)
      omega
    · obtain ⟨T2, _, hsp⟩ := spells_unique ⟨y, hx, hy⟩ h1
      obtain ⟨t, v, z', h4, h5⟩ := spells_quote (spells_strip h2 hsp)
      exact h3 t v z' h4 h5
  · rintro _ ⟨ts, a, b, z, h1, h2⟩
    obtain ⟨T2, e, _⟩ := spells_unique ⟨y, hx, hy⟩ h1
""")
rep("""(hy : y.length < s2.length) (hb : ¬ BrokenString o s1) :
    ∃ n0, ∀ n, n0 ≤ n →
      (parse""","""(hy : y.length < s2.length) (hb : ¬ BrokenString o s1) (hl : ¬ LongToken o s1) :
    ∃ n0, ∀ n, n0 ≤ n →
      (parse""")
rep("c hc o ty ht u s1 hb (fun _","c hc o ty ht u s1 hb hl (fun _")
open(f,'w').write(s)

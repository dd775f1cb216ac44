base='/tmp/wk/lean/Verif/'
import re
def rep(a,b,c=1):
    global s
    assert s.count(a)==c,(a,s.count(a))
    s=s.replace(a,b)
f=base+'Props/JsonLex.lean'
s=open(f).read()
rep("""        obtain ⟨p', hp', h⟩ := Res.bind_ok h
        obtain ⟨-, hp'⟩ := mayAssert_bind hp'
        injection hp' with hp'
        subst hp'
""","""        cases hm : p.2.mayAssert p.1 t with
        | error e => rw [hm] at h; cases h
        | ok u =>
        rw [hm] at h
        replace h : runOps l (p.2.assertToken p.1 t).2 = .ok r' := h
""")
open(f,'w').write(s)
f=base+'Spec/JsonUb.lean'
s=open(f).read()
rep("""/-- `Misplaced""","""/-- A token that `error` cannot write about (error.cpp:24): a string or a number of more than 969 bytes, or more than
968 bytes after the opening quote of a string that is not one. -/
def LongToken (o : ROpts) (s : Bytes) : Prop :=
  (∃ ts t x y, Reads o s (ts ++ [(t, some x)]) y ∧ 969 < x.length) ∨
  (∃ ts w z, Reads o s ts (w ++ 34 :: z) ∧ Sep o w ∧ (∀ t v z', StrBody o t v → z ≠ t ++ 34 :: z') ∧ 968 < z.length)

/-- `Misplaced""")
rep("""  The texts on which""","""  The texts on which""")
open(f,'w').write(s)
f=base+'Lemmas/Json/Safe.lean'
s=open(f).read()
s=s.replace("import Verif.Lemmas.Json.Ends","import Verif.Lemmas.Json.Ends\nimport Verif.Lemmas.Json.Mem")
s=s.replace("¬ BrokenString o s0","¬ Unsafe o s0")
rep("""/-- If the reader is usable, the tokens""","""/-- what is undefined whatever the tokens mean -/
def Unsafe (o : ROpts) (s : Bytes) : Prop := BrokenString o s ∨ LongToken o s

/-- the text of the token looked ahead at can be written about -/
def Short (r : Reader) : Prop := r.tok.type ≠ .noToken → ∀ x, r.tok.text r = some x → x.length ≤ 969

/-- If the reader is usable, the tokens""")
rep("""  r.ub = false ∧ (r.ok = true →""","""  (r.ub = false ∧ Short r) ∧ (r.ok = true →""")
rep("""  ⟨by rw [error_ub]; exact h.1, fun hk => by rw [Reader.error_not_ok] at hk; cases hk⟩
""","""  ⟨⟨by rw [error_ub]; exact h.1.1, short_error h.1.2 m⟩, fun hk => by rw [Reader.error_not_ok] at hk; cases hk⟩
""")
rep("""theorem Hist.error""","""theorem text_error (t : Token) (r : Reader) (m : Msg) : t.text (r.error m) = t.text r := by
  unfold Token.text Reader.error
  split <;> (cases t.val <;> rfl)

theorem short_error (h : Short r) (m : Msg) : Short (r.error m) := by
  unfold Short
  rw [text_error]
  have : (r.error m).tok = r.tok := by unfold Reader.error; split <;> rfl
  rw [this]
  exact h

theorem Hist.error""")
rep("  ⟨rfl, fun _ => ⟨[], s, .nil s, Pos.open o s, trivial⟩⟩","  ⟨⟨rfl, fun h => absurd rfl h⟩, fun _ => ⟨[], s, .nil s, Pos.open o s, trivial⟩⟩")
rep("  | false => rw [lexToken_not_ok hk]; exact h.1\n","  | false => rw [lexToken_not_ok hk]; exact h.1.1\n")
rep("      refine hb ⟨hv,","      refine hb (Or.inl ⟨hv,")
rep("?_, hw, hB, hz⟩\n      rw [← e2, ← e]; exact h1","?_, hw, hB, hz⟩)\n      rw [← e2, ← e]; exact h1")
rep("""theorem next_safe (""","""theorem readNumber_err (r : Reader) (c : Byte) : (readNumber r c).2.err = r.err := by
  unfold readNumber
  simp only
  repeat' split
  all_goals simp [readDigits_err, readChar_err, readChars_err, Reader.resetBuffer, Reader.save]

/-- the tokens read from a state with a history can be written about -/
theorem hist_short (hb : ¬ Unsafe o s0) (h : Hist o s0 Q r) (ht : r.tok.type = .noToken) (x : Bytes)
    (hx : (lexToken r).1.text (lexToken r).2 = some x) : x.length ≤ 969 := by
  cases hk : r.ok with
  | false => rw [lexToken_not_ok hk] at hx; cases hx
  | true =>
    obtain ⟨ts, y, h1, h2, _⟩ := h.2 hk
    have hr : Ready o y r := by
      rcases h2 with h2 | ⟨t, v, w, a, s', _, _, _, _, h5, _⟩ | ⟨_, _, h3, _⟩
      · exact h2
      · exact absurd (by rw [← h5.tok]; exact ht) h5.type
      · rw [hk] at h3; cases h3
    obtain ⟨b, hs⟩ := hr
    by_cases hy : y = []
    · subst hy
      have := lex_trailing (o := o) ⟨[], Sep.nil, Or.inl rfl⟩ hs
      rw [this.1] at hx; cases hx
    have hat := hs.at hy
    by_cases he : (lexToken r).2.err = none
    · rcases lex_sound hat he with ⟨e, _⟩ | ⟨w, a, v, s', e1, e2, e3, e4, e5⟩
      · rw [e] at hx; cases hx
      · have hr1 : Reads o y [((lexToken r).1, v)] s' := by rw [e1]; exact reads_single e2 e3 e5
        have hbuf := e4.buf
        have hlong : ∀ z, v = some z → z.length ≤ 969 := by
          intro z hz
          apply Nat.le_of_not_lt
          intro hlt
          exact hb (Or.inr (Or.inl ⟨ts, (lexToken r).1, z, s', reads_append h1 (hz ▸ hr1), hlt⟩))
        generalize (lexToken r).1 = t at *
        generalize (lexToken r).2 = r2 at *
        cases e3 with
        | string t v _ => exact (Option.some.inj hx ▸ hbuf ▸ hlong v rfl)
        | int s _ => exact (Option.some.inj hx ▸ hbuf ▸ hlong _ rfl)
        | float s _ => exact (Option.some.inj hx ▸ hbuf ▸ hlong _ rfl)
        | true => cases hx; decide
        | false => cases hx; decide
        | _ => cases hx
    · unfold lexToken at hx he
      rw [if_pos hk] at hx he
      simp only at hx he
      by_cases hk2 : (nextChar r).2.ok = true
      · rw [if_pos hk2] at hx he
        rcases nextChar_sound y.length (Nat.le_refl _) hat with ⟨w, s', es, hw, hws, hok, hat'⟩ | ⟨k1, _⟩ | ⟨k1, _⟩
        · by_cases h34 : (nextChar r).1 = 34
          · have ha := hat' (by rw [h34]; decide)
            rw [h34] at hx he es
            have e1 : tokenAt (nextChar r).2 34 = (⟨.string, .buffer⟩, readString (nextChar r).2) := rfl
            rw [e1] at hx he
            cases hx
            have hpot := readStringLoop_pot _ (nextChar r).2.resetBuffer (Nat.le_refl _)
            rw [pot_reset, hk2, ha.rest] at hpot
            unfold Reader.pot at hpot
            simp only [if_true] at hpot
            show (readStringLoop (nextChar r).2.resetBuffer).buf.length ≤ 969
            have : s'.length ≤ 968 := by
              apply Nat.le_of_not_lt
              intro hlt
              refine hb (Or.inr (Or.inr ⟨ts, w, s', es ▸ h1, hw, ?_, hlt⟩))
              intro t v z' hB e
              apply he
              subst e
              exact (readString_complete hB ha.reset).err
            omega
          · by_cases hnum : (nextChar r).1 = 45 ∨ isDigit (nextChar r).1 = true
            · exfalso
              rw [tokenAt_number hnum] at he
              apply he
              show (readNumber _ _).2.err = none
              rw [readNumber_err]
              exact Reader.ok_err hk2
            · generalize (nextChar r).1 = c at *
              generalize (nextChar r).2 = r2 at *
              unfold tokenAt at hx
              rw [if_neg h34, if_neg hnum] at hx
              repeat' split at hx
              all_goals first
                | (cases hx; done)
                | (cases hx; decide)
        · rw [k1] at hk2; cases hk2
        · exact absurd (Reader.ok_err hk2) k1
      · rw [if_neg hk2] at hx; cases hx

theorem next_safe (""")
open(f,'w').write(s)

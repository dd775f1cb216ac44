import Verif.Lemmas.Json.Fed
import Verif.Spec.JsonCut
/- Whether the stream is still usable after a number that ends the text. -/
namespace Reflect.Json

variable {o : ROpts} {s b : Bytes} {r : Reader}

/-- at the end of the text, which was noticed -/
structure AtEof (r : Reader) : Prop where
  rest : r.rest = []
  err : r.err = none
  eof : r.eof = true
  fail : r.fail = false

theorem AtEof.ok (h : AtEof r) : r.ok = true := by simp [Reader.ok, h.err, h.fail]

theorem AtEof.peek (h : AtEof r) : r.peek = (255, { r with fail := true }) := by
  unfold Reader.peek; rw [h.eof]; rfl

theorem At.peek_nil (h : At o [] b r) : r.peek.1 = 255 ∧ AtEof r.peek.2 := by
  unfold Reader.peek
  rw [h.eof, h.fail, h.rest]
  exact ⟨rfl, rfl, h.err, rfl, rfl⟩

theorem readDigits_end : ∀ (ds : Bytes) {r : Reader} {b : Bytes}, Digits ds → At o ds b r → AtEof (readDigits r) := by
  intro ds
  induction ds with
  | nil =>
    intro r b _ h
    rw [readDigits.eq_def, dif_pos h.ok]
    have hp := h.peek_nil
    rw [hp.1, if_neg (by decide)]
    exact hp.2
  | cons c ds ih =>
    intro r b hd h
    have hc : isDigit c = true := (isDigit_iff c).mpr (hd c (by simp))
    rw [readDigits.eq_def, dif_pos h.ok, h.peek]
    simp only
    rw [if_pos hc]
    have hp := h.pop
    rw [hp.1]
    exact ih (fun x hx => hd x (by simp [hx])) (hp.2.save c)

theorem readDigits_at (ds u : Bytes) (hd : Digits ds) (hu : ∀ y, u.head? = some y → ¬ isDigit y = true) (hne : u ≠ [])
    (h : At o (ds ++ u) b r) : At o u (b ++ ds) (readDigits r) := by
  have h1 := readDigits_soft _ h.soft
  have h2 := span_digits hd hu
  rw [h2.1, h2.2] at h1
  exact h1.at hne

theorem readChar_hit {c : Byte} (h : At o (c :: s) b r) : readChar r c = (true, r.pop.2.save c) ∧ At o s (b ++ [c]) (r.pop.2.save c) := by
  have hp := h.pop
  refine ⟨?_, hp.2.save c⟩
  unfold readChar
  rw [if_pos h.ok, h.peek]
  simp only [if_true]
  rw [hp.1]

theorem readChar_miss {c d : Byte} (h : At o (d :: s) b r) (hd : d ≠ c) : readChar r c = (false, r) := by
  unfold readChar
  rw [if_pos h.ok, h.peek]
  simp only
  rw [if_neg hd]

theorem readChars_hit {c d x : Byte} (h : At o (x :: s) b r) (hx : x = c ∨ x = d) :
    readChars r c d = (true, r.pop.2.save x) ∧ At o s (b ++ [x]) (r.pop.2.save x) := by
  have hp := h.pop
  refine ⟨?_, hp.2.save x⟩
  unfold readChars
  rw [if_pos h.ok, h.peek]
  simp only
  by_cases hxc : x = c
  · rw [if_pos hxc, hp.1]
  · rw [if_neg hxc, h.peek]
    simp only
    rw [if_pos (hx.resolve_left hxc), hp.1]

theorem readChars_miss {c d x : Byte} (h : At o (x :: s) b r) (hc : x ≠ c) (hd : x ≠ d) : readChars r c d = (false, r) := by
  unfold readChars
  rw [if_pos h.ok, h.peek]
  simp only
  rw [if_neg hc, h.peek]
  simp only
  rw [if_neg hd]

theorem readChars_eof {c d : Byte} (h : AtEof r) (hc : c ≠ 255) (hd : d ≠ 255) : (readChars r c d).1 = false ∧ (readChars r c d).2.ok = false := by
  unfold readChars
  rw [if_pos h.ok, h.peek]
  simp only
  rw [if_neg (Ne.symm hc)]
  have : (Reader.peek { r with fail := true }) = (255, { r with fail := true }) := by
    unfold Reader.peek; simp
  rw [this]
  simp only
  rw [if_neg (Ne.symm hd)]
  exact ⟨rfl, by simp [Reader.ok]⟩

theorem readChars_nil {c d : Byte} (h : At o [] b r) (hc : c ≠ 255) (hd : d ≠ 255) : (readChars r c d).1 = false ∧ (readChars r c d).2.ok = false := by
  have hp := h.peek_nil
  unfold readChars
  rw [if_pos h.ok, hp.1, if_neg (Ne.symm hc), hp.2.peek]
  simp only
  rw [if_neg (Ne.symm hd)]
  exact ⟨rfl, by simp [Reader.ok]⟩

theorem readChar_eof {c : Byte} (h : AtEof r) (hc : c ≠ 255) : (readChar r c).1 = false ∧ (readChar r c).2.ok = false := by
  unfold readChar
  rw [if_pos h.ok, h.peek]
  simp only
  rw [if_neg (Ne.symm hc)]
  exact ⟨rfl, by simp [Reader.ok]⟩

theorem readChars_not_ok {c d : Byte} (h : r.ok = false) : readChars r c d = (false, r) := by
  unfold readChars; rw [if_neg (by simp [h])]

theorem readDigits_not_ok (h : r.ok = false) : readDigits r = r := by
  rw [readDigits.eq_def, dif_neg (by simp [h])]

/-- After a number that ends the text the stream is unusable, unless the number has an exponent with a sign or
digits. -/
theorem readNumber_end {c : Byte} {d f x : Bytes} (hd : Digits d) (hf : FracText f) (hx : ExpText x)
    (h : At o (d ++ f ++ x) b r) : (readNumber r c).2.ok = false ↔ x.length ≤ 1 := by
  have h0 := h.reset.save c
  unfold readNumber
  rcases hx with rfl | ⟨e, sg, ds, rfl, he, hsg, hds⟩
  · simp only [List.append_nil] at h0
    simp only [List.length_nil, Nat.zero_le, iff_true]
    rcases hf with rfl | ⟨fs, rfl, hfs⟩
    · rw [List.append_nil] at h0
      have h1 := readDigits_end d hd h0
      have h2 := readChar_eof h1 (c := 46) (by decide)
      rw [h2.1]
      simp only [Bool.false_eq_true, if_false]
      rw [readChars_not_ok h2.2]
      exact h2.2
    · have h1 := readDigits_at d (46 :: fs) hd (by intro y hy; simp at hy; subst hy; decide) (by simp) h0
      have h2 := readChar_hit h1
      rw [h2.1]
      simp only [if_true]
      have h3 := readDigits_end fs hfs h2.2
      have h4 := readChars_eof h3 (c := 101) (d := 69) (by decide) (by decide)
      rw [h4.1]
      exact h4.2
  · have hed : ∀ y, (e :: (sg ++ ds)).head? = some y → ¬ isDigit y = true := by
      intro y hy
      simp at hy; subst hy
      rcases he with rfl | rfl <;> decide
    have hfrac : ∃ b' r2, (if (readChar (readDigits (r.resetBuffer.save c)) 46).1 then
          (TokType.float, readDigits (readChar (readDigits (r.resetBuffer.save c)) 46).2)
        else (.int, (readChar (readDigits (r.resetBuffer.save c)) 46).2)).2 = r2 ∧ At o (e :: (sg ++ ds)) b' r2 := by
      rcases hf with rfl | ⟨fs, rfl, hfs⟩
      · rw [List.append_nil] at h0
        have h1 := readDigits_at d _ hd hed (by simp) h0
        rw [readChar_miss h1 (by rcases he with rfl | rfl <;> decide)]
        exact ⟨_, _, rfl, h1⟩
      · rw [List.append_assoc] at h0
        have h1 := readDigits_at d (46 :: fs ++ e :: (sg ++ ds)) hd (by intro y hy; simp at hy; subst hy; decide) (by simp) h0
        have h2 := readChar_hit h1
        rw [h2.1]
        have h3 := readDigits_at fs _ hfs hed (by simp) h2.2
        exact ⟨_, _, rfl, h3⟩
    obtain ⟨b', r2, hr2, h1⟩ := hfrac
    simp only [hr2]
    have h2 := readChars_hit (c := 101) (d := 69) h1 he
    rw [h2.1]
    simp only [if_true]
    have h3 := h2.2
    generalize r2.pop.2.save e = r3 at h3
    have signed : ∀ g : Byte, (g = 43 ∨ g = 45) → sg = [g] → ((readDigits (readChars r3 43 45).2).ok = false ↔ (e :: (sg ++ ds)).length ≤ 1) := by
      intro g hg hsg
      rw [hsg] at h3
      have h4 := readChars_hit (c := 43) (d := 45) h3 hg
      rw [h4.1]
      have h5 := readDigits_end ds hds h4.2
      simp [h5.ok, hsg]
    rcases hsg with hs | hs | hs
    · rw [hs, List.nil_append] at h3
      cases ds with
      | nil =>
        have h4 := readChars_nil h3 (c := 43) (d := 45) (by decide) (by decide)
        rw [readDigits_not_ok h4.2, h4.2, hs]
        simp
      | cons g ds =>
        have hg := hds g (by simp)
        have h4 := readChars_miss (c := 43) (d := 45) h3 (by rintro rfl; revert hg; decide) (by rintro rfl; revert hg; decide)
        rw [h4]
        have h5 := readDigits_end _ hds h3
        rw [h5.ok, hs]
        simp
    · exact signed 43 (Or.inl rfl) hs
    · exact signed 45 (Or.inr rfl) hs

theorem noExp_iff {c : Byte} {d f x : Bytes} (hc : c = 45 ∨ Digits [c]) (hd : Digits d) (hf : FracText f) (hx : ExpText x) :
    NoExp (c :: (d ++ f ++ x)) ↔ x.length ≤ 1 := by
  have dig : ∀ y : Byte, 48 ≤ y.toNat ∧ y.toNat ≤ 57 → y ≠ 101 ∧ y ≠ 69 := by
    apply forall_byte; decide +kernel
  have hcdf : ∀ y ∈ c :: (d ++ f), y ≠ 101 ∧ y ≠ 69 := by
    intro y hy
    rcases List.mem_cons.mp hy with rfl | hy
    · rcases hc with rfl | hc
      · decide
      · exact dig _ (hc _ (by simp))
    · rcases List.mem_append.mp hy with hy | hy
      · exact dig _ (hd _ hy)
      · rcases hf with rfl | ⟨fs, rfl, hfs⟩
        · cases hy
        · rcases List.mem_cons.mp hy with rfl | hy
          · decide
          · exact dig _ (hfs _ hy)
  rcases hx with rfl | ⟨e, sg, ds, rfl, he, _, _⟩
  · simp only [List.append_nil, List.length_nil, Nat.zero_le, iff_true]
    intro y hy
    exact hcdf y (List.dropLast_subset _ hy)
  · by_cases hl : sg ++ ds = []
    · rw [hl]
      simp only [List.length_singleton, Nat.le_refl, iff_true]
      have : c :: (d ++ f ++ [e]) = (c :: (d ++ f)) ++ [e] := by simp
      rw [this]
      intro y hy
      rw [List.dropLast_concat] at hy
      exact hcdf y hy
    · have hlen : ¬ (e :: (sg ++ ds)).length ≤ 1 := by
        have := List.length_pos_iff.mpr hl
        simp only [List.length_cons]; omega
      refine ⟨fun h => ?_, fun h => absurd h hlen⟩
      exfalso
      have hmem : e ∈ (c :: (d ++ f ++ e :: (sg ++ ds))).dropLast := by
        have e1 : c :: (d ++ f ++ e :: (sg ++ ds)) = ((c :: (d ++ f)) ++ [e]) ++ (sg ++ ds) := by simp
        rw [e1, List.dropLast_append_of_ne_nil hl]
        simp
      have := h e hmem
      rcases he with he | he
      · exact this.1 he
      · exact this.2 he

/-- The stream after reading a number that ends the text. -/
theorem lex_number_end {t : Token} {k : Bytes} (h : Ready o s r) (hr : Reads o s [(t, some k)] [])
    (ht : t.type = .int ∨ t.type = .float) : (lexToken r).2.ok = false ↔ NoExp k := by
  obtain ⟨b, h⟩ := h
  have hat := h.at (reads_ne_nil hr)
  obtain ⟨w, a, s', rfl, h1, h3, h4, h5⟩ := reads_cons_inv hr
  have e := reads_nil_inv h5
  subst e
  obtain ⟨c, a', rfl, hc1, hc2⟩ := lexeme_head h3
  have hk : k = c :: a' ∧ NumText k := by
    cases h3 with
    | string => rcases ht with ht | ht <;> cases ht
    | int _ hi => exact ⟨rfl, Or.inl hi⟩
    | float _ hi => exact ⟨rfl, Or.inr hi⟩
  obtain ⟨rfl, hn⟩ := hk
  obtain ⟨c', d, f, x, e, hc, hd, hf, hx⟩ := numText_iff.mp hn
  injection e with e1 e2
  subst e1; subst e2
  have hcc : c = 45 ∨ isDigit c = true := by
    rcases hc with hc | hc
    · exact Or.inl hc
    · exact Or.inr ((isDigit_iff c).mpr (hc c (by simp)))
  rw [List.append_nil] at hat
  have hnc := nextChar_complete h1 hc1 hc2 hat
  unfold lexToken
  rw [if_pos hat.ok]
  simp only
  rw [if_pos hnc.2.ok, hnc.1, tokenAt_number hcc, noExp_iff hc hd hf hx]
  exact readNumber_end hd hf hx hnc.2

end Reflect.Json

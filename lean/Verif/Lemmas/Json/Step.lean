import Verif.Lemmas.Json.Lex
/- What every tokenizer function does to a reader, whatever its state: it only consumes from the front,
keeps the first error, stops at an error, and keeps the line count. -/
namespace Reflect.Json

/-- number of newline bytes -/
def newlines (u : Bytes) : Nat := u.count 10

structure Step (r r' : Reader) : Prop where
  opts : r'.opts = r.opts
  tok : r'.tok = r.tok
  used : ∃ u, r.rest = u ++ r'.rest ∧
    (r.opts.allowComments = false → r.err = none →
      (r'.err = none → r'.line = r.line + newlines u) ∧
      (∀ e, r'.err = some e → r.line + newlines u.dropLast ≤ e.line ∧ e.line ≤ r.line + newlines u))
  stop : r.err ≠ none → r'.err = r.err ∧ r'.rest = r.rest
  fail : r.fail = true → r'.fail = true ∧ r'.rest = r.rest

theorem newlines_append (u v : Bytes) : newlines (u ++ v) = newlines u + newlines v := by
  simp [newlines, List.count_append]

theorem newlines_dropLast_le (u : Bytes) : newlines u.dropLast ≤ newlines u :=
  List.Sublist.count_le 10 (List.dropLast_sublist u)

theorem Step.refl (r : Reader) : Step r r :=
  ⟨rfl, rfl, ⟨[], rfl, fun _ h => ⟨fun _ => rfl, fun e he => by rw [h] at he; cases he⟩⟩,
    fun _ => ⟨rfl, rfl⟩, fun h => ⟨h, rfl⟩⟩

theorem Step.trans {r r1 r2 : Reader} (h1 : Step r r1) (h2 : Step r1 r2) : Step r r2 := by
  obtain ⟨u, hu, hul⟩ := h1.used
  obtain ⟨v, hv, hvl⟩ := h2.used
  refine ⟨h2.opts.trans h1.opts, h2.tok.trans h1.tok, ⟨u ++ v, by rw [hu, hv]; simp, ?_⟩, ?_, ?_⟩
  · intro ho hn
    have hl1 := hul ho hn
    have hl2 := hvl (by rw [h1.opts]; exact ho)
    refine ⟨?_, ?_⟩
    · intro h2n
      have h1n : r1.err = none := by
        apply Classical.byContradiction
        intro hx
        rw [(h2.stop hx).1] at h2n
        exact hx h2n
      have a := hl1.1 h1n
      have b := (hl2 h1n).1 h2n
      rw [newlines_append]; omega
    · intro e he
      cases h1e : r1.err with
      | none =>
        have a := hl1.1 h1e
        have b := (hl2 h1e).2 e he
        rw [newlines_append]
        refine ⟨?_, by omega⟩
        have hd := newlines_dropLast_le u
        by_cases hv0 : v = []
        · subst hv0
          simp only [List.append_nil]
          have : newlines ([] : Bytes).dropLast = 0 := rfl
          omega
        · rw [List.dropLast_append_of_ne_nil hv0, newlines_append]; omega
      | some e' =>
        have hs := h2.stop (by rw [h1e]; simp)
        have hv0 : v = [] := by
          have h3 := hs.2
          rw [h3] at hv
          have h4 := congrArg List.length hv
          rw [List.length_append] at h4
          exact List.eq_nil_of_length_eq_zero (by omega)
        subst hv0
        rw [hs.1] at he
        simpa using hl1.2 e he
  · intro hx
    have hs := h1.stop hx
    have hs2 := h2.stop (by rw [hs.1]; exact hx)
    exact ⟨hs2.1.trans hs.1, hs2.2.trans hs.2⟩
  · intro hx
    have hs := h1.fail hx
    have hs2 := h2.fail hs.1
    exact ⟨hs2.1, hs2.2.trans hs.2⟩

/-- A change that touches neither the input nor the error nor the line. -/
theorem Step.of_same {r r' : Reader} (h1 : r'.opts = r.opts) (h2 : r'.tok = r.tok) (h3 : r'.rest = r.rest)
    (h4 : r'.err = r.err) (h5 : r'.line = r.line) (h6 : r.fail = true → r'.fail = true) : Step r r' :=
  ⟨h1, h2, ⟨[], by rw [h3]; rfl, fun _ hn => ⟨fun _ => by rw [h5]; rfl, fun e he => by
    rw [h4, hn] at he; cases he⟩⟩, fun _ => ⟨h4, h3⟩, fun h => ⟨h6 h, h3⟩⟩

theorem Step.save (r : Reader) (c : Byte) : Step r (r.save c) :=
  Step.of_same rfl rfl rfl rfl rfl id
theorem Step.saveAll (r : Reader) (c : Bytes) : Step r (r.saveAll c) :=
  Step.of_same rfl rfl rfl rfl rfl id
theorem Step.reset (r : Reader) : Step r r.resetBuffer :=
  Step.of_same rfl rfl rfl rfl rfl id
theorem Step.ub (r : Reader) (b : Bool) : Step r { r with ub := b } :=
  Step.of_same rfl rfl rfl rfl rfl id

theorem Step.peek (r : Reader) : Step r r.peek.2 := by
  unfold Reader.peek
  split
  · exact Step.of_same rfl rfl rfl rfl rfl (fun _ => rfl)
  · split
    · exact Step.of_same rfl rfl rfl rfl rfl id
    · exact Step.refl r

theorem Step.error (r : Reader) (m : Msg) : Step r (r.error m) := by
  cases h : r.err with
  | some e => rw [Reader.error_of_err h]; exact Step.refl r
  | none =>
    have e : r.error m = { r with err := some ⟨r.line, r.pos, m⟩ } := by
      unfold Reader.error; rw [h]
    rw [e]
    refine ⟨rfl, rfl, ⟨[], rfl, fun _ _ => ⟨(fun hx => (by cases hx)), ?_⟩⟩, fun hx => absurd h hx, fun hx => ⟨hx, rfl⟩⟩
    intro e' he'
    simp only [Option.some.injEq] at he'
    subst he'
    exact ⟨Nat.le_refl _, Nat.le_refl _⟩

theorem Step.errorIf (r : Reader) (b : Bool) (m : Msg) : Step r (r.errorIf b m) := by
  unfold Reader.errorIf
  split
  · exact Step.error r m
  · exact Step.refl r

theorem Step.checkComments (r : Reader) : Step r r.checkComments := Step.errorIf _ _ _

/-- The shape of a `pop` on a reader that is ok. -/
theorem pop_cases (r : Reader) (h : r.ok = true) :
    (∃ c s, r.rest = c :: s ∧ r.pop = (c, { r with pos := r.pos + 1, rest := s }) ∧ r.pop.2.ok = true) ∨
    (r.pop.1 = 255 ∧ r.pop.2.rest = r.rest ∧ r.pop.2.err = r.err ∧ r.pop.2.line = r.line ∧
      r.pop.2.opts = r.opts ∧ r.pop.2.tok = r.tok ∧ r.pop.2.fail = true ∧ r.pop.2.ok = false ∧
      r.pop.2.buf = r.buf) := by
  have hf : r.fail = false := by
    unfold Reader.ok at h; simp at h; exact h.2
  have he := Reader.ok_err h
  unfold Reader.pop
  rw [hf]
  cases heof : r.eof with
  | true =>
    right
    simp [Reader.ok]
  | false =>
    cases hr : r.rest with
    | nil =>
      right
      simp [Reader.ok, hr]
    | cons c s =>
      left
      exact ⟨c, s, rfl, rfl, by simp [Reader.ok, he, hf]⟩

theorem Step.pop_ok {r : Reader} (h : r.ok = true)
    (hc : r.pop.1 ≠ 10 ∨ r.opts.allowComments = true) : Step r r.pop.2 := by
  rcases pop_cases r h with ⟨c, s, hr, hp, _⟩ | ⟨_, h1, h2, h3, h4, h5, h6, _, _⟩
  · rw [hp] at hc ⊢
    refine ⟨rfl, rfl, ⟨[c], hr, ?_⟩, fun hx => absurd (Reader.ok_err h) hx, ?_⟩
    · intro ho hn
      refine ⟨fun _ => ?_, fun e he => by
        rw [show ({ r with pos := r.pos + 1, rest := s } : Reader).err = r.err from rfl, hn] at he; cases he⟩
      rcases hc with hc | hc
      · have : newlines [c] = 0 := by
          simp only [newlines]
          exact List.count_eq_zero_of_not_mem (by simpa using Ne.symm hc)
        rw [this]; rfl
      · rw [hc] at ho; cases ho
    · intro hx
      unfold Reader.ok at h; simp [hx] at h
  · exact Step.of_same h4 h5 h1 h2 h3 (fun _ => h6)

theorem Step.pop_error {r : Reader} (h : r.ok = true) (m : Msg) : Step r (r.pop.2.error m) := by
  rcases pop_cases r h with ⟨c, s, hr, hp, _⟩ | ⟨_, h1, h2, h3, h4, h5, h6, _, _⟩
  · rw [hp]
    have hn := Reader.ok_err h
    have e : ({ r with pos := r.pos + 1, rest := s } : Reader).error m
        = { r with pos := r.pos + 1, rest := s, err := some ⟨r.line, r.pos + 1, m⟩ } := by
      unfold Reader.error; simp only [hn]
    simp only [e]
    refine ⟨rfl, rfl, ⟨[c], hr, fun _ _ => ⟨(fun hx => (by cases hx)), ?_⟩⟩, fun hx => absurd hn hx, ?_⟩
    · intro e' he'
      simp only [Option.some.injEq] at he'
      subst he'
      have : newlines ([c] : Bytes).dropLast = 0 := rfl
      exact ⟨by rw [this]; exact Nat.le_refl _, Nat.le_add_right _ _⟩
    · intro hx
      unfold Reader.ok at h; simp [hx] at h
  · exact (Step.of_same h4 h5 h1 h2 h3 (fun _ => h6)).trans (Step.error _ _)

theorem Step.pop_count {r : Reader} (h : r.ok = true) : Step r (r.pop.2.countNewline r.pop.1) := by
  by_cases hc : r.pop.1 = 10
  · rcases pop_cases r h with ⟨c, s, hr, hp, _⟩ | ⟨h0, _⟩
    · rw [hp] at hc ⊢
      simp only at hc
      subst hc
      refine ⟨rfl, rfl, ⟨[10], hr, fun _ hn => ⟨fun _ => rfl, fun e he => ?_⟩⟩,
        fun hx => absurd (Reader.ok_err h) hx, ?_⟩
      · have : r.err = some e := he
        rw [hn] at this; cases this
      · intro hx
        unfold Reader.ok at h; simp [hx] at h
    · rw [h0] at hc; exact absurd hc (by decide)
  · have e : r.pop.2.countNewline r.pop.1 = r.pop.2 := by
      unfold Reader.countNewline; rw [if_neg hc]
    rw [e]
    exact Step.pop_ok h (Or.inl hc)

theorem pop_ok_of_ne {r : Reader} (h : r.ok = true) (hc : r.pop.1 ≠ 255) : r.pop.2.ok = true := by
  rcases pop_cases r h with ⟨_, _, _, _, hk⟩ | ⟨h0, _⟩
  · exact hk
  · exact absurd h0 hc

theorem skipComment_step (r : Reader) (h : r.opts.allowComments = true ∨ r.ok = false) :
    Step r (skipComment r) := by
  rcases h with h | h
  · have key : ∀ (n : Nat) (r : Reader), r.need ≤ n → r.opts.allowComments = true → Step r (skipComment r) := by
      intro n
      induction n with
      | zero =>
        intro r hn _
        have : r.ok = false := by
          unfold Reader.need at hn
          cases hok : r.ok with
          | false => rfl
          | true => rw [hok] at hn; simp at hn
        rw [skipComment_not_ok this]; exact Step.refl r
      | succ n ih =>
        intro r hn ho
        by_cases hk : r.ok = true
        · rw [skipComment.eq_def, dif_pos hk]
          have hs := Step.pop_ok hk (Or.inr ho)
          split
          · exact hs
          · exact hs.trans (ih _ (by have := r.pop_need_lt hk; omega) (by rw [hs.opts]; exact ho))
        · rw [skipComment_not_ok (by simpa using hk)]; exact Step.refl r
    exact key _ r (Nat.le_refl _) h
  · rw [skipComment_not_ok h]; exact Step.refl r

theorem checkComments_ok (r : Reader) :
    r.checkComments.opts.allowComments = true ∨ r.checkComments.ok = false := by
  unfold Reader.checkComments Reader.errorIf
  cases h : r.opts.allowComments with
  | true => exact Or.inl (by simpa using h)
  | false => exact Or.inr (by simpa using Reader.error_not_ok r .comments)

theorem need_zero {r : Reader} (h : r.need ≤ 0) : r.ok = false := by
  unfold Reader.need at h
  cases hok : r.ok with
  | false => rfl
  | true => rw [hok] at h; simp at h

theorem nextChar_step : ∀ (n : Nat) (r : Reader), r.need ≤ n → Step r (nextChar r).2 := by
  intro n
  induction n with
  | zero => intro r hn; rw [nextChar_not_ok (need_zero hn)]; exact Step.refl r
  | succ n ih =>
    intro r hn
    by_cases hk : r.ok = true
    · have hs := Step.pop_count hk
      have hlt := r.pop_need_lt hk
      rw [nextChar.eq_def, dif_pos hk]
      simp only
      split
      · exact hs.trans (ih _ (by rw [Reader.countNewline_need]; omega))
      · split
        · split
          · have hs2 := hs.trans (Step.peek _)
            have hs3 := hs2.trans (Step.checkComments _)
            have hs4 := hs3.trans (skipComment_step _ (checkComments_ok _))
            refine hs4.trans (ih _ ?_)
            have h1 := skipComment_need_le ((r.pop.2.countNewline r.pop.1).peek.2.checkComments)
            have h2 := Reader.checkComments_need_le (r.pop.2.countNewline r.pop.1).peek.2
            have h3 := Reader.peek_need_le (r.pop.2.countNewline r.pop.1)
            rw [Reader.countNewline_need] at h3
            omega
          · exact hs.trans (Step.peek _)
        · exact hs
    · rw [nextChar_not_ok (by simpa using hk)]; exact Step.refl r

theorem readLiteral_step {lit : Bytes} : ∀ (l : Bytes) (r : Reader), (10 : Byte) ∉ l → Step r (readLiteral lit r l) := by
  intro l
  induction l with
  | nil => intro r _; exact Step.refl r
  | cons c l ih =>
    intro r hl
    simp only [List.mem_cons, not_or] at hl
    rw [readLiteral]
    split
    · rename_i hk
      split
      · rename_i hc
        exact (Step.pop_ok hk (Or.inl (by rw [hc]; exact Ne.symm hl.1))).trans (ih _ hl.2)
      · exact Step.pop_error hk _
    · exact Step.error _ _

theorem hexLoop_step' : ∀ (n : Nat) (r : Reader) (code : Nat), Step r (hexLoop r code n).2.2 := by
  intro n
  induction n with
  | zero => intro r code; exact Step.refl r
  | succ n ih =>
    intro r code
    unfold hexLoop
    split
    · rename_i hk
      split
      · rename_i d hd
        exact (Step.pop_ok hk (Or.inl (by
          intro hx; rw [hx] at hd; exact absurd hd (by simp [hexVal])))).trans (ih _ _)
      · exact (Step.pop_error hk _).trans (ih _ _)
    · exact Step.refl r

theorem rawHexLoop_step' : ∀ (n : Nat) (r : Reader), Step r (rawHexLoop r n).2 := by
  intro n
  induction n with
  | zero => intro r; exact Step.refl r
  | succ n ih =>
    intro r
    unfold rawHexLoop
    split
    · rename_i hk
      split
      · rename_i d hd
        exact ((Step.pop_ok hk (Or.inl (by
          intro hx; rw [hx] at hd; exact absurd hd (by simp [hexVal])))).trans (Step.save _ _)).trans (ih _)
      · exact (Step.pop_error hk _).trans (ih _)
    · exact Step.refl r

theorem unescapeUnicode_step (r : Reader) : Step r (unescapeUnicode r) := by
  unfold unescapeUnicode
  simp only
  have h := (hexLoop_step' 4 r 0).trans (Step.errorIf _ ((hexLoop r 0 4).2.2.ok && (hexLoop r 0 4).2.1 != 0) .hexDigits)
  split
  · exact h.trans (Step.saveAll _ _)
  · exact h

theorem readUnicode_step (r : Reader) : Step r (readUnicode r) := by
  unfold readUnicode
  split
  · exact unescapeUnicode_step r
  · exact ((Step.saveAll r _).trans (rawHexLoop_step' 4 _)).trans (Step.errorIf _ _ _)

/-- `save` and `error` commute as far as steps are concerned. -/
theorem Step.pop_save_error {r : Reader} (h : r.ok = true) (c : Byte) (m : Msg) :
    Step r ((r.pop.2.save c).error m) := by
  have e : (r.pop.2.save c).error m = (r.pop.2.error m).save c := by
    unfold Reader.error Reader.save
    cases h : r.pop.2.err <;> simp [h]
  rw [e]
  exact (Step.pop_error h m).trans (Step.save _ _)

theorem contLoop_step : ∀ (n : Nat) (r : Reader) (code : Nat), Step r (contLoop r code n).2 := by
  intro n
  induction n with
  | zero => intro r code; exact Step.refl r
  | succ n ih =>
    intro r code
    unfold contLoop
    split
    · rename_i hk
      refine Step.trans ?_ (ih _ _)
      by_cases hm : r.pop.1.toNat &&& 0xC0 = 0x80
      · have hne : r.pop.1 ≠ 10 := by intro hx; rw [hx] at hm; exact absurd hm (by decide)
        exact ((Step.pop_ok hk (Or.inl hne)).trans (Step.save _ _)).trans (Step.errorIf _ _ _)
      · have e : (r.pop.2.save r.pop.1).errorIf (r.pop.1.toNat &&& 0xC0 != 0x80) .utf8Encoding =
            (r.pop.2.save r.pop.1).error .utf8Encoding := by
          unfold Reader.errorIf
          rw [if_pos (by simpa using hm)]
        simp only [e]
        exact Step.pop_save_error hk _ _
    · exact Step.refl r

theorem validateUnicode_step (r : Reader) (c : Byte) : Step r (validateUnicode r c) := by
  unfold validateUnicode
  split
  · exact ((Step.save r c).trans (Step.error _ _)).trans (Step.ub _ _)
  · exact (((Step.save r c).trans (Step.errorIf _ _ _)).trans (contLoop_step _ _ _)).trans (Step.errorIf _ _ _)

theorem readStringLoop_step : ∀ (n : Nat) (r : Reader), r.need ≤ n → Step r (readStringLoop r) := by
  intro n
  induction n with
  | zero => intro r hn; rw [readStringLoop_not_ok (need_zero hn)]; exact Step.error r _
  | succ n ih =>
    intro r hn
    by_cases hk : r.ok = true
    · have hlt := r.pop_need_lt hk
      rw [readStringLoop.eq_def, dif_pos hk]
      simp only
      split
      · exact (Step.pop_error hk _).trans (ih _ (by rw [Reader.need_error]; omega))
      · rename_i hc
        have hs := Step.pop_ok hk (Or.inl hc)
        split
        · exact (hs.trans (validateUnicode_step _ _)).trans
            (ih _ (by have := validateUnicode_need_le r.pop.2 r.pop.1; omega))
        · split
          · exact hs
          · split
            · rename_i h92
              have hk2 : r.pop.2.ok = true := pop_ok_of_ne hk (by rw [h92]; decide)
              have hle := Reader.pop_need_le r.pop.2
              split
              · rename_i h117
                have hs2 := hs.trans (Step.pop_ok hk2 (Or.inl (by rw [h117]; decide)))
                exact (hs2.trans (readUnicode_step _)).trans
                  (ih _ (by have := readUnicode_need_le r.pop.2.pop.2; omega))
              · split
                · rename_i e he
                  have hs2 := hs.trans (Step.pop_ok hk2 (Or.inl (by
                    intro hx; rw [hx] at he; exact absurd he (by simp [simpleEscape]))))
                  exact (hs2.trans (Step.save _ _)).trans (ih _ (by rw [Reader.save_need]; omega))
                · exact hs.trans (Step.pop_error hk2 _)
            · exact (hs.trans (Step.save _ _)).trans (ih _ (by rw [Reader.save_need]; omega))
    · rw [readStringLoop_not_ok (by simpa using hk)]; exact Step.error r _

/-- When `peek` delivers a real character the reader is unchanged and `pop` delivers it again. -/
theorem peek_char {r : Reader} (h : r.peek.1 ≠ 255) : r.peek.2 = r ∧ r.pop.1 = r.peek.1 := by
  unfold Reader.peek at h ⊢
  unfold Reader.pop
  split at h
  · exact absurd rfl h
  · rename_i hg
    rw [if_neg hg]
    split at h
    · exact absurd rfl h
    · rename_i b bs hr
      rw [if_neg hg]
      exact ⟨rfl, rfl⟩

theorem Step.peek_pop {r : Reader} (h : r.ok = true) (h1 : r.peek.1 ≠ 255) (h2 : r.peek.1 ≠ 10) :
    Step r (r.peek.2.pop.2.save r.peek.2.pop.1) := by
  obtain ⟨e1, e2⟩ := peek_char h1
  rw [e1]
  exact (Step.pop_ok h (Or.inl (by rw [e2]; exact h2))).trans (Step.save _ _)

theorem digit_ne {c : Byte} (h : isDigit c = true) : c ≠ 255 ∧ c ≠ 10 := by
  constructor <;> (intro hx; subst hx; revert h; decide)

theorem readDigits_step : ∀ (n : Nat) (r : Reader), r.need ≤ n → Step r (readDigits r) := by
  intro n
  induction n with
  | zero =>
    intro r hn
    rw [readDigits.eq_def, dif_neg (by simp [need_zero hn])]; exact Step.refl r
  | succ n ih =>
    intro r hn
    rw [readDigits.eq_def]
    split
    · rename_i hk
      split
      · rename_i hd
        have hne := digit_ne hd
        obtain ⟨e1, _⟩ := peek_char hne.1
        refine (Step.peek_pop hk hne.1 hne.2).trans (ih _ ?_)
        rw [Reader.save_need, e1]
        have := r.pop_need_lt hk
        omega
      · exact Step.peek r
    · exact Step.refl r

theorem readChar_step (r : Reader) (c : Byte) (h1 : c ≠ 255) (h2 : c ≠ 10) : Step r (readChar r c).2 := by
  unfold readChar
  split
  · rename_i hk
    split
    · rename_i hc
      exact Step.peek_pop hk (by rw [hc]; exact h1) (by rw [hc]; exact h2)
    · exact Step.peek r
  · exact Step.refl r

theorem Reader.peek_ok_of_char {r : Reader} (h : r.peek.1 ≠ 255) : r.fail = false := by
  unfold Reader.peek at h
  split at h
  · exact absurd rfl h
  · rename_i hg
    simp at hg; exact hg.2

theorem readChars_step (r : Reader) (c d : Byte) (h1 : c ≠ 255) (h2 : c ≠ 10) (h3 : d ≠ 255) (h4 : d ≠ 10) :
    Step r (readChars r c d).2 := by
  unfold readChars
  split
  · rename_i hk
    split
    · rename_i hc
      exact Step.peek_pop hk (by rw [hc]; exact h1) (by rw [hc]; exact h2)
    · split
      · rename_i hd
        have hok : r.peek.2.ok = true := by
          have hf := Reader.peek_ok_of_char (r := r.peek.2) (by rw [hd]; exact h3)
          have he : r.peek.2.err = none := by
            have : r.peek.2.err = r.err := by
              unfold Reader.peek; split
              · rfl
              · split <;> rfl
            rw [this]; exact Reader.ok_err hk
          simp [Reader.ok, hf, he]
        exact (Step.peek r).trans (Step.peek_pop hok (by rw [hd]; exact h3) (by rw [hd]; exact h4))
      · exact (Step.peek r).trans (Step.peek _)
  · exact Step.refl r

theorem readNumber_step (r : Reader) (c : Byte) : Step r (readNumber r c).2 := by
  unfold readNumber
  simp only
  have h1 : Step r (readDigits (r.resetBuffer.save c)) :=
    ((Step.reset r).trans (Step.save _ c)).trans (readDigits_step _ _ (Nat.le_refl _))
  generalize readDigits (r.resetBuffer.save c) = r1 at h1
  have h2 := h1.trans (readChar_step r1 46 (by decide) (by decide))
  have h3 : Step r (if (readChar r1 46).1 = true then (TokType.float, readDigits (readChar r1 46).2)
      else (TokType.int, (readChar r1 46).2)).2 := by
    split
    · exact h2.trans (readDigits_step _ _ (Nat.le_refl _))
    · exact h2
  generalize (if (readChar r1 46).1 = true then (TokType.float, readDigits (readChar r1 46).2)
      else (TokType.int, (readChar r1 46).2)) = p at h3
  have h4 := h3.trans (readChars_step p.2 101 69 (by decide) (by decide) (by decide) (by decide))
  split
  · exact (h4.trans (readChars_step _ 43 45 (by decide) (by decide) (by decide) (by decide))).trans
      (readDigits_step _ _ (Nat.le_refl _))
  · exact h4

theorem tokenAt_step (r : Reader) (c : Byte) : Step r (tokenAt r c).2 := by
  unfold tokenAt
  repeat' split
  all_goals first
    | exact Step.refl r
    | exact readLiteral_step _ r (by decide)
    | exact (Step.reset r).trans (readStringLoop_step _ _ (Nat.le_refl _))
    | exact readNumber_step r c
    | exact Step.error r _

theorem lexToken_step (r : Reader) : Step r (lexToken r).2 := by
  unfold lexToken
  split
  · have h := nextChar_step _ r (Nat.le_refl _)
    simp only
    split
    · exact h.trans (tokenAt_step _ _)
    · exact h
  · exact Step.refl r

/-! ### Progress -/

theorem Step.length_le {r r' : Reader} (h : Step r r') : r'.rest.length ≤ r.rest.length := by
  obtain ⟨u, hu, _⟩ := h.used
  rw [hu]; simp

theorem nextChar_progress : ∀ (n : Nat) (r : Reader), r.need ≤ n → r.ok = true →
    (nextChar r).2.ok = true → (nextChar r).2.rest.length < r.rest.length := by
  intro n
  induction n with
  | zero => intro r hn hk; rw [need_zero hn] at hk; cases hk
  | succ n ih =>
    intro r hn hk hok
    have hlt := r.pop_need_lt hk
    -- the first character was really there, or the reader is no longer ok
    have hpop : r.pop.2.ok = true → r.pop.2.rest.length < r.rest.length := by
      intro h2
      rcases pop_cases r hk with ⟨c, s, hr, hp, _⟩ | ⟨_, _, _, _, _, _, _, h3, _⟩
      · rw [hp, hr]; simp
      · rw [h3] at h2; cases h2
    have hcount : (r.pop.2.countNewline r.pop.1).ok = r.pop.2.ok ∧
        (r.pop.2.countNewline r.pop.1).rest = r.pop.2.rest := by
      unfold Reader.countNewline; split <;> exact ⟨rfl, rfl⟩
    rw [nextChar.eq_def, dif_pos hk] at hok ⊢
    simp only at hok ⊢
    have mono : ∀ r2 : Reader, Step (r.pop.2.countNewline r.pop.1) r2 → r2.ok = true →
        r2.rest.length < r.rest.length := by
      intro r2 hs h2
      have hkk : (r.pop.2.countNewline r.pop.1).ok = true := by
        cases hx : (r.pop.2.countNewline r.pop.1).ok with
        | true => rfl
        | false =>
          exfalso
          unfold Reader.ok at hx
          simp only [Bool.and_eq_false_iff, Bool.not_eq_false'] at hx
          rcases hx with hx | hx
          · have hne : (r.pop.2.countNewline r.pop.1).err ≠ none := by
              intro h3; rw [h3] at hx; simp at hx
            have := (hs.stop hne).1
            exact hne (this ▸ Reader.ok_err h2)
          · have := (hs.fail hx).1
            unfold Reader.ok at h2; simp [this] at h2
      have h3 := hs.length_le
      rw [hcount.2] at h3
      have h4 := hpop (hcount.1 ▸ hkk)
      omega
    split at hok
    · rename_i h1
      rw [if_pos h1]
      exact mono _ (nextChar_step _ _ (Nat.le_refl _)) hok
    · rename_i h1
      rw [if_neg h1]
      split at hok
      · rename_i h2
        rw [if_pos h2]
        split at hok
        · rename_i h3
          rw [if_pos h3]
          refine mono _ ?_ hok
          exact (((Step.peek _).trans (Step.checkComments _)).trans
            (skipComment_step _ (checkComments_ok _))).trans (nextChar_step _ _ (Nat.le_refl _))
        · rename_i h3
          rw [if_neg h3]
          exact mono _ (Step.peek _) hok
      · rename_i h2
        rw [if_neg h2]
        exact mono _ (Step.refl _) hok

theorem lexToken_progress (r : Reader) (h : (lexToken r).1.type ≠ .eos) :
    (lexToken r).2.rest.length < r.rest.length := by
  unfold lexToken at h ⊢
  split at h
  · rename_i hk
    rw [if_pos hk]
    simp only at h ⊢
    split at h
    · rename_i hk2
      rw [if_pos hk2]
      have h1 := nextChar_progress _ r (Nat.le_refl _) hk hk2
      have h2 := (tokenAt_step (nextChar r).2 (nextChar r).1).length_le
      omega
    · exact absurd rfl h
  · exact absurd rfl h

end Reflect.Json

import Verif.Lemmas.Json.Step
/- How much the reader's buffer can grow, and when undefined behaviour can occur. -/
namespace Reflect.Json

/-- buffered and unread bytes, plus one while the reader is usable -/
def Reader.pot (r : Reader) : Nat := r.buf.length + r.rest.length + if r.ok then 1 else 0

theorem pot_error_le (r : Reader) (m : Msg) : (r.error m).pot ≤ r.pot := by
  unfold Reader.pot
  rw [Reader.error_not_ok]
  have h1 : (r.error m).buf = r.buf := by unfold Reader.error; split <;> rfl
  have h2 : (r.error m).rest = r.rest := by unfold Reader.error; split <;> rfl
  rw [h1, h2]
  simp

theorem pot_errorIf_le (r : Reader) (b : Bool) (m : Msg) : (r.errorIf b m).pot ≤ r.pot := by
  unfold Reader.errorIf
  split
  · exact pot_error_le r m
  · exact Nat.le_refl _

theorem pot_save (r : Reader) (c : Byte) : (r.save c).pot = r.pot + 1 := by
  have h : (r.save c).ok = r.ok := rfl
  have h2 : (r.save c).rest = r.rest := rfl
  unfold Reader.pot
  rw [h, h2]
  simp [Reader.save]; omega

theorem pot_saveAll (r : Reader) (cs : Bytes) : (r.saveAll cs).pot = r.pot + cs.length := by
  have h : (r.saveAll cs).ok = r.ok := rfl
  have h2 : (r.saveAll cs).rest = r.rest := rfl
  unfold Reader.pot
  rw [h, h2]
  simp [Reader.saveAll]; omega

theorem pot_pop_lt {r : Reader} (h : r.ok = true) : r.pop.2.pot + 1 ≤ r.pot := by
  rcases pop_cases r h with ⟨c, s, hr, hp, hk⟩ | ⟨_, h1, _, _, _, _, _, hk, hb⟩
  · unfold Reader.pot
    rw [hk, h, hp, hr]
    simp; omega
  · unfold Reader.pot
    rw [hk, h, h1, hb]
    simp

theorem pot_pop_le (r : Reader) : r.pop.2.pot ≤ r.pot := by
  unfold Reader.pop Reader.pot Reader.ok
  split
  · simp
  · split <;> simp_all

theorem pot_peek_le (r : Reader) : r.peek.2.pot ≤ r.pot := by
  unfold Reader.peek Reader.pot Reader.ok
  split
  · simp
  · split <;> simp_all

theorem encodeCode_length (n : Nat) : (encodeCode n).length ≤ 4 := by
  unfold encodeCode
  repeat' split
  all_goals simp

theorem utf8_length3 {n : Nat} (h : n < 0x10000) : (encodeCode n).length ≤ 3 := by
  unfold encodeCode
  repeat' split
  all_goals simp
  omega

theorem hexLoop_pot : ∀ (n : Nat) (r : Reader) (code : Nat),
    (hexLoop r code n).2.2.pot + (n - (hexLoop r code n).2.1) ≤ r.pot ∧ (hexLoop r code n).2.1 ≤ n := by
  intro n
  induction n with
  | zero => intro r code; simp [hexLoop]
  | succ n ih =>
    intro r code
    unfold hexLoop
    split
    · rename_i hk
      have hp := pot_pop_lt hk
      split
      · rename_i d hd
        have := ih r.pop.2 ((code <<< 4) ||| d)
        omega
      · have := ih (r.pop.2.error (.nonHex r.pop.1)) (code <<< 4)
        have := pot_error_le r.pop.2 (.nonHex r.pop.1)
        omega
    · simp

theorem unescape_pot (r : Reader) : (unescapeUnicode r).pot ≤ r.pot := by
  have h := hexLoop_pot 4 r 0
  unfold unescapeUnicode
  simp only
  have he := pot_errorIf_le (hexLoop r 0 4).2.2 ((hexLoop r 0 4).2.2.ok && (hexLoop r 0 4).2.1 != 0) .hexDigits
  split
  · rename_i hk
    rw [pot_saveAll]
    have h0 : (hexLoop r 0 4).2.1 = 0 := by
      apply Classical.byContradiction
      intro hne
      cases hok : (hexLoop r 0 4).2.2.ok with
      | true =>
        rw [hok] at hk
        have e : (true && (hexLoop r 0 4).2.1 != 0) = true := by simpa using hne
        rw [e] at hk
        unfold Reader.errorIf at hk
        rw [if_pos rfl, Reader.error_not_ok] at hk
        cases hk
      | false =>
        rw [hok] at hk
        simp [Reader.errorIf, hok] at hk
    have hlen := encodeCode_length (hexLoop r 0 4).1
    omega
  · omega

theorem rawHexLoop_pot : ∀ (n : Nat) (r : Reader), (rawHexLoop r n).2.pot ≤ r.pot := by
  intro n
  induction n with
  | zero => intro r; exact Nat.le_refl _
  | succ n ih =>
    intro r
    unfold rawHexLoop
    split
    · rename_i hk
      have hp := pot_pop_lt hk
      split
      · have := ih (r.pop.2.save r.pop.1)
        rw [pot_save] at this
        omega
      · have := ih (r.pop.2.error (.nonHex r.pop.1))
        have := pot_error_le r.pop.2 (.nonHex r.pop.1)
        omega
    · exact Nat.le_refl _

theorem readUnicode_pot (r : Reader) : (readUnicode r).pot ≤ r.pot + 2 := by
  unfold readUnicode
  split
  · have := unescape_pot r; omega
  · have h1 := rawHexLoop_pot 4 (r.saveAll [92, 117])
    rw [pot_saveAll] at h1
    refine Nat.le_trans (pot_errorIf_le _ _ _) ?_
    simpa using h1

theorem contLoop_pot : ∀ (n : Nat) (r : Reader) (code : Nat), (contLoop r code n).2.pot ≤ r.pot := by
  intro n
  induction n with
  | zero => intro r code; exact Nat.le_refl _
  | succ n ih =>
    intro r code
    unfold contLoop
    split
    · rename_i hk
      have hp := pot_pop_lt hk
      refine Nat.le_trans (ih _ _) (Nat.le_trans (pot_errorIf_le _ _ _) ?_)
      rw [pot_save]; omega
    · exact Nat.le_refl _

theorem validate_pot (r : Reader) (c : Byte) : (validateUnicode r c).pot ≤ r.pot + 1 := by
  unfold validateUnicode
  split
  · have := pot_error_le (r.save c) (.utf8Header c)
    rw [pot_save] at this
    exact this
  · refine Nat.le_trans (pot_errorIf_le _ _ _) (Nat.le_trans (contLoop_pot _ _ _) ?_)
    rw [← pot_save r c]
    exact pot_errorIf_le (r.save c) _ (.utf8Header c)

theorem readStringLoop_pot : ∀ (n : Nat) (r : Reader), r.need ≤ n → (readStringLoop r).pot ≤ r.pot := by
  intro n
  induction n with
  | zero => intro r hn; rw [readStringLoop_not_ok (need_zero hn)]; exact pot_error_le r _
  | succ n ih =>
    intro r hn
    by_cases hk : r.ok = true
    · have hlt := r.pop_need_lt hk
      have hp := pot_pop_lt hk
      rw [readStringLoop.eq_def, dif_pos hk]
      simp only
      split
      · have h1 := ih (r.pop.2.error .newlineInString) (by rw [Reader.need_error]; omega)
        have h2 := pot_error_le r.pop.2 .newlineInString
        omega
      · split
        · have h1 := ih (validateUnicode r.pop.2 r.pop.1)
            (by have := validateUnicode_need_le r.pop.2 r.pop.1; omega)
          have h2 := validate_pot r.pop.2 r.pop.1
          omega
        · split
          · omega
          · split
            · rename_i h92
              have hk2 : r.pop.2.ok = true := pop_ok_of_ne hk (by rw [h92]; decide)
              have hp2 := pot_pop_lt hk2
              have hle := Reader.pop_need_le r.pop.2
              split
              · have h1 := ih (readUnicode r.pop.2.pop.2)
                  (by have := readUnicode_need_le r.pop.2.pop.2; omega)
                have h2 := readUnicode_pot r.pop.2.pop.2
                omega
              · split
                · rename_i e he
                  have h1 := ih (r.pop.2.pop.2.save e) (by rw [Reader.save_need]; omega)
                  rw [pot_save] at h1
                  omega
                · have h1 := pot_error_le r.pop.2.pop.2 (.unknownEscape r.pop.2.pop.1)
                  omega
            · have h1 := ih (r.pop.2.save r.pop.1) (by rw [Reader.save_need]; omega)
              rw [pot_save] at h1
              omega
    · rw [readStringLoop_not_ok (by simpa using hk)]; exact pot_error_le r _

theorem pot_peek_pop {r : Reader} (h : r.ok = true) (h1 : r.peek.1 ≠ 255) :
    (r.peek.2.pop.2.save r.peek.2.pop.1).pot ≤ r.pot := by
  obtain ⟨e1, _⟩ := peek_char h1
  rw [e1, pot_save]
  have := pot_pop_lt h
  omega

theorem readDigits_pot : ∀ (n : Nat) (r : Reader), r.need ≤ n → (readDigits r).pot ≤ r.pot := by
  intro n
  induction n with
  | zero =>
    intro r hn
    rw [readDigits.eq_def, dif_neg (by simp [need_zero hn])]; exact Nat.le_refl _
  | succ n ih =>
    intro r hn
    rw [readDigits.eq_def]
    split
    · rename_i hk
      split
      · rename_i hd
        have hne := digit_ne hd
        obtain ⟨e1, _⟩ := peek_char hne.1
        refine Nat.le_trans (ih _ ?_) (pot_peek_pop hk hne.1)
        rw [Reader.save_need, e1]
        have := r.pop_need_lt hk
        omega
      · exact pot_peek_le r
    · exact Nat.le_refl _

theorem readChar_pot (r : Reader) (c : Byte) (h1 : c ≠ 255) : (readChar r c).2.pot ≤ r.pot := by
  unfold readChar
  split
  · rename_i hk
    split
    · rename_i hc
      exact pot_peek_pop hk (by rw [hc]; exact h1)
    · exact pot_peek_le r
  · exact Nat.le_refl _

theorem readChars_pot (r : Reader) (c d : Byte) (h1 : c ≠ 255) (h3 : d ≠ 255) :
    (readChars r c d).2.pot ≤ r.pot := by
  unfold readChars
  split
  · rename_i hk
    split
    · rename_i hc
      exact pot_peek_pop hk (by rw [hc]; exact h1)
    · split
      · rename_i hd
        have hok : r.peek.2.ok = true := by
          have hf := Reader.peek_ok_of_char (r := r.peek.2) (by rw [hd]; exact h3)
          have he : r.peek.2.err = none := by
            have : r.peek.2.err = r.err := by
              unfold Reader.peek; split
              · rfl
              · split <;> rfl
            rw [this]; exact Reader.ok_err hk
          simp [Reader.ok, hf, he]
        exact Nat.le_trans (pot_peek_pop hok (by rw [hd]; exact h3)) (pot_peek_le r)
      · exact Nat.le_trans (pot_peek_le _) (pot_peek_le r)
  · exact Nat.le_refl _

theorem pot_reset (r : Reader) : r.resetBuffer.pot = r.rest.length + if r.ok then 1 else 0 := by
  have h : r.resetBuffer.ok = r.ok := rfl
  unfold Reader.pot
  rw [h]
  simp [Reader.resetBuffer]

theorem readNumber_pot (r : Reader) (c : Byte) : (readNumber r c).2.pot ≤ r.resetBuffer.pot + 1 := by
  unfold readNumber
  simp only
  have h1 : (readDigits (r.resetBuffer.save c)).pot ≤ r.resetBuffer.pot + 1 := by
    have := readDigits_pot _ (r.resetBuffer.save c) (Nat.le_refl _)
    rw [pot_save] at this; exact this
  generalize readDigits (r.resetBuffer.save c) = r1 at h1
  have h2 := Nat.le_trans (readChar_pot r1 46 (by decide)) h1
  have h3 : (if (readChar r1 46).1 = true then (TokType.float, readDigits (readChar r1 46).2)
      else (TokType.int, (readChar r1 46).2)).2.pot ≤ r.resetBuffer.pot + 1 := by
    split
    · exact Nat.le_trans (readDigits_pot _ _ (Nat.le_refl _)) h2
    · exact h2
  generalize (if (readChar r1 46).1 = true then (TokType.float, readDigits (readChar r1 46).2)
      else (TokType.int, (readChar r1 46).2)) = p at h3
  have h4 := Nat.le_trans (readChars_pot p.2 101 69 (by decide) (by decide)) h3
  split
  · exact Nat.le_trans (readDigits_pot _ _ (Nat.le_refl _))
      (Nat.le_trans (readChars_pot _ 43 45 (by decide) (by decide)) h4)
  · exact h4

theorem Step.buf_lit {lit : Bytes} : ∀ (l : Bytes) (r : Reader), (readLiteral lit r l).buf = r.buf := by
  have hpop : ∀ r : Reader, r.pop.2.buf = r.buf := by
    intro r; unfold Reader.pop; split
    · rfl
    · split <;> rfl
  have herr : ∀ (r : Reader) (m : Msg), (r.error m).buf = r.buf := by
    intro r m; unfold Reader.error; split <;> rfl
  intro l
  induction l with
  | nil => intro r; rfl
  | cons c l ih =>
    intro r
    rw [readLiteral]
    split
    · split
      · rw [ih, hpop]
      · rw [herr, hpop]
    · rw [herr]

theorem nextChar_buf : ∀ (n : Nat) (r : Reader), r.need ≤ n → (nextChar r).2.buf = r.buf := by
  have hpop : ∀ r : Reader, r.pop.2.buf = r.buf := by
    intro r; unfold Reader.pop; split
    · rfl
    · split <;> rfl
  have hpeek : ∀ r : Reader, r.peek.2.buf = r.buf := by
    intro r; unfold Reader.peek; split
    · rfl
    · split <;> rfl
  have herr : ∀ (r : Reader), r.checkComments.buf = r.buf := by
    intro r; unfold Reader.checkComments Reader.errorIf Reader.error
    split
    · split <;> rfl
    · rfl
  have hcnt : ∀ (r : Reader) c, (r.countNewline c).buf = r.buf := by
    intro r c; unfold Reader.countNewline; split <;> rfl
  have hskip : ∀ (n : Nat) (r : Reader), r.need ≤ n → (skipComment r).buf = r.buf := by
    intro n
    induction n with
    | zero => intro r hn; rw [skipComment_not_ok (need_zero hn)]
    | succ n ih =>
      intro r hn
      by_cases hk : r.ok = true
      · rw [skipComment.eq_def, dif_pos hk]
        have := r.pop_need_lt hk
        split
        · exact hpop r
        · rw [ih _ (by omega), hpop]
      · rw [skipComment_not_ok (by simpa using hk)]
  intro n
  induction n with
  | zero => intro r hn; rw [nextChar_not_ok (need_zero hn)]
  | succ n ih =>
    intro r hn
    by_cases hk : r.ok = true
    · have hlt := r.pop_need_lt hk
      rw [nextChar.eq_def, dif_pos hk]
      simp only
      split
      · rw [ih _ (by rw [Reader.countNewline_need]; omega), hcnt, hpop]
      · split
        · split
          · rw [ih, hskip _ _ (Nat.le_refl _), herr, hpeek, hcnt, hpop]
            have h1 := skipComment_need_le ((r.pop.2.countNewline r.pop.1).peek.2.checkComments)
            have h2 := Reader.checkComments_need_le (r.pop.2.countNewline r.pop.1).peek.2
            have h3 := Reader.peek_need_le (r.pop.2.countNewline r.pop.1)
            rw [Reader.countNewline_need] at h3
            omega
          · rw [hpeek, hcnt, hpop]
        · rw [hcnt, hpop]
    · rw [nextChar_not_ok (by simpa using hk)]

/-- The text a token carries is no longer than the input it was read from, plus one (the `EOF`
character that ends an unterminated string is saved). -/
theorem lexToken_buf (r : Reader) :
    (lexToken r).2.buf = r.buf ∨ (lexToken r).2.buf.length + (lexToken r).2.rest.length ≤ r.rest.length + 1 := by
  unfold lexToken
  split
  · rename_i hk
    have hb := nextChar_buf _ r (Nat.le_refl _)
    simp only
    split
    · rename_i hk2
      have hlt := nextChar_progress _ r (Nat.le_refl _) hk hk2
      generalize (nextChar r).1 = c at *
      generalize (nextChar r).2 = r1 at *
      unfold tokenAt
      have herr : (r1.error (.unexpectedChar c)).buf = r1.buf := by
        unfold Reader.error; split <;> rfl
      by_cases h34 : c = 34
      · subst h34
        right
        have := readStringLoop_pot _ r1.resetBuffer (Nat.le_refl _)
        rw [pot_reset, hk2] at this
        unfold Reader.pot at this
        simp only [if_true] at this
        change (readStringLoop r1.resetBuffer).buf.length + (readStringLoop r1.resetBuffer).rest.length ≤ _
        omega
      · by_cases hnum : c = 45 ∨ isDigit c = true
        · right
          have e := tokenAt_number (r := r1) hnum
          unfold tokenAt at e
          rw [e]
          have := readNumber_pot r1 c
          rw [pot_reset, hk2] at this
          unfold Reader.pot at this
          simp only [if_true] at this ⊢
          omega
        · left
          rw [if_neg h34, if_neg hnum]
          repeat' split
          all_goals first
            | exact hb
            | (rw [Step.buf_lit]; exact hb)
            | (rw [herr]; exact hb)
    · exact Or.inl hb
  · exact Or.inl rfl


end Reflect.Json

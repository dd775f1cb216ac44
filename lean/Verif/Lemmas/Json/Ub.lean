import Verif.Lemmas.Json.Step
/- Where the tokenizer runs into undefined behaviour. -/
namespace Reflect.Json

variable {o : ROpts} {s b : Bytes} {r : Reader}

@[simp] theorem pop_ub (r : Reader) : r.pop.2.ub = r.ub := by
  unfold Reader.pop; repeat' split
  all_goals rfl
@[simp] theorem peek_ub (r : Reader) : r.peek.2.ub = r.ub := by
  unfold Reader.peek; repeat' split
  all_goals rfl
@[simp] theorem error_ub (r : Reader) (m : Msg) : (r.error m).ub = r.ub := by
  unfold Reader.error; split <;> rfl
@[simp] theorem errorIf_ub (r : Reader) (c : Bool) (m : Msg) : (r.errorIf c m).ub = r.ub := by
  unfold Reader.errorIf; split <;> simp
@[simp] theorem save_ub (r : Reader) (c : Byte) : (r.save c).ub = r.ub := rfl
@[simp] theorem saveAll_ub (r : Reader) (c : Bytes) : (r.saveAll c).ub = r.ub := rfl
@[simp] theorem countNewline_ub (r : Reader) (c : Byte) : (r.countNewline c).ub = r.ub := by
  unfold Reader.countNewline; split <;> rfl
@[simp] theorem checkComments_ub (r : Reader) : r.checkComments.ub = r.ub := errorIf_ub _ _ _

theorem skipComment_ub (r : Reader) : (skipComment r).ub = r.ub := by
  fun_induction skipComment r <;> simp_all

theorem nextChar_ub (r : Reader) : (nextChar r).2.ub = r.ub := by
  have key : ∀ (r : Reader) (c : Byte), (r.pop.2.countNewline c).ub = r.ub := by simp
  fun_induction nextChar r with
  | case1 r h c r1 _ ih => rw [ih]; exact key _ _
  | case2 r h c r1 _ _ _ ih => rw [ih, skipComment_ub, checkComments_ub, peek_ub]; exact key _ _
  | case3 r h c r1 => rw [peek_ub]; exact key _ _
  | case4 r h c r1 => exact key _ _
  | case5 r h => rfl

theorem readLiteral_ub {lit : Bytes} (l : Bytes) : ∀ r : Reader, (readLiteral lit r l).ub = r.ub := by
  induction l with
  | nil => intro r; rfl
  | cons c l ih => intro r; unfold readLiteral; repeat' split
                   all_goals simp [ih]

theorem hexLoop_ub (n : Nat) : ∀ (r : Reader) (c : Nat), (hexLoop r c n).2.2.ub = r.ub := by
  induction n with
  | zero => intro r c; rfl
  | succ n ih => intro r c; unfold hexLoop; repeat' split
                 all_goals simp [ih]

theorem rawHexLoop_ub (n : Nat) : ∀ (r : Reader), (rawHexLoop r n).2.ub = r.ub := by
  induction n with
  | zero => intro r; rfl
  | succ n ih => intro r; unfold rawHexLoop; repeat' split
                 all_goals simp [ih]

theorem readUnicode_ub (r : Reader) : (readUnicode r).ub = r.ub := by
  unfold readUnicode
  split
  · unfold unescapeUnicode
    simp only
    split <;> simp [hexLoop_ub]
  · simp [rawHexLoop_ub]

theorem readStringLoop_ub (r : Reader) (h : r.opts.validateUnicode = false) : (readStringLoop r).ub = r.ub := by
  have hpop : ∀ r : Reader, r.pop.2.opts = r.opts := by
    intro r; unfold Reader.pop; repeat' split
    all_goals rfl
  have herr : ∀ (r : Reader) m, (r.error m).opts = r.opts := fun r m => (Step.error r m).opts
  have hru : ∀ (r : Reader), (readUnicode r).opts = r.opts := fun r => (readUnicode_step r).opts
  have hsv : ∀ (r : Reader) c, (r.save c).opts = r.opts := fun r c => rfl
  have key : ∀ n (r : Reader), r.need ≤ n → r.opts.validateUnicode = false → (readStringLoop r).ub = r.ub := by
    intro n
    induction n with
    | zero => intro r hn h; rw [readStringLoop_not_ok (need_zero hn)]; simp
    | succ n ih =>
      intro r hn h
      by_cases hk : r.ok = true
      · have hlt := r.pop_need_lt hk
        rw [readStringLoop.eq_def, dif_pos hk]
        simp only
        split
        · rw [ih _ (by rw [Reader.need_error]; omega) (by rw [herr, hpop]; exact h)]; simp
        · split
          · rename_i h2; rw [hpop, h] at h2; exact absurd h2.2 (by simp)
          · split
            · simp
            · split
              · split
                · have h3 := readUnicode_need_le r.pop.2.pop.2
                  have h4 := r.pop.2.pop_need_le
                  rw [ih _ (by omega) (by rw [hru, hpop, hpop]; exact h), readUnicode_ub]; simp
                · split
                  · have h4 := r.pop.2.pop_need_le
                    rw [ih _ (by rw [Reader.save_need]; omega) (by rw [hsv, hpop, hpop]; exact h)]; simp
                  · simp
              · rw [ih _ (by rw [Reader.save_need]; omega) (by rw [hsv, hpop]; exact h)]; simp
      · rw [readStringLoop_not_ok (by simpa using hk)]; simp
  exact key _ r (Nat.le_refl _) h

theorem readDigits_ub (r : Reader) : (readDigits r).ub = r.ub := by
  fun_induction readDigits r <;> simp_all

theorem readChar_ub (r : Reader) (c : Byte) : (readChar r c).2.ub = r.ub := by
  unfold readChar; repeat' split
  all_goals simp

theorem readChars_ub (r : Reader) (c d : Byte) : (readChars r c d).2.ub = r.ub := by
  unfold readChars; repeat' split
  all_goals simp

theorem readNumber_ub (r : Reader) (c : Byte) : (readNumber r c).2.ub = r.ub := by
  unfold readNumber
  simp only
  repeat' split
  all_goals simp [readDigits_ub, readChar_ub, readChars_ub, Reader.resetBuffer]

theorem lexToken_ub (r : Reader) (h : r.opts.validateUnicode = false) : (lexToken r).2.ub = r.ub := by
  unfold lexToken
  split
  · simp only
    split
    · have ho := (nextChar_step _ r (Nat.le_refl _)).opts
      have hu := nextChar_ub r
      generalize (nextChar r).2 = r2 at ho hu
      generalize (nextChar r).1 = c
      rw [← hu]
      unfold tokenAt
      repeat' split
      all_goals first
        | rfl
        | exact readLiteral_ub _ _
        | exact readNumber_ub _ _
        | exact error_ub _ _
        | exact readStringLoop_ub r2.resetBuffer (by show r2.opts.validateUnicode = false; rw [ho]; exact h)
    · exact nextChar_ub r
  · rfl

/-- The input ends inside a string: with validation on, the end-of-file marker is taken for a UTF-8
header of eight ones. -/
theorem readString_cut_ub {t v : Bytes} (ht : StrBody o t v) (hv : o.validateUnicode = true) (h : At o t b r) :
    (readStringLoop r).ub = true := by
  obtain ⟨r', h', e⟩ := readString_prefix (s := []) ht (by simpa using h)
  rw [e]
  have hp := h'.pop_nil
  rw [readStringLoop.eq_def, dif_pos h'.ok]
  simp only [hp.1]
  rw [if_neg (by decide), if_pos ⟨by decide, by rw [hp.2.2.2.1]; exact hv⟩]
  have e : leadingOnes 255 = none := by decide
  unfold validateUnicode
  rw [e]
  have hne : (({ (r'.pop.2.save 255).error (.utf8Header 255) with ub := true } : Reader)).ok = false :=
    Reader.error_not_ok (r'.pop.2.save 255) (.utf8Header 255)
  simp only
  rw [readStringLoop_not_ok hne]
  simp

theorem readString_cut_err {t v : Bytes} (ht : StrBody o t v) (hv : o.validateUnicode = false) (h : At o t b r) :
    ∃ e, (readStringLoop r).err = some e ∧ e.msg = .endOfString := by
  obtain ⟨r', h', e⟩ := readString_prefix (s := []) ht (by simpa using h)
  rw [e]
  have hp := h'.pop_nil
  rw [readStringLoop.eq_def, dif_pos h'.ok]
  simp only [hp.1]
  rw [if_neg (by decide), if_neg (by rw [hp.2.2.2.1, hv]; simp), if_neg (by decide), if_neg (by decide)]
  rw [readStringLoop_not_ok (r := r'.pop.2.save 255) hp.2.1]
  unfold Reader.error
  have : (r'.pop.2.save 255).err = none := hp.2.2.1
  rw [this]
  exact ⟨_, rfl, rfl⟩

end Reflect.Json

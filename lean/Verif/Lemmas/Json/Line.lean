import Verif.Lemmas.Json.All
import Verif.Spec.JsonLines
/- Line numbers of tokens and errors. -/
namespace Reflect.Json

variable {o : ROpts} {s y b x w : Bytes} {r : Reader} {t : Token} {v : Option Bytes} {ts : List Tok} {j k : Nat}

def Keep (r r' : Reader) : Prop :=
  r'.line = r.line ∧ (r'.err = r.err ∨ (r.err = none ∧ ∃ e, r'.err = some e ∧ e.line = r.line))

theorem Keep.refl (r : Reader) : Keep r r := ⟨rfl, Or.inl rfl⟩

theorem Keep.trans {r1 r2 : Reader} (h1 : Keep r r1) (h2 : Keep r1 r2) : Keep r r2 := by
  refine ⟨h2.1.trans h1.1, ?_⟩
  rcases h2.2 with e | ⟨e1, e, e2, e3⟩
  · rw [e]; exact h1.2
  · rcases h1.2 with e4 | ⟨_, e', e4, _⟩
    · exact Or.inr ⟨by rw [← e4]; exact e1, e, e2, by rw [e3, h1.1]⟩
    · rw [e1] at e4; cases e4

theorem Keep.pop (r : Reader) : Keep r r.pop.2 := by
  unfold Reader.pop; repeat' split
  all_goals exact ⟨rfl, Or.inl rfl⟩
theorem Keep.peek (r : Reader) : Keep r r.peek.2 := by
  unfold Reader.peek; repeat' split
  all_goals exact ⟨rfl, Or.inl rfl⟩
theorem Keep.error (r : Reader) (m : Msg) : Keep r (r.error m) := by
  unfold Reader.error; split
  · exact Keep.refl r
  · rename_i h; exact ⟨rfl, Or.inr ⟨h, _, rfl, rfl⟩⟩
theorem Keep.errorIf (r : Reader) (c : Bool) (m : Msg) : Keep r (r.errorIf c m) := by
  unfold Reader.errorIf; split
  · exact Keep.error r m
  · exact Keep.refl r
theorem Keep.save (r : Reader) (c : Byte) : Keep r (r.save c) := ⟨rfl, Or.inl rfl⟩
theorem Keep.saveAll (r : Reader) (c : Bytes) : Keep r (r.saveAll c) := ⟨rfl, Or.inl rfl⟩
theorem Keep.reset (r : Reader) : Keep r r.resetBuffer := ⟨rfl, Or.inl rfl⟩
theorem Keep.ub (r : Reader) : Keep r { r with ub := true } := ⟨rfl, Or.inl rfl⟩

theorem skipComment_keep (r : Reader) : Keep r (skipComment r) := by
  fun_induction skipComment r with
  | case1 r h h2 => exact Keep.pop r
  | case2 r h h2 ih => exact (Keep.pop r).trans ih
  | case3 r h => exact Keep.refl r

theorem readLiteral_keep {lit : Bytes} (l : Bytes) : ∀ r : Reader, Keep r (readLiteral lit r l) := by
  induction l with
  | nil => intro r; exact Keep.refl r
  | cons c l ih =>
    intro r; unfold readLiteral; repeat' split
    · exact (Keep.pop r).trans (ih _)
    · exact (Keep.pop r).trans (Keep.error _ _)
    · exact Keep.error _ _

theorem hexLoop_keep (n : Nat) : ∀ (r : Reader) (c : Nat), Keep r (hexLoop r c n).2.2 := by
  induction n with
  | zero => intro r c; exact Keep.refl r
  | succ n ih =>
    intro r c; unfold hexLoop; repeat' split
    · exact (Keep.pop r).trans (ih _ _)
    · exact (Keep.pop r).trans ((Keep.error _ _).trans (ih _ _))
    · exact Keep.refl r

theorem rawHexLoop_keep (n : Nat) : ∀ (r : Reader), Keep r (rawHexLoop r n).2 := by
  induction n with
  | zero => intro r; exact Keep.refl r
  | succ n ih =>
    intro r; unfold rawHexLoop; repeat' split
    · exact (Keep.pop r).trans ((Keep.save _ _).trans (ih _))
    · exact (Keep.pop r).trans ((Keep.error _ _).trans (ih _))
    · exact Keep.refl r

theorem readUnicode_keep (r : Reader) : Keep r (readUnicode r) := by
  unfold readUnicode
  split
  · unfold unescapeUnicode
    simp only
    split
    · exact (hexLoop_keep _ _ _).trans ((Keep.errorIf _ _ _).trans (Keep.saveAll _ _))
    · exact (hexLoop_keep _ _ _).trans (Keep.errorIf _ _ _)
  · exact (Keep.saveAll _ _).trans ((rawHexLoop_keep _ _).trans (Keep.errorIf _ _ _))

theorem contLoop_keep (n : Nat) : ∀ (r : Reader) (c : Nat), Keep r (contLoop r c n).2 := by
  induction n with
  | zero => intro r c; exact Keep.refl r
  | succ n ih =>
    intro r c; unfold contLoop; split
    · exact (Keep.pop r).trans ((Keep.save _ _).trans ((Keep.errorIf _ _ _).trans (ih _ _)))
    · exact Keep.refl r

theorem validate_keep (r : Reader) (c : Byte) : Keep r (validateUnicode r c) := by
  unfold validateUnicode
  split
  · exact (Keep.save r c).trans ((Keep.error _ _).trans (Keep.ub _))
  · exact (Keep.save r c).trans ((Keep.errorIf _ _ _).trans ((contLoop_keep _ _ _).trans (Keep.errorIf _ _ _)))

theorem readStringLoop_keep (r : Reader) : Keep r (readStringLoop r) := by
  fun_induction readStringLoop r with
  | case1 r h c r1 _ ih => exact (Keep.pop r).trans ((Keep.error _ _).trans ih)
  | case2 r h c r1 _ _ ih => exact (Keep.pop r).trans ((validate_keep _ _).trans ih)
  | case3 r h c r1 => exact Keep.pop r
  | case4 r h c r1 _ _ _ _ _ ih => exact (Keep.pop r).trans ((Keep.pop _).trans ((readUnicode_keep _).trans ih))
  | case5 r h c r1 _ _ _ _ _ _ _ ih => exact (Keep.pop r).trans ((Keep.pop _).trans ((Keep.save _ _).trans ih))
  | case6 r h c r1 => exact (Keep.pop r).trans ((Keep.pop _).trans (Keep.error _ _))
  | case7 r h c r1 _ _ _ _ ih => exact (Keep.pop r).trans ((Keep.save _ _).trans ih)
  | case8 r h => exact Keep.error _ _

theorem readDigits_keep (r : Reader) : Keep r (readDigits r) := by
  fun_induction readDigits r with
  | case1 r h _ ih => exact (Keep.peek r).trans ((Keep.pop _).trans ((Keep.save _ _).trans ih))
  | case2 r h => exact Keep.peek r
  | case3 r h => exact Keep.refl r

theorem readChar_keep (r : Reader) (c : Byte) : Keep r (readChar r c).2 := by
  unfold readChar; repeat' split
  · exact (Keep.peek r).trans ((Keep.pop _).trans (Keep.save _ _))
  · exact Keep.peek r
  · exact Keep.refl r

theorem readChars_keep (r : Reader) (c d : Byte) : Keep r (readChars r c d).2 := by
  unfold readChars; repeat' split
  · exact (Keep.peek r).trans ((Keep.pop _).trans (Keep.save _ _))
  · exact (Keep.peek r).trans ((Keep.peek _).trans ((Keep.pop _).trans (Keep.save _ _)))
  · exact (Keep.peek r).trans (Keep.peek _)
  · exact Keep.refl r

theorem readNumber_keep (r : Reader) (c : Byte) : Keep r (readNumber r c).2 := by
  unfold readNumber
  simp only
  have h1 : Keep r (readChar (readDigits (r.resetBuffer.save c)) 46).2 :=
    (Keep.reset r).trans ((Keep.save _ _).trans ((readDigits_keep _).trans (readChar_keep _ _)))
  repeat' split
  all_goals first
    | exact h1.trans ((readDigits_keep _).trans ((readChars_keep _ _ _).trans ((readChars_keep _ _ _).trans (readDigits_keep _))))
    | exact h1.trans ((readDigits_keep _).trans (readChars_keep _ _ _))
    | exact h1.trans ((readChars_keep _ _ _).trans ((readChars_keep _ _ _).trans (readDigits_keep _)))
    | exact h1.trans (readChars_keep _ _ _)

theorem tokenAt_keep (r : Reader) (c : Byte) : Keep r (tokenAt r c).2 := by
  unfold tokenAt
  repeat' split
  all_goals first
    | exact Keep.refl r
    | exact readLiteral_keep _ _
    | exact readNumber_keep _ _
    | exact Keep.error _ _
    | exact (Keep.reset r).trans (readStringLoop_keep _)

theorem breaks_sep (h : Breaks o w j) : Sep o w := by
  induction h with
  | nil => exact Sep.nil
  | newline w k _ ih => exact Sep.ws 10 w (by decide) ih
  | ws c w k hc _ _ ih => exact Sep.ws c w hc ih
  | comment body w k ho hb _ ih => exact Sep.comment body w ho hb ih

theorem sep_breaks (h : Sep o w) : ∃ j, Breaks o w j := by
  induction h with
  | nil => exact ⟨0, Breaks.nil⟩
  | ws c w hc _ ih =>
    obtain ⟨j, hj⟩ := ih
    by_cases h : c = 10
    · subst h; exact ⟨_, Breaks.newline w j hj⟩
    · exact ⟨_, Breaks.ws c w j hc h hj⟩
  | comment body w ho hb _ ih =>
    obtain ⟨j, hj⟩ := ih
    exact ⟨_, Breaks.comment body w j ho hb hj⟩

theorem readsL_reads (h : ReadsL o s ts y k) : Reads o s ts y := by
  induction h with
  | nil y => exact Reads.nil y
  | cons w a s y t v ts j k hw hl hf _ ih => exact Reads.cons w a s y t v ts (breaks_sep hw) hl hf ih

theorem reads_readsL (h : Reads o s ts y) : ∃ k, ReadsL o s ts y k := by
  induction h with
  | nil y => exact ⟨0, ReadsL.nil y⟩
  | cons w a s y t v ts hw hl hf _ ih =>
    obtain ⟨k, hk⟩ := ih
    obtain ⟨j, hj⟩ := sep_breaks hw
    exact ⟨j + k, ReadsL.cons w a s y t v ts j k hj hl hf hk⟩

theorem nextChar_breaks (hw : Breaks o w j) : ∀ {r : Reader} {s b : Bytes}, At o (w ++ s) b r →
    ∃ r', At o s b r' ∧ nextChar r = nextChar r' ∧ r'.line = r.line + j := by
  induction hw with
  | nil => intro r s b h; exact ⟨r, h, rfl, rfl⟩
  | newline w k _ ih =>
    intro r s b h
    have hp := h.pop
    obtain ⟨r', h1, h2, h3⟩ := ih (hp.2.countNewline 10)
    refine ⟨r', h1, ?_, ?_⟩
    · rw [nextChar.eq_def, dif_pos h.ok]
      simp only [hp.1]
      rw [if_pos (by decide)]
      exact h2
    · rw [h3]
      show r.pop.2.line + 1 + k = _
      rw [(Keep.pop r).1]; omega
  | ws d w k hd hne _ ih =>
    intro r s b h
    have hp := h.pop
    have e : r.pop.2.countNewline d = r.pop.2 := by unfold Reader.countNewline; rw [if_neg hne]
    obtain ⟨r', h1, h2, h3⟩ := ih hp.2
    refine ⟨r', h1, ?_, ?_⟩
    · rw [nextChar.eq_def, dif_pos h.ok]
      simp only [hp.1]
      rw [if_pos ((isSpace_iff d).mpr hd), e]
      exact h2
    · rw [h3, (Keep.pop r).1]
  | comment body w k ho hb _ ih =>
    intro r s b h
    simp only [List.cons_append, List.nil_append, List.append_assoc] at h
    have hp := h.pop
    have h1 := hp.2.countNewline 47
    have e : (r.pop.2.countNewline 47).checkComments = r.pop.2.countNewline 47 := by
      unfold Reader.checkComments Reader.errorIf
      rw [h1.opts, ho]; rfl
    have h2 := skipComment_complete (47 :: body) (by
      simp only [List.mem_cons, not_or]; exact ⟨by decide, hb⟩) h1
    obtain ⟨r', h3, h4, h5⟩ := ih h2
    refine ⟨r', h3, ?_, ?_⟩
    · rw [nextChar.eq_def, dif_pos h.ok]
      simp only [hp.1]
      rw [if_neg (by decide), if_pos trivial, h1.peek]
      simp only [if_true]
      rw [e]
      exact h4
    · rw [h5, (skipComment_keep _).1]
      show r.pop.2.line + k = _
      rw [(Keep.pop r).1]

theorem nextChar_noSep (hx : NoSep o x) (h : At o x b r) : Keep r (nextChar r).2 := by
  rw [nextChar.eq_def, dif_pos h.ok]
  cases x with
  | nil =>
    have hp := h.pop_nil
    simp only [hp.1]
    rw [if_neg (by decide), if_neg (by decide)]
    exact Keep.pop r
  | cons c y =>
    have hp := h.pop
    simp only [hp.1]
    have hc : c ∉ wsBytes := by
      intro hc
      exact absurd (hx [c] y rfl (Sep.ws c [] hc Sep.nil)) (by simp)
    have hc10 : c ≠ 10 := by intro e; subst e; exact hc (by decide)
    have e : r.pop.2.countNewline c = r.pop.2 := by unfold Reader.countNewline; rw [if_neg hc10]
    rw [if_neg (by rw [isSpace_iff]; exact hc), e]
    split
    · split
      · rename_i hc47 hpk
        cases y with
        | nil =>
          have : r.pop.2.peek.1 = 255 := (hp.2.soft.peek_nil).1
          rw [this] at hpk; exact absurd hpk (by decide)
        | cons d y =>
          rw [hp.2.peek] at hpk ⊢
          simp only at hpk ⊢
          subst hc47; subst hpk
          have hk : Keep r (skipComment r.pop.2.checkComments) :=
            (Keep.pop r).trans ((Keep.errorIf _ _ _).trans (skipComment_keep _))
          have hend : (skipComment r.pop.2.checkComments).ok = false := by
            by_cases ho : o.allowComments = true
            · have ec : r.pop.2.checkComments = r.pop.2 := by
                unfold Reader.checkComments Reader.errorIf
                rw [hp.2.opts, ho]; rfl
              rw [ec]
              refine (skipComment_end (47 :: y) ?_ hp.2).1
              intro hm
              have hm' : (10 : Byte) ∈ y := by simpa using hm
              have hex : ∃ body s', y = body ++ 10 :: s' ∧ (10 : Byte) ∉ body := by
                rcases skipComment_sound y (At.open o y) with h1 | ⟨e1, _⟩
                · exact h1
                · exact absurd hm' e1
              obtain ⟨body, y', rfl, hb⟩ := hex
              have := hx ([47, 47] ++ body ++ [10] ++ []) y' (by simp) (Sep.comment body [] ho hb Sep.nil)
              simp at this
            · have : r.pop.2.checkComments.ok = false := by
                rcases checkComments_ok r.pop.2 with h1 | h1
                · rw [(Step.checkComments r.pop.2).opts, hp.2.opts] at h1; exact absurd h1 ho
                · exact h1
              rw [skipComment_not_ok this]; exact this
          rw [nextChar_not_ok hend]
          exact hk
      · exact (Keep.pop r).trans (Keep.peek _)
    · exact Keep.pop r

theorem lexToken_line (hw : Breaks o w j) (hx : NoSep o x) (h : Soft o (w ++ x) b r) :
    (lexToken r).2.line = r.line + j ∧ ∀ e, (lexToken r).2.err = some e → e.line = r.line + j := by
  by_cases hs : w ++ x = []
  · have hw0 : w = [] := by simp at hs; exact hs.1
    subst hw0
    have hj : j = 0 := by cases hw; rfl
    subst hj
    have hk : Keep r (lexToken r).2 := by
      unfold lexToken
      split
      · rename_i hok
        have hp : r.pop.1 = 255 ∧ r.pop.2.ok = false := by
          rw [hs] at h
          unfold Reader.pop
          split
          · simp [Reader.ok]
          · rw [h.rest]; simp [Reader.ok]
        have hn : nextChar r = (255, r.pop.2) := by
          rw [nextChar.eq_def, dif_pos hok]
          simp only [hp.1]
          rw [if_neg (by decide), if_neg (by decide)]
          rfl
        rw [hn]
        simp only
        rw [if_neg (by rw [hp.2]; simp)]
        exact Keep.pop r
      · exact Keep.refl r
    refine ⟨hk.1, fun e he => ?_⟩
    rcases hk.2 with h1 | ⟨_, e', h1, h2⟩
    · rw [h1, h.err] at he; cases he
    · rw [h1] at he; injection he with he; rw [← he]; exact h2
  · have hat := h.at hs
    obtain ⟨r', h1, h2, h3⟩ := nextChar_breaks hw hat
    have hk : Keep r' (lexToken r).2 := by
      have hn := nextChar_noSep hx h1
      unfold lexToken
      rw [if_pos hat.ok, h2]
      simp only
      split
      · exact hn.trans (tokenAt_keep _ _)
      · exact hn
    refine ⟨hk.1.trans h3, fun e he => ?_⟩
    rcases hk.2 with h4 | ⟨_, e', h4, h5⟩
    · rw [h4, h1.err] at he; cases he
    · rw [h4] at he; injection he with he; rw [← he, ← h3]; exact h5

theorem lexeme_noSep {a : Bytes} (h : Lexeme o a t v) : NoSep o (a ++ s) := by
  intro w x' he hw
  apply Classical.byContradiction
  intro hne
  obtain ⟨c, a', rfl, h1, h2⟩ := lexeme_head h
  obtain ⟨d, w', rfl, h3⟩ := sep_head hw hne
  simp at he
  rw [← he.1] at h3
  rcases h3 with h3 | h3
  · exact h1 h3
  · exact h2 h3

theorem takeToks_readsL : ∀ (ts : List Tok) (s : Bytes) (k : Nat) (r : Reader) (b : Bytes), ReadsL o s ts y k →
    Soft o s b r → ∃ r' b', takeToks ts.length r = .ok (ts, r') ∧ Soft o y b' r' ∧ r'.line = r.line + k := by
  intro ts
  induction ts with
  | nil =>
    intro s k r b h hs
    cases h
    exact ⟨r, b, rfl, hs, rfl⟩
  | cons p ts ih =>
    intro s k r b h hs
    cases h with
    | cons w a s y t v ts j k hw hl hf hr =>
      have hne : w ++ a ++ s ≠ [] := by
        obtain ⟨c, a', rfl, _⟩ := lexeme_head hl; simp
      have hat := hs.at hne
      have hc := lex_complete (breaks_sep hw) hl hf hat
      have hline := lexToken_line hw (lexeme_noSep (s := s) hl) (by simpa using hs)
      obtain ⟨r', b', h1, h2, h3⟩ := ih s k (lexToken r).2 _ hr hc.2
      refine ⟨r', b', ?_, h2, ?_⟩
      · rw [List.length_cons, takeToks]
        unfold Reader.nextToken
        rw [if_pos (by rw [hs.tok])]
        unfold Reader.checked
        rw [hc.2.ub]
        simp only [Bool.false_eq_true, if_false]
        rw [okb, h1, okb, hc.1, tokText_eq hl (by intro x hx; rw [hc.2.buf, hx]; rfl)]
      · rw [h3, hline.1]; omega

theorem takeToks_add : ∀ (n m : Nat) (r : Reader), takeToks (n + m) r = (do
    let p ← takeToks n r
    let q ← takeToks m p.2
    .ok (p.1 ++ q.1, q.2)) := by
  intro n
  induction n with
  | zero =>
    intro m r
    rw [Nat.zero_add, takeToks, okb]
    cases takeToks m r <;> rfl
  | succ n ih =>
    intro m r
    rw [Nat.succ_add, takeToks, takeToks]
    cases hr : r.nextToken with
    | error e => rfl
    | ok p =>
      rw [okb, okb, ih]
      cases takeToks n p.2 with
      | error e => rfl
      | ok q =>
        rw [okb, okb, okb]
        cases takeToks m q.2 <;> rfl

end Reflect.Json

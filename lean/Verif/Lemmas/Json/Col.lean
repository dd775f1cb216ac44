import Verif.Lemmas.Json.Line
import Verif.Spec.JsonCols
/- Columns of tokens and errors. -/
namespace Reflect.Json

variable {o : ROpts} {s y b x w : Bytes} {r : Reader} {t : Token} {v : Option Bytes} {ts : List Tok} {j k : Nat}

/-- how the column moves while no newline is counted: by one for each byte consumed, plus one if reading
past the end; an error carries the column at which reading stopped -/
structure Walk (r r' : Reader) : Prop where
  stop : r.ok = false → r'.pos = r.pos ∧ r'.rest = r.rest
  moved : ∃ u n, r.rest = u ++ r'.rest ∧ r'.pos = r.pos + u.length + n ∧ n ≤ 1 ∧ (r'.fail = false → n = 0)
  failed : r.fail = true → r'.fail = true
  err : r'.err = r.err ∨ (r.err = none ∧ ∃ e, r'.err = some e ∧ e.pos = r'.pos)

theorem Walk.same {r r' : Reader} (h1 : r'.pos = r.pos) (h2 : r'.rest = r.rest)
    (h3 : r.fail = true → r'.fail = true) (h4 : r'.err = r.err ∨ (r.err = none ∧ ∃ e, r'.err = some e ∧ e.pos = r'.pos)) :
    Walk r r' :=
  ⟨fun _ => ⟨h1, h2⟩, ⟨[], 0, by simp [h2], by simp [h1], by omega, fun _ => rfl⟩, h3, h4⟩

theorem Walk.refl (r : Reader) : Walk r r := Walk.same rfl rfl id (.inl rfl)

theorem not_ok_of_err {r : Reader} (h : r.err ≠ none) : r.ok = false := by
  unfold Reader.ok; cases he : r.err with
  | none => exact absurd he h
  | some e => rfl

theorem not_ok_of_fail {r : Reader} (h : r.fail = true) : r.ok = false := by
  unfold Reader.ok; rw [h]; simp

theorem Walk.trans {r1 r2 : Reader} (h1 : Walk r r1) (h2 : Walk r1 r2) : Walk r r2 := by
  have hstop : r.ok = false → r1.ok = false := by
    intro h
    unfold Reader.ok at h
    simp only [Bool.and_eq_false_iff, Option.isNone_eq_false_iff, Bool.not_eq_false'] at h
    rcases h with h | h
    · apply not_ok_of_err
      rcases h1.err with e | ⟨e, -⟩
      · rw [e]; intro h'; rw [h'] at h; cases h
      · rw [e] at h; cases h
    · exact not_ok_of_fail (h1.failed h)
  refine ⟨fun h => ?_, ?_, fun h => h2.failed (h1.failed h), ?_⟩
  · have a := h1.stop h
    have c := h2.stop (hstop h)
    exact ⟨c.1.trans a.1, c.2.trans a.2⟩
  · obtain ⟨u1, n1, a1, a2, a3, a4⟩ := h1.moved
    obtain ⟨u2, n2, c1, c2, c3, c4⟩ := h2.moved
    by_cases hn : n1 = 0
    · subst hn
      refine ⟨u1 ++ u2, n2, by rw [a1, c1]; simp, by rw [c2, a2]; simp; omega, c3, c4⟩
    · have hf : r1.fail = true := by
        cases h : r1.fail with
        | true => rfl
        | false => exact absurd (a4 h) hn
      obtain ⟨d1, d2⟩ := h2.stop (not_ok_of_fail hf)
      refine ⟨u1, n1, by rw [a1, d2], by rw [d1, a2], a3, fun h => ?_⟩
      rw [h2.failed hf] at h; cases h
  · rcases h1.err with e | ⟨e, e1, e2, e3⟩
    · rw [← e]; exact h2.err
    · have hne : r1.err ≠ none := by rw [e2]; simp
      rcases h2.err with d | ⟨d, -⟩
      · exact .inr ⟨e, e1, by rw [d, e2], by rw [(h2.stop (not_ok_of_err hne)).1, e3]⟩
      · exact absurd d hne

theorem Walk.pop (h : r.ok = true) : Walk r r.pop.2 := by
  refine ⟨fun h' => (by rw [h] at h'; cases h'), ?_, ?_, .inl ?_⟩
  · unfold Reader.pop
    split
    · exact ⟨[], 1, rfl, rfl, by omega, fun h => by cases h⟩
    · split
      · rename_i e; exact ⟨[], 1, by simp [e], rfl, by omega, fun h => by cases h⟩
      · rename_i c bs e; exact ⟨[c], 0, by simp [e], rfl, by omega, fun _ => rfl⟩
  · intro hf; rw [not_ok_of_fail hf] at h; cases h
  · unfold Reader.pop; repeat' split
    all_goals rfl

theorem Walk.peek (r : Reader) : Walk r r.peek.2 := by
  unfold Reader.peek; repeat' split
  all_goals exact Walk.same rfl rfl (by simp) (.inl rfl)
theorem Walk.error (r : Reader) (m : Msg) : Walk r (r.error m) := by
  unfold Reader.error; split
  · exact Walk.refl r
  · rename_i h; exact Walk.same rfl rfl id (.inr ⟨h, _, rfl, rfl⟩)
theorem Walk.errorIf (r : Reader) (c : Bool) (m : Msg) : Walk r (r.errorIf c m) := by
  unfold Reader.errorIf; split
  · exact Walk.error r m
  · exact Walk.refl r
theorem Walk.save (r : Reader) (c : Byte) : Walk r (r.save c) := Walk.same rfl rfl id (.inl rfl)
theorem Walk.saveAll (r : Reader) (c : Bytes) : Walk r (r.saveAll c) := Walk.same rfl rfl id (.inl rfl)
theorem Walk.reset (r : Reader) : Walk r r.resetBuffer := Walk.same rfl rfl id (.inl rfl)
theorem Walk.ub (r : Reader) : Walk r { r with ub := true } := Walk.same rfl rfl id (.inl rfl)

theorem skipComment_walk (r : Reader) : Walk r (skipComment r) := by
  fun_induction skipComment r with
  | case1 r h h2 => exact Walk.pop h
  | case2 r h h2 ih => exact (Walk.pop h).trans ih
  | case3 r h => exact Walk.refl r

theorem readLiteral_walk {lit : Bytes} (l : Bytes) : ∀ r : Reader, Walk r (readLiteral lit r l) := by
  induction l with
  | nil => intro r; exact Walk.refl r
  | cons c l ih =>
    intro r; unfold readLiteral
    split
    · rename_i h
      split
      · exact (Walk.pop h).trans (ih _)
      · exact (Walk.pop h).trans (Walk.error _ _)
    · exact Walk.error _ _

theorem hexLoop_walk (n : Nat) : ∀ (r : Reader) (c : Nat), Walk r (hexLoop r c n).2.2 := by
  induction n with
  | zero => intro r c; exact Walk.refl r
  | succ n ih =>
    intro r c; unfold hexLoop
    split
    · rename_i h
      split
      · exact (Walk.pop h).trans (ih _ _)
      · exact (Walk.pop h).trans ((Walk.error _ _).trans (ih _ _))
    · exact Walk.refl r

theorem rawHexLoop_walk (n : Nat) : ∀ (r : Reader), Walk r (rawHexLoop r n).2 := by
  induction n with
  | zero => intro r; exact Walk.refl r
  | succ n ih =>
    intro r; unfold rawHexLoop
    split
    · rename_i h
      split
      · exact (Walk.pop h).trans ((Walk.save _ _).trans (ih _))
      · exact (Walk.pop h).trans ((Walk.error _ _).trans (ih _))
    · exact Walk.refl r

theorem readUnicode_walk (r : Reader) : Walk r (readUnicode r) := by
  unfold readUnicode
  split
  · unfold unescapeUnicode
    simp only
    split
    · exact (hexLoop_walk _ _ _).trans ((Walk.errorIf _ _ _).trans (Walk.saveAll _ _))
    · exact (hexLoop_walk _ _ _).trans (Walk.errorIf _ _ _)
  · exact (Walk.saveAll _ _).trans ((rawHexLoop_walk _ _).trans (Walk.errorIf _ _ _))

theorem contLoop_walk (n : Nat) : ∀ (r : Reader) (c : Nat), Walk r (contLoop r c n).2 := by
  induction n with
  | zero => intro r c; exact Walk.refl r
  | succ n ih =>
    intro r c; unfold contLoop; split
    · rename_i h
      exact (Walk.pop h).trans ((Walk.save _ _).trans ((Walk.errorIf _ _ _).trans (ih _ _)))
    · exact Walk.refl r

theorem validate_walk (r : Reader) (c : Byte) : Walk r (validateUnicode r c) := by
  unfold validateUnicode
  split
  · exact (Walk.save r c).trans ((Walk.error _ _).trans (Walk.ub _))
  · exact (Walk.save r c).trans ((Walk.errorIf _ _ _).trans ((contLoop_walk _ _ _).trans (Walk.errorIf _ _ _)))

/-- a byte other than 0xFF was really read -/
theorem pop_ok (h : r.ok = true) (hc : r.pop.1 ≠ 255) : r.pop.2.ok = true := by
  unfold Reader.pop at hc ⊢
  split
  · rename_i h1; rw [if_pos h1] at hc; exact absurd rfl hc
  · rename_i h1
    rw [if_neg h1] at hc
    split
    · rename_i h2; rw [h2] at hc; exact absurd rfl hc
    · exact h

theorem readStringLoop_walk (r : Reader) : Walk r (readStringLoop r) := by
  fun_induction readStringLoop r with
  | case1 r h c r1 _ ih => exact (Walk.pop h).trans ((Walk.error _ _).trans ih)
  | case2 r h c r1 _ _ ih => exact (Walk.pop h).trans ((validate_walk _ _).trans ih)
  | case3 r h c r1 => exact Walk.pop h
  | case4 r h c r1 _ _ _ hc _ ih =>
    have hc : r.pop.1 = 92 := hc
    exact (Walk.pop h).trans ((Walk.pop (pop_ok h (by rw [hc]; decide))).trans ((readUnicode_walk _).trans ih))
  | case5 r h c r1 _ _ _ hc _ _ _ ih =>
    have hc : r.pop.1 = 92 := hc
    exact (Walk.pop h).trans ((Walk.pop (pop_ok h (by rw [hc]; decide))).trans ((Walk.save _ _).trans ih))
  | case6 r h c r1 _ _ _ hc =>
    have hc : r.pop.1 = 92 := hc
    exact (Walk.pop h).trans ((Walk.pop (pop_ok h (by rw [hc]; decide))).trans (Walk.error _ _))
  | case7 r h c r1 _ _ _ _ ih => exact (Walk.pop h).trans ((Walk.save _ _).trans ih)
  | case8 r h => exact Walk.error _ _

/-- a byte other than 0xFF was really seen -/
theorem peek_ok (h : r.ok = true) (hc : r.peek.1 ≠ 255) : r.peek.2.ok = true := by
  unfold Reader.peek at hc ⊢
  split
  · rename_i h1; rw [if_pos h1] at hc; exact absurd rfl hc
  · rename_i h1
    rw [if_neg h1] at hc
    split
    · rename_i h2; rw [h2] at hc; exact absurd rfl hc
    · exact h

theorem readDigits_walk (r : Reader) : Walk r (readDigits r) := by
  fun_induction readDigits r with
  | case1 r h hd ih =>
    exact (Walk.peek r).trans ((Walk.pop (peek_ok h (by intro e; rw [e] at hd; revert hd; decide))).trans
      ((Walk.save _ _).trans ih))
  | case2 r h => exact Walk.peek r
  | case3 r h => exact Walk.refl r

theorem readChar_walk (r : Reader) (c : Byte) (hc : c ≠ 255) : Walk r (readChar r c).2 := by
  unfold readChar
  split
  · rename_i h
    split
    · rename_i e
      exact (Walk.peek r).trans ((Walk.pop (peek_ok h (by rw [e]; exact hc))).trans (Walk.save _ _))
    · exact Walk.peek r
  · exact Walk.refl r

theorem readChars_walk (r : Reader) (c d : Byte) (hc : c ≠ 255) (hd : d ≠ 255) : Walk r (readChars r c d).2 := by
  unfold readChars
  split
  · rename_i h
    split
    · rename_i e
      exact (Walk.peek r).trans ((Walk.pop (peek_ok h (by rw [e]; exact hc))).trans (Walk.save _ _))
    · split
      · rename_i e
        by_cases ho : r.peek.2.ok = true
        · exact (Walk.peek r).trans ((Walk.peek _).trans ((Walk.pop (peek_ok ho (by rw [e]; exact hd))).trans
            (Walk.save _ _)))
        · exfalso
          apply hd
          rw [← e]
          have : r.peek.2.fail = true := by
            have h1 : r.peek.2.err = r.err := by unfold Reader.peek; repeat' split
                                                 all_goals rfl
            have h2 : r.err = none := by
              unfold Reader.ok at h; cases he : r.err with
              | none => rfl
              | some e => rw [he] at h; simp at h
            unfold Reader.ok at ho
            rw [h1, h2] at ho
            simpa using ho
          generalize r.peek.2 = q at this
          unfold Reader.peek
          rw [this]; simp
      · exact (Walk.peek r).trans (Walk.peek _)
  · exact Walk.refl r

theorem readNumber_walk (r : Reader) (c : Byte) : Walk r (readNumber r c).2 := by
  unfold readNumber
  simp only
  have h1 : Walk r (readChar (readDigits (r.resetBuffer.save c)) 46).2 :=
    (Walk.reset r).trans ((Walk.save _ _).trans ((readDigits_walk _).trans (readChar_walk _ _ (by decide))))
  have e1 := fun q => readChars_walk q 101 69 (by decide) (by decide)
  have e2 := fun q => readChars_walk q 43 45 (by decide) (by decide)
  repeat' split
  all_goals first
    | exact h1.trans ((readDigits_walk _).trans ((e1 _).trans ((e2 _).trans (readDigits_walk _))))
    | exact h1.trans ((readDigits_walk _).trans (e1 _))
    | exact h1.trans ((e1 _).trans ((e2 _).trans (readDigits_walk _)))
    | exact h1.trans (e1 _)

theorem tokenAt_walk (r : Reader) (c : Byte) : Walk r (tokenAt r c).2 := by
  unfold tokenAt
  repeat' split
  all_goals first
    | exact Walk.refl r
    | exact readLiteral_walk _ _
    | exact readNumber_walk _ _
    | exact Walk.error _ _
    | exact (Walk.reset r).trans (readStringLoop_walk _)

theorem after_sep {c c' : Nat} (h : After o w c c') : Sep o w := by
  induction h with
  | nil => exact Sep.nil
  | newline w _ _ _ ih => exact Sep.ws 10 w (by decide) ih
  | ws c w _ _ hc _ _ ih => exact Sep.ws c w hc ih
  | comment body w _ _ ho hb _ ih => exact Sep.comment body w ho hb ih

theorem sep_after (h : Sep o w) : ∀ c, ∃ c', After o w c c' := by
  induction h with
  | nil => exact fun c => ⟨c, After.nil c⟩
  | ws d w hd _ ih =>
    intro c
    by_cases h : d = 10
    · subst h
      obtain ⟨c', h'⟩ := ih 0
      exact ⟨c', After.newline w c c' h'⟩
    · obtain ⟨c', h'⟩ := ih (c + 1)
      exact ⟨c', After.ws d w c c' hd h h'⟩
  | comment body w ho hb _ ih =>
    intro c
    obtain ⟨c', h'⟩ := ih (c + ([47, 47] ++ body ++ [10]).length)
    exact ⟨c', After.comment body w c c' ho hb h'⟩

theorem reads_readsC (h : Reads o s ts y) : ∀ c, ∃ c', ReadsC o s ts y c c' := by
  induction h with
  | nil y => exact fun c => ⟨c, ReadsC.nil y c⟩
  | cons w a s y t v ts hw hl hf _ ih =>
    intro c
    obtain ⟨c1, h1⟩ := sep_after hw c
    obtain ⟨c', h'⟩ := ih (c1 + a.length)
    exact ⟨c', ReadsC.cons w a s y t v ts c c1 c' h1 hl hf h'⟩

theorem At.pop_pos {c : Byte} (h : At o (c :: s) b r) : r.pop.2.pos = r.pos + 1 := by
  unfold Reader.pop
  rw [h.eof, h.fail, h.rest]; rfl

theorem skipComment_pos (body : Bytes) : (10 : Byte) ∉ body → ∀ {r : Reader},
    At o (body ++ 10 :: s) b r → (skipComment r).pos = r.pos + body.length + 1 := by
  induction body with
  | nil =>
    intro _ r h
    have hp := h.pop
    rw [skipComment.eq_def, dif_pos h.ok, if_pos hp.1, h.pop_pos]; rfl
  | cons d body ih =>
    intro hb r h
    simp only [List.mem_cons, not_or] at hb
    have hp := At.pop (s := body ++ 10 :: s) h
    have e := At.pop_pos (s := body ++ 10 :: s) h
    rw [skipComment.eq_def, dif_pos h.ok, if_neg (by rw [hp.1]; exact fun e => hb.1 e.symm), ih hb.2 hp.2, e]
    simp only [List.length_cons]; omega

theorem nextChar_after {c c' : Nat} (hw : After o w c c') : ∀ {r : Reader} {s b : Bytes}, At o (w ++ s) b r →
    r.pos = 1 + c → ∃ r', At o s b r' ∧ nextChar r = nextChar r' ∧ r'.pos = 1 + c' := by
  induction hw with
  | nil => intro r s b h hc; exact ⟨r, h, rfl, hc⟩
  | newline w c c' _ ih =>
    intro r s b h hc
    have hp := h.pop
    obtain ⟨r', h1, h2, h3⟩ := ih (hp.2.countNewline 10) rfl
    refine ⟨r', h1, ?_, h3⟩
    rw [nextChar.eq_def, dif_pos h.ok]
    simp only [hp.1]
    rw [if_pos (by decide)]
    exact h2
  | ws d w c c' hd hne _ ih =>
    intro r s b h hc
    have hp := h.pop
    have e : r.pop.2.countNewline d = r.pop.2 := by unfold Reader.countNewline; rw [if_neg hne]
    obtain ⟨r', h1, h2, h3⟩ := ih hp.2 (by rw [At.pop_pos (s := w ++ s) h, hc]; omega)
    refine ⟨r', h1, ?_, h3⟩
    rw [nextChar.eq_def, dif_pos h.ok]
    simp only [hp.1]
    rw [if_pos ((isSpace_iff d).mpr hd), e]
    exact h2
  | comment body w c c' ho hb _ ih =>
    intro r s b h hc
    simp only [List.cons_append, List.nil_append, List.append_assoc] at h
    have hp := h.pop
    have hpos := h.pop_pos
    have h1 := hp.2.countNewline 47
    have hcn : r.pop.2.countNewline 47 = r.pop.2 := by unfold Reader.countNewline; rw [if_neg (by decide)]
    have e : (r.pop.2.countNewline 47).checkComments = r.pop.2.countNewline 47 := by
      unfold Reader.checkComments Reader.errorIf
      rw [h1.opts, ho]; rfl
    have hnb : (10 : Byte) ∉ 47 :: body := by
      simp only [List.mem_cons, not_or]; exact ⟨by decide, hb⟩
    have h2 := skipComment_complete (47 :: body) hnb h1
    have h6 := skipComment_pos (47 :: body) hnb h1
    obtain ⟨r', h3, h4, h5⟩ := ih h2 (by
      rw [h6, hcn, hpos, hc]; simp only [List.length_cons, List.length_append, List.length_nil]; omega)
    refine ⟨r', h3, ?_, h5⟩
    rw [nextChar.eq_def, dif_pos h.ok]
    simp only [hp.1]
    rw [if_neg (by decide), if_pos trivial, h1.peek]
    simp only [if_true]
    rw [e]
    exact h4

theorem nextChar_noSep_walk (hx : NoSep o x) (h : At o x b r) : Walk r (nextChar r).2 := by
  rw [nextChar.eq_def, dif_pos h.ok]
  cases x with
  | nil =>
    have hp := h.pop_nil
    simp only [hp.1]
    rw [if_neg (by decide), if_neg (by decide)]
    exact Walk.pop h.ok
  | cons c y =>
    have hp := h.pop
    simp only [hp.1]
    have hc : c ∉ wsBytes := by
      intro hc
      exact absurd (hx [c] y rfl (Sep.ws c [] hc Sep.nil)) (by simp)
    have hc10 : c ≠ 10 := by intro e; subst e; exact hc (by decide)
    have e : r.pop.2.countNewline c = r.pop.2 := by unfold Reader.countNewline; rw [if_neg hc10]
    rw [if_neg (by rw [isSpace_iff]; exact hc), e]
    split
    · split
      · rename_i hc47 hpk
        cases y with
        | nil =>
          have : r.pop.2.peek.1 = 255 := (hp.2.soft.peek_nil).1
          rw [this] at hpk; exact absurd hpk (by decide)
        | cons d y =>
          rw [hp.2.peek] at hpk ⊢
          simp only at hpk ⊢
          subst hc47; subst hpk
          have hk : Walk r (skipComment r.pop.2.checkComments) :=
            (Walk.pop h.ok).trans ((Walk.errorIf _ _ _).trans (skipComment_walk _))
          have hend : (skipComment r.pop.2.checkComments).ok = false := by
            by_cases ho : o.allowComments = true
            · have ec : r.pop.2.checkComments = r.pop.2 := by
                unfold Reader.checkComments Reader.errorIf
                rw [hp.2.opts, ho]; rfl
              rw [ec]
              refine (skipComment_end (47 :: y) ?_ hp.2).1
              intro hm
              have hm' : (10 : Byte) ∈ y := by simpa using hm
              have hex : ∃ body s', y = body ++ 10 :: s' ∧ (10 : Byte) ∉ body := by
                rcases skipComment_sound y (At.open o y) with h1 | ⟨e1, _⟩
                · exact h1
                · exact absurd hm' e1
              obtain ⟨body, y', rfl, hb⟩ := hex
              have := hx ([47, 47] ++ body ++ [10] ++ []) y' (by simp) (Sep.comment body [] ho hb Sep.nil)
              simp at this
            · have : r.pop.2.checkComments.ok = false := by
                rcases checkComments_ok r.pop.2 with h1 | h1
                · rw [(Step.checkComments r.pop.2).opts, hp.2.opts] at h1; exact absurd h1 ho
                · exact h1
              rw [skipComment_not_ok this]; exact this
          rw [nextChar_not_ok hend]
          exact hk
      · exact (Walk.pop h.ok).trans (Walk.peek _)
    · exact Walk.pop h.ok

/-- what reading one token does to the column -/
theorem lexToken_col {c c' : Nat} (hw : After o w c c') (hx : NoSep o x) (h : Soft o (w ++ x) b r)
    (hc : r.pos = 1 + c) :
    (∃ u n, x = u ++ (lexToken r).2.rest ∧ (lexToken r).2.pos = 1 + c' + u.length + n ∧ n ≤ 1 ∧
      ((lexToken r).2.fail = false → n = 0)) ∧
    ∀ e, (lexToken r).2.err = some e → e.pos = (lexToken r).2.pos := by
  have key : ∀ r' : Reader, r'.rest = x → r'.pos = 1 + c' → r'.err = none → Walk r' (lexToken r).2 → _ :=
    fun r' (h1 : r'.rest = x) (h2 : r'.pos = 1 + c') (h3 : r'.err = none) (hk : Walk r' (lexToken r).2) =>
    show (∃ u n, x = u ++ (lexToken r).2.rest ∧ (lexToken r).2.pos = 1 + c' + u.length + n ∧ n ≤ 1 ∧
      ((lexToken r).2.fail = false → n = 0)) ∧
      ∀ e, (lexToken r).2.err = some e → e.pos = (lexToken r).2.pos by
      obtain ⟨u, n, a1, a2, a3, a4⟩ := hk.moved
      refine ⟨⟨u, n, by rw [← h1, a1], by rw [a2, h2], a3, a4⟩, fun e he => ?_⟩
      rcases hk.err with h4 | ⟨_, e', h4, h5⟩
      · rw [h4, h3] at he; cases he
      · rw [h4] at he; injection he with he; rw [← he]; exact h5
  by_cases hs : w ++ x = []
  · have hw0 : w = [] := by simp at hs; exact hs.1
    subst hw0
    cases hw
    refine key r (by rw [h.rest]; rfl) hc h.err ?_
    unfold lexToken
    split
    · rename_i hok
      have hp : r.pop.1 = 255 ∧ r.pop.2.ok = false := by
        rw [hs] at h
        unfold Reader.pop
        split
        · simp [Reader.ok]
        · rw [h.rest]; simp [Reader.ok]
      have hn : nextChar r = (255, r.pop.2) := by
        rw [nextChar.eq_def, dif_pos hok]
        simp only [hp.1]
        rw [if_neg (by decide), if_neg (by decide)]
        rfl
      rw [hn]
      simp only
      rw [if_neg (by rw [hp.2]; simp)]
      exact Walk.pop hok
    · exact Walk.refl r
  · have hat := h.at hs
    obtain ⟨r', h1, h2, h3⟩ := nextChar_after hw hat hc
    refine key r' h1.rest h3 h1.err ?_
    have hn := nextChar_noSep_walk hx h1
    unfold lexToken
    rw [if_pos hat.ok, h2]
    simp only
    split
    · exact hn.trans (tokenAt_walk _ _)
    · exact hn

theorem takeToks_readsC : ∀ (ts : List Tok) (s : Bytes) (c c' n : Nat) (r : Reader) (b : Bytes),
    ReadsC o s ts y c c' → Soft o s b r → r.pos = 1 + c + n → n ≤ 1 → (r.fail = false → n = 0) →
    ∃ r' b' n', takeToks ts.length r = .ok (ts, r') ∧ Soft o y b' r' ∧ r'.pos = 1 + c' + n' ∧ n' ≤ 1 ∧
      (r'.fail = false → n' = 0) := by
  intro ts
  induction ts with
  | nil =>
    intro s c c' n r b h hs hc hn hf
    cases h
    exact ⟨r, b, n, rfl, hs, hc, hn, hf⟩
  | cons p ts ih =>
    intro s c c' n r b h hs hc hn hf
    cases h with
    | cons w a s y t v ts c c1 c' hw hl hfol hr =>
      have hne : w ++ a ++ s ≠ [] := by
        obtain ⟨c, a', rfl, _⟩ := lexeme_head hl; simp
      have hat := hs.at hne
      have hn0 := hf hat.fail
      have hcc := lex_complete (after_sep hw) hl hfol hat
      obtain ⟨⟨u, m, a1, a2, a3, a4⟩, -⟩ := lexToken_col hw (lexeme_noSep (s := s) hl) (by simpa using hs)
        (by rw [hc, hn0]; rfl)
      have hu : u = a := by
        rw [hcc.2.rest] at a1
        exact (List.append_cancel_right a1).symm
      subst hu
      obtain ⟨r', b', n', h1, h2, h3⟩ := ih s (c1 + u.length) c' m (lexToken r).2 _ hr hcc.2
        (by rw [a2]; omega) a3 a4
      refine ⟨r', b', n', ?_, h2, h3⟩
      rw [List.length_cons, takeToks]
      unfold Reader.nextToken
      rw [if_pos (by rw [hs.tok])]
      unfold Reader.checked
      rw [hcc.2.ub]
      simp only [Bool.false_eq_true, if_false]
      rw [okb, h1, okb, hcc.1, tokText_eq hl (by intro x hx; rw [hcc.2.buf, hx]; rfl)]

end Reflect.Json

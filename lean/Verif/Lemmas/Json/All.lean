import Verif.Lemmas.Json.Fed
import Verif.Lemmas.Json.Ub
import Verif.Lemmas.Json.Mem
import Verif.Spec.JsonApi
/- Reading a whole text. -/
namespace Reflect.Json

variable {o : ROpts} {s y b : Bytes} {r : Reader} {t : Token} {v : Option Bytes} {ts : List Tok}

/-- Separators are passed over. -/
theorem nextChar_prefix {w : Bytes} (hw : Sep o w) : ∀ {r : Reader} {s b : Bytes}, At o (w ++ s) b r →
    ∃ r', At o s b r' ∧ nextChar r = nextChar r' := by
  induction hw with
  | nil => intro r s b h; exact ⟨r, h, rfl⟩
  | ws d w hd _ ih =>
    intro r s b h
    have hp := h.pop
    obtain ⟨r', h1, h2⟩ := ih (hp.2.countNewline d)
    refine ⟨r', h1, ?_⟩
    rw [nextChar.eq_def, dif_pos h.ok]
    simp only [hp.1]
    rw [if_pos ((isSpace_iff d).mpr hd)]
    exact h2
  | comment body w ho hb _ ih =>
    intro r s b h
    simp only [List.cons_append, List.nil_append, List.append_assoc] at h
    have hp := h.pop
    have h1 := hp.2.countNewline 47
    have e : (r.pop.2.countNewline 47).checkComments = r.pop.2.countNewline 47 := by
      unfold Reader.checkComments Reader.errorIf
      rw [h1.opts, ho]; rfl
    have h2 := skipComment_complete (47 :: body) (by
      simp only [List.mem_cons, not_or]; exact ⟨by decide, hb⟩) h1
    obtain ⟨r', h3, h4⟩ := ih h2
    refine ⟨r', h3, ?_⟩
    rw [nextChar.eq_def, dif_pos h.ok]
    simp only [hp.1]
    rw [if_neg (by decide), if_pos trivial, h1.peek]
    simp only [if_true]
    rw [e]
    exact h4

theorem skipComment_end : ∀ (body : Bytes) {r : Reader} {b : Bytes}, (10 : Byte) ∉ body → At o body b r →
    (skipComment r).ok = false ∧ (skipComment r).err = none := by
  intro body r b hb h
  rcases skipComment_sound body h with ⟨c, s', rfl, _⟩ | ⟨_, h1, h2⟩
  · exact absurd (by simp) hb
  · exact ⟨h1, h2⟩

theorem nextChar_trailing (ht : Trailing o s) (h : At o s b r) :
    (nextChar r).2.ok = false ∧ (nextChar r).2.err = none := by
  obtain ⟨w, hw, ht⟩ := ht
  rcases ht with rfl | ⟨ho, body, hb, rfl⟩
  · obtain ⟨r', h1, h2⟩ := nextChar_prefix (s := []) hw (by simpa using h)
    rw [h2]
    have hp := h1.pop_nil
    rw [nextChar.eq_def, dif_pos h1.ok]
    simp only [hp.1]
    have e : r'.pop.2.countNewline 255 = r'.pop.2 := rfl
    rw [if_neg (by decide), if_neg (by decide), e]
    exact ⟨hp.2.1, hp.2.2.1⟩
  · obtain ⟨r', h0, h2⟩ := nextChar_prefix (s := [47, 47] ++ body) hw (by simpa using h)
    rw [h2]
    have hp := h0.pop
    have h1 := hp.2.countNewline 47
    have e : (r'.pop.2.countNewline 47).checkComments = r'.pop.2.countNewline 47 := by
      unfold Reader.checkComments Reader.errorIf
      rw [h1.opts, ho]; rfl
    rw [nextChar.eq_def, dif_pos h0.ok]
    simp only [hp.1]
    rw [if_neg (by decide), if_pos trivial, h1.peek]
    simp only [if_true]
    rw [e]
    have h3 := skipComment_end (47 :: body) (by
      simp only [List.mem_cons, not_or]; exact ⟨by decide, hb⟩) h1
    rw [nextChar_not_ok h3.1]
    exact h3

/-- At the end of the input only the end of the stream is delivered. -/
theorem lex_end (h : Soft o [] b r) : (lexToken r).1 = ⟨.eos, .none⟩ ∧ (lexToken r).2.err = none := by
  unfold lexToken
  split
  · rename_i hk
    have hn : (nextChar r).2.ok = false ∧ (nextChar r).2.err = none := by
      have hp : r.pop.1 = 255 ∧ r.pop.2.ok = false ∧ r.pop.2.err = none := by
        unfold Reader.pop
        split
        · exact ⟨rfl, by simp [Reader.ok], h.err⟩
        · rw [h.rest]; exact ⟨rfl, by simp [Reader.ok], h.err⟩
      rw [nextChar.eq_def, dif_pos hk]
      simp only [hp.1]
      have e : r.pop.2.countNewline 255 = r.pop.2 := rfl
      rw [if_neg (by decide), if_neg (by decide), e]
      exact hp.2
    simp only
    rw [if_neg (by simp [hn.1])]
    exact ⟨rfl, hn.2⟩
  · exact ⟨rfl, h.err⟩

theorem lex_trailing (ht : Trailing o s) (h : Soft o s b r) :
    (lexToken r).1 = ⟨.eos, .none⟩ ∧ (lexToken r).2.err = none ∧ (lexToken r).2.ub = false := by
  by_cases hs : s = []
  · subst hs
    have := lex_end h
    refine ⟨this.1, this.2, ?_⟩
    unfold lexToken
    split
    · simp only
      split
      · rename_i hk hk2
        exfalso
        have h1 := this.1
        unfold lexToken at h1
        rw [if_pos hk] at h1
        simp only at h1
        rw [if_pos hk2] at h1
        have := lexToken_eos (r := r) (by unfold lexToken; rw [if_pos hk]; simp only; rw [if_pos hk2, h1])
        -- the reader would have to have read a character
        have hp := nextChar_progress _ r (Nat.le_refl _) hk hk2
        rw [h.rest] at hp
        simp at hp
      · rw [nextChar_ub]; exact h.ub
    · exact h.ub
  · have hat := h.at hs
    have hn := nextChar_trailing ht hat
    unfold lexToken
    rw [if_pos hat.ok]
    simp only
    rw [if_neg (by simp [hn.1])]
    exact ⟨rfl, hn.2, by rw [nextChar_ub]; exact h.ub⟩

theorem lexeme_text {a : Bytes} (h : Lexeme o a t v) : (t.val = .buffer ↔ v.isSome = true) := by
  cases h <;> simp

theorem tokText_eq {a : Bytes} (h : Lexeme o a t v) (hx : ∀ x, v = some x → r.buf = x) : tokText t r = v := by
  have := lexeme_text h
  unfold tokText
  cases v with
  | none => rw [if_neg (by rw [this]; simp)]
  | some x => rw [if_pos (by rw [this]; rfl), hx x rfl]

theorem readAll_complete : ∀ (ts : List Tok) (r : Reader) (y : Bytes), FedR o ts y r → Trailing o y →
    ∃ r', readAll (ts.length + 1) r = .ok (ts, r') ∧ r'.err = none := by
  intro ts
  induction ts with
  | nil =>
    intro r y hf ht
    obtain ⟨s, ⟨b, h1⟩, h2⟩ := hf
    rw [reads_nil_inv h2] at h1
    have hl := lex_trailing ht h1
    refine ⟨(lexToken r).2, ?_, hl.2.1⟩
    unfold readAll Reader.nextToken
    rw [if_pos (by rw [h1.tok])]
    unfold Reader.checked
    rw [hl.2.2]
    simp only [Bool.false_eq_true, if_false]
    rw [okb, if_pos (by rw [hl.1])]
  | cons p ts ih =>
    intro r y hf ht
    obtain ⟨t, v⟩ := p
    obtain ⟨s, h1, h2⟩ := hf
    obtain ⟨w, a, s', _, _, hl, _, _⟩ := reads_cons_inv h2
    have hne := (lexeme_type hl).2
    obtain ⟨r1, e1, e2, e3⟩ := Fed.next (Or.inl ⟨s, h1, h2⟩)
    obtain ⟨r', e4, e5⟩ := ih r1 y e2 ht
    refine ⟨r', ?_, e5⟩
    rw [List.length_cons, readAll, e1, okb, if_neg hne, e4, okb, tokText_eq hl e3]

theorem pstep_err {r r' : Reader} (h : PStep r r') (he : r'.err = none) : r.err = none := by
  apply Classical.byContradiction
  intro hx
  have := (h.stop hx).1
  simp only at this
  rw [he] at this
  exact hx this.symm

theorem readAll_fine : ∀ (n : Nat) (r r' : Reader) (ts : List Tok), readAll n r = .ok (ts, r') → PStep r r' := by
  intro n
  induction n with
  | zero => intro r r' ts h; cases h
  | succ n ih =>
    intro r r' ts h
    unfold readAll at h
    cases hn : r.nextToken with
    | error e => rw [hn] at h; cases h
    | ok p =>
      have hp := ((nextToken_fine r).2 p hn).1
      rw [hn, okb] at h
      split at h
      · injection h with h; injection h with _ h; exact h ▸ hp
      · cases hq : readAll n p.2 with
        | error e => rw [hq] at h; cases h
        | ok q =>
          rw [hq, okb] at h
          injection h with h; injection h with _ h
          exact h ▸ hp.trans (ih p.2 q.2 q.1 hq)

theorem readAll_sound : ∀ (n : Nat) (r r' : Reader) (s b : Bytes) (ts : List Tok), Soft o s b r →
    readAll n r = .ok (ts, r') → r'.err = none → Spells o s ts := by
  intro n
  induction n with
  | zero => intro r r' s b ts _ h; cases h
  | succ n ih =>
    intro r r' s b ts hs h he
    unfold readAll at h
    have htok : r.tok.type = .noToken := by rw [hs.tok]
    cases hn : r.nextToken with
    | error e => rw [hn] at h; cases h
    | ok p =>
      have hp : p = lexToken r ∧ (lexToken r).2.ub = false := by
        unfold Reader.nextToken at hn
        rw [if_pos htok] at hn
        unfold Reader.checked at hn
        split at hn
        · cases hn
        · rename_i hu
          injection hn with hn
          exact ⟨hn.symm, by simpa using hu⟩
      obtain ⟨rfl, hub⟩ := hp
      rw [hn, okb] at h
      have hlex : ((lexToken r).2.err = none) → ((lexToken r).1 = ⟨.eos, .none⟩ ∧ Trailing o s) ∨
          ∃ w a v s', s = w ++ a ++ s' ∧ Sep o w ∧ Lexeme o a (lexToken r).1 v ∧
            Soft o s' (v.getD b) (lexToken r).2 ∧ Follows a (lexToken r).1 s' := by
        intro hle
        by_cases hs0 : s = []
        · subst hs0
          exact Or.inl ⟨(lex_end hs).1, [], Sep.nil, Or.inl rfl⟩
        · rcases lex_sound (hs.at hs0) hle with ⟨h1, _, h2⟩ | h1
          · exact Or.inl ⟨h1, h2⟩
          · exact Or.inr h1
      split at h
      · rename_i heos
        injection h with h; injection h with h1 h2
        subst h1; subst h2
        rcases hlex he with ⟨_, ht⟩ | ⟨_, _, _, _, _, _, hl, _, _⟩
        · exact ⟨s, Reads.nil s, ht⟩
        · exact absurd heos (lexeme_type hl).2
      · rename_i heos
        cases hq : readAll n (lexToken r).2 with
        | error e => rw [hq] at h; cases h
        | ok q =>
          rw [hq, okb] at h
          injection h with h; injection h with h1 h2
          subst h1; subst h2
          have hle := pstep_err (readAll_fine n _ _ _ hq) he
          rcases hlex hle with ⟨h1, _⟩ | ⟨w, a, v, s', rfl, h1, h2, h3, h4⟩
          · rw [h1] at heos; exact absurd rfl heos
          · obtain ⟨y, h5, h6⟩ := ih _ _ s' _ q.1 h3 hq he
            have : tokText (lexToken r).1 (lexToken r).2 = v := tokText_eq h2 (by
              intro x hx; rw [h3.buf, hx]; rfl)
            rw [this]
            exact ⟨y, Reads.cons w a s' y _ v _ h1 h2 h4 h5, h6⟩

/-- The tokens of a text are determined by it. -/
theorem spells_unique {T : List Tok} : ∀ {ts1 : List Tok} {s x : Bytes}, Spells o s T → Reads o s ts1 x →
    ∃ T2, T = ts1 ++ T2 ∧ Spells o x T2 := by
  intro ts1
  induction ts1 generalizing T with
  | nil => intro s x h h2; rw [← reads_nil_inv h2]; exact ⟨T, rfl, h⟩
  | cons p ts1 ih =>
    intro s x h h2
    obtain ⟨t, v⟩ := p
    obtain ⟨y, h3, h4⟩ := h
    have hat := (At.open o s)
    have l1 := lex_ready (r := Reader.open o s) ⟨[], hat.soft⟩ h2
    cases T with
    | nil =>
      rw [← reads_nil_inv h3] at h4
      have := lex_trailing h4 hat.soft
      obtain ⟨_, _, _, _, _, hl, _, _⟩ := reads_cons_inv h2
      have h5 := (lexeme_type hl).2
      rw [l1.1] at this
      rw [this.1] at h5
      exact absurd rfl h5
    | cons q T =>
      obtain ⟨t', v'⟩ := q
      have l2 := lex_ready (r := Reader.open o s) ⟨[], hat.soft⟩ h3
      obtain ⟨e1, _, _, _, s1, hs1, hr1, hx1⟩ := l1
      obtain ⟨e2, _, _, _, s2, hs2, hr2, hx2⟩ := l2
      have ett : t' = t := e2.symm.trans e1
      have ess : s1 = s2 := hs1.rest.symm.trans hs2.rest
      subst ett; subst ess
      obtain ⟨_, _, _, _, _, hl, _, _⟩ := reads_cons_inv h2
      obtain ⟨_, _, _, _, _, hl', _, _⟩ := reads_cons_inv h3
      have evv : v' = v := (tokText_eq hl' hx2).symm.trans (tokText_eq hl hx1)
      subst evv
      obtain ⟨T2, hT, hS⟩ := ih ⟨y, hr2, h4⟩ hr1
      exact ⟨T2, by rw [hT]; rfl, hS⟩

/-- The bytes that can occur in a number. -/
theorem numText_bytes {w : Bytes} (h : NumText w) : ∀ c ∈ w, (48 ≤ c.toNat ∧ c.toNat ≤ 57) ∨ c = 46 ∨ c = 101 ∨
    c = 69 ∨ c = 43 ∨ c = 45 := by
  obtain ⟨c0, d, f, x, rfl, hc, hd, hf, hx⟩ := numText_iff.mp h
  intro c hm
  simp only [List.mem_cons, List.mem_append] at hm
  rcases hm with rfl | (hm | hm) | hm
  · rcases hc with rfl | hc
    · simp
    · exact Or.inl (hc c (by simp))
  · exact Or.inl (hd c hm)
  · rcases hf with rfl | ⟨ds, rfl, hds⟩
    · cases hm
    · simp only [List.mem_cons] at hm
      rcases hm with rfl | hm
      · simp
      · exact Or.inl (hds c hm)
  · rcases hx with rfl | ⟨e, sg, ds, rfl, he, hsg, hds⟩
    · cases hm
    · simp only [List.mem_cons, List.mem_append] at hm
      rcases hm with rfl | hm | hm
      · rcases he with rfl | rfl <;> simp
      · rcases hsg with rfl | rfl | rfl
        · cases hm
        · simp at hm; simp [hm]
        · simp at hm; simp [hm]
      · exact Or.inl (hds c hm)

theorem follows_of_not_num {a : Bytes} (h : ∀ c, s.head? = some c →
    ¬ ((48 ≤ c.toNat ∧ c.toNat ≤ 57) ∨ c = 46 ∨ c = 101 ∨ c = 69 ∨ c = 43 ∨ c = 45)) : Follows a t s := by
  intro _ c hc hn
  exact h c hc (numText_bytes hn c (by simp))

theorem sep_head {w : Bytes} (hw : Sep o w) (hne : w ≠ []) : ∃ c w', w = c :: w' ∧ (c ∈ wsBytes ∨ c = 47) := by
  cases hw with
  | nil => exact absurd rfl hne
  | ws c w hc _ => exact ⟨c, w, rfl, Or.inl hc⟩
  | comment body w _ _ _ => exact ⟨47, _, rfl, Or.inr rfl⟩

theorem follows_sep {a w : Bytes} (hw : Sep o w) (h : Follows a t s) : Follows a t (w ++ s) := by
  by_cases hne : w = []
  · subst hne; exact h
  · obtain ⟨c, w', rfl, hc⟩ := sep_head hw hne
    apply follows_of_not_num
    intro d hd
    simp at hd; subst hd
    rcases hc with hc | rfl
    · have : ∀ c : Byte, c ∈ wsBytes → ¬ ((48 ≤ c.toNat ∧ c.toNat ≤ 57) ∨ c = 46 ∨ c = 101 ∨ c = 69 ∨ c = 43 ∨ c = 45) := by
        apply forall_byte; decide +kernel
      exact this c hc
    · decide

theorem sep_append {w w' : Bytes} (h : Sep o w) (h' : Sep o w') : Sep o (w ++ w') := by
  induction h with
  | nil => exact h'
  | ws c w hc _ ih => exact Sep.ws c _ hc ih
  | comment body w ho hb _ ih =>
    have := Sep.comment body _ ho hb ih
    simpa using this

theorem trailing_sep {w : Bytes} (hw : Sep o w) (h : Trailing o s) : Trailing o (w ++ s) := by
  obtain ⟨w', hw', h⟩ := h
  refine ⟨w ++ w', sep_append hw hw', ?_⟩
  rcases h with rfl | ⟨ho, body, hb, rfl⟩
  · exact Or.inl rfl
  · exact Or.inr ⟨ho, body, hb, by simp⟩

theorem spells_sep {w : Bytes} (hw : Sep o w) (h : Spells o s ts) : Spells o (w ++ s) ts := by
  obtain ⟨y, h1, h2⟩ := h
  cases ts with
  | nil => rw [reads_nil_inv h1]; exact ⟨w ++ y, Reads.nil _, trailing_sep hw h2⟩
  | cons p ts =>
    obtain ⟨t, v⟩ := p
    obtain ⟨w', a, s', rfl, g1, g2, g3, g4⟩ := reads_cons_inv h1
    have := Reads.cons (w ++ w') a s' y t v ts (sep_append hw g1) g2 g3 g4
    exact ⟨y, by simpa using this, h2⟩

/-- Separators put in front of what is left. -/
theorem reads_insert {w : Bytes} (hw : Sep o w) : ∀ {ts : List Tok} {x : Bytes}, Reads o (x ++ y) ts y →
    Reads o (x ++ (w ++ y)) ts (w ++ y) := by
  intro ts
  induction ts with
  | nil =>
    intro x h
    have := reads_nil_inv h
    have hx : x = [] := by
      have := congrArg List.length this
      simp at this; exact this
    subst hx
    exact Reads.nil _
  | cons p ts ih =>
    intro x h
    obtain ⟨t, v⟩ := p
    obtain ⟨w', a, s', he, g1, g2, g3, g4⟩ := reads_cons_inv h
    obtain ⟨x', rfl⟩ := reads_suffix g4
    have : x = w' ++ a ++ x' := by
      have : (x ++ y) = (w' ++ a ++ x') ++ y := by rw [he]; simp
      exact List.append_cancel_right this
    subst this
    have g5 := ih g4
    have := Reads.cons w' a (x' ++ (w ++ y)) (w ++ y) t v ts g1 g2 (by
      by_cases hx' : x' = []
      · subst hx'; rw [List.nil_append] at g3 ⊢; exact follows_sep hw g3
      · intro ht c hc
        apply g3 ht c
        cases x' with
        | nil => exact absurd rfl hx'
        | cons z x' => simpa using hc) g5
    simpa using this

end Reflect.Json

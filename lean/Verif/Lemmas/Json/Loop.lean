import Verif.Lemmas.Json.Step
import Verif.Model.Json.Parser
/- Termination of the generic parsers and what they preserve in the reader. -/
namespace Reflect.Json

/-- `Step` up to the token looked ahead at. -/
def PStep (r r' : Reader) : Prop := Step r { r' with tok := r.tok }

theorem Step.retok {r r' : Reader} (h : Step r r') (t : Token) : Step { r with tok := t } { r' with tok := t } :=
  ⟨h.opts, rfl, h.used, h.stop, h.fail⟩

theorem PStep.refl (r : Reader) : PStep r r := Step.refl r

theorem PStep.trans {r r1 r2 : Reader} (h1 : PStep r r1) (h2 : PStep r1 r2) : PStep r r2 := by
  have := Step.retok h2 r.tok
  exact Step.trans h1 this

theorem Step.p {r r' : Reader} (h : Step r r') : PStep r r' := by
  unfold PStep; rw [← h.tok]; exact h

theorem PStep.setTok (r : Reader) (t : Token) : PStep r { r with tok := t } := Step.refl r

/-- `Fine x P`: `x` does not diverge, and its value, if it has one, satisfies `P`. -/
def Fine {α : Type} (x : Res α) (P : α → Prop) : Prop :=
  x ≠ .error .diverge ∧ ∀ a, x = .ok a → P a

theorem Fine.ok {α : Type} {a : α} {P : α → Prop} (h : P a) : Fine (.ok a) P :=
  ⟨by simp, fun b hb => by injection hb with hb; exact hb ▸ h⟩

theorem Fine.err {α : Type} {e : Fault} {P : α → Prop} (h : e ≠ .diverge) : Fine (.error e : Res α) P :=
  ⟨by simpa using h, fun b hb => by cases hb⟩

theorem Fine.bind {α β : Type} {x : Res α} {f : α → Res β} {P : α → Prop} {Q : β → Prop}
    (h : Fine x P) (h2 : ∀ a, P a → Fine (f a) Q) : Fine (x >>= f) Q := by
  cases x with
  | ok a => exact h2 a (h.2 a rfl)
  | error e => exact ⟨fun hx => h.1 (by injection hx with hx; rw [hx]), fun b hb => by cases hb⟩

theorem Fine.imp {α : Type} {x : Res α} {P Q : α → Prop} (h : Fine x P) (h2 : ∀ a, P a → Q a) : Fine x Q :=
  ⟨h.1, fun a ha => h2 a (h.2 a ha)⟩

/-- How much there is left to do: unread bytes, and the token looked ahead at. -/
def Reader.left (r : Reader) : Nat :=
  if r.ok then r.rest.length + (if r.tok.type = .noToken then 0 else 1) + 1 else 0

theorem left_error (r : Reader) (m : Msg) : (r.error m).left = 0 := by
  unfold Reader.left; rw [Reader.error_not_ok]; rfl

theorem lexToken_eos {r : Reader} (h : (lexToken r).1.type = .eos) : (lexToken r).2.ok = false := by
  unfold lexToken at h ⊢
  split at h
  · rename_i hk
    rw [if_pos hk]
    simp only at h ⊢
    split at h
    · rename_i hk2
      rw [if_pos hk2]
      generalize (nextChar r).1 = c at h
      generalize (nextChar r).2 = r2 at h
      unfold tokenAt at h ⊢
      repeat' split at h
      all_goals first
        | cases h; done
        | (exfalso; revert h
           show (readNumber r2 c).1 = .eos → False
           unfold readNumber
           simp only
           repeat' split
           all_goals (intro h; cases h))
        | (repeat rw [if_neg (by assumption)])
      exact Reader.error_not_ok _ _
    · rename_i hk2
      rw [if_neg hk2]
      simpa using hk2
  · rename_i hk
    rw [if_neg hk]
    simpa using hk

theorem lexToken_not_noToken (r : Reader) : (lexToken r).1.type ≠ .noToken := by
  unfold lexToken
  split
  · simp only
    split
    · generalize (nextChar r).1 = c
      generalize (nextChar r).2 = r2
      unfold tokenAt
      repeat' split
      all_goals first
        | (intro h; cases h; done)
        | (show (readNumber r2 c).1 ≠ .noToken
           unfold readNumber
           simp only
           repeat' split
           all_goals (intro h; cases h))
    · intro h; cases h
  · intro h; cases h

theorem checked_fine {p : Token × Reader} {P : Token × Reader → Prop} (h : P p) : Fine (Reader.checked p) P := by
  unfold Reader.checked; split
  · exact Fine.err (by decide)
  · exact Fine.ok h

/-- `nextToken` makes progress, keeps errors and leaves no token looked ahead at. -/
theorem nextToken_fine (r : Reader) : Fine r.nextToken (fun p =>
    PStep r p.2 ∧ p.2.left ≤ r.left - 1 ∧ (p.2.ok = true → r.ok = true)) := by
  unfold Reader.nextToken
  split
  · rename_i ht
    apply checked_fine
    have hs := lexToken_step r
    refine ⟨hs.p, ?_, ?_⟩
    · unfold Reader.left
      split
      · rename_i hk
        have hne : (lexToken r).1.type ≠ .eos := by
          intro h; rw [lexToken_eos h] at hk; cases hk
        have hp := lexToken_progress r hne
        have hrk : r.ok = true := by
          unfold lexToken at hne
          split at hne
          · assumption
          · exact absurd rfl hne
        rw [hs.tok, ht, if_pos rfl, if_pos hrk]
        omega
      · omega
    · intro hk
      have hne : (lexToken r).1.type ≠ .eos := by
        intro h; rw [lexToken_eos h] at hk; cases hk
      unfold lexToken at hne
      split at hne
      · assumption
      · exact absurd rfl hne
  · rename_i ht
    refine Fine.ok ⟨PStep.setTok r _, ?_, fun h => h⟩
    unfold Reader.left
    have : Reader.ok { r with tok := ⟨.noToken, .none⟩ } = r.ok := rfl
    simp only [this]
    split
    · simp
    · omega

theorem peekToken_fine (r : Reader) : Fine r.peekToken (fun p =>
    PStep r p.2 ∧ p.2.left ≤ r.left ∧ p.2.tok = p.1 ∧ p.1.type ≠ .noToken) := by
  unfold Reader.peekToken
  split
  · rename_i ht
    apply Fine.bind (checked_fine (P := fun p => p = lexToken r) rfl)
    intro p hp
    subst hp
    have hs := lexToken_step r
    refine Fine.ok ⟨hs.p.trans (PStep.setTok _ _), ?_, rfl, lexToken_not_noToken r⟩
    unfold Reader.left
    have : Reader.ok { (lexToken r).2 with tok := (lexToken r).1 } = (lexToken r).2.ok := rfl
    simp only [this]
    split
    · rename_i hk
      have hne : (lexToken r).1.type ≠ .eos := by
        intro h; rw [lexToken_eos h] at hk; cases hk
      have hp := lexToken_progress r hne
      have hrk : r.ok = true := by
        unfold lexToken at hne
        split at hne
        · assumption
        · exact absurd rfl hne
      rw [if_neg (lexToken_not_noToken r), if_pos hrk]
      try rw [ht, if_pos rfl]
      omega
    · omega
  · rename_i ht
    exact Fine.ok ⟨PStep.refl r, Nat.le_refl _, rfl, ht⟩

theorem assertToken_p (r : Reader) (t : Token) (x : TokType) :
    PStep r (r.assertToken t x).2 ∧ (r.assertToken t x).2.left ≤ r.left ∧
      ((r.assertToken t x).2.ok = true → r.ok = true) := by
  unfold Reader.assertToken
  split
  · exact ⟨PStep.refl r, Nat.le_refl _, fun h => h⟩
  · refine ⟨(Step.error r _).p, by rw [left_error]; exact Nat.zero_le _, fun h => ?_⟩
    rw [Reader.error_not_ok] at h; cases h

theorem verrorFormat_or (m : Bytes) : (∃ s, verrorFormat m = .ok s) ∨ verrorFormat m = .error .ub := by
  unfold verrorFormat makeString
  simp only
  split
  · exact Or.inl ⟨_, rfl⟩
  · exact Or.inr rfl

theorem format_or (r : Reader) (m : Msg) : r.format m = .ok () ∨ r.format m = .error .ub := by
  unfold Reader.format
  split
  · exact Or.inl rfl
  · rcases verrorFormat_or m.text with ⟨s, h⟩ | h
    · rw [h]; exact Or.inl rfl
    · rw [h]; exact Or.inr rfl

theorem store_length (s : Bytes) : ∀ (b : List (Option Byte)) (i : Nat), (store b i s).length = b.length := by
  induction s with
  | nil => intro b i; rfl
  | cons c s ih => intro b i; unfold store; rw [ih, List.length_set]

theorem newBuf_length : newBuf.length = 1024 := List.length_replicate

theorem verrorFormat_fits {m : Bytes} (h : m.length ≤ 1024) : ∃ s, verrorFormat m = .ok s := by
  unfold verrorFormat makeString vsnprintf
  simp only [store_length, newBuf_length]
  rw [if_pos h]
  exact ⟨_, rfl⟩

theorem verrorFormat_long {m : Bytes} (h : 1024 < m.length) : verrorFormat m = .error .ub := by
  unfold verrorFormat makeString vsnprintf
  simp only [store_length, newBuf_length]
  rw [if_neg (Nat.not_le.2 h)]

theorem format_err {r : Reader} (m : Msg) (h : r.err ≠ none) : r.format m = .ok () := by
  unfold Reader.format
  cases he : r.err with
  | none => exact absurd he h
  | some e => rfl

theorem format_fits (r : Reader) {m : Msg} (h : m.text.length ≤ 1024) : r.format m = .ok () := by
  unfold Reader.format
  obtain ⟨s, e⟩ := verrorFormat_fits h
  split
  · rfl
  · rw [e]

theorem format_long {r : Reader} {m : Msg} (he : r.err = none) (h : 1024 < m.text.length) : r.format m = .error .ub := by
  unfold Reader.format
  rw [he, verrorFormat_long h]

/-- Raising an error about a token either works or is undefined. -/
theorem mayAssert_or (r : Reader) (t : Token) (x : TokType) :
    r.mayAssert t x = .ok () ∨ r.mayAssert t x = .error .ub := by
  unfold Reader.mayAssert
  split
  · exact Or.inl rfl
  · exact format_or r _

theorem invalid_or (t : Token) (r : Reader) (n : String) : t.invalid r n = .err ∨ t.invalid r n = .ub := by
  unfold Token.invalid
  generalize hm : ascii "invalid conversion of token " ++ cstr (printToken t.type (t.text r)) ++ ascii " to <" ++
    ascii n ++ ascii ">" = m
  rcases verrorFormat_or m with ⟨s, h⟩ | h
  · rw [h]; exact Or.inl rfl
  · rw [h]; exact Or.inr rfl

theorem mayAssert_eq {t : Token} {x : TokType} (r : Reader) (h : t.type = x) : r.mayAssert t x = .ok () := by
  unfold Reader.mayAssert; rw [if_pos h]

theorem mayAssert_not_ok {r : Reader} {t : Token} {x : TokType} (h : r.ok = false) (ht : r.err ≠ none) :
    r.mayAssert t x = .ok () := by
  unfold Reader.mayAssert Reader.format
  split
  · rfl
  · cases he : r.err with
    | none => exact absurd he ht
    | some e => rfl

theorem mayAssert_fine (r : Reader) (t : Token) (x : TokType) : Fine (r.mayAssert t x) (fun _ => True) := by
  rcases mayAssert_or r t x with h | h <;> rw [h]
  · exact Fine.ok trivial
  · exact Fine.err (by decide)

theorem invalid_ne (t : Token) (r : Reader) (n : String) : t.invalid r n ≠ .diverge := by
  rcases invalid_or t r n with h | h <;> rw [h] <;> decide

/-- The value of a computation that first formats a message. -/
theorem mayAssert_bind {α : Type} {r : Reader} {t : Token} {x : TokType} {k : Unit → Res α} {v : α}
    (h : (r.mayAssert t x >>= k) = .ok v) : r.mayAssert t x = .ok () ∧ k () = .ok v := by
  rcases mayAssert_or r t x with h2 | h2
  · rw [h2] at h; exact ⟨h2, h⟩
  · rw [h2] at h; cases h

theorem expectToken_fine (r : Reader) (x : TokType) : Fine (r.expectToken x) (fun p =>
    PStep r p.2 ∧ p.2.left ≤ r.left - 1 ∧ (p.2.ok = true → r.ok = true)) := by
  unfold Reader.expectToken
  apply Fine.bind (nextToken_fine r)
  intro p ⟨h1, h2, h3⟩
  have ha := assertToken_p p.2 p.1 x
  apply Fine.bind (mayAssert_fine p.2 p.1 x)
  intro _ _
  exact Fine.ok ⟨h1.trans ha.1, Nat.le_trans ha.2.1 h2, fun h => h3 (ha.2.2 h)⟩

/-- What a call-back must guarantee on readers with at most `k` left. -/
def FnFine {ι σ : Type} (fn : ι → σ → Reader → Res (σ × Reader)) (k : Nat) : Prop :=
  ∀ i a r, r.left ≤ k → Fine (fn i a r) (fun p => PStep r p.2 ∧ p.2.left ≤ r.left)

theorem FnFine.mono {ι σ : Type} {fn : ι → σ → Reader → Res (σ × Reader)} {k j : Nat} (h : FnFine fn k)
    (hj : j ≤ k) : FnFine fn j := fun i a r hr => h i a r (Nat.le_trans hr hj)

theorem left_pos {r : Reader} (h : r.ok = true) : 1 ≤ r.left := by
  unfold Reader.left; rw [if_pos h]; omega

theorem objLoop_fine {σ : Type} {fn : Bytes → σ → Reader → Res (σ × Reader)} :
    ∀ (n : Nat) (a : σ) (r : Reader), r.left < n → FnFine fn r.left →
      Fine (objLoop fn n a r) (fun p => PStep r p.2 ∧ p.2.left ≤ r.left) := by
  intro n
  induction n with
  | zero => intro a r h; omega
  | succ n ih =>
    intro a r hn hf
    unfold objLoop
    split
    · rename_i hk
      have hpos := left_pos hk
      apply Fine.bind (expectToken_fine r _)
      intro p ⟨hp1, hp2, _⟩
      apply Fine.bind (P := fun _ => True)
      · unfold Token.asString; split
        · exact Fine.ok trivial
        · exact Fine.err (invalid_ne _ _ _)
      intro _ _
      apply Fine.bind (expectToken_fine p.2 _)
      intro q ⟨hq1, hq2, _⟩
      apply Fine.bind (hf q.2.buf a q.2 (by omega))
      intro c ⟨hc1, hc2⟩
      apply Fine.bind (nextToken_fine c.2)
      intro e ⟨he1, he2, _⟩
      have hall : PStep r e.2 := ((hp1.trans hq1).trans hc1).trans he1
      split
      · exact Fine.ok ⟨hall, by show e.2.left ≤ _; omega⟩
      · have ha := assertToken_p e.2 e.1 .separator
        apply Fine.bind (mayAssert_fine e.2 e.1 _)
        intro _ _
        refine Fine.imp (ih _ _ (by omega) (hf.mono (by omega))) ?_
        intro x ⟨hx1, hx2⟩
        exact ⟨(hall.trans ha.1).trans hx1, by omega⟩
    · exact Fine.ok ⟨PStep.refl r, Nat.le_refl _⟩

theorem arrLoop_fine {σ : Type} {fn : Nat → σ → Reader → Res (σ × Reader)} :
    ∀ (n i : Nat) (a : σ) (r : Reader), r.left < n → FnFine fn r.left →
      Fine (arrLoop fn n i a r) (fun p => PStep r p.2 ∧ p.2.left ≤ r.left) := by
  intro n
  induction n with
  | zero => intro i a r h; omega
  | succ n ih =>
    intro i a r hn hf
    unfold arrLoop
    split
    · rename_i hk
      have hpos := left_pos hk
      apply Fine.bind (hf i a r (Nat.le_refl _))
      intro c ⟨hc1, hc2⟩
      apply Fine.bind (nextToken_fine c.2)
      intro e ⟨he1, he2, _⟩
      have hall : PStep r e.2 := hc1.trans he1
      split
      · exact Fine.ok ⟨hall, by show e.2.left ≤ _; omega⟩
      · have ha := assertToken_p e.2 e.1 .separator
        apply Fine.bind (mayAssert_fine e.2 e.1 _)
        intro _ _
        refine Fine.imp (ih _ _ _ (by omega) (hf.mono (by omega))) ?_
        intro x ⟨hx1, hx2⟩
        exact ⟨(hall.trans ha.1).trans hx1, by omega⟩
    · exact Fine.ok ⟨PStep.refl r, Nat.le_refl _⟩

theorem parseObject_fine {σ : Type} {fn : Bytes → σ → Reader → Res (σ × Reader)} (n : Nat) (a : σ)
    (r : Reader) (hn : r.left - 1 < n) (hf : FnFine fn (r.left - 1)) :
    Fine (parseObject fn n a r) (fun p => PStep r p.2 ∧ p.2.left ≤ r.left) := by
  unfold parseObject
  apply Fine.bind (nextToken_fine r)
  intro p ⟨hp1, hp2, _⟩
  split
  · exact Fine.ok ⟨hp1, by show p.2.left ≤ _; omega⟩
  · have ha := assertToken_p p.2 p.1 .objectStart
    apply Fine.bind (mayAssert_fine p.2 p.1 _)
    intro _ _
    apply Fine.bind (peekToken_fine _)
    intro q ⟨hq1, hq2, _, _⟩
    split
    · apply Fine.bind (expectToken_fine q.2 _)
      intro e ⟨he1, he2, _⟩
      exact Fine.ok ⟨((hp1.trans ha.1).trans hq1).trans he1, by show e.2.left ≤ _; omega⟩
    · refine Fine.imp (objLoop_fine _ _ _ (by omega) (hf.mono (by omega))) ?_
      intro x ⟨hx1, hx2⟩
      exact ⟨((hp1.trans ha.1).trans hq1).trans hx1, by omega⟩

theorem parseArray_fine {σ : Type} {fn : Nat → σ → Reader → Res (σ × Reader)} (n : Nat) (a : σ)
    (r : Reader) (hn : r.left - 1 < n) (hf : FnFine fn (r.left - 1)) :
    Fine (parseArray fn n a r) (fun p => PStep r p.2 ∧ p.2.left ≤ r.left) := by
  unfold parseArray
  apply Fine.bind (nextToken_fine r)
  intro p ⟨hp1, hp2, _⟩
  split
  · exact Fine.ok ⟨hp1, by show p.2.left ≤ _; omega⟩
  · have ha := assertToken_p p.2 p.1 .arrayStart
    apply Fine.bind (mayAssert_fine p.2 p.1 _)
    intro _ _
    apply Fine.bind (peekToken_fine _)
    intro q ⟨hq1, hq2, _, _⟩
    split
    · apply Fine.bind (expectToken_fine q.2 _)
      intro e ⟨he1, he2, _⟩
      exact Fine.ok ⟨((hp1.trans ha.1).trans hq1).trans he1, by show e.2.left ≤ _; omega⟩
    · refine Fine.imp (arrLoop_fine _ _ _ _ (by omega) (hf.mono (by omega))) ?_
      intro x ⟨hx1, hx2⟩
      exact ⟨((hp1.trans ha.1).trans hq1).trans hx1, by omega⟩

theorem skip_fine : ∀ (n : Nat) (r : Reader), r.left < n →
    Fine (skip n r) (fun r' => PStep r r' ∧ r'.left ≤ r.left) := by
  intro n
  induction n with
  | zero => intro r h; omega
  | succ n ih =>
    intro r hn
    unfold skip
    apply Fine.bind (peekToken_fine r)
    intro p ⟨hp1, hp2, _, _⟩
    have hfn : ∀ ι : Type, p.2.ok = true →
        FnFine (fun (_ : ι) (_ : Unit) r => (do .ok ((), ← skip n r) : Res (Unit × Reader))) (p.2.left - 1) := by
      intro ι hk i a r' hr'
      have := left_pos hk
      apply Fine.bind (ih r' (by omega))
      intro r'' h
      exact Fine.ok h
    split
    · rename_i hk
      have hpos := left_pos hk
      have hscalar : Fine (do let q ← p.2.nextToken; .ok q.2) (fun r' => PStep r r' ∧ r'.left ≤ r.left) := by
        apply Fine.bind (nextToken_fine p.2)
        intro q ⟨hq1, hq2, _⟩
        exact Fine.ok ⟨hp1.trans hq1, by omega⟩
      split
      · exact hscalar
      · exact hscalar
      · exact hscalar
      · exact hscalar
      · exact hscalar
      · apply Fine.bind (parseArray_fine n () p.2 (by omega) (hfn _ hk))
        intro q ⟨hq1, hq2⟩
        exact Fine.ok ⟨hp1.trans hq1, by omega⟩
      · apply Fine.bind (parseObject_fine n () p.2 (by omega) (hfn _ hk))
        intro q ⟨hq1, hq2⟩
        exact Fine.ok ⟨hp1.trans hq1, by omega⟩
      · exact Fine.err (by decide)
    · exact Fine.ok ⟨hp1, hp2⟩

/-! ### More fuel changes nothing -/

/-- `Le x y`: `y` is `x`, unless `x` ran out of fuel. -/
def Le {α : Type} (x y : Res α) : Prop := x = .error .diverge ∨ y = x

theorem Le.refl {α : Type} (x : Res α) : Le x x := Or.inr rfl

theorem Le.bind {α β : Type} {x y : Res α} {f g : α → Res β} (h : Le x y) (h2 : ∀ a, Le (f a) (g a)) :
    Le (x >>= f) (y >>= g) := by
  rcases h with h | h
  · left; rw [h]; rfl
  · rw [h]
    cases x with
    | ok a => exact h2 a
    | error e => exact Or.inr rfl

theorem Le.ite {α : Type} {c : Prop} [Decidable c] {x y z w : Res α} (h1 : Le x y) (h2 : Le z w) :
    Le (if c then x else z) (if c then y else w) := by
  split
  · exact h1
  · exact h2

theorem objLoop_le {σ : Type} {fn gn : Bytes → σ → Reader → Res (σ × Reader)}
    (h : ∀ k a r, Le (fn k a r) (gn k a r)) : ∀ (n m : Nat), n ≤ m → ∀ (a : σ) (r : Reader),
    Le (objLoop fn n a r) (objLoop gn m a r) := by
  intro n
  induction n with
  | zero => intro m _ a r; left; rfl
  | succ n ih =>
    intro m hm a r
    obtain ⟨m, rfl⟩ : ∃ k, m = k + 1 := ⟨m - 1, by omega⟩
    unfold objLoop
    exact Le.ite (Le.bind (Le.refl _) fun p => Le.bind (Le.refl _) fun _ => Le.bind (Le.refl _) fun q =>
      Le.bind (h _ _ _) fun c => Le.bind (Le.refl _) fun e =>
        Le.ite (Le.refl _) (Le.bind (Le.refl _) fun _ => ih m (by omega) _ _)) (Le.refl _)

theorem arrLoop_le {σ : Type} {fn gn : Nat → σ → Reader → Res (σ × Reader)}
    (h : ∀ k a r, Le (fn k a r) (gn k a r)) : ∀ (n m : Nat), n ≤ m → ∀ (i : Nat) (a : σ) (r : Reader),
    Le (arrLoop fn n i a r) (arrLoop gn m i a r) := by
  intro n
  induction n with
  | zero => intro m _ i a r; left; rfl
  | succ n ih =>
    intro m hm i a r
    obtain ⟨m, rfl⟩ : ∃ k, m = k + 1 := ⟨m - 1, by omega⟩
    unfold arrLoop
    exact Le.ite (Le.bind (h _ _ _) fun c => Le.bind (Le.refl _) fun e =>
        Le.ite (Le.refl _) (Le.bind (Le.refl _) fun _ => ih m (by omega) _ _ _)) (Le.refl _)

theorem parseObject_le {σ : Type} {fn gn : Bytes → σ → Reader → Res (σ × Reader)}
    (h : ∀ k a r, Le (fn k a r) (gn k a r)) (n m : Nat) (hm : n ≤ m) (a : σ) (r : Reader) :
    Le (parseObject fn n a r) (parseObject gn m a r) := by
  unfold parseObject
  exact Le.bind (Le.refl _) fun p => Le.ite (Le.refl _) (Le.bind (Le.refl _) fun _ => Le.bind (Le.refl _) fun q =>
    Le.ite (Le.refl _) (objLoop_le h n m hm _ _))

theorem parseArray_le {σ : Type} {fn gn : Nat → σ → Reader → Res (σ × Reader)}
    (h : ∀ k a r, Le (fn k a r) (gn k a r)) (n m : Nat) (hm : n ≤ m) (a : σ) (r : Reader) :
    Le (parseArray fn n a r) (parseArray gn m a r) := by
  unfold parseArray
  exact Le.bind (Le.refl _) fun p => Le.ite (Le.refl _) (Le.bind (Le.refl _) fun _ => Le.bind (Le.refl _) fun q =>
    Le.ite (Le.refl _) (arrLoop_le h n m hm _ _ _))

theorem skip_le : ∀ (n m : Nat), n ≤ m → ∀ r : Reader, Le (skip n r) (skip m r) := by
  intro n
  induction n with
  | zero => intro m _ r; left; rfl
  | succ n ih =>
    intro m hm r
    obtain ⟨m, rfl⟩ : ∃ k, m = k + 1 := ⟨m - 1, by omega⟩
    unfold skip
    have hfn : ∀ (ι : Type) (k : ι) (a : Unit) (r : Reader),
        Le (do .ok ((), ← skip n r) : Res (Unit × Reader)) (do .ok ((), ← skip m r)) :=
      fun ι k a r => Le.bind (ih m (by omega) r) fun _ => Le.refl _
    apply Le.bind (Le.refl _)
    intro p
    apply Le.ite _ (Le.refl _)
    split
    all_goals first
      | exact Le.refl _
      | exact Le.bind (parseArray_le (fun k a r => hfn _ k a r) n m (by omega) _ _) fun _ => Le.refl _
      | exact Le.bind (parseObject_le (fun k a r => hfn _ k a r) n m (by omega) _ _) fun _ => Le.refl _

end Reflect.Json

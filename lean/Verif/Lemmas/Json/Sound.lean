import Verif.Lemmas.Json.All
import Verif.Lemmas.Json.NumEnd
/- What the generic parsers accepted was there: tokens, arrays, objects, and texts that stop too early. -/
namespace Reflect.Json

variable {o : ROpts} {s y b : Bytes} {r : Reader} {t : Token} {v : Option Bytes} {ts : List Tok}

theorem tokenAt_ok {c : Byte} (h : At o s b r) (he : (tokenAt r c).2.err = none)
    (h1 : (tokenAt r c).1.type ≠ .int) (h2 : (tokenAt r c).1.type ≠ .float) : (tokenAt r c).2.ok = true := by
  by_cases hnum : c = 45 ∨ isDigit c = true
  · exfalso
    rw [tokenAt_number hnum] at h1 h2
    simp only at h1 h2
    unfold readNumber at h1 h2
    simp only at h1 h2
    repeat' split at h1
    all_goals first
      | exact h1 rfl
      | (exfalso; revert h2; simp_all)
  · unfold tokenAt at he h1 h2 ⊢
    by_cases c1 : c = 123
    · rw [if_pos c1]; exact h.ok
    rw [if_neg c1] at he ⊢
    by_cases c2 : c = 125
    · rw [if_pos c2]; exact h.ok
    rw [if_neg c2] at he ⊢
    by_cases c3 : c = 91
    · rw [if_pos c3]; exact h.ok
    rw [if_neg c3] at he ⊢
    by_cases c4 : c = 93
    · rw [if_pos c4]; exact h.ok
    rw [if_neg c4] at he ⊢
    by_cases c5 : c = 44
    · rw [if_pos c5]; exact h.ok
    rw [if_neg c5] at he ⊢
    by_cases c6 : c = 58
    · rw [if_pos c6]; exact h.ok
    rw [if_neg c6] at he ⊢
    by_cases c7 : c = 110
    · rw [if_pos c7] at he ⊢
      obtain ⟨s', rfl⟩ := readLiteral_sound _ (by decide) h he
      exact (readLiteral_complete _ h).ok
    rw [if_neg c7] at he ⊢
    by_cases c8 : c = 116
    · rw [if_pos c8] at he ⊢
      obtain ⟨s', rfl⟩ := readLiteral_sound _ (by decide) h he
      exact (readLiteral_complete _ h).ok
    rw [if_neg c8] at he ⊢
    by_cases c9 : c = 102
    · rw [if_pos c9] at he ⊢
      obtain ⟨s', rfl⟩ := readLiteral_sound _ (by decide) h he
      exact (readLiteral_complete _ h).ok
    rw [if_neg c9] at he ⊢
    by_cases c10 : c = 34
    · rw [if_pos c10] at he ⊢
      obtain ⟨t, v, s', rfl, ht⟩ := readString_sound s.length (Nat.le_refl _) h.reset he
      exact (readString_complete ht h.reset).ok
    rw [if_neg c10, if_neg hnum] at he
    exact absurd he (Reader.error_err _ _)

/-- What a token read without an error says about the text. -/
theorem lex_ready_sound (h : Soft o s b r) (he : (lexToken r).2.err = none) :
    ((lexToken r).1 = ⟨.eos, .none⟩ ∧ (lexToken r).2.ok = false ∧ Trailing o s) ∨
    ∃ w a v s', s = w ++ a ++ s' ∧ Sep o w ∧ Lexeme o a (lexToken r).1 v ∧
      Soft o s' (v.getD b) (lexToken r).2 ∧ Follows a (lexToken r).1 s' ∧
      ((lexToken r).1.type ≠ .int → (lexToken r).1.type ≠ .float → (lexToken r).2.ok = true) := by
  by_cases hs0 : s = []
  · subst hs0
    have := (lex_end h).1
    exact Or.inl ⟨this, lexToken_eos (by rw [this]), [], Sep.nil, Or.inl rfl⟩
  · have hat := h.at hs0
    rcases lex_sound hat he with h1 | ⟨w, a, v, s', h1, h2, h3, h4, h5⟩
    · exact Or.inl h1
    · refine Or.inr ⟨w, a, v, s', h1, h2, h3, h4, h5, fun g1 g2 => ?_⟩
      unfold lexToken at he g1 g2 ⊢
      rw [if_pos hat.ok] at he g1 g2 ⊢
      simp only at he g1 g2 ⊢
      rcases nextChar_sound s.length (Nat.le_refl _) hat with ⟨w, s', es, hw, hws, hok, hat'⟩ | ⟨k1, k2, ht⟩ | ⟨k1, _⟩
      · rw [if_pos hok] at he g1 g2 ⊢
        by_cases h47 : (nextChar r).1 = 47
        · exfalso
          rw [h47] at he
          exact Reader.error_err _ _ he
        · exact tokenAt_ok (hat' h47) he g1 g2
      · exfalso
        have : lexToken r = (⟨.eos, .none⟩, (nextChar r).2) := by
          unfold lexToken
          rw [if_pos hat.ok]; simp only; rw [if_neg (by simp [k1])]
        rw [this] at h3
        exact (lexeme_type h3).2 rfl
      · exfalso
        have hno : (nextChar r).2.ok = false := by
          cases hh : (nextChar r).2.err with
          | none => exact absurd hh k1
          | some e => exact Reader.not_ok_of_err hh
        rw [if_neg (by simp [hno])] at he
        exact k1 he

/-- The reader stands before the text `s`, of which it may have looked ahead at the first token. -/
def Pos (o : ROpts) (s : Bytes) (r : Reader) : Prop :=
  Ready o s r ∨ (∃ t v w a s', s = w ++ a ++ s' ∧ Sep o w ∧ Lexeme o a t v ∧ Follows a t s' ∧ Ahead o t v s' r ∧
    (t.type ≠ .int → t.type ≠ .float → r.ok = true)) ∨
  (Trailing o s ∧ r.err = none ∧ r.ok = false ∧ r.tok.type = .eos)

/-- The text has run out: no token is left, or a number at the very end is being looked at. -/
def Over (r : Reader) : Prop :=
  r.err = none ∧ r.ok = false ∧
    (r.tok.type = .noToken ∨ r.tok.type = .eos ∨ r.tok.type = .int ∨ r.tok.type = .float)

theorem Pos.open (o : ROpts) (s : Bytes) : Pos o s (Reader.open o s) := Or.inl ⟨[], (At.open o s).soft⟩

theorem Pos.err (h : Pos o s r) : r.err = none := by
  rcases h with ⟨b, h⟩ | ⟨_, _, _, _, _, _, _, _, _, h, _⟩ | h
  · exact h.err
  · exact h.soft.err
  · exact h.2.1

theorem reads_single {w a s' : Bytes} (h1 : Sep o w) (h2 : Lexeme o a t v) (h3 : Follows a t s') :
    Reads o (w ++ a ++ s') [(t, v)] s' := Reads.cons w a s' s' t v [] h1 h2 h3 (Reads.nil _)

/-- `nextToken`, no token looked ahead at -/
theorem next_ready {p : Token × Reader} (h : Ready o s r) (hp : r.nextToken = .ok p) (he : p.2.err = none) :
    (p.1.type = .eos ∧ Trailing o s ∧ Over p.2) ∨
    ∃ v s', Reads o s [(p.1, v)] s' ∧ Ready o s' p.2 ∧ p.2.buf = v.getD r.buf ∧
      (p.1.type ≠ .int → p.1.type ≠ .float → p.2.ok = true) := by
  obtain ⟨b, h⟩ := h
  have htok : r.tok.type = .noToken := by rw [h.tok]
  unfold Reader.nextToken at hp
  rw [if_pos htok] at hp
  unfold Reader.checked at hp
  split at hp
  · cases hp
  · injection hp with hp
    subst hp
    rcases lex_ready_sound h he with ⟨h1, h2, h3⟩ | ⟨w, a, v, s', rfl, h2, h3, h4, h5, h6⟩
    · refine Or.inl ⟨by rw [h1], h3, he, h2, Or.inl ?_⟩
      have := (lexToken_step r).tok
      rw [this, htok]
    · refine Or.inr ⟨v, s', reads_single h2 h3 h5, ⟨_, h4⟩, ?_, h6⟩
      rw [h4.buf, h.buf]

/-- `nextToken` -/
theorem next_sound {p : Token × Reader} (h : Pos o s r) (hp : r.nextToken = .ok p) (he : p.2.err = none) :
    (p.1.type = .eos ∧ Trailing o s ∧ Over p.2) ∨
    ∃ v s', Reads o s [(p.1, v)] s' ∧ Ready o s' p.2 ∧ (∀ x, v = some x → p.2.buf = x) := by
  rcases h with h | ⟨t, v, w, a, s', rfl, h2, h3, h4, h5, h6⟩ | ⟨h1, h2, h3, h4⟩
  · rcases next_ready h hp he with h | ⟨v, s', h1, h2, h3, _⟩
    · exact Or.inl h
    · exact Or.inr ⟨v, s', h1, h2, fun x hx => by rw [h3, hx]; rfl⟩
  · unfold Reader.nextToken at hp
    rw [if_neg (by rw [h5.tok]; exact h5.type)] at hp
    injection hp with hp
    subst hp
    refine Or.inr ⟨v, s', ?_, ⟨_, h5.soft⟩, fun x hx => h5.text x hx⟩
    simp only [h5.tok]
    exact reads_single h2 h3 h4
  · unfold Reader.nextToken at hp
    rw [if_neg (by rw [h4]; simp)] at hp
    injection hp with hp
    subst hp
    exact Or.inl ⟨h4, h1, h2, h3, Or.inl rfl⟩

/-- `peekToken`, no token looked ahead at -/
theorem peek_ready {p : Token × Reader} (h : Ready o s r) (hp : r.peekToken = .ok p) (he : p.2.err = none) :
    (p.1.type = .eos ∧ Trailing o s ∧ Over p.2) ∨
    ∃ v w a s', s = w ++ a ++ s' ∧ Sep o w ∧ Lexeme o a p.1 v ∧ Follows a p.1 s' ∧ Ahead o p.1 v s' p.2 ∧
      (p.1.type ≠ .int → p.1.type ≠ .float → p.2.ok = true) := by
  obtain ⟨b, h⟩ := h
  have htok : r.tok.type = .noToken := by rw [h.tok]
  unfold Reader.peekToken at hp
  rw [if_pos htok] at hp
  unfold Reader.checked at hp
  split at hp
  · cases hp
  · injection hp with hp
    subst hp
    rcases lex_ready_sound h he with ⟨h1, h2, h3⟩ | ⟨w, a, v, s', rfl, h2, h3, h4, h5, h6⟩
    · refine Or.inl ⟨by rw [h1], h3, he, h2, Or.inr (Or.inl (by rw [h1]))⟩
    · refine Or.inr ⟨v, w, a, s', rfl, h2, h3, h5, ⟨rfl, (lexeme_type h3).1, ?_, ?_⟩, h6⟩
      · intro x hx
        show (lexToken r).2.buf = x
        rw [h4.buf, hx]; rfl
      · have e : ({ ({ (lexToken r).2 with tok := (lexToken r).1 } : Reader) with tok := ⟨.noToken, .none⟩ } : Reader)
          = (lexToken r).2 := by
          have := h4.tok
          cases hq : (lexToken r).2 with
          | mk a1 a2 a3 a4 a5 a6 a7 a8 a9 a10 => rw [hq] at this; simp at this; simp [this]
        rw [e]
        show Soft o s' (lexToken r).2.buf _
        rw [h4.buf]
        exact h4

theorem peek_tok {p : Token × Reader} (hp : r.peekToken = .ok p) : p.2.tok = p.1 := by
  unfold Reader.peekToken at hp
  split at hp
  · unfold Reader.checked at hp
    split at hp
    · cases hp
    · injection hp with hp; subst hp; rfl
  · injection hp with hp; subst hp; rfl

/-- `peekToken` -/
theorem peek_sound {p : Token × Reader} (h : Pos o s r) (hp : r.peekToken = .ok p) (he : p.2.err = none) :
    (p.1.type = .eos ∧ Trailing o s ∧ Over p.2 ∧ Pos o s p.2) ∨
    ∃ v w a s', s = w ++ a ++ s' ∧ Sep o w ∧ Lexeme o a p.1 v ∧ Follows a p.1 s' ∧ Ahead o p.1 v s' p.2 ∧
      (p.1.type ≠ .int → p.1.type ≠ .float → p.2.ok = true) := by
  rcases h with h | ⟨t, v, w, a, s', rfl, h2, h3, h4, h5, h6⟩ | ⟨h1, h2, h3, h4⟩
  · rcases peek_ready h hp he with ⟨h1, h2, h3⟩ | ⟨v, w, a, s', h1, h2, h3, h4, h5, h6⟩
    · refine Or.inl ⟨h1, h2, h3, Or.inr (Or.inr ⟨h2, h3.1, h3.2.1, ?_⟩)⟩
      rw [peek_tok hp]; exact h1
    · exact Or.inr ⟨v, w, a, s', h1, h2, h3, h4, h5, h6⟩
  · unfold Reader.peekToken at hp
    rw [if_neg (by rw [h5.tok]; exact h5.type)] at hp
    injection hp with hp
    subst hp
    refine Or.inr ⟨v, w, a, s', rfl, h2, ?_, ?_, ?_, ?_⟩
    · rw [h5.tok]; exact h3
    · rw [h5.tok]; exact h4
    · rw [h5.tok]; exact h5
    · rw [h5.tok]; exact h6
  · unfold Reader.peekToken at hp
    rw [if_neg (by rw [h4]; simp)] at hp
    injection hp with hp
    subst hp
    exact Or.inl ⟨h4, h1, ⟨h2, h3, Or.inr (Or.inl h4)⟩, Or.inr (Or.inr ⟨h1, h2, h3, h4⟩)⟩

/-! ### Errors stay -/

theorem next_err {p : Token × Reader} (hp : r.nextToken = .ok p) (he : r.err ≠ none) : p.2.err ≠ none :=
  fun h => he (pstep_err ((nextToken_fine r).2 p hp).1 h)

theorem peek_err {p : Token × Reader} (hp : r.peekToken = .ok p) (he : r.err ≠ none) : p.2.err ≠ none :=
  fun h => he (pstep_err ((peekToken_fine r).2 p hp).1 h)

theorem assert_err {x : TokType} (he : (r.assertToken t x).2.err = none) : t.type = x ∧ (r.assertToken t x).2 = r := by
  unfold Reader.assertToken at he ⊢
  split at he
  · rename_i h
    exact ⟨h, by rw [if_pos h]⟩
  · exact absurd he (Reader.error_err _ _)

theorem not_ok_of_err (he : r.err ≠ none) : r.ok = false := by
  cases h : r.err with
  | none => exact absurd h he
  | some e => exact Reader.not_ok_of_err h

theorem expect_err {x : TokType} {p : Token × Reader} (hp : r.expectToken x = .ok p) (he : p.2.err = none) :
    r.nextToken = .ok p ∧ p.1.type = x := by
  unfold Reader.expectToken at hp
  cases hq : r.nextToken with
  | error e => rw [hq] at hp; cases hp
  | ok q =>
    rw [hq, okb] at hp
    obtain ⟨-, hp⟩ := mayAssert_bind hp
    injection hp with hp
    subst hp
    obtain ⟨h1, h2⟩ := assert_err he
    refine ⟨?_, ?_⟩
    · unfold Reader.assertToken
      simp [h1]
    · unfold Reader.assertToken
      simp [h1]

theorem expect_keeps {x : TokType} {p : Token × Reader} (hp : r.expectToken x = .ok p) (he : r.err ≠ none) : p.2.err ≠ none := by
  intro h
  obtain ⟨h1, _⟩ := expect_err hp h
  exact next_err h1 he h

/-- Once the text has run out, only the end or a number can come. -/
theorem Over.next {p : Token × Reader} (h : Over r) (hp : r.nextToken = .ok p) :
    p.1.type = .eos ∨ p.1.type = .int ∨ p.1.type = .float := by
  obtain ⟨h1, h2, h3⟩ := h
  unfold Reader.nextToken at hp
  split at hp
  · unfold Reader.checked at hp
    split at hp
    · cases hp
    · injection hp with hp
      subst hp
      unfold lexToken
      rw [if_neg (by simp [h2])]
      exact Or.inl rfl
  · rename_i hk
    injection hp with hp
    subst hp
    exact h3.resolve_left hk

/-! ### Tokens and lexemes -/

theorem reads_type {y : Bytes} (h : Reads o s [(t, v)] y) : t.type ≠ .eos ∧ t.type ≠ .noToken := by
  obtain ⟨w, a, s', _, _, h3, _, _⟩ := reads_cons_inv h
  exact ⟨(lexeme_type h3).2, (lexeme_type h3).1⟩

theorem lexeme_is {a : Bytes} (h : Lexeme o a t v) :
    (t.type = .objectStart → (t, v) = Tok.lbrace) ∧ (t.type = .objectEnd → (t, v) = Tok.rbrace) ∧
    (t.type = .arrayStart → (t, v) = Tok.lbrack) ∧ (t.type = .arrayEnd → (t, v) = Tok.rbrack) ∧
    (t.type = .separator → (t, v) = Tok.comma) ∧ (t.type = .keySeparator → (t, v) = Tok.colon) ∧
    (t.type = .null → (t, v) = Tok.null) ∧ (t.type = .bool → ∃ b, (t, v) = Tok.bool b) ∧
    (t.type = .int → ∃ x, (t, v) = Tok.int x ∧ IntText x) ∧ (t.type = .float → ∃ x, (t, v) = Tok.float x ∧ FloatText x) ∧
    (t.type = .string → ∃ x, (t, v) = Tok.str x) := by
  cases h <;> refine ⟨?_, ?_, ?_, ?_, ?_, ?_, ?_, ?_, ?_, ?_, ?_⟩ <;> intro hx <;> first
    | rfl
    | exact ⟨_, rfl⟩
    | (cases hx; done)
    | (rename_i h; exact ⟨_, rfl, h⟩)

theorem reads_is {y : Bytes} (h : Reads o s [(t, v)] y) :
    (t.type = .objectStart → (t, v) = Tok.lbrace) ∧ (t.type = .objectEnd → (t, v) = Tok.rbrace) ∧
    (t.type = .arrayStart → (t, v) = Tok.lbrack) ∧ (t.type = .arrayEnd → (t, v) = Tok.rbrack) ∧
    (t.type = .separator → (t, v) = Tok.comma) ∧ (t.type = .keySeparator → (t, v) = Tok.colon) ∧
    (t.type = .null → (t, v) = Tok.null) ∧ (t.type = .bool → ∃ b, (t, v) = Tok.bool b) ∧
    (t.type = .int → ∃ x, (t, v) = Tok.int x ∧ IntText x) ∧ (t.type = .float → ∃ x, (t, v) = Tok.float x ∧ FloatText x) ∧
    (t.type = .string → ∃ x, (t, v) = Tok.str x) := by
  obtain ⟨w, a, s', _, _, h3, _, _⟩ := reads_cons_inv h
  exact lexeme_is h3

/-- the first token of a text is determined by the text -/
theorem reads_head_unique {t' : Token} {v' : Option Bytes} {ts' : List Tok} {y' : Bytes} (h : Reads o s ((t, v) :: ts) y)
    (h' : Reads o s ((t', v') :: ts') y') : t = t' := by
  have hr : Ready o s (Reader.open o s) := ⟨[], (At.open o s).soft⟩
  rw [← (lex_ready hr h).1, ← (lex_ready hr h').1]

/-! ### Texts that stop too early -/

/-- a number is looked ahead at and the stream has become unusable -/
theorem early_number {p : Token × Reader} {s0 s1 : Bytes} {q0 : Tok} (h0 : Reads o s0 [q0] s1) (h : Ready o s1 r)
    (hp : r.peekToken = .ok p) (hr : Reads o s1 [(p.1, v)] []) (ht : p.1.type = .int ∨ p.1.type = .float) (hk : p.2.ok = false) :
    Early o q0 s0 := by
  have hv : ∃ k, v = some k ∧ ((p.1, v) = Tok.int k ∨ (p.1, v) = Tok.float k) := by
    rcases ht with ht | ht
    · obtain ⟨k, hk, _⟩ := (reads_is hr).2.2.2.2.2.2.2.2.1 ht
      exact ⟨k, congrArg Prod.snd hk, Or.inl hk⟩
    · obtain ⟨k, hk, _⟩ := (reads_is hr).2.2.2.2.2.2.2.2.2.1 ht
      exact ⟨k, congrArg Prod.snd hk, Or.inr hk⟩
  obtain ⟨k, rfl, hq⟩ := hv
  refine Or.inr ⟨_, k, hq, ?_, reads_append h0 hr⟩
  have h2 : p.2.ok = (lexToken r).2.ok := by
    obtain ⟨b, h⟩ := h
    unfold Reader.peekToken at hp
    rw [if_pos (by rw [h.tok])] at hp
    unfold Reader.checked at hp
    split at hp
    · cases hp
    · injection hp with hp
      subst hp; rfl
  exact (lex_number_end h hr ht).mp (by rw [← h2]; exact hk)

/-! ### Arrays and objects -/

variable {σ : Type}

/-- the state goes through the items one after the other -/
def Chain {κ : Type} (P : κ → σ → σ → Prop) : List κ → σ → σ → Prop
  | [], a, a' => a = a'
  | x :: xs, a, a' => ∃ b, P x a b ∧ Chain P xs b a'

/-- What a call-back accepted was a document, or the text ran out. -/
def FnSound (o : ROpts) (fn : σ → Reader → Res (σ × Reader)) (P : JTree → σ → σ → Prop) : Prop :=
  ∀ a s r q, Pos o s r → fn a r = .ok q → q.2.err = none →
    (∃ x y, Reads o s x.toks y ∧ Ready o y q.2 ∧ (y ≠ [] → P x a q.1)) ∨ Over q.2

theorem arrLoop_stop {fn : Nat → σ → Reader → Res (σ × Reader)} {n i : Nat} {a : σ} {q : σ × Reader}
    (h : arrLoop fn n i a r = .ok q) (hr : r.ok = false) : q = (a, r) := by
  cases n with
  | zero => cases h
  | succ n =>
    unfold arrLoop at h
    rw [if_neg (by simp [hr])] at h
    injection h with h; exact h.symm

theorem objLoop_stop {fn : Bytes → σ → Reader → Res (σ × Reader)} {n : Nat} {a : σ} {q : σ × Reader}
    (h : objLoop fn n a r = .ok q) (hr : r.ok = false) : q = (a, r) := by
  cases n with
  | zero => cases h
  | succ n =>
    unfold objLoop at h
    rw [if_neg (by simp [hr])] at h
    injection h with h; exact h.symm

theorem bind_ok {α β : Type} {x : Res α} {f : α → Res β} {b : β} (h : (x >>= f) = .ok b) : ∃ a, x = .ok a ∧ f a = .ok b := by
  cases x with
  | error e => cases h
  | ok a => exact ⟨a, rfl, h⟩

theorem arrLoop_sound {fn : Nat → σ → Reader → Res (σ × Reader)} {P : JTree → σ → σ → Prop}
    (hfn : ∀ i, FnSound o (fn i) P) : ∀ (n i : Nat) (a : σ) (s : Bytes) (r : Reader) (q : σ × Reader), Pos o s r →
    r.ok = true → arrLoop fn n i a r = .ok q → q.2.err = none →
    ∃ xs y, xs ≠ [] ∧ Reads o s (commas (JTree.elems xs) ++ [Tok.rbrack]) y ∧ Ready o y q.2 ∧ Chain P xs a q.1 := by
  intro n
  induction n with
  | zero => intro i a s r q _ _ h; cases h
  | succ n ih =>
    intro i a s r q hpos hok h he
    unfold arrLoop at h
    rw [if_pos hok] at h
    obtain ⟨c, hc, h⟩ := bind_ok h
    obtain ⟨e, hn, h⟩ := bind_ok h
    -- no error up to here
    have hee : e.2.err = none := by
      apply Classical.byContradiction
      intro hx
      split at h
      · injection h with h; subst h; exact hx he
      · obtain ⟨-, h⟩ := mayAssert_bind h
        have hx2 : (e.2.assertToken e.1 .separator).2.err ≠ none := by
          unfold Reader.assertToken; split
          · exact hx
          · exact Reader.error_err _ _
        have := arrLoop_stop h (not_ok_of_err hx2)
        subst this
        exact hx2 he
    have hce : c.2.err = none := Classical.byContradiction fun hx => next_err hn hx hee
    -- the separator or the end
    have hsep : e.1.type ≠ .arrayEnd → e.1.type = .separator := by
      intro hx
      rw [if_neg hx] at h
      obtain ⟨-, h⟩ := mayAssert_bind h
      apply Classical.byContradiction
      intro hx2
      have hx3 : (e.2.assertToken e.1 .separator).2.err ≠ none := by
        unfold Reader.assertToken; rw [if_neg hx2]; exact Reader.error_err _ _
      have := arrLoop_stop h (not_ok_of_err hx3)
      subst this
      exact hx3 he
    rcases hfn i a s r c hpos hc hce with ⟨x, y1, h1, h2, h3⟩ | hover
    · rcases next_ready h2 hn hee with ⟨k1, _, _⟩ | ⟨v, y2, k1, k2, k3, k4⟩
      · exfalso
        have := hsep (by rw [k1]; simp)
        rw [k1] at this; cases this
      · have hy1 : y1 ≠ [] := reads_ne_nil k1
        have hk := reads_is k1
        by_cases hend : e.1.type = .arrayEnd
        · rw [if_pos hend] at h
          injection h with h
          subst h
          refine ⟨[x], y2, by simp, ?_, k2, c.1, h3 hy1, rfl⟩
          have e1 : (e.1, v) = Tok.rbrack := hk.2.2.2.1 hend
          rw [e1] at k1
          simpa [JTree.elems, commas] using reads_append h1 k1
        · have hs := hsep hend
          rw [if_neg hend] at h
          obtain ⟨-, h⟩ := mayAssert_bind h
          have e1 : (e.1, v) = Tok.comma := hk.2.2.2.2.1 hs
          rw [e1] at k1
          rw [assertToken_eq e.2 hs] at h
          obtain ⟨xs, y3, g1, g2, g3, g4⟩ := ih (i + 1) c.1 y2 e.2 q (Or.inl k2)
            (k4 (by rw [hs]; simp) (by rw [hs]; simp)) h he
          refine ⟨x :: xs, y3, by simp, ?_, g3, c.1, h3 hy1, g4⟩
          cases xs with
          | nil => exact absurd rfl g1
          | cons x2 xs =>
            have := reads_append h1 (reads_append k1 g2)
            simpa [JTree.elems, commas] using this
    · exfalso
      have hx := hover.next hn
      have := hsep (by rcases hx with hx | hx | hx <;> rw [hx] <;> simp)
      rw [this] at hx
      rcases hx with hx | hx | hx <;> cases hx

theorem objLoop_sound {fn : Bytes → σ → Reader → Res (σ × Reader)} {P : Bytes × JTree → σ → σ → Prop}
    (hfn : ∀ k, FnSound o (fn k) (fun x => P (k, x)))
    (hkeep : ∀ k a r q, r.err ≠ none → fn k a r = .ok q → q.2.err ≠ none) :
    ∀ (n : Nat) (a : σ) (s : Bytes) (r : Reader) (q : σ × Reader),
    Pos o s r → r.ok = true → objLoop fn n a r = .ok q → q.2.err = none →
    ∃ ms y, ms ≠ [] ∧ Reads o s (commas (JTree.members ms) ++ [Tok.rbrace]) y ∧ Ready o y q.2 ∧ Chain P ms a q.1 := by
  intro n
  induction n with
  | zero => intro a s r q _ _ h; cases h
  | succ n ih =>
    intro a s r q hpos hok h he
    unfold objLoop at h
    rw [if_pos hok] at h
    obtain ⟨p1, hp1, h⟩ := bind_ok h
    obtain ⟨st, hst, h⟩ := bind_ok h
    obtain ⟨p2, hp2, h⟩ := bind_ok h
    obtain ⟨c, hc, h⟩ := bind_ok h
    obtain ⟨e, hn, h⟩ := bind_ok h
    have hee : e.2.err = none := by
      apply Classical.byContradiction
      intro hx
      split at h
      · injection h with h; subst h; exact hx he
      · obtain ⟨-, h⟩ := mayAssert_bind h
        have hx2 : (e.2.assertToken e.1 .separator).2.err ≠ none := by
          unfold Reader.assertToken; split
          · exact hx
          · exact Reader.error_err _ _
        have := objLoop_stop h (not_ok_of_err hx2)
        subst this
        exact hx2 he
    have hce : c.2.err = none := Classical.byContradiction fun hx => next_err hn hx hee
    have h2e : p2.2.err = none := Classical.byContradiction fun hx => hkeep _ _ _ _ hx hc hce
    have h1e : p1.2.err = none := Classical.byContradiction fun hx => expect_keeps hp2 hx h2e
    have hsep : e.1.type ≠ .objectEnd → e.1.type = .separator := by
      intro hx
      rw [if_neg hx] at h
      obtain ⟨-, h⟩ := mayAssert_bind h
      apply Classical.byContradiction
      intro hx2
      have hx3 : (e.2.assertToken e.1 .separator).2.err ≠ none := by
        unfold Reader.assertToken; rw [if_neg hx2]; exact Reader.error_err _ _
      have := objLoop_stop h (not_ok_of_err hx3)
      subst this
      exact hx3 he
    -- the key
    obtain ⟨hp1', ht1⟩ := expect_err hp1 h1e
    rcases next_sound hpos hp1' h1e with ⟨k1, _, _⟩ | ⟨v1, s1, a1, a2, a3⟩
    · rw [k1] at ht1; cases ht1
    obtain ⟨k, hk⟩ := (reads_is a1).2.2.2.2.2.2.2.2.2.2 ht1
    rw [hk] at a1
    have hbuf1 : p1.2.buf = k := a3 k (by have := congrArg Prod.snd hk; exact this)
    -- the colon
    obtain ⟨hp2', ht2⟩ := expect_err hp2 h2e
    rcases next_ready a2 hp2' h2e with ⟨k1, _, _⟩ | ⟨v2, s2, b1, b2, b3, _⟩
    · rw [k1] at ht2; cases ht2
    have hcol := (reads_is b1).2.2.2.2.2.1 ht2
    rw [hcol] at b1
    have hv2 : v2 = none := congrArg Prod.snd hcol
    rw [hv2] at b3
    have hbuf2 : p2.2.buf = k := b3.trans hbuf1
    rw [hbuf2] at hc
    rcases hfn k a s2 p2.2 c (Or.inl b2) hc hce with ⟨x, y1, h1, h2, h3⟩ | hover
    · rcases next_ready h2 hn hee with ⟨k1, _, _⟩ | ⟨v, y2, k1, k2, k3, k4⟩
      · exfalso
        have := hsep (by rw [k1]; simp)
        rw [k1] at this; cases this
      · have hy1 : y1 ≠ [] := reads_ne_nil k1
        have hk := reads_is k1
        have hmem : Reads o s (Tok.str k :: Tok.colon :: x.toks) y1 := reads_append a1 (reads_append b1 h1)
        by_cases hend : e.1.type = .objectEnd
        · rw [if_pos hend] at h
          injection h with h
          subst h
          refine ⟨[(k, x)], y2, by simp, ?_, k2, c.1, h3 hy1, rfl⟩
          have e1 : (e.1, v) = Tok.rbrace := hk.2.1 hend
          rw [e1] at k1
          simpa [JTree.members, commas] using reads_append hmem k1
        · have hs := hsep hend
          rw [if_neg hend] at h
          obtain ⟨-, h⟩ := mayAssert_bind h
          have e1 : (e.1, v) = Tok.comma := hk.2.2.2.2.1 hs
          rw [e1] at k1
          rw [assertToken_eq e.2 hs] at h
          obtain ⟨xs, y3, g1, g2, g3, g4⟩ := ih c.1 y2 e.2 q (Or.inl k2)
            (k4 (by rw [hs]; simp) (by rw [hs]; simp)) h he
          refine ⟨(k, x) :: xs, y3, by simp, ?_, g3, c.1, h3 hy1, g4⟩
          cases xs with
          | nil => exact absurd rfl g1
          | cons x2 xs =>
            have := reads_append hmem (reads_append k1 g2)
            obtain ⟨k2, x2⟩ := x2
            simpa [JTree.members, commas] using this
    · exfalso
      have hx := hover.next hn
      have := hsep (by rcases hx with hx | hx | hx <;> rw [hx] <;> simp)
      rw [this] at hx
      rcases hx with hx | hx | hx <;> cases hx

theorem parseArray_keeps {fn : Nat → σ → Reader → Res (σ × Reader)} {n : Nat} {a : σ} {q : σ × Reader}
    (h : parseArray fn n a r = .ok q) (he : r.err ≠ none) : q.2.err ≠ none := by
  unfold parseArray at h
  obtain ⟨p, hp, h⟩ := bind_ok h
  have h1 := next_err hp he
  split at h
  · injection h with h; subst h; exact h1
  · obtain ⟨-, h⟩ := mayAssert_bind h
    obtain ⟨p2, hp2, h⟩ := bind_ok h
    have h2 : (p.2.assertToken p.1 .arrayStart).2.err ≠ none := by
      unfold Reader.assertToken; split
      · exact h1
      · exact Reader.error_err _ _
    have h3 := peek_err hp2 h2
    split at h
    · obtain ⟨p3, hp3, h⟩ := bind_ok h
      injection h with h; subst h
      exact expect_keeps hp3 h3
    · have := arrLoop_stop h (not_ok_of_err h3)
      subst this; exact h3

theorem parseObject_keeps {fn : Bytes → σ → Reader → Res (σ × Reader)} {n : Nat} {a : σ} {q : σ × Reader}
    (h : parseObject fn n a r = .ok q) (he : r.err ≠ none) : q.2.err ≠ none := by
  unfold parseObject at h
  obtain ⟨p, hp, h⟩ := bind_ok h
  have h1 := next_err hp he
  split at h
  · injection h with h; subst h; exact h1
  · obtain ⟨-, h⟩ := mayAssert_bind h
    obtain ⟨p2, hp2, h⟩ := bind_ok h
    have h2 : (p.2.assertToken p.1 .objectStart).2.err ≠ none := by
      unfold Reader.assertToken; split
      · exact h1
      · exact Reader.error_err _ _
    have h3 := peek_err hp2 h2
    split at h
    · obtain ⟨p3, hp3, h⟩ := bind_ok h
      injection h with h; subst h
      exact expect_keeps hp3 h3
    · have := objLoop_stop h (not_ok_of_err h3)
      subst this; exact h3

/-- What `parseArray` accepted was `null`, an array, or an opening bracket with nothing but a number after it. -/
theorem parseArray_sound {fn : Nat → σ → Reader → Res (σ × Reader)} {P : JTree → σ → σ → Prop}
    (hfn : ∀ i, FnSound o (fn i) P) {n : Nat} {a : σ} {q : σ × Reader} (hpos : Pos o s r)
    (h : parseArray fn n a r = .ok q) (he : q.2.err = none) :
    (∃ y, Reads o s JTree.null.toks y ∧ Ready o y q.2 ∧ q.1 = a) ∨
    (∃ xs y, Reads o s (JTree.arr xs).toks y ∧ Ready o y q.2 ∧ Chain P xs a q.1) ∨
    (Early o Tok.lbrack s ∧ Over q.2 ∧ q.1 = a) := by
  unfold parseArray at h
  obtain ⟨p, hp, h⟩ := bind_ok h
  by_cases hnull : p.1.type = .null
  · rw [if_pos hnull] at h
    injection h with h
    subst h
    rcases next_sound hpos hp he with ⟨k1, _, _⟩ | ⟨v, s1, a1, a2, _⟩
    · rw [k1] at hnull; cases hnull
    · rw [(reads_is a1).2.2.2.2.2.2.1 hnull] at a1
      exact Or.inl ⟨s1, a1, a2, rfl⟩
  · rw [if_neg hnull] at h
    obtain ⟨-, h⟩ := mayAssert_bind h
    obtain ⟨p2, hp2, h⟩ := bind_ok h
    have h3 : p2.2.err = none := by
      apply Classical.byContradiction
      intro h3
      split at h
      · obtain ⟨p3, hp3, h⟩ := bind_ok h
        injection h with h; subst h
        exact expect_keeps hp3 h3 he
      · have := arrLoop_stop h (not_ok_of_err h3)
        subst this; exact h3 he
    have h2 : (p.2.assertToken p.1 .arrayStart).2.err = none := Classical.byContradiction fun hx => peek_err hp2 hx h3
    obtain ⟨ht, e2⟩ := assert_err h2
    rw [e2] at hp2 h2
    rcases next_sound hpos hp h2 with ⟨k1, _, _⟩ | ⟨v, s1, a1, a2, _⟩
    · rw [k1] at ht; cases ht
    rw [(reads_is a1).2.2.1 ht] at a1
    rcases peek_ready a2 hp2 h3 with ⟨k1, k2, k3⟩ | ⟨v2, w, la, s2, rfl, k2, k3, k4, k5, k6⟩
    · rw [if_neg (by rw [k1]; simp)] at h
      have := arrLoop_stop h k3.2.1
      subst this
      exact Or.inr (Or.inr ⟨Or.inl ⟨s1, a1, k2⟩, k3, rfl⟩)
    · by_cases hend : p2.1.type = .arrayEnd
      · rw [if_pos hend] at h
        obtain ⟨p3, hp3, h⟩ := bind_ok h
        injection h with h; subst h
        obtain ⟨hn, _⟩ := expect_err hp3 he
        rcases next_sound (Or.inr (Or.inl ⟨_, _, _, _, _, rfl, k2, k3, k4, k5, k6⟩)) hn he with ⟨j1, _, _⟩ | ⟨v3, s3, b1, b2, _⟩
        · exfalso
          rw [(expect_err hp3 he).2] at j1; cases j1
        · rw [(reads_is b1).2.2.2.1 (expect_err hp3 he).2] at b1
          refine Or.inr (Or.inl ⟨[], s3, ?_, b2, rfl⟩)
          exact reads_append a1 b1
      · rw [if_neg hend] at h
        by_cases hok : p2.2.ok = true
        · obtain ⟨xs, y, g1, g2, g3, g4⟩ := arrLoop_sound hfn n 0 a _ p2.2 q
            (Or.inr (Or.inl ⟨_, _, _, _, _, rfl, k2, k3, k4, k5, k6⟩)) hok h he
          exact Or.inr (Or.inl ⟨xs, y, reads_append a1 g2, g3, g4⟩)
        · have hok' : p2.2.ok = false := by simpa using hok
          have := arrLoop_stop h hok'
          subst this
          have hs2 : s2 = [] := Classical.byContradiction fun hx => hok (k5.ok hx)
          subst hs2
          have hnum : p2.1.type = .int ∨ p2.1.type = .float := by
            apply Classical.byContradiction
            intro hx
            exact hok (k6 (fun h => hx (Or.inl h)) (fun h => hx (Or.inr h)))
          refine Or.inr (Or.inr ⟨early_number a1 a2 hp2 (reads_single k2 k3 k4) hnum hok', ⟨he, hok', ?_⟩, rfl⟩)
          rw [k5.tok]
          exact Or.inr (Or.inr hnum)

/-- What `parseObject` accepted was `null`, an object, or an opening brace with nothing but a number after it. -/
theorem parseObject_sound {fn : Bytes → σ → Reader → Res (σ × Reader)} {P : Bytes × JTree → σ → σ → Prop}
    (hfn : ∀ k, FnSound o (fn k) (fun x => P (k, x)))
    (hkeep : ∀ k a r q, r.err ≠ none → fn k a r = .ok q → q.2.err ≠ none)
    {n : Nat} {a : σ} {q : σ × Reader} (hpos : Pos o s r)
    (h : parseObject fn n a r = .ok q) (he : q.2.err = none) :
    (∃ y, Reads o s JTree.null.toks y ∧ Ready o y q.2 ∧ q.1 = a) ∨
    (∃ ms y, Reads o s (JTree.obj ms).toks y ∧ Ready o y q.2 ∧ Chain P ms a q.1) ∨
    (Early o Tok.lbrace s ∧ Over q.2 ∧ q.1 = a) := by
  unfold parseObject at h
  obtain ⟨p, hp, h⟩ := bind_ok h
  by_cases hnull : p.1.type = .null
  · rw [if_pos hnull] at h
    injection h with h
    subst h
    rcases next_sound hpos hp he with ⟨k1, _, _⟩ | ⟨v, s1, a1, a2, _⟩
    · rw [k1] at hnull; cases hnull
    · rw [(reads_is a1).2.2.2.2.2.2.1 hnull] at a1
      exact Or.inl ⟨s1, a1, a2, rfl⟩
  · rw [if_neg hnull] at h
    obtain ⟨-, h⟩ := mayAssert_bind h
    obtain ⟨p2, hp2, h⟩ := bind_ok h
    have h3 : p2.2.err = none := by
      apply Classical.byContradiction
      intro h3
      split at h
      · obtain ⟨p3, hp3, h⟩ := bind_ok h
        injection h with h; subst h
        exact expect_keeps hp3 h3 he
      · have := objLoop_stop h (not_ok_of_err h3)
        subst this; exact h3 he
    have h2 : (p.2.assertToken p.1 .objectStart).2.err = none := Classical.byContradiction fun hx => peek_err hp2 hx h3
    obtain ⟨ht, e2⟩ := assert_err h2
    rw [e2] at hp2 h2
    rcases next_sound hpos hp h2 with ⟨k1, _, _⟩ | ⟨v, s1, a1, a2, _⟩
    · rw [k1] at ht; cases ht
    rw [(reads_is a1).1 ht] at a1
    rcases peek_ready a2 hp2 h3 with ⟨k1, k2, k3⟩ | ⟨v2, w, la, s2, rfl, k2, k3, k4, k5, k6⟩
    · rw [if_neg (by rw [k1]; simp)] at h
      have := objLoop_stop h k3.2.1
      subst this
      exact Or.inr (Or.inr ⟨Or.inl ⟨s1, a1, k2⟩, k3, rfl⟩)
    · by_cases hend : p2.1.type = .objectEnd
      · rw [if_pos hend] at h
        obtain ⟨p3, hp3, h⟩ := bind_ok h
        injection h with h; subst h
        obtain ⟨hn, _⟩ := expect_err hp3 he
        rcases next_sound (Or.inr (Or.inl ⟨_, _, _, _, _, rfl, k2, k3, k4, k5, k6⟩)) hn he with ⟨j1, _, _⟩ | ⟨v3, s3, b1, b2, _⟩
        · exfalso
          rw [(expect_err hp3 he).2] at j1; cases j1
        · rw [(reads_is b1).2.1 (expect_err hp3 he).2] at b1
          refine Or.inr (Or.inl ⟨[], s3, ?_, b2, rfl⟩)
          exact reads_append a1 b1
      · rw [if_neg hend] at h
        by_cases hok : p2.2.ok = true
        · obtain ⟨xs, y, g1, g2, g3, g4⟩ := objLoop_sound hfn hkeep n a _ p2.2 q
            (Or.inr (Or.inl ⟨_, _, _, _, _, rfl, k2, k3, k4, k5, k6⟩)) hok h he
          exact Or.inr (Or.inl ⟨xs, y, reads_append a1 g2, g3, g4⟩)
        · have hok' : p2.2.ok = false := by simpa using hok
          have := objLoop_stop h hok'
          subst this
          have hs2 : s2 = [] := Classical.byContradiction fun hx => hok (k5.ok hx)
          subst hs2
          have hnum : p2.1.type = .int ∨ p2.1.type = .float := by
            apply Classical.byContradiction
            intro hx
            exact hok (k6 (fun h => hx (Or.inl h)) (fun h => hx (Or.inr h)))
          refine Or.inr (Or.inr ⟨early_number a1 a2 hp2 (reads_single k2 k3 k4) hnum hok', ⟨he, hok', ?_⟩, rfl⟩)
          rw [k5.tok]
          exact Or.inr (Or.inr hnum)

/-! ### Skipping -/

theorem skip_keeps {n : Nat} {r' : Reader} (h : skip n r = .ok r') (he : r.err ≠ none) : r'.err ≠ none := by
  cases n with
  | zero => cases h
  | succ n =>
    unfold skip at h
    obtain ⟨p, hp, h⟩ := bind_ok h
    have h1 := peek_err hp he
    rw [if_neg (by simp [not_ok_of_err h1])] at h
    injection h with h; subst h; exact h1

theorem skip_sound : ∀ (n : Nat) (s : Bytes) (r r' : Reader), Pos o s r → skip n r = .ok r' → r'.err = none →
    (∃ x y, Reads o s (JTree.toks x) y ∧ Ready o y r') ∨ Over r' := by
  intro n
  induction n with
  | zero => intro s r r' _ h; cases h
  | succ n ih =>
    intro s r r' hpos h he
    unfold skip at h
    obtain ⟨p, hp, h⟩ := bind_ok h
    by_cases hok : p.2.ok = true
    · rw [if_pos hok] at h
      have hpe : p.2.err = none := by
        cases hx : p.2.err with
        | none => rfl
        | some e => rw [Reader.not_ok_of_err hx] at hok; cases hok
      rcases peek_sound hpos hp hpe with ⟨_, _, k3, _⟩ | ⟨v, w, la, s2, rfl, k2, k3, k4, k5, k6⟩
      · rw [k3.2.1] at hok; cases hok
      have hp2 : Pos o (w ++ la ++ s2) p.2 := Or.inr (Or.inl ⟨_, _, _, _, _, rfl, k2, k3, k4, k5, k6⟩)
      have scalar : (∃ x : JTree, x.toks = [(p.1, v)]) → (p.2.nextToken >>= fun q => Except.ok q.2) = Except.ok r' →
          (∃ x y, Reads o (w ++ la ++ s2) (JTree.toks x) y ∧ Ready o y r') ∨ Over r' := by
        rintro ⟨x, hx⟩ h
        obtain ⟨q, hq, h⟩ := bind_ok h
        injection h with h; subst h
        unfold Reader.nextToken at hq
        rw [if_neg (by rw [k5.tok]; exact k5.type)] at hq
        injection hq with hq; subst hq
        refine Or.inl ⟨x, s2, ?_, ⟨_, k5.soft⟩⟩
        rw [hx]
        exact reads_single k2 k3 k4
      have hk := lexeme_is k3
      have hfn : FnSound o (fun (_ : Unit) r => do .ok ((), ← skip n r)) (fun _ _ _ => True) := by
        intro a s r q hpos hq hqe
        obtain ⟨r1, hr1, hq⟩ := bind_ok hq
        injection hq with hq; subst hq
        rcases ih s r r1 hpos hr1 hqe with ⟨x, y, h1, h2⟩ | h1
        · exact Or.inl ⟨x, y, h1, h2, fun _ => trivial⟩
        · exact Or.inr h1
      split at h
      · rename_i ht; exact scalar ⟨.null, by rw [hk.2.2.2.2.2.2.1 ht]; rfl⟩ h
      · rename_i ht
        obtain ⟨b, hb⟩ := hk.2.2.2.2.2.2.2.1 ht
        exact scalar ⟨.bool b, by rw [hb]; rfl⟩ h
      · rename_i ht
        obtain ⟨b, hb, _⟩ := hk.2.2.2.2.2.2.2.2.1 ht
        exact scalar ⟨.int b, by rw [hb]; rfl⟩ h
      · rename_i ht
        obtain ⟨b, hb, _⟩ := hk.2.2.2.2.2.2.2.2.2.1 ht
        exact scalar ⟨.float b, by rw [hb]; rfl⟩ h
      · rename_i ht
        obtain ⟨b, hb⟩ := hk.2.2.2.2.2.2.2.2.2.2 ht
        exact scalar ⟨.str b, by rw [hb]; rfl⟩ h
      · obtain ⟨q, hq, h⟩ := bind_ok h
        injection h with h; subst h
        rcases parseArray_sound (P := fun _ _ _ => True) (fun _ => hfn) hp2 hq he with ⟨y, h1, h2, _⟩ | ⟨xs, y, h1, h2, _⟩ | ⟨_, h2, _⟩
        · exact Or.inl ⟨_, y, h1, h2⟩
        · exact Or.inl ⟨_, y, h1, h2⟩
        · exact Or.inr h2
      · obtain ⟨q, hq, h⟩ := bind_ok h
        injection h with h; subst h
        rcases parseObject_sound (P := fun _ _ _ => True) (fun _ => hfn) (by
          intro k a r q hr hq
          obtain ⟨r1, hr1, hq⟩ := bind_ok hq
          injection hq with hq; subst hq
          exact skip_keeps hr1 hr) hp2 hq he with ⟨y, h1, h2, _⟩ | ⟨xs, y, h1, h2, _⟩ | ⟨_, h2, _⟩
        · exact Or.inl ⟨_, y, h1, h2⟩
        · exact Or.inl ⟨_, y, h1, h2⟩
        · exact Or.inr h2
      · cases h
    · have hok' : p.2.ok = false := by simpa using hok
      rw [if_neg hok] at h
      injection h with h; subst h
      rcases peek_sound hpos hp he with ⟨_, _, k3, _⟩ | ⟨v, w, la, s2, rfl, k2, k3, k4, k5, k6⟩
      · exact Or.inr k3
      · refine Or.inr ⟨he, hok', Or.inr (Or.inr ?_)⟩
        rw [k5.tok]
        apply Classical.byContradiction
        intro hx
        exact hok (k6 (fun h => hx (Or.inl h)) (fun h => hx (Or.inr h)))

end Reflect.Json

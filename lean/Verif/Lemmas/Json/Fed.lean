import Verif.Lemmas.Json.Loop
import Verif.Spec.JsonTree
/- Readers seen as sources of tokens. -/
namespace Reflect.Json

variable {o : ROpts} {s y b : Bytes} {r : Reader} {t : Token} {v : Option Bytes} {ts : List Tok}

theorem okb {α β : Type} (a : α) (f : α → Res β) : ((Except.ok a : Res α) >>= f) = f a := rfl

/-- a successful result with a decidable property, found by running the program -/
def Res.holds {α : Type} (x : Res α) (p : α → Bool) : Bool := match x with | .ok a => p a | .error _ => false

theorem Res.run {α : Type} {x : Res α} (p : α → Bool) (h : Res.holds x p = true) : ∃ a, x = .ok a ∧ p a = true := by
  cases x with
  | ok a => exact ⟨a, rfl, h⟩
  | error e => cases h

theorem lexeme_type {a : Bytes} (h : Lexeme o a t v) : t.type ≠ .noToken ∧ t.type ≠ .eos := by
  cases h <;> exact ⟨by simp, by simp⟩

theorem reads_cons_inv (h : Reads o s ((t, v) :: ts) y) :
    ∃ w a s', s = w ++ a ++ s' ∧ Sep o w ∧ Lexeme o a t v ∧ Follows a t s' ∧ Reads o s' ts y := by
  cases h with
  | cons w a s' _ _ _ _ h1 h2 h3 h4 => exact ⟨w, a, s', rfl, h1, h2, h3, h4⟩

theorem reads_nil_inv (h : Reads o s [] y) : s = y := by cases h; rfl

theorem reads_append {ts1 ts2 : List Tok} {x : Bytes} : ∀ {s : Bytes}, Reads o s ts1 x → Reads o x ts2 y →
    Reads o s (ts1 ++ ts2) y := by
  induction ts1 with
  | nil => intro s h h2; rw [reads_nil_inv h]; exact h2
  | cons p ts1 ih =>
    intro s h h2
    obtain ⟨t, v⟩ := p
    obtain ⟨w, a, s', rfl, h1, h3, h4, h5⟩ := reads_cons_inv h
    exact Reads.cons w a s' y t v _ h1 h3 h4 (ih h5 h2)

theorem reads_split {ts1 ts2 : List Tok} : ∀ {s : Bytes}, Reads o s (ts1 ++ ts2) y →
    ∃ x, Reads o s ts1 x ∧ Reads o x ts2 y := by
  induction ts1 with
  | nil => intro s h; exact ⟨s, Reads.nil s, h⟩
  | cons p ts1 ih =>
    intro s h
    obtain ⟨t, v⟩ := p
    obtain ⟨w, a, s', rfl, h1, h3, h4, h5⟩ := reads_cons_inv h
    obtain ⟨x, h6, h7⟩ := ih h5
    exact ⟨x, Reads.cons w a s' x t v _ h1 h3 h4 h6, h7⟩

theorem reads_ne_nil (h : Reads o s (p :: ts) y) : s ≠ [] := by
  obtain ⟨t, v⟩ := p
  obtain ⟨w, a, s', rfl, _, h3, _, _⟩ := reads_cons_inv h
  obtain ⟨c, a', rfl, _, _⟩ := lexeme_head h3
  simp

theorem reads_suffix : ∀ {s : Bytes}, Reads o s ts y → y <:+ s := by
  induction ts with
  | nil => intro s h; rw [reads_nil_inv h]; exact List.suffix_refl _
  | cons p ts ih =>
    intro s h
    obtain ⟨t, v⟩ := p
    obtain ⟨w, a, s', rfl, _, _, _, h5⟩ := reads_cons_inv h
    exact (ih h5).trans (List.suffix_append _ _)

/-- no lookahead, and `s` to come -/
def Ready (o : ROpts) (s : Bytes) (r : Reader) : Prop := ∃ b, Soft o s b r

/-- the token `t` with text `v` looked ahead at, and `s` to come -/
structure Ahead (o : ROpts) (t : Token) (v : Option Bytes) (s : Bytes) (r : Reader) : Prop where
  tok : r.tok = t
  type : t.type ≠ .noToken
  text : ∀ x, v = some x → r.buf = x
  soft : Soft o s r.buf { r with tok := ⟨.noToken, .none⟩ }

/-- The reader will deliver the tokens `ts` and then be at `y`. -/
def Fed (o : ROpts) (ts : List Tok) (y : Bytes) (r : Reader) : Prop :=
  (∃ s, Ready o s r ∧ Reads o s ts y) ∨
    ∃ t v ts' s, ts = (t, v) :: ts' ∧ Ahead o t v s r ∧ Reads o s ts' y

/-- the same, with no token looked ahead at -/
def FedR (o : ROpts) (ts : List Tok) (y : Bytes) (r : Reader) : Prop := ∃ s, Ready o s r ∧ Reads o s ts y

theorem FedR.fed (h : FedR o ts y r) : Fed o ts y r := Or.inl h

theorem FedR.open (h : Reads o s ts y) : FedR o ts y (Reader.open o s) := ⟨s, ⟨[], (At.open o s).soft⟩, h⟩

theorem lex_ready (h : Ready o s r) (hr : Reads o s ((t, v) :: ts) y) :
    (lexToken r).1 = t ∧ (lexToken r).2.ub = false ∧ r.tok.type = .noToken ∧ t.type ≠ .noToken ∧
      ∃ s', Soft o s' (lexToken r).2.buf (lexToken r).2 ∧ Reads o s' ts y ∧ (∀ x, v = some x → (lexToken r).2.buf = x) := by
  obtain ⟨b, h⟩ := h
  have hat := h.at (reads_ne_nil hr)
  obtain ⟨w, a, s', rfl, h1, h3, h4, h5⟩ := reads_cons_inv hr
  have hl := lex_complete h1 h3 h4 hat
  refine ⟨hl.1, hl.2.ub, by rw [h.tok], (lexeme_type h3).1, s', ?_, h5, ?_⟩
  · have := hl.2
    rw [hl.2.buf]
    exact hl.2
  · intro x hx
    rw [hl.2.buf, hx]; rfl

theorem Fed.next (h : Fed o ((t, v) :: ts) y r) :
    ∃ r', r.nextToken = .ok (t, r') ∧ FedR o ts y r' ∧ (∀ x, v = some x → r'.buf = x) := by
  rcases h with ⟨s, h1, h2⟩ | ⟨t', v', ts', s, he, h1, h2⟩
  · obtain ⟨e1, e2, e3, _, s', hs, hr, hx⟩ := lex_ready h1 h2
    refine ⟨(lexToken r).2, ?_, ⟨s', ⟨_, hs⟩, hr⟩, hx⟩
    unfold Reader.nextToken
    rw [if_pos e3]
    unfold Reader.checked
    rw [e2, ← e1]; rfl
  · injection he with he1 he2
    injection he1 with he3 he4
    subst he3; subst he4; subst he2
    refine ⟨{ r with tok := ⟨.noToken, .none⟩ }, ?_, ⟨s, ⟨_, h1.soft⟩, h2⟩, h1.text⟩
    unfold Reader.nextToken
    rw [if_neg (by rw [h1.tok]; exact h1.type), h1.tok]

theorem Fed.peek (h : Fed o ((t, v) :: ts) y r) :
    ∃ r', r.peekToken = .ok (t, r') ∧ Fed o ((t, v) :: ts) y r' ∧ ∃ s, Ahead o t v s r' ∧ Reads o s ts y := by
  rcases h with ⟨s, h1, h2⟩ | ⟨t', v', ts', s, he, h1, h2⟩
  · obtain ⟨e1, e2, e3, e4, s', hs, hr, hx⟩ := lex_ready h1 h2
    have hahead : Ahead o t v s' { (lexToken r).2 with tok := (lexToken r).1 } := by
      refine ⟨e1, e4, hx, ?_⟩
      have : ({ ({ (lexToken r).2 with tok := (lexToken r).1 } : Reader) with tok := ⟨.noToken, .none⟩ } : Reader)
        = (lexToken r).2 := by
        have := hs.tok
        cases hq : (lexToken r).2 with
        | mk a1 a2 a3 a4 a5 a6 a7 a8 a9 a10 => rw [hq] at this; simp at this; simp [this]
      rw [this]
      exact hs
    refine ⟨_, ?_, Or.inr ⟨t, v, ts, s', rfl, hahead, hr⟩, s', hahead, hr⟩
    unfold Reader.peekToken
    rw [if_pos e3]
    unfold Reader.checked
    rw [e2, ← e1]; rfl
  · injection he with he1 he2
    injection he1 with he3 he4
    subst he3; subst he4; subst he2
    refine ⟨r, ?_, Or.inr ⟨t, v, ts, s, rfl, h1, h2⟩, s, h1, h2⟩
    unfold Reader.peekToken
    rw [if_neg (by rw [h1.tok]; exact h1.type), h1.tok]

theorem soft_ok (h : Soft o s b r) (hs : s ≠ []) : r.ok = true := (h.at hs).ok

theorem Ahead.ok (h : Ahead o t v s r) (hs : s ≠ []) : r.ok = true :=
  soft_ok (r := { r with tok := ⟨.noToken, .none⟩ }) h.soft hs

theorem reads_ne_nil' (h : Reads o s ts y) (hy : ts ≠ [] ∨ y ≠ []) : s ≠ [] := by
  cases ts with
  | nil =>
    rw [reads_nil_inv h]
    rcases hy with hy | hy
    · exact absurd rfl hy
    · exact hy
  | cons p ts => exact reads_ne_nil h

theorem FedR.ok (h : FedR o ts y r) (hy : ts ≠ [] ∨ y ≠ []) : r.ok = true := by
  obtain ⟨s, ⟨b, h1⟩, h2⟩ := h
  exact soft_ok h1 (reads_ne_nil' h2 hy)

theorem Fed.ok {p : Tok} (h : Fed o (p :: ts) y r) (hy : ts ≠ [] ∨ y ≠ []) : r.ok = true := by
  rcases h with h | ⟨t', v', ts', s, he, h1, h2⟩
  · exact FedR.ok h (Or.inl (by simp))
  · injection he with he1 he2
    subst he2
    exact h1.ok (reads_ne_nil' h2 hy)

theorem FedR.err (h : FedR o ts y r) : r.err = none := by
  obtain ⟨s, ⟨b, h1⟩, _⟩ := h
  exact h1.err

theorem FedR.rest (h : FedR o [] y r) : r.rest = y := by
  obtain ⟨s, ⟨b, h1⟩, h2⟩ := h
  rw [h1.rest, reads_nil_inv h2]

theorem Fed.expect (h : Fed o ((t, v) :: ts) y r) {x : TokType} (hx : t.type = x) :
    ∃ r', r.expectToken x = .ok (t, r') ∧ FedR o ts y r' ∧ (∀ x, v = some x → r'.buf = x) := by
  obtain ⟨r', h1, h2, h3⟩ := h.next
  refine ⟨r', ?_, h2, h3⟩
  unfold Reader.expectToken
  rw [h1]
  show (r'.mayAssert t x >>= _) = _
  rw [mayAssert_eq r' hx]
  show Except.ok _ = _
  unfold Reader.assertToken
  rw [if_pos hx]; rfl

theorem assertToken_eq (r : Reader) (hx : t.type = x) : (r.assertToken t x).2 = r := by
  unfold Reader.assertToken; rw [if_pos hx]

theorem FedR.expect (h : FedR o ((t, v) :: ts) y r) {x : TokType} (hx : t.type = x) :
    ∃ r', r.expectToken x = .ok (t, r') ∧ FedR o ts y r' ∧ (∀ x, v = some x → r'.buf = x) := h.fed.expect hx

/-- Reading a `:` leaves the buffer alone. -/
theorem FedR.expect_colon (h : FedR o (Tok.colon :: ts) y r) :
    ∃ r', r.expectToken .keySeparator = .ok (⟨.keySeparator, .none⟩, r') ∧ FedR o ts y r' ∧ r'.buf = r.buf := by
  obtain ⟨s, ⟨b, h1⟩, h2⟩ := h
  have hat := h1.at (reads_ne_nil h2)
  obtain ⟨w, a, s', rfl, g1, g3, g4, g5⟩ := reads_cons_inv h2
  have hl := lex_complete g1 g3 g4 hat
  refine ⟨(lexToken r).2, ?_, ⟨s', ⟨_, hl.2⟩, g5⟩, ?_⟩
  · unfold Reader.expectToken Reader.nextToken
    rw [if_pos (by rw [h1.tok])]
    unfold Reader.checked
    rw [hl.2.ub]
    show ((lexToken r).2.mayAssert (lexToken r).1 _ >>= _) = _
    rw [mayAssert_eq _ (by rw [hl.1])]
    show Except.ok _ = _
    unfold Reader.assertToken
    rw [hl.1]; rfl
  · rw [hl.2.buf, hat.buf]; rfl

/-! ### The loops -/

variable {α σ : Type}

theorem arrLoop_fed {fn : Nat → σ → Reader → Res (σ × Reader)} {tk : α → List Tok}
    {I : List α → σ → Prop} : ∀ (xs : List α) (n i : Nat) (a : σ) (r : Reader),
    (∀ x xs' i a r ts, (x :: xs') <:+ xs → I (x :: xs') a → ts ≠ [] → Fed o (tk x ++ ts) y r →
      ∃ a' r', fn i a r = .ok (a', r') ∧ FedR o ts y r' ∧ I xs' a') →
    (∀ x ∈ xs, tk x ≠ []) → xs ≠ [] → xs.length ≤ n → I xs a →
    Fed o (commas (xs.map tk) ++ Tok.rbrack :: ts) y r →
    ∃ a' r', arrLoop fn n i a r = .ok (a', r') ∧ FedR o ts y r' ∧ I [] a' := by
  intro xs
  induction xs with
  | nil => intro n i a r _ _ hne; exact absurd rfl hne
  | cons x xs ih =>
    intro n i a r hfn htk _ hn hI hf
    obtain ⟨n, rfl⟩ : ∃ k, n = k + 1 := ⟨n - 1, by simp at hn; omega⟩
    unfold arrLoop
    cases xs with
    | nil =>
      simp only [List.map_cons, List.map_nil, commas] at hf
      obtain ⟨p, l, hp⟩ : ∃ p l, tk x = p :: l := by
        cases hh : tk x with
        | nil => exact absurd hh (htk x (by simp))
        | cons p l => exact ⟨p, l, rfl⟩
      have hok : r.ok = true := by
        rw [hp] at hf; exact Fed.ok hf (Or.inl (by simp))
      rw [if_pos hok]
      obtain ⟨a', r', e1, e2, e3⟩ := hfn x [] i a r _ (List.suffix_refl _) hI (by simp) hf
      obtain ⟨r2, e4, e5, _⟩ := Fed.next e2.fed
      refine ⟨a', r2, ?_, e5, e3⟩
      rw [e1]
      show (r'.nextToken >>= _) = _
      rw [e4]
      rfl
    | cons x2 xs =>
      simp only [List.map_cons, commas] at hf
      rw [List.append_assoc] at hf
      obtain ⟨p, l, hp⟩ : ∃ p l, tk x = p :: l := by
        cases hh : tk x with
        | nil => exact absurd hh (htk x (by simp))
        | cons p l => exact ⟨p, l, rfl⟩
      have hok : r.ok = true := by
        rw [hp] at hf; exact Fed.ok hf (Or.inl (by simp))
      rw [if_pos hok]
      obtain ⟨a', r', e1, e2, e3⟩ := hfn x (x2 :: xs) i a r _ (List.suffix_refl _) hI (by simp) hf
      obtain ⟨r2, e4, e5, _⟩ := Fed.next e2.fed
      obtain ⟨a3, r3, e6, e7, e8⟩ := ih n (i + 1) a' r2
        (fun x xs' i a r ts hs => hfn x xs' i a r ts (hs.trans (List.suffix_cons _ _)))
        (fun z hz => htk z (by simp at hz ⊢; exact Or.inr hz)) (by simp) (by simpa using hn) e3
        (by simpa using e5.fed)
      refine ⟨a3, r3, ?_, e7, e8⟩
      rw [e1]
      show (r'.nextToken >>= _) = _
      rw [e4]
      rw [okb]
      rw [if_neg (by simp)]
      show arrLoop fn n (i + 1) a' (r2.assertToken _ .separator).2 = _
      rw [assertToken_eq r2 rfl]
      exact e6

theorem objLoop_fed {fn : Bytes → σ → Reader → Res (σ × Reader)} {key : α → Bytes} {tk : α → List Tok}
    {I : List α → σ → Prop} : ∀ (xs : List α) (n : Nat) (a : σ) (r : Reader),
    (∀ x xs' a r ts, (x :: xs') <:+ xs → I (x :: xs') a → ts ≠ [] → FedR o (tk x ++ ts) y r →
      ∃ a' r', fn (key x) a r = .ok (a', r') ∧ FedR o ts y r' ∧ I xs' a') →
    xs ≠ [] → xs.length ≤ n → I xs a →
    Fed o (commas (xs.map fun x => Tok.str (key x) :: Tok.colon :: tk x) ++ Tok.rbrace :: ts) y r →
    ∃ a' r', objLoop fn n a r = .ok (a', r') ∧ FedR o ts y r' ∧ I [] a' := by
  intro xs
  induction xs with
  | nil => intro n a r _ hne; exact absurd rfl hne
  | cons x xs ih =>
    intro n a r hfn _ hn hI hf
    obtain ⟨n, rfl⟩ : ∃ k, n = k + 1 := ⟨n - 1, by simp at hn; omega⟩
    unfold objLoop
    -- the member itself
    have member : ∀ (zs : List Tok), zs ≠ [] → Fed o (Tok.str (key x) :: Tok.colon :: (tk x ++ zs)) y r →
        ∃ p q a' r', r.expectToken .string = .ok p ∧ p.1.asString p.2 = .ok (key x) ∧
          p.2.expectToken .keySeparator = .ok q ∧ fn q.2.buf a q.2 = .ok (a', r') ∧ FedR o zs y r' ∧ I xs a' := by
      intro zs hzs hf
      obtain ⟨r1, e1, e2, e3⟩ := hf.expect (x := .string) rfl
      obtain ⟨r2, e4, e5, e6⟩ := FedR.expect_colon e2
      have hb : r1.buf = key x := e3 _ rfl
      obtain ⟨a', r', e7, e8, e9⟩ := hfn x xs a r2 zs (List.suffix_refl _) hI hzs e5
      refine ⟨_, _, a', r', e1, ?_, e4, ?_, e8, e9⟩
      · show (if _ then _ else _) = _
        rw [if_pos rfl, hb]
      · show fn r2.buf a r2 = _
        rw [e6, hb]; exact e7
    cases xs with
    | nil =>
      simp only [List.map_cons, List.map_nil, commas] at hf
      have hok : r.ok = true := Fed.ok hf (Or.inl (by simp))
      rw [if_pos hok]
      obtain ⟨p, q, a', r', e1, e2, e3, e4, e5, e6⟩ := member _ (by simp) hf
      obtain ⟨r2, e7, e8, _⟩ := Fed.next e5.fed
      refine ⟨a', r2, ?_, e8, e6⟩
      rw [e1]
      show (p.1.asString p.2 >>= _) = _
      rw [e2]
      show (p.2.expectToken _ >>= _) = _
      rw [e3]
      show (fn q.2.buf a q.2 >>= _) = _
      rw [e4]
      show (r'.nextToken >>= _) = _
      rw [e7]
      rfl
    | cons x2 xs =>
      simp only [List.map_cons, commas] at hf
      rw [List.append_assoc] at hf
      have hok : r.ok = true := Fed.ok hf (Or.inl (by simp))
      rw [if_pos hok]
      obtain ⟨p, q, a', r', e1, e2, e3, e4, e5, e6⟩ := member (Tok.comma :: _) (by simp) hf
      obtain ⟨r2, e7, e8, _⟩ := Fed.next e5.fed
      obtain ⟨a3, r3, e9, e10, e11⟩ := ih n a' r2
        (fun x xs' a r ts hs => hfn x xs' a r ts (hs.trans (List.suffix_cons _ _)))
        (by simp) (by simpa using hn) e6 (by simpa using e8.fed)
      refine ⟨a3, r3, ?_, e10, e11⟩
      rw [e1]
      show (p.1.asString p.2 >>= _) = _
      rw [e2]
      show (p.2.expectToken _ >>= _) = _
      rw [e3]
      show (fn q.2.buf a q.2 >>= _) = _
      rw [e4]
      show (r'.nextToken >>= _) = _
      rw [e7]
      rw [okb]
      rw [if_neg (by simp)]
      show objLoop fn n a' (r2.assertToken _ .separator).2 = _
      rw [assertToken_eq r2 rfl]
      exact e9

theorem commas_head {xs : List (List Tok)} (h : xs ≠ []) (hx : ∀ x ∈ xs, x ≠ []) :
    ∃ p l x l2, commas xs = p :: l ∧ xs = x :: l2 ∧ x.head? = some p := by
  cases xs with
  | nil => exact absurd rfl h
  | cons x xs =>
    obtain ⟨p, l, hp⟩ : ∃ p l, x = p :: l := by
      cases x with
      | nil => exact absurd rfl (hx _ (by simp))
      | cons p l => exact ⟨p, l, rfl⟩
    subst hp
    cases xs with
    | nil => exact ⟨p, l, _, _, rfl, rfl, rfl⟩
    | cons y xs => exact ⟨p, l ++ Tok.comma :: commas (y :: xs), _, _, by simp only [commas, List.cons_append], rfl, rfl⟩

theorem parseArray_fed {fn : Nat → σ → Reader → Res (σ × Reader)} {tk : α → List Tok}
    {I : List α → σ → Prop} (xs : List α) (n : Nat) (a : σ) (r : Reader)
    (hfn : ∀ x xs' i a r ts, (x :: xs') <:+ xs → I (x :: xs') a → ts ≠ [] → Fed o (tk x ++ ts) y r →
      ∃ a' r', fn i a r = .ok (a', r') ∧ FedR o ts y r' ∧ I xs' a')
    (htk : ∀ x ∈ xs, ∃ p l, tk x = p :: l ∧ p.1.type ≠ .arrayEnd) (hn : xs.length ≤ n) (hI : I xs a)
    (hf : Fed o (Tok.lbrack :: (commas (xs.map tk) ++ Tok.rbrack :: ts)) y r) :
    ∃ a' r', parseArray fn n a r = .ok (a', r') ∧ FedR o ts y r' ∧ I [] a' := by
  unfold parseArray
  obtain ⟨r1, e1, e2, _⟩ := hf.next
  rw [e1]
  rw [okb]
  rw [if_neg (by simp)]
  show ∃ a' r', ((r1.assertToken _ .arrayStart).2.peekToken >>= _) = _ ∧ _
  rw [assertToken_eq r1 rfl]
  by_cases hxs : xs = []
  · subst hxs
    obtain ⟨r2, e3, e4, _⟩ := Fed.peek e2.fed
    rw [e3]
    rw [okb]
    rw [if_pos rfl]
    obtain ⟨r3, e5, e6, _⟩ := e4.expect (x := .arrayEnd) rfl
    show ∃ a' r', (r2.expectToken .arrayEnd >>= _) = _ ∧ _
    rw [e5]
    exact ⟨a, r3, rfl, e6, hI⟩
  · obtain ⟨⟨t0, v0⟩, l, x, l2, hc, hx1, hx2⟩ := commas_head (xs := xs.map tk) (by simpa using hxs) (by
      intro z hz
      obtain ⟨x, hx, rfl⟩ := List.mem_map.mp hz
      obtain ⟨p, l, e, _⟩ := htk x hx
      rw [e]; simp)
    have hp : t0.type ≠ .arrayEnd := by
      have : x ∈ xs.map tk := by rw [hx1]; simp
      obtain ⟨x', hx', rfl⟩ := List.mem_map.mp this
      obtain ⟨p', l', e, hp'⟩ := htk x' hx'
      rw [e] at hx2
      simp at hx2
      rw [hx2] at hp'; exact hp'
    have e2' := e2.fed
    rw [hc] at e2'
    obtain ⟨r2, e3, e4, _⟩ := Fed.peek e2'
    have e4' : Fed o (commas (xs.map tk) ++ Tok.rbrack :: ts) y r2 := by
      rw [hc]; exact e4
    rw [e3]
    rw [okb]
    rw [if_neg hp]
    exact arrLoop_fed xs n 0 a r2 hfn (fun x hx => by
      obtain ⟨p, l, e, _⟩ := htk x hx
      rw [e]; simp) hxs hn hI e4'

theorem parseObject_fed {fn : Bytes → σ → Reader → Res (σ × Reader)} {key : α → Bytes} {tk : α → List Tok}
    {I : List α → σ → Prop} (xs : List α) (n : Nat) (a : σ) (r : Reader)
    (hfn : ∀ x xs' a r ts, (x :: xs') <:+ xs → I (x :: xs') a → ts ≠ [] → FedR o (tk x ++ ts) y r →
      ∃ a' r', fn (key x) a r = .ok (a', r') ∧ FedR o ts y r' ∧ I xs' a')
    (hn : xs.length ≤ n) (hI : I xs a)
    (hf : Fed o (Tok.lbrace :: (commas (xs.map fun x => Tok.str (key x) :: Tok.colon :: tk x) ++ Tok.rbrace :: ts)) y r) :
    ∃ a' r', parseObject fn n a r = .ok (a', r') ∧ FedR o ts y r' ∧ I [] a' := by
  unfold parseObject
  obtain ⟨r1, e1, e2, _⟩ := hf.next
  rw [e1]
  rw [okb]
  rw [if_neg (by simp)]
  show ∃ a' r', ((r1.assertToken _ .objectStart).2.peekToken >>= _) = _ ∧ _
  rw [assertToken_eq r1 rfl]
  by_cases hxs : xs = []
  · subst hxs
    obtain ⟨r2, e3, e4, _⟩ := Fed.peek e2.fed
    rw [e3]
    rw [okb]
    rw [if_pos rfl]
    obtain ⟨r3, e5, e6, _⟩ := e4.expect (x := .objectEnd) rfl
    show ∃ a' r', (r2.expectToken .objectEnd >>= _) = _ ∧ _
    rw [e5]
    exact ⟨a, r3, rfl, e6, hI⟩
  · obtain ⟨⟨t0, v0⟩, l, x, l2, hc, hx1, hx2⟩ := commas_head
      (xs := xs.map fun x => Tok.str (key x) :: Tok.colon :: tk x) (by simpa using hxs) (by
      intro z hz
      obtain ⟨x, hx, rfl⟩ := List.mem_map.mp hz
      simp)
    have hp : t0.type ≠ .objectEnd := by
      have : x ∈ xs.map fun x => Tok.str (key x) :: Tok.colon :: tk x := by rw [hx1]; simp
      obtain ⟨x', hx', rfl⟩ := List.mem_map.mp this
      simp [Tok.str] at hx2
      rw [← hx2.1]; decide
    have e2' := e2.fed
    rw [hc] at e2'
    obtain ⟨r2, e3, e4, _⟩ := Fed.peek e2'
    have e4' : Fed o (commas (xs.map fun x => Tok.str (key x) :: Tok.colon :: tk x) ++ Tok.rbrace :: ts) y r2 := by
      rw [hc]; exact e4
    rw [e3]
    rw [okb]
    rw [if_neg hp]
    exact objLoop_fed xs n a r2 hfn hxs hn hI e4'

/-! ### Skipping -/

theorem toks_head (x : JTree) : ∃ p l, x.toks = p :: l ∧ p.1.type ≠ .arrayEnd := by
  cases x <;> exact ⟨_, _, rfl, TokType.noConfusion⟩

theorem elems_map (xs : List JTree) : JTree.elems xs = xs.map JTree.toks := by
  induction xs with
  | nil => rfl
  | cons x xs ih => simp [JTree.elems, ih]

theorem members_map (ms : List (Bytes × JTree)) :
    JTree.members ms = ms.map fun m => Tok.str m.1 :: Tok.colon :: m.2.toks := by
  induction ms with
  | nil => rfl
  | cons x xs ih => obtain ⟨k, x⟩ := x; simp [JTree.members, ih]

theorem commas_length : ∀ (xs : List (List Tok)), (∀ x ∈ xs, x ≠ []) →
    xs.length ≤ (commas xs).length ∧ ∀ x ∈ xs, x.length ≤ (commas xs).length := by
  intro xs
  induction xs with
  | nil => intro _; simp [commas]
  | cons x xs ih =>
    intro h
    have hx : 0 < x.length := List.length_pos_iff.mpr (h x (by simp))
    cases xs with
    | nil => simp [commas]; omega
    | cons y xs =>
      have := ih (fun z hz => h z (by simp at hz ⊢; exact Or.inr hz))
      simp only [commas, List.length_append, List.length_cons] at this ⊢
      refine ⟨by omega, ?_⟩
      intro z hz
      simp only [List.mem_cons] at hz
      rcases hz with rfl | hz
      · omega
      · have := this.2 z (by simpa using hz)
        omega

theorem skip_fed : ∀ (n : Nat) (x : JTree) (r : Reader) (ts : List Tok), x.toks.length ≤ n →
    ((∀ xs, x ≠ .arr xs) → (∀ ms, x ≠ .obj ms) → ts ≠ [] ∨ y ≠ []) → Fed o (x.toks ++ ts) y r → ∃ r', skip (n + 1) r = .ok r' ∧ FedR o ts y r' := by
  intro n
  induction n with
  | zero =>
    intro x r ts hn
    obtain ⟨p, l, e, _⟩ := toks_head x
    rw [e] at hn; simp at hn
  | succ n ih =>
    intro x r ts hn hy hf
    unfold skip
    have scalar : (ts ≠ [] ∨ y ≠ []) → ∀ (t : Token) (v : Option Bytes), Fed o ((t, v) :: ts) y r →
        ∃ r1 r', r.peekToken = .ok (t, r1) ∧ r1.ok = true ∧ r1.nextToken = .ok (t, r') ∧ FedR o ts y r' := by
      intro hy t v hf
      obtain ⟨r1, e1, e2, _⟩ := hf.peek
      obtain ⟨r2, e4, e5, _⟩ := e2.next
      exact ⟨r1, r2, e1, Fed.ok e2 hy, e4, e5⟩
    cases x with
    | null =>
      obtain ⟨r1, r2, e1, e2, e3, e4⟩ := scalar (hy (fun _ => JTree.noConfusion) (fun _ => JTree.noConfusion)) _ _ hf
      refine ⟨r2, ?_, e4⟩
      rw [e1]
      show (if r1.ok = true then _ else _) = _
      rw [if_pos e2]
      show (r1.nextToken >>= _) = _
      rw [e3]; rfl
    | bool b =>
      obtain ⟨r1, r2, e1, e2, e3, e4⟩ := scalar (hy (fun _ => JTree.noConfusion) (fun _ => JTree.noConfusion)) _ _ hf
      refine ⟨r2, ?_, e4⟩
      rw [e1]
      show (if r1.ok = true then _ else _) = _
      rw [if_pos e2]
      show (r1.nextToken >>= _) = _
      rw [e3]; rfl
    | int b =>
      obtain ⟨r1, r2, e1, e2, e3, e4⟩ := scalar (hy (fun _ => JTree.noConfusion) (fun _ => JTree.noConfusion)) _ _ hf
      refine ⟨r2, ?_, e4⟩
      rw [e1]
      show (if r1.ok = true then _ else _) = _
      rw [if_pos e2]
      show (r1.nextToken >>= _) = _
      rw [e3]; rfl
    | float b =>
      obtain ⟨r1, r2, e1, e2, e3, e4⟩ := scalar (hy (fun _ => JTree.noConfusion) (fun _ => JTree.noConfusion)) _ _ hf
      refine ⟨r2, ?_, e4⟩
      rw [e1]
      show (if r1.ok = true then _ else _) = _
      rw [if_pos e2]
      show (r1.nextToken >>= _) = _
      rw [e3]; rfl
    | str b =>
      obtain ⟨r1, r2, e1, e2, e3, e4⟩ := scalar (hy (fun _ => JTree.noConfusion) (fun _ => JTree.noConfusion)) _ _ hf
      refine ⟨r2, ?_, e4⟩
      rw [e1]
      show (if r1.ok = true then _ else _) = _
      rw [if_pos e2]
      show (r1.nextToken >>= _) = _
      rw [e3]; rfl
    | arr xs =>
      simp only [JTree.toks, elems_map, List.cons_append, List.append_assoc] at hf hn
      have hlen := commas_length (xs.map JTree.toks) (by
        intro z hz
        obtain ⟨x, _, rfl⟩ := List.mem_map.mp hz
        obtain ⟨p, l, e, _⟩ := toks_head x
        rw [e]; simp)
      simp only [List.length_cons, List.length_append, List.length_map, List.length_nil] at hn hlen
      obtain ⟨r1, e1, e2, _⟩ := Fed.peek hf
      rw [e1]
      have hok : r1.ok = true := Fed.ok e2 (Or.inl (by simp))
      show ∃ r', (if r1.ok = true then _ else _) = _ ∧ _
      rw [if_pos hok]
      obtain ⟨a', r', e3, e4, _⟩ := parseArray_fed (fn := fun _ (_ : Unit) r => do .ok ((), ← skip (n + 1) r))
        (tk := JTree.toks) (I := fun _ _ => True) xs (n + 1) () r1 (by
          intro x xs' i a r ts hs _ hts hf
          have hx : x ∈ xs := hs.subset (by simp)
          obtain ⟨r', h1, h2⟩ := ih x r ts (by
            have := hlen.2 x.toks (List.mem_map.mpr ⟨x, hx, rfl⟩)
            omega) (fun _ _ => Or.inl hts) hf
          refine ⟨(), r', ?_, h2, trivial⟩
          show (skip (n + 1) r >>= _) = _
          rw [h1]; rfl) (fun x _ => toks_head x) (by omega) trivial e2
      refine ⟨r', ?_, e4⟩
      show (parseArray _ _ _ _ >>= _) = _
      rw [e3]; rfl
    | obj ms =>
      simp only [JTree.toks, members_map, List.cons_append, List.append_assoc] at hf hn
      have hlen := commas_length (ms.map fun m => Tok.str m.1 :: Tok.colon :: m.2.toks) (by
        intro z hz
        obtain ⟨x, _, rfl⟩ := List.mem_map.mp hz
        simp)
      simp only [List.length_cons, List.length_append, List.length_map, List.length_nil] at hn hlen
      obtain ⟨r1, e1, e2, _⟩ := Fed.peek hf
      rw [e1]
      have hok : r1.ok = true := Fed.ok e2 (Or.inl (by simp))
      show ∃ r', (if r1.ok = true then _ else _) = _ ∧ _
      rw [if_pos hok]
      obtain ⟨a', r', e3, e4, _⟩ := parseObject_fed (fn := fun _ (_ : Unit) r => do .ok ((), ← skip (n + 1) r))
        (key := Prod.fst) (tk := fun m : Bytes × JTree => m.2.toks) (I := fun _ _ => True) ms (n + 1) () r1 (by
          intro x xs' a r ts hs _ hts hf
          have hx : x ∈ ms := hs.subset (by simp)
          obtain ⟨r', h1, h2⟩ := ih x.2 r ts (by
            have := hlen.2 _ (List.mem_map.mpr ⟨x, hx, rfl⟩)
            simp only [List.length_cons] at this
            omega) (fun _ _ => Or.inl hts) hf.fed
          refine ⟨(), r', ?_, h2, trivial⟩
          show (skip (n + 1) r >>= _) = _
          rw [h1]; rfl) (by omega) trivial e2
      refine ⟨r', ?_, e4⟩
      show (parseObject _ _ _ _ >>= _) = _
      rw [e3]; rfl

end Reflect.Json

import Verif.Lemmas.Json.SoundV
import Verif.Lemmas.Json.GraphFrame
/- What ends without an error has read exactly the tokens of one document, for the parsers on shared objects. -/
namespace Reflect.Json

variable {o : ROpts} {ts : List Tok} {y : Bytes} {r : Reader}

/-- Fed the tokens of `x` and something more, `f` has read those of `x` if it ends without an error. -/
def Eats {β : Type} (x : JTree) (f : Reader → Res (β × Reader)) : Prop :=
  ∀ (o : ROpts) (ts : List Tok) (y : Bytes) (r : Reader) (q : β × Reader), ts ≠ [] → Fed o (x.toks ++ ts) y r →
    f r = .ok q → q.2.err = none → FedR o ts y q.2

/-- `f` was called where `x` was to be read, and ended without an error. -/
def Took {β : Type} (o : ROpts) (y : Bytes) (x : JTree) (f : Reader → Res (β × Reader)) : Prop :=
  ∃ ts r q, ts ≠ [] ∧ Fed o (x.toks ++ ts) y r ∧ f r = .ok q ∧ q.2.err = none

/-! ### scalars -/

theorem next_det {t : Token} {v : Option Bytes} {p : Token × Reader} (h : Fed o ((t, v) :: ts) y r)
    (hp : r.nextToken = .ok p) : p.1 = t ∧ FedR o ts y p.2 := by
  obtain ⟨r', h1, h2, _⟩ := h.next
  rw [h1] at hp; cases hp
  exact ⟨rfl, h2⟩

theorem peek_det {t : Token} {v : Option Bytes} {p : Token × Reader} (h : Fed o ((t, v) :: ts) y r)
    (hp : r.peekToken = .ok p) : p.1 = t ∧ Fed o ((t, v) :: ts) y p.2 := by
  obtain ⟨r', h1, h2, _⟩ := h.peek
  rw [h1] at hp; cases hp
  exact ⟨rfl, h2⟩

/-- the type of the first token of a scalar tells that there is no other -/
theorem toks_scalar (x : JTree) (t : TokType) (ht : t = .null ∨ t = .bool ∨ t = .int ∨ t = .float ∨ t = .string)
    {p : Tok} {l : List Tok} (hx : x.toks = p :: l) (hp : p.1.type = t) : l = [] := by
  cases x <;> simp only [JTree.toks, List.cons.injEq] at hx <;> obtain ⟨rfl, rfl⟩ := hx <;> first
    | rfl
    | (exfalso; revert hp; rcases ht with rfl | rfl | rfl | rfl | rfl <;> exact TokType.noConfusion)

theorem expect_eats (x : JTree) (t : TokType) (ht : t = .null ∨ t = .bool ∨ t = .int ∨ t = .float ∨ t = .string)
    {p : Token × Reader} (h : Fed o (x.toks ++ ts) y r) (hp : r.expectToken t = .ok p) (he : p.2.err = none) :
    FedR o ts y p.2 := by
  obtain ⟨h1, h2⟩ := expect_err hp he
  obtain ⟨⟨t', v⟩, l, hx, _⟩ := toks_head x
  rw [hx, List.cons_append] at h
  obtain ⟨e1, e2⟩ := next_det h h1
  have := toks_scalar x t ht hx (by rw [← h2, e1])
  rw [this] at e2
  exact e2

theorem parseBool_eats (x : JTree) : Eats x parseBool := by
  intro o ts y r q _ h hq he
  unfold parseBool at hq
  obtain ⟨p, hp, hq⟩ := bind_ok hq
  obtain ⟨b, hb, hq⟩ := bind_ok hq
  injection hq with hq; subst hq
  exact expect_eats x .bool (by simp) h hp he

theorem parseNull_eats (x : JTree) : Eats x (fun r => (parseNull r).map fun q => ((), q)) := by
  intro o ts y r q _ h hq he
  dsimp only at hq
  unfold parseNull at hq
  cases hp : r.expectToken .null with
  | error e => rw [hp] at hq; cases hq
  | ok p =>
    rw [hp, okb] at hq
    cases hq
    exact expect_eats x .null (by simp) h hp he

theorem parseInt_eats (x : JTree) : Eats x parseInt := by
  intro o ts y r q _ h hq he
  unfold parseInt at hq
  obtain ⟨p, hp, hq⟩ := bind_ok hq
  obtain ⟨b, hb, hq⟩ := bind_ok hq
  injection hq with hq; subst hq
  exact expect_eats x .int (by simp) h hp he

theorem parseString_eats (x : JTree) : Eats x parseString := by
  intro o ts y r q _ h hq he
  unfold parseString at hq
  obtain ⟨p, hp, hq⟩ := bind_ok hq
  obtain ⟨b, hb, hq⟩ := bind_ok hq
  injection hq with hq; subst hq
  exact expect_eats x .string (by simp) h hp he

theorem parseFloat_eats (x : JTree) : Eats x parseFloatText := by
  intro o ts y r q _ h hq he
  unfold parseFloatText at hq
  obtain ⟨p, hp, hq⟩ := bind_ok hq
  obtain ⟨_, _, hq⟩ := bind_ok hq
  obtain ⟨b, hb, hq⟩ := bind_ok hq
  injection hq with hq; subst hq
  have ht : p.1.type = .float := by
    unfold Token.asFloatText at hb
    split at hb
    · assumption
    · cases hb
  have e : (if p.1.type = .int then p.2 else (p.2.assertToken p.1 .float).2) = p.2 := by
    rw [if_neg (by rw [ht]; simp), assertToken_eq _ ht]
  obtain ⟨⟨t', v⟩, l, hx, _⟩ := toks_head x
  rw [hx, List.cons_append] at h
  obtain ⟨e1, e2⟩ := next_det h hp
  have := toks_scalar x .float (by simp) hx (by rw [← ht, e1])
  rw [this] at e2
  simp only [e]
  exact e2

/-! ### loops -/

theorem arrLoop_stopped {σ : Type} {fn : Nat → σ → Reader → Res (σ × Reader)} {n i : Nat} {a : σ} {q : σ × Reader}
    (h : arrLoop fn n i a r = .ok q) (he : r.err ≠ none) : q.2.err ≠ none := by
  cases n with
  | zero => cases h
  | succ n =>
    unfold arrLoop at h
    rw [not_ok_of_err he] at h
    cases h
    exact he

theorem objLoop_stopped {σ : Type} {fn : Bytes → σ → Reader → Res (σ × Reader)} {n : Nat} {a : σ} {q : σ × Reader}
    (h : objLoop fn n a r = .ok q) (he : r.err ≠ none) : q.2.err ≠ none := by
  cases n with
  | zero => cases h
  | succ n =>
    unfold objLoop at h
    rw [not_ok_of_err he] at h
    cases h
    exact he

theorem assert_stopped {t : Token} {x : TokType} (he : r.err ≠ none) : (r.assertToken t x).2.err ≠ none := by
  intro h
  obtain ⟨_, h2⟩ := assert_err h
  rw [h2] at h
  exact he h

theorem arrLoop_eats {σ : Type} {fn : Nat → σ → Reader → Res (σ × Reader)} :
    ∀ (xs : List JTree) (n i : Nat) (a : σ) (r : Reader) (q : σ × Reader),
    (∀ x ∈ xs, ∀ i a, Eats x (fn i a)) → xs ≠ [] →
    Fed o (commas (xs.map JTree.toks) ++ Tok.rbrack :: ts) y r →
    arrLoop fn n i a r = .ok q → q.2.err = none →
    FedR o ts y q.2 ∧ ∀ x ∈ xs, ∃ i a, Took o y x (fn i a) := by
  intro xs
  induction xs with
  | nil => intro n i a r q _ hne; exact absurd rfl hne
  | cons x xs ih =>
    intro n i a r q hfn _ hf hq he
    cases n with
    | zero => cases hq
    | succ n =>
      unfold arrLoop at hq
      have hsplit : ∃ zs : List Tok, zs ≠ [] ∧ commas ((x :: xs).map JTree.toks) ++ Tok.rbrack :: ts = x.toks ++ zs ∧
          (xs = [] → zs = Tok.rbrack :: ts) ∧
          (xs ≠ [] → zs = Tok.comma :: (commas (xs.map JTree.toks) ++ Tok.rbrack :: ts)) := by
        cases xs with
        | nil => exact ⟨_, by simp, rfl, fun _ => rfl, fun h => absurd rfl h⟩
        | cons x2 xs =>
          refine ⟨Tok.comma :: (commas ((x2 :: xs).map JTree.toks) ++ Tok.rbrack :: ts), by simp, ?_, by simp, fun _ => rfl⟩
          simp [commas, List.append_assoc]
      obtain ⟨zs, hz, hs, hs1, hs2⟩ := hsplit
      rw [hs] at hf
      have hok : r.ok = true := by
        obtain ⟨p, l, hx, _⟩ := toks_head x
        rw [hx] at hf
        exact Fed.ok hf (Or.inl (by simp [hz]))
      rw [if_pos hok] at hq
      obtain ⟨c, hc, hq⟩ := bind_ok hq
      obtain ⟨e, hn, hq⟩ := bind_ok hq
      have hce : c.2.err = none := by
        apply Classical.byContradiction
        intro hce
        have h1 := next_err hn hce
        split at hq
        · cases hq; exact h1 he
        · exact arrLoop_stopped (mayAssert_bind hq).2 (assert_stopped h1) he
      have hce2 := hfn x (by simp) i a o zs y r c hz hf hc hce
      have htook : ∃ i a, Took o y x (fn i a) := ⟨i, a, zs, r, c, hz, hf, hc, hce⟩
      by_cases hxs : xs = []
      · subst hxs
        rw [hs1 rfl] at hce2
        obtain ⟨e1, e2⟩ := next_det hce2.fed hn
        rw [if_pos (by rw [e1])] at hq
        cases hq
        refine ⟨e2, ?_⟩
        intro z hz
        rw [List.mem_singleton.1 hz]
        exact htook
      · rw [hs2 hxs] at hce2
        obtain ⟨e1, e2⟩ := next_det hce2.fed hn
        rw [if_neg (by rw [e1]; exact TokType.noConfusion)] at hq
        obtain ⟨-, hq⟩ := mayAssert_bind hq
        rw [assertToken_eq _ (by rw [e1])] at hq
        obtain ⟨k1, k2⟩ := ih n (i + 1) c.1 e.2 q (fun z hz => hfn z (by simp [hz])) hxs e2.fed hq he
        refine ⟨k1, ?_⟩
        intro z hz
        rcases List.mem_cons.1 hz with rfl | hz
        · exact htook
        · exact k2 z hz

theorem objLoop_eats {σ : Type} {fn : Bytes → σ → Reader → Res (σ × Reader)} :
    ∀ (ms : List (Bytes × JTree)) (n : Nat) (a : σ) (r : Reader) (q : σ × Reader),
    (∀ m ∈ ms, ∀ a, Eats m.2 (fn m.1 a)) → ms ≠ [] →
    Fed o (commas (ms.map fun m => Tok.str m.1 :: Tok.colon :: m.2.toks) ++ Tok.rbrace :: ts) y r →
    objLoop fn n a r = .ok q → q.2.err = none →
    FedR o ts y q.2 ∧ ∀ m ∈ ms, ∃ a, Took o y m.2 (fn m.1 a) := by
  intro ms
  induction ms with
  | nil => intro n a r q _ hne; exact absurd rfl hne
  | cons m ms ih =>
    intro n a r q hfn _ hf hq he
    cases n with
    | zero => cases hq
    | succ n =>
      unfold objLoop at hq
      have hsplit : ∃ zs : List Tok, zs ≠ [] ∧
          commas ((m :: ms).map fun m => Tok.str m.1 :: Tok.colon :: m.2.toks) ++ Tok.rbrace :: ts =
            Tok.str m.1 :: Tok.colon :: (m.2.toks ++ zs) ∧
          (ms = [] → zs = Tok.rbrace :: ts) ∧
          (ms ≠ [] → zs = Tok.comma ::
            (commas (ms.map fun m => Tok.str m.1 :: Tok.colon :: m.2.toks) ++ Tok.rbrace :: ts)) := by
        cases ms with
        | nil => exact ⟨_, by simp, rfl, fun _ => rfl, fun h => absurd rfl h⟩
        | cons m2 ms =>
          refine ⟨Tok.comma :: (commas ((m2 :: ms).map fun m => Tok.str m.1 :: Tok.colon :: m.2.toks) ++ Tok.rbrace :: ts),
            by simp, ?_, by simp, fun _ => rfl⟩
          simp [commas, List.append_assoc]
      obtain ⟨zs, hz, hs, hs1, hs2⟩ := hsplit
      rw [hs] at hf
      have hok : r.ok = true := Fed.ok hf (Or.inl (by simp))
      rw [if_pos hok] at hq
      obtain ⟨p, hp, hq1⟩ := bind_ok hq
      obtain ⟨k, hk, hq2⟩ := bind_ok hq1
      obtain ⟨p2, hp2, hq3⟩ := bind_ok hq2
      obtain ⟨c, hc, hq4⟩ := bind_ok hq3
      obtain ⟨e, hn, hQ⟩ := bind_ok hq4
      clear hq hq1 hq2 hq3 hq4
      have hce : c.2.err = none := by
        apply Classical.byContradiction
        intro hce
        have h1 := next_err hn hce
        split at hQ
        · cases hQ; exact h1 he
        · exact objLoop_stopped (mayAssert_bind hQ).2 (assert_stopped h1) he
      obtain ⟨r1, d1, d2, d3⟩ := hf.expect (x := .string) rfl
      have hp' : p = (Tok.str m.1 |>.1, r1) := by rw [d1] at hp; exact (Except.ok.inj hp).symm
      subst hp'
      obtain ⟨r2, d4, d5, d6⟩ := FedR.expect_colon d2
      have hp2' : p2 = (⟨.keySeparator, .none⟩, r2) := by
        have := hp2; dsimp only at this; rw [d4] at this; exact (Except.ok.inj this).symm
      subst hp2'
      have hb : r2.buf = m.1 := by rw [d6]; exact d3 _ rfl
      simp only [hb] at hc
      have hce2 := hfn m (by simp) a o zs y r2 c hz d5.fed hc hce
      have htook : ∃ a, Took o y m.2 (fn m.1 a) := ⟨a, zs, r2, c, hz, d5.fed, hc, hce⟩
      by_cases hxs : ms = []
      · subst hxs
        rw [hs1 rfl] at hce2
        obtain ⟨e1, e2⟩ := next_det hce2.fed hn
        rw [if_pos (by rw [e1])] at hQ
        cases hQ
        refine ⟨e2, ?_⟩
        intro z hz
        rw [List.mem_singleton.1 hz]
        exact htook
      · rw [hs2 hxs] at hce2
        obtain ⟨e1, e2⟩ := next_det hce2.fed hn
        rw [if_neg (by rw [e1]; exact TokType.noConfusion)] at hQ
        replace hQ := (mayAssert_bind hQ).2
        rw [assertToken_eq _ (by rw [e1])] at hQ
        obtain ⟨k1, k2⟩ := ih n c.1 e.2 q (fun z hz => hfn z (by simp [hz])) hxs e2.fed hQ he
        refine ⟨k1, ?_⟩
        intro z hz
        rcases List.mem_cons.1 hz with rfl | hz
        · exact htook
        · exact k2 z hz

/-- `parseArray` reads one document: `null` or an array, whose elements the call-back took -/
theorem parseArray_eats {σ : Type} {fn : Nat → σ → Reader → Res (σ × Reader)} (hfn : ∀ x i a, Eats x (fn i a))
    (x : JTree) (n : Nat) (a : σ) (q : σ × Reader) (hf : Fed o (x.toks ++ ts) y r)
    (hq : parseArray fn n a r = .ok q) (he : q.2.err = none) :
    FedR o ts y q.2 ∧ ∀ xs, x = .arr xs → ∀ z ∈ xs, ∃ i a, Took o y z (fn i a) := by
  unfold parseArray at hq
  obtain ⟨p, hp, hq⟩ := bind_ok hq
  obtain ⟨⟨t, v⟩, l, hx, _⟩ := toks_head x
  have hf' := hf
  rw [hx, List.cons_append] at hf'
  obtain ⟨e1, e2⟩ := next_det hf' hp
  split at hq
  · rename_i hnull
    cases hq
    have hl := toks_scalar x .null (by simp) hx (by rw [← hnull, e1])
    rw [hl] at e2
    refine ⟨e2, ?_⟩
    rintro xs rfl
    rw [hl] at hx
    simp [JTree.toks] at hx
  · obtain ⟨-, hq⟩ := mayAssert_bind hq
    obtain ⟨w, hw, hq⟩ := bind_ok hq
    have hpe : (p.2.assertToken p.1 .arrayStart).2.err = none := by
      apply Classical.byContradiction
      intro hne
      have h1 := peek_err hw hne
      split at hq
      · obtain ⟨z, hz, hq⟩ := bind_ok hq
        cases hq
        exact expect_keeps hz h1 he
      · exact arrLoop_stopped hq h1 he
    obtain ⟨k1, k2⟩ := assert_err hpe
    rw [k2] at hw
    cases x with
    | arr xs =>
      simp only [JTree.toks, List.cons.injEq] at hx
      obtain ⟨hx1, hx2⟩ := hx
      subst hx2
      rw [elems_map] at e2
      cases xs with
      | nil =>
        simp only [List.map_nil, commas, List.nil_append, List.cons_append] at e2
        obtain ⟨w1, w2⟩ := peek_det e2.fed hw
        rw [if_pos (by rw [w1])] at hq
        obtain ⟨z, hz, hq⟩ := bind_ok hq
        cases hq
        obtain ⟨h1, _⟩ := expect_err hz he
        refine ⟨(next_det w2 h1).2, ?_⟩
        intro xs hxs z hz
        cases hxs; cases hz
      | cons x0 xs =>
        obtain ⟨p0, l0, hx0, hp0⟩ := toks_head x0
        have e2' : Fed o (commas ((x0 :: xs).map JTree.toks) ++ Tok.rbrack :: ts) y p.2 := by
          simpa using e2.fed
        have hc : ∃ l', commas ((x0 :: xs).map JTree.toks) ++ Tok.rbrack :: ts = p0 :: l' := by
          cases xs with
          | nil => exact ⟨_, by simp only [List.map_cons, List.map_nil, commas, hx0, List.cons_append]; rfl⟩
          | cons x1 xs => exact ⟨_, by simp only [List.map_cons, commas, hx0, List.cons_append]; rfl⟩
        obtain ⟨l', hl'⟩ := hc
        rw [hl'] at e2'
        obtain ⟨w1, w2⟩ := peek_det e2' hw
        rw [if_neg (by rw [w1]; exact hp0)] at hq
        rw [← hl'] at w2
        obtain ⟨z1, z2⟩ := arrLoop_eats (x0 :: xs) n 0 a w.2 q (fun z _ => hfn z) (by simp) w2 hq he
        refine ⟨z1, ?_⟩
        intro xs' hxs
        cases hxs
        exact z2
    | _ =>
      exfalso
      simp only [JTree.toks, List.cons.injEq, Tok.null, Tok.bool, Tok.int, Tok.float, Tok.str, Tok.lbrace, Prod.mk.injEq] at hx
      rw [e1, ← hx.1.1] at k1
      exact TokType.noConfusion k1

theorem parseObject_eats {σ : Type} {fn : Bytes → σ → Reader → Res (σ × Reader)} (hfn : ∀ x k a, Eats x (fn k a))
    (x : JTree) (n : Nat) (a : σ) (q : σ × Reader) (hf : Fed o (x.toks ++ ts) y r)
    (hq : parseObject fn n a r = .ok q) (he : q.2.err = none) :
    FedR o ts y q.2 ∧ ∀ ms, x = .obj ms → ∀ m ∈ ms, ∃ a, Took o y m.2 (fn m.1 a) := by
  unfold parseObject at hq
  obtain ⟨p, hp, hq⟩ := bind_ok hq
  obtain ⟨⟨t, v⟩, l, hx, _⟩ := toks_head x
  have hf' := hf
  rw [hx, List.cons_append] at hf'
  obtain ⟨e1, e2⟩ := next_det hf' hp
  split at hq
  · rename_i hnull
    cases hq
    have hl := toks_scalar x .null (by simp) hx (by rw [← hnull, e1])
    rw [hl] at e2
    refine ⟨e2, ?_⟩
    rintro xs rfl
    rw [hl] at hx
    simp [JTree.toks] at hx
  · obtain ⟨-, hq⟩ := mayAssert_bind hq
    obtain ⟨w, hw, hq⟩ := bind_ok hq
    have hpe : (p.2.assertToken p.1 .objectStart).2.err = none := by
      apply Classical.byContradiction
      intro hne
      have h1 := peek_err hw hne
      split at hq
      · obtain ⟨z, hz, hq⟩ := bind_ok hq
        cases hq
        exact expect_keeps hz h1 he
      · exact objLoop_stopped hq h1 he
    obtain ⟨k1, k2⟩ := assert_err hpe
    rw [k2] at hw
    cases x with
    | obj ms =>
      simp only [JTree.toks, List.cons.injEq] at hx
      obtain ⟨hx1, hx2⟩ := hx
      subst hx2
      rw [members_map] at e2
      cases ms with
      | nil =>
        simp only [List.map_nil, commas, List.nil_append, List.cons_append] at e2
        obtain ⟨w1, w2⟩ := peek_det e2.fed hw
        rw [if_pos (by rw [w1])] at hq
        obtain ⟨z, hz, hq⟩ := bind_ok hq
        cases hq
        obtain ⟨h1, _⟩ := expect_err hz he
        refine ⟨(next_det w2 h1).2, ?_⟩
        intro xs hxs z hz
        cases hxs; cases hz
      | cons m0 ms =>
        have e2' : Fed o (commas ((m0 :: ms).map fun m => Tok.str m.1 :: Tok.colon :: m.2.toks) ++ Tok.rbrace :: ts) y p.2 := by
          simpa using e2.fed
        have hc : ∃ l', commas ((m0 :: ms).map fun m => Tok.str m.1 :: Tok.colon :: m.2.toks) ++ Tok.rbrace :: ts =
            Tok.str m0.1 :: l' := by
          cases ms with
          | nil => exact ⟨_, by simp only [List.map_cons, List.map_nil, commas, List.cons_append]; rfl⟩
          | cons x1 xs => exact ⟨_, by simp only [List.map_cons, commas, List.cons_append]; rfl⟩
        obtain ⟨l', hl'⟩ := hc
        rw [hl'] at e2'
        obtain ⟨w1, w2⟩ := peek_det e2' hw
        rw [if_neg (by rw [w1]; exact TokType.noConfusion)] at hq
        have w2 : Fed o (Tok.str m0.1 :: l') y w.2 := w2
        rw [← hl'] at w2
        obtain ⟨z1, z2⟩ := objLoop_eats (m0 :: ms) n a w.2 q (fun z _ => hfn z.2 z.1) (by simp) w2 hq he
        refine ⟨z1, ?_⟩
        intro xs' hxs
        cases hxs
        exact z2
    | _ =>
      exfalso
      simp only [JTree.toks, List.cons.injEq, Tok.null, Tok.bool, Tok.int, Tok.float, Tok.str, Tok.lbrack, Prod.mk.injEq] at hx
      rw [e1, ← hx.1.1] at k1
      exact TokType.noConfusion k1

/-! ### whole documents -/

theorem map_ok {α β : Type} {x : Res α} {f : α → β} {q : β} (h : x.map f = .ok q) : ∃ p, x = .ok p ∧ q = f p := by
  cases x with
  | error e => cases h
  | ok p => cases h; exact ⟨p, rfl, rfl⟩

theorem skip_eats : ∀ (n : Nat) (x : JTree), Eats x (fun r => (skip n r).map fun q => ((), q)) := by
  intro n
  induction n with
  | zero => intro x o ts y r q _ _ hq; cases hq
  | succ n ih =>
    intro x o ts y r q hts hf hq he
    obtain ⟨r', hs, hr⟩ := map_ok hq
    subst hr
    clear hq
    unfold skip at hs
    obtain ⟨p, hp, hq1⟩ := bind_ok hs
    clear hs
    have ihA : ∀ x i a, Eats x ((fun (_ : Nat) (_ : Unit) r => do .ok ((), ← skip n r) : Nat → Unit → Reader → Res (Unit × Reader)) i a) := by
      intro x i a o ts y r q hts hf hq he
      obtain ⟨r2, h2, h3⟩ := bind_ok hq
      cases h3
      exact ih x o ts y r ((), r2) hts hf (by dsimp only; rw [h2]; rfl) he
    have ihO : ∀ x i a, Eats x ((fun (_ : Bytes) (_ : Unit) r => do .ok ((), ← skip n r) : Bytes → Unit → Reader → Res (Unit × Reader)) i a) := by
      intro x i a o ts y r q hts hf hq he
      obtain ⟨r2, h2, h3⟩ := bind_ok hq
      cases h3
      exact ih x o ts y r ((), r2) hts hf (by dsimp only; rw [h2]; rfl) he
    obtain ⟨⟨t, v⟩, l, hx, _⟩ := toks_head x
    have hf' := hf
    rw [hx, List.cons_append] at hf'
    obtain ⟨e1, e2⟩ := peek_det hf' hp
    have hok : p.2.ok = true := Fed.ok e2 (Or.inl (by simp [hts]))
    rw [if_pos hok] at hq1
    have scalar : ∀ k : TokType, (k = .null ∨ k = .bool ∨ k = .int ∨ k = .float ∨ k = .string) → p.1.type = k →
        (p.2.nextToken >>= fun q => .ok q.2) = .ok r' → FedR o ts y r' := by
      intro k hk ht hq
      obtain ⟨z, hz, hq⟩ := bind_ok hq
      cases hq
      obtain ⟨_, z2⟩ := next_det e2 hz
      rw [toks_scalar x k hk hx (by rw [← ht, e1])] at z2
      exact z2
    have e2' : Fed o (x.toks ++ ts) y p.2 := by rw [hx]; exact e2
    split at hq1
    · exact scalar .null (by simp) (by assumption) hq1
    · exact scalar .bool (by simp) (by assumption) hq1
    · exact scalar .int (by simp) (by assumption) hq1
    · exact scalar .float (by simp) (by assumption) hq1
    · exact scalar .string (by simp) (by assumption) hq1
    · obtain ⟨z, hz, hq⟩ := bind_ok hq1
      cases hq
      exact (parseArray_eats ihA x n () z e2' hz he).1
    · obtain ⟨z, hz, hq⟩ := bind_ok hq1
      cases hq
      exact (parseObject_eats ihO x n () z e2' hz he).1
    · cases hq1

theorem parseUntyped_eats (env : Env) : ∀ (n : Nat) (x : JTree) (v : JV), Eats x (parseUntyped env n v) := by
  intro n
  induction n with
  | zero => intro x v o ts y r q _ _ hq; cases hq
  | succ n ih =>
    intro x v o ts y r q hts hf hq he
    unfold parseUntyped at hq
    obtain ⟨p, hp, hq1⟩ := bind_ok hq
    clear hq
    obtain ⟨⟨t, w⟩, l, hx, _⟩ := toks_head x
    have hf' := hf
    rw [hx, List.cons_append] at hf'
    obtain ⟨e1, e2⟩ := peek_det hf' hp
    have e2' : Fed o (x.toks ++ ts) y p.2 := by rw [hx]; exact e2
    split at hq1
    · obtain ⟨z, hz, hq⟩ := bind_ok hq1
      cases hq
      exact parseNull_eats x o ts y p.2 ((), z) hts e2' (by dsimp only; rw [hz]; rfl) he
    · obtain ⟨z, hz, hq⟩ := bind_ok hq1
      cases hq
      exact parseBool_eats x o ts y p.2 z hts e2' hz he
    · obtain ⟨z, hz, hq⟩ := bind_ok hq1
      cases hq
      exact parseInt_eats x o ts y p.2 z hts e2' hz he
    · obtain ⟨z, hz, hq⟩ := bind_ok hq1
      obtain ⟨u, hu, hq⟩ := bind_ok hq
      cases hq
      exact parseFloat_eats x o ts y p.2 z hts e2' hz he
    · obtain ⟨z, hz, hq⟩ := bind_ok hq1
      cases hq
      exact parseString_eats x o ts y p.2 z hts e2' hz he
    · obtain ⟨z, hz, hq⟩ := bind_ok hq1
      cases hq
      refine (parseArray_eats ?_ x n _ z e2' hz he).1
      intro x i a o ts y r q hts hf hq he
      obtain ⟨u, hu, hq⟩ := bind_ok hq
      cases hq
      exact ih x _ o ts y r u hts hf hu he
    · obtain ⟨z, hz, hq⟩ := bind_ok hq1
      cases hq
      refine (parseObject_eats ?_ x n _ z e2' hz he).1
      intro x i a o ts y r q hts hf hq he
      obtain ⟨u, hu, hq⟩ := bind_ok hq
      cases hq
      exact ih x _ o ts y r u hts hf hu he
    · cases hq1
      exact absurd he (Reader.error_err _ _)

/-- custom parsers that read one document when they report no error -/
def OneDocument (g : GEnv) : Prop :=
  ∀ ty name f, g.parseFn ty name = some f → ∀ pl h x, Eats x (f pl h)

theorem parseG_eats (g : GEnv) (hg : OneDocument g) (c : PCache) : ∀ (n : Nat) (ty : TyId) (pl : Place) (h : GHeap) (x : JTree)
    (o : ROpts) (ts : List Tok) (y : Bytes) (r : Reader) (q : Place × GHeap × Reader), ts ≠ [] → Fed o (x.toks ++ ts) y r →
    parseG g c n ty pl h r = .ok q → q.2.2.err = none → FedR o ts y q.2.2 := by
  intro n
  induction n with
  | zero => intro ty pl h x o ts y r q _ _ hq; cases hq
  | succ n ih =>
    intro ty pl h x o ts y r q hts hf hq he
    rw [parseG.eq_def] at hq
    dsimp only at hq
    cases hst : Assoc.get c ty with
    | none => rw [hst] at hq; cases hq
    | some st =>
      rw [hst] at hq
      dsimp only at hq
      cases hk : st.kind <;> rw [hk] at hq <;> dsimp only at hq
      case bool =>
        obtain ⟨p, hp, hq⟩ := bind_ok hq
        split at hq
        · cases hq; exact parseBool_eats x o ts y r p hts hf hp he
        · cases hq
      case int =>
        obtain ⟨p, hp, hq⟩ := bind_ok hq
        split at hq
        · cases hq; exact parseInt_eats x o ts y r p hts hf hp he
        · cases hq
      case float =>
        obtain ⟨p, hp, hq⟩ := bind_ok hq
        obtain ⟨u, hu, hq⟩ := bind_ok hq
        split at hq
        · cases hq; exact parseFloat_eats x o ts y r p hts hf hp he
        · cases hq
      case string =>
        obtain ⟨p, hp, hq⟩ := bind_ok hq
        split at hq
        · cases hq; exact parseString_eats x o ts y r p hts hf hp he
        · cases hq
      case pointer =>
        obtain ⟨p, hp, hq⟩ := bind_ok hq
        obtain ⟨⟨t, v⟩, l, hx, _⟩ := toks_head x
        have hf' := hf
        rw [hx, List.cons_append] at hf'
        obtain ⟨e1, e2⟩ := peek_det hf' hp
        have e2' : Fed o (x.toks ++ ts) y p.2 := by rw [hx]; exact e2
        split at hq
        · rename_i hnull
          obtain ⟨z, hz, hq⟩ := bind_ok hq
          obtain ⟨_, z2⟩ := next_det e2 hz
          rw [toks_scalar x .null (by simp) hx (by rw [← hnull, e1]), List.nil_append] at z2
          split at hq
          · cases hq; exact z2
          · split at hq
            · cases hq
            · obtain ⟨m, hm, hq⟩ := bind_ok hq
              cases hq; exact z2
        · split at hq
          · obtain ⟨z, hz, hq⟩ := bind_ok hq
            cases hq
            exact ih _ _ _ x o ts y _ z hts e2' hz he
          · obtain ⟨m, hm, hq⟩ := bind_ok hq
            obtain ⟨z, hz, hq⟩ := bind_ok hq
            cases hq
            exact ih _ _ _ x o ts y _ z hts e2' hz he
          · cases hq
          · cases hq
      case list =>
        split at hq
        · obtain ⟨z, hz, hq⟩ := bind_ok hq
          cases hq
          refine (parseArray_eats ?_ x n h z hf hz he).1
          intro x i a o ts y r q hts hf hq he
          obtain ⟨m, hm, hq⟩ := bind_ok hq
          obtain ⟨w, hw, hq⟩ := bind_ok hq
          split at hq
          · split at hq
            · split at hq
              · cases hq; exact ih _ _ _ x o ts y r w hts hf hw he
              · cases hq
            · cases hq
          · cases hq; exact ih _ _ _ x o ts y r w hts hf hw he
        · obtain ⟨z, hz, hq⟩ := bind_ok hq
          cases hq
          refine (parseArray_eats ?_ x n h z hf hz he).1
          intro x i a o ts y r q hts hf hq he
          cases hq
        · cases hq
      case map =>
        split at hq
        · obtain ⟨z, hz, hq⟩ := bind_ok hq
          cases hq
          refine (parseObject_eats ?_ x n h z hf hz he).1
          intro x i a o ts y r q hts hf hq he
          obtain ⟨m, hm, hq⟩ := bind_ok hq
          obtain ⟨w, hw, hq⟩ := bind_ok hq
          split at hq
          · split at hq
            · split at hq
              · cases hq; exact ih _ _ _ x o ts y r w hts hf hw he
              · cases hq
            · cases hq
          · cases hq; exact ih _ _ _ x o ts y r w hts hf hw he
        · obtain ⟨z, hz, hq⟩ := bind_ok hq
          cases hq
          refine (parseObject_eats ?_ x n h z hf hz he).1
          intro x i a o ts y r q hts hf hq he
          cases hq
        · cases hq
      case object =>
        split at hq
        · obtain ⟨z, hz, hq⟩ := bind_ok hq
          cases hq
          refine (parseObject_eats ?_ x n h z hf hz he).1
          intro x i a o ts y r q hts hf hq he
          dsimp only at hq
          split at hq
          · obtain ⟨w, hw, hq⟩ := bind_ok hq
            cases hq
            exact skip_eats n x o ts y r ((), w) hts hf (by dsimp only; rw [hw]; rfl) he
          · split at hq
            · cases hq
            · split at hq
              · cases hq
              · obtain ⟨w, hw, hq⟩ := bind_ok hq
                cases hq
                exact ih _ _ _ x o ts y r w hts hf hw he
        · cases hq
      case custom =>
        split at hq
        · cases hq
        · split at hq
          · cases hq
          · rename_i f hfn
            obtain ⟨w, hw, hq⟩ := bind_ok hq
            cases hq
            exact hg _ _ f hfn pl h x o ts y r w hts hf hw he
      case value =>
        split at hq
        · obtain ⟨w, hw, hq⟩ := bind_ok hq
          have := fun he => parseUntyped_eats g.env n x .void o ts y r w hts hf hw he
          split at hq
          · cases hq; exact this he
          · cases hq; exact this he
        · cases hq

end Reflect.Json

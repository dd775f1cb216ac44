import Verif.Lemmas.Json.SoundV
/- Texts that stop too early behind an opening bracket are accepted. -/
namespace Reflect.Json

variable {env : Env} {o : ROpts} {c : PCache} {p : Tok} {r : Reader} {s : Bytes}

/-- The reader will deliver `p`, and then nothing or a number at the very end. -/
def Stop (o : ROpts) (p : Tok) (r : Reader) : Prop :=
  (∃ y, Fed o [p] y r ∧ Trailing o y) ∨ ∃ q k, (q = Tok.int k ∨ q = Tok.float k) ∧ NoExp k ∧ Fed o [p, q] [] r

theorem Stop.open (h : Early o p s) : Stop o p (Reader.open o s) := by
  rcases h with ⟨y, h1, h2⟩ | ⟨q, k, h1, h2, h3⟩
  · exact Or.inl ⟨y, (FedR.open h1).fed, h2⟩
  · exact Or.inr ⟨q, k, h1, h2, (FedR.open h3).fed⟩

theorem Stop.peek (h : Stop o p r) : ∃ r', r.peekToken = .ok (p.1, r') ∧ Stop o p r' := by
  obtain ⟨t, v⟩ := p
  rcases h with ⟨y, h1, h2⟩ | ⟨q, k, h1, h2, h3⟩
  · obtain ⟨r', e1, e2, _⟩ := Fed.peek h1
    exact ⟨r', e1, Or.inl ⟨y, e2, h2⟩⟩
  · obtain ⟨r', e1, e2, _⟩ := Fed.peek h3
    exact ⟨r', e1, Or.inr ⟨q, k, h1, h2, e2⟩⟩

theorem Stop.next (h : Stop o p r) : ∃ r' t r'', r.nextToken = .ok (p.1, r') ∧ r'.peekToken = .ok (t, r'') ∧
    t.type ≠ .arrayEnd ∧ t.type ≠ .objectEnd ∧ r''.ok = false ∧ r''.err = none := by
  obtain ⟨t, v⟩ := p
  rcases h with ⟨y, h1, h2⟩ | ⟨q, k, h1, h2, h3⟩
  · obtain ⟨r', e1, ⟨s', ⟨b, e2⟩, e3⟩, _⟩ := Fed.next h1
    have := reads_nil_inv e3
    subst this
    obtain ⟨g1, g2, g3⟩ := lex_trailing h2 e2
    refine ⟨r', (lexToken r').1, { (lexToken r').2 with tok := (lexToken r').1 }, e1, ?_, ?_, ?_, ?_, ?_⟩
    · unfold Reader.peekToken
      rw [if_pos (by rw [e2.tok])]
      unfold Reader.checked
      rw [g3]; rfl
    · rw [g1]; simp
    · rw [g1]; simp
    · exact lexToken_eos (by rw [g1])
    · exact g2
  · obtain ⟨r', e1, ⟨s', hr, e3⟩, _⟩ := Fed.next h3
    have hq : ∃ t', q = (t', some k) ∧ (t'.type = .int ∨ t'.type = .float) := by
      rcases h1 with rfl | rfl
      · exact ⟨_, rfl, Or.inl rfl⟩
      · exact ⟨_, rfl, Or.inr rfl⟩
    obtain ⟨t', rfl, ht'⟩ := hq
    have hno := (lex_number_end hr e3 ht').mpr h2
    obtain ⟨g1, g2, g3, _, s2, g4, _, _⟩ := lex_ready hr e3
    refine ⟨r', (lexToken r').1, { (lexToken r').2 with tok := (lexToken r').1 }, e1, ?_, ?_, ?_, hno, g4.err⟩
    · unfold Reader.peekToken
      rw [if_pos g3]
      unfold Reader.checked
      rw [g2]; rfl
    · rw [g1]; rcases ht' with h | h <;> rw [h] <;> simp
    · rw [g1]; rcases ht' with h | h <;> rw [h] <;> simp

theorem parseArray_cut {σ : Type} {fn : Nat → σ → Reader → Res (σ × Reader)} {n : Nat} {a : σ} (h : Stop o Tok.lbrack r) :
    ∃ r', parseArray fn (n + 1) a r = .ok (a, r') ∧ r'.err = none := by
  obtain ⟨r', t, r'', h1, h2, h3, h4, h5, h6⟩ := h.next
  refine ⟨r'', ?_, h6⟩
  unfold parseArray
  rw [h1, okb]
  rw [if_neg (show ¬ Tok.lbrack.1.type = TokType.null by decide), mayAssert_eq r' (by rfl), okb, assertToken_eq r' (by rfl)]
  rw [h2, okb, if_neg h3]
  unfold arrLoop
  rw [if_neg (by simp [h5])]

theorem parseObject_cut {σ : Type} {fn : Bytes → σ → Reader → Res (σ × Reader)} {n : Nat} {a : σ} (h : Stop o Tok.lbrace r) :
    ∃ r', parseObject fn (n + 1) a r = .ok (a, r') ∧ r'.err = none := by
  obtain ⟨r', t, r'', h1, h2, h3, h4, h5, h6⟩ := h.next
  refine ⟨r'', ?_, h6⟩
  unfold parseObject
  rw [h1, okb]
  rw [if_neg (show ¬ Tok.lbrace.1.type = TokType.null by decide), mayAssert_eq r' (by rfl), okb, assertToken_eq r' (by rfl)]
  rw [h2, okb, if_neg h4]
  unfold objLoop
  rw [if_neg (by simp [h5])]

/-- the empty array or object behind whose opening bracket the text stops -/
def Stops' (o : ROpts) (x : JTree) (r : Reader) : Prop :=
  (x = .arr [] ∧ Stop o Tok.lbrack r) ∨ (x = .obj [] ∧ Stop o Tok.lbrace r)

theorem Stops'.open {x : JTree} (h : Cut o x s) : Stops' o x (Reader.open o s) := by
  rcases h with ⟨h1, h2⟩ | ⟨h1, h2⟩
  · exact Or.inl ⟨h1, Stop.open h2⟩
  · exact Or.inr ⟨h1, Stop.open h2⟩

theorem Stops'.peek {x : JTree} (h : Stops' o x r) : ∃ t r', r.peekToken = .ok (t, r') ∧ t.type ≠ .null ∧ Stops' o x r' := by
  rcases h with ⟨h1, h2⟩ | ⟨h1, h2⟩
  · obtain ⟨r', e1, e2⟩ := h2.peek
    exact ⟨_, r', e1, by decide, Or.inl ⟨h1, e2⟩⟩
  · obtain ⟨r', e1, e2⟩ := h2.peek
    exact ⟨_, r', e1, by decide, Or.inr ⟨h1, e2⟩⟩

theorem allocate_eq {t : TyId} {ed : TyD} {d : JV} (h1 : env.types[t]? = some ed) (h2 : ed.alloc = true) (h3 : ed.make = some d) :
    env.allocate t = .ok d := by
  unfold Env.allocate; rw [h1]; simp only; rw [if_pos h2, construct_eq h1 h3]

/-- An untyped value, from a text that stops behind the opening bracket. -/
theorem any_cut {x : JTree} {v : JV} (ha : Any env x v) {n : Nat} {v0 : JV} (h : Stops' o x r) :
    ∃ r', parseUntyped env (n + 2) v0 r = .ok (v, r') ∧ r'.err = none := by
  rcases h with ⟨rfl, h⟩ | ⟨rfl, h⟩
  · obtain ⟨r1, e1, e2⟩ := h.peek
    cases ha with
    | arr _ vs hv =>
      cases hv
      obtain ⟨r2, e3, e4⟩ := parseArray_cut (n := n) (a := ([] : List JV)) e2
      refine ⟨r2, ?_, e4⟩
      unfold parseUntyped
      rw [e1, okb]
      simp only [Tok.lbrack]
      rw [e3, okb]
  · obtain ⟨r1, e1, e2⟩ := h.peek
    cases ha with
    | obj _ vs hv =>
      cases hv
      obtain ⟨r2, e3, e4⟩ := parseObject_cut (n := n) (a := ([] : List (Bytes × JV))) e2
      refine ⟨r2, ?_, e4⟩
      unfold parseUntyped
      rw [e1, okb]
      simp only [Tok.lbrace]
      rw [e3, okb]

/-- A text that stops behind the opening bracket is read like the empty array or object. -/
theorem cut_parse (hc : Good env c) (o : ROpts) : ∀ {ty : TyId} {u : JV} {x : JTree} {v : JV}, Load env ty u x v →
    (Assoc.get c ty).isSome → ∃ n0, ∀ n, n0 ≤ n → ∀ r, Stops' o x r →
      ∃ r', parseV env c n ty u r = .ok (v, r') ∧ r'.err = none
  | _, _, _, _, .ptr ty td t d v x h hx hl, hs => by
    obtain ⟨st, g1, g2, g3, _⟩ := good_get hc h hs
    obtain ⟨g4, g5⟩ := g3 t (Or.inl rfl)
    obtain ⟨n0, h0⟩ := cut_parse hc o hl g5
    refine ⟨n0 + 1, fun n hn r hf => ?_⟩
    obtain ⟨n, rfl⟩ : ∃ k, n = k + 1 := ⟨n - 1, by omega⟩
    obtain ⟨p, r1, e1, e2, e3⟩ := hf.peek
    obtain ⟨r2, e4, e5⟩ := h0 n (by omega) r1 e3
    refine ⟨r2, ?_, e5⟩
    unfold parseV
    simp only [g1, g2, Shape.pk]
    rw [e1, okb]
    simp only
    rw [if_neg e2, g4]
    simp only
    rw [e4, okb]
  | _, _, _, _, .ptrNew ty td t ed d v x h hx he1 he2 he3 hl, hs => by
    obtain ⟨st, g1, g2, g3, _⟩ := good_get hc h hs
    obtain ⟨g4, g5⟩ := g3 t (Or.inl rfl)
    obtain ⟨n0, h0⟩ := cut_parse hc o hl g5
    refine ⟨n0 + 1, fun n hn r hf => ?_⟩
    obtain ⟨n, rfl⟩ : ∃ k, n = k + 1 := ⟨n - 1, by omega⟩
    obtain ⟨p, r1, e1, e2, e3⟩ := hf.peek
    obtain ⟨r2, e4, e5⟩ := h0 n (by omega) r1 e3
    refine ⟨r2, ?_, e5⟩
    unfold parseV
    simp only [g1, g2, Shape.pk]
    rw [e1, okb]
    simp only
    rw [if_neg e2, g4]
    simp only
    rw [allocate_eq he1 he2 he3, okb, e4, okb]
  | _, _, _, _, .list ty td t vs ws xs h hl, hs => by
    obtain ⟨st, g1, g2, g3, _⟩ := good_get hc h hs
    obtain ⟨g4, g5⟩ := g3 t (Or.inr (Or.inl rfl))
    refine ⟨2, fun n hn r hf => ?_⟩
    obtain ⟨n, rfl⟩ : ∃ k, n = k + 2 := ⟨n - 2, by omega⟩
    rcases hf with ⟨hx, hf⟩ | ⟨hx, _⟩
    · injection hx with hx; subst hx
      cases hl
      obtain ⟨r2, e3, e4⟩ := parseArray_cut (n := n) (fn := fun _ => listFn env c (n + 1) t) (a := vs) hf
      refine ⟨r2, ?_, e4⟩
      unfold parseV
      simp only [g1, g2, Shape.pk, g4]
      show (parseArray (fun _ => listFn env c (n + 1) t) (n + 1) vs r >>= _) = _
      rw [e3, okb, List.append_nil]
    · cases hx
  | _, _, _, _, .map ty td t ms m m' h hl, hs => by
    obtain ⟨st, g1, g2, g3, _⟩ := good_get hc h hs
    obtain ⟨g4, g5⟩ := g3 t (Or.inr (Or.inr rfl))
    refine ⟨2, fun n hn r hf => ?_⟩
    obtain ⟨n, rfl⟩ : ∃ k, n = k + 2 := ⟨n - 2, by omega⟩
    rcases hf with ⟨hx, _⟩ | ⟨hx, hf⟩
    · cases hx
    · injection hx with hx; subst hx
      cases hl
      obtain ⟨r2, e3, e4⟩ := parseObject_cut (n := n) (fn := mapFn env c (n + 1) t) (a := m) hf
      refine ⟨r2, ?_, e4⟩
      unfold parseV
      simp only [g1, g2, Shape.pk, g4]
      show (parseObject (mapFn env c (n + 1) t) (n + 1) m r >>= _) = _
      rw [e3, okb]
  | _, _, _, _, .obj ty td ms fs fs' h hl, hs => by
    obtain ⟨st, g1, g2, g3, _⟩ := good_get hc h hs
    refine ⟨2, fun n hn r hf => ?_⟩
    obtain ⟨n, rfl⟩ : ∃ k, n = k + 2 := ⟨n - 2, by omega⟩
    rcases hf with ⟨hx, _⟩ | ⟨hx, hf⟩
    · cases hx
    · injection hx with hx; subst hx
      cases hl
      obtain ⟨r2, e3, e4⟩ := parseObject_cut (n := n) (fn := objFn env c (n + 1) st) (a := fs) hf
      refine ⟨r2, ?_, e4⟩
      unfold parseV
      simp only [g1, g2, Shape.pk]
      show (parseObject (objFn env c (n + 1) st) (n + 1) fs r >>= _) = _
      rw [e3, okb]
  | _, _, _, _, .void ty td d x v h hx ha, hs => by
    obtain ⟨st, g1, g2, _⟩ := good_get hc h hs
    refine ⟨3, fun n hn r hf => ?_⟩
    obtain ⟨n, rfl⟩ : ∃ k, n = k + 3 := ⟨n - 3, by omega⟩
    obtain ⟨r2, e3, e4⟩ := any_cut ha (n := n) (v0 := d) hf
    refine ⟨r2, ?_, e4⟩
    unfold parseV
    simp only [g1, g2, Shape.pk]
    exact e3
  | _, _, _, _, .bool .., _ => ⟨0, fun _ _ _ h => by rcases h with ⟨h, _⟩ | ⟨h, _⟩ <;> cases h⟩
  | _, _, _, _, .int .., _ => ⟨0, fun _ _ _ h => by rcases h with ⟨h, _⟩ | ⟨h, _⟩ <;> cases h⟩
  | _, _, _, _, .float .., _ => ⟨0, fun _ _ _ h => by rcases h with ⟨h, _⟩ | ⟨h, _⟩ <;> cases h⟩
  | _, _, _, _, .str .., _ => ⟨0, fun _ _ _ h => by rcases h with ⟨h, _⟩ | ⟨h, _⟩ <;> cases h⟩
  | _, _, _, _, .ptrNull .., _ => ⟨0, fun _ _ _ h => by rcases h with ⟨h, _⟩ | ⟨h, _⟩ <;> cases h⟩
  | _, _, _, _, .listNull .., _ => ⟨0, fun _ _ _ h => by rcases h with ⟨h, _⟩ | ⟨h, _⟩ <;> cases h⟩
  | _, _, _, _, .mapNull .., _ => ⟨0, fun _ _ _ h => by rcases h with ⟨h, _⟩ | ⟨h, _⟩ <;> cases h⟩
  | _, _, _, _, .objNull .., _ => ⟨0, fun _ _ _ h => by rcases h with ⟨h, _⟩ | ⟨h, _⟩ <;> cases h⟩
  | _, _, _, _, .voidNull .., _ => ⟨0, fun _ _ _ h => by rcases h with ⟨h, _⟩ | ⟨h, _⟩ <;> cases h⟩

end Reflect.Json

import Verif.Lemmas.Json.Read
import Verif.Lemmas.Json.Ends
import Verif.Lemmas.Json.Safe
import Verif.Lemmas.Json.Fits
import Verif.Props.JsonRound
import Verif.Spec.JsonEnds
/-
  C48 duplicate keys, C50 truncated documents, C51 absent members, C62 exactly which texts are accepted,
  C63 parsing ends, C64 where parsing is undefined, C66 null, lists and maps.

  In all theorems: `c` is a cache that earlier calls of `json::parse` can have left (`Parsers`), `T` is a set
  of types that refer to one another only (`Closed`), and `ty` is one of them.
-/
namespace Reflect.Json

section
variable {env : Env}

/-! ### C62: exactly which texts are accepted -/

/-- `json::parse` accepts a text, and leaves `v`, exactly if the text begins with a document that loads as `v`,
or if it stops too early behind an opening bracket and the empty container loads as `v`. -/
theorem C62_accepts (env : Env) (hn : env.Named) (T : TyId → Prop) (hT : env.Closed T) (c : PCache) (hc : Parsers env c)
    (o : ROpts) (ty : TyId) (ht : T ty) (u v : JV) (s : Bytes) :
    Accepts env c o ty u s v ↔
      (∃ x y, Reads o s x.toks y ∧ Load env ty u x v) ∨ (∃ x, Cut o x s ∧ Load env ty u x v) := by
  have hg := parsers_good hn hc
  constructor
  · rintro ⟨n, r, h, he⟩
    rcases accepted hn hT ht hg h he with ⟨x, y, h1, _, h3⟩ | h
    · exact Or.inl ⟨x, y, h1, h3⟩
    · exact Or.inr h
  · rintro (⟨x, y, h1, h2⟩ | ⟨x, h1, h2⟩)
    · obtain ⟨n, h⟩ := load_text (ro := o) hn hT ht hg h2
      obtain ⟨r, h3, h4, _⟩ := h n (Nat.le_refl n) s y h1
      exact ⟨n, r, h3, h4⟩
    · obtain ⟨n, h⟩ := accepting hn hT ht hg h1 h2
      obtain ⟨r, h3, h4⟩ := h n (Nat.le_refl n)
      exact ⟨n, r, h3, h4⟩

/-- A text that begins with a document is accepted exactly if the document loads. -/
theorem C62_document (env : Env) (hn : env.Named) (T : TyId → Prop) (hT : env.Closed T) (c : PCache) (hc : Parsers env c)
    (o : ROpts) (ty : TyId) (ht : T ty) (u v : JV) (s y : Bytes) (x : JTree) (hx : Reads o s x.toks y) :
    Accepts env c o ty u s v ↔ Load env ty u x v := by
  rw [C62_accepts env hn T hT c hc o ty ht u v s]
  constructor
  · rintro (⟨x', y', h1, h2⟩ | ⟨x', h1, _⟩)
    · rw [(reads_tree_unique hx h1).1]; exact h2
    · exact absurd hx (cut_not_doc h1)
  · intro h; exact Or.inl ⟨x, y, hx, h⟩

/-- What follows the document is left unread: two documents in a row can be read one after the other. -/
theorem C62_rest (env : Env) (hn : env.Named) (T : TyId → Prop) (hT : env.Closed T) (c : PCache) (hc : Parsers env c)
    (o : ROpts) (ty : TyId) (ht : T ty) (u v : JV) (s y : Bytes) (x : JTree) (hx : Reads o s x.toks y) (n : Nat) (r : Reader)
    (h : (parse env n c ty u (Reader.open o s)).1 = .ok (v, r)) (he : r.err = none) : r.rest = y := by
  rcases accepted hn hT ht (parsers_good hn hc) h he with ⟨x', y', h1, ⟨b, h2⟩, _⟩ | ⟨x', h1, _⟩
  · rw [(reads_tree_unique hx h1).2]; exact h2.rest
  · exact absurd hx (cut_not_doc h1)

/-- The value is determined by the text and the value parsed into. -/
theorem C62_value_unique (env : Env) (c : PCache) (o : ROpts) (ty : TyId) (u v v' : JV) (s : Bytes)
    (h : Accepts env c o ty u s v) (h' : Accepts env c o ty u s v') : v = v' := by
  obtain ⟨n, r, h1, _⟩ := h
  obtain ⟨m, r', h2, _⟩ := h'
  have := Mono.parse_fun env h1 h2
  injection this

/-- Earlier calls do not matter. -/
theorem C62_any_cache (env : Env) (hn : env.Named) (T : TyId → Prop) (hT : env.Closed T) (c c' : PCache) (hc : Parsers env c)
    (hc' : Parsers env c') (o : ROpts) (ty : TyId) (ht : T ty) (u v : JV) (s : Bytes) :
    Accepts env c o ty u s v ↔ Accepts env c' o ty u s v := by
  rw [C62_accepts env hn T hT c hc o ty ht, C62_accepts env hn T hT c' hc' o ty ht]

/-! ### C63: parsing ends -/

theorem ranks_bounded (hp : env.PtrsEnd) : ∃ (rank : TyId → Nat) (B : Nat), (∀ ty, rank ty ≤ B) ∧
    ∀ ty d t, env.Has ty d (.ptr t) → t < env.types.length → rank t < rank ty := by
  obtain ⟨rank, h⟩ := hp
  have key : ∀ k, ∃ B, ∀ ty, ty < k → rank ty ≤ B := by
    intro k
    induction k with
    | zero => exact ⟨0, fun ty h => absurd h (Nat.not_lt_zero _)⟩
    | succ k ih =>
      obtain ⟨B, hB⟩ := ih
      refine ⟨max B (rank k), fun ty h => ?_⟩
      rcases Nat.lt_succ_iff_lt_or_eq.mp h with h | h
      · exact Nat.le_trans (hB ty h) (Nat.le_max_left _ _)
      · subst h; exact Nat.le_max_right _ _
  obtain ⟨B, hB⟩ := key env.types.length
  refine ⟨fun ty => if ty < env.types.length then rank ty else 0, B, ?_, ?_⟩
  · intro ty
    simp only
    split
    · exact hB ty ‹_›
    · exact Nat.zero_le _
  · intro ty d t hd htl
    have hl : ty < env.types.length := (List.getElem?_eq_some_iff.mp hd.1).1
    simp only
    rw [if_pos hl, if_pos htl]
    exact h ty d t hd

/-- Whatever the input, parsing into a value of any type comes to an end. -/
theorem C63_parsing_ends (env : Env) (hn : env.Named) (T : TyId → Prop) (hT : env.Closed T) (hp : env.PtrsEnd)
    (hd : ∀ s, env.stod s ≠ .error .diverge) (c : PCache) (hc : Parsers env c)
    (ty : TyId) (ht : T ty) (u : JV) (r : Reader) :
    ∃ n0, ∀ n, n0 ≤ n → (parse env n c ty u r).1 ≠ .error .diverge ∧ parse env n c ty u r = parse env n0 c ty u r := by
  obtain ⟨n0, c', g1, g2, g3⟩ := parse_ready hn hT ht (parsers_good hn hc)
  obtain ⟨rank, B, hB, hr⟩ := ranks_bounded hp
  have hr' : ∀ ty d t, T ty → env.Has ty d (.ptr t) → rank t < rank ty := by
    intro ty d t hty hd
    obtain ⟨d', sh, hd', _⟩ := hT.kind t (hT.ptr ty d t hty hd)
    exact hr ty d t hd (List.getElem?_eq_some_iff.mp hd').1
  have key : ∀ n, n0 + (r.left * (B + 1) + rank ty + 4) ≤ n → (parse env n c ty u r).1 ≠ .error .diverge := by
    intro n hn'
    rw [g3 n (by omega)]
    exact (parseV_fine g1 hT hd hB hr' n ty u r ht (by omega)).1
  refine ⟨n0 + (r.left * (B + 1) + rank ty + 4), fun n hn' => ⟨key n hn', ?_⟩⟩
  exact ((Mono.parse_le env hn' c ty u r).resolve_left (key _ (Nat.le_refl _))).symm

/-- A type that is a pointer to itself cannot be written in C++; of such a type, parsing would not end. -/
example : ∃ env : Env, env.Named ∧ env.Closed (· < 1) ∧ ¬ env.PtrsEnd := by
  refine ⟨{ types := [{ pointee := some 0, make := some .null, alloc := true }], fmtG := fun _ => [], stod := fun _ => .ok 0 },
    namedB_spec (by decide), closedB_spec (by decide), ?_⟩
  rintro ⟨rank, h⟩
  exact Nat.lt_irrefl _ (h 0 _ 0 ⟨rfl, .ptr 0 rfl rfl⟩)

/-! ### C64: where parsing is undefined -/

/-- Reading a broken string is undefined. -/
theorem broken_next {o : ROpts} (hv : o.validateUnicode = true) {t v z : Bytes} (ht : StrBody o t v)
    (hz : z = [] ∨ ∃ z', z = 255 :: z') : (Reader.open o (34 :: (t ++ z))).nextToken = .error .ub := by
  rcases hz with rfl | ⟨z', rfl⟩
  · have hok := (At.open o (34 :: (t ++ []))).ok
    have htk : (Reader.open o (34 :: (t ++ []))).tok.type = .noToken := rfl
    have hat := (At.open o (34 :: (t ++ []))).pop
    have hnc : nextChar (Reader.open o (34 :: (t ++ []))) = (34, (Reader.open o (34 :: (t ++ []))).pop.2) := by
      rw [nextChar.eq_def, dif_pos hok]
      simp only [hat.1]
      rw [if_neg (by decide), if_neg (by decide)]; rfl
    unfold Reader.nextToken
    rw [if_pos htk]
    unfold lexToken
    rw [if_pos hok, hnc]
    simp only
    rw [if_pos hat.2.ok]
    generalize (Reader.open o (34 :: (t ++ []))).pop.2 = r at hat
    have e : tokenAt r 34 = (⟨.string, .buffer⟩, readStringLoop r.resetBuffer) := rfl
    rw [e]
    have h1 := hat.2
    rw [List.append_nil] at h1
    unfold Reader.checked
    simp only
    rw [readString_cut_ub ht hv h1.reset]
    rfl
  · exact C41_byte_FF_undefined o hv t v z' ht

/-- Parsing is defined on every text, except where validation is on and a string is broken off or has a byte
0xFF, where a string or a number has more than 969 bytes, and - if there are object types at all - where a value is
missing. -/
theorem C64_defined (env : Env) (hn : env.Named) (T : TyId → Prop) (hT : env.Closed T)
    (hd : ∀ s, env.stod s ≠ .error .ub) (c : PCache) (hc : Parsers env c) (o : ROpts) (ty : TyId) (ht : T ty) (u : JV)
    (s : Bytes) (hb : ¬ BrokenString o s) (hl : ¬ LongToken o s) (hm : (∃ ty d, T ty ∧ env.Has ty d .object) → ¬ ValueMissing o s) (n : Nat) :
    (parse env n c ty u (Reader.open o s)).1 ≠ .error .ub := by
  obtain ⟨n0, c', g1, g2, g3⟩ := parse_ready hn hT ht (parsers_good hn hc)
  intro hu
  rcases Mono.parse_le env (Nat.le_max_left n n0) c ty u (Reader.open o s) with e | e
  · rw [hu] at e; cases e
  · rw [e, g3 _ (Nat.le_max_right n n0)] at hu
    exact (parseV_safe (fun h => h.elim hb hl) g1 hT hd hm _ ty u _ ht g2 (Inv.open o s)).1 hu

theorem sep_quote {o : ROpts} {w s z : Bytes} (hw : Sep o w) (h : 34 :: z = w ++ s) : w = [] := by
  cases hw with
  | nil => rfl
  | ws c w hc _ =>
    injection h with h _
    subst h
    exact absurd hc (by decide)
  | comment body w _ _ _ =>
    simp only [List.append_assoc, List.cons_append] at h
    injection h with h _
    cases h

theorem lexeme_quote {o : ROpts} {a s z : Bytes} {t : Token} {v : Option Bytes} (hl : Lexeme o a t v) (h : 34 :: z = a ++ s) :
    ∃ t v, StrBody o t v ∧ z = t ++ 34 :: s := by
  have num : ∀ {a s : Bytes}, IntText a → 34 :: z = a ++ s → False := by
    rintro a s ⟨c, ds, rfl, hc, _⟩ h
    injection h with h _
    subst h
    rcases hc with h | h
    · cases h
    · have := h 34 (by simp)
      revert this; decide
  cases hl with
  | string t v hb =>
    simp only [List.append_assoc, List.cons_append, List.nil_append] at h
    injection h with _ h
    exact ⟨t, v, hb, h⟩
  | int _ hi => exact (num hi h).elim
  | float _ hf =>
    obtain ⟨i, f, x, rfl, hi, _⟩ := hf
    rw [List.append_assoc, List.append_assoc] at h
    exact (num hi h).elim
  | _ => injection h with h _; cases h

/-- Where a text has nothing but tokens, a quote opens a string. -/
theorem spells_quote {o : ROpts} {z : Bytes} {ts : List Tok} (h : Spells o (34 :: z) ts) :
    ∃ t v z', StrBody o t v ∧ z = t ++ 34 :: z' := by
  obtain ⟨y, hr, w, hw, hy⟩ := h
  cases ts with
  | nil =>
    have := reads_nil_inv hr
    subst this
    rcases hy with hy | ⟨_, body, _, hy⟩
    · have := sep_quote hw (s := []) (by rw [hy]; simp)
      subst this; cases hy
    · rw [List.append_assoc] at hy
      have := sep_quote hw hy
      subst this
      injection hy with hy _
      cases hy
  | cons p ts =>
    obtain ⟨t, v⟩ := p
    obtain ⟨w', a, s', e, h1, h2, _, _⟩ := reads_cons_inv hr
    rw [List.append_assoc] at e
    have := sep_quote h1 e
    subst this
    obtain ⟨t', v', h3, h4⟩ := lexeme_quote h2 e
    exact ⟨t', v', s', h3, h4⟩

/-- A text that is a document whose strings and numbers have at most 969 bytes is never undefined, whatever the type. -/
theorem C64_documents_defined (env : Env) (hn : env.Named) (T : TyId → Prop) (hT : env.Closed T)
    (hd : ∀ s, env.stod s ≠ .error .ub) (c : PCache) (hc : Parsers env c) (o : ROpts) (ty : TyId) (ht : T ty) (u : JV)
    (s : Bytes) (x : JTree) (hx : Spells o s x.toks) (hl : ∀ t a, (t, some a) ∈ x.toks → a.length ≤ 969) (n : Nat) :
    (parse env n c ty u (Reader.open o s)).1 ≠ .error .ub := by
  obtain ⟨y, hx, hy⟩ := hx
  apply C64_defined env hn T hT hd c hc o ty ht u s
  · rintro ⟨hv, ts, w, t, v, z, h1, h2, h3, h4⟩
    obtain ⟨T2, _, hsp⟩ := spells_unique ⟨y, hx, hy⟩ h1
    obtain ⟨n, r, h5, _⟩ := (C47_tokens_of_text o _ _).mpr (spells_strip h2 hsp)
    cases n with
    | zero => cases h5
    | succ n => rw [readAll, broken_next hv h3 h4] at h5; cases h5
  · rintro (⟨ts, t, a, z, h1, h2⟩ | ⟨ts, w, z, h1, h2, h3, _⟩)
    · obtain ⟨T2, e, _⟩ := spells_unique ⟨y, hx, hy⟩ h1
      have := hl t a (by rw [e]; simp)
      omega
    · obtain ⟨T2, _, hsp⟩ := spells_unique ⟨y, hx, hy⟩ h1
      obtain ⟨t, v, z', h4, h5⟩ := spells_quote (spells_strip h2 hsp)
      exact h3 t v z' h4 h5
  · rintro _ ⟨ts, a, b, z, h1, h2⟩
    obtain ⟨T2, e, _⟩ := spells_unique ⟨y, hx, hy⟩ h1
    exact toks_misplaced x ts T2 a b (by simpa using e) h2

/-- Where a value is missing under a key that is no field's, an object type's parser is undefined: `{"k":]`. -/
theorem C64_missing_value_undefined (env : Env) (hn : env.Named) (T : TyId → Prop) (hT : env.Closed T)
    (c : PCache) (hc : Parsers env c) (o : ROpts) (ty : TyId) (ht : T ty) (d : TyD) (ho : env.Has ty d .object)
    (a : Bytes) (ha : a ∉ d.keys) (fs : List (Bytes × JV)) (s y : Bytes)
    (hs : Reads o s [Tok.lbrace, Tok.str a, Tok.colon, Tok.rbrack] y) (hy : y ≠ []) :
    ∃ n0, ∀ n, n0 ≤ n → (parse env n c ty (.obj fs) (Reader.open o s)).1 = .error .ub := by
  obtain ⟨n0, c', g1, g2, g3⟩ := parse_ready hn hT ht (parsers_good hn hc)
  obtain ⟨st, k1, k2, _, k4⟩ := good_get g1 ho g2
  refine ⟨n0 + 2, fun n hn' => ?_⟩
  rw [g3 n (by omega)]
  obtain ⟨n, rfl⟩ : ∃ k, n = k + 2 := ⟨n - 2, by omega⟩
  obtain ⟨r1, e1, f1, _⟩ := (FedR.open hs).fed.next
  obtain ⟨r2, e2, f2, _⟩ := f1.fed.peek
  obtain ⟨r3, e3, f3, b3⟩ := f2.expect (x := .string) rfl
  obtain ⟨r4, e4, f4, b4⟩ := f3.expect_colon
  obtain ⟨r5, e5, f5, _⟩ := f4.fed.peek
  have hok2 := f2.ok (Or.inl (by simp))
  have hok5 := f5.ok (Or.inr hy)
  have hb : r4.buf = a := by rw [b4]; exact b3 a rfl
  have hskip : skip (n + 1) r4 = .error .ub := by
    unfold skip
    rw [e5, okb]
    simp only
    rw [if_pos hok5]
  unfold parseV
  simp only [k1, k2, Shape.pk]
  unfold parseObject
  rw [e1, okb]
  rw [if_neg (by simp)]
  have ha1 : (r1.assertToken ⟨.objectStart, .none⟩ .objectStart).2 = r1 := rfl
  rw [ha1, e2, okb]
  rw [if_neg (by simp)]
  unfold objLoop
  rw [if_pos hok2, e3, okb]
  have hs' : (⟨.string, .buffer⟩ : Token).asString r3 = .ok r3.buf := rfl
  rw [hs', okb, e4, okb]
  simp only [hb]
  rw [(k4 rfl).2 a ha]
  simp only
  rw [hskip]
  rfl

/-- A string that is broken off, or has a byte 0xFF, is undefined. -/
theorem C64_broken_string_undefined (env : Env) (hn : env.Named) (T : TyId → Prop) (hT : env.Closed T)
    (c : PCache) (hc : Parsers env c) (o : ROpts) (hv : o.validateUnicode = true) (ty : TyId) (ht : T ty) (d : TyD)
    (ho : env.Has ty d .string) (u : JV) (t v z : Bytes) (h : StrBody o t v) (hz : z = [] ∨ ∃ z', z = 255 :: z') :
    ∃ n0, ∀ n, n0 ≤ n → (parse env n c ty u (Reader.open o (34 :: (t ++ z)))).1 = .error .ub := by
  obtain ⟨n0, c', g1, g2, g3⟩ := parse_ready hn hT ht (parsers_good hn hc)
  obtain ⟨st, k1, k2, _⟩ := good_get g1 ho g2
  refine ⟨n0 + 1, fun n hn' => ?_⟩
  rw [g3 n (by omega)]
  obtain ⟨n, rfl⟩ : ∃ k, n = k + 1 := ⟨n - 1, by omega⟩
  unfold parseV
  simp only [k1, k2, Shape.pk]
  unfold parseString Reader.expectToken
  rw [broken_next hv h hz]
  rfl

/-! ### C50: truncated documents -/

/-- Whether a list of tokens ends in a number -/
theorem toks_endsNum {x : JTree} (h : endsNum x.toks) : x.isNumber = true := by
  obtain ⟨p, h1, h2⟩ := h
  have key : ∀ (a b : Tok) (l : List Tok), b.1.type ≠ .int → b.1.type ≠ .float → (a :: (l ++ [b])).getLast? = some p → False := by
    intro a b l hb1 hb2 h
    rw [List.getLast?_cons, List.getLast?_append] at h
    simp at h
    subst h
    rcases h2 with h | h
    · exact hb1 h
    · exact hb2 h
  cases x with
  | int s => rfl
  | float s => rfl
  | arr xs => exact (key _ _ _ (by decide) (by decide) h1).elim
  | obj ms => exact (key _ _ _ (by decide) (by decide) h1).elim
  | null => simp [JTree.toks, Tok.null] at h1; subst h1; rcases h2 with h | h <;> cases h
  | bool b => simp [JTree.toks, Tok.bool] at h1; subst h1; rcases h2 with h | h <;> cases h
  | str s => simp [JTree.toks, Tok.str] at h1; subst h1; rcases h2 with h | h <;> cases h

theorem isNumber_toks {x : JTree} (h : x.isNumber = true) :
    ∃ t v, x.toks = [(t, v)] ∧ (t.type = .int ∨ t.type = .float) := by
  cases x <;> first
    | (cases h; done)
    | exact ⟨_, _, rfl, Or.inl rfl⟩
    | exact ⟨_, _, rfl, Or.inr rfl⟩

/-- What a text cut inside a document `x` - `s2` is what is cut off, `y` what follows the document - can still
begin with is a number, if `x` is one. -/
theorem cut_number {o : ROpts} {s1 s2 y y' : Bytes} {x x' : JTree} (hx : Reads o (s1 ++ s2) x.toks y) (hy : y.length < s2.length)
    (h : Reads o s1 x'.toks y') : x.isNumber = true ∧ x'.isNumber = true ∧ y' = [] := by
  by_cases hc : y' ≠ [] ∨ ¬ endsNum x'.toks
  · have h2 := reads_more (z := s2) h hc
    have := (reads_tree_unique hx h2).2
    rw [this] at hy
    simp at hy
    omega
  · have hy' : y' = [] := Classical.byContradiction fun h => hc (Or.inl h)
    have he : endsNum x'.toks := Classical.byContradiction fun h => hc (Or.inr h)
    have hnum := toks_endsNum he
    refine ⟨?_, hnum, hy'⟩
    obtain ⟨t, v, e1, e2⟩ := isNumber_toks hnum
    obtain ⟨⟨t', v'⟩, l, e3, _⟩ := toks_head x
    rw [e1] at h
    rw [e3] at hx
    have := reads_num_more h hx e2
    cases x <;> simp [JTree.toks, Tok.null, Tok.bool, Tok.int, Tok.float, Tok.str, Tok.lbrack, Tok.lbrace] at e3
    all_goals first | rfl | (rw [← e3.1.1] at this; simp at this)

/-- A text cut inside a document other than a number: accepted exactly if nothing but the opening bracket, and at
most a number without exponent that the cut ends, is left of it, and then read as an empty container. -/
theorem C50_cut (env : Env) (hn : env.Named) (T : TyId → Prop) (hT : env.Closed T) (c : PCache) (hc : Parsers env c)
    (o : ROpts) (ty : TyId) (ht : T ty) (u v : JV) (s1 s2 y : Bytes) (x : JTree) (hx : Reads o (s1 ++ s2) x.toks y)
    (hy : y.length < s2.length) (hnum : x.isNumber = false) :
    Accepts env c o ty u s1 v ↔ ∃ x', Cut o x' s1 ∧ Load env ty u x' v := by
  rw [C62_accepts env hn T hT c hc o ty ht]
  constructor
  · rintro (⟨x', y', h1, _⟩ | h)
    · have := (cut_number hx hy h1).1
      rw [hnum] at this; cases this
    · exact h
  · exact Or.inr

/-- A number cut short is not accepted unless what is left is itself a number, and nothing else. -/
theorem C50_number (env : Env) (hn : env.Named) (T : TyId → Prop) (hT : env.Closed T) (c : PCache) (hc : Parsers env c)
    (o : ROpts) (ty : TyId) (ht : T ty) (u v : JV) (s1 s2 y : Bytes) (x : JTree) (hx : Reads o (s1 ++ s2) x.toks y)
    (hy : y.length < s2.length) (hnum : x.isNumber = true) :
    Accepts env c o ty u s1 v ↔ ∃ x', x'.isNumber = true ∧ Reads o s1 x'.toks [] ∧ Load env ty u x' v := by
  rw [C62_accepts env hn T hT c hc o ty ht]
  constructor
  · rintro (⟨x', y', h1, h2⟩ | ⟨x', h1, h2⟩)
    · obtain ⟨_, g2, g3⟩ := cut_number hx hy h1
      exact ⟨x', g2, g3 ▸ h1, h2⟩
    · exfalso
      obtain ⟨t, w, e1, e2⟩ := isNumber_toks hnum
      rw [e1] at hx
      have key : ∀ (p : Tok), Early o p s1 → ¬ (p.1.type = .int ∨ p.1.type = .float) → False := by
        rintro ⟨pt, pv⟩ hE hp
        have : ∃ ts z, Reads o s1 ((pt, pv) :: ts) z := by
          rcases hE with ⟨z, hE, _⟩ | ⟨q, k, _, _, hE⟩
          · exact ⟨_, _, hE⟩
          · exact ⟨_, _, hE⟩
        obtain ⟨ts, z, hE⟩ := this
        obtain ⟨w1, a, s', e, g1, g2, g3, _⟩ := reads_cons_inv hE
        have hE1 : Reads o s1 [(pt, pv)] s' := by rw [e]; exact Reads.cons _ _ _ _ _ _ _ g1 g2 g3 (Reads.nil s')
        have := reads_first (reads_more (z := s2) hE1 (Or.inr (by rintro ⟨p', h, h'⟩; simp at h; subst h; exact hp h'))) hx
        rw [Prod.mk.injEq] at this
        rw [← this.1.1] at e2
        exact hp e2
      rcases h1 with ⟨_, h1⟩ | ⟨_, h1⟩
      · exact key _ h1 (by decide)
      · exact key _ h1 (by decide)
  · rintro ⟨x', _, h1, h2⟩; exact Or.inl ⟨x', [], h1, h2⟩

/-- Once a whole token follows the opening bracket - one that is no number, or a number with something behind it - no
cut is accepted, whatever the type and the value. -/
theorem C50_nested (env : Env) (hn : env.Named) (T : TyId → Prop) (hT : env.Closed T) (c : PCache) (hc : Parsers env c)
    (o : ROpts) (ty : TyId) (ht : T ty) (u v : JV) (s1 s2 y : Bytes) (x : JTree) (hx : Reads o (s1 ++ s2) x.toks y)
    (hy : y.length < s2.length) (p q : Tok) (z : Bytes) (h2 : Reads o s1 [p, q] z)
    (hq : z ≠ [] ∨ ¬ (q.1.type = .int ∨ q.1.type = .float)) : ¬ Accepts env c o ty u s1 v := by
  intro ha
  have hcut : ∀ x', ¬ Cut o x' s1 := by
    have key : ∀ p', ¬ Early o p' s1 := by
      rintro p' (hE | ⟨q', k, hk, _, hE⟩)
      · obtain ⟨T2, e, _⟩ := spells_unique hE h2
        simp at e
      · rcases reads_compare h2 hE with ⟨l, e, hl⟩ | ⟨l, e, hl⟩
        · simp only [List.cons_append, List.nil_append, List.cons.injEq] at e
          obtain ⟨_, rfl, rfl⟩ := e
          have := reads_nil_inv hl
          rcases hq with hq | hq
          · exact hq this
          · rcases hk with rfl | rfl
            · exact hq (Or.inl rfl)
            · exact hq (Or.inr rfl)
        · simp only [List.cons_append, List.nil_append, List.cons.injEq] at e
          obtain ⟨_, rfl, rfl⟩ := e
          have := reads_nil_inv hl
          rcases hq with hq | hq
          · exact hq this.symm
          · rcases hk with rfl | rfl
            · exact hq (Or.inl rfl)
            · exact hq (Or.inr rfl)
    rintro x' (⟨_, h⟩ | ⟨_, h⟩)
    · exact key _ h
    · exact key _ h
  rw [C62_accepts env hn T hT c hc o ty ht] at ha
  rcases ha with ⟨x', y', h1, _⟩ | ⟨x', h1, _⟩
  · obtain ⟨_, g2, g3⟩ := cut_number hx hy h1
    obtain ⟨t, w, e, _⟩ := isNumber_toks g2
    subst g3
    obtain ⟨T2, e', _⟩ := spells_unique ⟨[], h1, [], Sep.nil, Or.inl rfl⟩ h2
    rw [e] at e'
    simp at e'
  · exact hcut _ h1

/-- Unless the cut is inside a string that is validated, parsing ends in an exception or an error of the reader,
or - see the theorems above - is accepted: it is never undefined and always ends. -/
theorem C50_reported (env : Env) (hn : env.Named) (T : TyId → Prop) (hT : env.Closed T) (hp : env.PtrsEnd)
    (hd : ∀ s, env.stod s ≠ .error .diverge ∧ env.stod s ≠ .error .ub) (c : PCache) (hc : Parsers env c)
    (o : ROpts) (ty : TyId) (ht : T ty) (u : JV) (s1 s2 y : Bytes) (x : JTree) (hx : Reads o (s1 ++ s2) x.toks y)
    (hy : y.length < s2.length) (hb : ¬ BrokenString o s1) (hl : ¬ LongToken o s1) :
    ∃ n0, ∀ n, n0 ≤ n →
      (parse env n c ty u (Reader.open o s1)).1 = .error .err ∨ (parse env n c ty u (Reader.open o s1)).1 = .error .std ∨
      (∃ v r, (parse env n c ty u (Reader.open o s1)).1 = .ok (v, r) ∧ r.err ≠ none) ∨
      ∃ v, Accepts env c o ty u s1 v := by
  obtain ⟨n0, h0⟩ := C63_parsing_ends env hn T hT hp (fun s => (hd s).1) c hc ty ht u (Reader.open o s1)
  refine ⟨n0, fun n hn' => ?_⟩
  have h1 := (h0 n hn').1
  have h2 := C64_defined env hn T hT (fun s => (hd s).2) c hc o ty ht u s1 hb hl (fun _ => cut_no_missing hx hy) n
  match h : (parse env n c ty u (Reader.open o s1)).1 with
  | .error .err => exact Or.inl rfl
  | .error .std => exact Or.inr (Or.inl rfl)
  | .error .ub => exact absurd h h2
  | .error .diverge => exact absurd h h1
  | .ok (v, r) =>
    right; right
    by_cases he : r.err = none
    · exact Or.inr ⟨v, n, r, h, he⟩
    · exact Or.inl ⟨v, r, rfl, he⟩

/-- What is left of an array or object cut right behind its opening bracket is accepted by list, map and object
types, and leaves the value alone. -/
theorem C50_unclosed_accepted (env : Env) (hn : env.Named) (T : TyId → Prop) (hT : env.Closed T) (c : PCache) (hc : Parsers env c)
    (o : ROpts) (ty : TyId) (ht : T ty) (d : TyD) (s : Bytes) :
    (Early o Tok.lbrack s → ∀ t vs, env.Has ty d (.list t) → Accepts env c o ty (.list vs) s (.list vs)) ∧
    (Early o Tok.lbrace s → ∀ t m, env.Has ty d (.map t) → Accepts env c o ty (.map m) s (.map m)) ∧
    (Early o Tok.lbrace s → ∀ fs, env.Has ty d .object → Accepts env c o ty (.obj fs) s (.obj fs)) := by
  simp only [C62_accepts env hn T hT c hc o ty ht]
  refine ⟨fun h t vs hd => Or.inr ⟨.arr [], Or.inl ⟨rfl, h⟩, ?_⟩, fun h t m hd => Or.inr ⟨.obj [], Or.inr ⟨rfl, h⟩, ?_⟩,
    fun h fs hd => Or.inr ⟨.obj [], Or.inr ⟨rfl, h⟩, ?_⟩⟩
  · have := Load.list ty d t vs [] [] hd (.nil t)
    simpa using this
  · exact .map ty d t [] m m hd (.nil t m)
  · exact .obj ty d [] fs fs hd (.nil d fs)

theorem spells_of (o : ROpts) (s : Bytes) (ts : List Tok) (n : Nat)
    (h : (match readAll n (Reader.open o s) with | .ok p => decide (p.1 = ts) && p.2.err.isNone | .error _ => false) = true) :
    Spells o s ts := by
  rw [← C47_tokens_of_text]
  cases hr : readAll n (Reader.open o s) with
  | error e => rw [hr] at h; cases h
  | ok p =>
    rw [hr] at h
    simp only [Bool.and_eq_true, decide_eq_true_eq, Option.isNone_iff_eq_none] at h
    obtain ⟨a, r⟩ := p
    exact ⟨n, r, by rw [hr, ← h.1], h.2⟩

/-- The documents `[]` and `[1,2]` cut down to `[` and `[1`; `[1,` however is reported. -/
example : Early ROpts.default Tok.lbrack [91] ∧ Early ROpts.default Tok.lbrack [91, 49] ∧
    ¬ ∃ x, Cut ROpts.default x [91, 49, 44] := by
  refine ⟨Or.inl (spells_of _ _ _ 5 (by decide +kernel)), Or.inr ⟨Tok.int [49], [49], Or.inl rfl, by simp [NoExp], ?_⟩, ?_⟩
  · refine Reads.cons [] [91] [49] [] _ _ _ Sep.nil Lexeme.arrayStart (by intro h; rcases h with h | h <;> cases h) ?_
    exact Reads.cons [] [49] [] [] _ _ _ Sep.nil (Lexeme.int [49] ⟨49, [], rfl, Or.inr (by intro c hc; simp at hc; subst hc; decide),
      by intro c hc; simp at hc⟩) (follows_of_not_num (by intro c hc; simp at hc)) (Reads.nil [])
  · obtain ⟨y, h, hy⟩ := spells_of ROpts.default [91, 49, 44] [Tok.lbrack, Tok.int [49], Tok.comma] 5 (by decide +kernel)
    have key : ∀ p, ¬ Early ROpts.default p [91, 49, 44] := by
      rintro p (hE | ⟨q, k, _, _, hE⟩)
      · obtain ⟨T2, e, _⟩ := spells_unique hE h
        simp at e
      · obtain ⟨T2, e, _⟩ := spells_unique ⟨[], hE, [], Sep.nil, Or.inl rfl⟩ h
        simp at e
    rintro ⟨x, ⟨_, h⟩ | ⟨_, h⟩⟩
    · exact key _ h
    · exact key _ h

/-! ### C48: duplicate keys -/

/-- In a map the last of several members with the same key wins: what came under the key before, in the text or
in the map, does not matter. -/
theorem C48_map_last_wins (env : Env) (hn : env.Named) (T : TyId → Prop) (hT : env.Closed T) (c : PCache) (hc : Parsers env c)
    (o : ROpts) (ty : TyId) (ht : T ty) (d : TyD) (t : TyId) (hd : env.Has ty d (.map t)) (m : List (Bytes × JV))
    (hm : Ordered m) (s y : Bytes) (l1 l2 : List (Bytes × JTree)) (k : Bytes) (x : JTree)
    (hs : Reads o s (JTree.obj (l1 ++ (k, x) :: l2)).toks y) (hk : k ∉ l2.map (·.1)) (v : JV)
    (h : Accepts env c o ty (.map m) s v) :
    ∃ m' w, v = .map m' ∧ Assoc.get m' k = some w ∧ ∃ ed dflt, env.types[t]? = some ed ∧ ed.make = some dflt ∧
      Load env t dflt x w := by
  rw [C62_document env hn T hT c hc o ty ht _ _ s y _ hs] at h
  obtain ⟨m0, m', h1, h2, h3⟩ := load_map_inv hd h
  injection h1 with h1
  subst h1
  obtain ⟨ed, df, w, g1, g2, g3, g4⟩ := loadEntries_last hk h3 hm
  exact ⟨m', w, h2, g4, ed, df, g1, g2, g3⟩

/-- A field of scalar type gets the value of the last member with its key. -/
theorem C48_field_last_wins (env : Env) (hn : env.Named) (T : TyId → Prop) (hT : env.Closed T) (c : PCache) (hc : Parsers env c)
    (o : ROpts) (ty : TyId) (ht : T ty) (d : TyD) (hd : env.Has ty d .object) (fs : List (Bytes × JV)) (s y : Bytes)
    (l1 l2 : List (Bytes × JTree)) (f : FieldD) (hf : f ∈ d.fields) (a : Bytes) (ha : f.key = some a) (fd : TyD) (sh : Shape)
    (hfd : env.Has f.type fd sh) (hsc : sh.scalar = true) (x : JTree)
    (hs : Reads o s (JTree.obj (l1 ++ (a, x) :: l2)).toks y) (hk : a ∉ l2.map (·.1)) (v : JV)
    (h : Accepts env c o ty (.obj fs) s v) (u : JV) (hu : Assoc.get fs f.name = some u) :
    ∃ fs' w, v = .obj fs' ∧ Assoc.get fs' f.name = some w ∧ ∀ u', Load env f.type u' x w := by
  rw [C62_document env hn T hT c hc o ty ht _ _ s y _ hs] at h
  obtain ⟨fs0, fs', h1, h2, h3⟩ := load_obj_inv hd h
  injection h1 with h1
  subst h1
  obtain ⟨w, g1, g2⟩ := loadMembers_field (hT.keys ty d ht hd) (hn ty d hd.1) hf ha h3 u hu
  have hocc : occurrences a (l1 ++ (a, x) :: l2) = occurrences a l1 ++ [x] := by
    have : occurrences a l2 = [] := by
      unfold occurrences
      rw [List.map_eq_nil_iff, List.filter_eq_nil_iff]
      intro p hp he
      exact hk (List.mem_map.mpr ⟨p, hp, by simpa using he⟩)
    unfold occurrences at this ⊢
    rw [List.filter_append, List.map_append, List.filter_cons_of_pos (by simp), List.map_cons, this]
  rw [hocc] at g2
  exact ⟨fs', w, h2, g1, loadSeq_scalar hfd hsc g2⟩

/-- In an untyped value the first of several members with the same key wins. -/
theorem C48_untyped_first_wins (env : Env) (hn : env.Named) (T : TyId → Prop) (hT : env.Closed T) (c : PCache) (hc : Parsers env c)
    (o : ROpts) (ty : TyId) (ht : T ty) (d : TyD) (hd : env.Has ty d .void) (u : JV) (s y : Bytes)
    (l1 l2 : List (Bytes × JTree)) (k : Bytes) (x : JTree)
    (hs : Reads o s (JTree.obj (l1 ++ (k, x) :: l2)).toks y) (hk : k ∉ l1.map (·.1)) (v : JV)
    (h : Accepts env c o ty u s v) : ∃ m w, v = .map m ∧ Assoc.get m k = some w ∧ Any env x w := by
  rw [C62_document env hn T hT c hc o ty ht _ _ s y _ hs] at h
  have h2 := load_void_inv hd (by simp) h
  cases h2 with
  | obj _ m h3 =>
    obtain ⟨w, g1, g2⟩ := anyMembers_first h3 (by simp [Ordered]) hk rfl
    exact ⟨m, w, rfl, g2, g1⟩

/-! ### C51: members absent from the text -/

/-- Parsing an object text: the object keeps its set of fields; a field none of whose keys occurs keeps its value;
a field whose key occurs has the values of its occurrences loaded into it one after the other. -/
theorem C51_exactly_the_named_fields (env : Env) (hn : env.Named) (T : TyId → Prop) (hT : env.Closed T) (c : PCache)
    (hc : Parsers env c) (o : ROpts) (ty : TyId) (ht : T ty) (d : TyD) (hd : env.Has ty d .object) (fs : List (Bytes × JV))
    (s y : Bytes) (ms : List (Bytes × JTree)) (hs : Reads o s (JTree.obj ms).toks y) (v : JV)
    (h : Accepts env c o ty (.obj fs) s v) :
    ∃ fs', v = .obj fs' ∧ fs'.map (·.1) = fs.map (·.1) ∧
      (∀ k, (∀ f ∈ d.fields, f.name = k → ∀ a, f.key = some a → a ∉ ms.map (·.1)) → Assoc.get fs' k = Assoc.get fs k) ∧
      ∀ f ∈ d.fields, ∀ a, f.key = some a → ∀ u, Assoc.get fs f.name = some u →
        ∃ w, Assoc.get fs' f.name = some w ∧ LoadSeq env f.type u (occurrences a ms) w := by
  rw [C62_document env hn T hT c hc o ty ht _ _ s y _ hs] at h
  obtain ⟨fs0, fs', h1, h2, h3⟩ := load_obj_inv hd h
  injection h1 with h1
  subst h1
  exact ⟨fs', h2, loadMembers_keys h3, fun k hk => loadMembers_keeps h3 hk,
    fun f hf a ha u hu => loadMembers_field (hT.keys ty d ht hd) (hn ty d hd.1) hf ha h3 u hu⟩

theorem loadMembers_filter {td : TyD} : ∀ {ms : List (Bytes × JTree)} {fs fs' : List (Bytes × JV)},
    LoadMembers env td ms fs fs' ↔ LoadMembers env td (ms.filter fun p => decide (p.1 ∈ td.keys)) fs fs' := by
  intro ms
  induction ms with
  | nil => intro fs fs'; exact Iff.rfl
  | cons p ms ih =>
    obtain ⟨a, x⟩ := p
    intro fs fs'
    by_cases ha : a ∈ td.keys
    · rw [List.filter_cons_of_pos (by simpa using ha)]
      constructor
      · intro h
        cases h with
        | unknown _ _ _ _ _ _ h1 _ => exact absurd ha h1
        | known _ _ f _ _ v v' _ _ h1 h2 h3 h4 h5 => exact .known _ _ f _ _ v v' _ _ h1 h2 h3 h4 (ih.mp h5)
      · intro h
        cases h with
        | unknown _ _ _ _ _ _ h1 _ => exact absurd ha h1
        | known _ _ f _ _ v v' _ _ h1 h2 h3 h4 h5 => exact .known _ _ f _ _ v v' _ _ h1 h2 h3 h4 (ih.mpr h5)
    · rw [List.filter_cons_of_neg (by simpa using ha)]
      constructor
      · intro h
        cases h with
        | unknown _ _ _ _ _ _ _ h2 => exact ih.mp h2
        | known _ _ f _ _ v v' _ _ h1 h2 h3 h4 h5 =>
          exact absurd (List.mem_filterMap.mpr ⟨f, h1, h2⟩) ha
      · intro h; exact .unknown _ _ _ _ _ _ ha (ih.mpr h)

/-- Members whose key is no field's do not matter, whatever they hold. -/
theorem C51_unknown_keys_ignored (env : Env) (hn : env.Named) (T : TyId → Prop) (hT : env.Closed T) (c : PCache)
    (hc : Parsers env c) (o : ROpts) (ty : TyId) (ht : T ty) (d : TyD) (hd : env.Has ty d .object) (u v : JV)
    (s y s' y' : Bytes) (ms : List (Bytes × JTree)) (hs : Reads o s (JTree.obj ms).toks y)
    (hs' : Reads o s' (JTree.obj (ms.filter fun p => decide (p.1 ∈ d.keys))).toks y') :
    Accepts env c o ty u s v ↔ Accepts env c o ty u s' v := by
  rw [C62_document env hn T hT c hc o ty ht _ _ s y _ hs, C62_document env hn T hT c hc o ty ht _ _ s' y' _ hs']
  constructor
  · intro h
    obtain ⟨fs, fs', h1, h2, h3⟩ := load_obj_inv hd h
    subst h1 h2
    exact .obj ty d _ fs fs' hd (loadMembers_filter.mp h3)
  · intro h
    obtain ⟨fs, fs', h1, h2, h3⟩ := load_obj_inv hd h
    subst h1 h2
    exact .obj ty d _ fs fs' hd (loadMembers_filter.mpr h3)

/-! ### C66: null, lists and maps -/

/-- `null` clears a pointer, and leaves lists, maps, objects and untyped values as they are; for booleans, numbers and
strings it is refused. -/
theorem C66_null (env : Env) (hn : env.Named) (T : TyId → Prop) (hT : env.Closed T) (c : PCache) (hc : Parsers env c)
    (o : ROpts) (ty : TyId) (ht : T ty) (d : TyD) (sh : Shape) (hd : env.Has ty d sh) (s y : Bytes)
    (hs : Reads o s [Tok.null] y) (u v : JV) :
    Accepts env c o ty u s v ↔
      match sh with
      | .ptr _ => v = .null
      | .list _ => v = u ∧ ∃ vs, u = .list vs
      | .map _ => v = u ∧ ∃ m, u = .map m
      | .object => v = u ∧ ∃ fs, u = .obj fs
      | .void => v = u
      | .bool | .int | .float | .string => False := by
  rw [C62_document env hn T hT c hc o ty ht u v s y .null hs]
  constructor
  · intro h
    cases h with
    | ptrNull _ _ t _ h => cases (has_unique hd h).2; rfl
    | ptr _ _ _ _ _ _ h hx => exact absurd rfl hx
    | ptrNew _ _ _ _ _ _ _ h hx => exact absurd rfl hx
    | listNull _ _ _ vs h => cases (has_unique hd h).2; exact ⟨rfl, vs, rfl⟩
    | mapNull _ _ _ m h => cases (has_unique hd h).2; exact ⟨rfl, m, rfl⟩
    | objNull _ _ fs h => cases (has_unique hd h).2; exact ⟨rfl, fs, rfl⟩
    | voidNull _ _ _ h => cases (has_unique hd h).2; rfl
    | void _ _ _ _ _ h hx => exact absurd rfl hx
  · intro h
    cases sh with
    | ptr t => simp only at h; subst h; exact .ptrNull ty d t u hd
    | list t => obtain ⟨rfl, vs, rfl⟩ := h; exact .listNull ty d t vs hd
    | map t => obtain ⟨rfl, m, rfl⟩ := h; exact .mapNull ty d t m hd
    | object => obtain ⟨rfl, fs, rfl⟩ := h; exact .objNull ty d fs hd
    | void => simp only at h; subst h; exact .voidNull ty d _ hd
    | _ => exact h.elim

theorem loadElems_get {t : TyId} : ∀ {xs : List JTree} {ws : List JV}, LoadElems env t xs ws → ws.length = xs.length ∧
    ∀ (i : Nat) (x : JTree), xs[i]? = some x → ∃ w ed df, ws[i]? = some w ∧ env.types[t]? = some ed ∧ ed.make = some df ∧ Load env t df x w := by
  intro xs
  induction xs with
  | nil => intro ws h; cases h; exact ⟨rfl, fun i x h => by simp at h⟩
  | cons a xs ih =>
    intro ws h
    cases h with
    | cons _ ed df _ _ v vs h1 h2 h3 h4 =>
      obtain ⟨g1, g2⟩ := ih h4
      refine ⟨by simp [g1], fun i x hi => ?_⟩
      cases i with
      | zero => simp at hi; subst hi; exact ⟨v, ed, df, rfl, h1, h2, h3⟩
      | succ i => simpa using g2 i x (by simpa using hi)

/-- The elements of an array are appended, in order, each loaded into a newly constructed value. -/
theorem C66_lists_append (env : Env) (hn : env.Named) (T : TyId → Prop) (hT : env.Closed T) (c : PCache) (hc : Parsers env c)
    (o : ROpts) (ty : TyId) (ht : T ty) (d : TyD) (t : TyId) (hd : env.Has ty d (.list t)) (vs : List JV) (s y : Bytes)
    (xs : List JTree) (hs : Reads o s (JTree.arr xs).toks y) (v : JV) (h : Accepts env c o ty (.list vs) s v) :
    ∃ ws, v = .list (vs ++ ws) ∧ ws.length = xs.length ∧
      ∀ (i : Nat) (x : JTree), xs[i]? = some x → ∃ w ed df, ws[i]? = some w ∧ env.types[t]? = some ed ∧ ed.make = some df ∧ Load env t df x w := by
  rw [C62_document env hn T hT c hc o ty ht _ _ s y _ hs] at h
  obtain ⟨vs0, ws, h1, h2, h3⟩ := load_list_inv hd h
  injection h1 with h1
  subst h1
  exact ⟨ws, h2, loadElems_get h3⟩

/-- The members of an object are merged into a map: keys that do not occur keep their value. -/
theorem C66_maps_merge (env : Env) (hn : env.Named) (T : TyId → Prop) (hT : env.Closed T) (c : PCache) (hc : Parsers env c)
    (o : ROpts) (ty : TyId) (ht : T ty) (d : TyD) (t : TyId) (hd : env.Has ty d (.map t)) (m : List (Bytes × JV))
    (hm : Ordered m) (s y : Bytes) (ms : List (Bytes × JTree)) (hs : Reads o s (JTree.obj ms).toks y) (v : JV)
    (h : Accepts env c o ty (.map m) s v) :
    ∃ m', v = .map m' ∧ Ordered m' ∧ (∀ k, k ∉ ms.map (·.1) → Assoc.get m' k = Assoc.get m k) ∧
      ∀ k, k ∈ ms.map (·.1) → ∃ x w ed df, (k, x) ∈ ms ∧ Assoc.get m' k = some w ∧ env.types[t]? = some ed ∧
        ed.make = some df ∧ Load env t df x w := by
  have h0 := h
  rw [C62_document env hn T hT c hc o ty ht _ _ s y _ hs] at h
  obtain ⟨m0, m', h1, h2, h3⟩ := load_map_inv hd h
  injection h1 with h1
  subst h1
  refine ⟨m', h2, loadEntries_ordered h3 hm, fun k hk => loadEntries_keeps h3 hm hk, fun k hk => ?_⟩
  obtain ⟨l1, x, l2, e, hk2⟩ : ∃ l1 x l2, ms = l1 ++ (k, x) :: l2 ∧ k ∉ l2.map (·.1) := by
    clear h0 h h3 hs
    induction ms with
    | nil => simp at hk
    | cons p ms ih =>
      by_cases h : k ∈ ms.map (·.1)
      · obtain ⟨l1, x, l2, e, g⟩ := ih h
        exact ⟨p :: l1, x, l2, by rw [e]; rfl, g⟩
      · obtain ⟨a, x⟩ := p
        simp only [List.map_cons, List.mem_cons] at hk
        rcases hk with rfl | hk
        · exact ⟨[], x, ms, rfl, h⟩
        · exact absurd hk h
  rw [e] at h3
  obtain ⟨ed, df, w, g1, g2, g3, g4⟩ := loadEntries_last hk2 h3 hm
  exact ⟨x, w, ed, df, by rw [e]; simp, g4, g1, g2, g3⟩

end

/-! ### An example -/
namespace Ex

/-- `{"id":1,"id":2,"zz":[null],"m":{"a":5}}` -/
def text : Bytes := [123, 34, 105, 100, 34, 58, 49, 44, 34, 105, 100, 34, 58, 50, 44, 34, 122, 122, 34, 58, 91, 110, 117, 108, 108, 93,
  44, 34, 109, 34, 58, 123, 34, 97, 34, 58, 53, 125, 125]

def doc : JTree := .obj [([105, 100], .int [49]), ([105, 100], .int [50]), ([122, 122], .arr [.null]),
  ([109], .obj [([97], .int [53])])]

theorem text_reads : ∃ y, Reads ROpts.default text doc.toks y := by
  obtain ⟨y, h, _⟩ := spells_of ROpts.default text doc.toks 30 (by decide +kernel)
  exact ⟨y, h⟩

/-- the value of `leaf 7 .null` after the text was parsed into it -/
def after : JV :=
  .obj [([105, 100], .int 2), ([110, 97, 109, 101], .str [0xC3, 0xA9, 34]), ([116], .list [.str [120], .str []]),
    ([109], .map [([97], .int 5), ([98], .int (-2))]), ([110, 101, 120, 116], .null), ([120], .flt f15)]

theorem intVal1 (c : Byte) (n : Nat) (h : Dec [c] n) (hn : n < 10) : IntVal [c] n :=
  ⟨false, [c], n, rfl, by simp, h, rfl, by omega, by omega⟩

theorem named : env.Named := namedB_spec (by decide)
theorem closed : env.Closed (· < 7) := closedB_spec (by decide)

/-- All the theorems on accepted documents (C48, C51, C62, C66) apply to it: the last `id` wins, `zz` is ignored, `m`
is merged, and the rest is kept. -/
example : Accepts env [] ROpts.default 5 (leaf 7 .null) text after := by
  obtain ⟨y, h⟩ := text_reads
  rw [C62_document env named _ closed [] .fresh _ 5 (by decide) _ _ _ y doc h]
  refine .obj 5 node _ _ _ has5 ?_
  refine .known _ [105, 100] ⟨[105, 100], 0, none⟩ _ _ (.int 7) (.int 1) _ _ (by simp [node]) rfl (by decide)
    (.int 0 _ _ _ 1 has0 rfl (intVal1 49 1 ?_ (by decide))) ?_
  · exact Dec.snoc [] 0 1 .nil (by decide)
  refine .known _ [105, 100] ⟨[105, 100], 0, none⟩ _ _ (.int 1) (.int 2) _ _ (by simp [node]) rfl (by decide)
    (.int 0 _ _ _ 2 has0 rfl (intVal1 50 2 ?_ (by decide))) ?_
  · exact Dec.snoc [] 0 2 .nil (by decide)
  refine .unknown _ _ _ _ _ _ (by decide) ?_
  refine .known _ [109] ⟨[109], 3, none⟩ _ _ (.map [([97], .int 1), ([98], .int (-2))]) (.map [([97], .int 5), ([98], .int (-2))]) _ _
    (by simp [node]) rfl (by decide) (.map 3 _ 0 _ _ _ has3 ?_) ?_
  · refine .cons 0 _ (.int 0) _ _ _ (.int 5) _ _ rfl rfl (.int 0 _ _ _ 5 has0 rfl (intVal1 53 5 ?_ (by decide))) ?_
    · exact Dec.snoc [] 0 5 .nil (by decide)
    · exact .nil _ _
  · exact .nil _ _

/-- Pointers end, so parsing ends (C63), and `stod` neither runs on nor is undefined (C50, C64). -/
example : env.PtrsEnd ∧ ∀ s, env.stod s ≠ .error .diverge ∧ env.stod s ≠ .error .ub := by
  refine ⟨⟨fun t => if t = 4 then 1 else 0, ?_⟩, ?_⟩
  · intro ty d t h
    have hl : ty < 7 := (List.getElem?_eq_some_iff.mp h.1).1
    rcases lt7 ty hl with rfl | rfl | rfl | rfl | rfl | rfl | rfl
    · cases (has_unique has0 h).2
    · cases (has_unique has1 h).2
    · cases (has_unique has2 h).2
    · cases (has_unique has3 h).2
    · cases (has_unique has4 h).2; decide
    · cases (has_unique has5 h).2
    · cases (has_unique has6 h).2
  · intro s
    simp only [env]
    split <;> exact ⟨by simp, by simp⟩

end Ex

end Reflect.Json

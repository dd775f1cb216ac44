import Verif.Lemmas.Json.Fed
import Verif.Lemmas.Json.Cache
import Verif.Lemmas.Json.Write
import Verif.Spec.JsonData
/- Parsing a document into a value makes of it what `Load` says. -/
namespace Reflect.Json

variable {env : Env} {o : ROpts} {c : PCache}

theorem alias?_eq_key (f : FieldD) : f.alias? = f.key := by
  unfold FieldD.alias? FieldD.key
  cases f.json with
  | none => rfl
  | some t => simp only; split <;> (try rfl); split <;> rfl

/-- the class of parser for a kind of type -/
def Shape.pk : Shape → PKind
  | .bool => .bool | .int => .int | .float => .float | .string => .string
  | .ptr _ => .pointer | .list _ => .list | .map _ => .map | .void => .value | .object => .object

theorem is_parserKind {d : TyD} {sh : Shape} (h : d.Is sh) : d.parserKind = sh.pk := by
  have hc : (∀ t, d.json = some t → t.parser = [] ∧ t.printer = []) → d.customParser = [] := by
    intro h
    unfold TyD.customParser
    cases hj : d.json with
    | none => rfl
    | some t => exact (h t hj).1
  have go : ∀ {b1 b2 b3 b4 b5 b6 b7 b8 : Bool}, d.flags = [b1, b2, b3, b4, b5, b6, b7, b8] →
      d.parserKind = (if b1 then .bool else if b3 then .float else if b2 then .int else if b4 then .string
        else if b5 then .pointer else if b6 then .map else if b7 then .list
        else if d.customParser ≠ [] then .custom else if b8 then .value else .object) := by
    intro b1 b2 b3 b4 b5 b6 b7 b8 h1
    simp only [TyD.flags, List.cons.injEq, and_true] at h1
    obtain ⟨a1, a2, a3, a4, a5, a6, a7, a8⟩ := h1
    unfold TyD.parserKind
    rw [a1, a2, a3, a4, a5, a6, a7, a8]
  cases h with
  | void h1 h2 => rw [go h1, hc h2]; rfl
  | object h1 h2 => rw [go h1, hc h2]; rfl
  | ptr _ h1 _ => rw [go h1]; rfl
  | map _ h1 _ => rw [go h1]; rfl
  | list _ h1 _ => rw [go h1]; rfl
  | _ h1 => rw [go h1]; rfl

/-! ### Scalars -/

section
variable {ts : List Tok} {y : Bytes} {r : Reader}

theorem parseBool_fed {b : Bool} (h : Fed o (Tok.bool b :: ts) y r) : ∃ r', parseBool r = .ok (b, r') ∧ FedR o ts y r' := by
  obtain ⟨r', h1, h2, _⟩ := Fed.expect (x := .bool) h rfl
  refine ⟨r', ?_, h2⟩
  unfold parseBool
  rw [h1, okb]
  unfold Token.asBool
  cases b <;> rfl

theorem parseNull_fed (h : Fed o (Tok.null :: ts) y r) : ∃ r', parseNull r = .ok r' ∧ FedR o ts y r' := by
  obtain ⟨r', h1, h2, _⟩ := Fed.expect (x := .null) h rfl
  refine ⟨r', ?_, h2⟩
  unfold parseNull
  rw [h1, okb]

theorem stol_intVal {s : Bytes} {i : Int} (h : IntVal s i) : stol s = .ok i := by
  obtain ⟨neg, ds, n, rfl, hne, hd, hi, h1, h2⟩ := h
  obtain ⟨g1, g2⟩ := dec_spec hd
  subst hi
  cases neg with
  | true =>
    unfold stol
    simp only [if_true, List.cons_append, List.nil_append, List.head?_cons, List.tail_cons, decide_true]
    rw [if_neg hne, g2]
    exact if_pos ⟨h1, h2⟩
  | false =>
    have hhd : ¬ (ds.head? = some 45) := by
      cases ds with
      | nil => exact absurd rfl hne
      | cons c ds =>
        intro hh
        simp at hh
        have := (g1 c (by simp)).1
        rw [hh] at this
        exact absurd this (by decide)
    unfold stol
    simp only [Bool.false_eq_true, if_false, List.nil_append, hhd, decide_false]
    rw [if_neg hne, g2]
    exact if_pos ⟨h1, h2⟩

theorem parseInt_fed {s : Bytes} {i : Int} (hi : IntVal s i) (h : Fed o (Tok.int s :: ts) y r) :
    ∃ r', parseInt r = .ok (i, r') ∧ FedR o ts y r' := by
  obtain ⟨r', h1, h2, h3⟩ := Fed.expect (x := .int) h rfl
  refine ⟨r', ?_, h2⟩
  unfold parseInt
  rw [h1, okb]
  unfold Token.asInt
  simp only [if_true, h3 s rfl, stol_intVal hi]
  rfl

theorem parseFloat_fed {s : Bytes} (h : Fed o (Tok.float s :: ts) y r) :
    ∃ r', parseFloatText r = .ok (s, r') ∧ FedR o ts y r' := by
  obtain ⟨r', h1, h2, h3⟩ := Fed.next h
  refine ⟨r', ?_, h2⟩
  unfold parseFloatText
  rw [h1, okb]
  unfold Token.asFloatText Reader.assertToken
  simp [h3 s rfl]
  rfl

theorem parseString_fed {s : Bytes} (h : Fed o (Tok.str s :: ts) y r) :
    ∃ r', parseString r = .ok (s, r') ∧ FedR o ts y r' := by
  obtain ⟨r', h1, h2, h3⟩ := Fed.expect (x := .string) h rfl
  refine ⟨r', ?_, h2⟩
  unfold parseString
  rw [h1, okb]
  unfold Token.asString
  simp only [if_true, h3 s rfl]
  rfl

theorem parseArray_null {σ : Type} {fn : Nat → σ → Reader → Res (σ × Reader)} {n : Nat} {a : σ}
    (h : Fed o (Tok.null :: ts) y r) : ∃ r', parseArray fn n a r = .ok (a, r') ∧ FedR o ts y r' := by
  obtain ⟨r', h1, h2, _⟩ := Fed.next h
  refine ⟨r', ?_, h2⟩
  unfold parseArray
  rw [h1, okb]
  rfl

theorem parseObject_null {σ : Type} {fn : Bytes → σ → Reader → Res (σ × Reader)} {n : Nat} {a : σ}
    (h : Fed o (Tok.null :: ts) y r) : ∃ r', parseObject fn n a r = .ok (a, r') ∧ FedR o ts y r' := by
  obtain ⟨r', h1, h2, _⟩ := Fed.next h
  refine ⟨r', ?_, h2⟩
  unfold parseObject
  rw [h1, okb]
  rfl
end

/-! ### Containers -/

/-- Fed the tokens of `x` and something more, the call-back takes the state `a` to `a'`. -/
def StepTo {σ : Type} (o : ROpts) (fn : σ → Reader → Res (σ × Reader)) (x : JTree) (a a' : σ) : Prop :=
  ∀ (r : Reader) (ts : List Tok) (y : Bytes), ts ≠ [] → Fed o (x.toks ++ ts) y r →
    ∃ r', fn a r = .ok (a', r') ∧ FedR o ts y r'

/-- The call-back takes the state through the items one after the other. -/
def StepsTo {σ κ : Type} (o : ROpts) (fn : κ → σ → Reader → Res (σ × Reader)) : List (κ × JTree) → σ → σ → Prop
  | [], a, a' => a = a'
  | (k, x) :: ms, a, a' => ∃ b, StepTo o (fn k) x a b ∧ StepsTo o fn ms b a'

theorem parseObject_steps {σ : Type} {fn : Bytes → σ → Reader → Res (σ × Reader)} {ms : List (Bytes × JTree)}
    {a a' : σ} {n : Nat} {r : Reader} {ts : List Tok} {y : Bytes} (h : StepsTo o fn ms a a') (hn : ms.length ≤ n)
    (hf : Fed o ((JTree.obj ms).toks ++ ts) y r) : ∃ r', parseObject fn n a r = .ok (a', r') ∧ FedR o ts y r' := by
  have hf' : Fed o (Tok.lbrace :: (commas (ms.map fun m => Tok.str m.1 :: Tok.colon :: m.2.toks) ++ Tok.rbrace :: ts)) y r := by
    simpa [JTree.toks, members_map] using hf
  obtain ⟨b, r', h1, h2, h3⟩ := parseObject_fed (o := o) (fn := fn) (key := Prod.fst)
    (tk := fun m : Bytes × JTree => m.2.toks) (I := fun l s => StepsTo o fn l s a') ms n a r (by
      rintro ⟨k, x⟩ l s r ts hs ⟨b, h1, h2⟩ hts hf
      obtain ⟨r', e1, e2⟩ := h1 r ts _ hts hf.fed
      exact ⟨b, r', e1, e2, h2⟩) hn h hf'
  have h3' : b = a' := h3
  subst h3'
  exact ⟨r', h1, h2⟩

theorem parseArray_steps {σ : Type} {fn : σ → Reader → Res (σ × Reader)} {xs : List JTree}
    {a a' : σ} {n : Nat} {r : Reader} {ts : List Tok} {y : Bytes}
    (h : StepsTo o (fun (_ : Unit) => fn) (xs.map fun x => ((), x)) a a') (hn : xs.length ≤ n)
    (hf : Fed o ((JTree.arr xs).toks ++ ts) y r) :
    ∃ r', parseArray (fun _ => fn) n a r = .ok (a', r') ∧ FedR o ts y r' := by
  have hf' : Fed o (Tok.lbrack :: (commas (xs.map JTree.toks) ++ Tok.rbrack :: ts)) y r := by
    simpa [JTree.toks, elems_map] using hf
  obtain ⟨b, r', h1, h2, h3⟩ := parseArray_fed (o := o) (fn := fun _ => fn)
    (tk := JTree.toks) (I := fun l s => StepsTo o (fun (_ : Unit) => fn) (l.map fun x => ((), x)) s a') xs n a r (by
      rintro x l i s r ts hs ⟨b, h1, h2⟩ hts hf
      obtain ⟨r', e1, e2⟩ := h1 r ts _ hts hf
      exact ⟨b, r', e1, e2, h2⟩) (fun x _ => toks_head x) hn h hf'
  have h3' : b = a' := h3
  subst h3'
  exact ⟨r', h1, h2⟩

/-! ### Untyped values -/

/-- what an untyped value becomes -/
def anyResult (x : JTree) (v0 v : JV) : JV := match x with | .null => v0 | _ => v

mutual
theorem any_parse (env : Env) (o : ROpts) : ∀ {x : JTree} {v : JV}, Any env x v → ∃ n0, ∀ n, n0 ≤ n →
    ∀ (v0 : JV) (r : Reader) (ts : List Tok) (y : Bytes), Fed o (x.toks ++ ts) y r →
    ∃ r', parseUntyped env n v0 r = .ok (anyResult x v0 v, r') ∧ FedR o ts y r'
  | _, _, .null => by
    refine ⟨1, fun n hn v0 r ts y hf => ?_⟩
    obtain ⟨n, rfl⟩ : ∃ k, n = k + 1 := ⟨n - 1, by omega⟩
    obtain ⟨r1, e1, e2, _⟩ := Fed.peek hf
    obtain ⟨r2, e3, e4⟩ := parseNull_fed e2
    refine ⟨r2, ?_, e4⟩
    unfold parseUntyped
    rw [e1, okb]
    simp only
    rw [e3, okb]
    rfl
  | _, _, .bool b => by
    refine ⟨1, fun n hn v0 r ts y hf => ?_⟩
    obtain ⟨n, rfl⟩ : ∃ k, n = k + 1 := ⟨n - 1, by omega⟩
    obtain ⟨r1, e1, e2, _⟩ := Fed.peek hf
    obtain ⟨r2, e3, e4⟩ := parseBool_fed e2
    refine ⟨r2, ?_, e4⟩
    unfold parseUntyped
    rw [e1, okb]
    simp only
    rw [e3, okb]
    rfl
  | _, _, .int s i hi => by
    refine ⟨1, fun n hn v0 r ts y hf => ?_⟩
    obtain ⟨n, rfl⟩ : ∃ k, n = k + 1 := ⟨n - 1, by omega⟩
    obtain ⟨r1, e1, e2, _⟩ := Fed.peek hf
    obtain ⟨r2, e3, e4⟩ := parseInt_fed hi e2
    refine ⟨r2, ?_, e4⟩
    unfold parseUntyped
    rw [e1, okb]
    simp only
    rw [e3, okb]
    rfl
  | _, _, .float s x hx => by
    refine ⟨1, fun n hn v0 r ts y hf => ?_⟩
    obtain ⟨n, rfl⟩ : ∃ k, n = k + 1 := ⟨n - 1, by omega⟩
    obtain ⟨r1, e1, e2, _⟩ := Fed.peek hf
    obtain ⟨r2, e3, e4⟩ := parseFloat_fed e2
    refine ⟨r2, ?_, e4⟩
    unfold parseUntyped
    rw [e1, okb]
    simp only
    rw [e3, okb, hx, okb]
    rfl
  | _, _, .str s => by
    refine ⟨1, fun n hn v0 r ts y hf => ?_⟩
    obtain ⟨n, rfl⟩ : ∃ k, n = k + 1 := ⟨n - 1, by omega⟩
    obtain ⟨r1, e1, e2, _⟩ := Fed.peek hf
    obtain ⟨r2, e3, e4⟩ := parseString_fed e2
    refine ⟨r2, ?_, e4⟩
    unfold parseUntyped
    rw [e1, okb]
    simp only
    rw [e3, okb]
    rfl
  | _, _, .arr xs vs h => by
    obtain ⟨n0, h0⟩ := anyElems_parse env o h
    refine ⟨n0 + xs.length + 1, fun n hn v0 r ts y hf => ?_⟩
    obtain ⟨n, rfl⟩ : ∃ k, n = k + 1 := ⟨n - 1, by omega⟩
    have hf' := hf
    simp only [JTree.toks, List.cons_append] at hf'
    obtain ⟨r1, e1, e2, _⟩ := Fed.peek hf'
    obtain ⟨r2, e3, e4⟩ := parseArray_steps (n := n) (h0 n (by omega) []) (by omega) (r := r1) (ts := ts) (y := y) (by
      simp only [JTree.toks, List.cons_append]; exact e2)
    refine ⟨r2, ?_, e4⟩
    unfold parseUntyped
    rw [e1, okb]
    simp only
    rw [e3, okb]
    rfl
  | _, _, .obj ms m h => by
    obtain ⟨n0, h0⟩ := anyMembers_parse env o h
    refine ⟨n0 + ms.length + 1, fun n hn v0 r ts y hf => ?_⟩
    obtain ⟨n, rfl⟩ : ∃ k, n = k + 1 := ⟨n - 1, by omega⟩
    have hf' := hf
    simp only [JTree.toks, List.cons_append] at hf'
    obtain ⟨r1, e1, e2, _⟩ := Fed.peek hf'
    obtain ⟨r2, e3, e4⟩ := parseObject_steps (n := n) (h0 n (by omega)) (by omega) (r := r1) (ts := ts) (y := y) (by
      simp only [JTree.toks, List.cons_append]; exact e2)
    refine ⟨r2, ?_, e4⟩
    unfold parseUntyped
    rw [e1, okb]
    simp only
    rw [e3, okb]
    rfl
theorem anyElems_parse (env : Env) (o : ROpts) : ∀ {xs : List JTree} {vs : List JV}, AnyElems env xs vs → ∃ n0,
    ∀ n, n0 ≤ n → ∀ us : List JV, StepsTo o (fun (_ : Unit) (vs : List JV) r => do
        let q ← parseUntyped env n .void r
        .ok (vs ++ [q.1], q.2)) (xs.map fun x => ((), x)) us (us ++ vs)
  | _, _, .nil => ⟨0, fun n _ us => by simp [StepsTo]⟩
  | _, _, .cons x xs v vs h1 h2 => by
    obtain ⟨n1, e1⟩ := any_parse env o h1
    obtain ⟨n2, e2⟩ := anyElems_parse env o h2
    refine ⟨n1 + n2, fun n hn us => ⟨us ++ [v], ?_, ?_⟩⟩
    · intro r ts y _ hf
      obtain ⟨r', g1, g2⟩ := e1 n (by omega) .void r ts y hf
      refine ⟨r', ?_, g2⟩
      simp only
      rw [g1, okb]
      cases h1 <;> rfl
    · have := e2 n (by omega) (us ++ [v])
      rw [List.append_assoc] at this
      exact this
theorem anyMembers_parse (env : Env) (o : ROpts) : ∀ {ms : List (Bytes × JTree)} {m m' : List (Bytes × JV)},
    AnyMembers env ms m m' → ∃ n0, ∀ n, n0 ≤ n → StepsTo o (fun k (m : List (Bytes × JV)) r => do
        let q ← parseUntyped env n .void r
        .ok (mapEmplace m k q.1, q.2)) ms m m'
  | _, _, _, .nil m => ⟨0, fun n _ => rfl⟩
  | _, _, _, .cons k x ms v m m' h1 h2 => by
    obtain ⟨n1, e1⟩ := any_parse env o h1
    obtain ⟨n2, e2⟩ := anyMembers_parse env o h2
    refine ⟨n1 + n2, fun n hn => ⟨mapEmplace m k v, ?_, e2 n (by omega)⟩⟩
    intro r ts y _ hf
    obtain ⟨r', g1, g2⟩ := e1 n (by omega) .void r ts y hf
    refine ⟨r', ?_, g2⟩
    simp only
    rw [g1, okb]
    cases h1 <;> rfl
end


/-! ### Typed values -/

/-- the parser of a type of a given kind in a good cache -/
theorem good_get (hc : Good env c) {ty : TyId} {td : TyD} {sh : Shape} (h : env.Has ty td sh)
    (hs : (Assoc.get c ty).isSome) : ∃ st, Assoc.get c ty = some st ∧ st.kind = sh.pk ∧
      (∀ t, sh = .ptr t ∨ sh = .list t ∨ sh = .map t → st.inner = some t ∧ (Assoc.get c t).isSome) ∧
      (sh = .object → (∀ f ∈ td.fields, ∀ a, f.key = some a → Assoc.get st.keys a = some f.name ∧
          Assoc.get st.fields f.name = some f.type ∧ (Assoc.get c f.type).isSome) ∧
        (∀ a, a ∉ td.keys → Assoc.get st.keys a = none)) := by
  cases hx : Assoc.get c ty with
  | none => rw [hx] at hs; cases hs
  | some st =>
    obtain ⟨d, h1, h2, h3, h4, h5, h6⟩ := hc ty st hx
    obtain ⟨g1, g2⟩ := h
    rw [h1] at g1; injection g1 with g1; subst g1
    have hk := is_parserKind g2
    refine ⟨st, rfl, h2.trans hk, ?_, ?_⟩
    · intro t ht
      rcases ht with rfl | rfl | rfl
      · obtain ⟨t', e1, e2, e3⟩ := h3 hk
        cases g2 with
        | ptr _ _ hp => rw [hp] at e1; injection e1 with e1; subst e1; exact ⟨e2, e3⟩
      · obtain ⟨t', e1, e2, e3⟩ := h4 (Or.inr hk)
        cases g2 with
        | list _ _ hp => rw [hp] at e1; injection e1 with e1; subst e1; exact ⟨e2, e3⟩
      · obtain ⟨t', e1, e2, e3⟩ := h4 (Or.inl hk)
        cases g2 with
        | map _ _ hp => rw [hp] at e1; injection e1 with e1; subst e1; exact ⟨e2, e3⟩
    · rintro rfl
      obtain ⟨e1, e2⟩ := h5 hk
      refine ⟨fun f hf a ha => e1 f hf a (by rw [alias?_eq_key]; exact ha), ?_⟩
      intro a ha
      cases hy : Assoc.get st.keys a with
      | none => rfl
      | some k =>
        obtain ⟨f, hf, hfa, _⟩ := e2 a k hy
        rw [alias?_eq_key] at hfa
        exact absurd (List.mem_filterMap.mpr ⟨f, hf, hfa⟩) ha

theorem exact_has {ty : TyId} {td : TyD} {sh : Shape} (h : env.Has ty td sh) (he : td.exact = true) :
    env.exact ty = true := by
  unfold Env.exact; rw [h.1]; exact he

theorem construct_eq {t : TyId} {ed : TyD} {d : JV} (h1 : env.types[t]? = some ed) (h2 : ed.make = some d) :
    env.construct t = .ok d := by
  unfold Env.construct; rw [h1]; simp only; rw [h2]

/-- what the parser of `ty` does with the document `x` -/
def Parses (env : Env) (o : ROpts) (c : PCache) (ty : TyId) (d : JV) (x : JTree) (v : JV) (n : Nat) : Prop :=
  ∀ (r : Reader) (ts : List Tok) (y : Bytes), Fed o (x.toks ++ ts) y r →
    ∃ r', parseV env c n ty d r = .ok (v, r') ∧ FedR o ts y r'

/-- the call-back of `MapParser` -/
def mapFn (env : Env) (c : PCache) (n : Nat) (t : TyId) (k : Bytes) (m : List (Bytes × JV)) (r : Reader) :
    Res (List (Bytes × JV) × Reader) := do
  let d ← env.construct t
  let q ← parseV env c n t d r
  if q.2.ok then .ok (mapSet m k q.1, q.2) else .ok (m, q.2)

/-- the call-back of `ListParser` -/
def listFn (env : Env) (c : PCache) (n : Nat) (t : TyId) (vs : List JV) (r : Reader) : Res (List JV × Reader) := do
  let m ← env.construct t
  let q ← parseV env c n t m r
  if q.2.ok then .ok (vs ++ [q.1], q.2) else .ok (vs, q.2)

/-- the call-back of `ObjectParser` -/
def objFn (env : Env) (c : PCache) (n : Nat) (st : PState) (a : Bytes) (fs : List (Bytes × JV)) (r : Reader) :
    Res (List (Bytes × JV) × Reader) :=
  match Assoc.get st.keys a with
  | none => do
    let r ← skip n r
    .ok (fs, r)
  | some k =>
    match Assoc.get st.fields k with
    | none => .error .err
    | some t =>
      match Assoc.get fs k with
      | none => .error .err
      | some x => do
        let q ← parseV env c n t x r
        .ok (objSet fs k q.1, q.2)

theorem peek_not_null {x : JTree} (hx : x ≠ .null) {r : Reader} {ts : List Tok} {y : Bytes}
    (h : Fed o (x.toks ++ ts) y r) :
    ∃ p r', r.peekToken = .ok (p, r') ∧ p.type ≠ .null ∧ Fed o (x.toks ++ ts) y r' := by
  have aux : ∀ (t : Token) (v : Option Bytes) (l : List Tok), x.toks = (t, v) :: l → t.type ≠ .null →
      ∃ p r', r.peekToken = .ok (p, r') ∧ p.type ≠ .null ∧ Fed o (x.toks ++ ts) y r' := by
    intro t v l e ht
    rw [e] at h ⊢
    obtain ⟨r', e1, e2, _⟩ := Fed.peek h
    exact ⟨t, r', e1, ht, e2⟩
  cases x with
  | null => exact absurd rfl hx
  | _ => exact aux _ _ _ rfl (by simp)

mutual
theorem load_parse (hc : Good env c) (o : ROpts) : ∀ {ty : TyId} {d : JV} {x : JTree} {v : JV}, Load env ty d x v →
    (Assoc.get c ty).isSome → ∃ n0, ∀ n, n0 ≤ n → Parses env o c ty d x v n
  | _, _, _, _, .bool ty td d b h he, hs => by
    refine ⟨1, fun n hn r ts y hf => ?_⟩
    obtain ⟨n, rfl⟩ : ∃ k, n = k + 1 := ⟨n - 1, by omega⟩
    obtain ⟨st, g1, g2, _⟩ := good_get hc h hs
    obtain ⟨r2, e3, e4⟩ := parseBool_fed hf
    refine ⟨r2, ?_, e4⟩
    unfold parseV
    simp only [g1, g2, Shape.pk]
    rw [e3, okb, if_pos (exact_has h he)]
  | _, _, _, _, .int ty td d s i h he hi, hs => by
    refine ⟨1, fun n hn r ts y hf => ?_⟩
    obtain ⟨n, rfl⟩ : ∃ k, n = k + 1 := ⟨n - 1, by omega⟩
    obtain ⟨st, g1, g2, _⟩ := good_get hc h hs
    obtain ⟨r2, e3, e4⟩ := parseInt_fed hi hf
    refine ⟨r2, ?_, e4⟩
    unfold parseV
    simp only [g1, g2, Shape.pk]
    rw [e3, okb, if_pos (exact_has h he)]
  | _, _, _, _, .float ty td d s x h he hx, hs => by
    refine ⟨1, fun n hn r ts y hf => ?_⟩
    obtain ⟨n, rfl⟩ : ∃ k, n = k + 1 := ⟨n - 1, by omega⟩
    obtain ⟨st, g1, g2, _⟩ := good_get hc h hs
    obtain ⟨r2, e3, e4⟩ := parseFloat_fed hf
    refine ⟨r2, ?_, e4⟩
    unfold parseV
    simp only [g1, g2, Shape.pk]
    rw [e3, okb, hx, okb, if_pos (exact_has h he)]
  | _, _, _, _, .str ty td d s h he, hs => by
    refine ⟨1, fun n hn r ts y hf => ?_⟩
    obtain ⟨n, rfl⟩ : ∃ k, n = k + 1 := ⟨n - 1, by omega⟩
    obtain ⟨st, g1, g2, _⟩ := good_get hc h hs
    obtain ⟨r2, e3, e4⟩ := parseString_fed hf
    refine ⟨r2, ?_, e4⟩
    unfold parseV
    simp only [g1, g2, Shape.pk]
    rw [e3, okb, if_pos (exact_has h he)]
  | _, _, _, _, .ptrNull ty td t d h, hs => by
    refine ⟨1, fun n hn r ts y hf => ?_⟩
    obtain ⟨n, rfl⟩ : ∃ k, n = k + 1 := ⟨n - 1, by omega⟩
    obtain ⟨st, g1, g2, _⟩ := good_get hc h hs
    obtain ⟨r1, e1, e2, _⟩ := Fed.peek hf
    obtain ⟨r2, e3, e4, _⟩ := Fed.next e2
    refine ⟨r2, ?_, e4⟩
    unfold parseV
    simp only [g1, g2, Shape.pk]
    rw [e1, okb]
    simp only [if_true]
    rw [e3, okb]
  | _, _, _, _, .ptr ty td t d v x h hx hl, hs => by
    obtain ⟨st, g1, g2, g3, _⟩ := good_get hc h hs
    obtain ⟨g4, g5⟩ := g3 t (Or.inl rfl)
    obtain ⟨n0, h0⟩ := load_parse hc o hl g5
    refine ⟨n0 + 1, fun n hn r ts y hf => ?_⟩
    obtain ⟨n, rfl⟩ : ∃ k, n = k + 1 := ⟨n - 1, by omega⟩
    obtain ⟨p, r1, e1, e2, e3⟩ := peek_not_null hx hf
    obtain ⟨r2, e4, e5⟩ := h0 n (by omega) r1 ts y e3
    refine ⟨r2, ?_, e5⟩
    unfold parseV
    simp only [g1, g2, Shape.pk]
    rw [e1, okb]
    simp only
    rw [if_neg e2, g4]
    simp only
    rw [e4, okb]
  | _, _, _, _, .ptrNew ty td t ed d v x h hx he1 he2 he3 hl, hs => by
    obtain ⟨st, g1, g2, g3, _⟩ := good_get hc h hs
    obtain ⟨g4, g5⟩ := g3 t (Or.inl rfl)
    obtain ⟨n0, h0⟩ := load_parse hc o hl g5
    refine ⟨n0 + 1, fun n hn r ts y hf => ?_⟩
    obtain ⟨n, rfl⟩ : ∃ k, n = k + 1 := ⟨n - 1, by omega⟩
    obtain ⟨p, r1, e1, e2, e3⟩ := peek_not_null hx hf
    obtain ⟨r2, e4, e5⟩ := h0 n (by omega) r1 ts y e3
    refine ⟨r2, ?_, e5⟩
    have ha : env.allocate t = .ok d := by
      unfold Env.allocate
      rw [he1]; simp only; rw [if_pos he2, construct_eq he1 he3]
    unfold parseV
    simp only [g1, g2, Shape.pk]
    rw [e1, okb]
    simp only
    rw [if_neg e2, g4]
    simp only
    rw [ha, okb, e4, okb]
  | _, _, _, _, .listNull ty td t vs h, hs => by
    obtain ⟨st, g1, g2, g3, _⟩ := good_get hc h hs
    obtain ⟨g4, g5⟩ := g3 t (Or.inr (Or.inl rfl))
    refine ⟨1, fun n hn r ts y hf => ?_⟩
    obtain ⟨n, rfl⟩ : ∃ k, n = k + 1 := ⟨n - 1, by omega⟩
    obtain ⟨r2, e3, e4⟩ := parseArray_null (fn := fun _ => listFn env c n t) (n := n) (a := vs) hf
    refine ⟨r2, ?_, e4⟩
    unfold parseV
    simp only [g1, g2, Shape.pk, g4]
    show (parseArray (fun _ => listFn env c n t) n vs r >>= _) = _
    rw [e3, okb]
  | _, _, _, _, .list ty td t vs ws xs h hl, hs => by
    obtain ⟨st, g1, g2, g3, _⟩ := good_get hc h hs
    obtain ⟨g4, g5⟩ := g3 t (Or.inr (Or.inl rfl))
    obtain ⟨n0, h0⟩ := loadElems_parse hc o hl g5
    refine ⟨n0 + xs.length + 1, fun n hn r ts y hf => ?_⟩
    obtain ⟨n, rfl⟩ : ∃ k, n = k + 1 := ⟨n - 1, by omega⟩
    obtain ⟨r2, e3, e4⟩ := parseArray_steps (n := n) (h0 n (by omega) vs) (by omega) hf
    refine ⟨r2, ?_, e4⟩
    unfold parseV
    simp only [g1, g2, Shape.pk, g4]
    show (parseArray (fun _ => listFn env c n t) n vs r >>= _) = _
    rw [e3, okb]
  | _, _, _, _, .mapNull ty td t m h, hs => by
    obtain ⟨st, g1, g2, g3, _⟩ := good_get hc h hs
    obtain ⟨g4, g5⟩ := g3 t (Or.inr (Or.inr rfl))
    refine ⟨1, fun n hn r ts y hf => ?_⟩
    obtain ⟨n, rfl⟩ : ∃ k, n = k + 1 := ⟨n - 1, by omega⟩
    obtain ⟨r2, e3, e4⟩ := parseObject_null (fn := mapFn env c n t) (n := n) (a := m) hf
    refine ⟨r2, ?_, e4⟩
    unfold parseV
    simp only [g1, g2, Shape.pk, g4]
    show (parseObject (mapFn env c n t) n m r >>= _) = _
    rw [e3, okb]
  | _, _, _, _, .map ty td t ms m m' h hl, hs => by
    obtain ⟨st, g1, g2, g3, _⟩ := good_get hc h hs
    obtain ⟨g4, g5⟩ := g3 t (Or.inr (Or.inr rfl))
    obtain ⟨n0, h0⟩ := loadEntries_parse hc o hl g5
    refine ⟨n0 + ms.length + 1, fun n hn r ts y hf => ?_⟩
    obtain ⟨n, rfl⟩ : ∃ k, n = k + 1 := ⟨n - 1, by omega⟩
    obtain ⟨r2, e3, e4⟩ := parseObject_steps (n := n) (h0 n (by omega)) (by omega) hf
    refine ⟨r2, ?_, e4⟩
    unfold parseV
    simp only [g1, g2, Shape.pk, g4]
    show (parseObject (mapFn env c n t) n m r >>= _) = _
    rw [e3, okb]
  | _, _, _, _, .objNull ty td fs h, hs => by
    obtain ⟨st, g1, g2, g3, _⟩ := good_get hc h hs
    refine ⟨1, fun n hn r ts y hf => ?_⟩
    obtain ⟨n, rfl⟩ : ∃ k, n = k + 1 := ⟨n - 1, by omega⟩
    obtain ⟨r2, e3, e4⟩ := parseObject_null (fn := objFn env c n st) (n := n) (a := fs) hf
    refine ⟨r2, ?_, e4⟩
    unfold parseV
    simp only [g1, g2, Shape.pk]
    show (parseObject (objFn env c n st) n fs r >>= _) = _
    rw [e3, okb]
  | _, _, _, _, .obj ty td ms fs fs' h hl, hs => by
    obtain ⟨st, g1, g2, _, g3⟩ := good_get hc h hs
    obtain ⟨n0, h0⟩ := loadMembers_parse hc o hl st (g3 rfl)
    refine ⟨n0 + ms.length + 1, fun n hn r ts y hf => ?_⟩
    obtain ⟨n, rfl⟩ : ∃ k, n = k + 1 := ⟨n - 1, by omega⟩
    obtain ⟨r2, e3, e4⟩ := parseObject_steps (n := n) (h0 n (by omega)) (by omega) hf
    refine ⟨r2, ?_, e4⟩
    unfold parseV
    simp only [g1, g2, Shape.pk]
    show (parseObject (objFn env c n st) n fs r >>= _) = _
    rw [e3, okb]
  | _, _, _, _, .voidNull ty td d h, hs => by
    obtain ⟨n0, h0⟩ := any_parse env o (Any.null (env := env))
    refine ⟨n0 + 1, fun n hn r ts y hf => ?_⟩
    obtain ⟨n, rfl⟩ : ∃ k, n = k + 1 := ⟨n - 1, by omega⟩
    obtain ⟨st, g1, g2, _⟩ := good_get hc h hs
    obtain ⟨r2, e3, e4⟩ := h0 n (by omega) d r ts y hf
    refine ⟨r2, ?_, e4⟩
    unfold parseV
    simp only [g1, g2, Shape.pk]
    rw [e3]; rfl
  | _, _, _, _, .void ty td d x v h hx ha, hs => by
    obtain ⟨n0, h0⟩ := any_parse env o ha
    refine ⟨n0 + 1, fun n hn r ts y hf => ?_⟩
    obtain ⟨n, rfl⟩ : ∃ k, n = k + 1 := ⟨n - 1, by omega⟩
    obtain ⟨st, g1, g2, _⟩ := good_get hc h hs
    obtain ⟨r2, e3, e4⟩ := h0 n (by omega) d r ts y hf
    refine ⟨r2, ?_, e4⟩
    unfold parseV
    simp only [g1, g2, Shape.pk]
    rw [e3]
    cases x with
    | null => exact absurd rfl hx
    | _ => rfl
theorem loadElems_parse (hc : Good env c) (o : ROpts) : ∀ {t : TyId} {xs : List JTree} {ws : List JV},
    LoadElems env t xs ws → (Assoc.get c t).isSome → ∃ n0, ∀ n, n0 ≤ n → ∀ vs : List JV,
      StepsTo o (fun (_ : Unit) => listFn env c n t) (xs.map fun x => ((), x)) vs (vs ++ ws)
  | _, _, _, .nil t, _ => ⟨0, fun n _ us => by simp [StepsTo]⟩
  | _, _, _, .cons t ed d x xs v vs h1 h2 h3 h4, hs => by
    obtain ⟨n1, e1⟩ := load_parse hc o h3 hs
    obtain ⟨n2, e2⟩ := loadElems_parse hc o h4 hs
    refine ⟨n1 + n2, fun n hn us => ⟨us ++ [v], ?_, ?_⟩⟩
    · intro r ts y hts hf
      obtain ⟨r', g1, g2⟩ := e1 n (by omega) r ts y hf
      refine ⟨r', ?_, g2⟩
      unfold listFn
      simp only
      rw [construct_eq h1 h2, okb, g1, okb]
      exact if_pos (g2.ok (Or.inl hts))
    · have := e2 n (by omega) (us ++ [v])
      rw [List.append_assoc] at this
      exact this
theorem loadEntries_parse (hc : Good env c) (o : ROpts) : ∀ {t : TyId} {ms : List (Bytes × JTree)}
    {m m' : List (Bytes × JV)}, LoadEntries env t ms m m' → (Assoc.get c t).isSome → ∃ n0, ∀ n, n0 ≤ n →
      StepsTo o (mapFn env c n t) ms m m'
  | _, _, _, _, .nil t m, _ => ⟨0, fun n _ => rfl⟩
  | _, _, _, _, .cons t ed d k x ms v m m' h1 h2 h3 h4, hs => by
    obtain ⟨n1, e1⟩ := load_parse hc o h3 hs
    obtain ⟨n2, e2⟩ := loadEntries_parse hc o h4 hs
    refine ⟨n1 + n2, fun n hn => ⟨mapSet m k v, ?_, e2 n (by omega)⟩⟩
    intro r ts y hts hf
    obtain ⟨r', g1, g2⟩ := e1 n (by omega) r ts y hf
    refine ⟨r', ?_, g2⟩
    unfold mapFn
    rw [construct_eq h1 h2, okb, g1, okb]
    exact if_pos (g2.ok (Or.inl hts))
theorem loadMembers_parse (hc : Good env c) (o : ROpts) : ∀ {td : TyD} {ms : List (Bytes × JTree)}
    {fs fs' : List (Bytes × JV)}, LoadMembers env td ms fs fs' → ∀ st : PState,
      ((∀ f ∈ td.fields, ∀ a, f.key = some a → Assoc.get st.keys a = some f.name ∧
          Assoc.get st.fields f.name = some f.type ∧ (Assoc.get c f.type).isSome) ∧
        (∀ a, a ∉ td.keys → Assoc.get st.keys a = none)) → ∃ n0, ∀ n, n0 ≤ n →
      StepsTo o (objFn env c n st) ms fs fs'
  | _, _, _, _, .nil td fs, _, _ => ⟨0, fun n _ => rfl⟩
  | _, _, _, _, .unknown td a x ms fs fs' h1 h2, st, hst => by
    obtain ⟨n2, e2⟩ := loadMembers_parse hc o h2 st hst
    refine ⟨n2 + x.toks.length + 1, fun n hn => ⟨fs, ?_, e2 n (by omega)⟩⟩
    obtain ⟨n, rfl⟩ : ∃ k, n = k + 1 := ⟨n - 1, by omega⟩
    intro r ts y hts hf
    obtain ⟨r', g1, g2⟩ := skip_fed n x r ts (by omega) (fun _ _ => Or.inl hts) hf
    refine ⟨r', ?_, g2⟩
    unfold objFn
    rw [hst.2 a h1]
    simp only
    rw [g1, okb]
  | _, _, _, _, .known td a f x ms v v' fs fs' h1 h2 h3 h4 h5, st, hst => by
    obtain ⟨k1, k2, k3⟩ := hst.1 f h1 a h2
    obtain ⟨n1, e1⟩ := load_parse hc o h4 k3
    obtain ⟨n2, e2⟩ := loadMembers_parse hc o h5 st hst
    refine ⟨n1 + n2, fun n hn => ⟨objSet fs f.name v', ?_, e2 n (by omega)⟩⟩
    intro r ts y hts hf
    obtain ⟨r', g1, g2⟩ := e1 n (by omega) r ts y hf
    refine ⟨r', ?_, g2⟩
    unfold objFn
    rw [k1]
    simp only
    rw [k2]
    simp only
    rw [h3]
    simp only
    rw [g1, okb]
end

end Reflect.Json

import Verif.Lemmas.Json.Safe
import Verif.Lemmas.Json.Trip
import Verif.Lemmas.Json.Plain
import Verif.Lemmas.Json.Depth
import Verif.Lemmas.Json.Mono
import Verif.Lemmas.Json.Check
import Verif.Props.JsonWrite
/-
  C45 typed values survive printing and reading back.
-/
namespace Reflect.Json

/-- Printing `v` reports no error, and reading what was printed - whatever follows it, as long as it does not
continue a number - into `u` gives `v'` back, reports no error and leaves what follows unread: for every
depth of recursion large enough. -/
def ValueBack (env : Env) (cw : WCache) (cr : PCache) (wo : WOpts) (ro : ROpts) (ty : TyId) (v u v' : JV) : Prop :=
  ∃ n0 out, (∀ n, n0 ≤ n → ∃ w, (print env n cw ty v (Writer.new wo)).1 = .ok w ∧ w.err = none ∧ w.out = out) ∧
    ∀ y, Stops y → ∀ n, n0 ≤ n → ∃ r, (parse env n cr ty u (Reader.open ro (out ++ y))).1 = .ok (v', r) ∧ r.err = none ∧
      r.rest = y

theorem trip {env : Env} (hn : env.Named) (hsh : env.Shaped) {T : TyId → Prop} (hT : env.Closed T)
    (hv : ∀ ty d, T ty → ¬ env.Has ty d .void) {cw : WCache} (hw : Printers env cw) {cr : PCache} (hr : Parsers env cr)
    {wo : WOpts} {ro : ROpts} {ty : TyId} (ht : T ty) {u v v' : JV} {x : JTree} (g1 : Doc env wo.compact ty v x)
    (g2 : Load env ty u x v') (g3 : ∀ s ∈ x.strs, Survives wo ro s) (hd : wo.pretty = true → v.depth ≤ 1024) :
    ValueBack env cw cr wo ro ty v u v' := by
  have hs : Texts wo x.strs := fun s hs => by
    obtain ⟨t, h, _⟩ := survives_text (g3 s hs)
    exact ⟨t, h⟩
  obtain ⟨n1, h1⟩ := doc_text hn hsh hT hv ht (printers_good hn hw) g1 hs
  obtain ⟨n2, h2⟩ := load_text (ro := ro) hn hT ht (parsers_good hn hr) g2
  have hdep : wo.pretty = true → (Writer.new wo).indent + x.depth ≤ 1024 := by
    intro hp
    have := doc_depth g1
    have := hd hp
    simp only
    omega
  obtain ⟨body, e1, e2⟩ := h1 (n1 + n2) (by omega) (Writer.new wo) rfl rfl hdep
  refine ⟨n1 + n2, body, ?_, ?_⟩
  · intro n hn'
    obtain ⟨body', f1, f2⟩ := h1 n (by omega) (Writer.new wo) rfl rfl hdep
    refine ⟨_, f1, rfl, ?_⟩
    have := Mono.print_fun env f1 e1
    rw [this]
    simp [Writer.push]
  · intro y hy n hn'
    refine h2 n (by omega) (body ++ y) y ?_
    have hg := Gram.mono (S' := fun m t => StrBody ro t m) e2 (fun m hm t ht => survives_body (g3 m hm) ht)
    have := gram_reads (o := ro) (fun m t h => h) hg y [] y hy (Reads.nil y)
    simpa using this

/-! ### C45 -/

/-- Any value that `Back` describes: into any value `u`, with any options, compact mode included. -/
theorem C45_round_trip (env : Env) (hn : env.Named) (hsh : env.Shaped) (T : TyId → Prop) (hT : env.Closed T)
    (hv : ∀ ty d, T ty → ¬ env.Has ty d .void) (cw : WCache) (hw : Printers env cw) (cr : PCache) (hr : Parsers env cr)
    (wo : WOpts) (ro : ROpts) (ty : TyId) (ht : T ty) (u v : JV)
    (hb : Back env (Survives wo ro) wo.compact ty u v) (hd : wo.pretty = true → v.depth ≤ 1024) :
    ValueBack env cw cr wo ro ty v u v := by
  obtain ⟨x, g1, g2, g3, _⟩ := back_comes hb
  exact trip hn hsh hT hv hw hr ht g1 g2 g3 hd

/-- Plain data read into a newly constructed value, in default, pretty and raw modes. -/
theorem C45_fresh (env : Env) (hn : env.Named) (hsh : env.Shaped) (T : TyId → Prop) (hT : env.Closed T)
    (hv : ∀ ty d, T ty → ¬ env.Has ty d .void) (cw : WCache) (hw : Printers env cw) (cr : PCache) (hr : Parsers env cr)
    (wo : WOpts) (ro : ROpts) (hc : wo.compact = false) (ho : env.Ordinary (Survives wo ro) T) (ty : TyId) (ht : T ty)
    (u v : JV) (hu : Fresh env ty u) (hp : Plain env (Survives wo ro) ty v) (hd : wo.pretty = true → v.depth ≤ 1024) :
    ValueBack env cw cr wo ro ty v u v :=
  C45_round_trip env hn hsh T hT hv cw hw cr hr wo ro ty ht u v (by rw [hc]; exact plain_back hn hT ho hp ht hu) hd

/-! An example: a linked list of nodes with a number, an aliased string, a list, a map and a real number. -/
namespace Ex

/-- 1.5 and 2.0 -/
def f15 : UInt64 := 0x3FF8000000000000
def f20 : UInt64 := 0x4000000000000000

def node : TyD :=
  { fields := [⟨[105, 100], 0, none⟩, ⟨[110, 97, 109, 101], 1, some (.mkAlias [110])⟩, ⟨[116], 2, none⟩, ⟨[109], 3, none⟩,
      ⟨[110, 101, 120, 116], 4, none⟩, ⟨[120], 6, none⟩],
    make := some (.obj [([105, 100], .int 0), ([110, 97, 109, 101], .str []), ([116], .list []), ([109], .map []),
      ([110, 101, 120, 116], .null), ([120], .flt 0)]), alloc := true }

def tInt : TyD := { isInt := true, make := some (.int 0), alloc := true }
def tStr : TyD := { isString := true, make := some (.str []), alloc := true }
def tList : TyD := { isList := true, valueType := some 1, make := some (.list []), alloc := true }
def tMap : TyD := { isMap := true, valueType := some 0, make := some (.map []), alloc := true }
def tPtr : TyD := { pointee := some 5, make := some .null, alloc := true }
def tFlt : TyD := { isFloat := true, make := some (.flt 0), alloc := true }

def env : Env :=
  { types := [tInt, tStr, tList, tMap, tPtr, node, tFlt],
    fmtG := fun x => if x = f15 then [49, 46, 53] else if x = f20 then [50] else [48],
    stod := fun s => if s = [49, 46, 53] then .ok f15 else .ok 0 }

/-- `{"id":7,"m":{"a":1,"b":-2},"n":"é\"","next":null,"t":["x",""],"x":1.5}` in a list of two nodes -/
def leaf (i : Int) (nx : JV) : JV :=
  .obj [([105, 100], .int i), ([110, 97, 109, 101], .str [0xC3, 0xA9, 34]), ([116], .list [.str [120], .str []]),
    ([109], .map [([97], .int 1), ([98], .int (-2))]), ([110, 101, 120, 116], nx), ([120], .flt f15)]

def fresh : JV := .obj [([105, 100], .int 0), ([110, 97, 109, 101], .str []), ([116], .list []), ([109], .map []),
  ([110, 101, 120, 116], .null), ([120], .flt 0)]

theorem has0 : env.Has 0 tInt .int := ⟨rfl, .int rfl⟩
theorem has1 : env.Has 1 tStr .string := ⟨rfl, .string rfl⟩
theorem has2 : env.Has 2 tList (.list 1) := ⟨rfl, .list 1 rfl rfl⟩
theorem has3 : env.Has 3 tMap (.map 0) := ⟨rfl, .map 0 rfl rfl⟩
theorem has4 : env.Has 4 tPtr (.ptr 5) := ⟨rfl, .ptr 5 rfl rfl⟩
theorem has5 : env.Has 5 node .object := ⟨rfl, .object rfl (by intro t h; cases h)⟩
theorem has6 : env.Has 6 tFlt .float := ⟨rfl, .float rfl⟩

theorem gram15 : FloatGram (env.fmtG f15) :=
  ⟨[49], [46, 53], [], by decide, ⟨[], 49, [], rfl, Or.inl rfl, by unfold Digits; decide, by decide⟩,
    Or.inr ⟨[53], rfl, by simp, by unfold Digits; decide⟩, Or.inl rfl, Or.inl (by simp)⟩

theorem leaf_plain (Q : Bytes → Prop) (hQ : ∀ s ∈ ([[0xC3, 0xA9, 34], [120], [], [97], [98]] : List Bytes), Q s) (i : Int)
    (hi : -(2 ^ 63 : Int) ≤ i ∧ i < 2 ^ 63) (nx : JV) (hn : Plain env Q 4 nx) : Plain env Q 5 (leaf i nx) := by
  refine .obj 5 node _ has5 ?_
  refine .cons _ _ _ _ (.int 0 _ i has0 rfl hi.1 hi.2) ?_
  refine .cons _ _ _ _ (.str 1 _ _ has1 rfl (hQ _ (by simp))) ?_
  refine .cons _ _ _ _ (.list 2 _ 1 _ has2 (.cons _ _ _ (.str 1 _ _ has1 rfl (hQ _ (by simp)))
    (.cons _ _ _ (.str 1 _ _ has1 rfl (hQ _ (by simp))) (.nil _)))) ?_
  refine .cons _ _ _ _ (.map 3 _ 0 _ has3 (by unfold Ordered; decide) (.cons _ _ _ _ (hQ _ (by simp))
    (.int 0 _ 1 has0 rfl (by decide) (by decide)) (.cons _ _ _ _ (hQ _ (by simp)) (.int 0 _ (-2) has0 rfl (by decide) (by decide))
    (.nil _)))) ?_
  refine .cons _ _ _ _ hn ?_
  exact .cons _ _ _ _ (.flt 6 _ f15 has6 rfl gram15 (by decide)) .nil

theorem fresh_fresh : Fresh env 5 fresh := by
  refine .obj 5 node _ has5 ?_
  refine .cons _ _ _ _ (.int 0 _ _ has0) ?_
  refine .cons _ _ _ _ (.str 1 _ _ has1) ?_
  refine .cons _ _ _ _ (.list 2 _ 1 has2) ?_
  refine .cons _ _ _ _ (.map 3 _ 0 has3) ?_
  refine .cons _ _ _ _ (.ptr 4 _ 5 has4) ?_
  exact .cons _ _ _ _ (.flt 6 _ _ has6) .nil

theorem lt7 (n : Nat) (h : n < 7) : n = 0 ∨ n = 1 ∨ n = 2 ∨ n = 3 ∨ n = 4 ∨ n = 5 ∨ n = 6 := by omega

theorem ordinary (Q : Bytes → Prop) (hQ : ∀ s ∈ ([[105, 100], [110], [116], [109], [110, 101, 120, 116], [120]] : List Bytes), Q s) :
    env.Ordinary Q (· < 7) := by
  refine ⟨?_, ?_, ?_⟩
  · intro ty d ht hd
    rcases lt7 ty ht with rfl | rfl | rfl | rfl | rfl | rfl | rfl <;> cases hd
    · exact ⟨rfl, _, rfl, .int 0 _ _ has0⟩
    · exact ⟨rfl, _, rfl, .str 1 _ _ has1⟩
    · exact ⟨rfl, _, rfl, .list 2 _ 1 has2⟩
    · exact ⟨rfl, _, rfl, .map 3 _ 0 has3⟩
    · exact ⟨rfl, _, rfl, .ptr 4 _ 5 has4⟩
    · exact ⟨rfl, _, rfl, fresh_fresh⟩
    · exact ⟨rfl, _, rfl, .flt 6 _ _ has6⟩
  · intro ty d f ht hd hf
    have h5 : ty = 5 := by
      rcases lt7 ty ht with rfl | rfl | rfl | rfl | rfl | rfl | rfl
      · cases (has_unique has0 hd).2
      · cases (has_unique has1 hd).2
      · cases (has_unique has2 hd).2
      · cases (has_unique has3 hd).2
      · cases (has_unique has4 hd).2
      · rfl
      · cases (has_unique has6 hd).2
    subst h5
    have := (has_unique has5 hd).1
    subst this
    have hs : ∀ a, ¬ env.Skips 5 node a := by
      rintro a ⟨f, hf, _, t, h1, h2⟩
      simp only [node, List.mem_cons, List.not_mem_nil, or_false] at hf
      rcases hf with rfl | rfl | rfl | rfl | rfl | rfl <;> simp at h1
      subst h1
      revert h2; decide
    simp only [node, List.mem_cons, List.not_mem_nil, or_false] at hf
    rcases hf with rfl | rfl | rfl | rfl | rfl | rfl
    · exact ⟨_, rfl, hQ _ (by simp), hs _⟩
    · exact ⟨[110], by decide, hQ _ (by simp), hs _⟩
    · exact ⟨_, rfl, hQ _ (by simp), hs _⟩
    · exact ⟨_, rfl, hQ _ (by simp), hs _⟩
    · exact ⟨_, rfl, hQ _ (by simp), hs _⟩
    · exact ⟨_, rfl, hQ _ (by simp), hs _⟩
  · intro ty d t ks ht hd
    have h3 : ty = 3 := by
      rcases lt7 ty ht with rfl | rfl | rfl | rfl | rfl | rfl | rfl
      · cases (has_unique has0 hd).2
      · cases (has_unique has1 hd).2
      · cases (has_unique has2 hd).2
      · rfl
      · cases (has_unique has4 hd).2
      · cases (has_unique has5 hd).2
      · cases (has_unique has6 hd).2
    subst h3
    have := (has_unique has3 hd).1
    subst this
    exact List.Perm.refl _

theorem survives (s : Bytes) (ns : List Nat) (h : (∀ n ∈ ns, n < 0x10000) ∧ s = ns.flatMap utf8) :
    Survives WOpts.default ROpts.default s := by
  refine ⟨fun _ => ⟨rfl, ns, h⟩, fun h => ?_⟩
  cases h

/-- The hypotheses of `C45_fresh` hold: a list of two nodes comes back. -/
example : ValueBack env [] [] WOpts.default ROpts.default 5 (leaf 7 (.ptr (leaf (-3) .null))) fresh
    (leaf 7 (.ptr (leaf (-3) .null))) := by
  have hq : ∀ s ∈ ([[0xC3, 0xA9, 34], [120], [], [97], [98]] : List Bytes), Survives WOpts.default ROpts.default s := by
    intro s hs
    simp only [List.mem_cons, List.not_mem_nil, or_false] at hs
    rcases hs with rfl | rfl | rfl | rfl | rfl
    · exact survives _ [0xE9, 34] (by decide)
    · exact survives _ [120] (by decide)
    · exact survives _ [] (by decide)
    · exact survives _ [97] (by decide)
    · exact survives _ [98] (by decide)
  have hk : ∀ s ∈ ([[105, 100], [110], [116], [109], [110, 101, 120, 116], [120]] : List Bytes),
      Survives WOpts.default ROpts.default s := by
    intro s hs
    simp only [List.mem_cons, List.not_mem_nil, or_false] at hs
    rcases hs with rfl | rfl | rfl | rfl | rfl | rfl
    · exact survives _ [105, 100] (by decide)
    · exact survives _ [110] (by decide)
    · exact survives _ [116] (by decide)
    · exact survives _ [109] (by decide)
    · exact survives _ [110, 101, 120, 116] (by decide)
    · exact survives _ [120] (by decide)
  have hcl : env.closedB = true := by decide
  exact C45_fresh env (namedB_spec (by decide)) (closedB_shaped hcl) (· < 7) (closedB_spec hcl)
    (solidB_spec hcl (by decide) _) [] .fresh [] .fresh _ _ rfl (ordinary _ hk) 5 (by decide) _ _ fresh_fresh
    (leaf_plain _ hq 7 (by decide) _ (.ptr 4 _ 5 _ has4 rfl (leaf_plain _ hq (-3) (by decide) _ (.null 4 _ 5 has4))))
    (by intro h; cases h)

end Ex

/-- A `double` whose text has neither fraction nor exponent is printed without error, and the parser raises
on the text. -/
theorem C45_integral_double_refused (env : Env) (hn : env.Named) (T : TyId → Prop) (hT : env.Closed T)
    (hv : ∀ ty d, T ty → ¬ env.Has ty d .void) (cw : WCache) (hw : Printers env cw) (cr : PCache) (hr : Parsers env cr)
    (wo : WOpts) (ro : ROpts) (ty : TyId) (ht : T ty) (d : TyD) (hd : env.Has ty d .float) (he : d.exact = true)
    (x : UInt64) (hx : IntGram (env.fmtG x)) (hl : (env.fmtG x).length ≤ 969) (u : JV) :
    ∃ n0, ∀ n, n0 ≤ n → (∃ w, (print env n cw ty (.flt x) (Writer.new wo)).1 = .ok w ∧ w.err = none ∧ w.out = env.fmtG x) ∧
      ∀ y, Stops y → (parse env n cr ty u (Reader.open ro (env.fmtG x ++ y))).1 = .error .err := by
  obtain ⟨n1, c1, g1, g2, g3⟩ := print_ready hn hT hv ht (printers_good hn hw)
  obtain ⟨n2, c2, k1, k2, k3⟩ := parse_ready hn hT ht (parsers_good hn hr)
  refine ⟨n1 + n2 + 1, fun n hn' => ⟨?_, ?_⟩⟩
  · rw [g3 n (by omega)]
    obtain ⟨n, rfl⟩ : ∃ k, n = k + 1 := ⟨n - 1, by omega⟩
    obtain ⟨st, h1, h2, _⟩ := goodW_get g1 hd g2
    injection h2 with h2
    unfold printV
    simp only [h1, ← h2]
    rw [if_pos (exact_has hd he)]
    exact ⟨_, rfl, rfl, by simp [Writer.push]⟩
  · intro y hy
    rw [k3 n (by omega)]
    obtain ⟨n, rfl⟩ : ∃ k, n = k + 1 := ⟨n - 1, by omega⟩
    obtain ⟨st, h1, h2, _⟩ := good_get k1 hd k2
    have hrd : Reads ro (env.fmtG x ++ y) [Tok.int (env.fmtG x)] y := by
      have := Reads.cons (o := ro) [] (env.fmtG x) y y ⟨.int, .buffer⟩ (some (env.fmtG x)) [] Sep.nil
        (Lexeme.int _ (intGram_text hx)) (stops_follows hy) (Reads.nil y)
      simpa [Tok.int] using this
    obtain ⟨r, e1, e2, e3⟩ := (FedR.open hrd).fed.next
    unfold parseV
    simp only [h1, h2, Shape.pk]
    have : parseFloatText (Reader.open ro (env.fmtG x ++ y)) = .error .err := by
      unfold parseFloatText
      rw [e1, okb]
      have hb : Brief (⟨.int, .buffer⟩, r) := by
        intro z hz
        have : r.buf = z := Option.some.inj hz
        rw [← this, e3 _ rfl]; exact hl
      have := invalid_safe hb (n := "float") (Or.inl (by decide))
      show (do let f ← Token.asFloatText ⟨.int, .buffer⟩ r; Except.ok (f, r) : Res (Bytes × Reader)) = _
      unfold Token.asFloatText
      rw [if_neg (by simp)]
      show Except.error (Token.invalid ⟨.int, .buffer⟩ r "float") = _
      rw [this]
    rw [this]
    rfl

/-- 2.0 is printed as `2`. -/
example : IntGram (Ex.env.fmtG Ex.f20) ∧ (Ex.env.fmtG Ex.f20).length ≤ 969 := ⟨⟨[], 50, [], by decide, Or.inl rfl, by unfold Digits; decide, by decide⟩, by decide⟩

/-- A pointer to a null pointer does not come back: it is printed as `null`, which makes the outer pointer
null. -/
theorem C45_pointer_to_null (env : Env) (hn : env.Named) (hsh : env.Shaped) (T : TyId → Prop) (hT : env.Closed T)
    (hv : ∀ ty d, T ty → ¬ env.Has ty d .void) (cw : WCache) (hw : Printers env cw) (cr : PCache) (hr : Parsers env cr)
    (wo : WOpts) (ro : ROpts) (ty : TyId) (ht : T ty) (d e : TyD) (t t' : TyId) (hd : env.Has ty d (.ptr t))
    (he : env.Has t e (.ptr t')) (u : JV) : ValueBack env cw cr wo ro ty (.ptr .null) u .null :=
  trip hn hsh hT hv hw hr ht (.ptr ty d t _ _ hd (.null t e t' he)) (.ptrNull ty d t u hd) (by simp [JTree.strs])
    (by intro _; simp [JV.depth])

/-- The outcome of printing and of parsing does not depend on how much recursion the model allows, once it is
enough to finish. -/
theorem C45_any_depth (env : Env) (n m : Nat) (h : n ≤ m) :
    (∀ c ty v w, (print env n c ty v w).1 ≠ .error .diverge → print env m c ty v w = print env n c ty v w) ∧
    (∀ c ty v r, (parse env n c ty v r).1 ≠ .error .diverge → parse env m c ty v r = parse env n c ty v r) :=
  ⟨fun c ty v w hd => ((Mono.print_le env h c ty v w).resolve_left hd).symm,
    fun c ty v r hd => ((Mono.parse_le env h c ty v r).resolve_left hd).symm⟩

end Reflect.Json

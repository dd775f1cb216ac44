import Verif.Lemmas.Json.CutParse
import Verif.Lemmas.Json.Unique
import Verif.Lemmas.Json.Trip
import Verif.Lemmas.Json.Mono
import Verif.Lemmas.Json.Members
import Verif.Spec.JsonRead
/- From texts to values: acceptance, and what becomes of members. -/
namespace Reflect.Json

variable {env : Env} {T : TyId → Prop} {o : ROpts} {s y : Bytes}

/-- A text that stops too early does not start with a document. -/
theorem cut_not_doc {x x' : JTree} (h : Cut o x' s) : ¬ Reads o s x.toks y := by
  intro hr
  have key : ∀ (p e : Tok) (l : List Tok), x.toks = p :: (l ++ [e]) → e.1.type ≠ .int → e.1.type ≠ .float → e ≠ p →
      ¬ Early o p s := by
    intro p e l hx he1 he2 hep hE
    rcases hE with hE | ⟨q, k, hq, _, hE⟩
    · obtain ⟨T2, hT, _⟩ := spells_unique hE hr
      rw [hx] at hT
      simp at hT
    · obtain ⟨T2, hT, _⟩ := spells_unique ⟨[], hE, [], Sep.nil, Or.inl rfl⟩ hr
      rw [hx] at hT
      have : e ∈ [p, q] := by rw [hT]; simp
      simp only [List.mem_cons, List.not_mem_nil, or_false] at this
      rcases this with h | h
      · exact hep h
      · subst h
        rcases hq with rfl | rfl
        · exact he1 rfl
        · exact he2 rfl
  have head : ∀ p : Tok, Early o p s → ∃ l, x.toks = p :: l := by
    intro p hE
    obtain ⟨⟨t, v⟩, l, e, _⟩ := toks_head x
    obtain ⟨pt, pv⟩ := p
    rw [e] at hr
    rcases hE with ⟨z, hE, _⟩ | ⟨q, k, _, _, hE⟩
    · exact ⟨l, by rw [e, (reads_first hE hr).1]⟩
    · exact ⟨l, by rw [e, (reads_first hE hr).1]⟩
  rcases h with ⟨_, h⟩ | ⟨_, h⟩
  · obtain ⟨l, e⟩ := head _ h
    cases x <;> simp [JTree.toks, Tok.null, Tok.bool, Tok.int, Tok.float, Tok.str, Tok.lbrack, Tok.lbrace] at e
    exact key Tok.lbrack Tok.rbrack _ rfl (by decide) (by decide) (by simp [Tok.rbrack, Tok.lbrack]) h
  · obtain ⟨l, e⟩ := head _ h
    cases x <;> simp [JTree.toks, Tok.null, Tok.bool, Tok.int, Tok.float, Tok.str, Tok.lbrack, Tok.lbrace] at e
    exact key Tok.lbrace Tok.rbrace _ rfl (by decide) (by decide) (by simp [Tok.rbrace, Tok.lbrace]) h

/-- what was accepted -/
theorem accepted (hn : env.Named) (hT : env.Closed T) {ty : TyId} (ht : T ty) {c : PCache} (hc : Good env c) {u v : JV} {n : Nat}
    {r : Reader} (h : (parse env n c ty u (Reader.open o s)).1 = .ok (v, r)) (he : r.err = none) :
    (∃ x y, Reads o s x.toks y ∧ Ready o y r ∧ Load env ty u x v) ∨ ∃ x, Cut o x s ∧ Load env ty u x v := by
  obtain ⟨n0, c', g1, g2, g3⟩ := parse_ready hn hT ht hc
  have h2 := Mono.parse_le env (Nat.le_max_left n n0) c ty u (Reader.open o s)
  have h3 : (parse env (max n n0) c ty u (Reader.open o s)).1 = .ok (v, r) := by
    rcases h2 with h2 | h2
    · rw [h] at h2; cases h2
    · rw [← h2]; exact h
  rw [g3 _ (Nat.le_max_right n n0)] at h3
  rcases parseV_sound g1 hT o _ ty u s _ (v, r) ht g2 (Pos.open o s) h3 he with h | ⟨x, h4, _, h5⟩
  · exact Or.inl h
  · exact Or.inr ⟨x, h4, h5⟩

/-- what is accepted, from some depth of recursion on -/
theorem accepting (hn : env.Named) (hT : env.Closed T) {ty : TyId} (ht : T ty) {c : PCache} (hc : Good env c) {u v : JV} {x : JTree}
    (h : Cut o x s) (hl : Load env ty u x v) : ∃ n0, ∀ n, n0 ≤ n → ∃ r, (parse env n c ty u (Reader.open o s)).1 = .ok (v, r) ∧ r.err = none := by
  obtain ⟨n0, c', g1, g2, g3⟩ := parse_ready hn hT ht hc
  obtain ⟨n1, h1⟩ := cut_parse g1 o hl g2
  refine ⟨n0 + n1, fun n hn' => ?_⟩
  rw [g3 n (by omega)]
  exact h1 n (by omega) _ (Stops'.open h)

/-! ### Members -/

theorem load_list_inv {ty : TyId} {td : TyD} {t : TyId} (hh : env.Has ty td (.list t)) {u v : JV} {xs : List JTree}
    (h : Load env ty u (.arr xs) v) : ∃ vs ws, u = .list vs ∧ v = .list (vs ++ ws) ∧ LoadElems env t xs ws := by
  cases h with
  | ptr _ _ _ _ _ _ h => cases (has_unique hh h).2
  | ptrNew _ _ _ _ _ _ _ h => cases (has_unique hh h).2
  | list _ _ _ vs ws _ h hl => cases (has_unique hh h).2; exact ⟨vs, ws, rfl, rfl, hl⟩
  | void _ _ _ _ _ h => cases (has_unique hh h).2

theorem load_map_inv {ty : TyId} {td : TyD} {t : TyId} (hh : env.Has ty td (.map t)) {u v : JV} {ms : List (Bytes × JTree)}
    (h : Load env ty u (.obj ms) v) : ∃ m m', u = .map m ∧ v = .map m' ∧ LoadEntries env t ms m m' := by
  cases h with
  | ptr _ _ _ _ _ _ h => cases (has_unique hh h).2
  | ptrNew _ _ _ _ _ _ _ h => cases (has_unique hh h).2
  | map _ _ _ _ m m' h hl => cases (has_unique hh h).2; exact ⟨m, m', rfl, rfl, hl⟩
  | obj _ _ _ _ _ h => cases (has_unique hh h).2
  | void _ _ _ _ _ h => cases (has_unique hh h).2

theorem load_obj_inv {ty : TyId} {td : TyD} (hh : env.Has ty td .object) {u v : JV} {ms : List (Bytes × JTree)}
    (h : Load env ty u (.obj ms) v) : ∃ fs fs', u = .obj fs ∧ v = .obj fs' ∧ LoadMembers env td ms fs fs' := by
  cases h with
  | ptr _ _ _ _ _ _ h => cases (has_unique hh h).2
  | ptrNew _ _ _ _ _ _ _ h => cases (has_unique hh h).2
  | map _ _ _ _ m m' h hl => cases (has_unique hh h).2
  | obj _ _ _ fs fs' h hl => cases (has_unique hh h).1; exact ⟨fs, fs', rfl, rfl, hl⟩
  | void _ _ _ _ _ h => cases (has_unique hh h).2

theorem load_void_inv {ty : TyId} {td : TyD} (hh : env.Has ty td .void) {u v : JV} {x : JTree} (hx : x ≠ .null)
    (h : Load env ty u x v) : Any env x v := by
  cases h with
  | void _ _ _ _ _ h _ ha => exact ha
  | voidNull => exact absurd rfl hx
  | bool _ _ _ _ h => cases (has_unique hh h).2
  | int _ _ _ _ _ h => cases (has_unique hh h).2
  | float _ _ _ _ _ h => cases (has_unique hh h).2
  | str _ _ _ _ h => cases (has_unique hh h).2
  | ptrNull => exact absurd rfl hx
  | ptr _ _ _ _ _ _ h => cases (has_unique hh h).2
  | ptrNew _ _ _ _ _ _ _ h => cases (has_unique hh h).2
  | listNull => exact absurd rfl hx
  | list _ _ _ _ _ _ h => cases (has_unique hh h).2
  | mapNull => exact absurd rfl hx
  | map _ _ _ _ _ _ h => cases (has_unique hh h).2
  | objNull => exact absurd rfl hx
  | obj _ _ _ _ _ h => cases (has_unique hh h).2

/-- what parsing into a scalar leaves does not depend on what was there -/
theorem load_scalar {ty : TyId} {td : TyD} {sh : Shape} (hh : env.Has ty td sh) (hs : sh.scalar = true) {u v : JV} {x : JTree}
    (h : Load env ty u x v) (u' : JV) : Load env ty u' x v := by
  cases h with
  | bool _ _ _ _ h he => exact .bool _ _ _ _ h he
  | int _ _ _ _ _ h he hi => exact .int _ _ _ _ _ h he hi
  | float _ _ _ _ _ h he hi => exact .float _ _ _ _ _ h he hi
  | str _ _ _ _ h he => exact .str _ _ _ _ h he
  | ptrNull _ _ _ _ h => cases (has_unique hh h).2; cases hs
  | ptr _ _ _ _ _ _ h => cases (has_unique hh h).2; cases hs
  | ptrNew _ _ _ _ _ _ _ h => cases (has_unique hh h).2; cases hs
  | listNull _ _ _ _ h => cases (has_unique hh h).2; cases hs
  | list _ _ _ _ _ _ h => cases (has_unique hh h).2; cases hs
  | mapNull _ _ _ _ h => cases (has_unique hh h).2; cases hs
  | map _ _ _ _ _ _ h => cases (has_unique hh h).2; cases hs
  | objNull _ _ _ h => cases (has_unique hh h).2; cases hs
  | obj _ _ _ _ _ h => cases (has_unique hh h).2; cases hs
  | voidNull _ _ _ h => cases (has_unique hh h).2; cases hs
  | void _ _ _ _ _ h => cases (has_unique hh h).2; cases hs

theorem loadSeq_scalar {ty : TyId} {td : TyD} {sh : Shape} (hh : env.Has ty td sh) (hs : sh.scalar = true) :
    ∀ {xs : List JTree} {u v : JV} {x : JTree}, LoadSeq env ty u (xs ++ [x]) v → ∀ u', Load env ty u' x v := by
  intro xs
  induction xs with
  | nil =>
    intro u v x h u'
    cases h with
    | cons _ w _ _ _ h1 h2 => cases h2; exact load_scalar hh hs h1 u'
  | cons a xs ih =>
    intro u v x h u'
    cases h with
    | cons _ w _ _ _ h1 h2 => exact ih h2 u'

/-! ### Maps -/

theorem loadEntries_keeps {t : TyId} {k : Bytes} : ∀ {ms : List (Bytes × JTree)} {m m' : List (Bytes × JV)},
    LoadEntries env t ms m m' → Ordered m → k ∉ ms.map (·.1) → Assoc.get m' k = Assoc.get m k := by
  intro ms
  induction ms with
  | nil => intro m m' h _ _; cases h; rfl
  | cons p ms ih =>
    intro m m' h ho hk
    cases h with
    | cons _ ed d k' x _ v _ _ h1 h2 h3 h4 =>
      simp only [List.map_cons, List.mem_cons, not_or] at hk
      rw [ih h4 (mapSet_ordered _ _ _ ho) hk.2, get_mapSet _ _ _ _ ho, if_neg (fun e => hk.1 e.symm)]

theorem loadEntries_last {t : TyId} {k : Bytes} {x : JTree} {l2 : List (Bytes × JTree)} (hk : k ∉ l2.map (·.1)) :
    ∀ {l1 : List (Bytes × JTree)} {m m' : List (Bytes × JV)}, LoadEntries env t (l1 ++ (k, x) :: l2) m m' → Ordered m →
    ∃ ed d w, env.types[t]? = some ed ∧ ed.make = some d ∧ Load env t d x w ∧ Assoc.get m' k = some w := by
  intro l1
  induction l1 with
  | nil =>
    intro m m' h ho
    cases h with
    | cons _ ed d k' x _ v _ _ h1 h2 h3 h4 =>
      refine ⟨ed, d, v, h1, h2, h3, ?_⟩
      rw [loadEntries_keeps h4 (mapSet_ordered _ _ _ ho) hk, get_mapSet _ _ _ _ ho, if_pos rfl]
  | cons p l1 ih =>
    intro m m' h ho
    cases h with
    | cons _ ed d k' x _ v _ _ h1 h2 h3 h4 => exact ih h4 (mapSet_ordered _ _ _ ho)

theorem loadEntries_ordered {t : TyId} : ∀ {ms : List (Bytes × JTree)} {m m' : List (Bytes × JV)},
    LoadEntries env t ms m m' → Ordered m → Ordered m' := by
  intro ms
  induction ms with
  | nil => intro m m' h ho; cases h; exact ho
  | cons p ms ih =>
    intro m m' h ho
    cases h with
    | cons _ ed d k' x _ v _ _ h1 h2 h3 h4 => exact ih h4 (mapSet_ordered _ _ _ ho)

/-! ### Untyped objects -/

theorem emplace_ordered {m : List (Bytes × JV)} (h : Ordered m) (k : Bytes) (v : JV) : Ordered (mapEmplace m k v) := by
  unfold mapEmplace; split
  · exact h
  · exact mapSet_ordered _ _ _ h

theorem get_emplace {m : List (Bytes × JV)} (h : Ordered m) (k k' : Bytes) (v : JV) :
    Assoc.get (mapEmplace m k v) k' = if k = k' ∧ Assoc.get m k = none then some v else Assoc.get m k' := by
  unfold mapEmplace
  split
  · rename_i w hw
    rw [hw]; simp
  · rename_i hw
    rw [get_mapSet _ _ _ _ h, hw]; simp

theorem anyMembers_keeps {k : Bytes} {w : JV} : ∀ {ms : List (Bytes × JTree)} {m m' : List (Bytes × JV)},
    AnyMembers env ms m m' → Ordered m → Assoc.get m k = some w → Assoc.get m' k = some w := by
  intro ms
  induction ms with
  | nil => intro m m' h _ hk; cases h; exact hk
  | cons p ms ih =>
    intro m m' h ho hk
    cases h with
    | cons k' x _ v _ _ h1 h2 =>
      refine ih h2 (emplace_ordered ho _ _) ?_
      rw [get_emplace ho]
      split
      · rename_i hh; rw [← hh.1] at hk; rw [hh.2] at hk; cases hk
      · exact hk

theorem anyMembers_none {k : Bytes} : ∀ {ms : List (Bytes × JTree)} {m m' : List (Bytes × JV)},
    AnyMembers env ms m m' → Ordered m → k ∉ ms.map (·.1) → Assoc.get m' k = Assoc.get m k := by
  intro ms
  induction ms with
  | nil => intro m m' h _ hk; cases h; rfl
  | cons p ms ih =>
    intro m m' h ho hk
    cases h with
    | cons k' x _ v _ _ h1 h2 =>
      simp only [List.map_cons, List.mem_cons, not_or] at hk
      rw [ih h2 (emplace_ordered ho _ _) hk.2, get_emplace ho, if_neg (fun e => hk.1 e.1.symm)]

theorem anyMembers_first {k : Bytes} {x : JTree} {l2 : List (Bytes × JTree)} :
    ∀ {l1 : List (Bytes × JTree)} {m m' : List (Bytes × JV)}, AnyMembers env (l1 ++ (k, x) :: l2) m m' → Ordered m →
    k ∉ l1.map (·.1) → Assoc.get m k = none → ∃ w, Any env x w ∧ Assoc.get m' k = some w := by
  intro l1
  induction l1 with
  | nil =>
    intro m m' h ho _ hm
    cases h with
    | cons k' x _ v _ _ h1 h2 =>
      refine ⟨v, h1, anyMembers_keeps h2 (emplace_ordered ho _ _) ?_⟩
      rw [get_emplace ho, if_pos ⟨rfl, hm⟩]
  | cons p l1 ih =>
    intro m m' h ho hk hm
    cases h with
    | cons k' x _ v _ _ h1 h2 =>
      simp only [List.map_cons, List.mem_cons, not_or] at hk
      refine ih h2 (emplace_ordered ho _ _) hk.2 ?_
      rw [get_emplace ho, if_neg (fun e => hk.1 e.1.symm)]
      exact hm

/-! ### Objects -/

theorem occurrences_cons_same (a : Bytes) (x : JTree) (ms : List (Bytes × JTree)) :
    occurrences a ((a, x) :: ms) = x :: occurrences a ms := by simp [occurrences]

theorem occurrences_cons_other {a b : Bytes} (h : b ≠ a) (x : JTree) (ms : List (Bytes × JTree)) :
    occurrences a ((b, x) :: ms) = occurrences a ms := by simp [occurrences, h]

theorem loadMembers_keys {td : TyD} : ∀ {ms : List (Bytes × JTree)} {fs fs' : List (Bytes × JV)},
    LoadMembers env td ms fs fs' → fs'.map (·.1) = fs.map (·.1) := by
  intro ms
  induction ms with
  | nil => intro fs fs' h; cases h; rfl
  | cons p ms ih =>
    intro fs fs' h
    cases h with
    | unknown _ a x _ _ _ h1 h2 => exact ih h2
    | known _ a f x _ v v' _ _ h1 h2 h3 h4 h5 => rw [ih h5, objSet_keys]

/-- a field none of whose keys occurs keeps its value -/
theorem loadMembers_keeps {td : TyD} {k : Bytes} : ∀ {ms : List (Bytes × JTree)} {fs fs' : List (Bytes × JV)},
    LoadMembers env td ms fs fs' → (∀ f ∈ td.fields, f.name = k → ∀ a, f.key = some a → a ∉ ms.map (·.1)) →
    Assoc.get fs' k = Assoc.get fs k := by
  intro ms
  induction ms with
  | nil => intro fs fs' h _; cases h; rfl
  | cons p ms ih =>
    intro fs fs' h hk
    cases h with
    | unknown _ a x _ _ _ h1 h2 =>
      exact ih h2 fun f hf he a ha hm => hk f hf he a ha (by simp only [List.map_cons, List.mem_cons]; exact Or.inr hm)
    | known _ a f x _ v v' _ _ h1 h2 h3 h4 h5 =>
      rw [ih h5 fun f hf he a ha hm => hk f hf he a ha (by simp only [List.map_cons, List.mem_cons]; exact Or.inr hm)]
      rw [get_objSet, if_neg]
      rintro ⟨e, _⟩
      exact hk f h1 e a h2 (by simp)

/-- a field is loaded with each occurrence of its key in turn -/
theorem loadMembers_field {td : TyD} (hkeys : td.keys.Nodup) (hnames : (td.fields.map (·.name)).Nodup) {f : FieldD} (hf : f ∈ td.fields)
    {a : Bytes} (ha : f.key = some a) : ∀ {ms : List (Bytes × JTree)} {fs fs' : List (Bytes × JV)}, LoadMembers env td ms fs fs' →
    ∀ u, Assoc.get fs f.name = some u → ∃ w, Assoc.get fs' f.name = some w ∧ LoadSeq env f.type u (occurrences a ms) w := by
  intro ms
  induction ms with
  | nil => intro fs fs' h u hu; cases h; exact ⟨u, hu, .nil u⟩
  | cons p ms ih =>
    intro fs fs' h u hu
    cases h with
    | unknown _ b x _ _ _ h1 h2 =>
      have hne : b ≠ a := fun e => h1 (e ▸ List.mem_filterMap.mpr ⟨f, hf, ha⟩)
      rw [occurrences_cons_other hne]
      exact ih h2 u hu
    | known _ b g x _ v v' _ _ h1 h2 h3 h4 h5 =>
      by_cases hb : b = a
      · subst hb
        have hg : g = f := key_unique hkeys h1 hf h2 ha
        subst hg
        rw [h3] at hu
        injection hu with hu
        subst hu
        have hmem : g.name ∈ fs.map (·.1) := by
          apply Classical.byContradiction
          intro hx
          rw [Assoc.get_none_iff.mpr hx] at h3
          cases h3
        obtain ⟨w, e1, e2⟩ := ih h5 v' (by rw [get_objSet, if_pos ⟨rfl, hmem⟩])
        exact ⟨w, e1, by rw [occurrences_cons_same]; exact .cons _ _ _ _ _ h4 e2⟩
      · rw [occurrences_cons_other hb]
        refine ih h5 u ?_
        rw [get_objSet, if_neg]
        · exact hu
        · rintro ⟨e, _⟩
          have : g = f := nodup_name hnames h1 hf e
          subst this
          rw [h2] at ha
          injection ha with ha
          exact hb ha

end Reflect.Json

import Verif.Lemmas.TypeGraph
import Verif.Props.Overloads
/-
  C15–C20: the type graph and the members of types.
-/
namespace Reflect
open World

/-! ### C15 -/

/-- C15. On an acyclic table in which pointer types have no declared parent, `isChildOf` returns, and
    its answer is exactly declared inheritance plus pointer covariance. -/
theorem C15_exact (w : World) (hcl : w.Closed) (hac : w.Acyclic) (hpr : w.PointersAreRoots)
    (fuel : Nat) (hf : w.n < fuel) (a b : Ty) (ha : a < w.n) :
    ∃ r, w.childF fuel a b = .ok r ∧ (r = true ↔ w.Sub a b) := by
  obtain ⟨r, hr⟩ := childF_total hcl hac fuel hf a b ha
  refine ⟨r, hr, ?_⟩
  cases r with
  | true => simp [childF_sound fuel a b hr]
  | false => simp [childF_complete hpr fuel a b hr]

/-- C15. Whatever the table, a positive answer is justified. -/
theorem C15_sound (w : World) (fuel : Nat) (a b : Ty) (h : w.childF fuel a b = .ok true) :
    w.Sub a b := childF_sound fuel a b h

/-- C15. Non-termination happens only on a cyclic table. -/
theorem C15_diverges_only_on_cycles (w : World) (hcl : w.Closed) (a b : Ty) (ha : a < w.n)
    (h : ∀ fuel, w.childF fuel a b = .error .diverge) : ∃ t, w.Reach t t := by
  apply Classical.byContradiction
  intro hno
  have hac : w.Acyclic := fun t ht => hno ⟨t, ht⟩
  obtain ⟨r, hr⟩ := childF_total hcl hac (w.n + 1) (by omega) a b ha
  rw [h] at hr
  cases hr

/-- and does happen there: a type declared as its own parent, which `reflectParent` lets through
    because `std::is_base_of<T, T>` holds (dsl/basics.h:23-27) -/
theorem C15_self_parent_diverges :
    ∃ w : World, w.Closed ∧ ∀ fuel, w.childF fuel 0 1 = .error .diverge := by
  refine ⟨{ n := 2, voidT := 0, valueT := 0,
            ty := fun t => if t = 0 then { TypeD.new [] with parent := some 0 } else TypeD.new [] },
    ?_, ?_⟩
  · intro a b ha h
    simp only [Edge] at h
    split at h <;> simp [TypeD.new] at h
    subst h; simp
  · intro fuel
    induction fuel with
    | zero => rfl
    | succ f ih => rw [childF]; simpa [TypeD.new] using ih

/-! ### C16 -/

theorem C16_refl (w : World) (a : Ty) (fuel : Nat) : w.childF (fuel + 1) a a = .ok true := by
  simp [childF]

/-- C16. Transitive as soon as pointer types have no declared parent. -/
theorem C16_trans (w : World) (hpr : w.PointersAreRoots) (a b c : Ty) (h1 : w.Sub a b)
    (h2 : w.Sub b c) : w.Sub a c := by
  induction h1 generalizing c with
  | refl => exact h2
  | parent hp _ ih => exact .parent hp (ih c h2)
  | @pointer a b k p q ha hb hpq ih =>
    cases h2 with
    | refl => exact .pointer ha hb hpq
    | parent hp _ =>
      have := hpr b (by simp [hb])
      rw [this] at hp; cases hp
    | pointer h3 h4 h5 =>
      rw [hb] at h3
      simp only [Option.some.injEq, Prod.mk.injEq] at h3
      obtain ⟨rfl, rfl⟩ := h3
      exact .pointer ha h4 (ih _ h5)

/-- up the parents only -/
inductive Up (w : World) : Ty → Ty → Prop
  | refl (a) : Up w a a
  | step {a p b} : (w.ty a).parent = some p → Up w p b → Up w a b

theorem sub_cases {w : World} {a b : Ty} (h : w.Sub a b) :
    Up w a b ∨ ∃ a' k p q, Up w a a' ∧ (w.ty a').ptr = some (k, p) ∧ (w.ty b).ptr = some (k, q) ∧
      w.Sub p q := by
  induction h with
  | refl a => exact .inl (.refl a)
  | parent hp _ ih =>
    rcases ih with h | ⟨a', k, p, q, h1, h2⟩
    · exact .inl (.step hp h)
    · exact .inr ⟨a', k, p, q, .step hp h1, h2⟩
  | pointer h1 h2 h3 => exact .inr ⟨_, _, _, _, .refl _, h1, h2, h3⟩

theorem up_reach {w : World} {a b : Ty} (h : Up w a b) : a = b ∨ w.Reach a b := by
  induction h with
  | refl => exact .inl rfl
  | step hp _ ih =>
    rcases ih with rfl | ih
    · exact .inr (.edge (.inl hp))
    · exact .inr (.step (.inl hp) ih)

theorem reach_trans {w : World} {a b c : Ty} (h1 : w.Reach a b) (h2 : w.Reach b c) : w.Reach a c := by
  induction h1 with
  | edge h => exact .step h h2
  | step h _ ih => exact .step h (ih h2)

/-- C16. Antisymmetric when moreover the table is acyclic and a pointer type is determined by its
    kind and pointee. -/
theorem C16_antisymm (w : World) (hac : w.Acyclic) (hpr : w.PointersAreRoots)
    (hu : w.PointersUnique) (a b : Ty) (h1 : w.Sub a b) (h2 : w.Sub b a) : a = b := by
  have root : ∀ x y, (w.ty x).ptr ≠ none → Up w x y → x = y := by
    intro x y hx h
    cases h with
    | refl => rfl
    | step hp _ => rw [hpr x hx] at hp; cases hp
  induction h1 with
  | refl => rfl
  | @parent a p b hp hs ih =>
    -- `a` has a parent, hence is no pointer
    have hna : (w.ty a).ptr = none := by
      cases hh : (w.ty a).ptr with
      | none => rfl
      | some x => have := hpr a (by simp [hh]); rw [this] at hp; cases hp
    rcases sub_cases h2 with h | ⟨b', k, p', q, _, _, h4, _⟩
    · rcases sub_cases (Sub.parent hp hs) with h' | ⟨a', k, p', q, h3, h4, h5, _⟩
      · rcases up_reach h with rfl | hr
        · rfl
        rcases up_reach h' with rfl | hr'
        · rfl
        exact absurd (reach_trans hr hr') (hac b)
      · -- `b` is a pointer, so `b` going up to `a` means `b = a`
        exact (root b a (by simp [h5]) h).symm
    · rw [hna] at h4; cases h4
  | @pointer a b k p q ha hb hpq ih =>
    cases h2 with
    | refl => rfl
    | parent hp _ =>
      have := hpr b (by simp [hb])
      rw [this] at hp; cases hp
    | pointer h3 h4 h5 =>
      rw [hb] at h3; rw [ha] at h4
      simp only [Option.some.injEq, Prod.mk.injEq] at h3 h4
      obtain ⟨rfl, rfl⟩ := h3
      obtain ⟨-, rfl⟩ := h4
      have := ih h5
      subst this
      exact hu a b (by simp [ha]) (by rw [ha, hb])

/-- a table of types given as a list of (parent, pointer) -/
def mkWorld (l : List (Option Ty × Option (Name × Ty))) : World :=
  { n := l.length, voidT := 0, valueT := 0
    ty := fun t => { id := [], parent := (l[t]?.bind (·.1)), ptr := (l[t]?.bind (·.2)), fields := [],
                     fns := [] } }

/-- C16, of `isChildOf` itself. -/
theorem C16_child_trans (w : World) (hcl : w.Closed) (hac : w.Acyclic) (hpr : w.PointersAreRoots) (fuel : Nat) (hf : w.n < fuel)
    (a b c : Ty) (ha : a < w.n) (h1 : w.childF fuel a b = .ok true) (h2 : w.childF fuel b c = .ok true) :
    w.childF fuel a c = .ok true := by
  obtain ⟨r, hr, hi⟩ := C15_exact w hcl hac hpr fuel hf a c ha
  rw [hr, hi.2 (C16_trans w hpr a b c (C15_sound w fuel a b h1) (C15_sound w fuel b c h2))]

/-- C16, of `isChildOf` itself. -/
theorem C16_child_antisymm (w : World) (hac : w.Acyclic) (hpr : w.PointersAreRoots) (hu : w.PointersUnique) (fuel : Nat)
    (a b : Ty) (h1 : w.childF fuel a b = .ok true) (h2 : w.childF fuel b a = .ok true) : a = b :=
  C16_antisymm w hac hpr hu a b (C15_sound w fuel a b h1) (C15_sound w fuel b a h2)

/-- C16. Without roots: 0 base, 1 derived of 0, 2 = 0*, 3 = 1*, 4 declared parent of 2. -/
theorem C16_trans_fails_without_roots :
    let w := mkWorld [(none, none), (some 0, none), (some 4, some (['*'], 0)), (none, some (['*'], 1)),
      (none, none)]
    w.childF 6 3 2 = .ok true ∧ w.childF 6 2 4 = .ok true ∧ w.childF 6 3 4 = .ok false := by decide

/-- C16. Without uniqueness: two distinct pointer types of one kind to the same type. -/
theorem C16_antisymm_fails_without_unique :
    let w := mkWorld [(none, none), (none, some (['p'], 0)), (none, some (['p'], 0))]
    w.childF 4 1 2 = .ok true ∧ w.childF 4 2 1 = .ok true := by decide

/-! ### C17 -/

theorem nearest_unique {β : Type} {w : World} (own : TypeD → Option β) (t : Ty) (o o' : β)
    (h1 : w.Nearest own t o) (h2 : w.Nearest own t o') : o = o' := by
  obtain ⟨k, u, a1, a2, a3⟩ := h1
  obtain ⟨k', u', b1, b2, b3⟩ := h2
  have : k = k' := by
    rcases Nat.lt_trichotomy k k' with h | h | h
    · rw [b3 k h u a1] at a2; cases a2
    · exact h
    · rw [a3 k' h u' b1] at b2; cases b2
  subst this
  rw [a1] at b1; simp at b1; subst b1
  simp only [a2, Option.some.injEq] at b2; exact b2

theorem nearestF_of_nearest {β : Type} {w : World} (own : TypeD → Option β) (fuel : Nat) (t : Ty)
    (o : β) (hnd : w.nearestF own fuel t ≠ .error .diverge) (h : w.Nearest own t o) :
    w.nearestF own fuel t = .ok o := by
  cases hn : w.nearestF own fuel t with
  | ok o' => rw [nearest_unique own t o o' h (nearestF_ok _ _ _ _ hn)]
  | error x =>
    obtain ⟨-, h6⟩ := nearestF_err _ _ _ _ hn (by rintro rfl; exact hnd hn)
    obtain ⟨k, u, a1, a2, _⟩ := h
    rw [h6 k u a1] at a2; cases a2

/-- C17. A function lookup returns exactly what the closest ancestor-or-self that declares the name
    declares, and raises exactly when no ancestor-or-self declares it. -/
theorem C17_function_nearest (w : World) (hcl : w.Closed) (hac : w.Acyclic) (t : Ty) (ht : t < w.n)
    (name : Name) (fuel : Nat) (hf : w.n ≤ fuel) :
    (∀ o, w.functionF fuel t name = .ok o ↔ w.Nearest (fun d => d.fns.get name) t o) ∧
    ((∀ k u, w.anc k t = some u → (w.ty u).fns.get name = none) ↔
      w.functionF fuel t name = .error .err) ∧
    (w.hasFunctionF fuel t name = .ok true ↔ ∃ o, w.functionF fuel t name = .ok o) ∧
    (w.hasFunctionF fuel t name = .ok false ↔ w.functionF fuel t name = .error .err) := by
  have hnd := nearestF_no_diverge (fun d => d.fns.get name) w.n t fuel (anc_ends hcl hac t ht) hf
  refine ⟨fun o => ⟨fun h => nearestF_ok _ _ _ _ h, fun h => nearestF_of_nearest _ _ _ _ hnd h⟩, ?_, ?_, ?_⟩
  · constructor
    · intro hall
      unfold functionF
      cases h : w.nearestF (fun d => d.fns.get name) fuel t with
      | ok o =>
        obtain ⟨k, u, h1, h2, _⟩ := nearestF_ok _ _ _ _ h
        exact absurd h2 (by simp [hall k u h1])
      | error x => rw [(nearestF_err _ _ _ _ h (by rintro rfl; exact hnd h)).1]
    · intro h; exact (nearestF_err _ _ _ _ h (by simp)).2
  · rw [hasFunctionF_eq]
    unfold functionF
    cases h : w.nearestF (fun d => d.fns.get name) fuel t with
    | ok o => simp
    | error x => cases x <;> simp
  · rw [hasFunctionF_eq]
    unfold functionF
    cases h : w.nearestF (fun d => d.fns.get name) fuel t with
    | ok o => simp
    | error x =>
      have := (nearestF_err _ _ _ _ h (by rintro rfl; exact hnd h)).1
      subst this; simp

/-- C17, for fields. -/
theorem C17_field_nearest (w : World) (hcl : w.Closed) (hac : w.Acyclic) (t : Ty) (ht : t < w.n)
    (name : Name) (fuel : Nat) (hf : w.n ≤ fuel) :
    (∀ o, w.fieldF fuel t name = .ok o ↔ w.Nearest (fun d => d.fields.get name) t o) ∧
    ((∀ k u, w.anc k t = some u → (w.ty u).fields.get name = none) ↔
      w.fieldF fuel t name = .error .err) ∧
    (w.hasFieldF fuel t name = .ok true ↔ ∃ o, w.fieldF fuel t name = .ok o) ∧
    (w.hasFieldF fuel t name = .ok false ↔ w.fieldF fuel t name = .error .err) := by
  have hnd := nearestF_no_diverge (fun d => d.fields.get name) w.n t fuel (anc_ends hcl hac t ht) hf
  refine ⟨fun o => ⟨fun h => nearestF_ok _ _ _ _ h, fun h => nearestF_of_nearest _ _ _ _ hnd h⟩, ?_, ?_, ?_⟩
  · constructor
    · intro hall
      unfold fieldF
      cases h : w.nearestF (fun d => d.fields.get name) fuel t with
      | ok o =>
        obtain ⟨k, u, h1, h2, _⟩ := nearestF_ok _ _ _ _ h
        exact absurd h2 (by simp [hall k u h1])
      | error x => rw [(nearestF_err _ _ _ _ h (by rintro rfl; exact hnd h)).1]
    · intro h; exact (nearestF_err _ _ _ _ h (by simp)).2
  · rw [hasFieldF_eq]
    unfold fieldF
    cases h : w.nearestF (fun d => d.fields.get name) fuel t with
    | ok o => simp
    | error x => cases x <;> simp
  · rw [hasFieldF_eq]
    unfold fieldF
    cases h : w.nearestF (fun d => d.fields.get name) fuel t with
    | ok o => simp
    | error x =>
      have := (nearestF_err _ _ _ _ h (by rintro rfl; exact hnd h)).1
      subst this; simp

/-! ### C18 -/

theorem nearest_exists {β : Type} {w : World} (own : TypeD → Option β) : ∀ (j : Nat) (t u : Ty),
    w.anc j t = some u → (own (w.ty u)).isSome → ∃ b, w.Nearest own t b := by
  intro j
  induction j with
  | zero =>
    intro t u h hs
    simp [anc] at h; subst h
    obtain ⟨b, hb⟩ := Option.isSome_iff_exists.1 hs
    exact ⟨b, 0, t, rfl, hb, by simp⟩
  | succ j ih =>
    intro t u h hs
    cases ho : own (w.ty t) with
    | some b => exact ⟨b, 0, t, rfl, ho, by simp⟩
    | none =>
      rw [anc] at h
      split at h
      · cases h
      · rename_i p hp
        obtain ⟨b, k, v, h1, h2, h3⟩ := ih p u h hs
        refine ⟨b, k + 1, v, by simp [anc, hp, h1], h2, ?_⟩
        intro i hi x hx
        cases i with
        | zero => simp [anc] at hx; subst hx; exact ho
        | succ i => simp [anc, hp] at hx; exact h3 i (by omega) x hx

/-- C18. The function listing is strictly increasing and holds exactly the names `hasFunction`
    confirms. -/
theorem C18_functions (w : World) (hcl : w.Closed) (hac : w.Acyclic) (t : Ty) (ht : t < w.n)
    (fuel : Nat) (hf : w.n ≤ fuel) :
    ∃ l, w.functionsF fuel t = .ok l ∧ l.Pairwise (· < ·) ∧
      ∀ name, name ∈ l ↔ w.hasFunctionF fuel t name = .ok true := by
  obtain ⟨l, hl, hmem⟩ := namesF_spec (fun d => d.fns.map (·.1)) w.n t fuel (anc_ends hcl hac t ht) hf
  refine ⟨sortUnique l, by unfold functionsF; rw [hl]; rfl, sortUnique_sorted l, ?_⟩
  intro name
  rw [sortUnique_mem, hmem]
  obtain ⟨h1, h2, h3, h4⟩ := C17_function_nearest w hcl hac t ht name fuel hf
  rw [h3]
  constructor
  · rintro ⟨j, u, hu, hx⟩
    rw [← Assoc.get_isSome_iff] at hx
    cases h : w.functionF fuel t name with
    | ok o => exact ⟨o, rfl⟩
    | error x =>
      have hnd := nearestF_no_diverge (fun d => d.fns.get name) w.n t fuel (anc_ends hcl hac t ht) hf
      obtain ⟨-, h6⟩ := nearestF_err _ _ _ _ h (by rintro rfl; exact hnd h)
      rw [h6 j u hu] at hx; cases hx
  · rintro ⟨o, ho⟩
    obtain ⟨k, u, hu, hx, _⟩ := (h1 o).1 ho
    exact ⟨k, u, hu, by rw [← Assoc.get_isSome_iff]; simp only at hx; rw [hx]; rfl⟩

/-- C18, for fields. -/
theorem C18_fields (w : World) (hcl : w.Closed) (hac : w.Acyclic) (t : Ty) (ht : t < w.n)
    (fuel : Nat) (hf : w.n ≤ fuel) :
    ∃ l, w.fieldsF fuel t = .ok l ∧ l.Pairwise (· < ·) ∧
      ∀ name, name ∈ l ↔ w.hasFieldF fuel t name = .ok true := by
  obtain ⟨l, hl, hmem⟩ := namesF_spec (fun d => d.fields.map (·.1)) w.n t fuel (anc_ends hcl hac t ht) hf
  refine ⟨sortUnique l, by unfold fieldsF; rw [hl]; rfl, sortUnique_sorted l, ?_⟩
  intro name
  rw [sortUnique_mem, hmem]
  obtain ⟨h1, h2, h3, h4⟩ := C17_field_nearest w hcl hac t ht name fuel hf
  rw [h3]
  constructor
  · rintro ⟨j, u, hu, hx⟩
    rw [← Assoc.get_isSome_iff] at hx
    cases h : w.fieldF fuel t name with
    | ok o => exact ⟨o, rfl⟩
    | error x =>
      have hnd := nearestF_no_diverge (fun d => d.fields.get name) w.n t fuel (anc_ends hcl hac t ht) hf
      obtain ⟨-, h6⟩ := nearestF_err _ _ _ _ h (by rintro rfl; exact hnd h)
      rw [h6 j u hu] at hx; cases hx
  · rintro ⟨o, ho⟩
    obtain ⟨k, u, hu, hx, _⟩ := (h1 o).1 ho
    exact ⟨k, u, hu, by rw [← Assoc.get_isSome_iff]; simp only at hx; rw [hx]; rfl⟩

/-! ### C19 -/

/-- the observable members of a type -/
def SameMembers (d d' : TypeD) : Prop :=
  d.id = d'.id ∧ d.parent = d'.parent ∧ d.ptr = d'.ptr ∧ (∀ n, d.fields.get n = d'.fields.get n) ∧
    ∀ n, d.fns.get n = d'.fns.get n

/-- C19. A rejected call changes nothing observable. -/
theorem C19_rejected_no_effect (e : Env) (d : TypeD) (op : TypeOp) (h : (d.step e op).2 ≠ .ok ()) :
    SameMembers (d.step e op).1 d := by
  have hrefl : SameMembers d d := ⟨rfl, rfl, rfl, fun _ => rfl, fun _ => rfl⟩
  cases op with
  | addFunction n f =>
    simp only [TypeD.step, TypeD.addFunction] at h ⊢
    cases hf : d.fields.get n with
    | some x => exact hrefl
    | none =>
      rw [hf] at h
      simp only at h ⊢
      have hsame := C30_refusal_no_effect e _ f h
      refine ⟨rfl, rfl, rfl, fun _ => rfl, ?_⟩
      intro m
      simp only [Assoc.get_set]
      split
      · rename_i hm; subst hm
        rw [hsame]
        cases hg : d.fns.get n with
        | some o => rfl
        | none => rw [hg] at h; simp [Overloads.add] at h
      · rfl
  | addField n a o =>
    simp only [TypeD.step] at h ⊢
    cases hn : Field.new a o with
    | error x => exact hrefl
    | ok f =>
      rw [hn] at h
      simp only [TypeD.addField] at h ⊢
      cases h1 : d.fns.get n with
      | some x => exact hrefl
      | none =>
        cases h2 : d.fields.get n with
        | some x => exact hrefl
        | none => rw [h1, h2] at h; exact absurd rfl h
  | setPointer k p =>
    simp only [TypeD.step, TypeD.setPointer] at h ⊢
    cases hp : d.ptr with
    | some x => exact hrefl
    | none => rw [hp] at h; exact absurd rfl h
  | setParent p => exact absurd rfl h

/-- C19. Acceptance: a field needs a name that is neither a function nor a field of the type, and no
    reference; a function needs a name that is not a field. -/
theorem C19_addField_iff (e : Env) (d : TypeD) (n : Name) (a : Arg) (o : Nat) :
    (d.step e (.addField n a o)).2 = .ok () ↔
      a.ref = .copy ∧ d.fns.get n = none ∧ d.fields.get n = none := by
  simp only [TypeD.step, Field.new]
  by_cases ha : a.ref = .copy
  · simp only [ha, ne_eq, not_true, if_false, TypeD.addField]
    cases d.fns.get n <;> cases d.fields.get n <;> simp
  · simp [ha]

theorem C19_addField_effect (e : Env) (d : TypeD) (n : Name) (a : Arg) (o : Nat)
    (h : (d.step e (.addField n a o)).2 = .ok ()) (m : Name) :
    (d.step e (.addField n a o)).1.fields.get m = if n = m then some ⟨a, o⟩ else d.fields.get m := by
  obtain ⟨h1, h2, h3⟩ := (C19_addField_iff e d n a o).1 h
  simp only [TypeD.step, Field.new, h1, ne_eq, not_true, if_false, TypeD.addField, h2, h3,
    Assoc.get_emplace]
  by_cases hm : n = m
  · subst hm; simp [h3]
  · simp only [hm, if_false]; cases d.fields.get m <;> rfl

/-- C70. A pointer type is declared once: `setPointer` is accepted exactly when the type is not a
    pointer yet, and then records the kind and the pointee and nothing else. -/
theorem C70_setPointer (e : Env) (d : TypeD) (k : Name) (t : Ty) :
    ((d.step e (.setPointer k t)).2 = .ok () ↔ d.ptr = none) ∧
    (d.ptr = none → (d.step e (.setPointer k t)).1 = { d with ptr := some (k, t) }) := by
  simp only [TypeD.step, TypeD.setPointer]
  cases d.ptr <;> simp

/-- C70. A parent is recorded, the last one given counting, and nothing else changes. -/
theorem C70_setParent (e : Env) (d : TypeD) (t : Ty) :
    d.step e (.setParent t) = ({ d with parent := some t }, .ok ()) := rfl

/-- C70. A function is accepted exactly when no field has its name and no overload of that name could
    stand for it; it is then the last overload of its name and nothing else
    changes. -/
theorem C70_addFunction (e : Env) (d : TypeD) (n : Name) (f : Fn) :
    ((d.step e (.addFunction n f)).2 = .ok () ↔
      d.fields.get n = none ∧ ∀ g ∈ (d.fns.get n).getD [], ¬ (testReturn e g.ret f.ret ≠ .none ∧
        g.args.length = f.args.length ∧ ∀ q ∈ g.args.zip f.args, Spec.Fits e q.1 q.2)) ∧
    ((d.step e (.addFunction n f)).2 = .ok () → ∀ m,
      (d.step e (.addFunction n f)).1.fns.get m =
        if n = m then some ((d.fns.get n).getD [] ++ [f]) else d.fns.get m) ∧
    (d.step e (.addFunction n f)).1.fields = d.fields ∧
    (d.step e (.addFunction n f)).1.parent = d.parent ∧
    (d.step e (.addFunction n f)).1.ptr = d.ptr := by
  simp only [TypeD.step, TypeD.addFunction]
  cases hf : d.fields.get n with
  | some x => simp
  | none =>
    refine ⟨?_, ?_, rfl, rfl, rfl⟩
    · simp only [true_and]
      exact C30_accepted_iff e _ f
    · intro h m
      rw [Assoc.get_set, C30_accepted_effect e _ f h]

/-- C70. A field is accepted exactly when it is declared by value and neither a field nor a function has its name; it then has
    the type and offset given, and nothing else changes, accepted or not. -/
theorem C70_addField (e : Env) (d : TypeD) (n : Name) (a : Arg) (o : Nat) :
    ((d.step e (.addField n a o)).2 = .ok () ↔
      a.ref = .copy ∧ d.fns.get n = none ∧ d.fields.get n = none) ∧
    (∀ m, (d.step e (.addField n a o)).1.fields.get m =
      if (d.step e (.addField n a o)).2 = .ok () ∧ n = m then some ⟨a, o⟩ else d.fields.get m) ∧
    (d.step e (.addField n a o)).1.fns = d.fns ∧
    (d.step e (.addField n a o)).1.parent = d.parent ∧
    (d.step e (.addField n a o)).1.ptr = d.ptr := by
  refine ⟨?_, ?_, ?_⟩
  · rw [C19_addField_iff]
  · intro m
    by_cases h : (d.step e (.addField n a o)).2 = .ok ()
    · rw [C19_addField_effect e d n a o h m]
      simp only [h, true_and]
    · simp only [h, false_and, if_false]
      simp only [TypeD.step, Field.new, TypeD.addField] at h ⊢
      grind
  · simp only [TypeD.step, Field.new, TypeD.addField]
    grind

/-- C70. A definition applies its calls in order and stops at the first that is rejected: it succeeds
    exactly when every call is accepted in the state left by those before it, and otherwise leaves
    what the calls before the rejected one made. -/
theorem C70_definition (e : Env) (d d' : TypeD) (ops : List TypeOp) :
    (d.runAll e ops = (d', .ok ()) ↔ d' = d.run e ops ∧
      ∀ pre op post, ops = pre ++ op :: post → ((d.run e pre).step e op).2 = .ok ()) ∧
    (∀ x, d.runAll e ops = (d', .error x) ↔ ∃ pre op post, ops = pre ++ op :: post ∧
      d.runAll e pre = (d.run e pre, .ok ()) ∧ (d.run e pre).step e op = (d', .error x)) := by
  induction ops generalizing d with
  | nil =>
    constructor
    · simp only [TypeD.runAll, TypeD.run, List.foldl_nil, Prod.mk.injEq, and_true]
      constructor
      · rintro rfl
        exact ⟨rfl, fun pre op post h => by simp at h⟩
      · exact fun h => h.1.symm
    · intro x
      simp [TypeD.runAll]
  | cons op ops ih =>
    have hrun : ∀ pre, d.run e (op :: pre) = (d.step e op).1.run e pre := fun pre => rfl
    cases hs : (d.step e op).2 with
    | ok u =>
      cases u
      have hall : ∀ l, d.runAll e (op :: l) = (d.step e op).1.runAll e l := fun l => by
        rw [TypeD.runAll, hs]
      obtain ⟨ih1, ih2⟩ := ih (d.step e op).1
      rw [hall, hrun]
      constructor
      · rw [ih1]
        constructor
        · rintro ⟨h1, h2⟩
          refine ⟨h1, fun pre o post heq => ?_⟩
          cases pre with
          | nil =>
            simp only [List.nil_append, List.cons.injEq] at heq
            rw [← heq.1]; exact hs
          | cons q pre =>
            simp only [List.cons_append, List.cons.injEq] at heq
            obtain ⟨rfl, rfl⟩ := heq
            exact h2 pre o post rfl
        · rintro ⟨h1, h2⟩
          exact ⟨h1, fun pre o post heq => h2 (op :: pre) o post (by simp [heq])⟩
      · intro x
        rw [ih2 x]
        constructor
        · rintro ⟨pre, o, post, h1, h2, h3⟩
          exact ⟨op :: pre, o, post, by simp [h1], by rw [hall, hrun]; exact h2, h3⟩
        · rintro ⟨pre, o, post, h1, h2, h3⟩
          cases pre with
          | nil =>
            simp only [List.nil_append, List.cons.injEq] at h1
            obtain ⟨rfl, rfl⟩ := h1
            have h3' : d.step e op = (d', .error x) := h3
            rw [h3'] at hs; cases hs
          | cons q pre =>
            simp only [List.cons_append, List.cons.injEq] at h1
            obtain ⟨rfl, rfl⟩ := h1
            rw [hall, hrun] at h2
            exact ⟨pre, o, post, rfl, h2, h3⟩
    | error y =>
      have hall : ∀ l, d.runAll e (op :: l) = ((d.step e op).1, .error y) := fun l => by
        rw [TypeD.runAll, hs]
      rw [hall]
      constructor
      · simp only [Prod.mk.injEq, reduceCtorEq, and_false, false_iff, not_and]
        intro _ h
        have := h [] op ops rfl
        change (d.step e op).2 = _ at this
        rw [hs] at this; cases this
      · intro x
        constructor
        · intro h
          simp only [Prod.mk.injEq, Except.error.injEq] at h
          exact ⟨[], op, ops, rfl, rfl, by
            change d.step e op = _
            rw [← h.1, ← h.2, ← hs]⟩
        · rintro ⟨pre, o, post, h1, h2, h3⟩
          cases pre with
          | nil =>
            simp only [List.nil_append, List.cons.injEq] at h1
            obtain ⟨rfl, rfl⟩ := h1
            have h3' : d.step e op = (d', .error x) := h3
            rw [h3'] at hs ⊢
            simp only [Except.error.injEq] at hs
            rw [hs]
          | cons q pre =>
            simp only [List.cons_append, List.cons.injEq] at h1
            obtain ⟨rfl, rfl⟩ := h1
            rw [hall] at h2
            simp only [Prod.mk.injEq, reduceCtorEq, and_false] at h2

/-- C19. In every type built by any sequence of calls, no name is both a field and a function. -/
theorem C19_disjoint (e : Env) (id : Name) (ops : List TypeOp) (n : Name) :
    ((TypeD.new id).run e ops).fields.get n = none ∨ ((TypeD.new id).run e ops).fns.get n = none := by
  suffices H : ∀ (ops : List TypeOp) (d : TypeD),
      (∀ n, d.fields.get n = none ∨ d.fns.get n = none) →
      ∀ n, (d.run e ops).fields.get n = none ∨ (d.run e ops).fns.get n = none from
    H ops _ (fun _ => .inl rfl) n
  clear n
  intro ops
  induction ops with
  | nil => intro d h; exact h
  | cons op ops ih =>
    intro d h
    refine ih _ ?_
    intro n
    show (d.step e op).1.fields.get n = none ∨ (d.step e op).1.fns.get n = none
    cases op with
    | addFunction m f =>
      simp only [TypeD.step, TypeD.addFunction]
      cases hf : d.fields.get m with
      | some x => exact h n
      | none =>
        simp only [Assoc.get_set]
        by_cases hm : m = n
        · subst hm; exact .inl hf
        · simp [hm]; exact h n
    | addField m a o =>
      simp only [TypeD.step]
      cases Field.new a o with
      | error x => exact h n
      | ok f =>
        simp only [TypeD.addField]
        cases h1 : d.fns.get m with
        | some x => exact h n
        | none =>
          cases h2 : d.fields.get m with
          | some x => exact h n
          | none =>
            simp only [Assoc.get_emplace]
            by_cases hm : m = n
            · subst hm; exact .inr h1
            · rcases h n with h | h
              · left; simp [h, hm]
              · exact .inr h
    | setPointer k p =>
      simp only [TypeD.step, TypeD.setPointer]
      cases d.ptr <;> exact h n
    | setParent p => exact h n

/-! ### C20 -/

/-- the constructors a type answers for: the nearest overload set named like the type -/
def Constructors (w : World) (t : Ty) (o : Overloads) : Prop :=
  w.Nearest (fun d => d.fns.get (w.ty t).id) t o

theorem single_arg_test (e : Env) (hvv : e.voidT ≠ e.valueT) (f : Fn) (t : Ty) (r : RefType)
    (hv : t ≠ e.voidT) (hd : t ≠ e.valueT) :
    f.test e ⟨t, .copy, false⟩ [⟨t, r, false⟩] ≠ .none ↔
      (f.ret.type ≠ e.voidT ∧ Spec.Matches e f.ret ⟨t, .copy, false⟩) ∧
      ∃ p, f.args = [p] ∧ Spec.Matches e ⟨t, r, false⟩ p := by
  unfold Fn.test
  rw [ne_eq, combine_eq_none, not_or]
  apply and_congr
  · unfold testReturn
    rw [if_neg (show ¬ ((⟨t, .copy, false⟩ : Arg).type = e.voidT) from hv)]
    by_cases hr : f.ret.type = e.voidT
    · rw [if_pos hr]
      simp [hr, hd]
    · rw [if_neg hr, ← C22_matches_iff]
      simp only [Arg.isConstRef]
      simp [hr]
  · rw [C23_none_iff]
    match hargs : f.args with
    | [] => simp
    | [p] => simp [← C22_matches_iff]
    | _ :: _ :: _ => simp

/-- C20. `isCopiable` holds exactly when some constructor of the type accepts one copy of it and gives
    back something acceptable as the type by value. -/
theorem C20_isCopiable_iff (w : World) (hcl : w.Closed) (hac : w.Acyclic)
    (hvv : w.voidT ≠ w.valueT) (t : Ty) (ht : t < w.n) (hv : t ≠ w.voidT) (hd : t ≠ w.valueT) :
    w.isCopiable t = true ↔ ∃ o, Constructors w t o ∧ ∃ f ∈ o,
      (f.ret.type ≠ w.voidT ∧ Spec.Matches w.env f.ret ⟨t, .copy, false⟩) ∧
      ∃ p, f.args = [p] ∧ Spec.Matches w.env ⟨t, .copy, false⟩ p := by
  have hn := C17_function_nearest w hcl hac t ht (w.ty t).id w.fuel (by unfold World.fuel; omega)
  unfold isCopiable constructibleFrom
  cases h : w.functionF w.fuel t (w.ty t).id with
  | error x =>
    simp only [Bool.false_eq_true, false_iff]
    rintro ⟨o, ⟨k, u, a1, a2, _⟩, -⟩
    have hnd := nearestF_no_diverge (fun d => d.fns.get (w.ty t).id) w.n t w.fuel
      (anc_ends hcl hac t ht) (by unfold World.fuel; omega)
    obtain ⟨-, h6⟩ := nearestF_err _ _ _ _ h (by rintro rfl; exact hnd h)
    exact absurd a2 (by simp [h6 k u a1])
  | ok o =>
    simp only [Overloads.test, List.any_eq_true, decide_eq_true_eq]
    constructor
    · rintro ⟨f, hf, hm⟩
      exact ⟨o, (hn.1 o).1 h, f, hf, (single_arg_test w.env hvv f t .copy hv hd).1 hm⟩
    · rintro ⟨o', ho', f, hf, hm⟩
      have := nearest_unique _ t o' o ho' ((hn.1 o).1 h)
      subst this
      exact ⟨f, hf, (single_arg_test w.env hvv f t .copy hv hd).2 hm⟩

/-- the constructors of a freshly plumbed type -/
def plumbedConstructors (t : Ty) (id : Name) (c : Caps) : Overloads :=
  (if c.defaultConstructible && c.moveConstructible then [Fn.make id ⟨t, .copy, false⟩ [] 0] else []) ++
  (if c.copyConstructible && c.moveConstructible
    then [Fn.make id ⟨t, .copy, false⟩ [⟨t, .lvalue, true⟩] 1] else []) ++
  (if c.moveConstructible then [Fn.make id ⟨t, .copy, false⟩ [⟨t, .rvalue, false⟩] 3] else [])

theorem match_mutref_rref (e : Env) (t : Ty) (hc : e.conv t t = false) :
    isConvertibleTo e ⟨t, .lvalue, true⟩ ⟨t, .rvalue, false⟩ = .none := by
  unfold isConvertibleTo; simp [hc, testConstConversion]

theorem match_copy_constref (e : Env) (t : Ty) (hc : e.conv t t = false) (hr : e.child t t = true) :
    isConvertibleTo e ⟨t, .copy, false⟩ ⟨t, .lvalue, true⟩ = .part := by
  unfold isConvertibleTo; simp [hc, hr, testConstConversion]

theorem match_rvalue_constref (e : Env) (t : Ty) (hc : e.conv t t = false) (hr : e.child t t = true) :
    isConvertibleTo e ⟨t, .rvalue, false⟩ ⟨t, .lvalue, true⟩ = .part := by
  unfold isConvertibleTo; simp [hc, hr, testConstConversion]

theorem match_copy_rref (e : Env) (t : Ty) (hc : e.conv t t = false) :
    isConvertibleTo e ⟨t, .copy, false⟩ ⟨t, .rvalue, false⟩ = .none := by
  unfold isConvertibleTo; simp [hc, testConstConversion]

/-- C20. The plumbing of a new type never raises and registers exactly the constructors the class
    has. -/
theorem C20_plumbing (e : Env) (t : Ty) (id : Name) (c : Caps)
    (hid : id ≠ "operator=".toList) (hc : e.conv t t = false) :
    ((TypeD.new id).runAll e (plumbingOps t id c)).2 = .ok () ∧
    (((TypeD.new id).runAll e (plumbingOps t id c)).1.fns.get id).getD [] =
      plumbedConstructors t id c ∧
    ((TypeD.new id).runAll e (plumbingOps t id c)).1.parent = none ∧
    ((TypeD.new id).runAll e (plumbingOps t id c)).1.id = id := by
  obtain ⟨c1, c2, c3, c4, c5⟩ := c
  have hm := match_mutref_rref e t hc
  simp only [plumbingOps]
  generalize "operator=".toList = op at hid ⊢
  have hid' := Ne.symm hid
  cases c1 <;> cases c2 <;> cases c3 <;> cases c4 <;> cases c5 <;>
    simp [plumbedConstructors, TypeD.runAll, TypeD.step, TypeD.addFunction, TypeD.new,
      Overloads.add, Fn.testFn, Fn.make, testArguments, testArgumentsLoop, convertible_same, hm,
      combine, Assoc.get_set, hid, hid']

/-- C20. A plumbed type is reported copiable exactly when the class is copy- and move-constructible
    (the conditions under which the copy constructor is registered), and movable exactly when it is
    move-constructible, which in C++ a class with only a copy constructor is. -/
theorem C20_plumbed_queries (w : World) (t : Ty) (e : Env) (c : Caps)
    (hid : (w.ty t).id ≠ "operator=".toList) (hv : t ≠ w.voidT) (hd : t ≠ w.valueT)
    (hce : e.conv t t = false) (hc : w.env.conv t t = false)
    (hty : w.ty t = ((TypeD.new (w.ty t).id).runAll e (plumbingOps t (w.ty t).id c)).1) :
    w.isCopiable t = (c.copyConstructible && c.moveConstructible) ∧
    w.isMovable t = c.moveConstructible := by
  have hr : w.env.child t t = true := by simp [env, World.fuel, childF]
  obtain ⟨-, h1, h2, -⟩ := C20_plumbing e t (w.ty t).id c hid hce
  rw [← hty] at h1 h2
  have hconv1 := match_copy_constref w.env t hc hr
  have hconv2 := match_rvalue_constref w.env t hc hr
  have hconv3 := match_copy_rref w.env t hc
  have hret : ∀ id args b, (Fn.make id (⟨t, .copy, false⟩ : Arg) args b).ret = ⟨t, .copy, false⟩ :=
    fun _ _ _ => rfl
  have hargs : ∀ id (r : Arg) args b, (Fn.make id r args b).args = args := fun _ _ _ _ => rfl
  have hf : w.functionF w.fuel t (w.ty t).id = match (w.ty t).fns.get (w.ty t).id with
      | some o => .ok o
      | none => .error .err := by
    unfold functionF World.fuel nearestF
    simp only [h2]
    cases (w.ty t).fns.get (w.ty t).id <;> rfl
  unfold isCopiable isMovable constructibleFrom
  rw [hf]
  cases hg : (w.ty t).fns.get (w.ty t).id with
  | none =>
    rw [hg] at h1
    obtain ⟨c1, c2, c3, c4, c5⟩ := c
    cases c1 <;> cases c2 <;> cases c3 <;> simp [plumbedConstructors] at h1 ⊢
  | some o =>
    rw [hg] at h1
    simp only [Option.getD_some] at h1
    subst h1
    obtain ⟨c1, c2, c3, c4, c5⟩ := c
    cases c1 <;> cases c2 <;> cases c3 <;>
      simp [plumbedConstructors, Overloads.test, Fn.test, hret, hargs, testReturn_self,
        testArguments, testArgumentsLoop, convertible_same, hconv1, hconv2, hconv3, combine]

/-! ### satisfiability -/

/-- 0 void, 1 Value, 2 base, 3 derived, 4 base*, 5 derived* -/
def demoWorld : World :=
  { n := 6, voidT := 0, valueT := 1
    ty := fun t => match t with
      | 2 => { TypeD.new ['B'] with fields := [(['x'], ⟨⟨0, .copy, false⟩, 0⟩)] }
      | 3 => { TypeD.new ['D'] with parent := some 2 }
      | 4 => { TypeD.new ['B', '*'] with ptr := some (['*'], 2) }
      | 5 => { TypeD.new ['D', '*'] with ptr := some (['*'], 3) }
      | _ => TypeD.new [] }

theorem demo_edge (a b : Ty) (h : demoWorld.Edge a b) : (a = 3 ∧ b = 2) ∨ (a = 4 ∧ b = 2) ∨
    (a = 5 ∧ b = 3) := by
  unfold Edge demoWorld at h
  simp only at h
  split at h <;> simp [TypeD.new] at h
  · exact .inl ⟨rfl, h.symm⟩
  · exact .inr (.inl ⟨rfl, h.symm⟩)
  · exact .inr (.inr ⟨rfl, h.symm⟩)

theorem demo_reach (a b : Ty) (h : demoWorld.Reach a b) : b < a := by
  induction h with
  | edge h => rcases demo_edge _ _ h with ⟨rfl, rfl⟩ | ⟨rfl, rfl⟩ | ⟨rfl, rfl⟩ <;> decide
  | step h _ ih =>
    rcases demo_edge _ _ h with ⟨rfl, rfl⟩ | ⟨rfl, rfl⟩ | ⟨rfl, rfl⟩ <;>
      exact Nat.lt_trans ih (by decide)

example : demoWorld.Closed ∧ demoWorld.Acyclic ∧ demoWorld.PointersAreRoots := by
  refine ⟨?_, fun t h => absurd (demo_reach t t h) (Nat.lt_irrefl t), ?_⟩
  · intro a b _ h
    rcases demo_edge _ _ h with ⟨rfl, rfl⟩ | ⟨rfl, rfl⟩ | ⟨rfl, rfl⟩ <;> decide
  · intro a h
    unfold demoWorld at h ⊢
    simp only at h ⊢
    split <;> simp_all [TypeD.new]

example : demoWorld.childF 7 5 4 = .ok true ∧ demoWorld.childF 7 4 5 = .ok false ∧
    demoWorld.fieldF 7 3 ['x'] = .ok ⟨⟨0, .copy, false⟩, 0⟩ ∧
    demoWorld.fieldF 7 5 ['x'] = .error .err := by decide

/-- a plumbed class -/
example : let d := ((TypeD.new ['T']).runAll demoEnv (plumbingOps 7 ['T'] ⟨true, true, true, true, true⟩)).1
    (d.fns.map (·.1)) = ["operator=".toList, ['T']] ∧
    ((d.fns.get ['T']).getD []).length = 3 := by decide

end Reflect

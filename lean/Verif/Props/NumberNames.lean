import Verif.Model.NumberNames
import Verif.Spec.NumberNames
import Verif.Props.Registry
/-
  Property C93: the standard names of the arithmetic types (src/types/primitives.cpp).
-/
namespace Reflect.Registry
variable (prog : LoaderId → List Act)

/-- A list of aliases registered one after the other. -/
theorem runActs_aliases (g : St → Name → St × Res TypeId) (cur : Option TypeId) :
    ∀ (l : List (Name × Name)) (s : St), (l.map (·.2)).Nodup → (∀ x ∈ l, x.1 ≠ [] ∧ x.2 ≠ []) →
      (∀ x ∈ l, s.aliases.get x.2 = none) →
      ∃ m, runActs g cur (l.map fun x => Act.alias x.1 x.2) s = ({ s with aliases := m }, .ok ()) ∧
        (∀ x ∈ l, m.get x.2 = some x.1) ∧ ∀ n, n ∉ l.map (·.2) → m.get n = s.aliases.get n := by
  intro l
  induction l with
  | nil => intro s _ _ _; exact ⟨s.aliases, rfl, by simp, fun _ _ => rfl⟩
  | cons x l ih =>
    intro s hnd hne hfree
    obtain ⟨id, al⟩ := x
    simp only [List.map_cons, List.nodup_cons] at hnd
    have hne0 := hne (id, al) (by simp)
    have hfree0 := hfree (id, al) (by simp)
    simp only at hne0 hfree0
    have ha : addAlias s id al = ({ s with aliases := s.aliases.emplace al id }, .ok ()) := by
      unfold addAlias
      rw [if_neg (by rintro (h | h); exact hne0.1 h; exact hne0.2 h), hfree0]
    obtain ⟨m, h1, h2, h3⟩ := ih { s with aliases := s.aliases.emplace al id } hnd.2
      (fun x hx => hne x (by simp [hx])) (fun x hx => by
        have hxa : al ≠ x.2 := fun e => hnd.1 (e ▸ List.mem_map_of_mem hx)
        show (s.aliases.emplace al id).get x.2 = none
        rw [Assoc.get_emplace]
        have := hfree x (by simp [hx])
        simp [this, hxa])
    refine ⟨m, ?_, ?_, ?_⟩
    · show andThen (addAlias s id al) _ = _
      rw [andThen_ok (by rw [ha]), ha]
      exact h1
    · intro x hx
      rcases List.mem_cons.1 hx with rfl | hx
      · have := h3 al hnd.1
        show m.get al = some id
        rw [this]
        show (s.aliases.emplace al id).get al = some id
        rw [Assoc.get_emplace]; simp [hfree0]
      · exact h2 x hx
    · intro n hn
      simp only [List.map_cons, List.mem_cons, not_or] at hn
      rw [h3 n hn.2]
      show (s.aliases.emplace al id).get n = _
      rw [Assoc.get_emplace]
      have : al ≠ n := fun e => hn.1 e.symm
      cases s.aliases.get n <;> simp [this]

/-- When all of them are accepted, none was an alias before. -/
theorem aliases_free (g : St → Name → St × Res TypeId) (cur : Option TypeId) :
    ∀ (l : List (Name × Name)) (s : St),
      (runActs g cur (l.map fun x => Act.alias x.1 x.2) s).2 = .ok () → ∀ x ∈ l, s.aliases.get x.2 = none := by
  intro l
  induction l with
  | nil => intro s _ x hx; cases hx
  | cons x l ih =>
    intro s h y hy
    obtain ⟨id, al⟩ := x
    have h' : (andThen (addAlias s id al) (runActs g cur (l.map fun x => Act.alias x.1 x.2))).2 = .ok () := h
    cases hr : (addAlias s id al).2 with
    | error e => rw [andThen_err hr] at h'; cases h'
    | ok u =>
      rw [andThen_ok hr] at h'
      rcases List.mem_cons.1 hy with rfl | hy
      · exact ((C11_alias_accepted_iff s id al).1.1 hr).2.2
      · have := ih _ h' y hy
        cases hg : s.aliases.get y.2 with
        | none => rfl
        | some v => rw [addAlias_get s id al _ _ hg] at this; cases this

theorem aliasTable_names (plat : Name → Name) :
    (aliasTable plat).map (·.2) = keywordAliases.map (·.2) ++ typedefNames := by
  simp [aliasTable, Function.comp_def]

theorem aliasTable_nodup (plat : Name → Name) : ((aliasTable plat).map (·.2)).Nodup := by
  rw [aliasTable_names]; decide +kernel

theorem names_list (n : Name) :
    Spec.StandardName n ↔ n ∈ keywordAliases.map (·.2) ++ typedefNames := by
  have h : Spec.standardNames.Perm (keywordAliases.map (·.2) ++ typedefNames) := by decide +kernel
  exact h.mem_iff

theorem mem_aliasTable (plat : Name → Name) (n id : Name) :
    (id, n) ∈ aliasTable plat ↔ Spec.Denotes plat n id := by
  unfold aliasTable Spec.Denotes
  rw [List.mem_append]
  have hk : ∀ x ∈ keywordAliases, x.2 ∈ Spec.shortNames ∧ x.1 = x.2 ++ " int".toList := by decide +kernel
  have hk' : ∀ n ∈ Spec.shortNames, (n ++ " int".toList, n) ∈ keywordAliases := by decide +kernel
  have ht : ∀ n ∈ typedefNames, n ∈ Spec.typedefs := by decide +kernel
  have ht' : ∀ n ∈ Spec.typedefs, n ∈ typedefNames := by decide +kernel
  constructor
  · rintro (h | h)
    · exact .inl (hk _ h)
    · obtain ⟨m, hm, he⟩ := List.mem_map.1 h
      cases he
      exact .inr ⟨ht _ hm, rfl⟩
  · rintro (⟨h, he⟩ | ⟨h, he⟩)
    · exact .inl (he ▸ hk' _ h)
    · exact .inr (List.mem_map.2 ⟨n, ht' _ h, by rw [he]⟩)

/-- the types behind the typedefs are arithmetic types -/
theorem aliasTable_ids (plat : Name → Name) (hp : Spec.Sane plat) :
    ∀ x ∈ aliasTable plat, x.1 ∈ numberIds ∧ x.1 ≠ [] ∧ x.2 ≠ [] := by
  have hk : ∀ x ∈ keywordAliases, x.1 ∈ numberIds ∧ x.2 ≠ [] := by decide +kernel
  have hn : ∀ x ∈ numberIds, x ≠ [] := by decide +kernel
  have ht : ∀ n ∈ typedefNames, n ∈ Spec.typedefs ∧ n ≠ [] := by decide +kernel
  have hi : ∀ x ∈ Spec.arithmetic, x ∈ numberIds := by decide +kernel
  intro x hx
  rcases List.mem_append.1 hx with h | h
  · exact ⟨(hk x h).1, hn _ (hk x h).1, (hk x h).2⟩
  · obtain ⟨m, hm, rfl⟩ := List.mem_map.1 h
    have h1 := hi _ (hp m (ht m hm).1)
    exact ⟨h1, hn _ h1, (ht m hm).2⟩

/-! ### C93 -/

/-- C93. The library registers its standard names without an error exactly if none of them is an alias
    already - in whatever state the registry is, before or after the types themselves are registered or
    loaded - and it changes nothing else: the types, and what the types' own names mean, stay as they are. -/
theorem C93_accepted (fuel : Nat) (plat : Name → Name) (hp : Spec.Sane plat) (s : St) :
    ((runActs (get prog fuel) none (primitiveAliases plat) s).2 = .ok () ↔
      ∀ n, Spec.StandardName n → s.aliases.get n = none) ∧
    ((runActs (get prog fuel) none (primitiveAliases plat) s).2 = .ok () →
      ∃ m, (runActs (get prog fuel) none (primitiveAliases plat) s).1 = { s with aliases := m } ∧
        (∀ n id, Spec.Denotes plat n id → m.get n = some id) ∧
        ∀ n, ¬ Spec.StandardName n → m.get n = s.aliases.get n) := by
  have hmem : ∀ n, Spec.StandardName n ↔ n ∈ (aliasTable plat).map (·.2) := by
    intro n; rw [names_list, aliasTable_names]
  have hgo : (∀ n, Spec.StandardName n → s.aliases.get n = none) →
      ∃ m, runActs (get prog fuel) none (primitiveAliases plat) s = ({ s with aliases := m }, .ok ()) ∧
        (∀ x ∈ aliasTable plat, m.get x.2 = some x.1) ∧
        ∀ n, n ∉ (aliasTable plat).map (·.2) → m.get n = s.aliases.get n := by
    intro hfree
    exact runActs_aliases (get prog fuel) none (aliasTable plat) s (aliasTable_nodup plat)
      (fun x hx => (aliasTable_ids plat hp x hx).2)
      (fun x hx => hfree _ ((hmem _).2 (List.mem_map_of_mem hx)))
  have hiff : (runActs (get prog fuel) none (primitiveAliases plat) s).2 = .ok () ↔
      ∀ n, Spec.StandardName n → s.aliases.get n = none := by
    constructor
    · intro h n hn
      obtain ⟨x, hx, rfl⟩ := List.mem_map.1 ((hmem n).1 hn)
      exact aliases_free _ _ _ s h x hx
    · intro h
      obtain ⟨m, h1, _⟩ := hgo h
      rw [h1]
  refine ⟨hiff, fun h => ?_⟩
  obtain ⟨m, h1, h2, h3⟩ := hgo (hiff.1 h)
  refine ⟨m, by rw [h1], fun n id hd => h2 (id, n) ((mem_aliasTable plat n id).2 hd), fun n hn => h3 n ?_⟩
  exact fun hc => hn ((hmem n).2 hc)

/-- C93. From then on, whatever the program does, a standard name gives the very type - loading it if need
    be - that the type's own name gives, unless the program made an alias of the type's own name. -/
theorem C93_names (fuel fuel' : Nat) (plat : Name → Name) (hp : Spec.Sane plat) (s : St) (ops : List Act)
    (h : (runActs (get prog fuel) none (primitiveAliases plat) s).2 = .ok ()) (n id : Name)
    (hd : Spec.Denotes plat n id)
    (hid : (run prog fuel' (runActs (get prog fuel) none (primitiveAliases plat) s).1 ops).aliases.get id = none)
    (f : Nat) :
    get prog f (run prog fuel' (runActs (get prog fuel) none (primitiveAliases plat) s).1 ops) n =
      get prog f (run prog fuel' (runActs (get prog fuel) none (primitiveAliases plat) s).1 ops) id := by
  obtain ⟨m, h1, h2, _⟩ := (C93_accepted prog fuel plat hp s).2 h
  have ha := (ext_run prog fuel' (runActs (get prog fuel) none (primitiveAliases plat) s).1 ops).aliases n id
    (by rw [h1]; exact h2 n id hd)
  generalize run prog fuel' (runActs (get prog fuel) none (primitiveAliases plat) s).1 ops = s2 at ha hid
  have hr : resolve s2 n = resolve s2 id := by unfold resolve; rw [ha, hid]; rfl
  cases f with
  | zero => rfl
  | succ f => rw [get, get, hr]

/-- a script that runs to its end is the history of its actions -/
theorem run_ok (fuel : Nat) : ∀ (as : List Act) (s : St),
    (runActs (get prog fuel) none as s).2 = .ok () →
    run prog fuel s as = (runActs (get prog fuel) none as s).1 := by
  intro as
  induction as with
  | nil => intro s _; rfl
  | cons a as ih =>
    intro s h
    have h' : (andThen (runAct (get prog fuel) none s a) (runActs (get prog fuel) none as)).2 = .ok () := h
    show run prog fuel (step prog fuel s a).1 as =
      (andThen (runAct (get prog fuel) none s a) (runActs (get prog fuel) none as)).1
    have hs : (step prog fuel s a).1 = (runAct (get prog fuel) none s a).1 := by
      show (andThen (runAct (get prog fuel) none s a) (fun s => (s, .ok ()))).1 = _
      unfold andThen; cases (runAct (get prog fuel) none s a).2 <;> rfl
    rw [hs]
    cases hr : (runAct (get prog fuel) none s a).2 with
    | error e => rw [andThen_err hr] at h'; cases h'
    | ok u =>
      rw [andThen_ok hr] at h' ⊢
      exact ih _ h'

theorem run_append (fuel : Nat) (s : St) (a b : List Act) :
    run prog fuel s (a ++ b) = run prog fuel (run prog fuel s a) b := List.foldl_append ..

theorem step_get (fuel : Nat) (s : St) (n : Name) : run prog fuel s [.get n] = (get prog fuel s n).1 := by
  show (andThen (lookup (get prog fuel) n s) (fun s => (s, .ok ()))).1 = _
  unfold andThen lookup
  cases (get prog fuel s n).2 <;> rfl

/-- C93. Two standard names looked up one after the other, anything happening before, between and around the
    registration of the names: they give the same type exactly if the compiler gives them the same type. -/
theorem C93_same_type (fuel : Nat) (plat : Name → Name) (hp : Spec.Sane plat) (pre ops ops' : List Act)
    (hfree : ∀ n, Spec.StandardName n → (run prog fuel St.init pre).aliases.get n = none)
    (n n' id id' : Name) (hd : Spec.Denotes plat n id) (hd' : Spec.Denotes plat n' id') (t t' : TypeId)
    (hg : (get prog fuel (run prog fuel St.init (pre ++ primitiveAliases plat ++ ops)) n).2 = .ok t)
    (hg' : (get prog fuel (run prog fuel St.init (pre ++ primitiveAliases plat ++ ops ++ [.get n] ++ ops')) n').2 =
      .ok t') :
    t = t' ↔ id = id' := by
  have hok := (C93_accepted prog fuel plat hp (run prog fuel St.init pre)).1.2 hfree
  obtain ⟨m, h1, h2, _⟩ := (C93_accepted prog fuel plat hp (run prog fuel St.init pre)).2 hok
  have hal : ∀ n id, Spec.Denotes plat n id →
      (run prog fuel St.init (pre ++ primitiveAliases plat)).aliases.get n = some id := by
    intro n id hd
    rw [run_append, run_ok prog fuel _ _ hok, h1]
    exact h2 n id hd
  have e1 : Ext (run prog fuel St.init (pre ++ primitiveAliases plat))
      (run prog fuel St.init (pre ++ primitiveAliases plat ++ ops)) := by
    rw [run_append prog fuel _ (pre ++ primitiveAliases plat) ops]; exact ext_run prog fuel _ ops
  have e2 : Ext (run prog fuel St.init (pre ++ primitiveAliases plat ++ ops ++ [.get n]))
      (run prog fuel St.init (pre ++ primitiveAliases plat ++ ops ++ [.get n] ++ ops')) := by
    rw [run_append prog fuel _ (pre ++ primitiveAliases plat ++ ops ++ [Act.get n]) ops']
    exact ext_run prog fuel _ ops'
  have e12 : Ext (run prog fuel St.init (pre ++ primitiveAliases plat ++ ops))
      (run prog fuel St.init (pre ++ primitiveAliases plat ++ ops ++ [.get n])) := by
    rw [run_append prog fuel _ (pre ++ primitiveAliases plat ++ ops) [Act.get n]]
    exact ext_run prog fuel _ _
  have hr : resolve (run prog fuel St.init (pre ++ primitiveAliases plat ++ ops)) n = id := by
    unfold resolve; rw [e1.aliases _ _ (hal n id hd)]; rfl
  have hr' : resolve (run prog fuel St.init (pre ++ primitiveAliases plat ++ ops ++ [.get n] ++ ops')) n' = id' := by
    unfold resolve; rw [((e1.trans e12).trans e2).aliases _ _ (hal n' id' hd')]; rfl
  have g1 := get_registered prog fuel _ _ _ hg
  rw [hr, ← step_get, ← run_append] at g1
  have g2 := get_registered prog fuel _ _ _ hg'
  rw [hr', ← step_get, ← run_append] at g2
  have g3 := (ext_run prog fuel (run prog fuel St.init (pre ++ primitiveAliases plat ++ ops ++ [.get n] ++ ops'))
    [.get n']).types _ _ (e2.types _ _ g1)
  rw [← run_append] at g3
  constructor
  · intro h
    subst h
    exact C08_types_distinct prog fuel _ id id' t g3 g2
  · intro h
    subst h
    rw [g3] at g2
    exact Option.some.inj g2

theorem known_core (fuel : Nat) (n id : Name) (l : LoaderId) (acts : List Act) (hadd : Act.add id l ∈ acts) (hid : id ≠ [])
    (hr : resolve (run prog fuel St.init acts) n = id) (f : Nat) :
    let s := run prog fuel St.init acts
    (∃ t, get prog (f + 1) s n = (s, .ok t)) ∨
    ∃ l', s.loaders.get id = some l' ∧ (get prog (f + 1) s n).1.types.get id = some s.next := by
  intro s
  have hreg : (id, l) ∈ s.regs := by
    obtain ⟨a, b, hab⟩ := List.append_of_mem hadd
    show (id, l) ∈ (run prog fuel St.init acts).regs
    rw [hab, run_append]
    show (id, l) ∈ (run prog fuel (step prog fuel (run prog fuel St.init a) (.add id l)).1 b).regs
    apply (ext_run prog fuel _ b).regs.subset
    have hs : (step prog fuel (run prog fuel St.init a) (.add id l)).1 =
        (addLoader (run prog fuel St.init a) id l).1 := by
      show (andThen (addLoader _ id l) (fun s => (s, .ok ()))).1 = _
      unfold andThen; cases (addLoader (run prog fuel St.init a) id l).2 <;> rfl
    rw [hs]
    have := (addLoader_fields (run prog fuel St.init a) id l).2.2.2.2.2.2
    rw [if_neg hid] at this
    rw [(Prod.mk.inj this).2]
    simp
  have hi : Inv s := inv_run prog fuel _
  cases ht : s.types.get id with
  | some t => exact .inl ⟨t, get_found prog f s n t (by rw [show resolve s n = id from hr]; exact ht)⟩
  | none =>
    have hw := hi.waiting id ht
    cases hl : s.loaders.get id with
    | none =>
      exfalso
      rw [hl] at hw
      have : (id : Name) ∉ s.regs.map (·.1) := Assoc.get_none_iff.1 (by rw [hw]; rfl)
      exact this (List.mem_map.2 ⟨_, hreg, rfl⟩)
    | some l' =>
      refine .inr ⟨l', rfl, ?_⟩
      have := C12_known_has_effect prog f s n l' (by rw [show resolve s n = id from hr]; exact hid) (by rw [show resolve s n = id from hr]; exact ht)
        (by rw [show resolve s n = id from hr]; exact hl)
      rwa [show resolve s n = id from hr] at this

/-- C93. A standard name can be looked up, whatever the order in which types and names were registered and
    whatever else happened: the type is there or its loader is waiting. -/
theorem C93_known (fuel : Nat) (plat : Name → Name) (hp : Spec.Sane plat) (pre ops : List Act)
    (hfree : ∀ n, Spec.StandardName n → (run prog fuel St.init pre).aliases.get n = none)
    (n id : Name) (hd : Spec.Denotes plat n id) (l : LoaderId)
    (hadd : Act.add id l ∈ pre ++ primitiveAliases plat ++ ops) (f : Nat) :
    let s := run prog fuel St.init (pre ++ primitiveAliases plat ++ ops)
    (∃ t, get prog (f + 1) s n = (s, .ok t)) ∨
    ∃ l', s.loaders.get id = some l' ∧ (get prog (f + 1) s n).1.types.get id = some s.next := by
  intro s
  have hok := (C93_accepted prog fuel plat hp (run prog fuel St.init pre)).1.2 hfree
  obtain ⟨m, h1, h2, _⟩ := (C93_accepted prog fuel plat hp (run prog fuel St.init pre)).2 hok
  have hal : s.aliases.get n = some id := by
    show (run prog fuel St.init (pre ++ primitiveAliases plat ++ ops)).aliases.get n = some id
    rw [run_append prog fuel _ (pre ++ primitiveAliases plat) ops]
    apply (ext_run prog fuel _ ops).aliases
    rw [run_append, run_ok prog fuel _ _ hok, h1]
    exact h2 n id hd
  have hr : resolve s n = id := by unfold resolve; rw [hal]; rfl
  exact known_core prog fuel n id l _ hadd (aliasTable_ids plat hp (id, n) ((mem_aliasTable plat n id).2 hd)).2.1 hr f

/-- the reflected types are the fundamental types -/
theorem numberIds_fundamental : numberIds.Perm Spec.fundamental := by decide +kernel

/-- C93. After start-up, in whatever order the types and the names were registered and whatever else happened, every fundamental
    type of C++ can be looked up by its own name and by each of its standard names (unless the program made the type's own name
    an alias): the type is there or its loader is waiting. -/
theorem C93_start (fuel : Nat) (plat : Name → Name) (hp : Spec.Sane plat) (load : Name → LoaderId) (pre ops : List Act)
    (hfree : ∀ n, Spec.StandardName n → (run prog fuel St.init pre).aliases.get n = none)
    (hall : ∀ a ∈ primitiveLoaders load, a ∈ pre ++ primitiveAliases plat ++ ops)
    (n id : Name) (hn : Spec.NumberName plat n id)
    (hown : (run prog fuel St.init (pre ++ primitiveAliases plat ++ ops)).aliases.get id = none) (f : Nat) :
    let s := run prog fuel St.init (pre ++ primitiveAliases plat ++ ops)
    (∃ t, get prog (f + 1) s n = (s, .ok t)) ∨
    ∃ l', s.loaders.get id = some l' ∧ (get prog (f + 1) s n).1.types.get id = some s.next := by
  have hadd : ∀ i, i ∈ numberIds → Act.add i (load i) ∈ pre ++ primitiveAliases plat ++ ops :=
    fun i hi => hall _ (List.mem_map.2 ⟨i, hi, rfl⟩)
  rcases hn with ⟨hn, rfl⟩ | hd
  · have hi : id ∈ numberIds := numberIds_fundamental.mem_iff.2 hn
    have hne : ∀ x ∈ numberIds, x ≠ [] := by decide +kernel
    refine known_core prog fuel id id _ _ (hadd id hi) (hne id hi) ?_ f
    unfold resolve; rw [hown]; rfl
  · exact C93_known prog fuel plat hp pre ops hfree n id hd _
      (hadd id (aliasTable_ids plat hp (id, n) ((mem_aliasTable plat n id).2 hd)).1) f

namespace NumberNamesDemo

/-- 64-bit Linux -/
def linux (n : Name) : Name :=
  if n ∈ ["int8_t", "int_fast8_t", "int_least8_t"].map String.toList then "signed char".toList
  else if n ∈ ["uint8_t", "uint_fast8_t", "uint_least8_t"].map String.toList then "unsigned char".toList
  else if n ∈ ["int16_t", "int_least16_t"].map String.toList then "short int".toList
  else if n ∈ ["uint16_t", "uint_least16_t"].map String.toList then "unsigned short int".toList
  else if n ∈ ["int32_t", "int_least32_t"].map String.toList then "int".toList
  else if n ∈ ["uint32_t", "uint_least32_t"].map String.toList then "unsigned int".toList
  else if n.head? = some 'u' ∨ n = "size_t".toList then "unsigned long int".toList
  else "long int".toList

theorem linux_sane : Spec.Sane linux := by unfold Spec.Sane; decide +kernel

/-- The names first, then two types, then lookups: `size_t` and `uint64_t` are one type, `int32_t` another. -/
example :
    let prog : LoaderId → List Act := fun _ => [.member 0]
    let start := primitiveAliases linux ++ [.add "unsigned long int".toList 1, .add "int".toList 2]
    (get prog 5 (run prog 5 St.init ([] ++ start)) "size_t".toList).2 = .ok 0 ∧
    (get prog 5 (run prog 5 St.init (start ++ [.get "size_t".toList])) "uint64_t".toList).2 = .ok 0 ∧
    (get prog 5 (run prog 5 St.init (start ++ [.get "size_t".toList])) "int32_t".toList).2 = .ok 1 := by
  decide +kernel

/-- The hypotheses of C93_start are met: loaders first, then the names; `double` and `int64_t` are found. -/
example :
    let prog : LoaderId → List Act := fun _ => [.member 0]
    let pre := primitiveLoaders (fun n => n.length)
    (∀ n, Spec.StandardName n → (run prog 5 St.init pre).aliases.get n = none) ∧
    (∀ a ∈ primitiveLoaders (fun n => n.length), a ∈ pre ++ primitiveAliases linux ++ []) ∧
    Spec.NumberName linux "double".toList "double".toList ∧ Spec.NumberName linux "int64_t".toList "long int".toList ∧
    (run prog 5 St.init (pre ++ primitiveAliases linux ++ [])).aliases.get "long int".toList = none := by
  refine ⟨?_, ?_, .inl (by decide +kernel), .inr (.inr (by decide +kernel)), by decide +kernel⟩
  · unfold Spec.StandardName; decide +kernel
  · intro a ha; exact List.mem_append_left _ (List.mem_append_left _ ha)

end NumberNamesDemo
end Reflect.Registry

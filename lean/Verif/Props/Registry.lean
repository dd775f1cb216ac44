import Verif.Lemmas.RegistryPartial
/-
  Properties C08-C13: the registry used by one thread (src/registry.cpp).
  A history is any list of actions; `prog` is any assignment of scripts to loaders; `fuel` is the
  call-depth allowance, which C10 shows is never what stops a lookup.
-/
namespace Reflect.Registry
variable (prog : LoaderId → List Act)

/-! ### C08 -/

/-- C08. Once a lookup of `id` has returned `t`, after any further history a lookup of `id` returns
    `t` again and changes nothing, unless `id` has become an alias in between. -/
theorem C08_lookup_stable (f1 f2 f3 : Nat) (s : St) (id : Name) (t : TypeId) (ops : List Act)
    (h : (get prog f1 s id).2 = .ok t) (hf : 0 < f3)
    (hal : (run prog f2 (get prog f1 s id).1 ops).aliases.get id = s.aliases.get id) :
    get prog f3 (run prog f2 (get prog f1 s id).1 ops) id =
      (run prog f2 (get prog f1 s id).1 ops, .ok t) := by
  obtain ⟨f, rfl⟩ : ∃ f, f3 = f + 1 := ⟨f3 - 1, by omega⟩
  apply get_found
  have h1 := get_registered prog f1 s id t h
  have h2 := (ext_run prog f2 (get prog f1 s id).1 ops).types _ _ h1
  unfold resolve at h2 ⊢
  rw [hal]; exact h2

/-- C08. A name that was an alias already stays resolved to the same target for good. -/
theorem C08_alias_stable (f1 f2 f3 : Nat) (s : St) (id target : Name) (t : TypeId) (ops : List Act)
    (ha : s.aliases.get id = some target) (h : (get prog f1 s id).2 = .ok t) (hf : 0 < f3) :
    get prog f3 (run prog f2 (get prog f1 s id).1 ops) id =
      (run prog f2 (get prog f1 s id).1 ops, .ok t) := by
  apply C08_lookup_stable prog f1 f2 f3 s id t ops h hf
  rw [ha]
  exact (ext_run prog f2 _ ops).aliases _ _ ((ext_get prog f1 s id).aliases _ _ ha)

/-- C08. Different names never share a type object, in any history. -/
theorem C08_types_distinct (fuel : Nat) (ops : List Act) (n n' : Name) (t : TypeId)
    (h : (run prog fuel St.init ops).types.get n = some t)
    (h' : (run prog fuel St.init ops).types.get n' = some t) : n = n' := by
  have hi := inv_run prog fuel ops
  obtain ⟨l, hl⟩ := hi.typeRun _ _ h
  obtain ⟨l', hl'⟩ := hi.typeRun _ _ h'
  exact hi.inj _ _ _ _ _ hl hl'

/-- The exception in C08 is real: aliasing a name that already denotes a type changes what a lookup
    of it returns. -/
theorem C08_late_alias_changes :
    ∃ (prog : LoaderId → List Act) (s : St), let s' := (step prog 5 s (.alias ['b'] ['a'])).1
      (get prog 5 s ['a']).2 = .ok 0 ∧ (get prog 5 s' ['a']).2 = .ok 1 := by
  refine ⟨fun _ => [], { St.init with types := [(['a'], 0), (['b'], 1)], next := 2 }, ?_⟩
  simp [step, runActs, runAct, addAlias, andThen, get, resolve, Assoc.get, St.init, Assoc.emplace]

/-! ### C09 -/

/-- C09. In every history each name's loader runs at most once. -/
theorem C09_loader_once (fuel : Nat) (ops : List Act) :
    ((run prog fuel St.init ops).runs.map (·.1)).Nodup := (inv_run prog fuel ops).once

/-- C09. The loader that ran for a name is the first one registered for it. -/
theorem C09_first_registration_wins (fuel : Nat) (ops : List Act) (n : Name) (l : LoaderId)
    (t : TypeId) (h : (n, l, t) ∈ (run prog fuel St.init ops).runs) :
    ((run prog fuel St.init ops).regs.find? (fun r => r.1 = n)).map (·.2) = some l := by
  have := (inv_run prog fuel ops).first n l t h
  rw [← this]
  unfold firstReg
  generalize (run prog fuel St.init ops).regs = rs
  induction rs with
  | nil => rfl
  | cons p r ih =>
    obtain ⟨a, b⟩ := p
    simp only [List.find?_cons, Assoc.get_cons]
    by_cases ha : a = n <;> simp [ha, ih]

/-- C09. A name whose loader has run is looked up without running anything. -/
theorem C09_loaded_not_rerun (fuel f : Nat) (ops : List Act) (n : Name) (l : LoaderId) (t : TypeId)
    (h : (n, l, t) ∈ (run prog fuel St.init ops).runs)
    (ha : (run prog fuel St.init ops).aliases.get n = none) :
    get prog (f + 1) (run prog fuel St.init ops) n = (run prog fuel St.init ops, .ok t) := by
  apply get_found
  have := (inv_run prog fuel ops).runType n l t h
  unfold resolve; rw [ha]; exact this

/-! ### C10 -/

/-- C10. For every finite universe of names for which loaders are registered (by the history or by
    loaders), however the loaders refer to each other, a lookup ends: a call depth of one more than
    the number of names suffices. -/
theorem C10_lookup_terminates (U : List Name) (hp : ∀ l, Allowed (· ∈ U) (prog l)) (fuel : Nat)
    (ops : List Act) (ho : Allowed (· ∈ U) ops) (id : Name) :
    (get prog (U.length + 1) (run prog fuel St.init ops) id).2 ≠ .error .diverge := by
  apply get_no_diverge prog hp
  · refine run_presOn prog (bounded_stable U) hp
      (fun s id l h _ _ _ => bounded_begin s id l h) fuel St.init ops ho ?_
    intro n l h; simp [St.init] at h
  · unfold unloaded
    exact Nat.lt_succ_of_le (List.length_filter_le _ _)

/-- C10. The allowance is immaterial: any larger one gives the same result and state. -/
theorem C10_allowance_irrelevant (U : List Name) (hp : ∀ l, Allowed (· ∈ U) (prog l)) (fuel : Nat)
    (ops : List Act) (ho : Allowed (· ∈ U) ops) (id : Name) (k : Nat) (hk : U.length + 1 ≤ k) :
    get prog k (run prog fuel St.init ops) id =
      get prog (U.length + 1) (run prog fuel St.init ops) id :=
  get_fuel_le prog hk _ _ (C10_lookup_terminates prog U hp fuel ops ho id)

/-! ### C11 -/

/-- C11. An accepted alias: looking the alias up is looking its target up among types and loaders. -/
theorem C11_alias_resolves (fuel : Nat) (s : St) (id al : Name)
    (hok : (addAlias s id al).2 = .ok ()) (hid : s.aliases.get id = none) (hne : id ≠ al) :
    get prog fuel (addAlias s id al).1 al = get prog fuel (addAlias s id al).1 id := by
  have h1 : (addAlias s id al).1.aliases.get al = some id := by
    unfold addAlias at hok ⊢
    split at hok
    · cases hok
    · rename_i hn
      rw [if_neg hn]
      split at hok
      · cases hok
      · rename_i hal
        simp only [hal]
        simp [Assoc.get_emplace, hal]
  have h2 : (addAlias s id al).1.aliases.get id = none := by
    unfold addAlias
    split
    · exact hid
    · split
      · exact hid
      · simp [Assoc.get_emplace, hid, Ne.symm hne]
  cases fuel with
  | zero => rfl
  | succ f =>
    have r1 : resolve (addAlias s id al).1 al = id := by unfold resolve; rw [h1]; rfl
    have r2 : resolve (addAlias s id al).1 id = id := by unfold resolve; rw [h2]; rfl
    rw [get, get, r1, r2]

/-- C11. Acceptance: exactly when both names are non-empty and the alias is new; a refused alias
    leaves the registry unchanged. -/
theorem C11_alias_accepted_iff (s : St) (id al : Name) :
    ((addAlias s id al).2 = .ok () ↔ id ≠ [] ∧ al ≠ [] ∧ s.aliases.get al = none) ∧
    ((addAlias s id al).2 ≠ .ok () → (addAlias s id al).1 = s) := by
  unfold addAlias
  by_cases h : id = [] ∨ al = []
  · simp only [h, if_true]
    refine ⟨⟨(fun hh => by cases hh), fun hh => ?_⟩, by simp⟩
    rcases h with h | h
    · exact absurd h hh.1
    · exact absurd h hh.2.1
  · simp only [h, if_false]
    simp only [not_or] at h
    cases ha : s.aliases.get al with
    | none => simp [h.1, h.2]
    | some v => simp

/-- C11. Chains are not followed: an alias of an alias fails even though its target resolves. -/
theorem C11_chain_not_followed :
    ∃ (prog : LoaderId → List Act) (s : St),
      (get prog 5 s ['b']).2 = .ok 0 ∧ s.aliases.get ['c'] = some ['b'] ∧
      (get prog 5 s ['c']).2 = .error .err := by
  let s : St :=
    { St.init with types := [(['a'], 0)], next := 1, aliases := [(['b'], ['a']), (['c'], ['b'])] }
  refine ⟨fun _ => [], s, ?_⟩
  subst s
  simp [get, resolve, Assoc.get, St.init]

/-- C11. The target of an alias is looked for among the types and the loaders only, whatever is an alias of what: it is found if it is a type; if it is
    neither a type nor has a loader the lookup raises and changes nothing, also if the target is itself an alias. -/
theorem C11_direct (f : Nat) (s : St) (id al : Name) (ha : s.aliases.get al = some id) :
    (∀ t, s.types.get id = some t → get prog (f + 1) s al = (s, .ok t)) ∧
    (s.types.get id = none → s.loaders.get id = none → get prog (f + 1) s al = (s, .error .err)) := by
  have hr : resolve s al = id := by unfold resolve; rw [ha]; rfl
  constructor
  · intro t ht
    rw [get, hr]
    simp only [ht]
  · intro h1 h2
    rw [get, hr]
    simp only [h1, h2]
    split <;> rfl

/-! ### C12 -/

/-- C12. Looking up the empty name, or a name that resolves to nothing registered, raises and leaves
    the registry exactly as it was; the converse holds too: any other lookup finds or starts a type. -/
theorem C12_unknown_no_effect (f : Nat) (s : St) (id : Name)
    (h : s.types.get (resolve s id) = none)
    (h2 : resolve s id = [] ∨ s.loaders.get (resolve s id) = none) :
    get prog (f + 1) s id = (s, .error .err) := by
  rw [get]
  simp only [h]
  rcases h2 with h2 | h2
  · simp [h2]
  · split
    · rfl
    · simp [h2]

theorem C12_known_has_effect (f : Nat) (s : St) (id : Name) (l : LoaderId)
    (h1 : resolve s id ≠ []) (h2 : s.types.get (resolve s id) = none)
    (h3 : s.loaders.get (resolve s id) = some l) :
    (get prog (f + 1) s id).1.types.get (resolve s id) = some s.next := by
  rw [get]
  simp only [h2, h1, if_false, h3]
  apply (ext_runActs prog f _ _ _).types
  simp [beginLoad, Assoc.get_emplace, h2]

/-! ### C13 -/

/-- C13 is false of the code: a loader that raises after defining one of its two members leaves the
    type registered, and the next lookup returns it without complaint, half defined. -/
theorem C13_failed_type_is_served :
    ∃ prog : LoaderId → List Act, membersOf (prog 0) = [1, 2] ∧
      let s := (step prog 3 St.init (.add ['t'] 0)).1
      let r := get prog 3 s ['t']
      r.2 = .error .err ∧ (get prog 3 r.1 ['t']).2 = .ok 0 ∧ defsOf r.1 0 = [1] := by
  refine ⟨fun _ => [.member 1, .fail, .member 2], rfl, ?_⟩
  simp [step, runActs, runAct, addLoader, andThen, get, resolve, Assoc.get, St.init, Assoc.emplace,
    beginLoad, Scope.addType, Scope.head, Scope.headLoop, Except.map, defsOf]

/-- C13, for every program: once a lookup has started a loader, whether the loader raises or not, the
    type is served by every later lookup of the name that resolves the same way. -/
theorem C13_started_type_is_served (f1 f2 f3 : Nat) (s : St) (id : Name) (l : LoaderId)
    (ops : List Act) (hnew : s.types.get (resolve s id) = none) (hne : resolve s id ≠ [])
    (hl : s.loaders.get (resolve s id) = some l) (hf : 0 < f3)
    (hres : resolve (run prog f2 (get prog (f1 + 1) s id).1 ops) id = resolve s id) :
    (get prog f3 (run prog f2 (get prog (f1 + 1) s id).1 ops) id).2 = .ok s.next := by
  obtain ⟨f, rfl⟩ : ∃ f, f3 = f + 1 := ⟨f3 - 1, by omega⟩
  have h1 : (get prog (f1 + 1) s id).1.types.get (resolve s id) = some s.next := by
    rw [get]
    simp only [hnew, if_neg hne, hl]
    apply (ext_runActs prog f1 _ _ _).types
    simp [beginLoad, Assoc.get_emplace, hnew]
  have h2 := (ext_run prog f2 (get prog (f1 + 1) s id).1 ops).types _ _ h1
  rw [get_found prog f _ id s.next (by rw [hres]; exact h2)]

/-- C13, exactly: in every history, failed loads included, every registered type holds the members
    that an initial part of its loader's script defines, in order, and no others. -/
theorem C13_members_of_initial_part (fuel : Nat) (ops : List Act) (n : Name) (t : TypeId)
    (h : (run prog fuel St.init ops).types.get n = some t) :
    ∃ l pre post, (n, l, t) ∈ (run prog fuel St.init ops).runs ∧ prog l = pre ++ post ∧
      defsOf (run prog fuel St.init ops) t = membersOf pre := by
  have hb := begun_run prog fuel ops
  obtain ⟨l, hl⟩ := hb.inv.typeRun _ _ h
  obtain ⟨pre, post, h1, h2⟩ := hb.part _ _ _ hl (by simp)
  exact ⟨l, pre, post, hl, h1, h2⟩

/-- each operation of the history succeeded, or at least ran no loader -/
def NoFailedLoad (fuel : Nat) : St → List Act → Prop
  | _, [] => True
  | s, a :: as =>
    ((step prog fuel s a).2 = .ok () ∨ (step prog fuel s a).1.runs = s.runs) ∧
      NoFailedLoad fuel (step prog fuel s a).1 as

/-- C13. As long as no loader has raised, every type handed out to the program
    is completely defined (all the members of its loader, in order), whatever cycles there are. -/
theorem C13_complete (fuel : Nat) (ops : List Act) (h : NoFailedLoad prog fuel St.init ops)
    (id : Name) (t : TypeId)
    (hget : (get prog fuel (run prog fuel St.init ops) id).2 = .ok t) :
    ∃ n l, (n, l, t) ∈ (get prog fuel (run prog fuel St.init ops) id).1.runs ∧
      defsOf (get prog fuel (run prog fuel St.init ops) id).1 t = membersOf (prog l) := by
  have hC : Complete prog [] (run prog fuel St.init ops) := by
    suffices H : ∀ s, Complete prog [] s → NoFailedLoad prog fuel s ops →
        Complete prog [] (run prog fuel s ops) from
      H St.init ⟨inv_init, by simp [St.init], by intro p hp; simp [St.init] at hp⟩ h
    clear h hget
    induction ops with
    | nil => intro s hs _; exact hs
    | cons a as ih =>
      intro s hs hn
      refine ih _ ?_ hn.2
      rcases hn.1 with hok | hr
      · exact runActs_complete prog (complete_get prog fuel) (fun s id => ext_get prog fuel s id)
          [] none [a] s hs (by simp) hok
      · refine complete_of_same prog hs ?_ hr ?_ ?_
        · exact runActs_presOn inv_stable (fun s id hs => inv_get prog fuel s id hs) none [a]
            (allowed_true _) s hs.inv
        · exact runActs_clean (clean_get prog fuel) (fun s id => ext_get prog fuel s id) none [a] s
            hs.clean (by simp)
        · intro t ht _
          exact (runActs_defs (keeps_get prog fuel) (fun s id => ext_get prog fuel s id) none [a] s t
            ht).1 (by simp)
  have hC' := complete_get prog fuel [] _ id hC ⟨t, hget⟩
  have hreg := get_registered prog fuel _ id t hget
  obtain ⟨l, hl⟩ := hC'.inv.typeRun _ _ hreg
  exact ⟨_, l, hl, hC'.done _ _ _ hl (by simp)⟩

/-! ### the hypotheses are met: two types that refer to each other -/

/-- loader 0 defines type `a` and mentions `b`; loader 1 defines `b` and mentions `a` -/
def cyclic : LoaderId → List Act
  | 0 => [.member 10, .get ['b'], .member 11]
  | 1 => [.get ['a'], .member 20]
  | _ => []

def cyclicOps : List Act := [.add ['a'] 0, .add ['b'] 1, .get ['a']]

example : (run cyclic 3 St.init cyclicOps).runs = [(['a'], 0, 0), (['b'], 1, 1)] ∧
    (get cyclic 3 (run cyclic 3 St.init cyclicOps) ['b']).2 = .ok 1 ∧
    (∀ l, Allowed (· ∈ [['a'], ['b']]) (cyclic l)) ∧ Allowed (· ∈ [['a'], ['b']]) cyclicOps := by
  refine ⟨?_, ?_, ?_, ?_⟩
  · decide +kernel
  · decide +kernel
  · intro l a ha
    unfold cyclic at ha
    split at ha <;> simp at ha
    · rcases ha with rfl | rfl | rfl <;> trivial
    · rcases ha with rfl | rfl <;> trivial
  · intro a ha
    simp [cyclicOps] at ha
    rcases ha with rfl | rfl | rfl <;> simp

set_option maxRecDepth 4000 in
example : NoFailedLoad cyclic 3 St.init cyclicOps := by
  simp [NoFailedLoad, cyclicOps, step, runActs, runAct, addLoader, andThen, get, resolve, Assoc.get,
    St.init, Assoc.emplace, beginLoad, Scope.addType, Scope.head, Scope.headLoop, Except.map, cyclic,
    lookup, Assoc.erase]

end Reflect.Registry

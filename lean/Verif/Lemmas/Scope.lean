import Verif.Model.Scope
namespace Reflect.Scope
open Reflect.Spec
variable {F : Type}

@[simp] theorem find_nil (k : Name) : (Kids.nil : Kids F).find k = none := rfl
theorem find_cons (k : Name) (t : Tree F) (r : Kids F) (x : Name) :
    (Kids.cons k t r).find x = if k = x then some t else r.find x := rfl

theorem find_set (ks : Kids F) (key x : Name) (v : Tree F) :
    (ks.set key v).find x = if key = x then some v else ks.find x := by
  match ks with
  | .nil => simp [Kids.set, find_cons]
  | .cons k t r =>
    have ih := find_set r key x v
    simp only [Kids.set]
    by_cases h : k = key
    · subst h; simp only [if_true, find_cons]; split <;> rfl
    · simp only [h, if_false, find_cons, ih]
      by_cases h2 : k = x
      · subst h2; simp [Ne.symm h]
      · simp [h2]

theorem set_find (ks : Kids F) (key : Name) (v : Tree F) (h : ks.find key = some v) :
    ks.set key v = ks := by
  match ks with
  | .nil => simp at h
  | .cons k t r =>
    simp only [find_cons] at h
    simp only [Kids.set]
    by_cases hk : k = key
    · simp [hk] at h; simp [hk, h]
    · simp [hk] at h; simp [hk, set_find r key v h]

theorem set_set (ks : Kids F) (key : Name) (v v' : Tree F) :
    (ks.set key v).set key v' = ks.set key v' := by
  match ks with
  | .nil => simp [Kids.set]
  | .cons k t r =>
    simp only [Kids.set]
    by_cases hk : k = key
    · simp [hk, Kids.set]
    · simp [hk, Kids.set, set_set r key v v']

theorem find_isSome_iff (ks : Kids F) (x : Name) : (ks.find x).isSome ↔ x ∈ ks.keys := by
  match ks with
  | .nil => simp [Kids.keys]
  | .cons k t r =>
    have ih := find_isSome_iff r x
    simp only [find_cons, Kids.keys, List.mem_cons]
    by_cases hk : k = x
    · simp [hk]
    · simp [hk, ih, Ne.symm hk]

theorem keys_set (ks : Kids F) (key : Name) (v : Tree F) :
    (ks.set key v).keys = if key ∈ ks.keys then ks.keys else ks.keys ++ [key] := by
  match ks with
  | .nil => simp [Kids.set, Kids.keys]
  | .cons k t r =>
    have ih := keys_set r key v
    simp only [Kids.set, Kids.keys, List.mem_cons]
    by_cases hk : k = key
    · simp [hk, Kids.keys]
    · simp only [hk, if_false, Kids.keys, ih, Ne.symm hk, false_or]
      split <;> simp

theorem findFn_setFn (l : List (Name × List F)) (key x : Name) (v : List F) :
    findFn (setFn l key v) x = if key = x then some v else findFn l x := by
  induction l with
  | nil => simp [setFn, findFn]
  | cons p r ih =>
    obtain ⟨k, o⟩ := p
    simp only [setFn]
    by_cases h : k = key
    · subst h; simp only [if_true, findFn]; split <;> rfl
    · simp only [h, if_false, findFn, ih]
      by_cases h2 : k = x
      · subst h2; simp [Ne.symm h]
      · simp [h2]

theorem findFn_isSome_iff (l : List (Name × List F)) (x : Name) :
    (findFn l x).isSome ↔ x ∈ l.map (·.1) := by
  induction l with
  | nil => simp [findFn]
  | cons p r ih =>
    obtain ⟨k, o⟩ := p
    simp only [findFn, List.map_cons, List.mem_cons]
    by_cases hk : k = x
    · simp [hk]
    · simp [hk, ih, Ne.symm hk]

theorem mem_keys_setFn (l : List (Name × List F)) (key x : Name) (v : List F) :
    x ∈ (setFn l key v).map (·.1) ↔ x = key ∨ x ∈ l.map (·.1) := by
  rw [← findFn_isSome_iff, findFn_setFn, ← findFn_isSome_iff]
  by_cases h : key = x
  · simp [h]
  · simp [h, Ne.symm h]

@[simp] theorem setKid_kids (t : Tree F) (k : Name) (c : Tree F) :
    (t.setKid k c).kids = t.kids.set k c := rfl
@[simp] theorem setKid_types (t : Tree F) (k : Name) (c : Tree F) :
    (t.setKid k c).types = t.types := rfl
@[simp] theorem setKid_fns (t : Tree F) (k : Name) (c : Tree F) :
    (t.setKid k c).fns = t.fns := rfl
@[simp] theorem setKid_name (t : Tree F) (k : Name) (c : Tree F) :
    (t.setKid k c).name = t.name := rfl
@[simp] theorem setTypes_types (t : Tree F) (l) : (t.setTypes l).types = l := rfl
@[simp] theorem setTypes_kids (t : Tree F) (l) : (t.setTypes l).kids = t.kids := rfl
@[simp] theorem setTypes_fns (t : Tree F) (l) : (t.setTypes l).fns = t.fns := rfl
@[simp] theorem setTypes_name (t : Tree F) (l) : (t.setTypes l).name = t.name := rfl
@[simp] theorem setFns_fns (t : Tree F) (l) : (t.setFns l).fns = l := rfl
@[simp] theorem setFns_kids (t : Tree F) (l) : (t.setFns l).kids = t.kids := rfl
@[simp] theorem setFns_types (t : Tree F) (l) : (t.setFns l).types = t.types := rfl
@[simp] theorem setFns_name (t : Tree F) (l) : (t.setFns l).name = t.name := rfl
@[simp] theorem new_kids (n : Name) : (Tree.new n : Tree F).kids = .nil := rfl
@[simp] theorem new_types (n : Name) : (Tree.new n : Tree F).types = [] := rfl
@[simp] theorem new_fns (n : Name) : (Tree.new n : Tree F).fns = [] := rfl
@[simp] theorem new_name (n : Name) : (Tree.new n : Tree F).name = n := rfl

theorem tree_eta (t : Tree F) : Tree.mk t.name t.types t.fns t.kids = t := by cases t; rfl

theorem setKid_find (t : Tree F) (c : Name) (k : Tree F) (h : t.kids.find c = some k) :
    t.setKid c k = t := by
  unfold Tree.setKid; rw [set_find _ _ _ h, tree_eta]

theorem setKid_setKid (t : Tree F) (c : Name) (k k' : Tree F) :
    (t.setKid c k).setKid c k' = t.setKid c k' := by
  simp [Tree.setKid, Tree.kids, Tree.name, Tree.types, Tree.fns, set_set]

@[simp] theorem at_nil (t : Tree F) : t.at [] = some t := by unfold Tree.at; rfl
theorem at_cons (t : Tree F) (c : Name) (cs : List Name) :
    t.at (c :: cs) = match t.kids.find c with | none => none | some k => k.at cs := by
  rw [Tree.at.eq_def]; simp only []; cases t.kids.find c <;> rfl

theorem at_new (n : Name) (c : Name) (cs : List Name) : (Tree.new n : Tree F).at (c :: cs) = none := by
  simp [at_cons]

theorem at_append (t : Tree F) (cs ds : List Name) :
    t.at (cs ++ ds) = (t.at cs).bind (fun k => k.at ds) := by
  induction cs generalizing t with
  | nil => simp
  | cons c cs ih =>
    simp only [List.cons_append, at_cons]
    cases t.kids.find c <;> simp [ih]

/-- create what is missing along a path and apply `g` at its end -/
def Tree.upd (t : Tree F) : List Name → (Tree F → Tree F) → Tree F
  | [], g => g t
  | c :: cs, g => t.setKid c ((t.kidOrNew c).upd cs g)

theorem kidOrNew_some {t k : Tree F} {c : Name} (h : t.kids.find c = some k) :
    t.kidOrNew c = k := by simp [Tree.kidOrNew, h]

theorem kidOrNew_none {t : Tree F} {c : Name} (h : t.kids.find c = none) :
    t.kidOrNew c = Tree.new c := by simp [Tree.kidOrNew, h]

/-- observations at a path; an absent scope has no types and no functions -/
def typesAt (t : Tree F) (cs : List Name) : List Name := ((t.at cs).map Tree.types).getD []
def fnsAt (t : Tree F) (cs : List Name) : List (Name × List F) := ((t.at cs).map Tree.fns).getD []

theorem typesAt_cons (t : Tree F) (c : Name) (cs : List Name) :
    typesAt t (c :: cs) = typesAt (t.kidOrNew c) cs := by
  unfold typesAt; rw [at_cons]
  cases h : t.kids.find c with
  | none => rw [kidOrNew_none h]; cases cs <;> simp [at_new]
  | some k => rw [kidOrNew_some h]

theorem fnsAt_cons (t : Tree F) (c : Name) (cs : List Name) :
    fnsAt t (c :: cs) = fnsAt (t.kidOrNew c) cs := by
  unfold fnsAt; rw [at_cons]
  cases h : t.kids.find c with
  | none => rw [kidOrNew_none h]; cases cs <;> simp [at_new]
  | some k => rw [kidOrNew_some h]

@[simp] theorem typesAt_nil (t : Tree F) : typesAt t [] = t.types := by simp [typesAt]
@[simp] theorem fnsAt_nil (t : Tree F) : fnsAt t [] = t.fns := by simp [fnsAt]

theorem kidOrNew_setKid (t : Tree F) (c d : Name) (k : Tree F) :
    (t.setKid c k).kidOrNew d = if c = d then k else t.kidOrNew d := by
  unfold Tree.kidOrNew
  simp only [setKid_kids, find_set]
  by_cases h : c = d <;> simp [h]

theorem typesAt_upd (t : Tree F) (cs : List Name) (g : Tree F → Tree F)
    (hg : ∀ k, (g k).kids = k.kids) (ds : List Name) :
    typesAt (t.upd cs g) ds =
      if ds = cs then (g ((t.at cs).getD (Tree.new (cs.getLastD [])))).types else typesAt t ds := by
  induction cs generalizing t ds with
  | nil =>
    cases ds with
    | nil => simp [Tree.upd]
    | cons d ds =>
      simp only [Tree.upd, typesAt_cons]
      simp [Tree.kidOrNew, hg]
  | cons c cs ih =>
    cases ds with
    | nil => simp [Tree.upd]
    | cons d ds =>
      simp only [Tree.upd, typesAt_cons, kidOrNew_setKid, List.cons.injEq]
      by_cases h : c = d
      · subst h
        simp only [if_true, ih, true_and]
        by_cases h2 : ds = cs
        · subst h2
          simp only [if_true, at_cons]
          congr 2
          cases hk : t.kids.find c with
          | none =>
            rw [kidOrNew_none hk]
            cases ds <;> simp [at_new]
          | some k =>
            rw [kidOrNew_some hk]
            cases ds with
            | nil => simp
            | cons e es => simp
        · simp [h2]
      · simp [h, Ne.symm h]

theorem fnsAt_upd (t : Tree F) (cs : List Name) (g : Tree F → Tree F)
    (hg : ∀ k, (g k).kids = k.kids) (ds : List Name) :
    fnsAt (t.upd cs g) ds =
      if ds = cs then (g ((t.at cs).getD (Tree.new (cs.getLastD [])))).fns else fnsAt t ds := by
  induction cs generalizing t ds with
  | nil =>
    cases ds with
    | nil => simp [Tree.upd]
    | cons d ds =>
      simp only [Tree.upd, fnsAt_cons]
      simp [Tree.kidOrNew, hg]
  | cons c cs ih =>
    cases ds with
    | nil => simp [Tree.upd]
    | cons d ds =>
      simp only [Tree.upd, fnsAt_cons, kidOrNew_setKid, List.cons.injEq]
      by_cases h : c = d
      · subst h
        simp only [if_true, ih, true_and]
        by_cases h2 : ds = cs
        · subst h2
          simp only [if_true, at_cons]
          congr 2
          cases hk : t.kids.find c with
          | none =>
            rw [kidOrNew_none hk]
            cases ds <;> simp [at_new]
          | some k =>
            rw [kidOrNew_some hk]
            cases ds with
            | nil => simp
            | cons e es => simp
        · simp [h2]
      · simp [h, Ne.symm h]

theorem at_upd_isSome (t : Tree F) (cs : List Name) (g : Tree F → Tree F)
    (hg : ∀ k, (g k).kids = k.kids) (ds : List Name) :
    ((t.upd cs g).at ds).isSome = ((t.at ds).isSome || decide (ds <+: cs)) := by
  induction cs generalizing t ds with
  | nil =>
    cases ds with
    | nil => simp [Tree.upd]
    | cons d ds => simp [Tree.upd, at_cons, hg]
  | cons c cs ih =>
    cases ds with
    | nil => simp
    | cons d ds =>
      simp only [Tree.upd, at_cons, setKid_kids, find_set]
      by_cases h : c = d
      · subst h
        simp only [if_true, ih]
        cases hk : t.kids.find c with
        | none =>
          rw [kidOrNew_none hk]
          cases ds with
          | nil => simp
          | cons e es => simp [at_new]
        | some k => simp [kidOrNew_some hk]
      · have : ¬ (d :: ds <+: c :: cs) := by
          intro hp; exact h ((List.cons_prefix_cons.1 hp).1).symm
        simp [h, this]

theorem upd_id_of_isSome (t : Tree F) (cs : List Name) (h : (t.at cs).isSome) :
    t.upd cs (fun k => k) = t := by
  induction cs generalizing t with
  | nil => rfl
  | cons c cs ih =>
    rw [at_cons] at h
    cases hk : t.kids.find c with
    | none => simp [hk] at h
    | some k =>
      simp only [hk] at h
      simp only [Tree.upd, kidOrNew_some hk, ih k h]
      exact setKid_find t c k hk

theorem upd_upd (t : Tree F) (cs : List Name) (g g' : Tree F → Tree F) :
    (t.upd cs g).upd cs g' = t.upd cs (fun k => g' (g k)) := by
  induction cs generalizing t with
  | nil => rfl
  | cons c cs ih =>
    simp only [Tree.upd, setKid_setKid, kidOrNew_setKid, if_true, ih]

/-! ### the string-driven methods on proper names are the path-driven ones -/

theorem proper_tail {c : Name} {cs : List Name} (h : ProperPath (c :: cs)) (h2 : cs ≠ []) :
    ProperPath cs := ⟨h2, fun x hx => h.2 x (by simp [hx])⟩

theorem qualified_proper_ne {cs : List Name} (h : ProperPath cs) : qualified cs ≠ [] :=
  qualified_ne_nil h.1 (fun c hc => (h.2 c hc).2)

theorem proper_head {c : Name} {cs : List Name} (h : ProperPath (c :: cs)) :
    head (qualified (c :: cs)) = .ok (c, qualified cs) := by
  by_cases h2 : cs = []
  · subst h2; exact head_single (h.2 c (by simp)).1
  · exact head_qualified (h.2 c (by simp)).1 h2

theorem hasScope_eq (t : Tree F) (cs : List Name) (h : ProperPath cs) :
    hasScope t (qualified cs) = .ok (t.at cs).isSome := by
  induction cs generalizing t with
  | nil => exact absurd rfl h.1
  | cons c cs ih =>
    rw [hasScope.eq_def]
    split
    · rename_i e he; rw [proper_head h] at he; cases he
    · rename_i f r he
      rw [proper_head h] at he
      simp only [Except.ok.injEq, Prod.mk.injEq] at he
      obtain ⟨rfl, rfl⟩ := he
      rw [at_cons]
      cases hk : t.kids.find c with
      | none => simp
      | some k =>
        by_cases h2 : cs = []
        · subst h2; simp [qualified]
        · have := qualified_proper_ne (proper_tail h h2)
          simp [this, ih k (proper_tail h h2)]

theorem scopeConst_eq (t : Tree F) (cs : List Name) (h : ProperPath cs) :
    scopeConst t (qualified cs) = if (t.at cs).isSome then .ok cs else .error .err := by
  induction cs generalizing t with
  | nil => exact absurd rfl h.1
  | cons c cs ih =>
    rw [scopeConst.eq_def]
    split
    · rename_i e he; rw [proper_head h] at he; cases he
    · rename_i f r he
      rw [proper_head h] at he
      simp only [Except.ok.injEq, Prod.mk.injEq] at he
      obtain ⟨rfl, rfl⟩ := he
      rw [at_cons]
      cases hk : t.kids.find c with
      | none => simp
      | some k =>
        by_cases h2 : cs = []
        · subst h2; simp [qualified]
        · have := qualified_proper_ne (proper_tail h h2)
          simp only [this, dite_false, ih k (proper_tail h h2)]
          by_cases hi : (k.at cs).isSome = true <;> simp [hi]

theorem scopeMut_eq (t : Tree F) (cs : List Name) (h : ProperPath cs) :
    scopeMut t (qualified cs) = (t.upd cs (fun k => k), .ok cs) := by
  induction cs generalizing t with
  | nil => exact absurd rfl h.1
  | cons c cs ih =>
    rw [scopeMut.eq_def]
    split
    · rename_i e he; rw [proper_head h] at he; cases he
    · rename_i f r he
      rw [proper_head h] at he
      simp only [Except.ok.injEq, Prod.mk.injEq] at he
      obtain ⟨rfl, rfl⟩ := he
      by_cases h2 : cs = []
      · subst h2; simp [qualified, Tree.upd]
      · have := qualified_proper_ne (proper_tail h h2)
        simp [this, ih _ (proper_tail h h2), Tree.upd]

theorem scopeMut_single (t : Tree F) (c : Name) (h : IsComponent c) :
    scopeMut t c = (t.setKid c (t.kidOrNew c), .ok [c]) := by
  rw [scopeMut.eq_def]
  split
  · rename_i e he; rw [head_single h] at he; cases he
  · rename_i f r he
    rw [head_single h] at he
    simp only [Except.ok.injEq, Prod.mk.injEq] at he
    obtain ⟨rfl, rfl⟩ := he
    simp

/-- the types on the way to a path: does a proper non-empty prefix name a type, or a function -/
def BlockedT (t : Tree F) (cs : List Name) : Prop :=
  ∃ ds f es, cs = ds ++ f :: es ∧ es ≠ [] ∧ f ∈ typesAt t ds
def BlockedF (t : Tree F) (cs : List Name) : Prop :=
  ∃ ds f es, cs = ds ++ f :: es ∧ es ≠ [] ∧ (findFn (fnsAt t ds) f).isSome

theorem blockedT_cons (t : Tree F) (c : Name) (cs : List Name) :
    BlockedT t (c :: cs) ↔ (cs ≠ [] ∧ c ∈ t.types) ∨ BlockedT (t.kidOrNew c) cs := by
  constructor
  · rintro ⟨ds, f, es, h, hne, hf⟩
    cases ds with
    | nil =>
      simp at h
      obtain ⟨rfl, rfl⟩ := h
      left; exact ⟨hne, by simpa using hf⟩
    | cons d ds =>
      simp at h
      obtain ⟨rfl, rfl⟩ := h
      right; exact ⟨ds, f, es, rfl, hne, by rwa [typesAt_cons] at hf⟩
  · rintro (⟨h1, h2⟩ | ⟨ds, f, es, rfl, hne, hf⟩)
    · exact ⟨[], c, cs, rfl, h1, by simpa using h2⟩
    · exact ⟨c :: ds, f, es, rfl, hne, by rwa [typesAt_cons]⟩

theorem blockedF_cons (t : Tree F) (c : Name) (cs : List Name) :
    BlockedF t (c :: cs) ↔
      (cs ≠ [] ∧ (findFn t.fns c).isSome) ∨ BlockedF (t.kidOrNew c) cs := by
  constructor
  · rintro ⟨ds, f, es, h, hne, hf⟩
    cases ds with
    | nil =>
      simp at h
      obtain ⟨rfl, rfl⟩ := h
      left; exact ⟨hne, by simpa using hf⟩
    | cons d ds =>
      simp at h
      obtain ⟨rfl, rfl⟩ := h
      right; exact ⟨ds, f, es, rfl, hne, by rwa [fnsAt_cons] at hf⟩
  · rintro (⟨h1, h2⟩ | ⟨ds, f, es, rfl, hne, hf⟩)
    · exact ⟨[], c, cs, rfl, h1, by simpa using h2⟩
    · exact ⟨c :: ds, f, es, rfl, hne, by rwa [fnsAt_cons]⟩

theorem blockedT_nil (t : Tree F) : ¬ BlockedT t [] := by
  rintro ⟨ds, f, es, h, _⟩; simp at h
theorem blockedF_nil (t : Tree F) : ¬ BlockedF t [] := by
  rintro ⟨ds, f, es, h, _⟩; simp at h

theorem typesAt_new (n : Name) (ds : List Name) : typesAt (Tree.new n : Tree F) ds = [] := by
  cases ds with
  | nil => simp
  | cons d ds => simp [typesAt, at_new]
theorem fnsAt_new (n : Name) (ds : List Name) : fnsAt (Tree.new n : Tree F) ds = [] := by
  cases ds with
  | nil => simp
  | cons d ds => simp [fnsAt, at_new]

theorem blocked_new (n : Name) (cs : List Name) :
    ¬ BlockedT (Tree.new n : Tree F) cs ∧ ¬ BlockedF (Tree.new n : Tree F) cs := by
  constructor
  · rintro ⟨ds, f, es, _, _, hf⟩; simp [typesAt_new] at hf
  · rintro ⟨ds, f, es, _, _, hf⟩; simp [fnsAt_new, findFn] at hf

theorem hasType_eq (t : Tree F) (cs : List Name) (f : Name) (h : ProperPath (cs ++ [f])) :
    (BlockedT t (cs ++ [f]) → hasType t (qualified (cs ++ [f])) = .error .err) ∧
    (¬ BlockedT t (cs ++ [f]) →
      hasType t (qualified (cs ++ [f])) = .ok (decide (f ∈ typesAt t cs))) := by
  induction cs generalizing t with
  | nil =>
    rw [List.nil_append] at h ⊢
    have hb : ¬ BlockedT t [f] := by
      rw [blockedT_cons]
      rintro (⟨h, _⟩ | h)
      · exact h rfl
      · exact blockedT_nil _ h
    refine ⟨fun hb' => absurd hb' hb, fun _ => ?_⟩
    rw [hasType.eq_def]
    split
    · rename_i e he; rw [proper_head h] at he; cases he
    · rename_i f' r he
      rw [proper_head h] at he
      simp only [Except.ok.injEq, Prod.mk.injEq, qualified] at he
      obtain ⟨rfl, rfl⟩ := he
      by_cases hf : f ∈ t.types <;> simp [hf]
  | cons c cs ih =>
    rw [List.cons_append] at h ⊢
    have hpt := proper_tail h (by simp)
    have hne := qualified_proper_ne hpt
    rw [blockedT_cons]
    have ih := ih (t.kidOrNew c) hpt
    rw [hasType.eq_def, typesAt_cons]
    split
    · rename_i e he; rw [proper_head h] at he; cases he
    · rename_i f' r he
      rw [proper_head h] at he
      simp only [Except.ok.injEq, Prod.mk.injEq] at he
      obtain ⟨rfl, rfl⟩ := he
      by_cases hc : c ∈ t.types
      · simp [hc, hne]
      · simp only [hc, if_false, hne, dite_false, and_false, false_or]
        cases hk : t.kids.find c with
        | some k => rw [kidOrNew_some hk] at ih ⊢; exact ih
        | none =>
          rw [kidOrNew_none hk]
          refine ⟨fun hb => absurd hb (blocked_new _ _).1, fun _ => ?_⟩
          simp [typesAt_new]

def insertType (f : Name) (t : Tree F) : Tree F :=
  if f ∈ t.types then t else t.setTypes (t.types ++ [f])

@[simp] theorem insertType_kids (f : Name) (t : Tree F) : (insertType f t).kids = t.kids := by
  unfold insertType; split <;> rfl
@[simp] theorem insertType_fns (f : Name) (t : Tree F) : (insertType f t).fns = t.fns := by
  unfold insertType; split <;> rfl
@[simp] theorem insertType_name (f : Name) (t : Tree F) : (insertType f t).name = t.name := by
  unfold insertType; split <;> rfl
theorem mem_insertType (f x : Name) (t : Tree F) :
    x ∈ (insertType f t).types ↔ x = f ∨ x ∈ t.types := by
  unfold insertType; split
  · rename_i h; constructor
    · exact Or.inr
    · rintro (rfl | h'); exact h; exact h'
  · simp [or_comm]

theorem addType_eq (t : Tree F) (cs : List Name) (f : Name) (h : ProperPath (cs ++ [f])) :
    (BlockedT t (cs ++ [f]) ∨ BlockedF t (cs ++ [f]) →
      addType t (qualified (cs ++ [f])) = (t, .error .err)) ∧
    (¬ BlockedT t (cs ++ [f]) → ¬ BlockedF t (cs ++ [f]) →
      addType t (qualified (cs ++ [f])) = (t.upd cs (insertType f), .ok ())) := by
  induction cs generalizing t with
  | nil =>
    rw [List.nil_append] at h ⊢
    have hb : ¬ BlockedT t [f] := by
      rw [blockedT_cons]
      rintro (⟨h, _⟩ | h)
      · exact h rfl
      · exact blockedT_nil _ h
    have hb2 : ¬ BlockedF t [f] := by
      rw [blockedF_cons]
      rintro (⟨h, _⟩ | h)
      · exact h rfl
      · exact blockedF_nil _ h
    refine ⟨fun hb' => absurd hb' (by simp [hb, hb2]), fun _ _ => ?_⟩
    rw [addType.eq_def]
    split
    · rename_i e he; rw [proper_head h] at he; cases he
    · rename_i f' r he
      rw [proper_head h] at he
      simp only [Except.ok.injEq, Prod.mk.injEq, qualified] at he
      obtain ⟨rfl, rfl⟩ := he
      simp [Tree.upd, insertType]
  | cons c cs ih =>
    rw [List.cons_append] at h ⊢
    have hpt := proper_tail h (by simp)
    have hne := qualified_proper_ne hpt
    rw [blockedT_cons, blockedF_cons]
    have ih := ih (t.kidOrNew c) hpt
    rw [addType.eq_def]
    split
    · rename_i e he; rw [proper_head h] at he; cases he
    · rename_i f' r he
      rw [proper_head h] at he
      simp only [Except.ok.injEq, Prod.mk.injEq] at he
      obtain ⟨rfl, rfl⟩ := he
      by_cases hc : c ∈ t.types
      · simp [hc, hne]
      · by_cases hc2 : (findFn t.fns c).isSome
        · simp [hc, hc2, hne]
        · simp only [hc, hc2, if_false, hne, dite_false, and_false, false_or, Bool.false_eq_true]
          constructor
          · intro hb
            rw [ih.1 hb]
            cases hk : t.kids.find c with
            | some k => rw [kidOrNew_some hk]; simp [setKid_find t c k hk]
            | none =>
              rw [kidOrNew_none hk] at hb
              rcases hb with hb | hb
              · exact absurd hb (blocked_new _ _).1
              · exact absurd hb (blocked_new _ _).2
          · intro h1 h2
            rw [ih.2 h1 h2]; rfl

theorem modifyAt_upd {α : Type} (t : Tree F) (cs : List Name) (g : Tree F → Tree F × Res α)
    (h : (t.at cs).isSome) :
    t.modifyAt cs g =
      (t.upd cs (fun k => (g k).1), ((t.at cs).map (fun k => (g k).2)).getD (.error .ub)) := by
  induction cs generalizing t with
  | nil => simp [Tree.modifyAt, Tree.upd]
  | cons c cs ih =>
    rw [at_cons] at h
    cases hk : t.kids.find c with
    | none => simp [hk] at h
    | some k =>
      simp only [hk] at h
      rw [Tree.modifyAt.eq_def]
      simp [hk, ih k h, Tree.upd, kidOrNew_some hk, at_cons]

theorem at_upd_self (t : Tree F) (cs : List Name) (g : Tree F → Tree F) :
    (t.upd cs g).at cs = some (g ((t.at cs).getD (Tree.new (cs.getLastD [])))) := by
  induction cs generalizing t with
  | nil => simp [Tree.upd]
  | cons c cs ih =>
    simp only [Tree.upd, at_cons, setKid_kids, find_set, if_true, ih]
    congr 2
    cases hk : t.kids.find c with
    | none => rw [kidOrNew_none hk]; cases cs <;> simp [at_new]
    | some k => rw [kidOrNew_some hk]; cases cs <;> simp

theorem proper_last {cs : List Name} {f : Name} (h : ProperPath (cs ++ [f])) (h2 : cs ≠ []) :
    tail (qualified (cs ++ [f])) = .ok (f, qualified cs) :=
  tail_qualified (h.2 f (by simp)).1 h2

theorem proper_init {cs : List Name} {f : Name} (h : ProperPath (cs ++ [f])) (h2 : cs ≠ []) :
    ProperPath cs := ⟨h2, fun x hx => h.2 x (by simp [hx])⟩

theorem fnsAt_eq_some {t : Tree F} {cs : List Name} {k : Tree F} (h : t.at cs = some k) :
    fnsAt t cs = k.fns := by simp [fnsAt, h]

theorem fnsAt_getD (t : Tree F) (cs : List Name) (n : Name) :
    ((t.at cs).getD (Tree.new n)).fns = fnsAt t cs := by
  unfold fnsAt; cases t.at cs <;> simp
theorem typesAt_getD (t : Tree F) (cs : List Name) (n : Name) :
    ((t.at cs).getD (Tree.new n)).types = typesAt t cs := by
  unfold typesAt; cases t.at cs <;> simp

theorem addFunction_eq (add : List F → F → Res (List F)) (t : Tree F) (cs : List Name) (f : Name)
    (fn : F) (h : ProperPath (cs ++ [f])) :
    addFunction add t (qualified (cs ++ [f])) fn =
      (t.upd cs (fun k => (addFunctionHere add f fn k).1),
       (add ((findFn (fnsAt t cs) f).getD []) fn).map (fun _ => ())) := by
  have hres : ∀ k : Tree F, (addFunctionHere add f fn k).2 =
      (add ((findFn k.fns f).getD []) fn).map (fun _ => ()) := by
    intro k; unfold addFunctionHere
    simp only
    split <;> simp_all [Except.map]
  unfold addFunction
  by_cases h2 : cs = []
  · subst h2
    rw [List.nil_append, show qualified [f] = f from rfl,
      tail_single (h.2 f (by simp)).1]
    simp [Tree.upd, ← hres]
  · rw [proper_last h h2]
    have hp := proper_init h h2
    have hne := qualified_proper_ne hp
    simp only [hne, if_false, scopeMut_eq t cs hp]
    rw [modifyAt_upd _ _ _ (by rw [at_upd_self]; rfl), upd_upd, at_upd_self]
    simp [hres, fnsAt_getD]

theorem hasFunction_eq (t : Tree F) (cs : List Name) (f : Name) (h : ProperPath (cs ++ [f])) :
    hasFunction t (qualified (cs ++ [f])) =
      if (t.at cs).isSome then .ok (findFn (fnsAt t cs) f).isSome else .error .err := by
  unfold hasFunction
  by_cases h2 : cs = []
  · subst h2
    rw [List.nil_append, show qualified [f] = f from rfl, tail_single (h.2 f (by simp)).1]
    simp
  · rw [proper_last h h2]
    have hp := proper_init h h2
    have hne := qualified_proper_ne hp
    simp only [hne, if_false, scopeConst_eq t cs hp]
    cases hk : t.at cs with
    | none => simp
    | some k => simp [hk, fnsAt]

theorem function_eq (t : Tree F) (cs : List Name) (f : Name) (h : ProperPath (cs ++ [f])) :
    function t (qualified (cs ++ [f])) =
      (t.upd cs (fun k => k),
        match findFn (fnsAt t cs) f with
        | none => .error .err
        | some o => .ok o) := by
  unfold function
  by_cases h2 : cs = []
  · subst h2
    rw [List.nil_append, show qualified [f] = f from rfl, tail_single (h.2 f (by simp)).1]
    simp [Tree.upd]
    cases findFn t.fns f <;> rfl
  · rw [proper_last h h2]
    have hp := proper_init h h2
    have hne := qualified_proper_ne hp
    simp only [hne, if_false, scopeMut_eq t cs hp, at_upd_self, fnsAt_getD]
    cases findFn (fnsAt t cs) f <;> rfl

end Reflect.Scope

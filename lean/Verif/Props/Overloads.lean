import Verif.Props.Match
/-
  C27–C31: overload sets.
-/
namespace Reflect
open Spec

variable (e : Env)

/-! ### C27 -/

theorem selectLoop_none_exact (ret : Arg) (args : List Arg) :
    ∀ (o : Overloads) (best : Option Fn) (amb : Bool),
      (∃ f ∈ o, f.test e ret args = .exact) →
      Overloads.selectLoop e ret args o best amb =
        ((o.filter fun f => f.test e ret args = .exact).head?, false) := by
  intro o
  induction o with
  | nil => intro best amb h; simp at h
  | cons f fs ih =>
    intro best amb h
    unfold Overloads.selectLoop
    cases hm : f.test e ret args with
    | none =>
      have h' : ∃ f ∈ fs, f.test e ret args = .exact := by
        obtain ⟨g, hg, hg'⟩ := h
        rcases List.mem_cons.1 hg with rfl | hg
        · rw [hm] at hg'; cases hg'
        · exact ⟨g, hg, hg'⟩
      simp [ih _ _ h', hm]
    | part =>
      have h' : ∃ f ∈ fs, f.test e ret args = .exact := by
        obtain ⟨g, hg, hg'⟩ := h
        rcases List.mem_cons.1 hg with rfl | hg
        · rw [hm] at hg'; cases hg'
        · exact ⟨g, hg, hg'⟩
      cases best <;> simp [ih _ _ h', hm]
    | exact => simp [hm]

theorem selectLoop_some_part (ret : Arg) (args : List Arg) :
    ∀ (o : Overloads) (b : Fn) (amb : Bool), (∀ f ∈ o, f.test e ret args ≠ .exact) →
      Overloads.selectLoop e ret args o (some b) amb =
        (some b, amb || o.any fun f => f.test e ret args = .part) := by
  intro o
  induction o with
  | nil => intro b amb h; simp [Overloads.selectLoop]
  | cons f fs ih =>
    intro b amb h
    unfold Overloads.selectLoop
    have h' : ∀ f ∈ fs, f.test e ret args ≠ .exact := fun g hg => h g (List.mem_cons_of_mem _ hg)
    have hf := h f List.mem_cons_self
    cases hm : f.test e ret args with
    | none => simp [ih _ _ h', hm]
    | part => simp [ih _ _ h', hm]
    | exact => exact absurd hm hf

theorem selectLoop_part (ret : Arg) (args : List Arg) :
    ∀ (o : Overloads), (∀ f ∈ o, f.test e ret args ≠ .exact) →
      Overloads.selectLoop e ret args o none false =
        ((o.filter fun f => f.test e ret args = .part).head?,
          decide (2 ≤ (o.filter fun f => f.test e ret args = .part).length)) := by
  intro o
  induction o with
  | nil => intro h; simp [Overloads.selectLoop]
  | cons f fs ih =>
    intro h
    unfold Overloads.selectLoop
    have h' : ∀ f ∈ fs, f.test e ret args ≠ .exact := fun g hg => h g (List.mem_cons_of_mem _ hg)
    have hf := h f List.mem_cons_self
    cases hm : f.test e ret args with
    | none => simp [ih h', hm]
    | part =>
      simp [selectLoop_some_part e ret args fs f false h', hm]
      rw [Bool.eq_iff_iff]
      simp only [List.any_eq_true, decide_eq_true_eq]
      rw [show (1 ≤ (fs.filter fun f => decide (f.test e ret args = .part)).length ↔
        0 < (fs.filter fun f => decide (f.test e ret args = .part)).length) from Iff.rfl,
        List.length_pos_iff_exists_mem]
      simp
    | exact => exact absurd hm hf

/-- C27. The overload selected for a call is the one given by the declarative rule (earliest exact,
    else the only partial), and the call raises when there is none. -/
theorem C27_select (o : Overloads) (ret : Arg) (args : List Arg) :
    o.select e ret args =
      match choose (fun f => f.test e ret args) o with
      | some f => .ok f
      | none => .error .err := by
  unfold Overloads.select choose
  by_cases hx : ∃ f ∈ o, f.test e ret args = .exact
  · rw [selectLoop_none_exact e ret args o none false hx]
    obtain ⟨f, hf, hf'⟩ := hx
    have : f ∈ o.filter fun f => f.test e ret args = .exact := by simp [hf, hf']
    cases hl : o.filter fun f => f.test e ret args = .exact with
    | nil => rw [hl] at this; cases this
    | cons g gs => simp
  · have hx' : ∀ f ∈ o, f.test e ret args ≠ .exact := fun f hf h => hx ⟨f, hf, h⟩
    have : (o.filter fun f => f.test e ret args = .exact) = [] := by
      simp only [List.filter_eq_nil_iff, decide_eq_true_eq]
      exact hx'
    rw [selectLoop_part e ret args o hx', this]
    cases hl : o.filter fun f => f.test e ret args = .part with
    | nil => simp
    | cons g gs =>
      cases gs with
      | nil => simp
      | cons _ _ => simp

/-- every function of the set came from the public constructor -/
def MadeSet (o : Overloads) : Prop := ∀ f ∈ o, f.arity = f.args.length

theorem select_mem {o : Overloads} {ret : Arg} {args : List Arg} {f : Fn}
    (h : o.select e ret args = .ok f) : f ∈ o ∧ f.test e ret args ≠ .none := by
  rw [C27_select] at h
  unfold choose at h
  cases hl : o.filter fun f => f.test e ret args = .exact with
  | cons g gs =>
    have hg : g ∈ o.filter fun f => f.test e ret args = .exact := by rw [hl]; simp
    rw [hl] at h
    simp only [Except.ok.injEq] at h
    subst h
    simp only [List.mem_filter, decide_eq_true_eq] at hg
    exact ⟨hg.1, by simp [hg.2]⟩
  | nil =>
    rw [hl] at h
    simp only at h
    cases hl2 : o.filter fun f => f.test e ret args = .part with
    | nil => rw [hl2] at h; simp at h
    | cons g gs =>
      have hg : g ∈ o.filter fun f => f.test e ret args = .part := by rw [hl2]; simp
      rw [hl2] at h
      cases gs with
      | nil =>
        simp only [Except.ok.injEq] at h
        subst h
        simp only [List.mem_filter, decide_eq_true_eq] at hg
        exact ⟨hg.1, by simp [hg.2]⟩
      | cons _ _ => simp at h

theorem test_length {f : Fn} {ret : Arg} {args : List Arg} (h : f.test e ret args ≠ .none) :
    args.length = f.args.length := by
  unfold Fn.test at h
  rw [ne_eq, combine_eq_none, not_or, C23_none_iff, not_or, ne_eq, Decidable.not_not] at h
  exact h.2.1

/-- C27. So a call runs that overload's body, or raises and runs nothing. -/
theorem C27_call (o : Overloads) (hm : MadeSet o) (ret : Arg) (args : List Arg) :
    o.call e ret args =
      match choose (fun f => f.test e ret args) o with
      | some f => .ok (f.body, args.length)
      | none => .error .err := by
  unfold Overloads.call
  cases hs : o.select e ret args with
  | error x =>
    rw [C27_select] at hs
    cases hc : choose (fun f => f.test e ret args) o with
    | none => rw [hc] at hs; simp at hs; simp [hs]
    | some f => rw [hc] at hs; simp at hs
  | ok f =>
    have hf := select_mem e hs
    rw [C27_select] at hs
    cases hc : choose (fun f => f.test e ret args) o with
    | none => rw [hc] at hs; simp at hs
    | some g =>
      rw [hc] at hs; simp at hs; subst hs
      have := test_length e hf.2
      simp [Fn.call, hf.2, Fn.invoke, hm g hf.1, this]

/-! ### C28 -/

/-- C28. With at most one exact candidate, permuting the registrations changes neither the overload
    that runs nor whether the call raises. -/
theorem C28_order_irrelevant (o o' : Overloads) (ret : Arg) (args : List Arg) (hp : o.Perm o')
    (h1 : (o.filter fun f => f.test e ret args = .exact).length ≤ 1) :
    o.select e ret args = o'.select e ret args ∧ o.call e ret args = o'.call e ret args := by
  have hs : o.select e ret args = o'.select e ret args := by
    rw [C27_select, C27_select]
    have hx := hp.filter fun f => f.test e ret args = .exact
    have hy := hp.filter fun f => f.test e ret args = .part
    unfold choose
    cases hl : o.filter fun f => f.test e ret args = .exact with
    | nil =>
      rw [hl] at hx
      rw [List.nil_perm.1 hx]
      cases hl2 : o.filter fun f => f.test e ret args = .part with
      | nil => rw [hl2] at hy; simp [List.nil_perm.1 hy]
      | cons g gs =>
        rw [hl2] at hy
        cases gs with
        | nil => simp [← List.singleton_perm.1 hy]
        | cons g2 gs =>
          have := hy.length_eq
          cases hl3 : o'.filter fun f => f.test e ret args = .part with
          | nil => rw [hl3] at this
          | cons a as =>
            cases as with
            | nil => rw [hl3] at this; simp at this
            | cons _ _ => rfl
    | cons g gs =>
      rw [hl] at hx h1
      have : gs = [] := by
        cases gs with
        | nil => rfl
        | cons _ _ => simp at h1
      subst this
      simp [← List.singleton_perm.1 hx]
  exact ⟨hs, by unfold Overloads.call; rw [hs]⟩

/-! ### C29 -/

/-- the overload set built by registering functions made from callables -/
def IsMade (f : Fn) : Prop := ∃ name ret args body, f = Fn.make name ret args body

theorem build_subset (fs : List Fn) : ∀ f ∈ Overloads.build e fs, f ∈ fs := by
  suffices H : ∀ (fs : List Fn) (o : Overloads), ∀ f ∈ fs.foldl (fun o f => (Overloads.add e o f).1) o,
      f ∈ o ∨ f ∈ fs by
    intro f hf
    rcases H fs [] f hf with h | h
    · cases h
    · exact h
  intro fs
  induction fs with
  | nil => intro o f hf; exact .inl hf
  | cons g gs ih =>
    intro o f hf
    rcases ih _ f hf with h | h
    · simp only [Overloads.add] at h
      split at h
      · exact .inl h
      · rcases List.mem_append.1 h with h | h
        · exact .inl h
        · exact .inr (by simp_all)
    · exact .inr (List.mem_cons_of_mem _ h)

theorem made_build (fs : List Fn) (h : ∀ f ∈ fs, IsMade f) : MadeSet (Overloads.build e fs) := by
  intro f hf
  obtain ⟨n, r, a, b, rfl⟩ := h f (build_subset e fs f hf)
  rfl

/-- C29. Whatever is registered and however it is called, a wrapped function is only ever invoked with
    as many arguments as it takes: no call is undefined through the arity downcast. -/
theorem C29_arity_safe (fs : List Fn) (hm : ∀ f ∈ fs, IsMade f) (ret : Arg) (args : List Arg) :
    (Overloads.build e fs).call e ret args ≠ .error .ub ∧
    ∀ b n, (Overloads.build e fs).call e ret args = .ok (b, n) →
      n = args.length ∧ ∃ f ∈ fs, f.body = b ∧ f.args.length = n := by
  have hmade := made_build e fs hm
  constructor
  · rw [C27_call e _ hmade]
    split <;> simp
  · intro b n h
    unfold Overloads.call at h
    cases hs : (Overloads.build e fs).select e ret args with
    | error x => rw [hs] at h; simp at h
    | ok f =>
      rw [hs] at h
      have hf := select_mem e hs
      have hl := test_length e hf.2
      simp [Fn.call, hf.2, Fn.invoke, hmade f hf.1, hl] at h
      exact ⟨by omega, f, build_subset e fs f hf.1, h.1, h.2⟩

/-- C29, for a single function. -/
theorem C29_function_arity_safe (f : Fn) (hm : IsMade f) (ret : Arg) (args : List Arg) :
    f.call e ret args = if f.test e ret args = .none then .error .err
      else .ok (f.body, f.args.length) := by
  obtain ⟨n, r, a, b, rfl⟩ := hm
  unfold Fn.call
  split
  · rfl
  · rename_i h
    simp [Fn.invoke, Fn.make, test_length e h]

/-! ### C30 -/

theorem testReturn_self (r : Arg) : testReturn e r r = .exact := by
  unfold testReturn
  split
  · rfl
  · rw [convertible_same]
    simp only [if_neg (by simp : ¬ (Match.exact = Match.none))]
    unfold Arg.isTemporary Arg.isConstRef
    cases r.ref <;> simp

theorem testArguments_self (as : List Arg) : testArguments e as as = .exact := by
  rw [C23_exact_iff]
  refine ⟨rfl, ?_⟩
  intro q hq
  have : q.1 = q.2 := by
    induction as with
    | nil => simp at hq
    | cons a as ih =>
      simp only [List.zip_cons_cons, List.mem_cons] at hq
      rcases hq with rfl | hq
      · rfl
      · exact ih hq
  rw [this, convertible_same]

/-- C30. A function with the signature of a registered one is refused, and a refusal changes
    nothing. -/
theorem C30_duplicate_refused (o : Overloads) (f : Fn)
    (h : ∃ g ∈ o, g.ret = f.ret ∧ g.args = f.args) : Overloads.add e o f = (o, .error .err) := by
  obtain ⟨g, hg, h1, h2⟩ := h
  unfold Overloads.add
  rw [if_pos]
  simp only [List.any_eq_true, decide_eq_true_eq]
  refine ⟨g, hg, ?_⟩
  unfold Fn.testFn
  rw [h1, h2, testReturn_self, testArguments_self]
  rfl

theorem C30_refusal_no_effect (o : Overloads) (f : Fn) (h : (Overloads.add e o f).2 ≠ .ok ()) :
    (Overloads.add e o f).1 = o := by
  unfold Overloads.add at *
  by_cases hc : (o.any fun other => decide (f.testFn e other = .exact)) = true
  · rw [if_pos hc]
  · rw [if_neg hc] at h; exact absurd rfl h

/-- C30. Acceptance: a function is accepted exactly when no registered one could stand for it, i.e.
    has a result it could give and as many parameters, each of which fits its own exactly. -/
theorem C30_accepted_iff (o : Overloads) (f : Fn) :
    (Overloads.add e o f).2 = .ok () ↔ ∀ g ∈ o, ¬ (testReturn e g.ret f.ret ≠ .none ∧
      g.args.length = f.args.length ∧ ∀ q ∈ g.args.zip f.args, Fits e q.1 q.2) := by
  have hret : ∀ a b, testReturn e a b ≠ .none ↔ testReturn e a b = .exact := by
    intro a b
    unfold testReturn
    constructor
    · intro h
      split
      · rfl
      · rename_i h1
        rw [if_neg h1] at h
        split
        · rename_i h2
          rw [if_pos h2] at h
          split
          · rename_i h3; rw [if_pos h3] at h; exact absurd rfl h
          · rename_i h3
            rw [if_neg h3] at h
            split
            · rename_i h4; rw [if_pos h4] at h; exact absurd rfl h
            · rfl
        · rename_i h2
          rw [if_neg h2] at h
          split
          · rename_i h3; rw [if_pos h3] at h; exact absurd rfl h
          · rename_i h3
            rw [if_neg h3] at h
            split
            · rename_i h4; rw [if_pos h4] at h; exact absurd rfl h
            · rfl
    · intro h; rw [h]; simp
  have hex : ∀ g : Fn, f.testFn e g = .exact ↔ testReturn e g.ret f.ret ≠ .none ∧
      g.args.length = f.args.length ∧ ∀ q ∈ g.args.zip f.args, Fits e q.1 q.2 := by
    intro g
    have h1 : f.testFn e g = .exact ↔
        testReturn e g.ret f.ret = .exact ∧ testArguments e g.args f.args = .exact := by
      unfold Fn.testFn combine
      cases testReturn e g.ret f.ret <;> cases testArguments e g.args f.args <;> simp
    rw [h1, C23_exact_iff, hret]
    simp only [C22_exact_iff]
  unfold Overloads.add
  by_cases hc : (o.any fun other => decide (f.testFn e other = .exact)) = true
  · rw [if_pos hc]
    simp only [List.any_eq_true, decide_eq_true_eq] at hc
    obtain ⟨g, hg, h⟩ := hc
    simp only [reduceCtorEq, false_iff]
    exact fun hall => hall g hg ((hex g).1 h)
  · rw [if_neg hc]
    simp only [true_iff]
    intro g hg h
    refine hc ?_
    simp only [List.any_eq_true, decide_eq_true_eq]
    exact ⟨g, hg, (hex g).2 h⟩

/-- C30. An accepted function becomes the last overload. -/
theorem C30_accepted_effect (o : Overloads) (f : Fn) (h : (Overloads.add e o f).2 = .ok ()) :
    (Overloads.add e o f).1 = o ++ [f] := by
  unfold Overloads.add at *
  by_cases hc : (o.any fun other => decide (f.testFn e other = .exact)) = true
  · rw [if_pos hc] at h; cases h
  · rw [if_neg hc]

/-- C30. No reachable set holds two overloads with the same signature. -/
theorem C30_no_duplicates (fs : List Fn) :
    ((Overloads.build e fs).map fun f => (f.ret, f.args)).Nodup := by
  suffices H : ∀ (fs : List Fn) (o : Overloads), (o.map fun f => (f.ret, f.args)).Nodup →
      ((fs.foldl (fun o f => (Overloads.add e o f).1) o).map fun f => (f.ret, f.args)).Nodup from
    H fs [] (by simp)
  intro fs
  induction fs with
  | nil => intro o h; exact h
  | cons f fs ih =>
    intro o h
    apply ih
    show ((Overloads.add e o f).1.map fun f => (f.ret, f.args)).Nodup
    by_cases hd : ∃ g ∈ o, g.ret = f.ret ∧ g.args = f.args
    · rw [C30_duplicate_refused e o f hd]; exact h
    · unfold Overloads.add
      split
      · exact h
      · simp only [List.map_append, List.map_cons, List.map_nil]
        rw [List.nodup_append]
        refine ⟨h, by simp, ?_⟩
        intro x hx y hy hxy
        simp only [List.mem_singleton] at hy
        subst hy hxy
        obtain ⟨g, hg, hg'⟩ := List.mem_map.1 hx
        simp only [Prod.mk.injEq] at hg'
        exact hd ⟨g, hg, hg'.1, hg'.2⟩

/-- the functions used as witnesses below: `void f(int&&)`, `void f(int)`, `void f(const int&)` -/
def fRvalue : Fn := Fn.make ['f'] ⟨0, .copy, false⟩ [⟨2, .rvalue, false⟩] 1
def fByValue : Fn := Fn.make ['f'] ⟨0, .copy, false⟩ [⟨2, .copy, false⟩] 2
def fConstRef : Fn := Fn.make ['f'] ⟨0, .copy, false⟩ [⟨2, .lvalue, true⟩] 3

/-- C30, second half, is false of the code: `f(int)` then `f(int&&)` is accepted, the other order is
    not. -/
theorem C30_order_matters :
    Overloads.build demoEnv [fByValue, fRvalue] = [fByValue, fRvalue] ∧
    Overloads.build demoEnv [fRvalue, fByValue] = [fRvalue] := by decide

/-! ### C31 -/

/-- C31 is false of the code: with `f(const int&)` registered before `f(int&&)` and an rvalue
    argument, the query returns the first and the call runs the second. -/
theorem C31_get_differs_from_call :
    Overloads.get demoEnv [fConstRef, fRvalue] ⟨0, .copy, false⟩ [⟨2, .rvalue, false⟩] = .ok fConstRef ∧
    Overloads.select demoEnv [fConstRef, fRvalue] ⟨0, .copy, false⟩ [⟨2, .rvalue, false⟩] =
      .ok fRvalue := by decide

/-- C31. The query fails exactly when nothing matches, i.e. when `test` is false. -/
theorem C31_get_fails_iff (o : Overloads) (ret : Arg) (args : List Arg) :
    ((∃ x, o.get e ret args = .error x) ↔ ∀ f ∈ o, f.test e ret args = .none) ∧
    (o.test e ret args = true ↔ ∃ f, o.get e ret args = .ok f) := by
  unfold Overloads.get Overloads.test
  constructor
  · cases h : o.find? fun f => decide (f.test e ret args ≠ .none) with
    | none => simpa using h
    | some f =>
      simp only [reduceCtorEq, exists_false, false_iff]
      intro hall
      have h1 := List.mem_of_find?_eq_some h
      have h2 := List.find?_some h
      simp [hall f h1] at h2
  · cases h : o.find? fun f => decide (f.test e ret args ≠ .none) with
    | none => simpa using h
    | some f =>
      have h1 := List.mem_of_find?_eq_some h
      have h2 := List.find?_some h
      simp at h2
      simp
      exact ⟨f, h1, h2⟩

/-- C31, the part that holds: the query agrees with the call whenever the set has a single matching
    candidate, or the candidate the query finds is exact. Missing: the other cases, where they
    differ. -/
theorem C31_agree_single (o : Overloads) (ret : Arg) (args : List Arg) (f : Fn)
    (hget : o.get e ret args = .ok f)
    (h : (o.filter fun g => g.test e ret args ≠ .none).length = 1 ∨ f.test e ret args = .exact) :
    o.select e ret args = .ok f := by
  have hfind : o.find? (fun g => decide (g.test e ret args ≠ .none)) = some f := by
    unfold Overloads.get at hget
    split at hget
    · simp at hget; subst hget; assumption
    · simp at hget
  have hmem := List.mem_of_find?_eq_some hfind
  have hne := List.find?_some hfind
  simp only [ne_eq, decide_not, Bool.not_eq_true', decide_eq_false_iff_not] at hne
  rw [C27_select]
  unfold choose
  rcases h with h | h
  · obtain ⟨g, hg⟩ := List.length_eq_one_iff.1 h
    have hfg : f = g := by
      have : f ∈ o.filter fun g => decide (g.test e ret args ≠ .none) := by simp [hmem, hne]
      rw [hg] at this; simpa using this
    subst hfg
    have hx : (o.filter fun g => decide (g.test e ret args = .exact)) =
        (o.filter fun g => decide (g.test e ret args ≠ .none)).filter
          fun g => decide (g.test e ret args = .exact) := by
      rw [List.filter_filter]
      apply List.filter_congr
      intro x _
      cases x.test e ret args <;> simp
    have hy : (o.filter fun g => decide (g.test e ret args = .part)) =
        (o.filter fun g => decide (g.test e ret args ≠ .none)).filter
          fun g => decide (g.test e ret args = .part) := by
      rw [List.filter_filter]
      apply List.filter_congr
      intro x _
      cases x.test e ret args <;> simp
    rw [hx, hy, hg]
    cases hm : f.test e ret args with
    | none => exact absurd hm hne
    | part => simp [hm]
    | exact => simp [hm]
  · obtain ⟨_, as, bs, rfl, hno⟩ := List.find?_eq_some_iff_append.1 hfind
    have : as.filter (fun g => decide (g.test e ret args = .exact)) = [] := by
      rw [List.filter_eq_nil_iff]
      intro g hg
      have := hno g hg
      simp only [ne_eq, decide_not, Bool.not_not, decide_eq_true_eq] at this
      simp [this]
    simp [List.filter_append, this, h]

/-! ### satisfiability -/

example : IsMade fRvalue ∧ MadeSet [fByValue, fRvalue] := by
  refine ⟨⟨_, _, _, _, rfl⟩, ?_⟩
  intro f hf; simp at hf; rcases hf with rfl | rfl <;> rfl
/-- an exact choice, an ambiguous one, and a choice of the only partial one -/
example : Overloads.call demoEnv [fConstRef, fRvalue] ⟨0, .copy, false⟩ [⟨2, .rvalue, false⟩] = .ok (1, 1) ∧
    Overloads.call demoEnv [fConstRef, fByValue] ⟨0, .copy, false⟩ [⟨2, .lvalue, false⟩] = .error .err ∧
    Overloads.call demoEnv [fConstRef, fRvalue] ⟨0, .copy, false⟩ [⟨2, .lvalue, false⟩] = .ok (3, 1) := by
  decide
example : ([fConstRef, fRvalue].filter fun f =>
    f.test demoEnv ⟨0, .copy, false⟩ [⟨2, .rvalue, false⟩] = .exact).length ≤ 1 := by decide

end Reflect

import Verif.Model.RegistryConc
/-
  C14: concurrent lookups, over every schedule.
-/
namespace Reflect.Conc

/-! ### the property is false: two races -/

/-- one registered type, whose loader defines members 10 and 11 -/
def oneLoader : Shared := { types := [], loaders := [(['t'], 0)], defs := [], next := 0 }
def twoMembers : Nat → List CAct := fun _ => [.member 10, .member 11]

/-- C14 is false of the code: two threads look up the same registered name; with this schedule the
    first obtains the type and the second is told there is no loader. -/
theorem C14_second_thread_fails :
    let c := runSched [] twoMembers (start oneLoader [[['t']], [['t']]])
      [0, 0, 1, 1, 0, 0, 0, 0, 0, 0, 1]
    c.threads.map (·.out) = [[(['t'], .ok 0)], [(['t'], .error .err)]] := by decide

/-- C14 is false of the code: with this schedule the second thread obtains the type while only one of
    its two members is defined. -/
theorem C14_half_loaded_type :
    let c := runSched [] twoMembers (start oneLoader [[['t']], [['t']]])
      [0, 0, 0, 0, 0, 0, 1, 1]
    c.threads.map (·.out) = [[], [(['t'], .ok 0)]] ∧ c.shared.defs = [(0, 10)] := by decide

/-- and with this one the second thread uses a dangling iterator -/
theorem C14_dangling_iterator :
    let c := runSched [] twoMembers (start oneLoader [[['t']], [['t']]])
      [0, 0, 1, 1, 0, 1, 0, 1]
    (c.threads.map (·.out)) = [[], [(['t'], .error .ub)]] := by decide

/-! ### what holds for every schedule -/

variable (aliases : Assoc Name Name) (prog : Nat → List CAct)

theorem types_mono (s : Shared) (th : Thread) (id : Name) (t : Nat) (h : s.types.get id = some t) :
    (stepThread aliases prog s th).1.types.get id = some t := by
  unfold stepThread
  split
  · split <;> exact h
  · simp only
    split <;> exact h
  · split
    · exact h
    · split <;> exact h
  · split <;> exact h
  · split
    · exact h
    · simp only [Assoc.get_emplace, h]
  · exact h
  · exact h
  · exact h

theorem types_mono_sched (sched : List Nat) (c : Config) (id : Name) (t : Nat)
    (h : c.shared.types.get id = some t) :
    (runSched aliases prog c sched).shared.types.get id = some t := by
  induction sched generalizing c with
  | nil => exact h
  | cons i is ih =>
    apply ih
    show (stepAt aliases prog c i).shared.types.get id = some t
    unfold stepAt
    split
    · exact h
    · exact types_mono aliases prog _ _ _ _ h

/-- what a frame stands for: the name (already resolved or not) whose type it will deliver -/
def FrameOK (s : Shared) (name : Name) : Frame → Prop
  | .look id => resolve aliases id = name
  | .missed id => id = name
  | .found id _ => id = name
  | .erased id _ => id = name
  | .run t _ => s.types.get name = some t

/-- a thread's outermost frame is about the name it is looking up, and its finished lookups returned
    what the table holds -/
structure ThreadOK (s : Shared) (th : Thread) : Prop where
  outer : ∀ f, th.stack.getLast? = some f → FrameOK aliases s (resolve aliases th.cur) f
  out : ∀ id t, (id, .ok t) ∈ th.out → s.types.get (resolve aliases id) = some t

theorem ThreadOK.mono {s s' : Shared} {th : Thread} (h : ThreadOK aliases s th)
    (hm : ∀ id t, s.types.get id = some t → s'.types.get id = some t) : ThreadOK aliases s' th := by
  constructor
  · intro f hf
    have := h.outer f hf
    cases f with
    | run t as => exact hm _ _ this
    | _ => exact this
  · intro id t ht; exact hm _ _ (h.out id t ht)

/-- replacing the innermost frame -/
theorem threadOK_replace {s s' : Shared} {th : Thread} {f g : Frame} {rest : List Frame}
    (h : ThreadOK aliases s th) (hs : th.stack = f :: rest)
    (hm : ∀ id t, s.types.get id = some t → s'.types.get id = some t)
    (hfg : ∀ n, FrameOK aliases s n f → FrameOK aliases s' n g) :
    ThreadOK aliases s' { th with stack := g :: rest } := by
  have h' := h.mono aliases hm
  refine ⟨?_, h'.out⟩
  intro x hx
  cases rest with
  | nil =>
    simp at hx; subst hx
    exact hfg _ (h.outer f (by rw [hs]; rfl))
  | cons r rs =>
    simp only [List.getLast?_cons_cons] at hx
    exact h'.outer x (by rw [hs, List.getLast?_cons_cons]; exact hx)

theorem threadOK_abort {s : Shared} {th : Thread} (x : Fault) (h : ThreadOK aliases s th) :
    ThreadOK aliases s (abort th x) := by
  refine ⟨by intro f hf; simp [abort] at hf, ?_⟩
  intro id t ht
  simp only [abort, List.mem_append, List.mem_singleton, Prod.mk.injEq, reduceCtorEq, and_false,
    or_false] at ht
  exact h.out id t ht

theorem threadOK_ret {s : Shared} {th : Thread} {f : Frame} {rest : List Frame} (t : Nat)
    (h : ThreadOK aliases s th) (hs : th.stack = f :: rest)
    (hf : ∀ n, FrameOK aliases s n f → s.types.get n = some t) :
    ThreadOK aliases s (ret th rest t) := by
  unfold ret
  cases rest with
  | nil =>
    refine ⟨by intro g hg; simp at hg, ?_⟩
    intro id t' ht
    simp only [List.mem_append, List.mem_singleton, Prod.mk.injEq, Except.ok.injEq] at ht
    rcases ht with ht | ⟨rfl, rfl⟩
    · exact h.out id t' ht
    · exact hf _ (h.outer f (by rw [hs]; rfl))
  | cons r rs =>
    refine ⟨?_, h.out⟩
    intro g hg
    exact h.outer g (by rw [hs, List.getLast?_cons_cons]; exact hg)

theorem step_threadOK (s : Shared) (th : Thread) (h : ThreadOK aliases s th) :
    ThreadOK aliases (stepThread aliases prog s th).1 (stepThread aliases prog s th).2 := by
  unfold stepThread
  split
  · split
    · exact h
    · refine ⟨?_, h.out⟩
      intro f hf
      simp at hf; subst hf; rfl
  · rename_i id rest hst
    simp only
    split
    · rename_i t ht
      exact threadOK_ret aliases t h hst (fun n hn => by rw [← hn]; exact ht)
    · exact threadOK_replace aliases h hst (fun _ _ h => h) (fun n hn => hn)
  · rename_i id rest hst
    split
    · exact threadOK_abort aliases _ h
    · split
      · exact threadOK_abort aliases _ h
      · exact threadOK_replace aliases h hst (fun _ _ h => h) (fun n hn => hn)
  · rename_i id l rest hst
    split
    · exact threadOK_abort aliases _ h
    · exact threadOK_replace aliases h hst (fun _ _ h => h) (fun n hn => hn)
  · rename_i id l rest hst
    split
    · exact threadOK_abort aliases _ h
    · rename_i ht
      refine threadOK_replace aliases h hst ?_ ?_
      · intro id' t' h'; simp only [Assoc.get_emplace, h']
      · intro n hn
        have hn : id = n := hn
        subst hn
        show (s.types.emplace id s.next).get id = some s.next
        simp [Assoc.get_emplace, ht]
  · rename_i t rest hst
    exact threadOK_ret aliases t h hst (fun n hn => hn)
  · rename_i t m as rest hst
    exact threadOK_replace aliases h hst (fun _ _ h => h) (fun n hn => hn)
  · rename_i t id as rest hst
    refine ⟨?_, h.out⟩
    intro f hf
    rw [List.getLast?_cons_cons] at hf
    have := (threadOK_replace aliases (g := .run t as) h hst (fun _ _ h => h) (fun n hn => hn)).outer f
    exact this hf

theorem sched_threadOK (sched : List Nat) (c : Config)
    (h : ∀ th ∈ c.threads, ThreadOK aliases c.shared th) :
    ∀ th ∈ (runSched aliases prog c sched).threads,
      ThreadOK aliases (runSched aliases prog c sched).shared th := by
  induction sched generalizing c with
  | nil => exact h
  | cons i is ih =>
    apply ih
    intro th hth
    change th ∈ (stepAt aliases prog c i).threads at hth
    show ThreadOK aliases (stepAt aliases prog c i).shared th
    unfold stepAt at hth ⊢
    split at hth
    · exact h th hth
    · rename_i th0 hi
      have h0 : th0 ∈ c.threads := List.mem_of_getElem? hi
      have hmono := fun id t (h : c.shared.types.get id = some t) =>
        types_mono aliases prog c.shared th0 id t h
      rcases List.mem_or_eq_of_mem_set hth with hm | rfl
      · exact (h th hm).mono aliases hmono
      · exact step_threadOK aliases prog _ _ (h th0 h0)

/-- C14, the part that holds (1): over every schedule of any number of threads, two successful
    lookups of the same name, by whatever threads, return the same type. -/
theorem C14_agree (s : Shared) (works : List (List Name)) (sched : List Nat)
    (th th' : Thread) (id : Name) (t t' : Nat)
    (h1 : th ∈ (runSched aliases prog (start s works) sched).threads)
    (h2 : th' ∈ (runSched aliases prog (start s works) sched).threads)
    (o1 : (id, .ok t) ∈ th.out) (o2 : (id, .ok t') ∈ th'.out) : t = t' := by
  have hinit : ∀ th ∈ (start s works).threads, ThreadOK aliases (start s works).shared th := by
    intro th hth
    simp only [start, List.mem_map] at hth
    obtain ⟨ids, -, rfl⟩ := hth
    exact ⟨by intro f hf; simp at hf, by intro id t h; simp at h⟩
  have := sched_threadOK aliases prog sched _ hinit
  have a := (this th h1).out id t o1
  have b := (this th' h2).out id t' o2
  rw [a] at b
  simpa using b

/-- registered types are below the counter, and different names have different types -/
structure Apart (s : Shared) : Prop where
  below : ∀ n t, s.types.get n = some t → t < s.next
  inj : ∀ n n' t, s.types.get n = some t → s.types.get n' = some t → n = n'

theorem apart_step (s : Shared) (th : Thread) (h : Apart s) : Apart (stepThread aliases prog s th).1 := by
  unfold stepThread
  split
  · split <;> exact h
  · simp only
    split <;> exact h
  · split
    · exact h
    · split <;> exact h
  · split
    · exact h
    · exact ⟨h.below, h.inj⟩
  · split
    · exact h
    · rename_i id l rest hst hn
      constructor
      · intro n t hg
        simp only [Assoc.get_emplace] at hg ⊢
        split at hg
        · rename_i t0 h0; cases hg; have := h.below n t h0; omega
        · split at hg
          · cases hg; omega
          · cases hg
      · intro n n' t hg hg'
        simp only [Assoc.get_emplace] at hg hg'
        split at hg
        · rename_i t0 h0
          cases hg
          split at hg'
          · rename_i t1 h1; cases hg'; exact h.inj n n' t h0 h1
          · split at hg'
            · cases hg'; have := h.below n _ h0; omega
            · cases hg'
        · split at hg
          · cases hg
            split at hg'
            · rename_i t1 h1; cases hg'; have := h.below n' _ h1; omega
            · split at hg'
              · simp_all
              · cases hg'
          · cases hg
  · exact h
  · exact ⟨h.below, h.inj⟩
  · exact h

theorem apart_sched (sched : List Nat) (c : Config) (h : Apart c.shared) :
    Apart (runSched aliases prog c sched).shared := by
  induction sched generalizing c with
  | nil => exact h
  | cons i is ih =>
    apply ih
    show Apart (stepAt aliases prog c i).shared
    unfold stepAt
    split
    · exact h
    · exact apart_step aliases prog _ _ h

/-- C14, the part that holds (1b): over every schedule, lookups of names that are not aliases of each
    other never return the same type, starting from a registry in which that is so. -/
theorem C14_distinct (s : Shared) (works : List (List Name)) (sched : List Nat)
    (hbelow : ∀ n t, s.types.get n = some t → t < s.next)
    (hinj : ∀ n n' t, s.types.get n = some t → s.types.get n' = some t → n = n')
    (th th' : Thread) (id id' : Name) (t : Nat)
    (h1 : th ∈ (runSched aliases prog (start s works) sched).threads)
    (h2 : th' ∈ (runSched aliases prog (start s works) sched).threads)
    (o1 : (id, .ok t) ∈ th.out) (o2 : (id', .ok t) ∈ th'.out) :
    (aliases.get id).getD id = (aliases.get id').getD id' := by
  have hinit : ∀ th ∈ (start s works).threads, ThreadOK aliases (start s works).shared th := by
    intro th hth
    simp only [start, List.mem_map] at hth
    obtain ⟨ids, -, rfl⟩ := hth
    exact ⟨by intro f hf; simp at hf, by intro id t h; simp at h⟩
  have hok := sched_threadOK aliases prog sched _ hinit
  have hap : Apart (runSched aliases prog (start s works) sched).shared :=
    apart_sched aliases prog sched _ ⟨hbelow, hinj⟩
  exact hap.inj _ _ t ((hok th h1).out id t o1) ((hok th' h2).out id' t o2)

/-- no thread is inside the loader of type `t` -/
def Idle (c : Config) (t : Nat) : Prop :=
  ∀ th ∈ c.threads, ∀ f ∈ th.stack, ∀ as, f ≠ .run t as

/-- the lookups under way have not passed the type table yet -/
def Quiet (c : Config) (name : Name) : Prop :=
  ∀ th ∈ c.threads, ∀ f ∈ th.stack, f ≠ .missed name ∧ (∀ l, f ≠ .found name l) ∧
    ∀ l, f ≠ .erased name l

/-- the definition of type `t` is untouched by a step of a thread outside its loader -/
theorem step_defs (s : Shared) (th : Thread) (t : Nat) (ht : t < s.next)
    (h : ∀ f ∈ th.stack, ∀ as, f ≠ .run t as) :
    (stepThread aliases prog s th).1.defs.filter (·.1 = t) = s.defs.filter (·.1 = t) ∧
    (∀ f ∈ (stepThread aliases prog s th).2.stack, ∀ as, f ≠ .run t as) ∧
    t < (stepThread aliases prog s th).1.next := by
  unfold stepThread
  split
  · split
    · exact ⟨rfl, h, ht⟩
    · exact ⟨rfl, by simp, ht⟩
  · rename_i id rest hst
    rw [hst] at h
    have hr : ∀ f ∈ rest, ∀ as, f ≠ .run t as := fun f hf => h f (List.mem_cons_of_mem _ hf)
    simp only
    split
    · refine ⟨rfl, ?_, ht⟩
      unfold ret; split
      · simp
      · exact hr
    · refine ⟨rfl, ?_, ht⟩
      intro f hf
      rcases List.mem_cons.1 hf with rfl | hf
      · simp
      · exact hr f hf
  · rename_i id rest hst
    rw [hst] at h
    have hr : ∀ f ∈ rest, ∀ as, f ≠ .run t as := fun f hf => h f (List.mem_cons_of_mem _ hf)
    split
    · exact ⟨rfl, by simp [abort], ht⟩
    · split
      · exact ⟨rfl, by simp [abort], ht⟩
      · refine ⟨rfl, ?_, ht⟩
        intro f hf
        rcases List.mem_cons.1 hf with rfl | hf
        · simp
        · exact hr f hf
  · rename_i id l rest hst
    rw [hst] at h
    have hr : ∀ f ∈ rest, ∀ as, f ≠ .run t as := fun f hf => h f (List.mem_cons_of_mem _ hf)
    split
    · exact ⟨rfl, by simp [abort], ht⟩
    · refine ⟨rfl, ?_, ht⟩
      intro f hf
      rcases List.mem_cons.1 hf with rfl | hf
      · simp
      · exact hr f hf
  · rename_i id l rest hst
    rw [hst] at h
    have hr : ∀ f ∈ rest, ∀ as, f ≠ .run t as := fun f hf => h f (List.mem_cons_of_mem _ hf)
    split
    · exact ⟨rfl, by simp [abort], ht⟩
    · refine ⟨rfl, ?_, by simp only; omega⟩
      intro f hf as
      rcases List.mem_cons.1 hf with rfl | hf
      · intro hh; simp only [Frame.run.injEq] at hh; omega
      · exact hr f hf as
  · rename_i t' rest hst
    rw [hst] at h
    have hr : ∀ f ∈ rest, ∀ as, f ≠ .run t as := fun f hf => h f (List.mem_cons_of_mem _ hf)
    refine ⟨rfl, ?_, ht⟩
    unfold ret; split
    · simp
    · exact hr
  · rename_i t' m as rest hst
    rw [hst] at h
    have hr : ∀ f ∈ rest, ∀ as, f ≠ .run t as := fun f hf => h f (List.mem_cons_of_mem _ hf)
    have hne : t' ≠ t := fun hh => h _ List.mem_cons_self (.member m :: as) (by rw [hh])
    refine ⟨?_, ?_, ht⟩
    · simp [List.filter_append, hne]
    · intro f hf as'
      rcases List.mem_cons.1 hf with rfl | hf
      · intro hh; simp only [Frame.run.injEq] at hh; exact hne hh.1
      · exact hr f hf as'
  · rename_i t' id as rest hst
    rw [hst] at h
    have hr : ∀ f ∈ rest, ∀ as, f ≠ .run t as := fun f hf => h f (List.mem_cons_of_mem _ hf)
    have hne : t' ≠ t := fun hh => h _ List.mem_cons_self (.get id :: as) (by rw [hh])
    refine ⟨rfl, ?_, ht⟩
    intro f hf as'
    rcases List.mem_cons.1 hf with rfl | hf
    · simp
    rcases List.mem_cons.1 hf with rfl | hf
    · intro hh; simp only [Frame.run.injEq] at hh; exact hne hh.1
    · exact hr f hf as'

/-- C14, the part that holds (2): a type that is registered and whose loader is not running stays as
    it is, name and definition, under every further schedule of lookups of whatever names. -/
theorem C14_loaded_stable (sched : List Nat) (c : Config) (name : Name) (t : Nat)
    (hreg : c.shared.types.get name = some t) (ht : t < c.shared.next) (hidle : Idle c t) :
    (runSched aliases prog c sched).shared.types.get name = some t ∧
    (runSched aliases prog c sched).shared.defs.filter (·.1 = t) = c.shared.defs.filter (·.1 = t) := by
  refine ⟨types_mono_sched aliases prog sched c name t hreg, ?_⟩
  clear hreg
  induction sched generalizing c with
  | nil => rfl
  | cons i is ih =>
    have hstep : (stepAt aliases prog c i).shared.defs.filter (·.1 = t) = c.shared.defs.filter (·.1 = t) ∧
        Idle (stepAt aliases prog c i) t ∧ t < (stepAt aliases prog c i).shared.next := by
      unfold stepAt
      split
      · exact ⟨rfl, hidle, ht⟩
      · rename_i th hi
        have hd := step_defs aliases prog c.shared th t ht (hidle th (List.mem_of_getElem? hi))
        refine ⟨hd.1, ?_, hd.2.2⟩
        intro th' hth'
        rcases List.mem_or_eq_of_mem_set hth' with hm | rfl
        · exact hidle th' hm
        · exact hd.2.1
    rw [← hstep.1]
    exact ih _ hstep.2.2 hstep.2.1

/-- the next step of a thread at `look` for a registered name answers at once with its type -/
theorem C14_loaded_lookup (s : Shared) (th : Thread) (id : Name) (t : Nat)
    (hreg : s.types.get (resolve aliases id) = some t) (hst : th.stack = [.look id])
    (hcur : th.cur = id) :
    stepThread aliases prog s th = (s, { th with stack := [], out := th.out ++ [(id, .ok t)] }) := by
  unfold stepThread
  rw [hst]
  simp only [hreg, ret, hcur]

/-! ### the hypotheses are met -/

example : let s := { oneLoader with loaders := [(['t'], 0), (['u'], 1)] };
    let c := runSched [(['a'], ['t'])] twoMembers (start s [[['a'], ['u']], [['t']]]) [0, 0, 0, 0, 0, 0, 0, 0, 1, 1, 0, 0, 0, 0, 0, 0, 0, 0];
    c.threads.map (·.out) = [[(['a'], .ok 0), (['u'], .ok 1)], [(['t'], .ok 0)]] := by decide

example : let c := runSched [] twoMembers (start oneLoader [[['t']], [['t'], ['t']]]) [0, 0, 0, 0, 0, 0, 0, 0];
    c.shared.types.get ['t'] = some 0 ∧ 0 < c.shared.next ∧ (∀ th ∈ c.threads, th.stack = []) ∧
    c.shared.defs = [(0, 10), (0, 11)] := by decide

example : let c := runSched [] twoMembers (start oneLoader [[['t']], [['t']]]) [0, 0, 0, 0, 0, 0, 1, 1, 0, 0];
    c.threads.map (·.out) = [[(['t'], .ok 0)], [(['t'], .ok 0)]] := by decide

end Reflect.Conc

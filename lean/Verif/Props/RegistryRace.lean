import Verif.Props.RegistryConc
/-
  C14 continued: what concurrent lookups leave behind, over every schedule of any number of threads.
-/
namespace Reflect.Conc

variable (aliases : Assoc Name Name) (prog : Nat → List CAct)

/-! ### vocabulary of the statements -/

/-- the members a loader script defines, in order -/
def membersOf : List CAct → List Nat
  | [] => []
  | .member m :: as => m :: membersOf as
  | .get _ :: as => membersOf as

/-- the members type `t` has, in order of definition -/
def membersIn (s : Shared) (t : Nat) : List Nat := (s.defs.filter (·.1 = t)).map (·.2)

/-- what thread `th` still has to run of loaders of type `t` -/
def pendingOf (t : Nat) (fs : List Frame) : List (List CAct) :=
  fs.filterMap fun f => match f with
    | .run t' as => if t' = t then some as else none
    | _ => none

/-- what the threads still have to run of loaders of type `t` -/
def pending (t : Nat) (c : Config) : List (List CAct) := c.threads.flatMap fun th => pendingOf t th.stack

/-- no lookup has failed so far -/
def NoFailure (c : Config) : Prop := ∀ th ∈ c.threads, ∀ id x, (id, Except.error x) ∉ th.out

/-! ### one step -/

theorem membersIn_append (s : Shared) (t t' m : Nat) :
    membersIn { s with defs := s.defs ++ [(t', m)] } t =
      membersIn s t ++ if t' = t then [m] else [] := by
  unfold membersIn
  by_cases h : t' = t <;> simp [List.filter_append, h]

theorem pendingOf_cons_run (t t' : Nat) (as : List CAct) (rest : List Frame) :
    pendingOf t (.run t' as :: rest) = (if t' = t then [as] else []) ++ pendingOf t rest := by
  unfold pendingOf
  by_cases h : t' = t <;> simp [h]

theorem pendingOf_ret (t r : Nat) (th : Thread) (rest : List Frame) :
    pendingOf t (ret th rest r).stack = pendingOf t rest := by
  unfold ret; cases rest <;> rfl

/-- the ways a step can change what is pending for, and defined in, the types that exist -/
inductive Change (t : Nat) (P P' : List (List CAct)) (D D' : List Nat) : Prop where
  | same (h : P' = P) (d : D' = D)
  | member (m : Nat) (as : List CAct) (Q : List (List CAct)) (h : P = (.member m :: as) :: Q)
      (h' : P' = as :: Q) (d : D' = D ++ [m])
  | get (id : Name) (as : List CAct) (Q : List (List CAct)) (h : P = (.get id :: as) :: Q)
      (h' : P' = as :: Q) (d : D' = D)
  | done (h : P = [] :: P') (d : D' = D)

theorem step_change (s : Shared) (th : Thread) (t : Nat) (ht : t < s.next) :
    Change t (pendingOf t th.stack) (pendingOf t (stepThread aliases prog s th).2.stack)
      (membersIn s t) (membersIn (stepThread aliases prog s th).1 t) ∨
    (∃ x, (stepThread aliases prog s th).2 = abort th x) ∧ (stepThread aliases prog s th).1 = s := by
  unfold stepThread
  split
  · rename_i hst
    left
    split
    · exact .same rfl rfl
    · refine .same ?_ rfl
      rw [hst]; rfl
  · rename_i id rest hst
    left
    simp only
    split
    · refine .same ?_ rfl
      rw [pendingOf_ret, hst]; rfl
    · refine .same ?_ rfl
      rw [hst]; rfl
  · rename_i id rest hst
    split
    · exact .inr ⟨⟨_, rfl⟩, rfl⟩
    · split
      · exact .inr ⟨⟨_, rfl⟩, rfl⟩
      · left; refine .same ?_ rfl
        rw [hst]; rfl
  · rename_i id l rest hst
    split
    · exact .inr ⟨⟨_, rfl⟩, rfl⟩
    · left; refine .same ?_ rfl
      rw [hst]; rfl
  · rename_i id l rest hst
    split
    · exact .inr ⟨⟨_, rfl⟩, rfl⟩
    · left; refine .same ?_ rfl
      rw [hst]
      simp only [pendingOf_cons_run]
      rw [if_neg (by omega)]; rfl
  · rename_i t' rest hst
    left
    rw [pendingOf_ret, hst, pendingOf_cons_run]
    by_cases h : t' = t
    · simp only [h, if_true]; exact .done rfl rfl
    · simp only [h, if_false, List.nil_append]; exact .same rfl rfl
  · rename_i t' m as rest hst
    left
    rw [hst, membersIn_append]
    simp only [pendingOf_cons_run]
    by_cases h : t' = t
    · simp only [h, if_true]; exact .member m as _ rfl rfl rfl
    · simp only [h, if_false, List.nil_append, List.append_nil]; exact .same rfl rfl
  · rename_i t' id as rest hst
    left
    rw [hst]
    simp only [pendingOf_cons_run]
    by_cases h : t' = t
    · subst h
      simp only [if_true]
      refine .get id as _ rfl ?_ rfl
      show pendingOf t' (.run t' as :: rest) = _
      rw [pendingOf_cons_run, if_pos rfl]; rfl
    · simp only [h, if_false, List.nil_append]
      refine .same ?_ rfl
      show pendingOf t (.run t' as :: rest) = _
      rw [pendingOf_cons_run, if_neg h]; rfl

/-- the thread that steps among the others -/
theorem stepAt_split (c : Config) (i : Nat) (th : Thread) (hi : c.threads[i]? = some th) :
    ∃ pre post, c.threads = pre ++ th :: post ∧ (stepAt aliases prog c i).threads =
        pre ++ (stepThread aliases prog c.shared th).2 :: post ∧
      (stepAt aliases prog c i).shared = (stepThread aliases prog c.shared th).1 ∧ pre.length = i := by
  obtain ⟨hlt, hth⟩ := List.getElem?_eq_some_iff.1 hi
  refine ⟨c.threads.take i, c.threads.drop (i + 1), ?_, ?_, ?_, ?_⟩
  · rw [← hth, List.getElem_cons_drop, List.take_append_drop]
  · unfold stepAt; rw [hi]
    simp only
    rw [List.set_eq_take_append_cons_drop, if_pos hlt]
  · unfold stepAt; rw [hi]
  · simp; omega

/-! ### the invariant -/

/-- type `t`, made by loader `l`: either exactly one thread is running the loader and what it has done
    and what it still has to do make up the script, or none is; then what was done is an initial part of
    the script, and all of it unless some lookup failed -/
def Made (c : Config) (t l : Nat) : Prop :=
  (∃ as, pending t c = [as] ∧ membersIn c.shared t ++ membersOf as = membersOf (prog l)) ∨
  (pending t c = [] ∧ (∃ rest, membersIn c.shared t ++ rest = membersOf (prog l)) ∧
    (NoFailure c → membersIn c.shared t = membersOf (prog l)))

structure Inv (s0 : Shared) (c : Config) : Prop where
  loaders : ∀ n l, c.shared.loaders.get n = some l → s0.loaders.get n = some l
  found : ∀ th ∈ c.threads, ∀ n l, Frame.found n l ∈ th.stack → s0.loaders.get n = some l
  erased : ∀ th ∈ c.threads, ∀ n l, Frame.erased n l ∈ th.stack → s0.loaders.get n = some l
  next : s0.next ≤ c.shared.next
  freshP : ∀ t, c.shared.next ≤ t → pending t c = []
  freshD : ∀ t, c.shared.next ≤ t → membersIn c.shared t = []
  old : ∀ n t, s0.types.get n = some t → c.shared.types.get n = some t
  new : ∀ n t, c.shared.types.get n = some t → s0.types.get n = none →
    s0.next ≤ t ∧ t < c.shared.next ∧ ∃ l, s0.loaders.get n = some l ∧ Made prog c t l


theorem step_out (s : Shared) (th : Thread) : ∃ more, (stepThread aliases prog s th).2.out = th.out ++ more := by
  have hret : ∀ rest t, ∃ more, (ret th rest t).out = th.out ++ more := by
    intro rest t; unfold ret; cases rest
    · exact ⟨_, rfl⟩
    · exact ⟨[], by simp⟩
  have hsame : ∃ more, th.out = th.out ++ more := ⟨[], by simp⟩
  unfold stepThread
  split
  · split <;> exact hsame
  · simp only; split
    · exact hret _ _
    · exact hsame
  · split
    · exact ⟨_, rfl⟩
    · split
      · exact ⟨_, rfl⟩
      · exact hsame
  · split
    · exact ⟨_, rfl⟩
    · exact hsame
  · split
    · exact ⟨_, rfl⟩
    · exact hsame
  · exact hret _ _
  · exact hsame
  · exact hsame

/-- where the frames of the stepping thread come from -/
theorem step_frames (s : Shared) (th : Thread) (f : Frame)
    (hf : f ∈ (stepThread aliases prog s th).2.stack) : f ∈ th.stack ∨
      (∀ n l, f = .found n l → s.loaders.get n = some l) ∧
      (∀ n l, f = .erased n l → Frame.found n l ∈ th.stack) := by
  have hret : ∀ (g : Frame) rest t, th.stack = g :: rest → f ∈ (ret th rest t).stack → f ∈ th.stack := by
    intro g rest t hst hf
    unfold ret at hf
    cases rest with
    | nil => simp at hf
    | cons r rs => rw [hst]; exact List.mem_cons_of_mem _ hf
  have hcons : ∀ (g g' : Frame) rest, f ∈ g' :: rest → th.stack = g :: rest → f = g' ∨ f ∈ th.stack := by
    intro g g' rest hf hst
    rcases List.mem_cons.1 hf with h | h
    · exact .inl h
    · right; rw [hst]; exact List.mem_cons_of_mem _ h
  unfold stepThread at hf
  split at hf
  · split at hf
    · exact .inl hf
    · simp at hf; subst hf; right; simp
  · rename_i id rest hst
    simp only at hf
    split at hf
    · exact .inl (hret _ _ _ hst hf)
    · rcases hcons _ _ _ (show f ∈ _ :: rest from hf) hst with h | h
      · subst h; right; simp
      · exact .inl h
  · rename_i id rest hst
    split at hf
    · simp [abort] at hf
    · split at hf
      · simp [abort] at hf
      · rename_i l hl
        rcases hcons _ _ _ (show f ∈ _ :: rest from hf) hst with h | h
        · subst h; right; simp_all
        · exact .inl h
  · rename_i id l rest hst
    split at hf
    · simp [abort] at hf
    · rcases hcons _ _ _ (show f ∈ _ :: rest from hf) hst with h | h
      · subst h; right; simp [hst]
      · exact .inl h
  · rename_i id l rest hst
    split at hf
    · simp [abort] at hf
    · rcases hcons _ _ _ (show f ∈ _ :: rest from hf) hst with h | h
      · subst h; right; simp
      · exact .inl h
  · rename_i t rest hst
    exact .inl (hret _ _ _ hst hf)
  · rename_i t m as rest hst
    rcases hcons _ _ _ (show f ∈ _ :: rest from hf) hst with h | h
    · subst h; right; simp
    · exact .inl h
  · rename_i t id as rest hst
    rcases List.mem_cons.1 hf with h | h
    · subst h; right; simp
    rcases hcons _ _ _ (show f ∈ _ :: rest from h) hst with h | h
    · subst h; right; simp
    · exact .inl h

/-- what a step does to the tables -/
theorem step_tables (s : Shared) (th : Thread) :
    (∀ n l, (stepThread aliases prog s th).1.loaders.get n = some l → s.loaders.get n = some l) ∧
    (((stepThread aliases prog s th).1.types = s.types ∧ (stepThread aliases prog s th).1.next = s.next) ∨
     ∃ n l rest, th.stack = .erased n l :: rest ∧ s.types.get n = none ∧
      (stepThread aliases prog s th).1 = { s with types := s.types.emplace n s.next, next := s.next + 1 } ∧
      (stepThread aliases prog s th).2 = { th with stack := .run s.next (prog l) :: rest }) := by
  unfold stepThread
  split
  · split <;> exact ⟨fun _ _ h => h, .inl ⟨rfl, rfl⟩⟩
  · simp only; split <;> exact ⟨fun _ _ h => h, .inl ⟨rfl, rfl⟩⟩
  · split
    · exact ⟨fun _ _ h => h, .inl ⟨rfl, rfl⟩⟩
    · split <;> exact ⟨fun _ _ h => h, .inl ⟨rfl, rfl⟩⟩
  · split
    · exact ⟨fun _ _ h => h, .inl ⟨rfl, rfl⟩⟩
    · refine ⟨?_, .inl ⟨rfl, rfl⟩⟩
      intro n l h
      simp only [Assoc.get_erase] at h
      split at h
      · cases h
      · exact h
  · rename_i id l rest hst
    split
    · exact ⟨fun _ _ h => h, .inl ⟨rfl, rfl⟩⟩
    · rename_i hn
      exact ⟨fun _ _ h => h, .inr ⟨id, l, rest, hst, hn, rfl, rfl⟩⟩
  · exact ⟨fun _ _ h => h, .inl ⟨rfl, rfl⟩⟩
  · exact ⟨fun _ _ h => h, .inl ⟨rfl, rfl⟩⟩
  · exact ⟨fun _ _ h => h, .inl ⟨rfl, rfl⟩⟩

/-- a step leaves what types beyond the counter have alone -/
theorem step_beyond (s : Shared) (th : Thread) (t : Nat) (hP : pendingOf t th.stack = [])
    (hD : membersIn s t = []) (hge : (stepThread aliases prog s th).1.next ≤ t) :
    pendingOf t (stepThread aliases prog s th).2.stack = [] ∧
      membersIn (stepThread aliases prog s th).1 t = [] := by
  have hcons : ∀ (g : Frame) rest, th.stack = g :: rest → pendingOf t rest = [] := by
    intro g rest hst
    rw [hst] at hP
    unfold pendingOf at hP ⊢
    rw [List.filterMap_cons] at hP
    split at hP
    · exact hP
    · cases hP
  have hrun : ∀ t' as rest, th.stack = .run t' as :: rest → t' ≠ t := by
    intro t' as rest hst h
    rw [hst, pendingOf_cons_run, if_pos h] at hP
    cases hP
  unfold stepThread at hge ⊢
  split
  · split
    · exact ⟨hP, hD⟩
    · exact ⟨rfl, hD⟩
  · rename_i id rest hst
    simp only
    split
    · exact ⟨by rw [pendingOf_ret]; exact hcons _ _ hst, hD⟩
    · exact ⟨by show pendingOf t rest = []; exact hcons _ _ hst, hD⟩
  · rename_i id rest hst
    split
    · exact ⟨rfl, hD⟩
    · split
      · exact ⟨rfl, hD⟩
      · exact ⟨by show pendingOf t rest = []; exact hcons _ _ hst, hD⟩
  · rename_i id l rest hst
    split
    · exact ⟨rfl, hD⟩
    · exact ⟨by show pendingOf t rest = []; exact hcons _ _ hst, hD⟩
  · rename_i id l rest hst
    split
    · exact ⟨rfl, hD⟩
    · rename_i hn
      rw [hst] at hge
      simp only [hn] at hge
      refine ⟨?_, hD⟩
      simp only
      rw [pendingOf_cons_run, if_neg (by omega)]
      exact hcons _ _ hst
  · rename_i t' rest hst
    exact ⟨by rw [pendingOf_ret]; exact hcons _ _ hst, hD⟩
  · rename_i t' m as rest hst
    refine ⟨?_, ?_⟩
    · simp only
      rw [pendingOf_cons_run, if_neg (hrun _ _ _ hst)]
      exact hcons _ _ hst
    · simp only
      rw [membersIn_append, if_neg (hrun _ _ _ hst), hD]; rfl
  · rename_i t' id as rest hst
    refine ⟨?_, hD⟩
    show pendingOf t (.run t' as :: rest) = []
    rw [pendingOf_cons_run, if_neg (hrun _ _ _ hst)]
    exact hcons _ _ hst

theorem pending_split (t : Nat) (c : Config) (pre post : List Thread) (th : Thread)
    (h : c.threads = pre ++ th :: post) :
    pending t c = (pre.flatMap fun th => pendingOf t th.stack) ++
      (pendingOf t th.stack ++ post.flatMap fun th => pendingOf t th.stack) := by
  unfold pending; rw [h]; simp

theorem noFailure_back (c : Config) (i : Nat) (h : NoFailure (stepAt aliases prog c i)) : NoFailure c := by
  cases hi : c.threads[i]? with
  | none => unfold stepAt at h; rw [hi] at h; exact h
  | some th =>
    obtain ⟨pre, post, h1, h2, -, -⟩ := stepAt_split aliases prog c i th hi
    intro th' hth' id x
    rw [h1] at hth'
    rcases List.mem_append.1 hth' with hm | hm
    · exact h th' (by rw [h2]; simp [hm]) id x
    rcases List.mem_cons.1 hm with hm | hm
    · subst hm
      obtain ⟨more, hmore⟩ := step_out aliases prog c.shared th'
      have := h (stepThread aliases prog c.shared th').2 (by rw [h2]; simp) id x
      rw [hmore] at this
      exact fun hc => this (List.mem_append_left _ hc)
    · exact h th' (by rw [h2]; simp [hm]) id x

theorem made_step (c : Config) (i : Nat) (t l : Nat) (ht : t < c.shared.next) (h : Made prog c t l) :
    Made prog (stepAt aliases prog c i) t l := by
  cases hi : c.threads[i]? with
  | none => unfold stepAt; rw [hi]; exact h
  | some th =>
    obtain ⟨pre, post, h1, h2, h3, -⟩ := stepAt_split aliases prog c i th hi
    have e1 := pending_split t c pre post th h1
    have e2 := pending_split t (stepAt aliases prog c i) pre post _ h2
    unfold Made at h ⊢
    rw [h3]
    rcases step_change aliases prog c.shared th t ht with hc | ⟨⟨x, hx⟩, hs⟩
    · -- no failure
      rcases h with ⟨as, hp, hd⟩ | ⟨hp, hrest, hall⟩
      · rw [e1] at hp
        cases hc with
        | same hP hD =>
          left; refine ⟨as, ?_, by rw [hD]; exact hd⟩
          rw [e2, hP]; exact hp
        | member m as' Q hP hP' hD =>
          left
          rw [hP] at hp
          simp only [List.append_eq_singleton_iff, List.append_eq_nil_iff, List.cons_append,
            List.cons.injEq, reduceCtorEq, false_and, and_false, or_false] at hp
          obtain ⟨hA, hAs, hQ, hB⟩ := hp
          refine ⟨as', ?_, ?_⟩
          · rw [e2, hP', hA, hB, hQ]; rfl
          · rw [hD, ← hd, ← hAs]; simp [membersOf]
        | get id as' Q hP hP' hD =>
          left
          rw [hP] at hp
          simp only [List.append_eq_singleton_iff, List.append_eq_nil_iff, List.cons_append,
            List.cons.injEq, reduceCtorEq, false_and, and_false, or_false] at hp
          obtain ⟨hA, hAs, hQ, hB⟩ := hp
          refine ⟨as', ?_, ?_⟩
          · rw [e2, hP', hA, hB, hQ]; rfl
          · rw [hD, ← hd, ← hAs]; simp [membersOf]
        | done hP hD =>
          right
          rw [hP] at hp
          simp only [List.append_eq_singleton_iff, List.append_eq_nil_iff, List.cons_append,
            List.cons.injEq, reduceCtorEq, false_and, and_false, or_false] at hp
          obtain ⟨hA, hAs, hQ, hB⟩ := hp
          subst hAs
          simp only [membersOf, List.append_nil] at hd
          refine ⟨?_, ⟨[], by rw [hD, hd]; simp⟩, fun _ => by rw [hD, hd]⟩
          rw [e2, hA, hQ, hB]; rfl
      · right
        rw [e1] at hp
        simp only [List.append_eq_nil_iff] at hp
        obtain ⟨hA, hP0, hB⟩ := hp
        cases hc with
        | same hP hD =>
          refine ⟨?_, by rw [hD]; exact hrest, ?_⟩
          · rw [e2, hA, hP, hP0, hB]; rfl
          · intro hn; rw [hD]; exact hall (noFailure_back aliases prog c i hn)
        | member m as' Q hP hP' hD => rw [hP] at hP0; cases hP0
        | get id as' Q hP hP' hD => rw [hP] at hP0; cases hP0
        | done hP hD => rw [hP] at hP0; cases hP0
    · -- a lookup failed
      have hfail : ¬ NoFailure (stepAt aliases prog c i) := by
        intro hn
        refine hn (stepThread aliases prog c.shared th).2 (by rw [h2]; simp) th.cur x ?_
        rw [hx]; simp [abort]
      rw [hs]
      have hst : pendingOf t (stepThread aliases prog c.shared th).2.stack = [] := by rw [hx]; rfl
      rcases h with ⟨as, hp, hd⟩ | ⟨hp, hrest, hall⟩
      · rw [e1] at hp
        rw [e2, hst]
        cases hA : pre.flatMap fun th => pendingOf t th.stack with
        | cons a A =>
          left; refine ⟨as, ?_, hd⟩
          rw [hA] at hp
          simp only [List.cons_append, List.cons.injEq, List.append_eq_nil_iff] at hp
          obtain ⟨rfl, rfl, -, hB⟩ := hp
          rw [hB]; rfl
        | nil =>
          cases hPt : pendingOf t th.stack with
          | nil =>
            left; refine ⟨as, ?_, hd⟩
            rw [hA, hPt] at hp; exact hp
          | cons a A =>
            right
            rw [hA, hPt] at hp
            simp only [List.nil_append, List.cons_append, List.cons.injEq, List.append_eq_nil_iff] at hp
            obtain ⟨rfl, rfl, hB⟩ := hp
            exact ⟨by rw [hB]; rfl, ⟨_, hd⟩, fun hn => absurd hn hfail⟩
      · right
        rw [e1] at hp
        simp only [List.append_eq_nil_iff] at hp
        obtain ⟨hA, hP0, hB⟩ := hp
        exact ⟨by rw [e2, hst, hA, hB]; rfl, hrest, fun hn => absurd hn hfail⟩

theorem inv_step (s0 : Shared) (c : Config) (i : Nat) (h : Inv prog s0 c) :
    Inv prog s0 (stepAt aliases prog c i) := by
  cases hi : c.threads[i]? with
  | none => unfold stepAt; rw [hi]; exact h
  | some th =>
    obtain ⟨pre, post, h1, h2, h3, -⟩ := stepAt_split aliases prog c i th hi
    have hth : th ∈ c.threads := List.mem_of_getElem? hi
    obtain ⟨hl, hty⟩ := step_tables aliases prog c.shared th
    have hmem : ∀ th' ∈ (stepAt aliases prog c i).threads, th' ∈ c.threads ∨
        th' = (stepThread aliases prog c.shared th).2 := by
      intro th' hm
      rw [h2] at hm
      rw [h1]
      simp only [List.mem_append, List.mem_cons] at hm ⊢
      rcases hm with hm | hm | hm
      · exact .inl (.inl hm)
      · exact .inr hm
      · exact .inl (.inr (.inr hm))
    refine ⟨?_, ?_, ?_, ?_, ?_, ?_, ?_, ?_⟩
    · intro n l hh; rw [h3] at hh; exact h.loaders n l (hl n l hh)
    · intro th' hm n l hf
      rcases hmem th' hm with hm | rfl
      · exact h.found th' hm n l hf
      · rcases step_frames aliases prog _ _ _ hf with hf | ⟨hf, -⟩
        · exact h.found th hth n l hf
        · exact h.loaders n l (hf n l rfl)
    · intro th' hm n l hf
      rcases hmem th' hm with hm | rfl
      · exact h.erased th' hm n l hf
      · rcases step_frames aliases prog _ _ _ hf with hf | ⟨-, hf⟩
        · exact h.erased th hth n l hf
        · exact h.found th hth n l (hf n l rfl)
    · rw [h3]
      rcases hty with ⟨-, hn⟩ | ⟨n, l, rest, -, -, hn, -⟩
      · rw [hn]; exact h.next
      · rw [hn]; have := h.next; simp only; omega
    · intro t ht
      rw [h3] at ht
      have hge : c.shared.next ≤ t := by
        rcases hty with ⟨-, hn⟩ | ⟨n, l, rest, -, -, hn, -⟩ <;> rw [hn] at ht
        · exact ht
        · simp only at ht; omega
      have hp := h.freshP t hge
      rw [pending_split t c pre post th h1] at hp
      simp only [List.append_eq_nil_iff] at hp
      rw [pending_split t _ pre post _ h2, hp.1, hp.2.2,
        (step_beyond aliases prog c.shared th t hp.2.1 (h.freshD t hge) ht).1]; rfl
    · intro t ht
      rw [h3] at ht ⊢
      have hge : c.shared.next ≤ t := by
        rcases hty with ⟨-, hn⟩ | ⟨n, l, rest, -, -, hn, -⟩ <;> rw [hn] at ht
        · exact ht
        · simp only at ht; omega
      have hp := h.freshP t hge
      rw [pending_split t c pre post th h1] at hp
      simp only [List.append_eq_nil_iff] at hp
      exact (step_beyond aliases prog c.shared th t hp.2.1 (h.freshD t hge) ht).2
    · intro n t ht
      rw [h3]
      exact types_mono aliases prog _ _ _ _ (h.old n t ht)
    · intro n t ht hn0
      by_cases hold : c.shared.types.get n = some t
      · obtain ⟨a, b, l, hl0, hm⟩ := h.new n t hold hn0
        refine ⟨a, ?_, l, hl0, made_step aliases prog c i t l b hm⟩
        rw [h3]
        rcases hty with ⟨-, hn⟩ | ⟨n, l, rest, -, -, hn, -⟩ <;> rw [hn]
        · exact b
        · simp only; omega
      · rw [h3] at ht ⊢
        rcases hty with ⟨hty, -⟩ | ⟨n', l, rest, hst, hn', hs, hth2⟩
        · rw [hty] at ht; exact absurd ht hold
        · rw [hs] at ht ⊢
          simp only [Assoc.get_emplace] at ht
          have hnone : c.shared.types.get n = none := by
            cases hc : c.shared.types.get n with
            | none => rfl
            | some t' => rw [hc] at ht; exact absurd (hc.trans ht) hold
          rw [hnone] at ht
          simp only at ht
          split at ht
          · rename_i hnn
            subst hnn
            simp only [Option.some.injEq] at ht
            subst ht
            refine ⟨h.next, by simp, l, h.erased th hth n' l (by rw [hst]; simp), .inl ⟨prog l, ?_, ?_⟩⟩
            · have hp := h.freshP c.shared.next (Nat.le_refl _)
              rw [pending_split _ c pre post th h1] at hp
              simp only [List.append_eq_nil_iff] at hp
              rw [pending_split _ _ pre post _ h2, hp.1, hp.2.2, hth2]
              simp only
              rw [pendingOf_cons_run, if_pos rfl]
              have : pendingOf c.shared.next rest = [] := by
                have := hp.2.1
                rw [hst] at this
                exact this
              rw [this]; rfl
            · rw [h3, hs]
              have : membersIn c.shared c.shared.next = [] := h.freshD _ (Nat.le_refl _)
              show membersIn c.shared c.shared.next ++ _ = _
              rw [this]; rfl
          · cases ht

theorem inv_sched (s0 : Shared) (sched : List Nat) (c : Config) (h : Inv prog s0 c) :
    Inv prog s0 (runSched aliases prog c sched) := by
  induction sched generalizing c with
  | nil => exact h
  | cons i is ih => exact ih _ (inv_step aliases prog s0 c i h)

/-- a registry in which nothing is being loaded: the types are below the counter, and there are no
    members of types that do not exist -/
structure AtRest (s : Shared) : Prop where
  types : ∀ n t, s.types.get n = some t → t < s.next
  defs : ∀ d ∈ s.defs, d.1 < s.next

theorem inv_start (s0 : Shared) (works : List (List Name)) (h : AtRest s0) :
    Inv prog s0 (start s0 works) := by
  have hstack : ∀ th ∈ (start s0 works).threads, th.stack = [] := by
    intro th hth
    simp only [start, List.mem_map] at hth
    obtain ⟨ids, -, rfl⟩ := hth
    rfl
  refine ⟨fun _ _ h => h, ?_, ?_, Nat.le_refl _, ?_, ?_, fun _ _ h => h, ?_⟩
  · intro th hth n l hf; rw [hstack th hth] at hf; simp at hf
  · intro th hth n l hf; rw [hstack th hth] at hf; simp at hf
  · intro t _
    unfold pending
    rw [List.flatMap_eq_nil_iff]
    intro th hth; rw [hstack th hth]; rfl
  · intro t ht
    unfold membersIn
    rw [List.map_eq_nil_iff, List.filter_eq_nil_iff]
    intro d hd hdt
    have := h.defs d hd
    change s0.next ≤ t at ht
    simp at hdt; omega
  · intro n t ht hn
    change s0.types.get n = some t at ht
    rw [hn] at ht; cases ht

/-- C14, over every schedule of any number of threads: a type registered by the lookups has been made by
    the loader registered for its name, which at most one thread is running and none runs twice: the
    members the type has are, in order, an initial part of those of its loader. -/
theorem C14_members_initial_part (s0 : Shared) (works : List (List Name)) (sched : List Nat) (h : AtRest s0)
    (n : Name) (t : Nat) (hnew : s0.types.get n = none)
    (ht : (runSched aliases prog (start s0 works) sched).shared.types.get n = some t) :
    ∃ l rest, s0.loaders.get n = some l ∧
      membersIn (runSched aliases prog (start s0 works) sched).shared t ++ rest = membersOf (prog l) := by
  have hinv := inv_sched aliases prog s0 sched _ (inv_start prog s0 works h)
  obtain ⟨-, -, l, hl, hm⟩ := hinv.new n t ht hnew
  rcases hm with ⟨as, -, hd⟩ | ⟨-, ⟨rest, hd⟩, -⟩
  · exact ⟨l, _, hl, hd⟩
  · exact ⟨l, rest, hl, hd⟩

/-- C14, over every schedule: as long as no lookup has failed, a type whose loader no thread is running
    is complete: it has exactly the members of its loader, in order. -/
theorem C14_complete_without_failure (s0 : Shared) (works : List (List Name)) (sched : List Nat)
    (h : AtRest s0) (n : Name) (t : Nat) (hnew : s0.types.get n = none)
    (ht : (runSched aliases prog (start s0 works) sched).shared.types.get n = some t)
    (hidle : Idle (runSched aliases prog (start s0 works) sched) t)
    (hok : ∀ th ∈ (runSched aliases prog (start s0 works) sched).threads,
      ∀ id x, (id, Except.error x) ∉ th.out) :
    ∃ l, s0.loaders.get n = some l ∧
      membersIn (runSched aliases prog (start s0 works) sched).shared t = membersOf (prog l) := by
  have hinv := inv_sched aliases prog s0 sched _ (inv_start prog s0 works h)
  obtain ⟨-, -, l, hl, hm⟩ := hinv.new n t ht hnew
  rcases hm with ⟨as, hp, -⟩ | ⟨-, -, hall⟩
  · exfalso
    have : as ∈ pending t (runSched aliases prog (start s0 works) sched) := by rw [hp]; simp
    unfold pending pendingOf at this
    rw [List.mem_flatMap] at this
    obtain ⟨th, hth, hmem⟩ := this
    rw [List.mem_filterMap] at hmem
    obtain ⟨f, hf, hfe⟩ := hmem
    split at hfe
    · rename_i t' as'
      split at hfe
      · rename_i htt
        subst htt
        exact hidle th hth _ hf as' rfl
      · cases hfe
    · cases hfe
  · exact ⟨l, hl, hall hok⟩

/-! ### lookups that do not overlap -/

/-- at most one thread is inside a lookup -/
def OneAtATime (c : Config) : Prop :=
  ∀ (i j : Nat) (ti tj : Thread), c.threads[i]? = some ti → c.threads[j]? = some tj → ti.stack ≠ [] → tj.stack ≠ [] → i = j

/-- at no point of the schedule are two threads inside a lookup -/
def Serial (c : Config) (sched : List Nat) : Prop :=
  ∀ pre, pre <+: sched → OneAtATime (runSched aliases prog c pre)

/-- a name the registry can serve: it has a type, or a loader (registry.cpp:73-79) -/
def Known (s : Shared) (n : Name) : Prop := s.types.get n ≠ none ∨ (n ≠ [] ∧ s.loaders.get n ≠ none)

/-- every name mentioned by a registered loader can be served -/
def ClosedUnder (s : Shared) : Prop :=
  ∀ n l, s.loaders.get n = some l → ∀ id, CAct.get id ∈ prog l → Known s (resolve aliases id)

/-- where the innermost activation of an undisturbed lookup stands -/
def TopOK (s0 s : Shared) : Frame → Prop
  | .look id => Known s0 (resolve aliases id)
  | .missed n => Known s0 n ∧ s.types.get n = none
  | .found n l => s.loaders.get n = some l ∧ s.types.get n = none ∧ s0.loaders.get n = some l
  | .erased n l => s.types.get n = none ∧ s0.loaders.get n = some l
  | .run _ as => ∀ id, CAct.get id ∈ as → Known s0 (resolve aliases id)

/-- an activation that waits for an inner one -/
def WaitOK (s0 : Shared) : Frame → Prop
  | .run _ as => ∀ id, CAct.get id ∈ as → Known s0 (resolve aliases id)
  | _ => False

structure SThread (s0 s : Shared) (th : Thread) : Prop where
  top : ∀ f rest, th.stack = f :: rest → TopOK aliases s0 s f
  wait : ∀ f rest, th.stack = f :: rest → ∀ g ∈ rest, WaitOK aliases s0 g
  todo : ∀ id ∈ th.todo, Known s0 (resolve aliases id)
  out : ∀ id x, (id, Except.error x) ∉ th.out

/-- every servable name still has its type or its loader, or is between the two in thread `th` -/
def Served (s0 s : Shared) (th : Thread) : Prop :=
  ∀ n, Known s0 n → s.types.get n ≠ none ∨ (n ≠ [] ∧ s.loaders.get n ≠ none) ∨
    ∃ l rest, th.stack = .erased n l :: rest

theorem waitOK_top {s0 s : Shared} {f : Frame} (h : WaitOK aliases s0 f) : TopOK aliases s0 s f := by
  cases f <;> first | exact h | exact h.elim

/-- one step of a lookup that nobody disturbs -/
theorem serial_step (s0 s : Shared) (th : Thread) (hcl : ClosedUnder aliases prog s0)
    (hsub : ∀ n l, s.loaders.get n = some l → s0.loaders.get n = some l)
    (h : SThread aliases s0 s th) (hs : Served s0 s th) :
    SThread aliases s0 (stepThread aliases prog s th).1 (stepThread aliases prog s th).2 ∧
    Served s0 (stepThread aliases prog s th).1 (stepThread aliases prog s th).2 := by
  have hret : ∀ (f : Frame) (rest : List Frame) (t : Nat), th.stack = f :: rest →
      (∀ n l, f ≠ .erased n l) → SThread aliases s0 s (ret th rest t) ∧ Served s0 s (ret th rest t) := by
    intro f rest t hst hne
    have hserved : ∀ n, Known s0 n → s.types.get n ≠ none ∨ (n ≠ [] ∧ s.loaders.get n ≠ none) := by
      intro n hn
      rcases hs n hn with h1 | h1 | ⟨l, r, hr⟩
      · exact .inl h1
      · exact .inr h1
      · rw [hst] at hr; simp only [List.cons.injEq] at hr; exact absurd hr.1 (hne n l)
    refine ⟨?_, fun n hn => ?_⟩
    · cases rest with
      | nil =>
        refine ⟨by simp [ret], by simp [ret], h.todo, ?_⟩
        intro id x hmem
        simp only [ret, List.mem_append, List.mem_singleton, Prod.mk.injEq, reduceCtorEq, and_false,
          or_false] at hmem
        exact h.out id x hmem
      | cons r rs =>
        have hw := h.wait f _ hst
        refine ⟨?_, ?_, h.todo, h.out⟩
        · intro g rest' hg
          simp only [ret, List.cons.injEq] at hg
          obtain ⟨rfl, rfl⟩ := hg
          exact waitOK_top aliases (hw _ List.mem_cons_self)
        · intro g rest' hg
          simp only [ret, List.cons.injEq] at hg
          obtain ⟨rfl, rfl⟩ := hg
          intro g' hg'; exact hw g' (List.mem_cons_of_mem _ hg')
    · rcases hserved n hn with h1 | h1
      · exact .inl h1
      · exact .inr (.inl h1)
  have hrep : ∀ (f g : Frame) (rest : List Frame) (s' : Shared), th.stack = f :: rest →
      TopOK aliases s0 s' g → SThread aliases s0 s' { th with stack := g :: rest } := by
    intro f g rest s' hst hg
    refine ⟨?_, ?_, h.todo, h.out⟩
    · intro f' r hf
      simp only [List.cons.injEq] at hf
      obtain ⟨rfl, rfl⟩ := hf
      exact hg
    · intro f' r hf
      simp only [List.cons.injEq] at hf
      obtain ⟨rfl, rfl⟩ := hf
      exact h.wait _ _ hst
  unfold stepThread
  split
  · rename_i hst
    split
    · exact ⟨h, hs⟩
    · rename_i id ids htodo
      refine ⟨⟨?_, ?_, ?_, h.out⟩, ?_⟩
      · intro f rest hf
        simp only [List.cons.injEq] at hf
        obtain ⟨rfl, rfl⟩ := hf
        exact h.todo id (by rw [htodo]; simp)
      · intro f rest hf
        simp only [List.cons.injEq] at hf
        obtain ⟨rfl, rfl⟩ := hf
        simp
      · intro id' hid'
        exact h.todo id' (by rw [htodo]; exact List.mem_cons_of_mem _ hid')
      · intro n hn
        rcases hs n hn with h1 | h1 | ⟨l, r, hr⟩
        · exact .inl h1
        · exact .inr (.inl h1)
        · rw [hst] at hr; cases hr
  · rename_i id rest hst
    simp only
    split
    · exact hret _ _ _ hst (by simp)
    · rename_i hnone
      refine ⟨hrep _ _ _ _ hst ⟨h.top _ _ hst, hnone⟩, ?_⟩
      intro n hn
      rcases hs n hn with h1 | h1 | ⟨l, r, hr⟩
      · exact .inl h1
      · exact .inr (.inl h1)
      · rw [hst] at hr; cases hr
  · rename_i id rest hst
    obtain ⟨hk, hnone⟩ := h.top _ _ hst
    have hl : id ≠ [] ∧ s.loaders.get id ≠ none := by
      rcases hs id hk with h1 | h1 | ⟨l, r, hr⟩
      · exact absurd hnone h1
      · exact h1
      · rw [hst] at hr; cases hr
    rw [if_neg hl.1]
    split
    · rename_i hn; exact absurd hn hl.2
    · rename_i l hl'
      refine ⟨hrep _ _ _ _ hst ⟨hl', hnone, hsub _ _ hl'⟩, ?_⟩
      intro n hn
      rcases hs n hn with h1 | h1 | ⟨l, r, hr⟩
      · exact .inl h1
      · exact .inr (.inl h1)
      · rw [hst] at hr; cases hr
  · rename_i id l rest hst
    obtain ⟨hl, hnone, hl0⟩ := h.top _ _ hst
    rw [hl]
    simp only
    refine ⟨hrep _ _ _ _ hst ⟨hnone, hl0⟩, ?_⟩
    intro n hn
    rcases hs n hn with h1 | ⟨h0, h1⟩ | ⟨l, r, hr⟩
    · exact .inl h1
    · by_cases hid : id = n
      · subst hid; exact .inr (.inr ⟨l, rest, rfl⟩)
      · right; left
        refine ⟨h0, ?_⟩
        simp only [Assoc.get_erase, if_neg hid]; exact h1
    · rw [hst] at hr; cases hr
  · rename_i id l rest hst
    obtain ⟨hnone, hl0⟩ := h.top _ _ hst
    rw [hnone]
    simp only
    refine ⟨hrep _ _ _ _ hst (fun i hi => hcl _ _ hl0 i hi), ?_⟩
    intro n hn
    rcases hs n hn with h1 | h1 | ⟨l', r, hr⟩
    · left
      simp only [Assoc.get_emplace]
      cases hg : s.types.get n with
      | none => exact absurd hg h1
      | some t => simp
    · exact .inr (.inl h1)
    · left
      rw [hst] at hr
      simp only [List.cons.injEq, Frame.erased.injEq] at hr
      obtain ⟨⟨rfl, -⟩, -⟩ := hr
      simp [Assoc.get_emplace, hnone]
  · rename_i t rest hst
    exact hret _ _ _ hst (by simp)
  · rename_i t m as rest hst
    have htop := h.top _ _ hst
    refine ⟨hrep _ _ _ _ hst (fun i hi => htop i (List.mem_cons_of_mem _ hi)), ?_⟩
    intro n hn
    rcases hs n hn with h1 | h1 | ⟨l, r, hr⟩
    · exact .inl h1
    · exact .inr (.inl h1)
    · rw [hst] at hr; cases hr
  · rename_i t id as rest hst
    have htop := h.top _ _ hst
    refine ⟨⟨?_, ?_, h.todo, h.out⟩, ?_⟩
    · intro f r hf
      simp only [List.cons.injEq] at hf
      obtain ⟨rfl, rfl⟩ := hf
      exact htop id List.mem_cons_self
    · intro f r hf
      simp only [List.cons.injEq] at hf
      obtain ⟨rfl, rfl⟩ := hf
      intro g hg
      rcases List.mem_cons.1 hg with rfl | hg
      · exact fun i hi => htop i (List.mem_cons_of_mem _ hi)
      · exact h.wait _ _ hst g hg
    · intro n hn
      rcases hs n hn with h1 | h1 | ⟨l, r, hr⟩
      · exact .inl h1
      · exact .inr (.inl h1)
      · rw [hst] at hr; cases hr

/-- a thread outside any lookup is not concerned by the tables -/
theorem sthread_idle {s0 s s' : Shared} {th : Thread} (h : SThread aliases s0 s th) (hst : th.stack = []) :
    SThread aliases s0 s' th := by
  refine ⟨?_, ?_, h.todo, h.out⟩
  · intro f r hf; rw [hst] at hf; exact absurd hf (by simp)
  · intro f r hf; rw [hst] at hf; exact absurd hf (by simp)

structure SInv (s0 : Shared) (c : Config) : Prop where
  threads : ∀ th ∈ c.threads, SThread aliases s0 c.shared th
  served : ∀ n, Known s0 n → c.shared.types.get n ≠ none ∨ (n ≠ [] ∧ c.shared.loaders.get n ≠ none) ∨
    ∃ th ∈ c.threads, ∃ l rest, th.stack = .erased n l :: rest

theorem sinv_step (s0 : Shared) (c : Config) (i : Nat) (hcl : ClosedUnder aliases prog s0)
    (hinv : Inv prog s0 c) (h1 : OneAtATime c) (h2 : OneAtATime (stepAt aliases prog c i))
    (h : SInv aliases s0 c) : SInv aliases s0 (stepAt aliases prog c i) := by
  cases hi : c.threads[i]? with
  | none => unfold stepAt; rw [hi]; exact h
  | some th =>
    obtain ⟨pre, post, e1, e2, e3, elen⟩ := stepAt_split aliases prog c i th hi
    have hth : th ∈ c.threads := List.mem_of_getElem? hi
    by_cases hidle : th.stack = [] ∧ th.todo = []
    · -- nothing happens
      have hno : stepThread aliases prog c.shared th = (c.shared, th) := by
        unfold stepThread; rw [hidle.1, hidle.2]
      have : stepAt aliases prog c i = c := by
        have a : (stepAt aliases prog c i).threads = c.threads := by rw [e2, e1, hno]
        have b : (stepAt aliases prog c i).shared = c.shared := by rw [e3, hno]
        cases hc : stepAt aliases prog c i
        rw [hc] at a b
        simp only at a b
        subst a; subst b; rfl
      rw [this]; exact h
    -- all other threads are outside lookups
    have hothers : ∀ th' ∈ pre ++ post, th'.stack = [] := by
      intro th' hm
      apply Classical.byContradiction
      intro hne
      -- the index of `th'`
      have hj : ∃ j, j ≠ i ∧ c.threads[j]? = some th' ∧ (stepAt aliases prog c i).threads[j]? = some th' := by
        rcases List.mem_append.1 hm with hm | hm
        · obtain ⟨j, hj, rfl⟩ := List.getElem_of_mem hm
          refine ⟨j, by omega, ?_, ?_⟩
          · rw [e1, List.getElem?_append_left hj]; simp [hj]
          · rw [e2, List.getElem?_append_left hj]; simp [hj]
        · obtain ⟨j, hj, rfl⟩ := List.getElem_of_mem hm
          refine ⟨i + 1 + j, by omega, ?_, ?_⟩
          · rw [e1, List.getElem?_append_right (by omega),
              show i + 1 + j - pre.length = j + 1 by omega]; simp [hj]
          · rw [e2, List.getElem?_append_right (by omega),
              show i + 1 + j - pre.length = j + 1 by omega]; simp [hj]
      obtain ⟨j, hji, hj1, hj2⟩ := hj
      by_cases hst : th.stack = []
      · have hi2 : (stepAt aliases prog c i).threads[i]? = some (stepThread aliases prog c.shared th).2 := by
          rw [e2, List.getElem?_append_right (by omega)]; simp [elen]
        have hact : (stepThread aliases prog c.shared th).2.stack ≠ [] := by
          unfold stepThread
          rw [hst]
          cases htd : th.todo with
          | nil => exact absurd ⟨hst, htd⟩ hidle
          | cons a b => simp
        exact hji (h2 j i th' _ hj2 hi2 hne hact)
      · exact hji (h1 j i th' th hj1 hi hne hst)
    have hserved : Served s0 c.shared th := by
      intro n hn
      rcases h.served n hn with h' | h' | ⟨th', hth', l, rest, hr⟩
      · exact .inl h'
      · exact .inr (.inl h')
      · rw [e1] at hth'
        simp only [List.mem_append, List.mem_cons] at hth'
        rcases hth' with hm | rfl | hm
        · rw [hothers th' (List.mem_append_left _ hm)] at hr; cases hr
        · exact .inr (.inr ⟨l, rest, hr⟩)
        · rw [hothers th' (List.mem_append_right _ hm)] at hr; cases hr
    obtain ⟨hT, hS⟩ := serial_step aliases prog s0 c.shared th hcl hinv.loaders (h.threads th hth) hserved
    refine ⟨?_, ?_⟩
    · intro th' hm
      rw [e3]
      rw [e2] at hm
      simp only [List.mem_append, List.mem_cons] at hm
      rcases hm with hm | rfl | hm
      · exact sthread_idle aliases (h.threads th' (by rw [e1]; simp [hm]))
          (hothers th' (List.mem_append_left _ hm))
      · exact hT
      · exact sthread_idle aliases (h.threads th' (by rw [e1]; simp [hm]))
          (hothers th' (List.mem_append_right _ hm))
    · intro n hn
      rw [e3]
      rcases hS n hn with h' | h' | ⟨l, rest, hr⟩
      · exact .inl h'
      · exact .inr (.inl h')
      · exact .inr (.inr ⟨_, by rw [e2]; simp, l, rest, hr⟩)

theorem sinv_sched (s0 : Shared) (sched : List Nat) (c : Config) (hcl : ClosedUnder aliases prog s0)
    (hinv : Inv prog s0 c) (hser : Serial aliases prog c sched) (h : SInv aliases s0 c) :
    SInv aliases s0 (runSched aliases prog c sched) := by
  induction sched generalizing c with
  | nil => exact h
  | cons i is ih =>
    refine ih _ (inv_step aliases prog s0 c i hinv) ?_ ?_
    · intro pre hpre
      have := hser (i :: pre) ((List.cons_prefix_cons).2 ⟨rfl, hpre⟩)
      exact this
    · exact sinv_step aliases prog s0 c i hcl hinv (hser [] List.nil_prefix)
        (hser [i] ((List.cons_prefix_cons).2 ⟨rfl, List.nil_prefix⟩)) h

/-- C14: lookups that do not overlap are right. If at no point of a schedule two threads are inside a
    lookup, and every name looked up, by the threads or by the loaders, has a type or a loader, then no
    lookup fails, whichever thread makes it, and every type whose loader is not running is complete. -/
theorem C14_serial (s0 : Shared) (works : List (List Name)) (sched : List Nat) (h : AtRest s0)
    (hcl : ClosedUnder aliases prog s0)
    (hworks : ∀ ids ∈ works, ∀ id ∈ ids, Known s0 (resolve aliases id))
    (hser : Serial aliases prog (start s0 works) sched) :
    (∀ th ∈ (runSched aliases prog (start s0 works) sched).threads, ∀ id r, (id, r) ∈ th.out →
      ∃ t, r = .ok t ∧
        (runSched aliases prog (start s0 works) sched).shared.types.get (resolve aliases id) = some t) ∧
    (∀ n t, s0.types.get n = none →
      (runSched aliases prog (start s0 works) sched).shared.types.get n = some t →
      Idle (runSched aliases prog (start s0 works) sched) t →
      ∃ l, s0.loaders.get n = some l ∧
        membersIn (runSched aliases prog (start s0 works) sched).shared t = membersOf (prog l)) := by
  have h0 : SInv aliases s0 (start s0 works) := by
    refine ⟨?_, ?_⟩
    · intro th hth
      simp only [start, List.mem_map] at hth
      obtain ⟨ids, hids, rfl⟩ := hth
      exact ⟨by simp, by simp, hworks ids hids, by simp⟩
    · intro n hn
      rcases hn with hn | hn
      · exact .inl hn
      · exact .inr (.inl hn)
  have hS := sinv_sched aliases prog s0 sched _ hcl (inv_start prog s0 works h) hser h0
  have hinit : ∀ th ∈ (start s0 works).threads, ThreadOK aliases (start s0 works).shared th := by
    intro th hth
    simp only [start, List.mem_map] at hth
    obtain ⟨ids, -, rfl⟩ := hth
    exact ⟨by intro f hf; simp at hf, by intro id t h; simp at h⟩
  have hT := sched_threadOK aliases prog sched _ hinit
  refine ⟨?_, ?_⟩
  · intro th hth id r hr
    cases r with
    | error x => exact absurd hr ((hS.threads th hth).out id x)
    | ok t => exact ⟨t, rfl, (hT th hth).out id t hr⟩
  · intro n t hn ht hidle
    exact C14_complete_without_failure aliases prog s0 works sched h n t hn ht hidle
      (fun th hth => (hS.threads th hth).out)

/-! ### every lookup comes to an end -/

/-- the steps the actions of a loader may take, nested lookups of loaded types included -/
def scriptCost : List CAct → Nat
  | [] => 0
  | .member _ :: as => 1 + scriptCost as
  | .get _ :: as => 5 + scriptCost as

def frameCost : Frame → Nat
  | .look _ => 4
  | .missed _ => 3
  | .found _ _ => 2
  | .erased _ l => 2 + scriptCost (prog l)
  | .run _ as => 1 + scriptCost as

def stackCost : List Frame → Nat
  | [] => 0
  | f :: fs => frameCost prog f + stackCost fs

def threadCost (th : Thread) : Nat := stackCost prog th.stack + 5 * th.todo.length

/-- the steps the loaders that have not run may take -/
def loaderCost : Assoc Name Nat → Nat
  | [] => 0
  | (_, l) :: m => 1 + scriptCost (prog l) + loaderCost m

def threadsCost : List Thread → Nat
  | [] => 0
  | th :: ths => threadCost prog th + threadsCost ths

/-- a bound on the number of steps all lookups take together: five for each name to look up, and for each
    registered loader one, one for each of its members and five for each name it looks up -/
def totalCost (c : Config) : Nat := loaderCost prog c.shared.loaders + threadsCost prog c.threads

/-- the thread has looked up all its names -/
def Finished (th : Thread) : Prop := th.stack = [] ∧ th.todo = []

theorem loaderCost_erase (m : Assoc Name Nat) (n : Name) (l : Nat) (h : m.get n = some l) :
    loaderCost prog (m.erase n) + 1 + scriptCost (prog l) ≤ loaderCost prog m := by
  have hle : ∀ (m : Assoc Name Nat), loaderCost prog (m.erase n) ≤ loaderCost prog m := by
    intro m
    induction m with
    | nil => exact Nat.le_refl _
    | cons p m ih =>
      obtain ⟨a, b⟩ := p
      unfold Assoc.erase at ih ⊢
      simp only [List.filter_cons]
      split
      · simp only [loaderCost]; omega
      · simp only [loaderCost]; omega
  induction m with
  | nil => simp at h
  | cons p m ih =>
    obtain ⟨a, b⟩ := p
    rw [Assoc.get_cons] at h
    by_cases ha : a = n
    · subst ha
      simp only [if_true, Option.some.injEq] at h
      subst h
      have : Assoc.erase ((a, b) :: m) a = Assoc.erase m a := by simp [Assoc.erase]
      rw [this]
      have := hle m
      simp only [loaderCost]; omega
    · rw [if_neg ha] at h
      have e : Assoc.erase ((a, b) :: m) n = (a, b) :: Assoc.erase m n := by simp [Assoc.erase, ha]
      rw [e]
      have := ih h
      simp only [loaderCost]; omega

theorem threadsCost_append (a b : List Thread) :
    threadsCost prog (a ++ b) = threadsCost prog a + threadsCost prog b := by
  induction a with
  | nil => simp [threadsCost]
  | cons x xs ih => simp only [List.cons_append, threadsCost, ih]; omega

theorem ret_cost (th : Thread) (rest : List Frame) (t : Nat) :
    threadCost prog (ret th rest t) = stackCost prog rest + 5 * th.todo.length := by
  unfold ret threadCost; cases rest <;> rfl

/-- every step of a thread that has not finished makes the cost smaller -/
theorem step_cost (s0 s : Shared) (th : Thread) (hnf : ¬ Finished th)
    (hsub : ∀ n l, s.loaders.get n = some l → s0.loaders.get n = some l)
    (hfound : ∀ n l, Frame.found n l ∈ th.stack → s0.loaders.get n = some l) :
    loaderCost prog (stepThread aliases prog s th).1.loaders +
        threadCost prog (stepThread aliases prog s th).2 <
      loaderCost prog s.loaders + threadCost prog th := by
  have hcost : ∀ (f : Frame) rest, th.stack = f :: rest →
      threadCost prog th = frameCost prog f + stackCost prog rest + 5 * th.todo.length := by
    intro f rest hst; simp only [threadCost, hst, stackCost]
  have habort : ∀ (f : Frame) rest x, th.stack = f :: rest → 1 ≤ frameCost prog f →
      threadCost prog (abort th x) < threadCost prog th := by
    intro f rest x hst h1
    rw [hcost f rest hst]
    simp only [threadCost, abort, stackCost]; omega
  unfold stepThread
  split
  · rename_i hst
    split
    · rename_i htd; exact absurd ⟨hst, htd⟩ hnf
    · rename_i id ids htd
      simp only [threadCost, hst, htd, stackCost, frameCost, List.length_cons]; omega
  · rename_i id rest hst
    simp only
    split
    · rw [ret_cost, hcost _ _ hst]; simp only [frameCost]; omega
    · rw [hcost _ _ hst]; simp only [threadCost, stackCost, frameCost]; omega
  · rename_i id rest hst
    split
    · have := habort _ _ .err hst (by simp [frameCost]); simp only; omega
    · split
      · have := habort _ _ .err hst (by simp [frameCost]); simp only; omega
      · rw [hcost _ _ hst]; simp only [threadCost, stackCost, frameCost]; omega
  · rename_i id l rest hst
    split
    · have := habort _ _ .ub hst (by simp [frameCost]); simp only; omega
    · rename_i l' hl'
      have e : l' = l := by
        have a := hsub _ _ hl'
        have b := hfound id l (by rw [hst]; simp)
        rw [a] at b; simpa using b
      subst e
      have := loaderCost_erase prog s.loaders id l' hl'
      rw [hcost _ _ hst]; simp only [threadCost, stackCost, frameCost]; omega
  · rename_i id l rest hst
    split
    · have := habort _ _ .err hst (by simp only [frameCost]; omega); simp only; omega
    · rw [hcost _ _ hst]; simp only [threadCost, stackCost, frameCost]; omega
  · rename_i t rest hst
    simp only
    rw [ret_cost, hcost _ _ hst]; simp only [frameCost, scriptCost]; omega
  · rename_i t m as rest hst
    rw [hcost _ _ hst]; simp only [threadCost, stackCost, frameCost, scriptCost]; omega
  · rename_i t id as rest hst
    rw [hcost _ _ hst]; simp only [threadCost, stackCost, frameCost, scriptCost]; omega

/-- the steps of a finished thread do nothing -/
theorem finished_step (c : Config) (i : Nat) (th : Thread) (hi : c.threads[i]? = some th)
    (hf : Finished th) : stepAt aliases prog c i = c := by
  obtain ⟨pre, post, e1, e2, e3, elen⟩ := stepAt_split aliases prog c i th hi
  have hno : stepThread aliases prog c.shared th = (c.shared, th) := by
    unfold stepThread; rw [hf.1, hf.2]
  have a : (stepAt aliases prog c i).threads = c.threads := by rw [e2, e1, hno]
  have b : (stepAt aliases prog c i).shared = c.shared := by rw [e3, hno]
  cases hc : stepAt aliases prog c i
  rw [hc] at a b
  simp only at a b
  subst a; subst b; rfl

theorem finished_stays (c : Config) (i j : Nat) (th : Thread) (hi : c.threads[i]? = some th)
    (hf : Finished th) : (stepAt aliases prog c j).threads[i]? = some th := by
  by_cases hij : j = i
  · subst hij; rw [finished_step aliases prog c j th hi hf]; exact hi
  · unfold stepAt
    split
    · exact hi
    · simp only [List.getElem?_set_ne hij]; exact hi

theorem finished_sched (sched : List Nat) (c : Config) (i : Nat) (th : Thread)
    (hi : c.threads[i]? = some th) (hf : Finished th) :
    (runSched aliases prog c sched).threads[i]? = some th := by
  induction sched generalizing c with
  | nil => exact hi
  | cons j is ih => exact ih _ (finished_stays aliases prog c i j th hi hf)

theorem step_total (s0 : Shared) (c : Config) (i : Nat) (th : Thread) (hinv : Inv prog s0 c)
    (hi : c.threads[i]? = some th) (hnf : ¬ Finished th) :
    totalCost prog (stepAt aliases prog c i) < totalCost prog c := by
  obtain ⟨pre, post, e1, e2, e3, elen⟩ := stepAt_split aliases prog c i th hi
  have hth : th ∈ c.threads := List.mem_of_getElem? hi
  have := step_cost aliases prog s0 c.shared th hnf hinv.loaders (hinv.found th hth)
  unfold totalCost
  rw [e3, e2]
  conv => rhs; rw [e1]
  rw [threadsCost_append, threadsCost_append]
  simp only [threadsCost]
  omega

theorem step_total_le (s0 : Shared) (c : Config) (i : Nat) (hinv : Inv prog s0 c) :
    totalCost prog (stepAt aliases prog c i) ≤ totalCost prog c := by
  cases hi : c.threads[i]? with
  | none => unfold stepAt; rw [hi]; exact Nat.le_refl _
  | some th =>
    by_cases hf : Finished th
    · rw [finished_step aliases prog c i th hi hf]; exact Nat.le_refl _
    · exact Nat.le_of_lt (step_total aliases prog s0 c i th hinv hi hf)

theorem sched_finishes (s0 : Shared) (sched : List Nat) (c : Config) (i : Nat) (hinv : Inv prog s0 c)
    (hi : i < c.threads.length) (hcnt : totalCost prog c ≤ sched.count i) :
    ∃ th, (runSched aliases prog c sched).threads[i]? = some th ∧ Finished th := by
  induction sched generalizing c with
  | nil =>
    refine ⟨c.threads[i], by simp [runSched, hi], ?_⟩
    apply Classical.byContradiction
    intro hnf
    have := step_total aliases prog s0 c i c.threads[i] hinv (by simp [hi]) hnf
    simp only [List.count_nil] at hcnt
    omega
  | cons j is ih =>
    have hlen : (stepAt aliases prog c j).threads.length = c.threads.length := by
      unfold stepAt; split
      · rfl
      · simp
    by_cases hf : Finished c.threads[i]
    · exact ⟨_, finished_sched aliases prog (j :: is) c i c.threads[i] (by simp [hi]) hf, hf⟩
    · refine ih _ (inv_step aliases prog s0 c j hinv) (by omega) ?_
      by_cases hji : j = i
      · subst hji
        have := step_total aliases prog s0 c j c.threads[j] hinv (by simp [hi]) hf
        rw [List.count_cons_self] at hcnt
        omega
      · have := step_total_le aliases prog s0 c j hinv
        rw [List.count_cons_of_ne hji] at hcnt
        omega

/-- what a thread has looked up, is looking up and still has to look up are its names, in order -/
def Progress (ids : List Name) (th : Thread) : Prop :=
  th.out.map (·.1) ++ (if th.stack = [] then [] else [th.cur]) ++ th.todo = ids

theorem step_progress (s : Shared) (ids : List Name) (th : Thread) (h : Progress ids th) :
    Progress ids (stepThread aliases prog s th).2 := by
  have habort : ∀ (f : Frame) rest x, th.stack = f :: rest → Progress ids (abort th x) := by
    intro f rest x hst
    unfold Progress at h ⊢
    rw [hst] at h
    simpa [abort] using h
  have hret : ∀ (f : Frame) rest t, th.stack = f :: rest → Progress ids (ret th rest t) := by
    intro f rest t hst
    unfold Progress at h ⊢
    rw [hst] at h
    unfold ret
    cases rest <;> simpa using h
  have hrep : ∀ (f : Frame) (g : Frame) gs rest, th.stack = f :: rest →
      Progress ids { th with stack := g :: gs } := by
    intro f g gs rest hst
    unfold Progress at h ⊢
    rw [hst] at h
    simpa using h
  unfold stepThread
  split
  · rename_i hst
    split
    · exact h
    · rename_i id ids' htd
      unfold Progress at h ⊢
      rw [hst, htd] at h
      simpa using h
  · rename_i id rest hst
    simp only
    split
    · exact hret _ _ _ hst
    · exact hrep _ _ _ _ hst
  · rename_i id rest hst
    split
    · exact habort _ _ _ hst
    · split
      · exact habort _ _ _ hst
      · exact hrep _ _ _ _ hst
  · rename_i id l rest hst
    split
    · exact habort _ _ _ hst
    · exact hrep _ _ _ _ hst
  · rename_i id l rest hst
    split
    · exact habort _ _ _ hst
    · exact hrep _ _ _ _ hst
  · rename_i t rest hst
    exact hret _ _ _ hst
  · rename_i t m as rest hst
    exact hrep _ _ _ _ hst
  · rename_i t id as rest hst
    exact hrep _ _ _ _ hst

theorem sched_progress (sched : List Nat) (c : Config) (i : Nat) (ids : List Name)
    (h : ∃ th, c.threads[i]? = some th ∧ Progress ids th) :
    ∃ th, (runSched aliases prog c sched).threads[i]? = some th ∧ Progress ids th := by
  induction sched generalizing c with
  | nil => exact h
  | cons j is ih =>
    refine ih _ ?_
    obtain ⟨th, hi, hp⟩ := h
    by_cases hji : j = i
    · subst hji
      obtain ⟨hlt, -⟩ := List.getElem?_eq_some_iff.1 hi
      refine ⟨_, ?_, step_progress aliases prog c.shared ids th hp⟩
      unfold stepAt; rw [hi]; simp [hlt]
    · refine ⟨th, ?_, hp⟩
      unfold stepAt
      split
      · exact hi
      · simp only [List.getElem?_set_ne hji]; exact hi

/-- C14: no schedule makes a lookup go on for ever, or wait for another thread. A thread that is given
    `totalCost` steps, however they are interleaved with steps of other threads, has looked up all its
    names in order, each with an answer or an error. -/
theorem C14_terminates (s0 : Shared) (works : List (List Name)) (sched : List Nat) (h : AtRest s0)
    (i : Nat) (ids : List Name) (hi : works[i]? = some ids)
    (hcnt : totalCost prog (start s0 works) ≤ sched.count i) :
    ∃ th, (runSched aliases prog (start s0 works) sched).threads[i]? = some th ∧
      th.stack = [] ∧ th.out.map (·.1) = ids := by
  obtain ⟨hlt, -⟩ := List.getElem?_eq_some_iff.1 hi
  obtain ⟨th, h1, hf⟩ := sched_finishes aliases prog s0 sched (start s0 works) i (inv_start prog s0 works h)
    (by simpa [start] using hlt) hcnt
  obtain ⟨th', h1', hp⟩ := sched_progress aliases prog sched (start s0 works) i ids
    ⟨_, by simp [start, hi]; rfl, by simp [Progress]⟩
  rw [h1] at h1'
  simp only [Option.some.injEq] at h1'
  subst h1'
  refine ⟨th, h1, hf.1, ?_⟩
  unfold Progress at hp
  rw [hf.1, hf.2] at hp
  simpa using hp

/-! ### the hypotheses are met -/

/-- two types that mention each other, and one that is loaded already -/
def exShared : Shared :=
  { types := [(['o'], 0)], loaders := [(['t'], 0), (['u'], 1)], defs := [(0, 5)], next := 1 }
def exScripts : Nat → List CAct := fun l =>
  if l = 0 then [.member 10, .get ['u'], .member 11] else [.get ['t'], .member 20, .get ['o']]
def exSerial : List Nat :=
  [0, 0, 0, 0, 0, 0, 0, 0, 0, 0, 0, 0, 0, 0, 0, 0, 0, 0, 0, 0, 0, 0, 1, 1, 1]

example : AtRest exShared := by
  refine ⟨?_, by decide⟩
  intro n t h
  simp only [exShared, Assoc.get_cons, Assoc.get_nil] at h
  split at h
  · simp at h; subst h; decide
  · cases h

example : let c := runSched [] exScripts (start exShared [[['t'], ['o']], [['u']]]) exSerial;
    c.threads.map (·.out) = [[(['t'], .ok 1), (['o'], .ok 0)], [(['u'], .ok 2)]] ∧
    membersIn c.shared 1 = [10, 11] ∧ membersIn c.shared 2 = [20] ∧
    membersOf (exScripts 0) = [10, 11] ∧ membersOf (exScripts 1) = [20] := by decide

/-- that schedule is serial -/
example : Serial [] exScripts (start exShared [[['t'], ['o']], [['u']]]) exSerial := by
  have key : ∀ k < exSerial.length + 1,
      ((runSched [] exScripts (start exShared [[['t'], ['o']], [['u']]]) (exSerial.take k)).threads.map
        fun th => decide (th.stack ≠ [])) ∈ [[false, false], [true, false], [false, true]] := by
    decide +kernel
  intro pre hpre i j ti tj hi hj hsi hsj
  have hk := key pre.length (by have := hpre.length_le; omega)
  rw [← List.prefix_iff_eq_take.1 hpre] at hk
  generalize runSched [] exScripts (start exShared [[['t'], ['o']], [['u']]]) pre = c at hk hi hj
  have hbi : (c.threads.map fun th => decide (th.stack ≠ []))[i]? = some true := by
    simp [hi, hsi]
  have hbj : (c.threads.map fun th => decide (th.stack ≠ []))[j]? = some true := by
    simp [hj, hsj]
  generalize (c.threads.map fun th => decide (th.stack ≠ [])) = b at hk hbi hbj
  simp only [List.mem_cons, List.not_mem_nil, or_false] at hk
  rcases hk with rfl | rfl | rfl <;>
    (match i, j with
      | 0, 0 => rfl
      | 1, 1 => rfl
      | 0, 1 => simp at hbi hbj
      | 1, 0 => simp at hbi hbj
      | i + 2, _ => simp at hbi
      | _, j + 2 => simp at hbj)

example : ClosedUnder [] exScripts exShared := by
  intro n l hl id hid
  have hl' : l = 0 ∨ l = 1 := by
    simp only [exShared, Assoc.get_cons, Assoc.get_nil] at hl
    split at hl
    · simp at hl; exact .inl hl.symm
    · split at hl
      · simp at hl; exact .inr hl.symm
      · cases hl
  rcases hl' with rfl | rfl
  · simp [exScripts] at hid; subst hid; right; decide
  · simp [exScripts] at hid
    rcases hid with rfl | rfl
    · right; decide
    · left; decide

/-- a racy schedule, too, leaves initial parts -/
example : let c := runSched [] twoMembers (start oneLoader [[['t']], [['t']]]) [0, 0, 0, 0, 0, 0, 1, 1];
    membersIn c.shared 0 = [10] ∧ membersOf (twoMembers 0) = [10, 11] := by decide

example : totalCost exScripts (start exShared [[['t'], ['o']], [['u']]]) = 35 := by decide

end Reflect.Conc

import Verif.Model.Registry
namespace Reflect.Registry
variable (prog : LoaderId → List Act)

/-- every name for which the script registers a loader satisfies `A` -/
def Allowed (A : Name → Prop) (as : List Act) : Prop :=
  ∀ a ∈ as, match a with
    | .add id _ | .require id _ => A id
    | _ => True

theorem allowed_true (as : List Act) : Allowed (fun _ => True) as := by
  intro a _; cases a <;> trivial

/-- closure conditions of a state predicate under everything but loading -/
structure StableOn (A : Name → Prop) (P : St → Prop) : Prop where
  add : ∀ s id l, A id → P s → P (addLoader s id l).1
  alias : ∀ s id al, P s → P (addAlias s id al).1
  flag : ∀ s l, P s → P { s with flags := l :: s.flags }
  defs : ∀ s t m, P s → P { s with defs := s.defs ++ [(t, m)] }

theorem andThen_ok {r : St × Res Unit} (h : r.2 = .ok ()) (k : St → St × Res Unit) :
    andThen r k = k r.1 := by simp [andThen, h]
theorem andThen_err {r : St × Res Unit} {e : Fault} (h : r.2 = .error e) (k : St → St × Res Unit) :
    andThen r k = (r.1, .error e) := by simp [andThen, h]

theorem andThen_pres {P : St → Prop} {r : St × Res Unit} {k : St → St × Res Unit} (hr : P r.1)
    (hk : ∀ s, P s → P (k s).1) : P (andThen r k).1 := by
  cases h : r.2 with
  | error e => rw [andThen_err h]; exact hr
  | ok u => rw [andThen_ok h]; exact hk _ hr

theorem templateLoader_presOn {A : Name → Prop} {P : St → Prop} (hP : StableOn A P) (s : St)
    (id : Name) (l : LoaderId) (ha : A id) (h : P s) : P (templateLoader id l s).1 := by
  unfold templateLoader
  split
  · exact h
  · exact hP.add _ _ _ ha (hP.flag _ _ h)

theorem runAct_presOn {A : Name → Prop} {P : St → Prop} (hP : StableOn A P)
    {g : St → Name → St × Res TypeId}
    (hg : ∀ s id, P s → P (g s id).1) (cur : Option TypeId) (a : Act) (ha : Allowed A [a])
    (s : St) (h : P s) : P (runAct g cur s a).1 := by
  have ha := ha a (by simp)
  cases a with
  | get id => exact hg s id h
  | add id l => exact hP.add s id l ha h
  | alias id al => exact hP.alias s id al h
  | require id l =>
    exact andThen_pres (templateLoader_presOn hP s id l ha h) (fun s hs => hg s id hs)
  | member m =>
    cases cur with
    | none => exact h
    | some t => exact hP.defs _ _ _ h
  | fail => exact h

theorem runActs_presOn {A : Name → Prop} {P : St → Prop} (hP : StableOn A P)
    {g : St → Name → St × Res TypeId}
    (hg : ∀ s id, P s → P (g s id).1) (cur : Option TypeId) (as : List Act) (hA : Allowed A as)
    (s : St) (h : P s) :
    P (runActs g cur as s).1 := by
  induction as generalizing s with
  | nil => exact h
  | cons a as ih =>
    exact andThen_pres (runAct_presOn hP hg cur a (fun x hx => hA x (by simp at hx; simp [hx])) s h)
      (fun s hs => ih (fun x hx => hA x (by simp [hx])) s hs)

theorem get_presOn {A : Name → Prop} {P : St → Prop} (hP : StableOn A P)
    (hp : ∀ l, Allowed A (prog l))
    (hb : ∀ s id l, P s → id ≠ [] → s.types.get id = none → s.loaders.get id = some l →
      P (beginLoad s id l)) (fuel : Nat) :
    ∀ s id, P s → P (get prog fuel s id).1 := by
  induction fuel with
  | zero => intro s id h; exact h
  | succ fuel ih =>
    intro s id h
    rw [get]
    simp only
    split
    · exact h
    · rename_i hn
      split
      · exact h
      · rename_i hne
        split
        · exact h
        · rename_i l hl
          exact runActs_presOn hP ih _ _ (hp l) _ (hb s _ l h hne hn hl)

abbrev Stable (P : St → Prop) : Prop := StableOn (fun _ => True) P

theorem runActs_pres {P : St → Prop} (hP : Stable P) {g : St → Name → St × Res TypeId}
    (hg : ∀ s id, P s → P (g s id).1) (cur : Option TypeId) (as : List Act) (s : St) (h : P s) :
    P (runActs g cur as s).1 := runActs_presOn hP hg cur as (allowed_true as) s h

theorem get_pres {P : St → Prop} (hP : Stable P)
    (hb : ∀ s id l, P s → id ≠ [] → s.types.get id = none → s.loaders.get id = some l →
      P (beginLoad s id l)) (fuel : Nat) :
    ∀ s id, P s → P (get prog fuel s id).1 :=
  get_presOn prog hP (fun l => allowed_true _) hb fuel

theorem run_presOn {A : Name → Prop} {P : St → Prop} (hP : StableOn A P)
    (hp : ∀ l, Allowed A (prog l))
    (hb : ∀ s id l, P s → id ≠ [] → s.types.get id = none → s.loaders.get id = some l →
      P (beginLoad s id l)) (fuel : Nat) (s : St) (ops : List Act) (ho : Allowed A ops) (h : P s) :
    P (run prog fuel s ops) := by
  induction ops generalizing s with
  | nil => exact h
  | cons a as ih =>
    exact ih _ (fun x hx => ho x (by simp [hx]))
      (runActs_presOn hP (get_presOn prog hP hp hb fuel) _ _
        (fun x hx => ho x (by simp at hx; simp [hx])) _ h)

theorem run_pres {P : St → Prop} (hP : Stable P)
    (hb : ∀ s id l, P s → id ≠ [] → s.types.get id = none → s.loaders.get id = some l →
      P (beginLoad s id l)) (fuel : Nat) (s : St) (ops : List Act) (h : P s) :
    P (run prog fuel s ops) :=
  run_presOn prog hP (fun l => allowed_true _) hb fuel s ops (allowed_true _) h

/-! ### what the elementary operations touch -/

theorem addLoader_fields (s : St) (id : Name) (l : LoaderId) :
    (addLoader s id l).1.types = s.types ∧ (addLoader s id l).1.aliases = s.aliases ∧
    (addLoader s id l).1.next = s.next ∧ (addLoader s id l).1.runs = s.runs ∧
    (addLoader s id l).1.defs = s.defs ∧ (addLoader s id l).1.flags = s.flags ∧
    ((addLoader s id l).1.loaders, (addLoader s id l).1.regs) =
      (if id = [] then (s.loaders, s.regs) else (s.loaders.emplace id l, s.regs ++ [(id, l)])) := by
  unfold addLoader
  split <;> simp

theorem addAlias_fields (s : St) (id al : Name) :
    (addAlias s id al).1.types = s.types ∧ (addAlias s id al).1.next = s.next ∧
    (addAlias s id al).1.runs = s.runs ∧ (addAlias s id al).1.defs = s.defs ∧
    (addAlias s id al).1.loaders = s.loaders ∧ (addAlias s id al).1.regs = s.regs := by
  unfold addAlias
  split
  · simp
  · split <;> simp

theorem addAlias_get (s : St) (id al x v : Name) (h : s.aliases.get x = some v) :
    (addAlias s id al).1.aliases.get x = some v := by
  unfold addAlias
  split
  · exact h
  · split
    · exact h
    · simp [Assoc.get_emplace, h]

/-- the tables only grow -/
structure Ext (s s' : St) : Prop where
  types : ∀ k v, s.types.get k = some v → s'.types.get k = some v
  aliases : ∀ k v, s.aliases.get k = some v → s'.aliases.get k = some v
  next : s.next ≤ s'.next
  runs : s.runs <+: s'.runs
  regs : s.regs <+: s'.regs

theorem Ext.refl (s : St) : Ext s s :=
  ⟨fun _ _ h => h, fun _ _ h => h, Nat.le_refl _, List.prefix_rfl, List.prefix_rfl⟩

theorem Ext.trans {a b c : St} (h1 : Ext a b) (h2 : Ext b c) : Ext a c :=
  ⟨fun k v h => h2.types k v (h1.types k v h), fun k v h => h2.aliases k v (h1.aliases k v h),
   Nat.le_trans h1.next h2.next, h1.runs.trans h2.runs, h1.regs.trans h2.regs⟩

theorem ext_stable (s0 : St) : Stable (Ext s0) where
  add s id l _ h := by
    obtain ⟨h1, h2, h3, h4, h5, h6, h7⟩ := addLoader_fields s id l
    refine h.trans ⟨by simp [h1], by simp [h2], by simp [h3], by simp [h4], ?_⟩
    by_cases hid : id = []
    · rw [if_pos hid, Prod.mk.injEq] at h7; rw [h7.2]; exact List.prefix_rfl
    · rw [if_neg hid, Prod.mk.injEq] at h7; rw [h7.2]; exact List.prefix_append ..
  alias s id al h := by
    obtain ⟨h1, h2, h3, h4, h5, h6⟩ := addAlias_fields s id al
    exact h.trans ⟨by simp [h1], fun k v hk => addAlias_get s id al k v hk, by simp [h2],
      by simp [h3], by simp [h6]⟩
  flag s l h := h.trans ⟨fun _ _ h => h, fun _ _ h => h, Nat.le_refl _, List.prefix_rfl, List.prefix_rfl⟩
  defs s t m h := h.trans ⟨fun _ _ h => h, fun _ _ h => h, Nat.le_refl _, List.prefix_rfl, List.prefix_rfl⟩

theorem ext_begin (s : St) (id : Name) (l : LoaderId) : Ext s (beginLoad s id l) :=
  ⟨fun k v h => by simp [beginLoad, Assoc.get_emplace, h], fun k v h => h,
   by simp [beginLoad], by simp [beginLoad], by simp [beginLoad]⟩

theorem ext_get (fuel : Nat) (s : St) (id : Name) : Ext s (get prog fuel s id).1 :=
  get_pres prog (ext_stable s) (fun s' id l h _ _ _ => h.trans (ext_begin s' id l)) fuel s id
    (Ext.refl s)

theorem ext_run (fuel : Nat) (s : St) (ops : List Act) : Ext s (run prog fuel s ops) :=
  run_pres prog (ext_stable s) (fun s' id l h _ _ _ => h.trans (ext_begin s' id l)) fuel s ops
    (Ext.refl s)

theorem ext_runActs (fuel : Nat) (cur : Option TypeId) (as : List Act) (s : St) :
    Ext s (runActs (get prog fuel) cur as s).1 :=
  runActs_pres (ext_stable s) (fun s' id h => h.trans (ext_get prog fuel s' id)) cur as s
    (Ext.refl s)

/-- A lookup that succeeds has its (resolved) name registered with the returned type. -/
theorem get_registered (fuel : Nat) (s : St) (id : Name) (t : TypeId)
    (h : (get prog fuel s id).2 = .ok t) :
    (get prog fuel s id).1.types.get (resolve s id) = some t := by
  cases fuel with
  | zero => simp [get] at h
  | succ fuel =>
    rw [get] at h ⊢
    simp only at h ⊢
    split at h
    · rename_i t' ht; simp at h; subst h; simpa using ht
    · rename_i hn
      split at h
      · simp at h
      · rename_i hne
        split at h
        · simp at h
        · rename_i l hl
          rw [if_neg hne]
          simp only [hl]
          have he := ext_runActs prog fuel (some s.next) (prog l) (beginLoad s (resolve s id) l)
          apply he.types
          simp only at h
          cases hr : (runActs (get prog fuel) (some s.next) (prog l) (beginLoad s (resolve s id) l)).2 with
          | error e => rw [hr] at h; simp [Except.map] at h
          | ok u =>
            rw [hr] at h; simp [Except.map] at h; subst h
            simp [beginLoad, Assoc.get_emplace, hn]

theorem get_found (fuel : Nat) (s : St) (id : Name) (t : TypeId)
    (h : s.types.get (resolve s id) = some t) : get prog (fuel + 1) s id = (s, .ok t) := by
  rw [get]; simp only [h]

/-! ### invariant of every reachable registry -/

def firstReg (regs : List (Name × LoaderId)) (n : Name) : Option LoaderId :=
  Assoc.get regs n

theorem firstReg_append (regs : List (Name × LoaderId)) (n : Name) (l : LoaderId) (x : Name) :
    firstReg (regs ++ [(n, l)]) x =
      match firstReg regs x with
      | some v => some v
      | none => if n = x then some l else none := by
  unfold firstReg
  induction regs with
  | nil => simp [Assoc.get_cons]
  | cons p r ih =>
    obtain ⟨a, b⟩ := p
    simp only [List.cons_append, Assoc.get_cons]
    by_cases h : a = x
    · simp [h]
    · simp only [h, if_false]; exact ih

structure Inv (s : St) : Prop where
  /-- no name's loader was run twice -/
  once : (s.runs.map (·.1)).Nodup
  /-- each run's type is the one registered -/
  runType : ∀ n l t, (n, l, t) ∈ s.runs → s.types.get n = some t
  /-- types come only from runs -/
  typeRun : ∀ n t, s.types.get n = some t → ∃ l, (n, l, t) ∈ s.runs
  /-- each run used the first loader registered for the name -/
  first : ∀ n l t, (n, l, t) ∈ s.runs → firstReg s.regs n = some l
  /-- what waits is the first loader registered for a name that has no type yet -/
  waiting : ∀ n, s.types.get n = none → s.loaders.get n = firstReg s.regs n
  fresh : ∀ n l t, (n, l, t) ∈ s.runs → t < s.next
  inj : ∀ n l t n' l', (n, l, t) ∈ s.runs → (n', l', t) ∈ s.runs → n = n'

theorem inv_init : Inv St.init := by
  constructor <;> simp [St.init, firstReg]

theorem inv_stable : Stable Inv where
  add s id l _ h := by
    obtain ⟨h1, h2, h3, h4, h5, h6, h7⟩ := addLoader_fields s id l
    by_cases hid : id = []
    · rw [if_pos hid, Prod.mk.injEq] at h7
      constructor
      · rw [h4]; exact h.once
      · rw [h4, h1]; exact h.runType
      · rw [h4, h1]; exact h.typeRun
      · rw [h4, h7.2]; exact h.first
      · rw [h1, h7.1, h7.2]; exact h.waiting
      · rw [h4, h3]; exact h.fresh
      · rw [h4]; exact h.inj
    · rw [if_neg hid, Prod.mk.injEq] at h7
      constructor
      · rw [h4]; exact h.once
      · rw [h4, h1]; exact h.runType
      · rw [h4, h1]; exact h.typeRun
      · rw [h4, h7.2]
        intro n l' t ht
        rw [firstReg_append, h.first n l' t ht]
      · rw [h1, h7.1, h7.2]
        intro n hn
        rw [Assoc.get_emplace, firstReg_append, h.waiting n hn]
        cases firstReg s.regs n <;> rfl
      · rw [h4, h3]; exact h.fresh
      · rw [h4]; exact h.inj
  alias s id al h := by
    obtain ⟨h1, h2, h3, h4, h5, h6⟩ := addAlias_fields s id al
    constructor
    · rw [h3]; exact h.once
    · rw [h3, h1]; exact h.runType
    · rw [h3, h1]; exact h.typeRun
    · rw [h3, h6]; exact h.first
    · rw [h1, h5, h6]; exact h.waiting
    · rw [h3, h2]; exact h.fresh
    · rw [h3]; exact h.inj
  flag s l h := ⟨h.once, h.runType, h.typeRun, h.first, h.waiting, h.fresh, h.inj⟩
  defs s t m h := ⟨h.once, h.runType, h.typeRun, h.first, h.waiting, h.fresh, h.inj⟩

theorem inv_begin (s : St) (id : Name) (l : LoaderId) (h : Inv s) (hn : s.types.get id = none)
    (hl : s.loaders.get id = some l) : Inv (beginLoad s id l) := by
  have hnew : ∀ l t, (id, l, t) ∉ s.runs := by
    intro l t ht; have := h.runType _ _ _ ht; rw [hn] at this; cases this
  have hT : ∀ n, (beginLoad s id l).types.get n = if id = n then some s.next else s.types.get n := by
    intro n
    simp only [beginLoad, Assoc.get_emplace]
    by_cases he : id = n
    · subst he; simp [hn]
    · cases s.types.get n <;> simp [he]
  have hR : ∀ x, x ∈ (beginLoad s id l).runs ↔ x ∈ s.runs ∨ x = (id, l, s.next) := by
    intro x; simp [beginLoad]
  constructor
  · simp only [beginLoad, List.map_append, List.map_cons, List.map_nil]
    rw [List.nodup_append]
    refine ⟨h.once, by simp, ?_⟩
    intro a ha b hb
    simp at hb; subst hb
    rintro rfl
    simp at ha
    obtain ⟨l', t', ht⟩ := ha
    exact hnew _ _ ht
  · intro n l' t ht
    rw [hT]
    rcases (hR _).1 ht with ht | ht
    · have : id ≠ n := by rintro rfl; exact hnew _ _ ht
      rw [if_neg this]; exact h.runType _ _ _ ht
    · simp only [Prod.mk.injEq] at ht; obtain ⟨rfl, rfl, rfl⟩ := ht; simp
  · intro n t ht
    rw [hT] at ht
    split at ht
    · rename_i he; subst he; simp at ht; subst ht; exact ⟨l, (hR _).2 (Or.inr rfl)⟩
    · obtain ⟨l', hl'⟩ := h.typeRun n t ht; exact ⟨l', (hR _).2 (Or.inl hl')⟩
  · intro n l' t ht
    show firstReg s.regs n = some l'
    rcases (hR _).1 ht with ht | ht
    · exact h.first _ _ _ ht
    · simp only [Prod.mk.injEq] at ht; obtain ⟨rfl, rfl, rfl⟩ := ht
      rw [← h.waiting _ hn, hl]
  · intro n hn'
    rw [hT] at hn'
    split at hn'
    · cases hn'
    · rename_i he
      show (s.loaders.erase id).get n = firstReg s.regs n
      rw [Assoc.get_erase, if_neg he]; exact h.waiting n hn'
  · intro n l' t ht
    show t < s.next + 1
    rcases (hR _).1 ht with ht | ht
    · exact Nat.lt_succ_of_lt (h.fresh _ _ _ ht)
    · simp only [Prod.mk.injEq] at ht; omega
  · intro n l1 t n' l2 h1 h2
    rcases (hR _).1 h1 with h1 | h1 <;> rcases (hR _).1 h2 with h2 | h2
    · exact h.inj _ _ _ _ _ h1 h2
    · simp only [Prod.mk.injEq] at h2
      obtain ⟨_, _, rfl⟩ := h2
      exact absurd (h.fresh _ _ _ h1) (Nat.lt_irrefl _)
    · simp only [Prod.mk.injEq] at h1
      obtain ⟨_, _, rfl⟩ := h1
      exact absurd (h.fresh _ _ _ h2) (Nat.lt_irrefl _)
    · simp only [Prod.mk.injEq] at h1 h2
      rw [h1.1, h2.1]

theorem inv_run (fuel : Nat) (ops : List Act) : Inv (run prog fuel St.init ops) :=
  run_pres prog inv_stable (fun s id l h _ hn hl => inv_begin s id l h hn hl) fuel _ ops inv_init

theorem inv_get (fuel : Nat) (s : St) (id : Name) (h : Inv s) : Inv (get prog fuel s id).1 :=
  get_pres prog inv_stable (fun s id l h _ hn hl => inv_begin s id l h hn hl) fuel s id h

/-! ### termination -/

def Bounded (U : List Name) (s : St) : Prop := ∀ n l, s.loaders.get n = some l → n ∈ U

/-- names of the universe without a type -/
def unloaded (U : List Name) (s : St) : Nat := (U.filter (fun n => (s.types.get n).isNone)).length

theorem filter_sublist_filter {α : Type} (l : List α) {p q : α → Bool}
    (h : ∀ a, p a = true → q a = true) : (l.filter p).Sublist (l.filter q) := by
  induction l with
  | nil => simp
  | cons a l ih =>
    simp only [List.filter_cons]
    by_cases hp : p a = true
    · simp only [hp, h a hp, if_true]; exact ih.cons_cons a
    · simp only [hp, if_false, Bool.false_eq_true]
      split
      · exact ih.cons a
      · exact ih

theorem unloaded_mono {U : List Name} {s s' : St} (h : Ext s s') : unloaded U s' ≤ unloaded U s := by
  unfold unloaded
  apply List.Sublist.length_le
  apply filter_sublist_filter
  intro n hn
  cases hs : s.types.get n with
  | none => rfl
  | some v => rw [h.types n v hs] at hn; simp at hn

theorem filter_length_lt {α : Type} (p q : α → Bool) (l : List α) (x : α) (hx : x ∈ l)
    (hq : q x = true) (hp : p x = false) (himp : ∀ a, p a = true → q a = true) :
    (l.filter p).length < (l.filter q).length := by
  induction l with
  | nil => simp at hx
  | cons a l ih =>
    have hle : (l.filter p).length ≤ (l.filter q).length :=
      List.Sublist.length_le (filter_sublist_filter l himp)
    simp only [List.filter_cons]
    by_cases hxa : x = a
    · subst hxa; simp [hp, hq]; omega
    · have := ih (by simpa [hxa] using hx)
      by_cases hpa : p a = true
      · simp [hpa, himp a hpa]; exact this
      · simp [hpa]
        split
        · simp; omega
        · exact this

theorem unloaded_begin {U : List Name} (s : St) (id : Name) (l : LoaderId) (hU : id ∈ U)
    (hn : s.types.get id = none) : unloaded U (beginLoad s id l) < unloaded U s := by
  unfold unloaded
  apply filter_length_lt _ _ U id hU
  · simp [hn]
  · simp [beginLoad, Assoc.get_emplace, hn]
  · intro a ha
    cases hs : s.types.get a with
    | none => rfl
    | some v => simp [beginLoad, Assoc.get_emplace, hs] at ha

theorem addType_no_diverge {F : Type} (t : Scope.Tree F) (n : Name) :
    (Scope.addType t n).2 ≠ .error .diverge := by
  induction hl : n.length using Nat.strongRecOn generalizing t n with
  | ind k ih =>
    rw [Scope.addType.eq_def]
    split
    · rename_i e he; rw [Scope.head_err he]; simp
    · rename_i f r he
      split
      · simp
      · rename_i hr
        split
        · simp
        · split
          · simp
          · exact ih _ (hl ▸ Scope.head_length he hr) _ _ rfl

theorem addLoader_no_diverge (s : St) (id : Name) (l : LoaderId) :
    (addLoader s id l).2 ≠ .error .diverge := by
  unfold addLoader
  split
  · simp
  · exact addType_no_diverge _ _

theorem addLoader_bounded {U : List Name} (s : St) (id : Name) (l : LoaderId) (hid : id ∈ U)
    (h : Bounded U s) : Bounded U (addLoader s id l).1 := by
  obtain ⟨_, _, _, _, _, _, h7⟩ := addLoader_fields s id l
  intro n l' hn
  split at h7
  · rw [Prod.mk.injEq] at h7; rw [h7.1] at hn; exact h n l' hn
  · rw [Prod.mk.injEq] at h7; rw [h7.1, Assoc.get_emplace] at hn
    cases hs : s.loaders.get n with
    | some v => exact h n v hs
    | none =>
      rw [hs] at hn
      simp only at hn
      split at hn
      · rename_i he; exact he ▸ hid
      · cases hn

theorem addLoader_ext (s : St) (id : Name) (l : LoaderId) : Ext s (addLoader s id l).1 :=
  (ext_stable s).add s id l trivial (Ext.refl s)

theorem addAlias_ext (s : St) (id al : Name) : Ext s (addAlias s id al).1 :=
  (ext_stable s).alias s id al (Ext.refl s)

theorem map_no_diverge {α β : Type} (f : α → β) (r : Res α) (h : r ≠ .error .diverge) :
    r.map f ≠ .error .diverge := by
  cases r with
  | ok v => simp [Except.map]
  | error e => intro he; simp [Except.map] at he; exact h (by rw [he])

theorem bounded_stable (U : List Name) : StableOn (· ∈ U) (Bounded U) where
  add s id l hid h := addLoader_bounded s id l hid h
  alias s id al h := by
    obtain ⟨_, _, _, _, h5, _⟩ := addAlias_fields s id al
    intro n l hn
    rw [h5] at hn; exact h n l hn
  flag s l h := h
  defs s t m h := h

theorem bounded_begin {U : List Name} (s : St) (id : Name) (l : LoaderId) (h : Bounded U s) :
    Bounded U (beginLoad s id l) := by
  intro n l' hn'
  simp only [beginLoad, Assoc.get_erase] at hn'
  split at hn'
  · cases hn'
  · exact h n l' hn'

theorem bounded_get {U : List Name} (hp : ∀ l, Allowed (· ∈ U) (prog l)) (fuel : Nat) (s : St)
    (id : Name) (h : Bounded U s) : Bounded U (get prog fuel s id).1 :=
  get_presOn prog (bounded_stable U) hp (fun s id l h _ _ _ => bounded_begin s id l h) fuel s id h

theorem addAlias_no_diverge (s : St) (id al : Name) : (addAlias s id al).2 ≠ .error .diverge := by
  unfold addAlias
  split
  · simp
  · split <;> simp

theorem templateLoader_no_diverge (s : St) (id : Name) (l : LoaderId) :
    (templateLoader id l s).2 ≠ .error .diverge := by
  unfold templateLoader
  split
  · simp
  · exact addLoader_no_diverge _ _ _

theorem andThen_no_diverge {r : St × Res Unit} {k : St → St × Res Unit}
    (hr : r.2 ≠ .error .diverge) (hk : (k r.1).2 ≠ .error .diverge) :
    (andThen r k).2 ≠ .error .diverge := by
  cases h : r.2 with
  | error e => rw [andThen_err h]; rw [h] at hr; exact hr
  | ok u => rw [andThen_ok h]; exact hk

/-- one script, given lookups that terminate on states with less than `k` unloaded names -/
theorem runActs_no_diverge {U : List Name} {g : St → Name → St × Res TypeId} {k : Nat}
    (hg : ∀ s id, Bounded U s → unloaded U s < k → (g s id).2 ≠ .error .diverge)
    (hb : ∀ s id, Bounded U s → Bounded U (g s id).1)
    (he : ∀ s id, Ext s (g s id).1)
    (cur : Option TypeId) (as : List Act) (hc : Allowed (· ∈ U) as) (s : St) (h : Bounded U s)
    (hk : unloaded U s < k) :
    (runActs g cur as s).2 ≠ .error .diverge := by
  induction as generalizing s with
  | nil => simp [runActs]
  | cons a as ih =>
    have ha := hc a (by simp)
    have hb1 : Bounded U (runAct g cur s a).1 :=
      runAct_presOn (bounded_stable U) hb cur a (fun x hx => hc x (by simp at hx; simp [hx])) s h
    have he1 : Ext s (runAct g cur s a).1 :=
      runAct_presOn (ext_stable s) (fun s' id h => h.trans (he s' id)) cur a (allowed_true _) s
        (Ext.refl s)
    rw [runActs]
    refine andThen_no_diverge ?_
      (ih (fun x hx => hc x (by simp [hx])) _ hb1 (Nat.lt_of_le_of_lt (unloaded_mono he1) hk))
    cases a with
    | get id => exact map_no_diverge _ _ (hg s id h hk)
    | add id l => exact addLoader_no_diverge s id l
    | alias id al => exact addAlias_no_diverge s id al
    | require id l =>
      refine andThen_no_diverge (templateLoader_no_diverge s id l) (map_no_diverge _ _ (hg _ _ ?_ ?_))
      · exact templateLoader_presOn (bounded_stable U) s id l ha h
      · exact Nat.lt_of_le_of_lt (unloaded_mono
          (templateLoader_presOn (ext_stable s) s id l trivial (Ext.refl s))) hk
    | member m => simp [runAct]
    | fail => simp [runAct]

theorem get_no_diverge {U : List Name} (hp : ∀ l, Allowed (· ∈ U) (prog l)) (fuel : Nat) :
    ∀ s id, Bounded U s → unloaded U s < fuel → (get prog fuel s id).2 ≠ .error .diverge := by
  induction fuel with
  | zero => intro s id h hh; exact absurd hh (by omega)
  | succ fuel ih =>
    intro s id h hf
    rw [get]
    simp only
    split
    · simp
    · rename_i hn
      split
      · simp
      · split
        · simp
        · rename_i l hl
          have hU : resolve s id ∈ U := h _ _ hl
          have hlt := unloaded_begin s (resolve s id) l hU hn
          have := runActs_no_diverge (k := fuel) ih
              (fun s id hb => bounded_get prog hp fuel s id hb) (fun s id => ext_get prog fuel s id)
              (some s.next) (prog l) (hp l) _ (bounded_begin s (resolve s id) l h) (by omega)
          exact map_no_diverge _ _ this

/-! ### more fuel changes nothing -/

theorem andThen_fuel {r r' : St × Res Unit} {k k' : St → St × Res Unit}
    (hr : r.2 ≠ .error .diverge → r' = r)
    (hk : ∀ s, (k s).2 ≠ .error .diverge → k' s = k s)
    (h : (andThen r k).2 ≠ .error .diverge) : andThen r' k' = andThen r k := by
  cases hr2 : r.2 with
  | error e =>
    rw [andThen_err hr2] at h ⊢
    rw [hr (by rw [hr2]; exact h), andThen_err hr2]
  | ok u =>
    rw [andThen_ok hr2] at h ⊢
    rw [hr (by rw [hr2]; simp), andThen_ok hr2]
    exact hk _ h

theorem lookup_fuel {g g' : St → Name → St × Res TypeId}
    (hg : ∀ s id, (g s id).2 ≠ .error .diverge → g' s id = g s id) (id : Name) (s : St)
    (h : (lookup g id s).2 ≠ .error .diverge) : lookup g' id s = lookup g id s := by
  unfold lookup at h ⊢
  rw [hg s id (by intro he; simp only [he] at h; exact h rfl)]

theorem runActs_fuel {g g' : St → Name → St × Res TypeId}
    (hg : ∀ s id, (g s id).2 ≠ .error .diverge → g' s id = g s id)
    (cur : Option TypeId) (as : List Act) (s : St)
    (h : (runActs g cur as s).2 ≠ .error .diverge) : runActs g' cur as s = runActs g cur as s := by
  induction as generalizing s with
  | nil => rfl
  | cons a as ih =>
    rw [runActs] at h ⊢
    rw [runActs]
    refine andThen_fuel (fun h1 => ?_) ih h
    cases a with
    | get id => exact lookup_fuel hg id s h1
    | add id l => rfl
    | alias id al => rfl
    | require id l => exact andThen_fuel (fun _ => rfl) (fun s hs => lookup_fuel hg id s hs) h1
    | member m => rfl
    | fail => rfl

theorem get_fuel (fuel : Nat) : ∀ (s : St) (id : Name),
    (get prog fuel s id).2 ≠ .error .diverge → get prog (fuel + 1) s id = get prog fuel s id := by
  induction fuel with
  | zero => intro s id h; exact absurd rfl h
  | succ fuel ih =>
    intro s id h
    rw [get] at h
    rw [get, get]
    simp only at h ⊢
    split
    · rfl
    · rename_i hn
      rw [hn] at h
      simp only at h
      split
      · rfl
      · rename_i hne
        rw [if_neg hne] at h
        split
        · rfl
        · rename_i l hl
          rw [hl] at h
          simp only at h
          have : (runActs (get prog fuel) (some s.next) (prog l) (beginLoad s (resolve s id) l)).2 ≠
              .error .diverge := by
            intro he; rw [he] at h; exact h rfl
          rw [runActs_fuel ih _ _ _ this]

theorem get_fuel_le {f f' : Nat} (hf : f ≤ f') (s : St) (id : Name)
    (h : (get prog f s id).2 ≠ .error .diverge) : get prog f' s id = get prog f s id := by
  induction hf with
  | refl => rfl
  | step _ ih => rw [get_fuel _ _ _ _ (by rw [ih]; exact h), ih]

/-! ### complete definitions -/

def defsOf (s : St) (t : TypeId) : List Nat := (s.defs.filter (fun p => p.1 = t)).map (·.2)

/-- the members a script defines on the type under construction -/
def membersOf : List Act → List Nat
  | [] => []
  | .member m :: as => m :: membersOf as
  | _ :: as => membersOf as

/-- a loader touches the members of its own type only -/
def Keeps (g : St → Name → St × Res TypeId) : Prop :=
  ∀ s id t, t < s.next → defsOf (g s id).1 t = defsOf s t

theorem defsOf_congr {s s' : St} (h : s'.defs = s.defs) (t : TypeId) : defsOf s' t = defsOf s t := by
  unfold defsOf; rw [h]

theorem defsOf_append (s : St) (c t : TypeId) (m : Nat) :
    defsOf { s with defs := s.defs ++ [(c, m)] } t = defsOf s t ++ (if c = t then [m] else []) := by
  unfold defsOf
  simp only [List.filter_append, List.map_append]
  by_cases h : c = t <;> simp [h]

theorem templateLoader_defs (s : St) (id : Name) (l : LoaderId) :
    (templateLoader id l s).1.defs = s.defs := by
  unfold templateLoader
  split
  · rfl
  · exact (addLoader_fields { s with flags := l :: s.flags } id l).2.2.2.2.1

/-- effect of one action on member tables -/
theorem runAct_defs {g : St → Name → St × Res TypeId} (hg : Keeps g)
    (cur : Option TypeId) (a : Act) (s : St) (t : TypeId) (ht : t < s.next) :
    (cur ≠ some t → defsOf (runAct g cur s a).1 t = defsOf s t) ∧
    (cur = some t → defsOf (runAct g cur s a).1 t = defsOf s t ++ membersOf [a]) := by
  have same : ∀ s', defsOf s' t = defsOf s t → membersOf [a] = [] →
      (cur ≠ some t → defsOf s' t = defsOf s t) ∧
      (cur = some t → defsOf s' t = defsOf s t ++ membersOf [a]) := by
    intro s' h1 h2; rw [h2, List.append_nil]; exact ⟨fun _ => h1, fun _ => h1⟩
  cases a with
  | get id => exact same _ (hg s id t ht) rfl
  | add id l => exact same _ (defsOf_congr (addLoader_fields s id l).2.2.2.2.1 t) rfl
  | alias id al => exact same _ (defsOf_congr (addAlias_fields s id al).2.2.2.1 t) rfl
  | require id l =>
    refine same _ ?_ rfl
    have h0 := defsOf_congr (templateLoader_defs s id l) t
    have e1 : Ext s (templateLoader id l s).1 :=
      templateLoader_presOn (ext_stable s) s id l trivial (Ext.refl s)
    show defsOf (andThen (templateLoader id l s) (lookup g id)).1 t = defsOf s t
    cases h : (templateLoader id l s).2 with
    | error e => rw [andThen_err h]; exact h0
    | ok u =>
      rw [andThen_ok h, ← h0]
      exact hg _ id t (Nat.lt_of_lt_of_le ht e1.next)
  | member m =>
    cases cur with
    | none => exact ⟨fun _ => rfl, fun h => by cases h⟩
    | some c =>
      have := defsOf_append s c t m
      constructor
      · intro hn
        rw [if_neg (by rintro rfl; exact hn rfl), List.append_nil] at this
        exact this
      · intro he
        simp only [Option.some.injEq] at he
        rw [if_pos he] at this
        exact this
  | fail => exact same s rfl rfl

theorem membersOf_cons (a : Act) (as : List Act) :
    membersOf (a :: as) = membersOf [a] ++ membersOf as := by
  cases a <;> simp [membersOf]

/-- effect of a script on member tables: a successful run appends its members to the current type,
    any run leaves the other existing types alone -/
theorem runActs_defs {g : St → Name → St × Res TypeId} (hg : Keeps g)
    (he : ∀ s id, Ext s (g s id).1) (cur : Option TypeId) (as : List Act) (s : St) (t : TypeId)
    (ht : t < s.next) :
    (cur ≠ some t → defsOf (runActs g cur as s).1 t = defsOf s t) ∧
    (cur = some t → (runActs g cur as s).2 = .ok () →
      defsOf (runActs g cur as s).1 t = defsOf s t ++ membersOf as) := by
  induction as generalizing s with
  | nil => exact ⟨fun _ => rfl, fun _ _ => by simp [runActs, membersOf]⟩
  | cons a as ih =>
    have e1 : Ext s (runAct g cur s a).1 :=
      runAct_presOn (ext_stable s) (fun s' id h => h.trans (he s' id)) cur a (allowed_true _) s
        (Ext.refl s)
    have h1 := runAct_defs hg cur a s t ht
    have ih := ih (runAct g cur s a).1 (Nat.lt_of_lt_of_le ht e1.next)
    rw [runActs]
    cases h : (runAct g cur s a).2 with
    | error e =>
      rw [andThen_err h]
      exact ⟨h1.1, fun _ hh => by cases hh⟩
    | ok u =>
      rw [andThen_ok h, membersOf_cons]
      refine ⟨fun hn => (ih.1 hn).trans (h1.1 hn), fun hc hh => ?_⟩
      rw [ih.2 hc hh, h1.2 hc, List.append_assoc]

theorem keeps_get (fuel : Nat) : Keeps (get prog fuel) := by
  induction fuel with
  | zero => intro s id t _; rfl
  | succ fuel ih =>
    intro s id t ht
    rw [get]
    simp only
    split
    · rfl
    · split
      · rfl
      · split
        · rfl
        · rename_i l hl
          exact (runActs_defs ih (fun s id => ext_get prog fuel s id) (some s.next) (prog l)
            (beginLoad s (resolve s id) l) t (by show t < s.next + 1; omega)).1
              (by intro he; simp at he; omega)

/-- no member was defined on a type that does not exist yet -/
def Clean (s : St) : Prop := ∀ p ∈ s.defs, p.1 < s.next

theorem clean_of {s s' : St} (h : Clean s) (hd : s'.defs = s.defs) (hn : s.next ≤ s'.next) :
    Clean s' := by
  intro p hp; rw [hd] at hp; exact Nat.lt_of_lt_of_le (h p hp) hn

theorem runAct_clean {g : St → Name → St × Res TypeId} (hg : ∀ s id, Clean s → Clean (g s id).1)
    (cur : Option TypeId) (a : Act) (s : St) (h : Clean s) (hc : ∀ c, cur = some c → c < s.next) :
    Clean (runAct g cur s a).1 := by
  cases a with
  | get id => exact hg s id h
  | add id l =>
    exact clean_of h (addLoader_fields s id l).2.2.2.2.1 (addLoader_ext s id l).next
  | alias id al =>
    exact clean_of h (addAlias_fields s id al).2.2.2.1 (addAlias_ext s id al).next
  | require id l =>
    refine andThen_pres (P := Clean) ?_ (fun s hs => hg s id hs)
    exact clean_of h (templateLoader_defs s id l)
      (templateLoader_presOn (ext_stable s) s id l trivial (Ext.refl s)).next
  | member m =>
    cases cur with
    | none => exact h
    | some c =>
      intro p hp
      have hp : p ∈ s.defs ++ [(c, m)] := hp
      show p.1 < s.next
      rw [List.mem_append] at hp
      rcases hp with hp | hp
      · exact h p hp
      · simp at hp; subst hp; exact hc c rfl
  | fail => exact h

theorem runActs_clean {g : St → Name → St × Res TypeId} (hg : ∀ s id, Clean s → Clean (g s id).1)
    (he : ∀ s id, Ext s (g s id).1)
    (cur : Option TypeId) (as : List Act) (s : St) (h : Clean s)
    (hc : ∀ c, cur = some c → c < s.next) : Clean (runActs g cur as s).1 := by
  induction as generalizing s with
  | nil => exact h
  | cons a as ih =>
    have h1 := runAct_clean hg cur a s h hc
    have e1 : Ext s (runAct g cur s a).1 :=
      runAct_presOn (ext_stable s) (fun s' id h => h.trans (he s' id)) cur a (allowed_true _) s
        (Ext.refl s)
    rw [runActs]
    cases hr : (runAct g cur s a).2 with
    | error e => rw [andThen_err hr]; exact h1
    | ok u =>
      rw [andThen_ok hr]
      exact ih _ h1 (fun c hcc => Nat.lt_of_lt_of_le (hc c hcc) e1.next)

theorem clean_get (fuel : Nat) : ∀ s id, Clean s → Clean (get prog fuel s id).1 := by
  induction fuel with
  | zero => intro s id h; exact h
  | succ fuel ih =>
    intro s id h
    rw [get]
    simp only
    split
    · exact h
    · split
      · exact h
      · split
        · exact h
        · refine runActs_clean ih (fun s id => ext_get prog fuel s id) _ _ _ ?_ ?_
          · exact clean_of h rfl (Nat.le_succ _)
          · intro c hc; simp at hc; subst hc; exact Nat.lt_succ_self _

/-- types whose loader is done are completely defined; `stack` holds those still loading -/
structure Complete (stack : List TypeId) (s : St) : Prop where
  inv : Inv s
  done : ∀ n l t, (n, l, t) ∈ s.runs → t ∉ stack → defsOf s t = membersOf (prog l)
  clean : Clean s

theorem complete_of_same {stack : List TypeId} {s s' : St} (h : Complete prog stack s)
    (hi : Inv s') (hr : s'.runs = s.runs) (hc : Clean s')
    (hd : ∀ t, t < s.next → t ∉ stack → defsOf s' t = defsOf s t) : Complete prog stack s' := by
  refine ⟨hi, ?_, hc⟩
  intro n l t ht hn
  rw [hr] at ht
  rw [hd t (h.inv.fresh _ _ _ ht) hn]
  exact h.done n l t ht hn

theorem runAct_complete {g : St → Name → St × Res TypeId}
    (hg : ∀ stack s id, Complete prog stack s → (∃ t, (g s id).2 = .ok t) →
      Complete prog stack (g s id).1)
    (stack : List TypeId) (cur : Option TypeId) (a : Act) (s : St) (h : Complete prog stack s)
    (hc : ∀ c, cur = some c → c ∈ stack ∧ c < s.next) (hok : (runAct g cur s a).2 = .ok ()) :
    Complete prog stack (runAct g cur s a).1 := by
  have okmap : ∀ (r : Res TypeId), (r.map fun _ => ()) = .ok () → ∃ t, r = .ok t := by
    intro r hr; cases r with
    | ok t => exact ⟨t, rfl⟩
    | error e => cases hr
  cases a with
  | get id => exact hg stack s id h (okmap _ hok)
  | add id l =>
    obtain ⟨_, _, _, h4, h5, _, _⟩ := addLoader_fields s id l
    exact complete_of_same prog h (inv_stable.add s id l trivial h.inv) h4
      (clean_of h.clean h5 (addLoader_ext s id l).next) (fun t _ _ => defsOf_congr h5 t)
  | alias id al =>
    obtain ⟨_, _, h3, h4, _, _⟩ := addAlias_fields s id al
    exact complete_of_same prog h (inv_stable.alias s id al h.inv) h3
      (clean_of h.clean h4 (addAlias_ext s id al).next) (fun t _ _ => defsOf_congr h4 t)
  | require id l =>
    have hok : (andThen (templateLoader id l s) (lookup g id)).2 = .ok () := hok
    show Complete prog stack (andThen (templateLoader id l s) (lookup g id)).1
    cases ht : (templateLoader id l s).2 with
    | error e => rw [andThen_err ht] at hok; cases hok
    | ok u =>
      rw [andThen_ok ht] at hok ⊢
      refine hg stack _ id ?_ (okmap _ hok)
      have hd := templateLoader_defs s id l
      refine complete_of_same prog h
        (templateLoader_presOn inv_stable s id l trivial h.inv) ?_
        (clean_of h.clean hd
          (templateLoader_presOn (ext_stable s) s id l trivial (Ext.refl s)).next)
        (fun t _ _ => defsOf_congr hd t)
      unfold templateLoader
      split
      · rfl
      · exact (addLoader_fields { s with flags := l :: s.flags } id l).2.2.2.1
  | member m =>
    cases cur with
    | none => exact h
    | some c =>
      have hcl : Clean (runAct g (some c) s (.member m)).1 := by
        refine runAct_clean (g := fun s _ => (s, .error .err)) (fun s id hs => hs) (some c)
          (.member m) s h.clean ?_
        intro c' hc'; simp at hc'; subst hc'; exact (hc c rfl).2
      refine complete_of_same prog h (inv_stable.defs s c m h.inv) rfl hcl ?_
      intro t _ hn
      have := defsOf_append s c t m
      rw [if_neg (by rintro rfl; exact hn (hc c rfl).1), List.append_nil] at this
      exact this
  | fail => cases hok

theorem runActs_complete {g : St → Name → St × Res TypeId}
    (hg : ∀ stack s id, Complete prog stack s → (∃ t, (g s id).2 = .ok t) →
      Complete prog stack (g s id).1)
    (he : ∀ s id, Ext s (g s id).1)
    (stack : List TypeId) (cur : Option TypeId) (as : List Act) (s : St) (h : Complete prog stack s)
    (hc : ∀ c, cur = some c → c ∈ stack ∧ c < s.next) (hok : (runActs g cur as s).2 = .ok ()) :
    Complete prog stack (runActs g cur as s).1 := by
  induction as generalizing s with
  | nil => exact h
  | cons a as ih =>
    have e1 : Ext s (runAct g cur s a).1 :=
      runAct_presOn (ext_stable s) (fun s' id h => h.trans (he s' id)) cur a (allowed_true _) s
        (Ext.refl s)
    rw [runActs] at hok ⊢
    cases hr : (runAct g cur s a).2 with
    | error e => rw [andThen_err hr] at hok; cases hok
    | ok u =>
      rw [andThen_ok hr] at hok ⊢
      exact ih _ (runAct_complete prog hg stack cur a s h hc hr)
        (fun c hcc => ⟨(hc c hcc).1, Nat.lt_of_lt_of_le (hc c hcc).2 e1.next⟩) hok

theorem complete_get (fuel : Nat) : ∀ stack s id, Complete prog stack s →
    (∃ t, (get prog fuel s id).2 = .ok t) → Complete prog stack (get prog fuel s id).1 := by
  induction fuel with
  | zero => intro stack s id h _; exact h
  | succ fuel ih =>
    intro stack s id h hok
    rw [get] at hok ⊢
    simp only at hok ⊢
    split
    · exact h
    · rename_i hn
      split
      · exact h
      · rename_i hne
        split
        · exact h
        · rename_i l hl
          simp only [hn, hne, if_false, hl] at hok
          have hI := inv_begin s (resolve s id) l h.inv hn hl
          have hB : Complete prog (s.next :: stack) (beginLoad s (resolve s id) l) := by
            refine ⟨hI, ?_, clean_of h.clean rfl (Nat.le_succ _)⟩
            intro n l' t ht hnot
            have ht : (n, l', t) ∈ s.runs ++ [(resolve s id, l, s.next)] := ht
            rw [List.mem_append] at ht
            rcases ht with ht | ht
            · exact h.done n l' t ht (fun hm => hnot (List.mem_cons_of_mem _ hm))
            · simp only [List.mem_singleton, Prod.mk.injEq] at ht
              exact absurd (by rw [ht.2.2]; simp) hnot
          have hokR : (runActs (get prog fuel) (some s.next) (prog l)
              (beginLoad s (resolve s id) l)).2 = .ok () := by
            obtain ⟨t, ht⟩ := hok
            cases hr : (runActs (get prog fuel) (some s.next) (prog l)
              (beginLoad s (resolve s id) l)).2 with
            | ok u => rfl
            | error e => rw [hr] at ht; cases ht
          have hC := runActs_complete prog ih (fun s id => ext_get prog fuel s id)
            (s.next :: stack) (some s.next) (prog l) _ hB
            (by intro c hc; simp at hc; subst hc; exact ⟨by simp, Nat.lt_succ_self _⟩) hokR
          refine ⟨hC.inv, ?_, hC.clean⟩
          intro n l' t ht hnot
          by_cases htn : t = s.next
          · subst htn
            have hE := ext_runActs prog fuel (some s.next) (prog l) (beginLoad s (resolve s id) l)
            have hmem : (resolve s id, l, s.next) ∈ (runActs (get prog fuel) (some s.next) (prog l)
                (beginLoad s (resolve s id) l)).1.runs :=
              hE.runs.subset (by simp [beginLoad])
            have hn' := hC.inv.inj _ _ _ _ _ ht hmem
            subst hn'
            have hl' : l' = l := by
              have a := hC.inv.first _ _ _ ht
              rw [hC.inv.first _ _ _ hmem] at a
              exact (Option.some.inj a).symm
            subst hl'
            have := (runActs_defs (keeps_get prog fuel) (fun s id => ext_get prog fuel s id)
              (some s.next) (prog l') (beginLoad s (resolve s id) l') s.next
              (Nat.lt_succ_self _)).2 rfl hokR
            rw [this]
            have : defsOf (beginLoad s (resolve s id) l') s.next = [] := by
              unfold defsOf
              rw [List.map_eq_nil_iff, List.filter_eq_nil_iff]
              intro p hp
              have := h.clean p hp
              simp; omega
            rw [this, List.nil_append]
          · exact hC.done n l' t ht (by simp [htn, hnot])

end Reflect.Registry

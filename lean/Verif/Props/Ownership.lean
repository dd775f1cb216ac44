import Verif.Model.Ownership
/-
  C36, C37: lifetimes of stored objects. C38: lifetimes of wrapped functions.
-/
namespace Reflect.Own

/-- the variables in scope whose storage is object `o` -/
def owners (s : State) (o : Nat) : Nat :=
  s.vars.countP fun v => match v with
    | some u => u.storage == some o
    | none => false

/-- whether a variable (or its absence) owns `o` -/
def ownsB (o : Nat) : Option Var → Bool
  | some u => u.storage == some o
  | none => false

theorem owners_eq (s : State) (o : Nat) : owners s o = s.vars.countP (ownsB o) := by
  unfold owners
  congr 1

theorem countP_set' {α : Type} (p : α → Bool) (l : List α) (i : Nat) (x y : α) (h : l[i]? = some y) :
    (l.set i x).countP p + (if p y then 1 else 0) = l.countP p + (if p x then 1 else 0) := by
  induction l generalizing i with
  | nil => simp at h
  | cons a l ih =>
    cases i with
    | zero =>
      simp at h; subst h
      simp only [List.set_cons_zero, List.countP_cons]
      omega
    | succ i =>
      simp only [List.getElem?_cons_succ] at h
      simp only [List.set_cons_succ, List.countP_cons]
      have := ih i h
      omega

theorem var_getElem {s : State} {x : Nat} {v : Var} (h : s.var x = some v) :
    s.vars[x]? = some (some v) := by
  unfold State.var at h
  cases hx : s.vars[x]? with
  | none => rw [hx] at h; simp at h
  | some w => rw [hx] at h; simp at h; rw [h]

/-- the use counts are right and the deleter ran exactly for the objects without owner -/
structure Inv (s : State) : Prop where
  count : ∀ o, s.count o = owners s o
  deleted : ∀ o, s.deleted o = if o < s.objs ∧ owners s o = 0 then 1 else 0
  future : ∀ o, s.objs ≤ o → owners s o = 0

/-- letting go of a storage that is counted one more than it is owned -/
theorem inv_release (s : State) (st : Option Nat)
    (hcount : ∀ o, s.count o = owners s o + (if st = some o then 1 else 0))
    (hdel : ∀ o, s.deleted o = if o < s.objs ∧ s.count o = 0 then 1 else 0)
    (hfut : ∀ o, s.objs ≤ o → s.count o = 0) : Inv (release s st) := by
  cases st with
  | none =>
    refine ⟨fun o => ?_, fun o => ?_, fun o ho => ?_⟩
    · show s.count o = owners s o
      have := hcount o; simp at this; exact this
    · show s.deleted o = if o < s.objs ∧ owners s o = 0 then 1 else 0
      rw [hdel o]; simp [hcount o]
    · have := hfut o ho; have := hcount o; simp at this
      show owners s o = 0
      omega
  | some q =>
    have hown : ∀ o, owners (release s (some q)) o = owners s o := fun o => rfl
    refine ⟨fun o => ?_, fun o => ?_, fun o ho => ?_⟩
    · rw [hown]
      show (if o = q then s.count o - 1 else s.count o) = _
      have := hcount o
      by_cases h : o = q
      · subst h; simp at this; rw [if_pos rfl]; omega
      · rw [if_neg h]
        rw [if_neg (by simpa using fun hh => h hh.symm)] at this
        omega
    · rw [hown]
      show (if o = q ∧ s.count q = 1 then s.deleted o + 1 else s.deleted o) =
        if o < s.objs ∧ owners s o = 0 then 1 else 0
      have hc := hcount o
      have hd := hdel o
      have hf := hfut o
      by_cases h : o = q
      · subst h
        simp only [if_true] at hc
        by_cases h1 : s.count o = 1
        · have h2 : owners s o = 0 := by omega
          have h3 : o < s.objs := by
            apply Classical.byContradiction
            intro h4; have := hf (by omega); omega
          simp [h1, h2, h3, hd]
        · have h2 : owners s o ≠ 0 := by omega
          have h3 : s.count o ≠ 0 := by omega
          simp [h1, h2, h3, hd]
      · rw [if_neg (by simpa using fun hh => h hh.symm)] at hc
        rw [if_neg (fun hh => h hh.1), hd]
        simp [hc]
    · rw [hown]
      have := hfut o ho; have := hcount o
      omega

/-- replacing variable `x` changes the number of owners by the difference of the two -/
theorem owners_set (s : State) (x : Nat) (u : Var) (w : Option Var) (h : s.var x = some u) (o : Nat) :
    (s.vars.set x w).countP (ownsB o) + (if u.storage = some o then 1 else 0) =
      owners s o + (if ownsB o w then 1 else 0) := by
  have := countP_set' (ownsB o) s.vars x w (some u) (var_getElem h)
  rw [owners_eq]
  simp only [ownsB, beq_iff_eq] at this ⊢
  exact this

theorem inv_step (s : State) (op : Op) (h : Inv s) : Inv (step s op) := by
  have app : ∀ (s' : State) (v : Var) (o : Nat), s'.vars = s.vars ++ [some v] →
      owners s' o = owners s o + (if v.storage = some o then 1 else 0) := by
    intro s' v o e
    rw [owners_eq, owners_eq, e, List.countP_append]
    simp [ownsB, List.countP_cons]
  cases op with
  | empty =>
    have ho : ∀ o, owners (step s .empty) o = owners s o := fun o => by
      rw [app (step s .empty) _ o rfl]; simp
    exact ⟨fun o => by rw [ho]; exact h.count o, fun o => by rw [ho]; exact h.deleted o,
      fun o hl => by rw [ho]; exact h.future o hl⟩
  | refer =>
    have ho : ∀ o, owners (step s .refer) o = owners s o := fun o => by
      rw [app (step s .refer) _ o rfl]; simp
    exact ⟨fun o => by rw [ho]; exact h.count o, fun o => by rw [ho]; exact h.deleted o,
      fun o hl => by rw [ho]; exact h.future o hl⟩
  | store =>
    have ho : ∀ o, owners (step s .store) o = owners s o + (if s.objs = o then 1 else 0) := fun o => by
      rw [app (step s .store) _ o rfl]; simp
    refine ⟨fun o => ?_, fun o => ?_, fun o hl => ?_⟩
    · rw [ho]
      show (if o = s.objs then 1 else s.count o) = _
      by_cases hh : o = s.objs
      · have := h.future o (by omega)
        rw [if_pos hh, if_pos hh.symm]; omega
      · rw [if_neg hh, if_neg (fun e => hh e.symm), h.count]; simp
    · rw [ho]
      show s.deleted o = if o < s.objs + 1 ∧ _ then 1 else 0
      rw [h.deleted]
      by_cases hh : o = s.objs
      · subst hh; simp
      · have : o < s.objs + 1 ↔ o < s.objs := by omega
        have h2 : ¬ s.objs = o := fun e => hh e.symm
        simp [this, h2]
    · rw [ho]
      have hl : s.objs + 1 ≤ o := hl
      rw [h.future o (by omega), if_neg (by omega)]
  | copyCons y =>
    simp only [step]
    split
    · exact h
    · rename_i v hv
      -- one more owner of v's storage, counted once more
      have hown : ∀ o, owners { s with vars := s.vars ++ [some v], count := acquire s.count v.storage } o =
          owners s o + (if v.storage = some o then 1 else 0) := fun o => app _ v o rfl
      have hlive : ∀ o, v.storage = some o → 0 < owners s o := by
        intro o e
        rw [owners_eq, List.countP_pos_iff]
        exact ⟨some v, List.mem_of_getElem? (var_getElem hv), by simp [ownsB, e]⟩
      refine ⟨fun o => ?_, fun o => ?_, fun o hl => ?_⟩
      · rw [hown]
        show acquire s.count v.storage o = _
        cases hst : v.storage with
        | none => simp [acquire, h.count]
        | some q =>
          simp only [acquire, h.count, Option.some.injEq]
          by_cases hq : o = q
          · subst hq; simp
          · rw [if_neg hq, if_neg (fun e => hq e.symm)]; omega
      · rw [hown]
        show s.deleted o = if o < s.objs ∧ _ then 1 else 0
        rw [h.deleted]
        by_cases e : v.storage = some o
        · have := hlive o e
          rw [if_pos e]
          simp; omega
        · rw [if_neg e]; simp
      · rw [hown]
        have hl : s.objs ≤ o := hl
        by_cases e : v.storage = some o
        · have := hlive o e
          have := h.future o hl
          omega
        · rw [if_neg e, h.future o hl]
  | moveCons y =>
    simp only [step]
    split
    · exact h
    · rename_i v hv
      have ho : ∀ o, owners { s with vars := s.vars.set y (some v.movedFrom) ++ [some v] } o =
          owners s o := by
        intro o
        have := owners_set s y v (some v.movedFrom) hv o
        rw [owners_eq, List.countP_append]
        simp [ownsB, Var.movedFrom, List.countP_cons] at this ⊢
        exact this
      exact ⟨fun o => by rw [ho]; exact h.count o, fun o => by rw [ho]; exact h.deleted o,
        fun o hl => by rw [ho]; exact h.future o hl⟩
  | copyAssign x y =>
    simp only [step]
    split
    · rename_i u v hu hv
      split
      · exact h
      · rename_i hxy
        have hset : ∀ o, (s.vars.set x (some v)).countP (ownsB o) +
            (if u.storage = some o then 1 else 0) =
            owners s o + (if v.storage = some o then 1 else 0) := by
          intro o
          have := owners_set s x u (some v) hu o
          simpa [ownsB] using this
        have hlive : ∀ o, v.storage = some o → 0 < owners s o := by
          intro o e
          rw [owners_eq, List.countP_pos_iff]
          exact ⟨some v, List.mem_of_getElem? (var_getElem hv), by simp [ownsB, e]⟩
        have hacq : ∀ o, acquire s.count v.storage o =
            owners s o + (if v.storage = some o then 1 else 0) := by
          intro o
          cases hst : v.storage with
          | none => simp [acquire, h.count]
          | some q =>
            simp only [acquire, h.count, Option.some.injEq]
            by_cases hq : o = q
            · subst hq; simp
            · rw [if_neg hq, if_neg (fun e => hq e.symm)]; omega
        apply inv_release
        · intro o
          rw [owners_eq]
          show acquire s.count v.storage o = (s.vars.set x (some v)).countP (ownsB o) + _
          rw [hset, hacq]
        · intro o
          show s.deleted o = if o < s.objs ∧ acquire s.count v.storage o = 0 then 1 else 0
          rw [h.deleted, hacq]
          by_cases e : v.storage = some o
          · have := hlive o e
            rw [if_pos e]
            simp; omega
          · rw [if_neg e]; simp
        · intro o hl
          show acquire s.count v.storage o = 0
          have hl : s.objs ≤ o := hl
          rw [hacq]
          by_cases e : v.storage = some o
          · have := hlive o e
            have := h.future o hl
            omega
          · rw [if_neg e, h.future o hl]
    · exact h
  | moveAssign x y =>
    simp only [step]
    split
    · rename_i u v hu hv
      split
      · exact h
      · rename_i hxy
        have hset : ∀ o, ((s.vars.set x (some v)).set y (some v.movedFrom)).countP (ownsB o) +
            (if u.storage = some o then 1 else 0) = owners s o := by
          intro o
          have h1 := owners_set s x u (some v) hu o
          have h2 := countP_set' (ownsB o) (s.vars.set x (some v)) y (some v.movedFrom) (some v)
            (by rw [List.getElem?_set_ne hxy]; exact var_getElem hv)
          simp only [ownsB, Var.movedFrom, beq_iff_eq, reduceCtorEq, if_false] at h1 h2
          simp only [Var.movedFrom]
          omega
        apply inv_release
        · intro o
          rw [owners_eq]
          show s.count o = ((s.vars.set x (some v)).set y (some v.movedFrom)).countP (ownsB o) + _
          rw [hset, h.count]
        · intro o
          show s.deleted o = if o < s.objs ∧ s.count o = 0 then 1 else 0
          rw [h.deleted, h.count]
        · intro o hl
          show s.count o = 0
          rw [h.count]; exact h.future o hl
    · exact h
  | field y =>
    simp only [step]
    split
    · exact h
    · rename_i v hv
      split
      · have ho : ∀ o, owners { s with vars := s.vars ++ [some ⟨true, v.target, none⟩] } o =
            owners s o := fun o => by rw [app _ ⟨true, v.target, none⟩ o rfl]; simp
        exact ⟨fun o => by rw [ho]; exact h.count o, fun o => by rw [ho]; exact h.deleted o,
          fun o hl => by rw [ho]; exact h.future o hl⟩
      · exact h
  | destroy x =>
    simp only [step]
    split
    · exact h
    · rename_i v hv
      have hset : ∀ o, (s.vars.set x none).countP (ownsB o) + (if v.storage = some o then 1 else 0) =
          owners s o := by
        intro o
        have := owners_set s x v none hv o
        simpa [ownsB] using this
      apply inv_release
      · intro o
        rw [owners_eq]
        show s.count o = (s.vars.set x none).countP (ownsB o) + _
        rw [hset, h.count]
      · intro o
        show s.deleted o = if o < s.objs ∧ s.count o = 0 then 1 else 0
        rw [h.deleted, h.count]
      · intro o hl
        show s.count o = 0
        rw [h.count]; exact h.future o hl

theorem inv_foldl (ops : List Op) (s : State) (h : Inv s) : Inv (ops.foldl step s) := by
  induction ops generalizing s with
  | nil => exact h
  | cons op ops ih => exact ih _ (inv_step s op h)

theorem inv_run (ops : List Op) : Inv (run ops) :=
  inv_foldl ops init ⟨fun _ => rfl, fun o => by simp [init, owners], fun _ _ => rfl⟩

/-- C36. After every history, an object that was stored has been destroyed exactly once if no value
    in scope shares it any more, and not at all while one does. -/
theorem C36_destroyed_exactly_when_unowned (ops : List Op) (o : Nat) (ho : o < (run ops).objs) :
    ((∃ x v, (run ops).var x = some v ∧ v.storage = some o) → (run ops).deleted o = 0) ∧
    ((∀ x v, (run ops).var x = some v → v.storage ≠ some o) → (run ops).deleted o = 1) := by
  have h := inv_run ops
  constructor
  · rintro ⟨x, v, hx, hs⟩
    have : 0 < owners (run ops) o := by
      rw [owners_eq, List.countP_pos_iff]
      exact ⟨some v, List.mem_of_getElem? (var_getElem hx), by simp [ownsB, hs]⟩
    rw [h.deleted, if_neg (by omega)]
  · intro hno
    have : owners (run ops) o = 0 := by
      rw [owners_eq, List.countP_eq_zero]
      intro w hw
      cases w with
      | none => simp [ownsB]
      | some v =>
        obtain ⟨x, hx⟩ := List.getElem?_of_mem hw
        have := hno x v (by unfold State.var; rw [hx]; rfl)
        simpa [ownsB] using this
    rw [h.deleted, if_pos ⟨ho, this⟩]

/-- C36. No object is ever destroyed twice, and none before it exists. -/
theorem C36_never_twice (ops : List Op) (o : Nat) :
    (run ops).deleted o ≤ 1 ∧ ((run ops).objs ≤ o → (run ops).deleted o = 0) := by
  have h := inv_run ops
  rw [h.deleted]
  constructor
  · split <;> omega
  · intro hl; rw [if_neg (by omega)]

/-- C36. When every value has gone out of scope every stored object has been destroyed. -/
theorem C36_no_leak (ops : List Op) (hend : ∀ x, (run ops).var x = none) (o : Nat)
    (ho : o < (run ops).objs) : (run ops).deleted o = 1 :=
  (C36_destroyed_exactly_when_unowned ops o ho).2 fun x v hx => by rw [hend x] at hx; cases hx

/-! ### C37 -/

/-- the object a value refers to is alive -/
def Alive (s : State) : Target → Prop
  | .null => False
  | .native => True
  | .stored o => s.deleted o = 0

/-- C37 is false of the code: after `Value a(rvalue); { Value b(std::move(a)); }` the value `a` still
    reports a type but its object is destroyed. -/
theorem C37_moved_from_dangles : ∃ v, (run [.store, .moveCons 0, .destroy 1]).var 0 = some v ∧
    v.typed = true ∧ v.target = .stored 0 ∧ (run [.store, .moveCons 0, .destroy 1]).deleted 0 = 1 :=
  ⟨⟨true, .stored 0, none⟩, by decide, rfl, rfl, by decide⟩

/-- C37 is false of the code: a field outlives the value it came from. -/
theorem C37_field_dangles : ∃ v, (run [.store, .field 0, .destroy 0]).var 1 = some v ∧
    v.typed = true ∧ v.target = .stored 0 ∧ (run [.store, .field 0, .destroy 0]).deleted 0 = 1 :=
  ⟨⟨true, .stored 0, none⟩, by decide, rfl, rfl, by decide⟩

/-- a value with storage refers to the stored object -/
def Owns (v : Var) : Prop := ∀ o, v.storage = some o → v.target = .stored o ∧ v.typed = true

theorem var_app (l : List (Option Var)) (w : Option Var) (x : Nat) (v : Var)
    (hx : ((l ++ [w])[x]?).join = some v) : (l[x]?).join = some v ∨ w = some v := by
  rw [List.getElem?_append] at hx
  split at hx
  · exact .inl hx
  · right
    cases hw : x - l.length with
    | zero => rw [hw] at hx; simpa using hx
    | succ n => rw [hw] at hx; simp at hx

theorem var_set (l : List (Option Var)) (y : Nat) (w : Option Var) (x : Nat) (v : Var)
    (hx : ((l.set y w)[x]?).join = some v) : (l[x]?).join = some v ∨ w = some v := by
  rw [List.getElem?_set] at hx
  split at hx
  · split at hx
    · right; simpa using hx
    · simp at hx
  · exact .inl hx

theorem var_release (s : State) (st : Option Nat) (x : Nat) : (release s st).var x = s.var x := by
  cases st <;> rfl

/-- where the variables of the next state come from -/
inductive Origin (s : State) (op : Op) (v : Var) : Prop
  | old (y : Nat) : s.var y = some v → Origin s op v
  | void : v = ⟨false, .null, none⟩ → Origin s op v
  | refer : v = ⟨true, .native, none⟩ → Origin s op v
  | store : op = .store → v = ⟨true, .stored s.objs, some s.objs⟩ → Origin s op v
  | moved (y : Nat) (u : Var) : s.var y = some u → v = u.movedFrom →
      (op = .moveCons y ∨ ∃ x, op = .moveAssign x y) → Origin s op v
  | field (y : Nat) (u : Var) : s.var y = some u → op = .field y → u.typed = true →
      v = ⟨true, u.target, none⟩ → Origin s op v

theorem var_step (s : State) (op : Op) (x : Nat) (v : Var) (hx : (step s op).var x = some v) :
    Origin s op v := by
  have old : ∀ x, s.var x = some v → Origin s op v := fun x h => .old x h
  cases op with
  | empty =>
    rcases var_app _ _ x v hx with hx | hx
    · exact old x hx
    · cases hx; exact .void rfl
  | refer =>
    rcases var_app _ _ x v hx with hx | hx
    · exact old x hx
    · cases hx; exact .refer rfl
  | store =>
    rcases var_app _ _ x v hx with hx | hx
    · exact old x hx
    · cases hx; exact .store rfl rfl
  | copyCons y =>
    simp only [step] at hx
    split at hx
    · exact old x hx
    · rename_i w hw
      rcases var_app _ _ x v hx with hx | hx
      · exact old x hx
      · cases hx; exact old y hw
  | moveCons y =>
    simp only [step] at hx
    split at hx
    · exact old x hx
    · rename_i w hw
      rcases var_app _ _ x v hx with hx | hx
      · rcases var_set _ _ _ x v hx with hx | hx
        · exact old x hx
        · cases hx; exact .moved y w hw rfl (.inl rfl)
      · cases hx; exact old y hw
  | copyAssign z y =>
    simp only [step] at hx
    split at hx
    · rename_i u w hu hw
      split at hx
      · exact old x hx
      · rw [var_release] at hx
        rcases var_set _ _ _ x v hx with hx | hx
        · exact old x hx
        · cases hx; exact old y hw
    · exact old x hx
  | moveAssign z y =>
    simp only [step] at hx
    split at hx
    · rename_i u w hu hw
      split at hx
      · exact old x hx
      · rw [var_release] at hx
        rcases var_set _ _ _ x v hx with hx | hx
        · rcases var_set _ _ _ x v hx with hx | hx
          · exact old x hx
          · cases hx; exact old y hw
        · cases hx; exact .moved y w hw rfl (.inr ⟨z, rfl⟩)
    · exact old x hx
  | field y =>
    simp only [step] at hx
    split at hx
    · exact old x hx
    · rename_i w hw
      split at hx
      · rename_i ht
        rcases var_app _ _ x v hx with hx | hx
        · exact old x hx
        · cases hx; exact .field y w hw rfl ht rfl
      · exact old x hx
  | destroy y =>
    simp only [step] at hx
    split at hx
    · exact old x hx
    · rw [var_release] at hx
      rcases var_set _ _ _ x v hx with hx | hx
      · exact old x hx
      · cases hx

theorem owns_step (s : State) (op : Op) (h : ∀ x v, s.var x = some v → Owns v) :
    ∀ x v, (step s op).var x = some v → Owns v := by
  intro x v hx
  cases var_step s op x v hx with
  | old y hy => exact h y v hy
  | void hv => subst hv; intro o ho; cases ho
  | refer hv => subst hv; intro o ho; cases ho
  | store _ hv => subst hv; intro o ho; cases ho; exact ⟨rfl, rfl⟩
  | moved y u _ hv _ => subst hv; intro o ho; simp [Var.movedFrom] at ho
  | field y u _ _ _ hv => subst hv; intro o ho; cases ho

theorem step_objs (s : State) (op : Op) : s.objs ≤ (step s op).objs := by
  have hrel : ∀ (s : State) (st : Option Nat), (release s st).objs = s.objs := by
    intro s st; cases st <;> rfl
  cases op <;> simp only [step] <;> repeat' split
  all_goals first
    | exact Nat.le_refl _
    | exact Nat.le_succ _
    | (rw [hrel]; exact Nat.le_refl _)

/-- a typed value refers to something, and to an object that was stored at some time -/
def Refers (s : State) (v : Var) : Prop :=
  (v.typed = true → v.target ≠ .null) ∧ ∀ o, v.target = .stored o → o < s.objs

theorem refers_step (s : State) (op : Op) (h : ∀ x v, s.var x = some v → Refers s v) :
    ∀ x v, (step s op).var x = some v → Refers (step s op) v := by
  have up : ∀ v, Refers s v → Refers (step s op) v := fun v hv =>
    ⟨hv.1, fun o ho => Nat.lt_of_lt_of_le (hv.2 o ho) (step_objs s op)⟩
  intro x v hx
  cases var_step s op x v hx with
  | old y hy => exact up v (h y v hy)
  | void hv => subst hv; exact ⟨by simp, fun o ho => by cases ho⟩
  | refer hv => subst hv; exact ⟨by simp, fun o ho => by cases ho⟩
  | store hop hv =>
    subst hv; subst hop
    refine ⟨by simp, fun o ho => ?_⟩
    cases ho; exact Nat.lt_succ_self _
  | moved y u hu hv _ => subst hv; exact up _ (h y u hu)
  | field y u hu _ ht hv =>
    subst hv
    exact up _ ⟨fun _ => (h y u hu).1 ht, (h y u hu).2⟩

/-- C37, exactly: after every history, a value that reports a type refers to a live object if and only
    if it refers to an object of the caller or some value in scope still shares the object. -/
theorem C37_live_iff (ops : List Op) (x : Nat) (v : Var) (hx : (run ops).var x = some v)
    (ht : v.typed = true) :
    Alive (run ops) v.target ↔ v.target = .native ∨
      ∃ o y w, v.target = .stored o ∧ (run ops).var y = some w ∧ w.storage = some o := by
  have key : ∀ (ops : List Op) (s : State), (∀ x v, s.var x = some v → Refers s v) →
      ∀ x v, (ops.foldl step s).var x = some v → Refers (ops.foldl step s) v := by
    intro ops
    induction ops with
    | nil => intro s h; exact h
    | cons op ops ih => intro s h; exact ih _ (refers_step s op h)
  obtain ⟨h1, h2⟩ := key ops init (by intro x v h; simp [init, State.var] at h) x v hx
  cases hv : v.target with
  | null => exact absurd hv (h1 ht)
  | native => simp [Alive]
  | stored o =>
    have hc := C36_destroyed_exactly_when_unowned ops o (h2 o hv)
    simp only [Alive, reduceCtorEq, false_or, Target.stored.injEq]
    constructor
    · intro h
      refine Classical.byContradiction fun hno => ?_
      have := hc.2 fun y w hy hw => hno ⟨o, y, w, rfl, hy, hw⟩
      omega
    · rintro ⟨_, y, w, rfl, hy, hw⟩
      exact hc.1 ⟨y, w, hy, hw⟩

/-- C37. In a history without moves out of values and without field accesses, every value that
    reports a type refers to a live object. -/
theorem C37_live_without_moves_and_fields (ops : List Op)
    (hno : ∀ op ∈ ops, (∀ y, op ≠ .moveCons y) ∧ (∀ x y, op ≠ .moveAssign x y) ∧ ∀ y, op ≠ .field y)
    (x : Nat) (v : Var) (hx : (run ops).var x = some v) (ht : v.typed = true) :
    Alive (run ops) v.target := by
  have key : ∀ (ops : List Op) (s : State),
      (∀ op ∈ ops, (∀ y, op ≠ .moveCons y) ∧ (∀ x y, op ≠ .moveAssign x y) ∧ ∀ y, op ≠ .field y) →
      (∀ x v, s.var x = some v → v.typed = true →
        v.target = .native ∨ ∃ o, v.target = .stored o ∧ v.storage = some o) →
      ∀ x v, (ops.foldl step s).var x = some v → v.typed = true →
        v.target = .native ∨ ∃ o, v.target = .stored o ∧ v.storage = some o := by
    intro ops
    induction ops with
    | nil => intro s _ h; exact h
    | cons op ops ih =>
      intro s hno h
      refine ih _ (fun o ho => hno o (List.mem_cons_of_mem _ ho)) ?_
      intro x v hx ht
      obtain ⟨n1, n2, n3⟩ := hno op List.mem_cons_self
      cases var_step s op x v hx with
      | old y hy => exact h y v hy ht
      | void hv => subst hv; cases ht
      | refer hv => subst hv; exact .inl rfl
      | store _ hv => subst hv; exact .inr ⟨_, rfl, rfl⟩
      | moved y u _ _ hop =>
        rcases hop with hop | ⟨z, hop⟩
        · exact absurd hop (n1 y)
        · exact absurd hop (n2 z y)
      | field y u _ hop _ _ => exact absurd hop (n3 y)
  rw [C37_live_iff ops x v hx ht]
  rcases key ops init hno (by intro x v h; simp [init, State.var] at h) x v hx ht with h | ⟨o, h1, h2⟩
  · exact .inl h
  · exact .inr ⟨o, x, v, h1, hx, h2⟩

/-- C37. After every history, a value that reports itself stored refers to a
    live object. -/
theorem C37_stored_is_live (ops : List Op) (x : Nat) (v : Var)
    (hx : (run ops).var x = some v) (hst : v.storage ≠ none) :
    v.typed = true ∧ Alive (run ops) v.target := by
  obtain ⟨o, ho⟩ : ∃ o, v.storage = some o := by
    cases h : v.storage with
    | none => exact absurd h hst
    | some o => exact ⟨o, rfl⟩
  have howns : ∀ (ops : List Op) (s : State), (∀ x v, s.var x = some v → Owns v) →
      ∀ x v, (ops.foldl step s).var x = some v → Owns v := by
    intro ops
    induction ops with
    | nil => intro s h; exact h
    | cons op ops ih => intro s h; exact ih _ (owns_step s op h)
  have hv := howns ops init (by intro x v h; simp [init, State.var] at h) x v hx
  obtain ⟨h1, h2⟩ := hv o ho
  refine ⟨h2, ?_⟩
  rw [h1]
  show (run ops).deleted o = 0
  have h := inv_run ops
  have : 0 < owners (run ops) o := by
    rw [owners_eq, List.countP_pos_iff]
    exact ⟨some v, List.mem_of_getElem? (var_getElem hx), by simp [ownsB, ho]⟩
  rw [h.deleted, if_neg (by omega)]

/-! ### C38 -/

/-- the variables in scope that hold function `i` -/
def holders (s : FState) (i : Nat) : Nat := s.vars.countP fun v => v == some (some i)

theorem fvar_getElem {s : FState} {x : Nat} {v : Option Nat} (h : s.var x = some v) :
    s.vars[x]? = some (some v) := by
  unfold FState.var at h
  cases hx : s.vars[x]? with
  | none => rw [hx] at h; simp at h
  | some w => rw [hx] at h; simp at h; rw [h]

/-- every function is held at most once, and not held once freed -/
structure FInv (s : FState) : Prop where
  once : ∀ i, holders s i + s.freed i ≤ 1
  future : ∀ i, s.fns ≤ i → holders s i + s.freed i = 0
  good : s.freedCall = false

theorem holders_app (l : List (Option (Option Nat))) (w : Option (Option Nat)) (i : Nat) :
    (l ++ [w]).countP (fun v => v == some (some i)) =
      l.countP (fun v => v == some (some i)) + (if w = some (some i) then 1 else 0) := by
  rw [List.countP_append]
  simp [List.countP_cons]

theorem holders_set (l : List (Option (Option Nat))) (x : Nat) (u w : Option (Option Nat))
    (h : l[x]? = some u) (i : Nat) :
    (l.set x w).countP (fun v => v == some (some i)) + (if u = some (some i) then 1 else 0) =
      l.countP (fun v => v == some (some i)) + (if w = some (some i) then 1 else 0) := by
  have := countP_set' (fun v => v == some (some i)) l x w u h
  simpa using this

/-- what a step does to the holders and frees of each function; `lost` is the function overwritten by
    a move assignment -/
def lost (s : FState) : FOp → Option Nat
  | .moveAssign f g => match s.var f, s.var g with
    | some (some i), some _ => if f = g then none else some i
    | _, _ => none
  | _ => none

theorem fstep_balance (s : FState) (op : FOp) (i : Nat) :
    holders (fstep s op) i + (fstep s op).freed i + (if lost s op = some i then 1 else 0) =
      holders s i + s.freed i + (if op = .make ∧ i = s.fns then 1 else 0) := by
  cases op with
  | make =>
    have := holders_app s.vars (some (some s.fns)) i
    simp only [holders, fstep, lost, reduceCtorEq, if_false, true_and] at this ⊢
    rw [this]
    by_cases h : i = s.fns
    · subst h; simp; omega
    · have h2 : ¬ s.fns = i := fun e => h e.symm
      simp [h, h2]
  | moveCons g =>
    simp only [fstep, lost, reduceCtorEq, if_false, false_and]
    cases hg : s.var g with
    | none => simp
    | some p =>
      have h1 := holders_app (s.vars.set g (some none)) (some p) i
      have h2 := holders_set s.vars g (some p) (some none) (fvar_getElem hg) i
      simp only [holders, Option.some.injEq, reduceCtorEq, if_false] at h1 h2 ⊢
      omega
  | moveAssign f g =>
    have hm : ¬ (FOp.moveAssign f g = .make ∧ i = s.fns) := by simp
    rw [if_neg hm]
    obtain ⟨u, hf⟩ : ∃ u, s.var f = u := ⟨_, rfl⟩
    obtain ⟨p, hg⟩ : ∃ p, s.var g = p := ⟨_, rfl⟩
    match u, p, hf, hg with
    | none, _, hf, _ => simp [fstep, lost, hf]
    | some none, none, hf, hg => simp [fstep, lost, hf, hg]
    | some (some _), none, hf, hg => simp [fstep, lost, hf, hg]
    | some u, some p, hf, hg =>
      by_cases hfg : f = g
      · subst hfg; cases u <;> simp [fstep, lost, hf]
      · have h1 := holders_set s.vars f (some u) (some p) (fvar_getElem hf) i
        have h2 := holders_set (s.vars.set f (some p)) g (some p) (some none)
          (by rw [List.getElem?_set_ne hfg]; exact fvar_getElem hg) i
        cases u with
        | none =>
          simp only [fstep, lost, hf, hg, holders, hfg, if_false, Option.some.injEq, reduceCtorEq] at h1 h2 ⊢
          omega
        | some j =>
          simp only [fstep, lost, hf, hg, holders, hfg, if_false, Option.some.injEq, reduceCtorEq] at h1 h2 ⊢
          omega
  | destroy f =>
    simp only [fstep, lost, reduceCtorEq, if_false, false_and]
    cases hf : s.var f with
    | none => simp
    | some u =>
      have h1 := holders_set s.vars f (some u) none (fvar_getElem hf) i
      cases u with
      | none => simp only [holders, Option.some.injEq, reduceCtorEq, if_false] at h1 ⊢; omega
      | some j =>
        simp only [holders, Option.some.injEq, reduceCtorEq, if_false] at h1 ⊢
        by_cases hij : i = j
        · subst hij; simp at h1 ⊢; omega
        · have h2 : ¬ j = i := fun e => hij e.symm
          simp only [hij, h2, if_false] at h1 ⊢; omega
  | call f =>
    simp only [fstep, lost, reduceCtorEq, if_false, false_and]
    cases hf : s.var f with
    | none => simp
    | some u => cases u <;> simp [holders]

theorem fstep_fns (s : FState) (op : FOp) :
    (fstep s op).fns = s.fns + (if op = .make then 1 else 0) := by
  cases op with
  | make => rfl
  | moveCons g => simp only [fstep]; split <;> simp
  | moveAssign f g =>
    simp only [fstep]; split
    · split <;> simp
    · simp
  | destroy f => simp only [fstep]; split <;> simp
  | call f => simp only [fstep]; split <;> simp

theorem finv_step (s : FState) (op : FOp) (h : FInv s) : FInv (fstep s op) := by
  refine ⟨fun i => ?_, fun i hi => ?_, ?_⟩
  · have hb := fstep_balance s op i
    have h1 := h.once i
    by_cases hm : op = .make ∧ i = s.fns
    · have := h.future i (by omega)
      rw [if_pos hm] at hb; omega
    · rw [if_neg hm] at hb; omega
  · have hb := fstep_balance s op i
    rw [fstep_fns] at hi
    have h1 := h.future i (by omega)
    have : ¬ (op = .make ∧ i = s.fns) := by
      rintro ⟨rfl, rfl⟩; simp at hi; omega
    rw [if_neg this] at hb; omega
  · cases op with
    | make => exact h.good
    | moveCons g => simp only [fstep]; split <;> exact h.good
    | moveAssign f g =>
      simp only [fstep]; split
      · split <;> exact h.good
      · exact h.good
    | destroy f => simp only [fstep]; split <;> exact h.good
    | call f =>
      simp only [fstep]
      cases hf : s.var f with
      | none => exact h.good
      | some u =>
        cases u with
        | none => exact h.good
        | some j =>
          have : 0 < holders s j := by
            unfold holders
            rw [List.countP_pos_iff]
            exact ⟨_, List.mem_of_getElem? (fvar_getElem hf), by simp⟩
          have := h.once j
          have hz : s.freed j = 0 := by omega
          simp [h.good, hz]

theorem finv_run (ops : List FOp) : FInv (frun ops) := by
  suffices ∀ (ops : List FOp) (s : FState), FInv s → FInv (ops.foldl fstep s) from
    this ops finit ⟨fun _ => by simp [finit, holders], fun _ _ => by simp [finit, holders], rfl⟩
  intro ops
  induction ops with
  | nil => intro s h; exact h
  | cons op ops ih => intro s h; exact ih _ (finv_step s op h)

/-! ### what each operation does to the variables -/

theorem var_append_old (l : List (Option Var)) (w : Option Var) (z : Nat) (v : Var)
    (h : (l[z]?).join = some v) : ((l ++ [w])[z]?).join = some v := by
  have hz : z < l.length := by
    cases hh : l[z]? with
    | none => rw [hh] at h; cases h
    | some _ => exact (List.getElem?_eq_some_iff.1 hh).1
  rw [List.getElem?_append_left hz]; exact h

theorem var_set_other (l : List (Option Var)) (x z : Nat) (w : Option Var) (h : z ≠ x) :
    ((l.set x w)[z]?).join = (l[z]?).join := by
  rw [List.getElem?_set_ne (Ne.symm h)]

theorem var_set_self (l : List (Option Var)) (x : Nat) (w : Option Var) (v : Var)
    (h : (l[x]?).join = some v) : ((l.set x w)[x]?).join = w := by
  have hz : x < l.length := by
    cases hh : l[x]? with
    | none => rw [hh] at h; cases h
    | some _ => exact (List.getElem?_eq_some_iff.1 hh).1
  rw [List.getElem?_set_self hz]; rfl

theorem release_vars (s : State) (o : Option Nat) : (release s o).vars = s.vars := by
  cases o <;> rfl

/-- C36. After `x = y`, for two values in scope, `x` refers to what `y` refers to and shares its storage; `y` and
    every other value are as before. -/
theorem C36_copy_assigned (s : State) (x y : Nat) (u v : Var) (hx : s.var x = some u) (hy : s.var y = some v) :
    (step s (.copyAssign x y)).var x = some v ∧ ∀ z, z ≠ x → (step s (.copyAssign x y)).var z = s.var z := by
  simp only [step, hx, hy]
  split
  · rename_i h; subst h
    exact ⟨hy, fun _ _ => rfl⟩
  · simp only [State.var, release_vars] at hx ⊢
    exact ⟨var_set_self _ _ _ _ hx, fun z hz => var_set_other _ _ _ _ hz⟩

/-- C36. After `x = std::move(y)`, for two different values in scope, `x` is what `y` was, `y` keeps all but the
    storage, and every other value is as before; assigning a value to itself changes nothing. -/
theorem C36_move_assigned (s : State) (x y : Nat) (u v : Var) (hx : s.var x = some u) (hy : s.var y = some v) :
    (x = y → step s (.moveAssign x y) = s) ∧
    (x ≠ y → (step s (.moveAssign x y)).var x = some v ∧
      (step s (.moveAssign x y)).var y = some { v with storage := none } ∧
      ∀ z, z ≠ x → z ≠ y → (step s (.moveAssign x y)).var z = s.var z) := by
  simp only [step, hx, hy]
  refine ⟨fun h => by rw [if_pos h], fun h => ?_⟩
  rw [if_neg h]
  simp only [State.var, release_vars] at hx hy ⊢
  have hy' : ((s.vars.set x (some v))[y]?).join = some v := by
    rw [var_set_other _ _ _ _ (Ne.symm h)]; exact hy
  refine ⟨?_, var_set_self _ _ _ _ hy', fun z hz hz' => ?_⟩
  · rw [var_set_other _ _ _ _ h]; exact var_set_self _ _ _ _ hx
  · rw [var_set_other _ _ _ _ hz', var_set_other _ _ _ _ hz]

/-- C36. A value constructed from another is what that one was; a moved-from value keeps all but the storage; the
    other values are as before. -/
theorem C36_constructed (s : State) (y : Nat) (v : Var) (hy : s.var y = some v) :
    ((step s (.copyCons y)).var s.vars.length = some v ∧
      ∀ z < s.vars.length, (step s (.copyCons y)).var z = s.var z) ∧
    ((step s (.moveCons y)).var s.vars.length = some v ∧
      (step s (.moveCons y)).var y = some { v with storage := none } ∧
      ∀ z < s.vars.length, z ≠ y → (step s (.moveCons y)).var z = s.var z) := by
  simp only [step, hy]
  simp only [State.var] at hy ⊢
  refine ⟨⟨by simp, fun z hz => by rw [List.getElem?_append_left hz]⟩, ?_, ?_, fun z hz hz' => ?_⟩
  · have : s.vars.length = (s.vars.set y (some v.movedFrom)).length := by simp
    rw [this, List.getElem?_append_right (Nat.le_refl _)]; simp
  · exact var_append_old _ _ _ _ (var_set_self _ _ _ _ hy)
  · rw [List.getElem?_append_left (by simpa using hz)]
    exact var_set_other _ _ _ _ hz'

/-- C36. A value that goes out of scope is gone, and the other values are as before. -/
theorem C36_out_of_scope (s : State) (x : Nat) :
    (step s (.destroy x)).var x = none ∧ ∀ z, z ≠ x → (step s (.destroy x)).var z = s.var z := by
  simp only [step]
  split
  · rename_i h; exact ⟨h, fun _ _ => rfl⟩
  · rename_i v h
    simp only [State.var, release_vars] at h ⊢
    exact ⟨var_set_self _ _ _ _ h, fun z hz => var_set_other _ _ _ _ hz⟩

/-- C38. A handle that is assigned another one holds what that one held, and that one is left empty. -/
theorem C38_assigned (s : FState) (f g : Nat) (q p : Option Nat) (hne : f ≠ g) (hf : s.var f = some q)
    (hg : s.var g = some p) :
    (fstep s (.moveAssign f g)).var f = some p ∧ (fstep s (.moveAssign f g)).var g = some none ∧
      ∀ z, z ≠ f → z ≠ g → (fstep s (.moveAssign f g)).var z = s.var z := by
  simp only [fstep, hf, hg, if_neg hne]
  simp only [FState.var] at hf hg ⊢
  have lt : ∀ (x : Nat) (w : Option Nat), (s.vars[x]?).join = some w → x < s.vars.length := by
    intro x w h
    cases hh : s.vars[x]? with
    | none => rw [hh] at h; cases h
    | some _ => exact (List.getElem?_eq_some_iff.1 hh).1
  have l1 := lt _ _ hf
  have l2 := lt _ _ hg
  refine ⟨?_, ?_, fun z h1 h2 => ?_⟩
  · rw [List.getElem?_set_ne (Ne.symm hne), List.getElem?_set_self l1]; rfl
  · rw [List.getElem?_set_self (by simpa using l2)]; rfl
  · rw [List.getElem?_set_ne (Ne.symm h2), List.getElem?_set_ne (Ne.symm h1)]

/-- a step reaches a freed function exactly by calling a handle that holds one -/
theorem C38_freed_call_step (s : FState) (op : FOp) : (fstep s op).freedCall = true ↔
    s.freedCall = true ∨ ∃ f i, op = .call f ∧ s.var f = some (some i) ∧ s.freed i ≠ 0 := by
  cases op with
  | make => simp [fstep]
  | moveCons g => simp only [fstep]; split <;> simp
  | moveAssign f g =>
    simp only [fstep]
    split
    · split <;> simp
    · simp
  | destroy f => simp only [fstep]; split <;> simp
  | call f =>
    simp only [fstep]
    split <;> rename_i hv <;> simp [hv]

/-- C38. Over every history no wrapped function is freed twice. -/
theorem C38_no_double_free (ops : List FOp) (i : Nat) : (frun ops).freed i ≤ 1 := by
  have := (finv_run ops).once i
  omega

/-- C38. Over every history no handle in scope refers to a freed function, no two handles refer to
    one function, and no call reached a freed one. -/
theorem C38_no_use_after_free (ops : List FOp) :
    (∀ x i, (frun ops).var x = some (some i) → (frun ops).freed i = 0) ∧
    (∀ x y i, (frun ops).var x = some (some i) → (frun ops).var y = some (some i) → x = y) ∧
    (frun ops).freedCall = false := by
  have h := finv_run ops
  have hpos : ∀ x i, (frun ops).var x = some (some i) → 0 < holders (frun ops) i := by
    intro x i hx
    unfold holders
    rw [List.countP_pos_iff]
    exact ⟨_, List.mem_of_getElem? (fvar_getElem hx), by simp⟩
  refine ⟨fun x i hx => ?_, fun x y i hx hy => ?_, h.good⟩
  · have := h.once i; have := hpos x i hx; omega
  · apply Classical.byContradiction
    intro hxy
    have h1 := holders_set (frun ops).vars x (some (some i)) none (fvar_getElem hx) i
    have h2 : 0 < ((frun ops).vars.set x none).countP (fun v => v == some (some i)) := by
      rw [List.countP_pos_iff]
      refine ⟨some (some i), List.mem_of_getElem? (i := y) ?_, by simp⟩
      rw [List.getElem?_set_ne hxy]; exact fvar_getElem hy
    have := h.once i
    unfold holders at this
    simp at h1
    omega

/-- no step of the history move-assigns over a handle that holds a function -/
def NoOverwrite : FState → List FOp → Prop
  | _, [] => True
  | s, op :: ops => lost s op = none ∧ NoOverwrite (fstep s op) ops

/-- C38, without overwriting: every function ever wrapped is either held by one handle and not freed,
    or held by none and freed once; when all handles are gone everything has been freed. -/
theorem C38_freed_exactly_once (ops : List FOp) (hno : NoOverwrite finit ops) (i : Nat)
    (hi : i < (frun ops).fns) :
    holders (frun ops) i + (frun ops).freed i = 1 ∧
    ((∀ x, (frun ops).var x = none) → (frun ops).freed i = 1) := by
  have key : ∀ (ops : List FOp) (s : FState), FInv s →
      (∀ i < s.fns, holders s i + s.freed i = 1) → NoOverwrite s ops →
      ∀ i < (ops.foldl fstep s).fns, holders (ops.foldl fstep s) i + (ops.foldl fstep s).freed i = 1 := by
    intro ops
    induction ops with
    | nil => intro s _ h _; exact h
    | cons op ops ih =>
      intro s hinv h hn
      refine ih _ (finv_step s op hinv) ?_ hn.2
      intro i hi
      have hb := fstep_balance s op i
      rw [hn.1] at hb
      rw [fstep_fns] at hi
      by_cases hm : op = .make ∧ i = s.fns
      · have := hinv.future i (by omega)
        rw [if_pos hm] at hb; simp at hb; omega
      · rw [if_neg hm] at hb
        have hlt : i < s.fns := by
          by_cases he : op = .make
          · have : i ≠ s.fns := fun e => hm ⟨he, e⟩
            rw [if_pos he] at hi; omega
          · rw [if_neg he] at hi; omega
        have := h i hlt
        simp at hb; omega
  have h1 := key ops finit ⟨fun _ => by simp [finit, holders], fun _ _ => by simp [finit, holders], rfl⟩
    (fun i hi => by simp [finit] at hi) hno i hi
  refine ⟨h1, fun hend => ?_⟩
  have : holders (frun ops) i = 0 := by
    unfold holders
    rw [List.countP_eq_zero]
    intro w hw hwi
    obtain ⟨x, hx⟩ := List.getElem?_of_mem hw
    have := hend x
    unfold FState.var at this
    rw [hx] at this
    simp at this
    rw [this] at hwi
    simp at hwi
  have h1 : holders (frun ops) i + (frun ops).freed i = 1 := h1
  omega

/-- C38 is false of the code in full: `{ Function f(..), g(..); f = std::move(g); }` leaks the
    function `f` held. -/
theorem C38_move_assignment_leaks :
    let s := frun [.make, .make, .moveAssign 0 1, .destroy 1, .destroy 0]
    (∀ x < 2, s.var x = none) ∧ s.freed 0 = 0 ∧ s.freed 1 = 1 := by decide

/-- C38, exactly: a wrapped function is leaked, i.e. neither freed nor held by any handle, if and only
    if some step of the history move-assigned over the live handle that held it. -/
theorem C38_leaked_iff_overwritten (ops : List FOp) (i : Nat) (hi : i < (frun ops).fns) :
    ((frun ops).freed i = 0 ∧ ∀ x, (frun ops).var x ≠ some (some i)) ↔
      ∃ pre f g post, ops = pre ++ .moveAssign f g :: post ∧ f ≠ g ∧
        (frun pre).var f = some (some i) ∧ (frun pre).var g ≠ none := by
  have hlost : ∀ (s : FState) (op : FOp), lost s op = some i ↔
      ∃ f g, op = .moveAssign f g ∧ f ≠ g ∧ s.var f = some (some i) ∧ s.var g ≠ none := by
    intro s op
    cases op with
    | moveAssign f g =>
      simp only [lost, FOp.moveAssign.injEq]
      constructor
      · intro h
        split at h
        · rename_i j q hf hg
          split at h
          · cases h
          · rename_i hne
            simp only [Option.some.injEq] at h
            subst h
            exact ⟨f, g, ⟨rfl, rfl⟩, hne, hf, by simp [hg]⟩
        · cases h
      · rintro ⟨_, _, ⟨rfl, rfl⟩, hne, hf, hg⟩
        cases hq : s.var g with
        | none => exact absurd hq hg
        | some q => simp [hf, hne]
    | _ => simp [lost]
  -- held, freed and lost together make one
  have key : ∀ (ops : List FOp) (s : FState), FInv s → (s.fns ≤ i ∨ holders s i + s.freed i = 1) →
      ((ops.foldl fstep s).fns ≤ i ∨
        (holders (ops.foldl fstep s) i + (ops.foldl fstep s).freed i = 1 ↔
          ∀ pre op post, ops = pre ++ op :: post → lost (pre.foldl fstep s) op ≠ some i)) := by
    intro ops
    induction ops with
    | nil =>
      intro s _ h
      rcases h with h | h
      · exact .inl h
      · exact .inr ⟨fun _ pre op post he => by simp at he, fun _ => h⟩
    | cons op ops ih =>
      intro s hinv h
      have hb := fstep_balance s op i
      have hfn := fstep_fns s op
      have hmono : ∀ (ops : List FOp) (s : FState), s.fns ≤ (ops.foldl fstep s).fns := by
        intro ops
        induction ops with
        | nil => intro s; exact Nat.le_refl _
        | cons o os ih2 =>
          intro s
          refine Nat.le_trans ?_ (ih2 (fstep s o))
          rw [fstep_fns]; omega
      by_cases hl : lost s op = some i
      · -- lost here: neither held nor freed ever again
        right
        have hsum : holders s i + s.freed i = 1 := by
          have h1 := hinv.once i
          rw [if_pos hl] at hb
          have : ¬ (op = .make ∧ i = s.fns) := by
            rintro ⟨rfl, -⟩
            simp [lost] at hl
          rw [if_neg this] at hb; omega
        have hlt : i < s.fns := by
          have := hinv.future i
          omega
        have hzero : holders (fstep s op) i + (fstep s op).freed i = 0 := by
          rw [if_pos hl] at hb
          have : ¬ (op = .make ∧ i = s.fns) := by rintro ⟨-, rfl⟩; omega
          rw [if_neg this] at hb; omega
        have hstay : ∀ (ops : List FOp) (s : FState), i < s.fns → holders s i + s.freed i = 0 →
            holders (ops.foldl fstep s) i + (ops.foldl fstep s).freed i = 0 := by
          intro ops
          induction ops with
          | nil => intro s _ h; exact h
          | cons o os ih2 =>
            intro s hlt h0
            have hb2 := fstep_balance s o i
            have : ¬ (o = .make ∧ i = s.fns) := by rintro ⟨-, rfl⟩; omega
            rw [if_neg this] at hb2
            refine ih2 _ ?_ (by omega)
            rw [fstep_fns]; omega
        have := hstay ops (fstep s op) (by rw [hfn]; omega) hzero
        constructor
        · intro h1
          change holders (ops.foldl fstep (fstep s op)) i + (ops.foldl fstep (fstep s op)).freed i = 1
            at h1
          omega
        · intro hall
          exact absurd hl (hall [] op ops rfl)
      · rw [if_neg hl] at hb
        have hnext : (fstep s op).fns ≤ i ∨ holders (fstep s op) i + (fstep s op).freed i = 1 := by
          by_cases hm : op = .make ∧ i = s.fns
          · right
            have := hinv.future i (by omega)
            rw [if_pos hm] at hb; omega
          · rw [if_neg hm] at hb
            rcases h with h | h
            · left
              rw [hfn]
              by_cases he : op = .make
              · have : i ≠ s.fns := fun e => hm ⟨he, e⟩
                rw [if_pos he]; omega
              · rw [if_neg he]; omega
            · right; omega
        rcases ih (fstep s op) (finv_step s op hinv) hnext with h1 | h1
        · exact .inl h1
        · right
          refine h1.trans ⟨fun hall pre o post he => ?_, fun hall pre o post he => ?_⟩
          · cases pre with
            | nil =>
              simp only [List.nil_append, List.cons.injEq] at he
              obtain ⟨rfl, rfl⟩ := he
              exact hl
            | cons q pre =>
              simp only [List.cons_append, List.cons.injEq] at he
              obtain ⟨rfl, rfl⟩ := he
              exact hall pre o post rfl
          · exact hall (op :: pre) o post (by simp [he])
  have h1 := key ops finit
    ⟨fun _ => by simp [finit, holders], fun _ _ => by simp [finit, holders], rfl⟩ (.inl (Nat.zero_le _))
  have hsum : holders (frun ops) i + (frun ops).freed i = 1 ↔
      ∀ pre op post, ops = pre ++ op :: post → lost (frun pre) op ≠ some i := by
    rcases h1 with h1 | h1
    · have : (frun ops).fns ≤ i := h1
      omega
    · exact h1
  have honce := (finv_run ops).once i
  have hheld : (∀ x, (frun ops).var x ≠ some (some i)) ↔ holders (frun ops) i = 0 := by
    unfold holders
    rw [List.countP_eq_zero]
    constructor
    · intro h w hw hwi
      obtain ⟨x, hx⟩ := List.getElem?_of_mem hw
      refine h x ?_
      unfold FState.var
      rw [hx]
      simpa using hwi
    · intro h x hx
      exact h _ (List.mem_of_getElem? (fvar_getElem hx)) (by simp)
  rw [hheld]
  constructor
  · rintro ⟨h2, h3⟩
    refine Classical.byContradiction fun hno => ?_
    have : holders (frun ops) i + (frun ops).freed i = 1 := by
      rw [hsum]
      intro pre op post he hl
      obtain ⟨f, g, rfl, h4, h5, h6⟩ := (hlost _ _).1 hl
      exact hno ⟨pre, f, g, post, he, h4, h5, h6⟩
    omega
  · rintro ⟨pre, f, g, post, he, h4, h5, h6⟩
    have : ¬ (holders (frun ops) i + (frun ops).freed i = 1) := by
      rw [hsum]
      intro hall
      exact hall pre _ post he ((hlost _ _).2 ⟨f, g, rfl, h4, h5, h6⟩)
    omega

/-- C38. A history calls through a null pointer exactly when it calls a handle that is in scope and
    empty at that time. -/
theorem C38_null_call_iff (ops : List FOp) :
    (frun ops).nullCall = true ↔
      ∃ pre f post, ops = pre ++ .call f :: post ∧ (frun pre).var f = some none := by
  have hstep : ∀ (s : FState) (op : FOp), (fstep s op).nullCall = true ↔
      s.nullCall = true ∨ ∃ f, op = .call f ∧ s.var f = some none := by
    intro s op
    cases op with
    | make => simp [fstep]
    | moveCons g => simp only [fstep]; split <;> simp
    | moveAssign f g =>
      simp only [fstep]
      split
      · split <;> simp
      · simp
    | destroy f => simp only [fstep]; split <;> simp
    | call f =>
      simp only [fstep]
      split <;> rename_i hv <;> simp [hv]
  have key : ∀ (ops : List FOp) (s : FState), (ops.foldl fstep s).nullCall = true ↔
      s.nullCall = true ∨ ∃ pre f post, ops = pre ++ .call f :: post ∧
        (pre.foldl fstep s).var f = some none := by
    intro ops
    induction ops with
    | nil => intro s; simp
    | cons op ops ih =>
      intro s
      rw [List.foldl_cons, ih, hstep]
      constructor
      · rintro ((h | ⟨f, rfl, h⟩) | ⟨pre, f, post, rfl, h⟩)
        · exact .inl h
        · exact .inr ⟨[], f, ops, rfl, h⟩
        · exact .inr ⟨op :: pre, f, post, rfl, h⟩
      · rintro (h | ⟨pre, f, post, he, h⟩)
        · exact .inl (.inl h)
        · cases pre with
          | nil =>
            simp only [List.nil_append, List.cons.injEq] at he
            exact .inl (.inr ⟨f, he.1, h⟩)
          | cons q pre =>
            simp only [List.cons_append, List.cons.injEq] at he
            obtain ⟨rfl, rfl⟩ := he
            exact .inr ⟨pre, f, post, rfl, h⟩
  have := key ops finit
  have hf : ¬ (finit.nullCall = true) := by simp [finit]
  exact this.trans ⟨fun h => h.resolve_left hf, .inr⟩

/-- C38. A handle that was moved from is in scope and empty, so that calling it next is such a call. -/
theorem C38_moved_from_is_empty (ops : List FOp) (g : Nat) (hg : (frun ops).var g ≠ none) :
    (frun (ops ++ [.moveCons g])).var g = some none ∧
    (frun (ops ++ [.moveCons g, .call g])).nullCall = true := by
  have h1 : (frun (ops ++ [.moveCons g])).var g = some none := by
    have : frun (ops ++ [.moveCons g]) = fstep (frun ops) (.moveCons g) := by
      simp [frun, frunFrom]
    rw [this]
    cases hv : (frun ops).var g with
    | none => exact absurd hv hg
    | some p =>
      have hlt : g < (frun ops).vars.length := by
        have := fvar_getElem hv
        exact (List.getElem?_eq_some_iff.1 this).1
      simp only [fstep, hv]
      unfold FState.var
      rw [List.getElem?_append_left (by simpa using hlt), List.getElem?_set_self hlt]
      rfl
  exact ⟨h1, (C38_null_call_iff _).2 ⟨ops ++ [.moveCons g], g, [], by simp, h1⟩⟩

/-! ### non-vacuity -/

/-- a history with copies, moves and assignments in which object 0 dies when variable 2 is assigned -/
example : let ops := [Op.store, .copyCons 0, .moveCons 0, .destroy 1, .store]
    let s := run ops
    let t := run (ops ++ [.moveAssign 2 3])
    s.deleted 0 = 0 ∧ t.deleted 0 = 1 ∧ t.deleted 1 = 0 ∧ t.objs = 2 ∧
    t.var 2 = some ⟨true, .stored 1, some 1⟩ := by decide

example : NoOverwrite finit [.make, .moveCons 0, .make, .destroy 2, .moveAssign 0 1, .call 0, .destroy 0]
    ∧ (frun [.make, .moveCons 0, .make, .destroy 2, .moveAssign 0 1, .call 0, .destroy 0]).fns = 2 := by
  refine ⟨⟨rfl, rfl, rfl, rfl, ?_, rfl, rfl, trivial⟩, rfl⟩
  decide

end Reflect.Own

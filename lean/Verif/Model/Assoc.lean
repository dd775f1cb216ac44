import Verif.Model.Basic
/-
  `std::unordered_map` / `std::map` as association lists: only `find`, `emplace` (keeps an existing
  entry) and `erase` are used by the modelled code. Iteration order is never relied upon.
-/
namespace Reflect

abbrev Assoc (α β : Type) := List (α × β)

namespace Assoc
variable {α β : Type} [DecidableEq α]

/-- `map.find(key)` -/
def get : Assoc α β → α → Option β
  | [], _ => none
  | (k, v) :: m, key => if k = key then some v else get m key

/-- `map.emplace(key, value)`: an existing entry wins -/
def emplace (m : Assoc α β) (key : α) (v : β) : Assoc α β :=
  match get m key with
  | some _ => m
  | none => (key, v) :: m

/-- `map.erase(key)` -/
def erase (m : Assoc α β) (key : α) : Assoc α β := m.filter (fun p => p.1 ≠ key)

/-- `map[key] = value` -/
def set (m : Assoc α β) (key : α) (v : β) : Assoc α β := (key, v) :: erase m key

@[simp] theorem get_nil (k : α) : get ([] : Assoc α β) k = none := rfl

theorem get_cons (k : α) (v : β) (m : Assoc α β) (x : α) :
    get ((k, v) :: m) x = if k = x then some v else get m x := rfl

theorem get_emplace (m : Assoc α β) (k : α) (v : β) (x : α) :
    get (emplace m k v) x = match get m x with
      | some w => some w
      | none => if k = x then some v else none := by
  unfold emplace
  cases h : get m k with
  | some w =>
    simp only
    by_cases hk : k = x
    · subst hk; simp [h]
    · cases get m x <;> simp [hk]
  | none =>
    simp only [get_cons]
    by_cases hk : k = x
    · subst hk; simp [h]
    · simp only [hk, if_false]; cases get m x <;> rfl

theorem get_erase (m : Assoc α β) (k x : α) :
    get (erase m k) x = if k = x then none else get m x := by
  induction m with
  | nil => simp [erase]
  | cons p m ih =>
    obtain ⟨a, b⟩ := p
    unfold erase at ih ⊢
    simp only [List.filter_cons]
    by_cases ha : a = k
    · subst ha
      simp only [ne_eq, not_true_eq_false, decide_false, Bool.false_eq_true, if_false, ih, get_cons]
      split <;> rfl
    · simp only [ne_eq, ha, not_false_eq_true, decide_true, if_true, get_cons, ih]
      by_cases hx : a = x
      · subst hx; simp [Ne.symm ha]
      · simp [hx]

theorem get_some_mem {m : Assoc α β} {k : α} {v : β} (h : get m k = some v) : (k, v) ∈ m := by
  induction m with
  | nil => simp at h
  | cons p m ih =>
    obtain ⟨a, b⟩ := p
    rw [get_cons] at h
    split at h
    · rename_i hk; subst hk; simp at h; simp [h]
    · exact List.mem_cons_of_mem _ (ih h)

theorem get_none_iff {m : Assoc α β} {k : α} : get m k = none ↔ k ∉ m.map (·.1) := by
  induction m with
  | nil => simp
  | cons p m ih =>
    obtain ⟨a, b⟩ := p
    rw [get_cons]
    by_cases h : a = k
    · simp [h]
    · simp [h, ih, Ne.symm h]

theorem get_isSome_iff {m : Assoc α β} {k : α} : (get m k).isSome ↔ k ∈ m.map (·.1) := by
  have := get_none_iff (m := m) (k := k)
  cases h : get m k with
  | none => rw [h] at this; simp [this.1 rfl]
  | some v =>
    rw [h] at this
    simp at this ⊢
    exact this

theorem get_set (m : Assoc α β) (k : α) (v : β) (x : α) :
    get (set m k v) x = if k = x then some v else get m x := by
  unfold set
  rw [get_cons, get_erase]
  split <;> rfl

end Assoc
end Reflect

import Verif.Spec.TypeGraph
namespace Reflect
namespace World
variable {w : World}

/-! ### walks and the pigeonhole -/

def IsWalk (w : World) : List Ty → Prop
  | [] => True
  | [_] => True
  | a :: b :: l => w.Edge a b ∧ IsWalk w (b :: l)

theorem walk_reach : ∀ (l : List Ty) (a : Ty), IsWalk w (a :: l) → ∀ x ∈ l, w.Reach a x := by
  intro l
  induction l with
  | nil => intro a _ x hx; cases hx
  | cons b l ih =>
    intro a h x hx
    rcases List.mem_cons.1 hx with rfl | hx
    · exact .edge h.1
    · exact .step h.1 (ih b h.2 x hx)

theorem walk_nodup (hac : w.Acyclic) : ∀ (l : List Ty), IsWalk w l → l.Nodup := by
  intro l
  induction l with
  | nil => intro _; exact List.nodup_nil
  | cons a l ih =>
    intro h
    rw [List.nodup_cons]
    refine ⟨fun hm => hac a (walk_reach l a h a hm), ih ?_⟩
    cases l with
    | nil => trivial
    | cons b l => exact h.2

theorem walk_bounded (hcl : w.Closed) : ∀ (l : List Ty) (a : Ty), IsWalk w (a :: l) → a < w.n →
    ∀ x ∈ a :: l, x < w.n := by
  intro l
  induction l with
  | nil => intro a _ ha x hx; simp at hx; subst hx; exact ha
  | cons b l ih =>
    intro a h ha x hx
    rcases List.mem_cons.1 hx with rfl | hx
    · exact ha
    · exact ih b h.2 (hcl a b ha h.1) x hx

theorem nodup_bound : ∀ (n : Nat) (l : List Nat), l.Nodup → (∀ x ∈ l, x < n) → l.length ≤ n := by
  intro n
  induction n with
  | zero =>
    intro l _ h
    cases l with
    | nil => simp
    | cons a l => exact absurd (h a List.mem_cons_self) (by simp)
  | succ n ih =>
    intro l hn h
    have h1 : (l.erase n).length ≤ n := by
      apply ih _ (hn.erase n)
      intro x hx
      have hx' := (hn.mem_erase_iff).1 hx
      have := h x hx'.2
      omega
    by_cases hm : n ∈ l
    · have := List.length_erase_of_mem hm
      omega
    · rw [List.erase_of_not_mem hm] at h1
      omega

theorem walk_short (hcl : w.Closed) (hac : w.Acyclic) (l : List Ty) (a : Ty)
    (h : IsWalk w (a :: l)) (ha : a < w.n) : l.length < w.n := by
  have := nodup_bound w.n (a :: l) (walk_nodup hac _ h) (walk_bounded hcl l a h ha)
  simp only [List.length_cons] at this
  omega

/-! ### isChildOf -/

theorem childF_diverge : ∀ (fuel : Nat) (a b : Ty), w.childF (fuel + 1) a b = .error .diverge →
    ∃ l, IsWalk w (a :: l) ∧ l.length = fuel := by
  intro fuel
  induction fuel with
  | zero => intro a b _; exact ⟨[], trivial, rfl⟩
  | succ f ih =>
    intro a b h
    rw [childF] at h
    split at h
    · simp at h
    split at h
    · rename_i k p k' q h1 h2
      split at h
      · simp at h
      · obtain ⟨l, hl, hlen⟩ := ih p q h
        exact ⟨p :: l, ⟨.inr ⟨k, h1⟩, hl⟩, by simp [hlen]⟩
    · split at h
      · simp at h
      · rename_i p hp
        obtain ⟨l, hl, hlen⟩ := ih p b h
        exact ⟨p :: l, ⟨.inl hp, hl⟩, by simp [hlen]⟩

theorem childF_fault : ∀ (fuel : Nat) (a b : Ty) (x : Fault), w.childF fuel a b = .error x →
    x = .diverge := by
  intro fuel
  induction fuel with
  | zero => intro a b x h; simp [childF] at h; exact h.symm
  | succ f ih =>
    intro a b x h
    rw [childF] at h
    split at h
    · simp at h
    split at h
    · split at h
      · simp at h
      · exact ih _ _ _ h
    · split at h
      · simp at h
      · exact ih _ _ _ h

theorem childF_total (hcl : w.Closed) (hac : w.Acyclic) (fuel : Nat) (hf : w.n < fuel) (a b : Ty)
    (ha : a < w.n) : ∃ r, w.childF fuel a b = .ok r := by
  cases h : w.childF fuel a b with
  | ok r => exact ⟨r, rfl⟩
  | error x =>
    have := childF_fault fuel a b x h
    subst this
    obtain ⟨f, rfl⟩ : ∃ f, fuel = f + 1 := ⟨fuel - 1, by omega⟩
    obtain ⟨l, hl, hlen⟩ := childF_diverge f a b h
    have := walk_short hcl hac l a hl ha
    omega

theorem childF_sound : ∀ (fuel : Nat) (a b : Ty), w.childF fuel a b = .ok true → w.Sub a b := by
  intro fuel
  induction fuel with
  | zero => intro a b h; simp [childF] at h
  | succ f ih =>
    intro a b h
    rw [childF] at h
    split at h
    · rename_i hab; subst hab; exact .refl a
    split at h
    · rename_i k p k' q h1 h2
      split at h
      · simp at h
      · rename_i hk
        have hk : k = k' := by simpa using hk
        subst hk
        exact .pointer h1 h2 (ih _ _ h)
    · split at h
      · simp at h
      · rename_i p hp
        exact .parent hp (ih _ _ h)

theorem childF_complete (hpr : w.PointersAreRoots) : ∀ (fuel : Nat) (a b : Ty),
    w.childF fuel a b = .ok false → ¬ w.Sub a b := by
  intro fuel
  induction fuel with
  | zero => intro a b h; simp [childF] at h
  | succ f ih =>
    intro a b h hs
    rw [childF] at h
    split at h
    · simp at h
    rename_i hne
    split at h
    · rename_i k p k' q h1 h2
      have hpa := hpr a (by simp [h1])
      cases hs with
      | refl => exact hne rfl
      | parent hp _ => rw [hpa] at hp; simp at hp
      | pointer h3 h4 h5 =>
        rw [h1] at h3; rw [h2] at h4
        simp only [Option.some.injEq, Prod.mk.injEq] at h3 h4
        obtain ⟨rfl, rfl⟩ := h3
        obtain ⟨rfl, rfl⟩ := h4
        simp at h
        exact ih _ _ h h5
    · rename_i hnp
      cases hs with
      | refl => exact hne rfl
      | parent hp h5 =>
        rw [hp] at h
        exact ih _ _ h h5
      | pointer h3 h4 _ => exact hnp _ _ _ _ h3 h4

/-! ### ancestors -/

theorem anc_walk : ∀ (k : Nat) (t u : Ty), w.anc k t = some u → ∃ l, IsWalk w (t :: l) ∧ l.length = k := by
  intro k
  induction k with
  | zero => intro t u _; exact ⟨[], trivial, rfl⟩
  | succ k ih =>
    intro t u h
    rw [anc] at h
    split at h
    · simp at h
    · rename_i p hp
      obtain ⟨l, hl, hlen⟩ := ih p u h
      exact ⟨p :: l, ⟨.inl hp, hl⟩, by simp [hlen]⟩

theorem anc_ends (hcl : w.Closed) (hac : w.Acyclic) (t : Ty) (ht : t < w.n) : w.anc w.n t = none := by
  cases h : w.anc w.n t with
  | none => rfl
  | some u =>
    obtain ⟨l, hl, hlen⟩ := anc_walk w.n t u h
    have := walk_short hcl hac l t hl ht
    omega

theorem nearestF_ok {β : Type} (own : TypeD → Option β) : ∀ (fuel : Nat) (t : Ty) (b : β),
    w.nearestF own fuel t = .ok b → w.Nearest own t b := by
  intro fuel
  induction fuel with
  | zero => intro t b h; simp [nearestF] at h
  | succ f ih =>
    intro t b h
    rw [nearestF] at h
    split at h
    · rename_i b' hb
      simp at h; subst h
      exact ⟨0, t, rfl, hb, by simp⟩
    · rename_i hn
      split at h
      · simp at h
      · rename_i p hp
        obtain ⟨k, u, h1, h2, h3⟩ := ih p b h
        refine ⟨k + 1, u, by simp [anc, hp, h1], h2, ?_⟩
        intro j hj v hv
        cases j with
        | zero => simp [anc] at hv; subst hv; exact hn
        | succ j => simp [anc, hp] at hv; exact h3 j (by omega) v hv

theorem nearestF_err {β : Type} (own : TypeD → Option β) : ∀ (fuel : Nat) (t : Ty) (x : Fault),
    w.nearestF own fuel t = .error x → x ≠ .diverge →
    x = .err ∧ ∀ k u, w.anc k t = some u → own (w.ty u) = none := by
  intro fuel
  induction fuel with
  | zero => intro t x h hx; simp [nearestF] at h; exact absurd h.symm hx
  | succ f ih =>
    intro t x h hx
    rw [nearestF] at h
    split at h
    · simp at h
    · rename_i hn
      split at h
      · rename_i hp
        simp at h
        refine ⟨h.symm, ?_⟩
        intro k u hu
        cases k with
        | zero => simp [anc] at hu; subst hu; exact hn
        | succ k => simp [anc, hp] at hu
      · rename_i p hp
        obtain ⟨h1, h2⟩ := ih p x h hx
        refine ⟨h1, ?_⟩
        intro k u hu
        cases k with
        | zero => simp [anc] at hu; subst hu; exact hn
        | succ k => simp [anc, hp] at hu; exact h2 k u hu

theorem nearestF_no_diverge {β : Type} (own : TypeD → Option β) : ∀ (k : Nat) (t : Ty) (fuel : Nat),
    w.anc k t = none → k ≤ fuel → w.nearestF own fuel t ≠ .error .diverge := by
  intro k
  induction k with
  | zero => intro t fuel h; simp [anc] at h
  | succ k ih =>
    intro t fuel h hk
    obtain ⟨f, rfl⟩ : ∃ f, fuel = f + 1 := ⟨fuel - 1, by omega⟩
    rw [nearestF]
    split
    · simp
    · cases hp : (w.ty t).parent with
      | none => simp
      | some p =>
        simp only
        apply ih p f
        · simpa [anc, hp] using h
        · omega

theorem hasFunctionF_eq (name : Name) : ∀ (fuel : Nat) (t : Ty),
    w.hasFunctionF fuel t name = match w.functionF fuel t name with
      | .ok _ => .ok true
      | .error .diverge => .error .diverge
      | .error _ => .ok false := by
  intro fuel
  induction fuel with
  | zero => intro t; rfl
  | succ f ih =>
    intro t
    unfold hasFunctionF functionF nearestF
    cases h : (w.ty t).fns.get name with
    | some o => simp
    | none =>
      simp
      cases hp : (w.ty t).parent with
      | none => rfl
      | some p => simp only; rw [ih]; rfl

theorem hasFieldF_eq (name : Name) : ∀ (fuel : Nat) (t : Ty),
    w.hasFieldF fuel t name = match w.fieldF fuel t name with
      | .ok _ => .ok true
      | .error .diverge => .error .diverge
      | .error _ => .ok false := by
  intro fuel
  induction fuel with
  | zero => intro t; rfl
  | succ f ih =>
    intro t
    unfold hasFieldF fieldF nearestF
    cases h : (w.ty t).fields.get name with
    | some o => simp
    | none =>
      simp
      cases hp : (w.ty t).parent with
      | none => rfl
      | some p => simp only; rw [ih]; rfl

theorem namesF_spec (own : TypeD → List Name) : ∀ (k : Nat) (t : Ty) (fuel : Nat),
    w.anc k t = none → k ≤ fuel →
    ∃ l, w.namesF own fuel t = .ok l ∧ ∀ x, x ∈ l ↔ ∃ j u, w.anc j t = some u ∧ x ∈ own (w.ty u) := by
  intro k
  induction k with
  | zero => intro t fuel h; simp [anc] at h
  | succ k ih =>
    intro t fuel h hk
    obtain ⟨f, rfl⟩ : ∃ f, fuel = f + 1 := ⟨fuel - 1, by omega⟩
    rw [namesF]
    cases hp : (w.ty t).parent with
    | none =>
      refine ⟨_, rfl, ?_⟩
      intro x
      constructor
      · intro hx; exact ⟨0, t, rfl, hx⟩
      · rintro ⟨j, u, hu, hx⟩
        cases j with
        | zero => simp [anc] at hu; subst hu; exact hx
        | succ j => simp [anc, hp] at hu
    | some p =>
      obtain ⟨l, hl, hmem⟩ := ih p f (by simpa [anc, hp] using h) (by omega)
      refine ⟨_, by simp only; rw [hl]; rfl, ?_⟩
      intro x
      rw [List.mem_append, hmem]
      constructor
      · rintro (hx | ⟨j, u, hu, hx⟩)
        · exact ⟨0, t, rfl, hx⟩
        · exact ⟨j + 1, u, by simp [anc, hp, hu], hx⟩
      · rintro ⟨j, u, hu, hx⟩
        cases j with
        | zero => simp [anc] at hu; subst hu; exact .inl hx
        | succ j => simp [anc, hp] at hu; exact .inr ⟨j, u, hu, hx⟩

end World

/-! ### sort and unique -/

theorem unique_mem : ∀ (l : List Name) (x : Name), x ∈ unique l ↔ x ∈ l := by
  intro l
  induction l with
  | nil => intro x; simp [unique]
  | cons a l ih =>
    intro x
    cases l with
    | nil => simp [unique]
    | cons b l =>
      rw [unique]
      split
      · rename_i h; subst h; rw [ih]; simp
      · rw [List.mem_cons, ih]; simp

theorem unique_sorted : ∀ (l : List Name), l.Pairwise (· ≤ ·) → (unique l).Pairwise (· < ·) := by
  intro l
  induction l with
  | nil => intro _; simp [unique]
  | cons a l ih =>
    intro h
    cases l with
    | nil => simp [unique]
    | cons b l =>
      rw [List.pairwise_cons] at h
      rw [unique]
      split
      · exact ih h.2
      · rename_i hne
        rw [List.pairwise_cons]
        refine ⟨?_, ih h.2⟩
        intro x hx
        rw [unique_mem] at hx
        have h1 : a < b := by
          apply Std.lt_of_le_of_ne (h.1 b List.mem_cons_self) hne
        rcases List.mem_cons.1 hx with rfl | hx
        · exact h1
        · have h2 : b ≤ x := (List.pairwise_cons.1 h.2).1 x hx
          exact Std.lt_of_lt_of_le h1 h2

theorem sortUnique_sorted (l : List Name) : (sortUnique l).Pairwise (· < ·) := by
  apply unique_sorted
  have := List.pairwise_mergeSort (le := fun a b : Name => decide (a ≤ b))
    (by intro a b c; simp only [decide_eq_true_eq]; exact Std.le_trans)
    (by intro a b; simp only [Bool.or_eq_true, decide_eq_true_eq]; exact Std.le_total) l
  simpa using this

theorem sortUnique_mem (l : List Name) (x : Name) : x ∈ sortUnique l ↔ x ∈ l := by
  unfold sortUnique
  rw [unique_mem, List.mem_mergeSort]

end Reflect

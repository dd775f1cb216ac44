import Verif.Lemmas.Json.CacheW
import Verif.Lemmas.Json.Bytes
/- The order of keys; sorting; what a closed set of types gives. -/
namespace Reflect.Json

theorem bytesLt_irrefl (a : Bytes) : bytesLt a a = false := by
  induction a with
  | nil => rfl
  | cons c a ih => simp [bytesLt, ih]

theorem byte_eq {a b : Byte} (h : a.toNat = b.toNat) : a = b := UInt8.toNat_inj.mp h

theorem bytesLt_trans : ∀ {a b c : Bytes}, bytesLt a b = true → bytesLt b c = true → bytesLt a c = true := by
  intro a
  induction a with
  | nil =>
    intro b c h1 h2
    cases c with
    | nil => cases b <;> simp [bytesLt] at h2
    | cons z c => rfl
  | cons x a ih =>
    intro b c h1 h2
    cases b with
    | nil => simp [bytesLt] at h1
    | cons y b =>
      cases c with
      | nil => simp [bytesLt] at h2
      | cons z c =>
        simp only [bytesLt, Bool.or_eq_true, decide_eq_true_eq, Bool.and_eq_true, beq_iff_eq] at h1 h2 ⊢
        rcases h1 with h1 | ⟨rfl, h1⟩
        · rcases h2 with h2 | ⟨rfl, h2⟩
          · exact Or.inl (by omega)
          · exact Or.inl h1
        · rcases h2 with h2 | ⟨rfl, h2⟩
          · exact Or.inl h2
          · exact Or.inr ⟨rfl, ih h1 h2⟩

theorem bytesLt_total : ∀ (a b : Bytes), bytesLt a b = true ∨ a = b ∨ bytesLt b a = true := by
  intro a
  induction a with
  | nil => intro b; cases b <;> simp [bytesLt]
  | cons x a ih =>
    intro b
    cases b with
    | nil => simp [bytesLt]
    | cons y b =>
      simp only [bytesLt, Bool.or_eq_true, decide_eq_true_eq, Bool.and_eq_true, beq_iff_eq, List.cons.injEq]
      rcases Nat.lt_trichotomy x.toNat y.toNat with h | h | h
      · exact Or.inl (Or.inl h)
      · have := byte_eq h
        subst this
        rcases ih b with h | h | h
        · exact Or.inl (Or.inr ⟨rfl, h⟩)
        · exact Or.inr (Or.inl ⟨rfl, h⟩)
        · exact Or.inr (Or.inr (Or.inr ⟨rfl, h⟩))
      · exact Or.inr (Or.inr (Or.inl h))

theorem bytesLt_asymm {a b : Bytes} (h : bytesLt a b = true) : bytesLt b a = false := by
  cases hb : bytesLt b a with
  | false => rfl
  | true => have := bytesLt_trans h hb; rw [bytesLt_irrefl] at this; cases this

theorem bytesLt_antisymm {a b : Bytes} (h1 : bytesLt a b = false) (h2 : bytesLt b a = false) : a = b := by
  rcases bytesLt_total a b with h | h | h
  · rw [h] at h1; cases h1
  · exact h
  · rw [h] at h2; cases h2

theorem insertKey_perm (k : Bytes) (ks : List Bytes) : (insertKey k ks).Perm (k :: ks) := by
  induction ks with
  | nil => exact List.Perm.refl _
  | cons l ks ih =>
    unfold insertKey
    split
    · exact (List.Perm.cons l ih).trans (List.Perm.swap k l ks)
    · exact List.Perm.refl _

theorem sortKeys_perm (ks : List Bytes) : (sortKeys ks).Perm ks := by
  induction ks with
  | nil => exact List.Perm.refl _
  | cons k ks ih => exact (insertKey_perm k _).trans (List.Perm.cons k ih)

theorem insertKey_sorted (k : Bytes) (ks : List Bytes) (h : Sorted ks) : Sorted (insertKey k ks) := by
  induction ks with
  | nil => simp [insertKey, Sorted]
  | cons l ks ih =>
    unfold Sorted at h ih ⊢
    rw [List.pairwise_cons] at h
    unfold insertKey
    split
    · rename_i hlt
      rw [List.pairwise_cons]
      refine ⟨?_, ih h.2⟩
      intro x hx
      have := (insertKey_perm k ks).subset hx
      rcases List.mem_cons.mp this with rfl | hx
      · exact bytesLt_asymm hlt
      · exact h.1 x hx
    · rename_i hlt
      have hlt' : bytesLt l k = false := by simpa using hlt
      rw [List.pairwise_cons, List.pairwise_cons]
      refine ⟨?_, h⟩
      intro x hx
      rcases List.mem_cons.mp hx with rfl | hx
      · exact hlt'
      · cases hb : bytesLt x k with
        | false => rfl
        | true =>
          have h1 := h.1 x hx
          -- x < k, not l < k: then x < l or x = ... contradiction
          rcases bytesLt_total k l with e | e | e
          · have := bytesLt_trans hb e
            rw [this] at h1; cases h1
          · subst e; rw [hb] at h1; cases h1
          · rw [e] at hlt'; cases hlt'

theorem sortKeys_sorted (ks : List Bytes) : Sorted (sortKeys ks) := by
  induction ks with
  | nil => exact List.Pairwise.nil
  | cons k ks ih => exact insertKey_sorted k _ ih

theorem sorted_unique {l1 l2 : List Bytes} (h1 : Sorted l1) (h2 : Sorted l2) (hp : l1.Perm l2) : l1 = l2 := by
  have := @List.Perm.eq_of_pairwise Bytes (fun a b => bytesLt b a = false) l1 l2
    (fun a b _ _ e1 e2 => bytesLt_antisymm e2 e1) h1 h2 hp
  exact this

end Reflect.Json

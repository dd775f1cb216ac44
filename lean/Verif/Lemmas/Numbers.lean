import Verif.Spec.Numbers
namespace Reflect

theorem pow_pos' (w : Nat) : (0 : Int) < 2 ^ w := by
  have : (0 : Nat) < 2 ^ w := Nat.two_pow_pos w
  exact_mod_cast this

theorem pow_half {w : Nat} (h : 0 < w) : (2 : Int) ^ w = 2 * 2 ^ (w - 1) := by
  obtain ⟨k, rfl⟩ : ∃ k, w = k + 1 := ⟨w - 1, by omega⟩
  rw [Int.pow_succ]
  simp only [Nat.add_sub_cancel]
  omega

theorem cell_value {w : Nat} {s : Bool} {c : Nat} {v : Int} (hw : 0 < w) (h : IntCell w s c v) : NumT.value w s c = v := by
  obtain ⟨h1, h2⟩ := h
  have hp := pow_half hw
  have hp' := pow_pos' (w - 1)
  unfold HasInt at h1
  unfold NumT.value
  have hc : ((2 : Int) ^ (w - 1)).toNat = 2 ^ (w - 1) := by
    rw [show ((2 : Int) ^ (w - 1)) = ((2 ^ (w - 1) : Nat) : Int) by norm_cast]; exact Int.toNat_natCast _
  have hcast : (2 ^ (w - 1) ≤ c) ↔ ((2 : Int) ^ (w - 1) ≤ c) := by
    constructor
    · intro q; exact_mod_cast q
    · intro q; exact_mod_cast q
  simp only [hcast]
  generalize (2 : Int) ^ w = a at *
  generalize (2 : Int) ^ (w - 1) = b at *
  cases s
  · simp only [Bool.false_eq_true, false_and, if_false] at h1 ⊢
    split at h2 <;> omega
  · simp only [true_and, if_true] at h1 ⊢
    split at h2 <;> split <;> omega

theorem cell_bits {w : Nat} {s : Bool} {v : Int} (hw : 0 < w) (h : HasInt w s v) : IntCell w s (NumT.bits w v) v := by
  refine ⟨h, ?_⟩
  unfold HasInt at h
  unfold NumT.bits
  have hp := pow_half hw
  have hp' := pow_pos' (w - 1)
  have hpw := pow_pos' w
  have hm : v % 2 ^ w = if v < 0 then v + 2 ^ w else v := by
    generalize (2 : Int) ^ w = a at *
    generalize (2 : Int) ^ (w - 1) = b at *
    cases s
    · simp only [Bool.false_eq_true, if_false] at h
      rw [if_neg (by omega), Int.emod_eq_of_lt h.1 h.2]
    · simp only [if_true] at h
      split
      · rw [← Int.add_emod_right, Int.emod_eq_of_lt (by omega) (by omega)]
      · exact Int.emod_eq_of_lt (by omega) (by omega)
  rw [Int.toNat_of_nonneg (Int.emod_nonneg _ (by omega)), hm]

theorem bits_emod (w : Nat) (v : Int) : NumT.bits w (v % 2 ^ w) = NumT.bits w v := by
  unfold NumT.bits
  rw [Int.emod_emod_of_dvd _ (Int.dvd_refl _)]

theorem has_emod (w : Nat) (v : Int) : HasInt w false (v % 2 ^ w) := by
  have := pow_pos' w
  exact ⟨Int.emod_nonneg _ (by omega), Int.emod_lt_of_pos _ this⟩

/-- a sum of narrow numbers is an `int` -/
theorem narrow_fits {w : Nat} {s : Bool} {v u : Int} (hw : 0 < w) (hn : w + 1 < intWidth) (h1 : HasInt w s v) (h2 : HasInt w s u) : HasInt intWidth true (v + u) := by
  have hp := pow_half hw
  unfold HasInt at *
  unfold intWidth at *
  simp only [if_true]
  show -(2 : Int) ^ 31 ≤ _ ∧ _ < (2 : Int) ^ 31
  have hle2 : (2 : Int) ^ w ≤ 2 ^ 30 := by
    have : (2 : Nat) ^ w ≤ 2 ^ 30 := Nat.pow_le_pow_right (by omega) (by omega)
    exact_mod_cast this
  generalize (2 : Int) ^ w = a at *
  generalize (2 : Int) ^ (w - 1) = b at *
  cases s <;> simp at h1 h2 <;> omega

end Reflect

import Verif.Props.Limits
import Verif.Spec.Floats
import Verif.Spec.Doubles
import Mathlib.Tactic.Linarith
import Mathlib.Tactic.NormNum
import Mathlib.Tactic.Positivity
import Mathlib.Tactic.Ring
import Mathlib.Algebra.Order.Field.Power
import Mathlib.Data.Int.Log
/-
  C92 The limits of reflected floating point numbers.
-/
namespace Reflect
open World

section
variable {eb fb : Nat}

theorem ieeeAbs_nonneg (c : Nat) : 0 ≤ ieeeAbs eb fb c := by
  unfold ieeeAbs
  split <;> positivity

theorem two_le_pow (heb : 2 ≤ eb) : 4 ≤ 2 ^ eb := by
  have := Nat.pow_le_pow_right (n := 2) (by omega) heb
  omega

/-- the parts of given bits -/
theorem ieee_parts {e f : Nat} (he : e < 2 ^ eb) (hf : f < 2 ^ fb) (s : Bool) :
    ieeeExp eb fb ((if s then 2 ^ (eb + fb) else 0) + (e * 2 ^ fb + f)) = e ∧ ieeeFrac fb ((if s then 2 ^ (eb + fb) else 0) + (e * 2 ^ fb + f)) = f ∧
      ((if s then 2 ^ (eb + fb) else 0) + (e * 2 ^ fb + f)) / 2 ^ (eb + fb) % 2 = (if s then 1 else 0) := by
  have hp : 0 < 2 ^ fb := Nat.pow_pos (by omega)
  have h1 : (if s then 2 ^ (eb + fb) else 0) = (if s then 2 ^ eb else 0) * 2 ^ fb := by
    cases s <;> simp [Nat.pow_add]
  have h2 : (if s then 2 ^ (eb + fb) else 0) + (e * 2 ^ fb + f) = ((if s then 2 ^ eb else 0) + e) * 2 ^ fb + f := by
    rw [h1, Nat.add_mul]; omega
  have h3 : ((if s then 2 ^ (eb + fb) else 0) + (e * 2 ^ fb + f)) / 2 ^ fb = (if s then 2 ^ eb else 0) + e := by
    rw [h2, Nat.mul_comm, Nat.mul_add_div hp, Nat.div_eq_of_lt hf, Nat.add_zero]
  refine ⟨?_, ?_, ?_⟩
  · unfold ieeeExp
    rw [h3]
    cases s
    · simp [Nat.mod_eq_of_lt he]
    · simp [Nat.mod_eq_of_lt he]
  · unfold ieeeFrac
    rw [h2, Nat.mul_comm, Nat.mul_add_mod, Nat.mod_eq_of_lt hf]
  · rw [Nat.pow_add, Nat.mul_comm (2 ^ eb), ← Nat.div_div_eq_div_mul]
    rw [show (if s = true then 2 ^ fb * 2 ^ eb else 0) = (if s then 2 ^ (eb + fb) else 0) by cases s <;> simp [Nat.pow_add, Nat.mul_comm], h3]
    have hpe : 0 < 2 ^ eb := Nat.pow_pos (by omega)
    cases s
    · simp [Nat.div_eq_of_lt he]
    · simp only [if_true]
      rw [Nat.add_div_left e hpe, Nat.div_eq_of_lt he]

theorem ieee_max (heb : 2 ≤ eb) : IeeeFinite eb fb (NumT.floatMaxBits eb fb) ∧
    ieee eb fb (NumT.floatMaxBits eb fb) = (2 ^ fb + (2 ^ fb - 1 : Nat)) * (2 : ℚ) ^ ieeePlace eb fb (2 ^ eb - 2) := by
  have h4 := two_le_pow heb
  have hp : 0 < 2 ^ fb := Nat.pow_pos (by omega)
  obtain ⟨h1, h2, h3⟩ := ieee_parts (eb := eb) (fb := fb) (e := 2 ^ eb - 2) (f := 2 ^ fb - 1) (by omega) (by omega) false
  simp only [Bool.false_eq_true, if_false, Nat.zero_add] at h1 h2 h3
  unfold NumT.floatMaxBits
  constructor
  · unfold IeeeFinite; omega
  · unfold ieee ieeeAbs
    rw [h3, h1, h2, if_neg (by omega), if_neg (by omega)]

theorem ieee_min (heb : 2 ≤ eb) : IeeeNormal eb fb (NumT.floatMinBits fb) ∧
    ieee eb fb (NumT.floatMinBits fb) = 2 ^ fb * (2 : ℚ) ^ ieeePlace eb fb 1 := by
  have h4 := two_le_pow heb
  have hp : 0 < 2 ^ fb := Nat.pow_pos (by omega)
  obtain ⟨h1, h2, h3⟩ := ieee_parts (eb := eb) (fb := fb) (e := 1) (f := 0) (by omega) hp false
  simp only [Bool.false_eq_true, if_false, Nat.zero_add, Nat.one_mul, Nat.add_zero] at h1 h2 h3
  unfold NumT.floatMinBits
  constructor
  · unfold IeeeNormal; omega
  · unfold ieee ieeeAbs
    rw [h3, h1, h2, if_neg (by omega), if_neg (by omega)]
    push_cast; ring

/-- places grow with the exponent -/
theorem place_mono {e e' : Nat} (h : e ≤ e') : (2 : ℚ) ^ ieeePlace eb fb e ≤ (2 : ℚ) ^ ieeePlace eb fb e' := by
  apply zpow_le_zpow_right₀ (by norm_num)
  unfold ieeePlace
  omega

theorem frac_lt (c : Nat) : ieeeFrac fb c < 2 ^ fb := Nat.mod_lt _ (Nat.pow_pos (by omega))

theorem abs_le_max (heb : 2 ≤ eb) {c : Nat} (h : IeeeFinite eb fb c) : ieeeAbs eb fb c ≤ ieee eb fb (NumT.floatMaxBits eb fb) := by
  have h4 := two_le_pow heb
  have hp : 0 < 2 ^ fb := Nat.pow_pos (by omega)
  rw [(ieee_max heb).2]
  have hf : ieeeFrac fb c ≤ 2 ^ fb - 1 := by have := frac_lt (fb := fb) c; omega
  have hf' : (ieeeFrac fb c : ℚ) ≤ (2 ^ fb - 1 : Nat) := by exact_mod_cast hf
  unfold ieeeAbs IeeeFinite at *
  split
  · refine mul_le_mul ?_ (place_mono (by omega)) (by positivity) (by positivity)
    have : (0 : ℚ) ≤ 2 ^ fb := by positivity
    linarith
  · exact mul_le_mul (by linarith) (place_mono (by omega)) (by positivity) (by positivity)

/-- C92. A reflected floating point type has the traits "min" and "max" as well. Whenever they are read, "max" is the greatest of the finite numbers of
the type - and its negative the least; but "min" is not the least: it is the least of the positive numbers that have the full precision. -/
theorem C92_float {p : Prog} {t : Ty} (ht : PlainCopy p t) (h1 : p.size t = 1) (hnc : p.w.env.conv t t = false) (heb : 2 ≤ eb)
    (hp : Heap) (hpos : 0 < hp.next) (m : Traits) (hmin : m.get "min".toList = none) (hmax : m.get "max".toList = none) :
    ∃ hp' m', p.addFloatLimits hp m t eb fb = .ok (hp', m') ∧ hp.Left hp' ∧ (∀ n, n ≠ "min".toList → n ≠ "max".toList → m'.get n = m.get n) ∧
      ∃ lo hi : Nat,
        (IeeeNormal eb fb lo ∧ 0 < ieee eb fb lo ∧ ∀ c, IeeeNormal eb fb c → 0 < ieee eb fb c → ieee eb fb lo ≤ ieee eb fb c) ∧
        (IeeeFinite eb fb hi ∧ ∀ c, IeeeFinite eb fb c → - ieee eb fb hi ≤ ieee eb fb c ∧ ieee eb fb c ≤ ieee eb fb hi) ∧
      ∀ later fuel, hp'.Left later →
        (∃ l a, p.getTrait (fuel + 1) later m' "min".toList t.val = .ok (l, some (.obj a true)) ∧ l.mem a = lo ∧ ∀ y < later.next, l.mem y = later.mem y) ∧
        ∃ l a, p.getTrait (fuel + 1) later m' "max".toList t.val = .ok (l, some (.obj a true)) ∧ l.mem a = hi ∧ ∀ y < later.next, l.mem y = later.mem y := by
  obtain ⟨hp', m', e1, e2, e3, e4⟩ := limits_read ht h1 hnc (NumT.floatMinBits fb) (NumT.floatMaxBits eb fb) hp hpos m hmin hmax
  obtain ⟨k1, k2⟩ := ieee_min (fb := fb) heb
  obtain ⟨k3, k4⟩ := ieee_max (fb := fb) heb
  refine ⟨hp', m', e1, e2, e3, NumT.floatMinBits fb, NumT.floatMaxBits eb fb, ⟨k1, by rw [k2]; positivity, ?_⟩, ⟨k3, ?_⟩, e4⟩
  · intro c hc h0
    rw [k2]
    have hs : ieee eb fb c = ieeeAbs eb fb c := by
      unfold ieee at *
      split at h0
      · have := ieeeAbs_nonneg (eb := eb) (fb := fb) c
        linarith
      · rename_i h; rw [if_neg h]
    rw [hs]
    unfold IeeeNormal at hc
    unfold ieeeAbs
    rw [if_neg (by omega)]
    refine mul_le_mul ?_ (place_mono hc.1) (by positivity) (by positivity)
    have : (0 : ℚ) ≤ ieeeFrac fb c := by positivity
    linarith
  · intro c hc
    have h5 := abs_le_max heb hc
    have h6 := ieeeAbs_nonneg (eb := eb) (fb := fb) c
    have h7 : ieee eb fb c = ieeeAbs eb fb c ∨ ieee eb fb c = - ieeeAbs eb fb c := by
      unfold ieee
      split
      · exact Or.inr rfl
      · exact Or.inl rfl
    rcases h7 with h7 | h7 <;> rw [h7] <;> constructor <;> linarith

/-- C92, a hazard: "min" is positive, so it is not the least number: the negative of "max" is finite and negative. -/
theorem C92_float_min_not_least (heb : 2 ≤ eb) :
    ∃ c, IeeeFinite eb fb c ∧ ieee eb fb c = - ieee eb fb (NumT.floatMaxBits eb fb) ∧ ieee eb fb c < 0 ∧ 0 < ieee eb fb (NumT.floatMinBits fb) := by
  have h4 := two_le_pow heb
  have hp : 0 < 2 ^ fb := Nat.pow_pos (by omega)
  obtain ⟨h1, h2, h3⟩ := ieee_parts (eb := eb) (fb := fb) (e := 2 ^ eb - 2) (f := 2 ^ fb - 1) (by omega) (by omega) true
  obtain ⟨k1, k2⟩ := ieee_min (fb := fb) heb
  obtain ⟨k3, k4⟩ := ieee_max (fb := fb) heb
  have hv : ieee eb fb ((if true then 2 ^ (eb + fb) else 0) + ((2 ^ eb - 2) * 2 ^ fb + (2 ^ fb - 1))) = - ieee eb fb (NumT.floatMaxBits eb fb) := by
    rw [k4]
    have h5 : ((if true then 2 ^ (eb + fb) else 0) + ((2 ^ eb - 2) * 2 ^ fb + (2 ^ fb - 1))) / 2 ^ (eb + fb) % 2 = 1 := h3
    unfold ieee ieeeAbs
    rw [if_pos h5, h1, h2, if_neg (by omega)]
  have hpos : 0 < ieee eb fb (NumT.floatMaxBits eb fb) := by
    rw [k4]; positivity
  exact ⟨_, by unfold IeeeFinite; rw [h1]; omega, hv, by rw [hv]; linarith, by rw [k2]; positivity⟩

/-- C92. The `double`s of JSON (C96) are those of this format. -/
theorem C92_double (x : UInt64) : ieee 11 52 x.toNat = Json.real x ∧ (IeeeFinite 11 52 x.toNat ↔ Json.IsFinite x) := by
  have hx := x.toNat_lt
  have h1 : ieeeExp 11 52 x.toNat = Json.expBits x := rfl
  have h2 : ieeeFrac 52 x.toNat = Json.fracBits x := rfl
  constructor
  · have habs : ieeeAbs 11 52 x.toNat = Json.magnitude x := by
      unfold ieeeAbs Json.magnitude
      rw [h1, h2]
      have p1 : ieeePlace 11 52 1 = -1074 := by unfold ieeePlace; norm_num
      have p2 : ieeePlace 11 52 (Json.expBits x) = (Json.expBits x : Int) - 1075 := by unfold ieeePlace; norm_num; ring
      rw [p1, p2]
    unfold ieee Json.real Json.signBit
    rw [habs]
    by_cases h : 2 ^ 63 ≤ x.toNat
    · rw [if_pos (by omega), if_pos (by simpa using h)]
    · rw [if_neg (by omega), if_neg (by simpa using h)]
  · unfold IeeeFinite Json.IsFinite
    rw [h1]
    exact Iff.rfl

end

/-- the limits of `float`, in the program of C91: the greatest is 3.4e38 -/
example : ∃ hp' m', NumberDemo.prog.addFloatLimits NumberDemo.heap [] 5 8 23 = .ok (hp', m') ∧
    ∃ l a, NumberDemo.prog.getTrait 3 hp' m' "max".toList (Ty.val 5) = .ok (l, some (.obj a true)) ∧ 34 * 10 ^ 37 < ieee 8 23 (l.mem a) := by
  have hpl := NumberDemo.plain 5 "float".toList (by simp)
  obtain ⟨hp', m', h1, -, -, lo, hi, -, ⟨h2, h3⟩, h4⟩ := C92_float (eb := 8) (fb := 23) hpl.1 hpl.2.1 hpl.2.2 (by decide) NumberDemo.heap (by decide)
    [] rfl rfl
  obtain ⟨-, l, a, e1, e2, -⟩ := h4 hp' 2 (.refl _)
  refine ⟨hp', m', h1, l, a, e1, ?_⟩
  rw [e2]
  have k := (h3 0x7F7FFFFF (by unfold IeeeFinite ieeeExp; decide)).2
  refine lt_of_lt_of_le ?_ k
  unfold ieee ieeeAbs ieeePlace ieeeExp ieeeFrac
  norm_num

end Reflect

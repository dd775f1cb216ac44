import Verif.Spec.Doubles
import Verif.Spec.JsonGrammar
import Mathlib.Tactic.Linarith
import Mathlib.Tactic.NormNum
import Mathlib.Tactic.Positivity
import Mathlib.Tactic.FieldSimp
import Mathlib.Tactic.Ring
import Mathlib.Data.Int.Log
import Mathlib.Algebra.Order.Round
import Mathlib.Data.Rat.Floor
/- Rounding to twelve digits, and doubles. -/
namespace Reflect.Json.Dbl

/-! ### rounding to twelve digits -/

theorem ten_pos (k : Int) : (0 : ℚ) < (10 : ℚ) ^ k := zpow_pos (by norm_num) k

theorem ten_add (a b : Int) : (10 : ℚ) ^ (a + b) = (10 : ℚ) ^ a * (10 : ℚ) ^ b := zpow_add₀ (by norm_num) a b

/-- the value of a rounded number -/
theorem rounded_value {r : ℚ} {D : Nat} {X : Int} (h : Rounded r D X) :
    ∃ (k : Int) (n : Nat), (10 : ℚ) ^ k ≤ r ∧ r < (10 : ℚ) ^ (k + 1) ∧ |n * (10 : ℚ) ^ (k - 11) - r| ≤ (10 : ℚ) ^ (k - 11) / 2 ∧
      (D : ℚ) * (10 : ℚ) ^ (X - 11) = n * (10 : ℚ) ^ (k - 11) := by
  obtain ⟨k, n, h1, h2, h3, h4, h5⟩ := h
  refine ⟨k, n, h1, h2, h3, ?_⟩
  rcases h5 with ⟨_, rfl, rfl⟩ | ⟨h5, h6, rfl⟩
  · rfl
  · subst h5 h6
    have : k + 1 - 11 = (k - 11) + 1 := by ring
    rw [this, ten_add]
    push_cast
    ring

/-- A number near one of at most twelve digits is rounded to it. -/
theorem rounded_near {r v : ℚ} {D d : Nat} {X q : Int} (h : Rounded r D X) (hd : d < 10 ^ 12)
    (hv : v = d * (10 : ℚ) ^ q) (hv0 : 0 < v) (hn : |r - v| ≤ v / 2 ^ 50) : (D : ℚ) * (10 : ℚ) ^ (X - 11) = v := by
  obtain ⟨k, n, h1, h2, h3, h4⟩ := rounded_value h
  rw [h4]
  have hu : (0 : ℚ) < (10 : ℚ) ^ (k - 11) := ten_pos _
  have e1 : (10 : ℚ) ^ k = 10 ^ 11 * (10 : ℚ) ^ (k - 11) := by
    have : k = (k - 11) + 11 := by ring
    conv_lhs => rw [this, ten_add]
    rw [mul_comm]; norm_num
  have e2 : (10 : ℚ) ^ (k + 1) = 10 ^ 12 * (10 : ℚ) ^ (k - 11) := by
    rw [ten_add, e1]; ring
  rw [e1] at h1
  rw [e2] at h2
  generalize hue : (10 : ℚ) ^ (k - 11) = u at *
  obtain ⟨hn1, hn2⟩ := abs_le.mp hn
  obtain ⟨h5, h6⟩ := abs_le.mp h3
  have hvu : v < (10 ^ 12 + 1) * u := by
    have : v * (1 - 1 / 2 ^ 50) < 10 ^ 12 * u := by linarith
    have h7 : (10 ^ 12 + 1) * u * (1 - 1 / 2 ^ 50) ≥ 10 ^ 12 * u := by
      have : (10 ^ 12 + 1) * u * (1 - 1 / 2 ^ 50) - 10 ^ 12 * u = u * (1 - (10 ^ 12 + 1) / 2 ^ 50) := by ring
      have h8 : (0 : ℚ) ≤ u * (1 - (10 ^ 12 + 1) / 2 ^ 50) := mul_nonneg hu.le (by norm_num)
      linarith
    nlinarith
  rcases le_or_gt (k - 11) q with hq | hq
  · -- a multiple of the unit
    obtain ⟨j, hj⟩ : ∃ j : Nat, q = (k - 11) + j := ⟨(q - (k - 11)).toNat, by omega⟩
    have hm : v = ((d * 10 ^ j : Nat) : ℚ) * u := by
      rw [hv, hj, ten_add, hue]; push_cast; rw [zpow_natCast]; ring
    generalize d * 10 ^ j = m at hm
    have hnm : |(n : ℚ) - m| * u < 1 * u := by
      have : |(n : ℚ) - m| * u = |n * u - v| := by rw [hm, ← sub_mul, abs_mul, abs_of_pos hu]
      rw [this]
      apply lt_of_le_of_lt (b := u / 2 + v / 2 ^ 50)
      · rw [abs_le]; constructor <;> linarith
      · have : v / 2 ^ 50 < u / 2 := by
          rw [div_lt_iff₀ (by norm_num)]
          nlinarith
        linarith
    have hlt := lt_of_mul_lt_mul_right hnm hu.le
    have : (n : Int) = m := by
      have h9 : |((n : Int) - m : Int)| < 1 := by
        have : ((|((n : Int) - m : Int)| : Int) : ℚ) < ((1 : Int) : ℚ) := by push_cast; exact hlt
        exact_mod_cast this
      have := Int.abs_lt_one_iff.mp h9
      omega
    have : (n : ℚ) = m := by exact_mod_cast this
    rw [this, hm]
  · exfalso
    have h10 : (10 : ℚ) ^ q ≤ u / 10 := by
      have : (10 : ℚ) ^ q ≤ (10 : ℚ) ^ (k - 11 + -1) := zpow_le_zpow_right₀ (by norm_num) (by omega)
      rw [ten_add, hue] at this
      simpa [div_eq_mul_inv] using this
    have h11 : (d : ℚ) ≤ 10 ^ 12 - 1 := by
      have : d + 1 ≤ 10 ^ 12 := hd
      have : ((d + 1 : Nat) : ℚ) ≤ ((10 ^ 12 : Nat) : ℚ) := by exact_mod_cast this
      push_cast at this
      linarith
    have h12 : v ≤ (10 ^ 12 - 1) * (u / 10) := by
      rw [hv]
      exact mul_le_mul h11 h10 (ten_pos _).le (by norm_num)
    nlinarith

/-- the digits and the exponent are those of the number -/
theorem digits_unique {D D' : Nat} {X X' : Int} (h1 : 10 ^ 11 ≤ D) (h2 : D < 10 ^ 12) (h1' : 10 ^ 11 ≤ D') (h2' : D' < 10 ^ 12)
    (h : (D : ℚ) * (10 : ℚ) ^ (X - 11) = D' * (10 : ℚ) ^ (X' - 11)) : D = D' ∧ X = X' := by
  have key : ∀ {D D' : Nat} {X X' : Int}, D < 10 ^ 12 → 10 ^ 11 ≤ D' →
      (D : ℚ) * (10 : ℚ) ^ (X - 11) = D' * (10 : ℚ) ^ (X' - 11) → X' ≤ X := by
    intro D D' X X' h2 h1' h
    apply Classical.byContradiction
    intro hlt
    have hle : (10 : ℚ) ^ (X - 11 + 1) ≤ (10 : ℚ) ^ (X' - 11) := zpow_le_zpow_right₀ (by norm_num) (by omega)
    rw [ten_add] at hle
    have hp := ten_pos (X - 11)
    have hD : (D : ℚ) < 10 ^ 12 := by exact_mod_cast h2
    have hD' : (10 : ℚ) ^ 11 ≤ D' := by exact_mod_cast h1'
    have a1 : (D : ℚ) * (10 : ℚ) ^ (X - 11) < 10 ^ 12 * (10 : ℚ) ^ (X - 11) := by nlinarith
    have a2 : (10 : ℚ) ^ 11 * ((10 : ℚ) ^ (X - 11) * (10 : ℚ) ^ (1 : Int)) ≤ D' * (10 : ℚ) ^ (X' - 11) :=
      mul_le_mul hD' hle (by positivity) (by linarith)
    norm_num at a2 a1
    linarith
  have hX : X = X' := le_antisymm (key h2' h1 h.symm) (key h2 h1' h)
  subst hX
  have := mul_right_cancel₀ (ne_of_gt (ten_pos (X - 11))) h
  exact ⟨by exact_mod_cast this, rfl⟩

/-! ### numerals -/

/-- decimal digits -/
def Decs (s : Bytes) : Prop := ∀ c ∈ s, isDec c = true

theorem digitsValue_foldl (b : Bytes) : ∀ n : Nat, b.foldl (fun n c => 10 * n + (c.toNat - 48)) n = n * 10 ^ b.length + digitsValue b := by
  induction b with
  | nil => intro n; simp [digitsValue]
  | cons c b ih =>
    intro n
    unfold digitsValue
    rw [List.foldl_cons, List.foldl_cons, ih, ih, List.length_cons, Nat.pow_succ]
    ring

theorem digitsValue_append (a b : Bytes) : digitsValue (a ++ b) = digitsValue a * 10 ^ b.length + digitsValue b := by
  unfold digitsValue
  rw [List.foldl_append, digitsValue_foldl]
  rfl

theorem digitsValue_zeros (j : Nat) : digitsValue (List.replicate j 48) = 0 := by
  induction j with
  | zero => rfl
  | succ j ih =>
    rw [List.replicate_succ, show (48 : Byte) :: List.replicate j 48 = [48] ++ List.replicate j 48 from rfl, digitsValue_append, ih]
    simp [digitsValue]

theorem digit_value {n : Nat} (h : n < 10) : (UInt8.ofNat (48 + n)).toNat - 48 = n ∧ isDec (UInt8.ofNat (48 + n)) = true := by
  have : ∀ n, n < 10 → (UInt8.ofNat (48 + n)).toNat - 48 = n ∧ isDec (UInt8.ofNat (48 + n)) = true := by decide
  exact this n h

theorem decDigits_value : ∀ (k n : Nat), n ≤ k → digitsValue (decDigits n) = n ∧ Decs (decDigits n) ∧ decDigits n ≠ [] := by
  intro k
  induction k with
  | zero =>
    intro n h
    obtain rfl : n = 0 := by omega
    unfold decDigits
    exact ⟨by decide, by intro c hc; revert hc; unfold decDigits; simp; rintro rfl; decide, by simp⟩
  | succ k ih =>
    intro n h
    unfold decDigits
    split
    · rename_i h10
      refine ⟨?_, ?_, by simp⟩
      · have h11 := (digit_value h10).1
        show 10 * 0 + ((UInt8.ofNat (48 + n)).toNat - 48) = n
        rw [h11]
        omega
      · intro c hc
        rw [List.mem_singleton] at hc
        subst hc
        exact (digit_value h10).2
    · obtain ⟨h1, h2, _⟩ := ih (n / 10) (by omega)
      have hd := digit_value (n := n % 10) (by omega)
      refine ⟨?_, ?_, by simp⟩
      · rw [digitsValue_append, h1]
        simp only [digitsValue, List.foldl_cons, List.foldl_nil, List.length_cons, List.length_nil, hd.1]
        omega
      · intro c hc
        rw [List.mem_append, List.mem_singleton] at hc
        rcases hc with hc | rfl
        · exact h2 c hc
        · exact hd.2

theorem decDigits_length : ∀ (k n : Nat), 10 ^ k ≤ n → n < 10 ^ (k + 1) → (decDigits n).length = k + 1 := by
  intro k
  induction k with
  | zero => intro n h1 h2; unfold decDigits; rw [if_pos (by omega)]; rfl
  | succ k ih =>
    intro n h1 h2
    have : 10 ≤ n := by rw [Nat.pow_succ] at h1; have := Nat.one_le_pow k 10 (by omega); omega
    unfold decDigits
    rw [if_neg (by omega), List.length_append, ih (n / 10) (by rw [Nat.pow_succ] at h1; omega) (by rw [Nat.pow_succ] at h2; omega)]
    rfl

theorem noZeros_spec (f : Bytes) : ∃ j, f = noZeros f ++ List.replicate j 48 := by
  unfold noZeros
  have h := List.takeWhile_append_dropWhile (p := (· = (48 : Byte))) (l := f.reverse)
  refine ⟨(f.reverse.takeWhile (· = 48)).length, ?_⟩
  have h2 : f.reverse.takeWhile (· = 48) = List.replicate (f.reverse.takeWhile (· = 48)).length 48 := by
    rw [List.eq_replicate_iff]
    refine ⟨rfl, fun b hb => ?_⟩
    have h4 := List.all_eq_true.mp (List.all_takeWhile (p := (· = (48 : Byte))) (l := f.reverse)) b hb
    simpa using h4
  have h3 := congrArg List.reverse h
  rw [List.reverse_append, List.reverse_reverse] at h3
  conv_lhs => rw [← h3]
  congr 1
  conv_lhs => rw [h2]
  rw [List.reverse_replicate]

theorem decs_append {a b : Bytes} (h1 : Decs a) (h2 : Decs b) : Decs (a ++ b) := by
  intro c hc
  rw [List.mem_append] at hc
  exact hc.elim (h1 c) (h2 c)

theorem decs_zeros (j : Nat) : Decs (List.replicate j 48) := by
  intro c hc
  rw [List.eq_of_mem_replicate hc]; decide

theorem decs_noZeros {f : Bytes} (h : Decs f) : Decs (noZeros f) := by
  obtain ⟨j, hj⟩ := noZeros_spec f
  intro c hc
  exact h c (by rw [hj]; exact List.mem_append_left _ hc)

/-- what ends digits -/
def Ends (x : Bytes) : Prop := ∀ c, x.head? = some c → isDec c = false

theorem span_digits {i x : Bytes} (hi : Decs i) (hx : Ends x) : (i ++ x).takeWhile isDec = i ∧ (i ++ x).dropWhile isDec = x := by
  have h1 : x.takeWhile isDec = [] ∧ x.dropWhile isDec = x := by
    cases x with
    | nil => exact ⟨rfl, rfl⟩
    | cons c x => simp [hx c rfl]
  rw [List.takeWhile_append_of_pos hi, List.dropWhile_append_of_pos hi, h1.1, h1.2]
  simp

theorem unsigned_pieces {a b x : Bytes} {e : Int} (ha : Decs a) (ha0 : a ≠ []) (hb : Decs b) (hx : exponent x = some e)
    (hx' : x = [] ∨ ∃ y, x = 101 :: y) :
    unsigned (a ++ pointed (noZeros b) ++ x) = some (digitsValue (a ++ b) * (10 : ℚ) ^ (e - (b.length : Int))) := by
  obtain ⟨j, hj⟩ := noZeros_spec b
  have hf := decs_noZeros hb
  have hval : (digitsValue (a ++ b) : ℚ) * (10 : ℚ) ^ (e - (b.length : Int)) =
      digitsValue (a ++ noZeros b) * (10 : ℚ) ^ (e - ((noZeros b).length : Int)) := by
    have h1 : digitsValue (a ++ b) = digitsValue (a ++ noZeros b) * 10 ^ j := by
      conv_lhs => rw [hj]
      rw [← List.append_assoc, digitsValue_append, digitsValue_zeros, List.length_replicate, Nat.add_zero]
    have h2 : (b.length : Int) = (noZeros b).length + j := by
      conv_lhs => rw [hj]
      rw [List.length_append, List.length_replicate]; push_cast; rfl
    rw [h1, h2]
    push_cast
    have h3 : (10 : ℚ) ^ (e - ((noZeros b).length : Int)) = (10 : ℚ) ^ (e - (((noZeros b).length : Int) + j)) * 10 ^ j := by
      rw [← zpow_natCast, ← ten_add]; congr 1; ring
    rw [h3]; ring
  have hex : Ends x := by
    intro c hc
    rcases hx' with rfl | ⟨y, rfl⟩
    · cases hc
    · injection hc with hc; subst hc; decide
  rw [hval]
  generalize noZeros b = f at *
  unfold unsigned
  rw [List.append_assoc]
  by_cases hf0 : f = []
  · subst hf0
    have hs := span_digits ha hex
    simp only [pointed, if_true, List.nil_append, hs.1, hs.2, ha0, if_false]
    have hfr : fraction x = ([], x) := by
      unfold fraction
      rcases hx' with rfl | ⟨y, rfl⟩ <;> rfl
    rw [hfr]
    simp [hx]
  · have hp : Ends (pointed f ++ x) := by
      intro c hc
      unfold pointed at hc
      rw [if_neg hf0] at hc
      injection hc with hc; subst hc; decide
    have hs := span_digits ha hp
    simp only [hs.1, hs.2, ha0, if_false]
    have hfr : fraction (pointed f ++ x) = (f, x) := by
      have h2 := span_digits hf hex
      unfold pointed
      rw [if_neg hf0]
      show ((f ++ x).takeWhile isDec, (f ++ x).dropWhile isDec) = _
      rw [h2.1, h2.2]
    rw [hfr]
    simp [hx]

theorem numeral_signed {s : Bytes} (neg : Bool) {v : ℚ} (h : unsigned s = some v) :
    numeral ((if neg then [45] else []) ++ s) = some (if neg then -v else v) := by
  cases neg with
  | true => simp [numeral, h]
  | false =>
    simp only [Bool.false_eq_true, if_false, List.nil_append]
    unfold numeral
    split
    · rename_i s
      exfalso
      unfold unsigned at h
      have : (45 :: s).takeWhile isDec = [] := by rw [List.takeWhile_cons_of_neg]; decide
      simp [this] at h
    · exact h

/-- the exponent that is written -/
theorem exponent_written (X : Int) :
    exponent (101 :: (if X < 0 then 45 else 43) :: (if X.natAbs < 10 then [48] else []) ++ decDigits X.natAbs) = some X := by
  rw [List.cons_append, List.cons_append]
  obtain ⟨h1, h2, h3⟩ := decDigits_value X.natAbs X.natAbs (Nat.le_refl _)
  have hz : Decs ((if X.natAbs < 10 then [48] else []) ++ decDigits X.natAbs) := by
    apply decs_append _ h2
    intro c hc
    split at hc
    · rw [List.mem_singleton] at hc; subst hc; decide
    · cases hc
  have hv : digitsValue ((if X.natAbs < 10 then [48] else []) ++ decDigits X.natAbs) = X.natAbs := by
    rw [digitsValue_append, h1]
    split <;> simp [digitsValue]
  have hne : (if X.natAbs < 10 then [48] else []) ++ decDigits X.natAbs ≠ [] := by simp [h3]
  generalize (if X.natAbs < 10 then [48] else []) ++ decDigits X.natAbs = ds at *
  have hall : ds.all isDec = true := List.all_eq_true.mpr hz
  have hg : ((ds ≠ []) ∧ (ds.all isDec = true)) := ⟨hne, hall⟩
  by_cases hX : X < 0
  · show exponent (101 :: (if X < 0 then 45 else 43) :: ds) = some X
    rw [if_pos hX]
    show (if ds ≠ [] ∧ ds.all isDec = true then some (-(digitsValue ds : Int)) else none) = some X
    rw [if_pos hg, hv]
    congr 1
    omega
  · show exponent (101 :: (if X < 0 then 45 else 43) :: ds) = some X
    rw [if_neg hX]
    show (if ds ≠ [] ∧ ds.all isDec = true then some (digitsValue ds : Int) else none) = some X
    rw [if_pos hg, hv]
    congr 1
    omega

theorem decs_take {s : Bytes} (h : Decs s) (n : Nat) : Decs (s.take n) := fun c hc => h c (List.mem_of_mem_take hc)
theorem decs_drop {s : Bytes} (h : Decs s) (n : Nat) : Decs (s.drop n) := fun c hc => h c (List.mem_of_mem_drop hc)

theorem take_ne {s : Bytes} (h : s.length = 11 + 1) (n : Nat) : s.take (n + 1) ≠ [] := by
  cases s with
  | nil => cases h
  | cons c s => simp

/-- What is written stands for the number. -/
theorem unsigned_gText {D : Nat} {X : Int} (h1 : 10 ^ 11 ≤ D) (h2 : D < 10 ^ 12) :
    unsigned (gText false D X) = some ((D : ℚ) * (10 : ℚ) ^ (X - 11)) := by
  have hl := decDigits_length 11 D h1 h2
  obtain ⟨hv, hd, -⟩ := decDigits_value D D (Nat.le_refl _)
  unfold gText
  simp only [Bool.false_eq_true, if_false, List.nil_append]
  generalize decDigits D = ds at *
  split
  · split
    · have h := unsigned_pieces (a := ds.take (X.toNat + 1)) (b := ds.drop (X.toNat + 1)) (x := []) (e := 0)
        (decs_take hd _) (take_ne hl _)
        (decs_drop hd _) rfl (Or.inl rfl)
      rw [List.append_nil, List.take_append_drop, hv] at h
      rw [h, List.length_drop, hl]
      congr 3
      omega
    · have hz : Decs (List.replicate (-X - 1).toNat (48 : Byte) ++ ds) := decs_append (decs_zeros _) hd
      have h := unsigned_pieces (a := [48]) (b := List.replicate (-X - 1).toNat 48 ++ ds) (x := []) (e := 0)
        (by intro c hc; rw [List.mem_singleton] at hc; subst hc; decide) (by simp) hz rfl (Or.inl rfl)
      rw [List.append_nil] at h
      rw [show (48 : Byte) :: pointed (noZeros (List.replicate (-X - 1).toNat 48 ++ ds)) =
        [48] ++ pointed (noZeros (List.replicate (-X - 1).toNat 48 ++ ds)) from rfl, h, ← List.append_assoc, digitsValue_append, hv]
      have : digitsValue ([48] ++ List.replicate (-X - 1).toNat 48) = 0 := digitsValue_zeros ((-X - 1).toNat + 1)
      rw [this, Nat.zero_mul, Nat.zero_add, List.length_append, List.length_replicate, hl]
      congr 3
      omega
  · have h := unsigned_pieces (a := ds.take 1) (b := ds.drop 1) (e := X)
        (decs_take hd _) (take_ne hl _)
        (decs_drop hd _) (exponent_written X) (Or.inr ⟨_, rfl⟩)
    rw [List.take_append_drop, hv, List.length_drop, hl] at h
    rw [List.append_assoc]
    exact h

theorem gText_signed (neg : Bool) (D : Nat) (X : Int) : gText neg D X = (if neg then [45] else []) ++ gText false D X := by
  unfold gText; simp

theorem numeral_gText {D : Nat} {X : Int} (neg : Bool) (h1 : 10 ^ 11 ≤ D) (h2 : D < 10 ^ 12) :
    numeral (gText neg D X) = some (if neg then -((D : ℚ) * (10 : ℚ) ^ (X - 11)) else (D : ℚ) * (10 : ℚ) ^ (X - 11)) := by
  rw [gText_signed]
  exact numeral_signed neg (unsigned_gText h1 h2)

theorem rounded_digits {r : ℚ} {D : Nat} {X : Int} (h : Rounded r D X) : 10 ^ 11 ≤ D ∧ D < 10 ^ 12 := by
  obtain ⟨k, n, _, _, _, h4, h5⟩ := h
  rcases h5 with ⟨h5, rfl, _⟩ | ⟨_, rfl, _⟩
  · exact ⟨h4, h5⟩
  · norm_num

/-! ### doubles -/

theorem magnitude_nonneg (x : UInt64) : 0 ≤ magnitude x := by
  unfold magnitude
  split
  · have : (0 : ℚ) < (2 : ℚ) ^ (-1074 : Int) := zpow_pos (by norm_num) _
    positivity
  · have : (0 : ℚ) < (2 : ℚ) ^ ((expBits x : Int) - 1075) := zpow_pos (by norm_num) _
    positivity

theorem real_abs (x : UInt64) : |real x| = magnitude x := by
  unfold real
  split
  · rw [abs_neg, abs_of_nonneg (magnitude_nonneg x)]
  · exact abs_of_nonneg (magnitude_nonneg x)

/-- a double of given sign, exponent and fraction -/
theorem double_of (s : Bool) {e f : Nat} (h1 : 1 ≤ e) (h2 : e < 2047) (h3 : f < 2 ^ 52) :
    ∃ y : UInt64, IsFinite y ∧ signBit y = s ∧ magnitude y = (2 ^ 52 + f) * (2 : ℚ) ^ ((e : Int) - 1075) := by
  have hn : (if s then 2 ^ 63 else 0) + e * 2 ^ 52 + f < 2 ^ 64 := by split <;> omega
  refine ⟨UInt64.ofNat ((if s then 2 ^ 63 else 0) + e * 2 ^ 52 + f), ?_, ?_, ?_⟩
  · unfold IsFinite expBits
    rw [UInt64.toNat_ofNat_of_lt' hn]
    split <;> omega
  · unfold signBit
    rw [UInt64.toNat_ofNat_of_lt' hn]
    cases s <;> simp <;> omega
  · have he : expBits (UInt64.ofNat ((if s then 2 ^ 63 else 0) + e * 2 ^ 52 + f)) = e := by
      unfold expBits
      rw [UInt64.toNat_ofNat_of_lt' hn]
      split <;> omega
    have hf : fracBits (UInt64.ofNat ((if s then 2 ^ 63 else 0) + e * 2 ^ 52 + f)) = f := by
      unfold fracBits
      rw [UInt64.toNat_ofNat_of_lt' hn]
      split <;> omega
    unfold magnitude
    rw [he, hf, if_neg (by omega)]

theorem two_pos (k : Int) : (0 : ℚ) < (2 : ℚ) ^ k := zpow_pos (by norm_num) k
theorem two_add (a b : Int) : (2 : ℚ) ^ (a + b) = (2 : ℚ) ^ a * (2 : ℚ) ^ b := zpow_add₀ (by norm_num) a b

/-- There is a double near every number in the range. -/
theorem double_near {v : ℚ} (h : Normal v) : ∃ y, IsFinite y ∧ |real y - v| ≤ |v| / 2 ^ 53 := by
  obtain ⟨hlo, hhi⟩ := h
  have hr0 : 0 < |v| := lt_of_lt_of_le (two_pos _) hlo
  generalize hr : |v| = r at *
  have hk1 : ((2 : Nat) : ℚ) ^ Int.log 2 r ≤ r := Int.zpow_log_le_self (by norm_num) hr0
  have hk2 : r < ((2 : Nat) : ℚ) ^ (Int.log 2 r + 1) := Int.lt_zpow_succ_log_self (by norm_num) r
  generalize Int.log 2 r = k at *
  push_cast at hk1 hk2
  have hkl : -1022 ≤ k := by
    have : (2 : ℚ) ^ (-1022 : Int) < (2 : ℚ) ^ (k + 1) := lt_of_le_of_lt hlo hk2
    have := (zpow_lt_zpow_iff_right₀ (by norm_num : (1 : ℚ) < 2)).mp this
    omega
  have hkh : k ≤ 1023 := by
    have h1 : (2 : ℚ) ^ k ≤ (2 ^ 53 - 1) * (2 : ℚ) ^ (971 : Int) := le_trans hk1 hhi
    have h2 : ((2 : ℚ) ^ 53 - 1) * (2 : ℚ) ^ (971 : Int) < (2 : ℚ) ^ (53 : Int) * (2 : ℚ) ^ (971 : Int) :=
      mul_lt_mul_of_pos_right (by norm_num) (two_pos _)
    rw [← two_add] at h2
    have := (zpow_lt_zpow_iff_right₀ (by norm_num : (1 : ℚ) < 2)).mp (lt_of_le_of_lt h1 h2)
    omega
  have hu := two_pos (k - 52)
  have e1 : (2 : ℚ) ^ k = 2 ^ 52 * (2 : ℚ) ^ (k - 52) := by
    have : k = (k - 52) + 52 := by ring
    conv_lhs => rw [this, two_add]
    rw [mul_comm]; norm_num
  have e2 : (2 : ℚ) ^ (k + 1) = 2 ^ 53 * (2 : ℚ) ^ (k - 52) := by rw [two_add, e1]; ring
  rw [e1] at hk1
  rw [e2] at hk2
  have hm := abs_sub_round (r / (2 : ℚ) ^ (k - 52))
  have hq1 : 2 ^ 52 ≤ r / (2 : ℚ) ^ (k - 52) := (le_div_iff₀ hu).mpr hk1
  have hq2 : r / (2 : ℚ) ^ (k - 52) < 2 ^ 53 := (div_lt_iff₀ hu).mpr hk2
  have hq3 : k = 1023 → r / (2 : ℚ) ^ (k - 52) ≤ 2 ^ 53 - 1 := by
    rintro rfl
    exact (div_le_iff₀ hu).mpr hhi
  have hrq : r = r / (2 : ℚ) ^ (k - 52) * (2 : ℚ) ^ (k - 52) := by field_simp
  generalize r / (2 : ℚ) ^ (k - 52) = t at *
  generalize round t = z at *
  obtain ⟨hm1, hm2⟩ := abs_le.mp hm
  have hz1 : (2 ^ 52 : Int) ≤ z := by
    have : ((2 ^ 52 - 1 : Int) : ℚ) < z := by push_cast; linarith
    have := Int.cast_lt.mp this
    omega
  have hz2 : z ≤ (2 ^ 53 : Int) := by
    have : (z : ℚ) < ((2 ^ 53 + 1 : Int) : ℚ) := by push_cast; linarith
    have := Int.cast_lt.mp this
    omega
  have hz3 : k = 1023 → z ≤ (2 ^ 53 - 1 : Int) := by
    intro hk
    have h9 := hq3 hk
    have : (z : ℚ) < ((2 ^ 53 : Int) : ℚ) := by push_cast; linarith
    have := Int.cast_lt.mp this
    omega
  -- the double of the magnitude `z * 2 ^ (k - 52)`
  have hex : ∃ y, IsFinite y ∧ signBit y = decide (v < 0) ∧ magnitude y = z * (2 : ℚ) ^ (k - 52) := by
    rcases Int.lt_or_eq_of_le hz2 with hz | hz
    · obtain ⟨y, y1, y2, y3⟩ := double_of (decide (v < 0)) (e := (k + 1023).toNat) (f := (z - 2 ^ 52).toNat)
        (by omega) (by omega) (by omega)
      refine ⟨y, y1, y2, ?_⟩
      rw [y3]
      have a1 : (((k + 1023).toNat : Nat) : Int) - 1075 = k - 52 := by omega
      have a2 : (((z - 2 ^ 52).toNat : Nat) : Int) = z - 2 ^ 52 := by omega
      have a3 : (((z - 2 ^ 52).toNat : Nat) : ℚ) = z - 2 ^ 52 := by
        rw [← Int.cast_natCast, a2]; push_cast; rfl
      rw [a1, a3]; ring
    · have hk : k ≠ 1023 := fun hk => by have := hz3 hk; omega
      obtain ⟨y, y1, y2, y3⟩ := double_of (decide (v < 0)) (e := (k + 1024).toNat) (f := 0) (by omega) (by omega) (by omega)
      refine ⟨y, y1, y2, ?_⟩
      rw [y3]
      have a1 : (((k + 1024).toNat : Nat) : Int) - 1075 = (k - 52) + 1 := by omega
      rw [a1, two_add, hz]; push_cast; ring
  obtain ⟨y, y1, y2, y3⟩ := hex
  refine ⟨y, y1, ?_⟩
  have hd : |real y - v| = |z * (2 : ℚ) ^ (k - 52) - r| := by
    unfold real
    rw [y2, y3]
    by_cases hv : v < 0
    · rw [abs_of_neg hv] at hr
      simp only [hv, decide_true, if_true]
      rw [← abs_neg, ← hr]; congr 1; ring
    · rw [abs_of_nonneg (not_lt.mp hv)] at hr
      simp only [hv, decide_false, Bool.false_eq_true, if_false]
      rw [hr]
  rw [hd, hrq, ← sub_mul, abs_mul, abs_of_pos hu, abs_sub_comm]
  have : |t - (z : ℚ)| ≤ t / 2 ^ 53 := le_trans hm (by
    rw [le_div_iff₀ (by norm_num)]; linarith)
  calc |t - (z : ℚ)| * (2 : ℚ) ^ (k - 52) ≤ t / 2 ^ 53 * (2 : ℚ) ^ (k - 52) := mul_le_mul_of_nonneg_right this hu.le
    _ = t * (2 : ℚ) ^ (k - 52) / 2 ^ 53 := by ring

/-- The nearest double is near, and has the sign of the number. -/
theorem nearest_near {x : UInt64} {v : ℚ} (h : Nearest x v) (hv : Normal v) :
    |magnitude x - (|v|)| ≤ |v| / 2 ^ 53 ∧ signBit x = decide (v < 0) ∧ magnitude x ≠ 0 := by
  obtain ⟨y, y1, y2⟩ := double_near hv
  have hn := le_trans (h.2 y y1) y2
  have hr0 : 0 < |v| := lt_of_lt_of_le (two_pos _) hv.1
  have hm := magnitude_nonneg x
  obtain ⟨h1, h2⟩ := abs_le.mp hn
  have hs : |v| / 2 ^ 53 < |v| := by
    rw [div_lt_iff₀ (by norm_num)]; nlinarith
  have hsg : signBit x = decide (v < 0) := by
    by_cases hv0 : v < 0
    · rw [abs_of_neg hv0] at *
      unfold real at *
      split at h1 <;> simp_all
      linarith
    · have hv1 := not_lt.mp hv0
      rw [abs_of_nonneg hv1] at *
      unfold real at *
      split at h1 <;> simp_all
      linarith
  have hd : |magnitude x - (|v|)| ≤ |v| / 2 ^ 53 := by
    refine le_trans (le_of_eq ?_) hn
    unfold real
    rw [hsg]
    by_cases hv0 : v < 0
    · rw [abs_of_neg hv0]
      simp only [hv0, decide_true, if_true]
      rw [← abs_neg]; congr 1; ring
    · rw [abs_of_nonneg (not_lt.mp hv0)]
      simp only [hv0, decide_false, Bool.false_eq_true, if_false]
  refine ⟨hd, hsg, fun h0 => ?_⟩
  rw [h0, zero_sub, abs_neg, abs_abs] at hd
  linarith

/-! ### the form of what is written -/

theorem digitsValue_lt {s : Bytes} (h : Decs s) : digitsValue s < 10 ^ s.length := by
  induction s with
  | nil => decide
  | cons c s ih =>
    have hc := h c (List.mem_cons_self ..)
    have := ih fun d hd => h d (List.mem_cons_of_mem _ hd)
    unfold isDec at hc
    simp at hc
    rw [show c :: s = [c] ++ s from rfl, digitsValue_append]
    have h1 : digitsValue [c] ≤ 9 := by
      show 10 * 0 + (c.toNat - 48) ≤ 9
      omega
    have h2 : digitsValue [c] * 10 ^ s.length ≤ 9 * 10 ^ s.length := Nat.mul_le_mul_right _ h1
    rw [List.length_append, Nat.pow_add, show [c].length = 1 from rfl]
    omega

theorem dropWhile_head {α : Type} (p : α → Bool) (l : List α) {c : α} {t : List α} (h : l.dropWhile p = c :: t) : p c = false := by
  induction l with
  | nil => cases h
  | cons a l ih =>
    rw [List.dropWhile_cons] at h
    split at h
    · exact ih h
    · injection h with h1 h2
      subst h1
      rename_i hp
      simpa using hp

theorem noZeros_nil {f : Bytes} (h : Decs f) : noZeros f = [] ↔ digitsValue f = 0 := by
  obtain ⟨j, hj⟩ := noZeros_spec f
  constructor
  · intro h0
    rw [hj, h0, List.nil_append, digitsValue_zeros]
  · intro h0
    apply Classical.byContradiction
    intro hne
    rw [hj, digitsValue_append, digitsValue_zeros, Nat.add_zero] at h0
    have h1 : digitsValue (noZeros f) = 0 := by
      rcases Nat.mul_eq_zero.mp h0 with h | h
      · exact h
      · exact absurd h (Nat.pos_iff_ne_zero.mp (Nat.pow_pos (by omega)))
    have hd := decs_noZeros h
    unfold noZeros at hne h1 hd
    cases hr : f.reverse.dropWhile (· = 48) with
    | nil => exact hne (by rw [hr]; rfl)
    | cons c t =>
      have hc := dropWhile_head _ _ hr
      rw [hr, List.reverse_cons] at h1 hd
      rw [digitsValue_append] at h1
      have h2 : digitsValue [c] = 0 := by omega
      have h3 : 10 * 0 + (c.toNat - 48) = 0 := h2
      have h4 := hd c (by simp)
      unfold isDec at h4
      simp at h4 hc
      apply hc
      apply UInt8.toNat_inj.mp
      show c.toNat = 48
      omega

theorem decs_digits {s : Bytes} (h : Decs s) : Digits s := by
  intro c hc
  have := h c hc
  unfold isDec at this
  simpa using this

theorem int_form {c : Byte} {ds : Bytes} (neg : Bool) (h : Decs (c :: ds)) (hc : c = 48 → ds = []) :
    IntGram ((if neg then [45] else []) ++ c :: ds) :=
  ⟨_, c, ds, rfl, by cases neg <;> simp, decs_digits h, hc⟩

theorem float_form {c : Byte} {ds f x : Bytes} (neg : Bool) (h : Decs (c :: ds)) (hc : c = 48 → ds = []) (hf : Decs f)
    (hx : ExpGram x) (hfx : f ≠ [] ∨ x ≠ []) : FloatGram ((if neg then [45] else []) ++ (c :: ds ++ pointed f ++ x)) := by
  refine ⟨(if neg then [45] else []) ++ c :: ds, pointed f, x, by simp, int_form neg h hc, ?_, hx, ?_⟩
  · unfold pointed
    split
    · exact Or.inl rfl
    · rename_i h0
      exact Or.inr ⟨f, rfl, h0, decs_digits hf⟩
  · unfold pointed
    rcases hfx with h0 | h0
    · left; rw [if_neg h0]; simp
    · exact Or.inr h0

theorem exp_form (X : Int) : ExpGram (101 :: (if X < 0 then 45 else 43) :: (if X.natAbs < 10 then [48] else []) ++ decDigits X.natAbs) := by
  obtain ⟨h1, h2, h3⟩ := decDigits_value X.natAbs X.natAbs (Nat.le_refl _)
  refine Or.inr ⟨101, [if X < 0 then 45 else 43], (if X.natAbs < 10 then [48] else []) ++ decDigits X.natAbs, by simp, Or.inl rfl, ?_,
    by simp [h3], decs_digits (decs_append ?_ h2)⟩
  · split <;> simp
  · intro c hc
    split at hc
    · rw [List.mem_singleton] at hc; subst hc; decide
    · cases hc

/-- the digits begin with one that is not zero -/
theorem first_digit {D : Nat} (h1 : 10 ^ 11 ≤ D) (h2 : D < 10 ^ 12) : ∃ c ds, decDigits D = c :: ds ∧ c ≠ 48 := by
  have hl := decDigits_length 11 D h1 h2
  obtain ⟨hv, hd, -⟩ := decDigits_value D D (Nat.le_refl _)
  cases hds : decDigits D with
  | nil => rw [hds] at hl; cases hl
  | cons c ds =>
    refine ⟨c, ds, rfl, ?_⟩
    rintro rfl
    rw [hds] at hl hv hd
    rw [show (48 : Byte) :: ds = [48] ++ ds from rfl, digitsValue_append] at hv
    have h3 : digitsValue [48] = 0 := by decide
    have h4 := digitsValue_lt (s := ds) fun c hc => hd c (List.mem_cons_of_mem _ hc)
    have h5 : ds.length = 11 := by simpa using hl
    rw [h5] at h4
    rw [h3] at hv
    omega

/-- What is written looks like an integer if the number is one below `10^12`, otherwise like a real number. -/
theorem gText_form {D : Nat} {X : Int} (neg : Bool) (h1 : 10 ^ 11 ≤ D) (h2 : D < 10 ^ 12) :
    (0 ≤ X ∧ X < 12 ∧ D % 10 ^ (11 - X).toNat = 0 → IntGram (gText neg D X)) ∧
    (¬ (0 ≤ X ∧ X < 12 ∧ D % 10 ^ (11 - X).toNat = 0) → FloatGram (gText neg D X)) := by
  have hl := decDigits_length 11 D h1 h2
  obtain ⟨hv, hd, -⟩ := decDigits_value D D (Nat.le_refl _)
  obtain ⟨c, ds, hc, hc0⟩ := first_digit h1 h2
  have key : ∀ n, n ≤ 11 → (noZeros ((decDigits D).drop (n + 1)) = [] ↔ D % 10 ^ (11 - n) = 0) := by
    intro n hn
    rw [noZeros_nil (decs_drop hd _)]
    have h3 := digitsValue_append ((decDigits D).take (n + 1)) ((decDigits D).drop (n + 1))
    rw [List.take_append_drop, hv, List.length_drop, hl] at h3
    have h4 := digitsValue_lt (decs_drop hd (n + 1))
    rw [List.length_drop, hl] at h4
    rw [show 11 + 1 - (n + 1) = 11 - n by omega] at h3 h4
    have h5 : D % 10 ^ (11 - n) = digitsValue ((decDigits D).drop (n + 1)) := by
      conv_lhs => rw [h3]
      rw [Nat.mul_comm, Nat.mul_add_mod, Nat.mod_eq_of_lt h4]
    rw [h5]
  have htake : ∀ n, (decDigits D).take (n + 1) = c :: ds.take n := by intro n; rw [hc]; rfl
  have hdt : ∀ n, Decs (c :: ds.take n) := fun n => by rw [← htake]; exact decs_take hd _
  unfold gText
  by_cases hX : -4 ≤ X ∧ X < 12
  · by_cases h0 : 0 ≤ X
    · rw [if_pos hX, if_pos h0, htake]
      have hk := key X.toNat (by omega)
      rw [show 11 - X.toNat = (11 - X).toNat by omega] at hk
      constructor
      · rintro ⟨_, _, hz⟩
        rw [hk.mpr hz]
        have := int_form neg (hdt X.toNat) (fun h => absurd h hc0)
        simpa [pointed] using this
      · intro hz
        have := float_form (x := []) neg (hdt X.toNat) (fun h => absurd h hc0) (decs_noZeros (decs_drop hd (X.toNat + 1))) (Or.inl rfl)
          (Or.inl fun h => hz ⟨h0, hX.2, hk.mp h⟩)
        rwa [List.append_nil] at this
    · rw [if_pos hX, if_neg h0]
      refine ⟨fun h => absurd h.1 h0, fun _ => ?_⟩
      have hz : Decs (List.replicate (-X - 1).toNat (48 : Byte) ++ decDigits D) := decs_append (decs_zeros _) hd
      have := float_form (c := 48) (ds := []) (x := []) neg (by intro c hc; rw [List.mem_singleton] at hc; subst hc; decide) (fun _ => rfl)
        (decs_noZeros hz) (Or.inl rfl)
        (Or.inl fun h => by
          have h5 := (noZeros_nil hz).mp h
          rw [digitsValue_append, digitsValue_zeros, hv] at h5
          omega)
      rwa [List.append_nil] at this
  · rw [if_neg hX]
    refine ⟨fun h => absurd ⟨by omega, h.2.1⟩ hX, fun _ => ?_⟩
    have := float_form (x := 101 :: (if X < 0 then 45 else 43) :: (if X.natAbs < 10 then [48] else []) ++ decDigits X.natAbs)
      neg (hdt 0) (fun h => absurd h hc0) (decs_noZeros (decs_drop hd 1)) (exp_form X) (Or.inr (by simp))
    rw [← htake 0] at this
    simpa using this

/-- a whole number below `10^12` in absolute value -/
theorem whole_iff {D : Nat} {X : Int} (h1 : 10 ^ 11 ≤ D) (h2 : D < 10 ^ 12) :
    (0 ≤ X ∧ X < 12 ∧ D % 10 ^ (11 - X).toNat = 0) ↔
      ((∃ z : Int, (D : ℚ) * (10 : ℚ) ^ (X - 11) = z) ∧ (D : ℚ) * (10 : ℚ) ^ (X - 11) < 10 ^ 12) := by
  have hD1 : (10 : ℚ) ^ 11 ≤ D := by exact_mod_cast h1
  have hD2 : (D : ℚ) < 10 ^ 12 := by exact_mod_cast h2
  constructor
  · rintro ⟨h3, h4, h5⟩
    have h6 : (10 : ℚ) ^ (X - 11) ≤ 1 := zpow_le_one_of_nonpos₀ (by norm_num) (by omega)
    refine ⟨?_, by have := ten_pos (X - 11); nlinarith⟩
    obtain ⟨m, hm⟩ := Nat.dvd_of_mod_eq_zero h5
    refine ⟨m, ?_⟩
    obtain ⟨j, hj⟩ : ∃ j : Nat, (11 - X).toNat = j ∧ X - 11 = -(j : Int) := ⟨_, rfl, by omega⟩
    rw [hj.1] at hm
    rw [hj.2, hm, zpow_neg, zpow_natCast]
    push_cast
    field_simp
  · rintro ⟨⟨z, hz⟩, h4⟩
    have hX0 : 0 ≤ X := by
      apply Classical.byContradiction
      intro h5
      have h6 : (10 : ℚ) ^ (X - 11) ≤ (10 : ℚ) ^ (-12 : Int) := zpow_le_zpow_right₀ (by norm_num) (by omega)
      have h7 := ten_pos (X - 11)
      have h8 : (D : ℚ) * (10 : ℚ) ^ (X - 11) < 1 := by
        have : (10 : ℚ) ^ (-12 : Int) = 1 / 10 ^ 12 := by norm_num
        rw [this] at h6
        nlinarith
      have h9 : 0 < (D : ℚ) * (10 : ℚ) ^ (X - 11) := by nlinarith
      rw [hz] at h8 h9
      have : z < 1 := by exact_mod_cast h8
      have : 0 < z := by exact_mod_cast h9
      omega
    have hX12 : X < 12 := by
      apply Classical.byContradiction
      intro h5
      have h6 : (10 : ℚ) ^ (1 : Int) ≤ (10 : ℚ) ^ (X - 11) := zpow_le_zpow_right₀ (by norm_num) (by omega)
      norm_num at h6
      nlinarith
    refine ⟨hX0, hX12, ?_⟩
    obtain ⟨j, hj⟩ : ∃ j : Nat, (11 - X).toNat = j ∧ X - 11 = -(j : Int) := ⟨_, rfl, by omega⟩
    rw [hj.1]
    rw [hj.2, zpow_neg, zpow_natCast] at hz
    have h10 : (D : ℚ) = z * 10 ^ j := by field_simp at hz; linarith
    have h11 : (D : Int) = z * 10 ^ j := by exact_mod_cast h10
    have h12 : ((10 ^ j : Nat) : Int) ∣ (D : Int) := ⟨z, by rw [h11]; push_cast; ring⟩
    exact Nat.mod_eq_zero_of_dvd (Int.natCast_dvd_natCast.mp h12)


theorem noZeros_length (f : Bytes) : (noZeros f).length ≤ f.length := by
  obtain ⟨j, hj⟩ := noZeros_spec f
  have := congrArg List.length hj
  rw [List.length_append] at this
  omega

/-- a whole number is short -/
theorem gText_length {D : Nat} {X : Int} (neg : Bool) (h1 : 10 ^ 11 ≤ D) (h2 : D < 10 ^ 12) (h0 : 0 ≤ X) (h12 : X < 12) :
    (gText neg D X).length ≤ 14 := by
  have hl := decDigits_length 11 D h1 h2
  have h3 := noZeros_length ((decDigits D).drop (X.toNat + 1))
  have h4 : (pointed (noZeros ((decDigits D).drop (X.toNat + 1)))).length ≤ 1 + (noZeros ((decDigits D).drop (X.toNat + 1))).length := by
    unfold pointed
    split
    · simp
    · simp; omega
  have h5 : (if neg = true then ([45] : Bytes) else []).length ≤ 1 := by cases neg <;> simp
  unfold gText
  have hX : -4 ≤ X ∧ X < 12 := ⟨by omega, h12⟩
  rw [if_pos hX, if_pos h0, List.length_append, List.length_append, List.length_take, hl]
  rw [List.length_drop, hl] at h3
  omega

/-! ### numbers of JSON are numerals -/

theorem digits_decs {s : Bytes} (h : Digits s) : Decs s := by
  intro c hc
  have := h c hc
  unfold isDec
  simpa using this

theorem exponent_gram {x : Bytes} (h : ExpGram x) : (∃ e, exponent x = some e) ∧ (x = [] ∨ ∃ e y, x = e :: y ∧ (e = 101 ∨ e = 69)) := by
  rcases h with rfl | ⟨e, sg, ds, rfl, he, hsg, hne, hd⟩
  · exact ⟨⟨0, rfl⟩, Or.inl rfl⟩
  · refine ⟨?_, Or.inr ⟨e, _, rfl, he⟩⟩
    have hall : ds ≠ [] ∧ ds.all isDec = true := ⟨hne, List.all_eq_true.mpr (digits_decs hd)⟩
    unfold exponent
    simp only [if_pos he]
    rcases hsg with rfl | rfl | rfl
    · rw [List.nil_append]
      cases ds with
      | nil => exact absurd rfl hne
      | cons c ds =>
        have hc := hd c (List.mem_cons_self ..)
        split
        · rename_i h
          injection h with h _
          subst h
          exact absurd hc.1 (by decide)
        · rename_i h
          injection h with h _
          subst h
          exact absurd hc.1 (by decide)
        · exact ⟨_, if_pos hall⟩
    · exact ⟨_, if_pos hall⟩
    · exact ⟨_, if_pos hall⟩

theorem unsigned_gram {i f x : Bytes} (hi : Decs i) (hi0 : i ≠ []) (hf : FracGram f) (hx : ExpGram x) :
    ∃ v, unsigned (i ++ f ++ x) = some v := by
  obtain ⟨⟨e, he⟩, hx'⟩ := exponent_gram hx
  have hex : Ends x := by
    intro c hc
    rcases hx' with rfl | ⟨d, y, rfl, rfl | rfl⟩
    · cases hc
    · injection hc with hc; subst hc; decide
    · injection hc with hc; subst hc; decide
  rw [List.append_assoc]
  have hend : Ends (f ++ x) := by
    rcases hf with rfl | ⟨ds, rfl, _, _⟩
    · exact hex
    · intro c hc; injection hc with hc; subst hc; decide
  have hs := span_digits hi hend
  unfold unsigned
  simp only [hs.1, hs.2, hi0, if_false]
  have hfr : (fraction (f ++ x)).2 = x := by
    rcases hf with rfl | ⟨ds, rfl, _, hd⟩
    · rcases hx' with rfl | ⟨d, y, rfl, rfl | rfl⟩ <;> rfl
    · exact (span_digits (digits_decs hd) hex).2
  rw [hfr, he]
  exact ⟨_, rfl⟩

theorem numeral_gram {i f x : Bytes} (hi : IntGram i) (hf : FracGram f) (hx : ExpGram x) : ∃ v, numeral (i ++ f ++ x) = some v := by
  obtain ⟨sg, c, ds, rfl, hsg, hd, _⟩ := hi
  obtain ⟨v, hv⟩ := unsigned_gram (digits_decs hd) (by simp) hf hx
  rcases hsg with rfl | rfl
  · exact ⟨_, by simpa using numeral_signed false hv⟩
  · exact ⟨_, by simpa using numeral_signed true hv⟩

end Reflect.Json.Dbl

import Verif.Lemmas.Doubles
import Verif.Props.JsonRound
import Verif.Props.JsonPrint
import Mathlib.Data.Fintype.Lattice
import Mathlib.Data.Fintype.Pi
/-
  C96 which real numbers survive printing and reading.
-/
namespace Reflect.Json
open Dbl

/-- Every number of JSON is a numeral, so it stands for a number. -/
theorem C96_numeral (s : Bytes) (h : IntGram s ∨ FloatGram s) : ∃ v, numeral s = some v := by
  rcases h with h | ⟨i, f, x, rfl, hi, hf, hx, _⟩
  · have := numeral_gram h (Or.inl rfl) (Or.inl rfl)
    simpa using this
  · exact numeral_gram hi hf hx

/-! ### what is printed -/

theorem printed {env : Env} (hc : Correct env) {x : UInt64} (hx : IsFinite x) (h0 : magnitude x ≠ 0) :
    ∃ D X, Rounded (magnitude x) D X ∧ env.fmtG x = gText (signBit x) D X ∧ 10 ^ 11 ≤ D ∧ D < 10 ^ 12 ∧
      numeral (env.fmtG x) =
        some (if signBit x then -((D : ℚ) * (10 : ℚ) ^ (X - 11)) else (D : ℚ) * (10 : ℚ) ^ (X - 11)) := by
  obtain ⟨D, X, h1, h2⟩ := hc.prints x hx h0
  obtain ⟨h3, h4⟩ := rounded_digits h1
  exact ⟨D, X, h1, h2, h3, h4, by rw [h2]; exact numeral_gText _ h3 h4⟩

/-- What is printed of a finite `double` other than zero is a numeral of at most twelve significant digits, and differs from
the `double` by no more than half a unit of the twelfth. -/
theorem C96_printed (env : Env) (hc : Correct env) (x : UInt64) (hx : IsFinite x) (h0 : real x ≠ 0) :
    ∃ v, numeral (env.fmtG x) = some v ∧ Twelve v ∧ |v - real x| ≤ |real x| / (2 * 10 ^ 11) := by
  have hm : magnitude x ≠ 0 := by rw [← real_abs]; exact abs_ne_zero.mpr h0
  obtain ⟨D, X, h1, h2, h3, h4, h5⟩ := printed hc hx hm
  refine ⟨_, h5, ⟨D, X - 11, by omega, h4, ?_⟩, ?_⟩
  · have : (0 : ℚ) ≤ (D : ℚ) * (10 : ℚ) ^ (X - 11) := by have := ten_pos (X - 11); positivity
    split
    · rw [abs_neg, abs_of_nonneg this]
    · exact abs_of_nonneg this
  · have hd : |(if signBit x then -((D : ℚ) * (10 : ℚ) ^ (X - 11)) else (D : ℚ) * (10 : ℚ) ^ (X - 11)) - real x| =
        |(D : ℚ) * (10 : ℚ) ^ (X - 11) - magnitude x| := by
      unfold real
      split
      · rw [← abs_neg]; congr 1; ring
      · rfl
    rw [hd, real_abs]
    obtain ⟨k, n, k1, k2, k3, k4⟩ := rounded_value h1
    rw [k4]
    refine le_trans k3 ?_
    have e1 : (10 : ℚ) ^ k = 10 ^ 11 * (10 : ℚ) ^ (k - 11) := by
      have : k = (k - 11) + 11 := by ring
      conv_lhs => rw [this, ten_add]
      rw [mul_comm]; norm_num
    rw [e1] at k1
    rw [div_le_div_iff₀ (by norm_num) (by norm_num)]
    linarith

/-- It has neither point nor exponent if it is a whole number below `10^12`, and one of them otherwise. -/
theorem C96_form (env : Env) (hc : Correct env) (x : UInt64) (hx : IsFinite x) (h0 : real x ≠ 0) (v : ℚ)
    (hv : numeral (env.fmtG x) = some v) :
    ((∃ z : Int, v = z) ∧ |v| < 10 ^ 12 → IntGram (env.fmtG x)) ∧
    (¬ ((∃ z : Int, v = z) ∧ |v| < 10 ^ 12) → FloatGram (env.fmtG x)) := by
  have hm : magnitude x ≠ 0 := by rw [← real_abs]; exact abs_ne_zero.mpr h0
  obtain ⟨D, X, h1, h2, h3, h4, h5⟩ := printed hc hx hm
  rw [hv] at h5
  injection h5 with h5
  have hp : (0 : ℚ) ≤ (D : ℚ) * (10 : ℚ) ^ (X - 11) := by have := ten_pos (X - 11); positivity
  have hw : ((∃ z : Int, v = z) ∧ |v| < 10 ^ 12) ↔ 0 ≤ X ∧ X < 12 ∧ D % 10 ^ (11 - X).toNat = 0 := by
    rw [whole_iff h3 h4, h5]
    split
    · rw [abs_neg, abs_of_nonneg hp]
      constructor
      · rintro ⟨⟨z, hz⟩, h⟩
        exact ⟨⟨-z, by push_cast; linarith⟩, h⟩
      · rintro ⟨⟨z, hz⟩, h⟩
        exact ⟨⟨-z, by push_cast; linarith⟩, h⟩
    · rw [abs_of_nonneg hp]
  rw [hw, h2]
  exact gText_form _ h3 h4

theorem zero_form (neg : Bool) : IntGram ((if neg then [45] else []) ++ [48]) :=
  ⟨_, 48, [], rfl, by cases neg <;> simp, by unfold Digits; decide, fun _ => rfl⟩

theorem intGram_float {s : Bytes} (h : IntGram s ∨ FloatGram s) : ∃ c t, s = c :: t ∧ (c = 45 → ∃ d u, t = d :: u ∧ 48 ≤ d.toNat ∧ d.toNat ≤ 57)
    ∧ (c ≠ 45 → 48 ≤ c.toNat ∧ c.toNat ≤ 57) := by
  have key : ∀ i, IntGram i → ∀ y, ∃ c t, i ++ y = c :: t ∧ (c = 45 → ∃ d u, t = d :: u ∧ 48 ≤ d.toNat ∧ d.toNat ≤ 57)
      ∧ (c ≠ 45 → 48 ≤ c.toNat ∧ c.toNat ≤ 57) := by
    rintro i ⟨sg, c, ds, rfl, rfl | rfl, h2, _⟩ y
    · have hc := h2 c (List.mem_cons_self ..)
      refine ⟨c, ds ++ y, rfl, ?_, fun _ => hc⟩
      rintro rfl
      exact absurd hc.1 (by decide)
    · exact ⟨45, c :: ds ++ y, rfl, fun _ => ⟨c, ds ++ y, rfl, h2 c (List.mem_cons_self ..)⟩, fun h => absurd rfl h⟩
  rcases h with h | ⟨i, f, x, rfl, h, _⟩
  · simpa using key s h []
  · rw [List.append_assoc]; exact key i h _

/-- What is printed of a `double` is a number of JSON if, and only if, the `double` is finite. -/
theorem C96_finite (env : Env) (hc : Correct env) (x : UInt64) :
    IntGram (env.fmtG x) ∨ FloatGram (env.fmtG x) ↔ IsFinite x := by
  constructor
  · intro h
    apply Classical.byContradiction
    intro hx
    obtain ⟨t, ht, h2⟩ := hc.other x hx
    rw [h2] at h
    obtain ⟨c, u, h3, h4, h5⟩ := intGram_float h
    rcases ht with rfl | rfl
    · cases hs : signBit x <;> rw [hs] at h3 <;> injection h3 with h3 h6 <;> subst h3
      · exact absurd (h5 (by decide)).2 (by decide)
      · obtain ⟨d, w, h7, h8, h9⟩ := h4 rfl
        rw [h7] at h6
        injection h6 with h6 _
        subst h6
        exact absurd h9 (by decide)
    · cases hs : signBit x <;> rw [hs] at h3 <;> injection h3 with h3 h6 <;> subst h3
      · exact absurd (h5 (by decide)).2 (by decide)
      · obtain ⟨d, w, h7, h8, h9⟩ := h4 rfl
        rw [h7] at h6
        injection h6 with h6 _
        subst h6
        exact absurd h9 (by decide)
  · intro hx
    by_cases h0 : magnitude x = 0
    · left
      rw [hc.zero x h0]
      exact zero_form _
    · obtain ⟨D, X, h1, h2, h3, h4, h5⟩ := printed hc hx h0
      rw [h2]
      by_cases h : 0 ≤ X ∧ X < 12 ∧ D % 10 ^ (11 - X).toNat = 0
      · exact Or.inl ((gText_form _ h3 h4).1 h)
      · exact Or.inr ((gText_form _ h3 h4).2 h)

/-- So all the numbers of a value are printed as numbers of JSON exactly if all are finite. -/
theorem C96_numbers (env : Env) (hc : Correct env) (v : JV) : Numbers env v ↔ ∀ x ∈ v.floats, IsFinite x :=
  forall₂_congr fun x _ => C96_finite env hc x

/-! ### what comes back -/

theorem near_double {env : Env} (hc : Correct env) {x : UInt64} {v : ℚ} (hx : Nearest x v) (ht : Twelve v) (hn : Normal v) :
    numeral (env.fmtG x) = some v := by
  obtain ⟨h1, h2, h3⟩ := nearest_near hx hn
  obtain ⟨D, X, h4, h5, h6, h7, h8⟩ := printed hc hx.1 h3
  obtain ⟨d, q, d1, d2, d3⟩ := ht
  have hv0 : 0 < |v| := lt_of_lt_of_le (two_pos _) hn.1
  have := rounded_near h4 d2 d3 hv0 (le_trans h1 (by
    rw [div_le_div_iff₀ (by norm_num) (by norm_num)]
    nlinarith))
  rw [h8, this, h2]
  congr 1
  by_cases hv : v < 0
  · simp [hv, abs_of_neg hv]
  · simp [hv, abs_of_nonneg (not_lt.mp hv)]

/-- The digits survive: a numeral of at most twelve significant digits, in the range of a `double`, is read as a `double`
that is printed as a numeral of the same number. -/
theorem C96_digits (env : Env) (hc : Correct env) (s : Bytes) (v : ℚ) (hs : numeral s = some v) (ht : Twelve v)
    (hn : Normal v) : ∃ x, env.stod s = .ok x ∧ numeral (env.fmtG x) = some v := by
  obtain ⟨x, h1, h2⟩ := hc.reads s v hs hn
  exact ⟨x, h1, near_double hc h2 ht hn⟩

/-- The `double` comes back: what is printed of it is read as the same `double`. -/
theorem C96_back (env : Env) (hc : Correct env) (s : Bytes) (v : ℚ) (hs : numeral s = some v) (ht : Twelve v)
    (hn : Normal v) (x : UInt64) (hx : env.stod s = .ok x) : env.stod (env.fmtG x) = .ok x := by
  obtain ⟨y, h1, h2⟩ := C96_digits env hc s v hs ht hn
  have : x = y := by rw [hx] at h1; injection h1
  subst this
  rw [hc.same _ s v h2 hs hn, hx]

/-- Every `double` is printed the same after it has been printed and read. -/
theorem C96_settles (env : Env) (hc : Correct env) (x : UInt64) (hx : IsFinite x) (v : ℚ) (hv : numeral (env.fmtG x) = some v)
    (hn : Normal v) : ∃ y, env.stod (env.fmtG x) = .ok y ∧ env.fmtG y = env.fmtG x ∧ env.stod (env.fmtG y) = .ok y := by
  have h0 : magnitude x ≠ 0 := by
    intro h0
    rw [hc.zero x h0] at hv
    have h1 : unsigned [48] = some 0 := by simp [unsigned, fraction, exponent, isDec, digitsValue]
    rw [numeral_signed _ h1] at hv
    injection hv with hv
    have : v = 0 := by rw [← hv]; split <;> simp
    subst this
    have := lt_of_lt_of_le (two_pos _) hn.1
    simp at this
  obtain ⟨D, X, h1, h2, h3, h4, h5⟩ := printed hc hx h0
  have hv' := hv
  rw [h5] at hv'
  injection hv' with hv'
  have hp : (0 : ℚ) < (D : ℚ) * (10 : ℚ) ^ (X - 11) := by
    have := ten_pos (X - 11)
    have : (0 : ℚ) < D := by exact_mod_cast (show 0 < D by omega)
    positivity
  have habs : |v| = (D : ℚ) * (10 : ℚ) ^ (X - 11) := by
    rw [← hv']
    split
    · rw [abs_neg, abs_of_pos hp]
    · exact abs_of_pos hp
  have ht : Twelve v := ⟨D, X - 11, by omega, h4, habs⟩
  obtain ⟨y, y1, y2⟩ := hc.reads _ v hv hn
  have y3 := near_double hc y2 ht hn
  obtain ⟨h6, h7, h8⟩ := nearest_near y2 hn
  obtain ⟨D', X', k1, k2, k3, k4, k5⟩ := printed hc y2.1 h8
  have hsg : signBit y = signBit x := by
    rw [h7, ← hv']
    cases hs : signBit x <;> simp <;> linarith
  have hD : (D' : ℚ) * (10 : ℚ) ^ (X' - 11) = D * (10 : ℚ) ^ (X - 11) := by
    rw [k5] at y3
    injection y3 with y3
    rw [hsg, ← hv'] at y3
    cases hs : signBit x <;> rw [hs] at y3 <;> simpa using y3
  obtain ⟨rfl, rfl⟩ := digits_unique k3 k4 h3 h4 hD
  have h9 : env.fmtG y = env.fmtG x := by rw [k2, h2, hsg]
  exact ⟨y, y1, h9, by rw [h9, y1]⟩

/-- Two `double`s of the same sign as near as this to the same number of twelve digits are printed alike, so one of the two
does not come back. -/
theorem C96_lossy (env : Env) (hc : Correct env) (x y : UInt64) (hx : IsFinite x) (hy : IsFinite y) (v : ℚ) (ht : Twelve v)
    (h0 : v ≠ 0) (hnx : |real x - v| ≤ |v| / 2 ^ 50) (hny : |real y - v| ≤ |v| / 2 ^ 50) : env.fmtG x = env.fmtG y := by
  have key : ∀ x, IsFinite x → |real x - v| ≤ |v| / 2 ^ 50 → ∃ (D : Nat) (X : Int), 10 ^ 11 ≤ D ∧ D < 10 ^ 12 ∧
      (D : ℚ) * (10 : ℚ) ^ (X - 11) = |v| ∧ env.fmtG x = gText (decide (v < 0)) D X := by
    intro x hx hn
    have hr0 : 0 < |v| := abs_pos.mpr h0
    have hm := magnitude_nonneg x
    obtain ⟨h1, h2⟩ := abs_le.mp hn
    have hs : |v| / 2 ^ 50 < |v| := by
      rw [div_lt_iff₀ (by norm_num)]; nlinarith
    have hsg : signBit x = decide (v < 0) := by
      by_cases hv0 : v < 0
      · rw [abs_of_neg hv0] at *
        unfold real at *
        split at h1 <;> simp_all
        linarith
      · rw [abs_of_nonneg (not_lt.mp hv0)] at *
        unfold real at *
        split at h1 <;> simp_all
        linarith
    have hd : |magnitude x - (|v|)| ≤ |v| / 2 ^ 50 := by
      refine le_trans (le_of_eq ?_) hn
      unfold real
      rw [hsg]
      by_cases hv0 : v < 0
      · rw [abs_of_neg hv0]
        simp only [hv0, decide_true, if_true]
        rw [← abs_neg]; congr 1; ring
      · rw [abs_of_nonneg (not_lt.mp hv0)]
        simp only [hv0, decide_false, Bool.false_eq_true, if_false]
    have hm0 : magnitude x ≠ 0 := by
      intro h
      rw [h, zero_sub, abs_neg, abs_abs] at hd
      linarith
    obtain ⟨D, X, k1, k2, k3, k4, k5⟩ := printed hc hx hm0
    obtain ⟨d, q, d1, d2, d3⟩ := ht
    exact ⟨D, X, k3, k4, rounded_near k1 d2 d3 hr0 hd, by rw [k2, hsg]⟩
  obtain ⟨D, X, a1, a2, a3, a4⟩ := key x hx hnx
  obtain ⟨D', X', b1, b2, b3, b4⟩ := key y hy hny
  obtain ⟨rfl, rfl⟩ := digits_unique a1 a2 b1 b2 (a3.trans b3.symm)
  rw [a4, b4]

/-! ### through JSON -/

/-- Such a `double`, unless it is a whole number below `10^12`, is as `C45_round_trip` requires: what is printed looks like a
real number and is read as the same `double`. -/
theorem C96_comes (env : Env) (hc : Correct env) (s : Bytes) (v : ℚ) (hs : numeral s = some v) (h12 : Twelve v)
    (hnv : Normal v) (x : UInt64) (hx : env.stod s = .ok x) (hw : ¬ ((∃ z : Int, v = z) ∧ |v| < 10 ^ 12)) :
    FloatGram (env.fmtG x) ∧ env.stod (env.fmtG x) = .ok x := by
  obtain ⟨y, h1, h2⟩ := hc.reads s v hs hnv
  have hy : x = y := by rw [hx] at h1; injection h1
  subst hy
  obtain ⟨_, _, h3⟩ := nearest_near h2 hnv
  have h4 := near_double hc h2 h12 hnv
  have h0 : real x ≠ 0 := by
    intro h
    have := real_abs x
    rw [h, abs_zero] at this
    exact h3 this.symm
  exact ⟨(C96_form env hc x h2.1 h0 v h4).2 hw, C96_back env hc s v hs h12 hnv x hx⟩

/-- It comes back through JSON. -/
theorem C96_json (env : Env) (hc : Correct env) (hn : env.Named) (hsh : env.Shaped) (T : TyId → Prop) (hT : env.Closed T)
    (hv : ∀ ty d, T ty → ¬ env.Has ty d .void) (cw : WCache) (hw : Printers env cw) (cr : PCache) (hr : Parsers env cr)
    (wo : WOpts) (ro : ROpts) (ty : TyId) (ht : T ty) (d : TyD) (hd : env.Has ty d .float) (he : d.exact = true) (u : JV)
    (s : Bytes) (v : ℚ) (hs : numeral s = some v) (h12 : Twelve v) (hnv : Normal v) (x : UInt64) (hx : env.stod s = .ok x)
    (hw' : ¬ ((∃ z : Int, v = z) ∧ |v| < 10 ^ 12)) : ValueBack env cw cr wo ro ty (.flt x) u (.flt x) := by
  obtain ⟨h1, h2⟩ := C96_comes env hc s v hs h12 hnv x hx hw'
  exact C45_round_trip env hn hsh T hT hv cw hw cr hr wo ro ty ht u (.flt x) (.flt ty d u x hd he h1 h2)
    (by intro _; simp [JV.depth])

/-- From text to text: a number of JSON with a point or an exponent, of at most twelve significant digits and in the range, is
parsed as a `double` that is printed as a number of JSON that stands for the same. -/
theorem C96_text (env : Env) (hc : Correct env) (hn : env.Named) (T : TyId → Prop) (hT : env.Closed T)
    (hv : ∀ ty d, T ty → ¬ env.Has ty d .void) (cw : WCache) (hw : Printers env cw) (cr : PCache) (hr : Parsers env cr)
    (wo : WOpts) (ro : ROpts) (ty : TyId) (ht : T ty) (d : TyD) (hd : env.Has ty d .float) (he : d.exact = true) (u : JV)
    (s : Bytes) (hs : FloatGram s) (v : ℚ) (hsv : numeral s = some v) (h12 : Twelve v) (hnv : Normal v) :
    ∃ x out n0, (IntGram out ∨ FloatGram out) ∧ numeral out = some v ∧ ∀ n, n0 ≤ n →
      (∀ y, Stops y → ∃ r, (parse env n cr ty u (Reader.open ro (s ++ y))).1 = .ok (.flt x, r) ∧ r.err = none ∧ r.rest = y) ∧
      ∃ w, (print env n cw ty (.flt x) (Writer.new wo)).1 = .ok w ∧ w.err = none ∧ w.out = out := by
  obtain ⟨x, h1, h2⟩ := hc.reads s v hsv hnv
  obtain ⟨n1, c1, g1, g2, g3⟩ := print_ready hn hT hv ht (printers_good hn hw)
  obtain ⟨n2, h3⟩ := load_text (ro := ro) hn hT ht (parsers_good hn hr) (Load.float ty d u s x hd he h1)
  refine ⟨x, env.fmtG x, n1 + n2 + 1, (C96_finite env hc x).mpr h2.1, near_double hc h2 h12 hnv, fun n hn' => ⟨?_, ?_⟩⟩
  · intro y hy
    refine h3 n (by omega) (s ++ y) y ?_
    have := gram_reads (o := ro) (Str := fun m t => StrBody ro t m) (fun m t h => h) (Gram.float s hs) y [] y hy (Reads.nil y)
    simpa using this
  · rw [g3 n (by omega)]
    obtain ⟨n, rfl⟩ : ∃ k, n = k + 1 := ⟨n - 1, by omega⟩
    obtain ⟨st, k1, k2, _⟩ := goodW_get g1 hd g2
    injection k2 with k2
    unfold printV
    simp only [k1, ← k2]
    rw [if_pos (exact_has hd he)]
    exact ⟨_, rfl, rfl, by simp [Writer.push]⟩

/-- A whole number below `10^12` does not: the parser raises on what is printed. -/
theorem C96_json_whole (env : Env) (hc : Correct env) (hn : env.Named) (T : TyId → Prop) (hT : env.Closed T)
    (hv : ∀ ty d, T ty → ¬ env.Has ty d .void) (cw : WCache) (hw : Printers env cw) (cr : PCache) (hr : Parsers env cr)
    (wo : WOpts) (ro : ROpts) (ty : TyId) (ht : T ty) (d : TyD) (hd : env.Has ty d .float) (he : d.exact = true) (u : JV)
    (x : UInt64) (hx : IsFinite x) (hz : ∃ z : Int, real x = z) (hl : |real x| < 10 ^ 12) :
    ∃ n0, ∀ n, n0 ≤ n → (∃ w, (print env n cw ty (.flt x) (Writer.new wo)).1 = .ok w ∧ w.err = none ∧ w.out = env.fmtG x) ∧
      ∀ y, Stops y → (parse env n cr ty u (Reader.open ro (env.fmtG x ++ y))).1 = .error .err := by
  have key : IntGram (env.fmtG x) ∧ (env.fmtG x).length ≤ 969 := by
    by_cases h0 : magnitude x = 0
    · rw [hc.zero x h0]
      exact ⟨zero_form _, by cases signBit x <;> simp⟩
    · obtain ⟨z, hz⟩ := hz
      obtain ⟨D, X, k1, k2, k3, k4, k5⟩ := printed hc hx h0
      have hm := magnitude_nonneg x
      have hm0 : 0 < magnitude x := lt_of_le_of_ne hm (Ne.symm h0)
      have hmz : magnitude x = (z.natAbs : Nat) := by
        rw [← real_abs, hz, Nat.cast_natAbs, Int.cast_abs]
      rw [real_abs] at hl
      have hz12 : z.natAbs < 10 ^ 12 := by
        rw [hmz] at hl
        exact_mod_cast hl
      have hv := rounded_near (q := 0) k1 hz12 (by rw [hmz]; simp) hm0 (by
        rw [sub_self, abs_zero]; positivity)
      have hwh := (whole_iff k3 k4).mpr ⟨⟨(z.natAbs : Int), by rw [hv, hmz, Int.cast_natCast]⟩, by rw [hv]; exact hl⟩
      rw [k2]
      exact ⟨(gText_form _ k3 k4).1 hwh, le_trans (gText_length _ k3 k4 hwh.1 hwh.2.1) (by omega)⟩
  exact C45_integral_double_refused env hn T hT hv cw hw cr hr wo ro ty ht d hd he x key.1 key.2 u

/-! ### a C library that converts correctly -/
namespace Lib

theorem uint64_finite : Finite UInt64 :=
  Finite.of_injective (fun x : UInt64 => x.toBitVec.toFin) fun x y h => by
    have : x.toNat = y.toNat := congrArg Fin.val h
    exact UInt64.toNat_inj.mp this

/-- there is a nearest double -/
theorem nearest (v : ℚ) : ∃ x, Nearest x v := by
  have := uint64_finite
  have h0 : IsFinite 0 := by unfold IsFinite expBits; decide
  have : Nonempty {x // IsFinite x} := ⟨⟨0, h0⟩⟩
  obtain ⟨⟨x, hx⟩, h⟩ := Finite.exists_min fun x : {x // IsFinite x} => |real x.1 - v|
  exact ⟨x, hx, fun y hy => h ⟨y, hy⟩⟩

/-- every number can be rounded -/
theorem rounded {r : ℚ} (h : 0 < r) : ∃ D X, Rounded r D X := by
  have hk1 : ((10 : Nat) : ℚ) ^ Int.log 10 r ≤ r := Int.zpow_log_le_self (by norm_num) h
  have hk2 : r < ((10 : Nat) : ℚ) ^ (Int.log 10 r + 1) := Int.lt_zpow_succ_log_self (by norm_num) r
  generalize Int.log 10 r = k at *
  push_cast at hk1 hk2
  have hu := ten_pos (k - 11)
  have e1 : (10 : ℚ) ^ k = 10 ^ 11 * (10 : ℚ) ^ (k - 11) := by
    have : k = (k - 11) + 11 := by ring
    conv_lhs => rw [this, ten_add]
    rw [mul_comm]; norm_num
  have e2 : (10 : ℚ) ^ (k + 1) = 10 ^ 12 * (10 : ℚ) ^ (k - 11) := by rw [ten_add, e1]; ring
  have hq1 : 10 ^ 11 ≤ r / (10 : ℚ) ^ (k - 11) := (le_div_iff₀ hu).mpr (by rw [← e1]; exact hk1)
  have hq2 : r / (10 : ℚ) ^ (k - 11) < 10 ^ 12 := (div_lt_iff₀ hu).mpr (by rw [← e2]; exact hk2)
  have hrq : r = r / (10 : ℚ) ^ (k - 11) * (10 : ℚ) ^ (k - 11) := by field_simp
  have hm := abs_sub_round (r / (10 : ℚ) ^ (k - 11))
  obtain ⟨hm1, hm2⟩ := abs_le.mp hm
  have hz1 : (10 ^ 11 : Int) ≤ round (r / (10 : ℚ) ^ (k - 11)) := by
    have : ((10 ^ 11 - 1 : Int) : ℚ) < round (r / (10 : ℚ) ^ (k - 11)) := by push_cast; linarith
    have := Int.cast_lt.mp this
    omega
  have hz2 : round (r / (10 : ℚ) ^ (k - 11)) ≤ (10 ^ 12 : Int) := by
    have : (round (r / (10 : ℚ) ^ (k - 11)) : ℚ) < ((10 ^ 12 + 1 : Int) : ℚ) := by push_cast; linarith
    have := Int.cast_lt.mp this
    omega
  obtain ⟨n, hn⟩ : ∃ n : Nat, round (r / (10 : ℚ) ^ (k - 11)) = n := ⟨_, (Int.toNat_of_nonneg (by omega)).symm⟩
  have hb : |n * (10 : ℚ) ^ (k - 11) - r| ≤ (10 : ℚ) ^ (k - 11) / 2 := by
    have h1 : |(n : ℚ) * (10 : ℚ) ^ (k - 11) - r| = |r / (10 : ℚ) ^ (k - 11) - n| * (10 : ℚ) ^ (k - 11) := by
      conv_lhs => rw [hrq]
      rw [← sub_mul, abs_mul, abs_of_pos hu, abs_sub_comm]
    rw [h1]
    rw [hn] at hm
    push_cast at hm
    have := mul_le_mul_of_nonneg_right hm hu.le
    linarith
  rw [hn] at hz1 hz2
  by_cases h12 : n < 10 ^ 12
  · exact ⟨n, k, k, n, hk1, hk2, hb, by omega, Or.inl ⟨h12, rfl, rfl⟩⟩
  · exact ⟨10 ^ 11, k + 1, k, n, hk1, hk2, hb, by omega, Or.inr ⟨by omega, rfl, rfl⟩⟩

open Classical in
/-- `std::stod` -/
noncomputable def stod (s : Bytes) : Res UInt64 :=
  match numeral s with
  | some v => .ok (choose (nearest v))
  | none => .error .std

open Classical in
/-- `%1.12g` -/
noncomputable def fmtG (x : UInt64) : Bytes :=
  if hx : IsFinite x then
    if h : magnitude x = 0 then (if signBit x then [45] else []) ++ [48]
    else
      have hr := rounded (lt_of_le_of_ne (magnitude_nonneg x) (Ne.symm h))
      gText (signBit x) (choose hr) (choose (choose_spec hr))
  else (if signBit x then [45] else []) ++ [105, 110, 102]

theorem correct (env : Env) : Correct { env with stod := stod, fmtG := fmtG } := by
  refine ⟨?_, ?_, ?_, ?_, ?_⟩
  · intro s v hs _
    refine ⟨Classical.choose (nearest v), ?_, Classical.choose_spec (nearest v)⟩
    show stod s = _
    unfold stod
    rw [hs]
  · intro s t v hs ht _
    show stod s = stod t
    unfold stod
    rw [hs, ht]
  · intro x hx h
    have hr := rounded (lt_of_le_of_ne (magnitude_nonneg x) (Ne.symm h))
    refine ⟨Classical.choose hr, Classical.choose (Classical.choose_spec hr), Classical.choose_spec (Classical.choose_spec hr), ?_⟩
    show fmtG x = _
    unfold fmtG
    rw [dif_pos hx, dif_neg h]
  · intro x h
    show fmtG x = _
    unfold fmtG
    have hx : IsFinite x := by
      apply Classical.byContradiction
      intro hx
      unfold IsFinite at hx
      unfold magnitude at h
      rw [if_neg (by omega)] at h
      have := two_pos ((expBits x : Int) - 1075)
      have : (0 : ℚ) < 2 ^ 52 + fracBits x := by positivity
      have : (0 : ℚ) < (2 ^ 52 + fracBits x) * (2 : ℚ) ^ ((expBits x : Int) - 1075) := by positivity
      linarith
    rw [dif_pos hx, dif_pos h]
  · intro x hx
    refine ⟨_, Or.inl rfl, ?_⟩
    show fmtG x = _
    unfold fmtG
    rw [dif_neg hx]

/-- the text `0.1` -/
def tenth : Bytes := [48, 46, 49]

theorem tenth_numeral : numeral tenth = some (1 / 10) := by
  simp [tenth, numeral, unsigned, fraction, exponent, isDec, digitsValue]

theorem tenth_twelve : Twelve (1 / 10) := ⟨1, -1, by norm_num, by norm_num, by norm_num [abs_of_pos]⟩

theorem small_normal {v : ℚ} (h1 : 1 / 2 ^ 20 ≤ |v|) (h2 : |v| ≤ 2 ^ 60) : Normal v := by
  constructor
  · have : (2 : ℚ) ^ (-1022 : Int) ≤ (2 : ℚ) ^ (-20 : Int) := zpow_le_zpow_right₀ (by norm_num) (by norm_num)
    have e : (2 : ℚ) ^ (-20 : Int) = 1 / 2 ^ 20 := by norm_num
    exact le_trans this (le_trans (le_of_eq e) h1)
  · have : (2 : ℚ) ^ (8 : Int) ≤ (2 : ℚ) ^ (971 : Int) := zpow_le_zpow_right₀ (by norm_num) (by norm_num)
    have e : (2 : ℚ) ^ (8 : Int) = 2 ^ 8 := by norm_num
    rw [e] at this
    have h3 : ((2 : ℚ) ^ 53 - 1) * 2 ^ 8 ≤ (2 ^ 53 - 1) * (2 : ℚ) ^ (971 : Int) := mul_le_mul_of_nonneg_left this (by norm_num)
    have h4 : (2 : ℚ) ^ 60 ≤ (2 ^ 53 - 1) * 2 ^ 8 := by norm_num
    exact le_trans h2 (le_trans h4 h3)

theorem tenth_normal : Normal (1 / 10) := small_normal (by norm_num [abs_of_pos]) (by norm_num [abs_of_pos])

/-- The hypotheses of `C96_digits`, `C96_back` and `C96_json` hold of `0.1`, which is not a whole number. -/
example : (∃ env, Correct env) ∧ numeral tenth = some (1 / 10) ∧ Twelve (1 / 10) ∧ Normal (1 / 10) ∧
    ¬ ((∃ z : Int, (1 / 10 : ℚ) = z) ∧ |(1 / 10 : ℚ)| < 10 ^ 12) := by
  refine ⟨⟨_, correct Ex.env⟩, tenth_numeral, tenth_twelve, tenth_normal, ?_⟩
  rintro ⟨⟨z, hz⟩, -⟩
  have h1 : (z : ℚ) * 10 = 1 := by rw [← hz]; norm_num
  have h2 : z * 10 = 1 := by exact_mod_cast h1
  omega

/-- A number of a type of the example comes back. -/
example (u : JV) : ∃ x, real x ≠ 0 ∧ ValueBack { Ex.env with stod := stod, fmtG := fmtG } [] [] WOpts.default ROpts.default 6
    (.flt x) u (.flt x) := by
  have hc := correct Ex.env
  obtain ⟨x, hx, hnx⟩ := hc.reads tenth _ tenth_numeral tenth_normal
  refine ⟨x, ?_, ?_⟩
  · obtain ⟨_, _, h3⟩ := nearest_near hnx tenth_normal
    intro h
    rw [← real_abs, h, abs_zero] at h3
    exact h3 rfl
  · have hcl : Env.closedB { Ex.env with stod := stod, fmtG := fmtG } = true := rfl
    refine C96_json _ hc (namedB_spec rfl) (closedB_shaped hcl) (· < 7) (closedB_spec hcl) (solidB_spec hcl rfl _) [] .fresh [] .fresh
      _ _ 6 (by decide) Ex.tFlt ⟨rfl, .float rfl⟩ rfl u tenth _ tenth_numeral tenth_twelve tenth_normal x hx ?_
    rintro ⟨⟨z, hz⟩, -⟩
    have h1 : (z : ℚ) * 10 = 1 := by rw [← hz]; norm_num
    have h2 : z * 10 = 1 := by exact_mod_cast h1
    omega

/-- the double nearest to `0.1` and the next one -/
theorem two_tenths : let x : UInt64 := 0x3FB999999999999A; let y : UInt64 := 0x3FB999999999999B
    IsFinite x ∧ IsFinite y ∧ x ≠ y ∧ real x ≠ 0 ∧ |real x - 1 / 10| ≤ |(1 / 10 : ℚ)| / 2 ^ 50 ∧ |real y - 1 / 10| ≤ |(1 / 10 : ℚ)| / 2 ^ 50 := by
  have h1 : expBits 0x3FB999999999999A = 1019 := by decide
  have h2 : expBits 0x3FB999999999999B = 1019 := by decide
  have h3 : fracBits 0x3FB999999999999A = 2702159776422298 := by decide
  have h4 : fracBits 0x3FB999999999999B = 2702159776422299 := by decide
  have h5 : signBit 0x3FB999999999999A = false := by decide
  have h6 : signBit 0x3FB999999999999B = false := by decide
  refine ⟨by unfold IsFinite; rw [h1]; decide, by unfold IsFinite; rw [h2]; decide, by decide, ?_, ?_, ?_⟩
  · unfold real magnitude; rw [h5, h1, h3]; norm_num
  · unfold real magnitude; rw [h5, h1, h3]; norm_num [abs_le]
  · unfold real magnitude; rw [h6, h2, h4]; norm_num [abs_le]

/-- They are printed alike, by every correct library, so at least one of them does not come back. -/
example (env : Env) (hc : Correct env) : env.fmtG 0x3FB999999999999A = env.fmtG 0x3FB999999999999B ∧
    ¬ (env.stod (env.fmtG 0x3FB999999999999A) = .ok 0x3FB999999999999A ∧ env.stod (env.fmtG 0x3FB999999999999B) = .ok 0x3FB999999999999B) := by
  obtain ⟨h1, h2, h3, -, h4, h5⟩ := two_tenths
  have h := C96_lossy env hc _ _ h1 h2 _ tenth_twelve (by norm_num) h4 h5
  refine ⟨h, ?_⟩
  rintro ⟨h6, h7⟩
  rw [h] at h6
  rw [h6] at h7
  injection h7 with h7
  exact h3 h7

end Lib

end Reflect.Json

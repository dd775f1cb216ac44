import Verif.Spec.JsonText
import Verif.Lemmas.Json.Write
import Verif.Lemmas.Json.Grammar
import Verif.Model.Json.Types
import Verif.Props.JsonLex
/-
  C40 strings survive printing and reading back; C43 integers survive printing and reading back;
  C52 field traits combine as a monoid.
-/
namespace Reflect.Json

/-- a writer on an empty stream -/
abbrev Writer.new (wo : WOpts) : Writer := { opts := wo }

/-- Printing the string `s` reports no error, and reading what was printed - whatever follows it - gives
`s'` back and leaves what follows unread. -/
def StringBack (wo : WOpts) (ro : ROpts) (s s' : Bytes) : Prop :=
  ∃ w, formatString (Writer.new wo) s = .ok w ∧ w.err = none ∧
    ∀ y, ∃ r, parseString (Reader.open ro (w.out ++ y)) = .ok (s', r) ∧ r.err = none ∧ r.rest = y

theorem parseString_open {ro : ROpts} {t v : Bytes} (h : StrBody ro t v) (y : Bytes) :
    ∃ r, parseString (Reader.open ro (34 :: (t ++ 34 :: y))) = .ok (v, r) ∧ r.err = none ∧ r.rest = y := by
  obtain ⟨r, h1, h2, h3, h4⟩ := string_token (y := y) h
  refine ⟨r, ?_, h2, h4⟩
  unfold parseString Reader.expectToken
  rw [h1]
  show (Except.ok _ : Res _) >>= _ = _
  unfold Reader.assertToken
  simp only [if_true]
  rw [okb]
  unfold Token.asString
  simp only [if_true, h3]
  rw [okb]

theorem stringBack_of {wo : WOpts} {ro : ROpts} {s s' t : Bytes} (h : FText wo s t) (hb : StrBody ro t s') :
    StringBack wo ro s s' := by
  refine ⟨_, formatString_complete h rfl rfl, rfl, ?_⟩
  intro y
  have := parseString_open hb y
  simpa using this

/-! ### C40 -/

/-- Escaping writer, unescaping reader: every string of code points of the basic plane comes back. -/
theorem C40_escaped (wo : WOpts) (ro : ROpts) (hw : wo.escapeUnicode = true) (hr : ro.unescapeUnicode = true)
    (s : Bytes) (h : Text 0x10000 s) : StringBack wo ro s s := by
  obtain ⟨ns, h1, rfl⟩ := h
  obtain ⟨t, h2, h3⟩ := FText.body_esc hw hr ns h1
  exact stringBack_of h2 h3

/-- In particular with the default options of both. -/
theorem C40_default (s : Bytes) (h : Text 0x10000 s) : StringBack WOpts.default ROpts.default s s :=
  C40_escaped _ _ rfl rfl s h

/-- Validating writer without escapes: every UTF-8 string comes back, whatever the reader's options. -/
theorem C40_copied (wo : WOpts) (ro : ROpts) (hw : wo.escapeUnicode = false) (hv : wo.validateUnicode = true)
    (s : Bytes) (h : Text 0x200000 s) : StringBack wo ro s s := by
  obtain ⟨ns, h1, rfl⟩ := h
  obtain ⟨t, h2, h3⟩ := FText.body_copy (ro := ro) hw hv ns h1
  exact stringBack_of h2 h3

/-- Raw writer: every byte string comes back through a reader that does not validate, and every UTF-8
string through one that does. -/
theorem C40_raw (wo : WOpts) (ro : ROpts) (hw : wo.escapeUnicode = false) (hv : wo.validateUnicode = false)
    (s : Bytes) (h : ro.validateUnicode = false ∨ Text 0x200000 s) : StringBack wo ro s s := by
  obtain ⟨t, h2, h3⟩ := FText.body_raw (ro := ro) hw hv s
  exact stringBack_of h2 (h3 h)

/-- what the hypotheses allow: quotes, backslashes, control bytes, "é" and "€" -/
example : Text 0x10000 [34, 92, 10, 0, 0xC3, 0xA9, 0xE2, 0x82, 0xAC] :=
  ⟨[34, 92, 10, 0, 0xE9, 0x20AC], by decide, by decide⟩

theorem ftext_text {wo : WOpts} (hw : wo.escapeUnicode = false) (hv : wo.validateUnicode = true) {s t : Bytes}
    (h : FText wo s t) : Text 0x200000 s := by
  induction h with
  | nil => exact ⟨[], by simp, rfl⟩
  | ascii c s t hc _ ih =>
    obtain ⟨ns, h1, rfl⟩ := ih
    refine ⟨c.toNat :: ns, ?_, ?_⟩
    · intro n hn
      rcases List.mem_cons.mp hn with hn | hn
      · omega
      · exact h1 n hn
    · rw [List.flatMap_cons, show utf8 c.toNat = [c] by unfold utf8; rw [if_pos hc]; simp]; rfl
  | raw c s t _ _ h2 => rw [hv] at h2; cases h2
  | esc c tl k s t h1 => rw [hw] at h1; cases h1
  | copy n s t _ _ _ h4 _ ih =>
    obtain ⟨ns, h1, rfl⟩ := ih
    refine ⟨n :: ns, ?_, by rw [List.flatMap_cons]⟩
    intro m hm
    rcases List.mem_cons.mp hm with hm | hm
    · rw [hm]; exact h4
    · exact h1 m hm

/-- The validating writer reports an error exactly for the strings that are not UTF-8. -/
theorem C40_validation_exact (wo : WOpts) (hw : wo.escapeUnicode = false) (hv : wo.validateUnicode = true)
    (s : Bytes) : (∃ w, formatString (Writer.new wo) s = .ok w ∧ w.err = none) ↔ Text 0x200000 s := by
  constructor
  · rintro ⟨w, h1, h2⟩
    obtain ⟨_, t, h3, _⟩ := formatString_sound h1 h2
    exact ftext_text hw hv h3
  · intro h
    obtain ⟨w, h1, h2, _⟩ := C40_copied wo ROpts.default hw hv s h
    exact ⟨w, h1, h2⟩

theorem hexDigits_5 {n : Nat} (h : 0x10000 ≤ n) (h2 : n < 0x200000) : ∃ k rest, 0x1000 ≤ k ∧ k < 0x10000 ∧
    rest ≠ [] ∧ (∀ c ∈ rest, c.toNat < 0x80 ∧ c ≠ 34 ∧ c ≠ 92 ∧ c ≠ 10) ∧
    hex4 n = [hexDigit (k / 4096), hexDigit (k / 256 % 16), hexDigit (k / 16 % 16), hexDigit (k % 16)] ++ rest := by
  have hd : ∀ m : Nat, m < 16 → (hexDigit m).toNat < 0x80 ∧ hexDigit m ≠ 34 ∧ hexDigit m ≠ 92 ∧ hexDigit m ≠ 10 := by
    decide
  have h4 : ∀ m : Nat, 0x1000 ≤ m → m < 0x10000 → hexDigits m =
      [hexDigit (m / 4096), hexDigit (m / 256 % 16), hexDigit (m / 16 % 16), hexDigit (m % 16)] := by
    intro m hm1 hm2
    rw [hexDigits_ge (by omega), hexDigits_ge (n := m / 16) (by omega), hexDigits_ge (n := m / 16 / 16) (by omega),
      hexDigits_lt (by omega), show m / 16 / 16 / 16 = m / 4096 by omega, show m / 16 / 16 % 16 = m / 256 % 16 by omega]
    rfl
  rw [hex4_big h]
  by_cases hb : n < 0x100000
  · refine ⟨n / 16, [hexDigit (n % 16)], by omega, by omega, by simp, ?_, ?_⟩
    · intro c hc
      simp only [List.mem_singleton] at hc
      rw [hc]; exact hd _ (by omega)
    · rw [h4 _ (by omega) (by omega)]
  · refine ⟨n / 256, [hexDigit (n / 16 % 16), hexDigit (n % 16)], by omega, by omega, by simp, ?_, ?_⟩
    · intro c hc
      simp only [List.mem_cons, List.not_mem_nil, or_false] at hc
      rcases hc with hc | hc <;> rw [hc] <;> exact hd _ (by omega)
    · rw [hexDigits_ge (n := n / 16) (by omega), Nat.div_div_eq_div_mul, h4 (n / (16 * 16)) (by omega) (by omega)]
      simp

/-- Beyond the basic plane the escaping writer is wrong: it reports no error, and what is read back is a
different string. -/
theorem C40_not_beyond_basic_plane (wo : WOpts) (ro : ROpts) (hw : wo.escapeUnicode = true)
    (hr : ro.unescapeUnicode = true) (n : Nat) (h1 : 0x10000 ≤ n) (h2 : n < 0x200000) :
    ∃ s', s' ≠ utf8 n ∧ StringBack wo ro (utf8 n) s' := by
  obtain ⟨c, tl, k, e1, g2, g3, g4, g5, g6, hc, g7, g8⟩ := utf8_shape (n := n) (by omega) h2
  obtain ⟨m, rest, m1, m2, m3, m4, m5⟩ := hexDigits_5 h1 h2
  have hrest : StrBody ro rest rest := by
    clear m3 m5
    induction rest with
    | nil => exact StrBody.nil
    | cons d rest ih =>
      have hd := m4 d (by simp)
      exact StrBody.plain d _ _ hd.2.1 hd.2.2.1 hd.2.2.2 (Or.inl hd.1) (ih (fun x hx => m4 x (by simp [hx])))
  have hb := StrBody.unicode _ _ _ _ _ _ _ _ rest _ hr (hexDigit_isHex (n := m / 4096) (by omega))
    (hexDigit_isHex (n := m / 256 % 16) (by omega)) (hexDigit_isHex (n := m / 16 % 16) (by omega))
    (hexDigit_isHex (n := m % 16) (by omega)) hrest
  have hf := FText.esc (wo := wo) c tl k [] [] hw g2 g3 g4 g5 g6 FText.nil
  rw [g7, m5, List.append_nil, ← e1, List.append_nil] at hf
  refine ⟨_, ?_, stringBack_of hf hb⟩
  intro heq
  obtain ⟨d, hd⟩ : ∃ d, d ∈ rest := by
    cases rest with
    | nil => exact absurd rfl m3
    | cons d _ => exact ⟨d, by simp⟩
  have hmem : d ∈ utf8 n := by rw [← heq]; simp [hd]
  have := utf8_mem_lt h2 hmem (m4 d hd).1
  omega

/-- U+1F600 is printed as `"\u1f600"`, which reads as U+1F60 and a zero. -/
example : ∃ w, formatString (Writer.new WOpts.default) (utf8 0x1F600) = .ok w ∧
    w.out = [34, 92, 117, 49, 102, 54, 48, 48, 34] := by
  obtain ⟨w, h1, h2⟩ := Res.run (x := formatString (Writer.new WOpts.default) (utf8 0x1F600))
    (fun w => w.out == [34, 92, 117, 49, 102, 54, 48, 48, 34]) (by decide +kernel)
  exact ⟨w, h1, by simpa using h2⟩

/-- The escaping writer does not refuse overlong forms: `C1 81` is printed as `A`'s escape without an
error, and reads back as one byte. -/
theorem C40_escaping_accepts_overlong (wo : WOpts) (ro : ROpts) (hw : wo.escapeUnicode = true)
    (hr : ro.unescapeUnicode = true) : ¬ Text 0x200000 [0xC1, 0x81] ∧ StringBack wo ro [0xC1, 0x81] [65] := by
  constructor
  · rintro ⟨ns, h1, h2⟩
    cases ns with
    | nil => simp at h2
    | cons n ns =>
      have hn := h1 n (by simp)
      rw [List.flatMap_cons] at h2
      unfold utf8 at h2
      have hx : ∀ a b : Nat, a < 256 → b < 256 → UInt8.ofNat a = UInt8.ofNat b → a = b := by
        intro a b ha hb hh
        have := congrArg UInt8.toNat hh
        rwa [toNat_ofNat ha, toNat_ofNat hb] at this
      split at h2
      · simp at h2
        have := hx 0xC1 n (by omega) (by omega) h2.1
        omega
      · split at h2
        · simp only [List.cons_append, List.cons.injEq] at h2
          have := hx 0xC1 (0xC0 + n / 64) (by omega) (by omega) h2.1
          omega
        · split at h2
          · simp only [List.cons_append, List.cons.injEq] at h2
            have := hx 0xC1 (0xE0 + n / 4096) (by omega) (by omega) h2.1
            omega
          · simp only [List.cons_append, List.cons.injEq] at h2
            have := hx 0xC1 (0xF0 + n / 262144) (by omega) (by omega) h2.1
            omega
  · have hf := FText.esc (wo := wo) 0xC1 [0x81] 2 [] [] hw (by decide) (by decide) (by decide) (by decide)
      (by intro x hx; simp at hx; subst hx; exact ⟨by decide, by decide⟩) FText.nil
    rw [show hex4 (contVal ((0xC1 : Byte).toNat &&& ((1 <<< (7 - 2)) - 1)) [0x81]) = [48, 48, 52, 49] by decide +kernel] at hf
    have hb := StrBody.unicode 48 48 52 49 0 0 4 1 [] [] hr (IsHex.digit 0 (by decide)) (IsHex.digit 0 (by decide))
      (IsHex.digit 4 (by decide)) (IsHex.digit 1 (by decide)) StrBody.nil
    exact stringBack_of hf hb

/-- A byte 0xFF in a string makes the escaping and the validating writer compute the leading zeros of
zero, whatever comes before (without error) and after it. -/
theorem C40_byte_FF_undefined (wo : WOpts) (hw : wo.escapeUnicode = true ∨ wo.validateUnicode = true) (s z : Bytes)
    (hs : ∃ w, formatString (Writer.new wo) s = .ok w ∧ w.err = none) :
    formatString (Writer.new wo) (s ++ 0xFF :: z) = .error .ub := by
  obtain ⟨w, h1, h2⟩ := hs
  obtain ⟨_, t, h3, _⟩ := formatString_sound h1 h2
  simp only at h3
  have key : ∀ {s t : Bytes}, FText wo s t → ∀ (n : Nat) (w : Writer), (s ++ 0xFF :: z).length ≤ n → w.opts = wo →
      w.err = none → formatLoop n (s ++ 0xFF :: z) w = .error .ub := by
    intro s t h
    induction h with
    | nil =>
      intro n w hn ho he
      obtain ⟨n, rfl⟩ : ∃ k, n = k + 1 := ⟨n - 1, by simp at hn; omega⟩
      have hff : (0x80 : Nat) ≤ (0xFF : Byte).toNat := by decide
      rw [List.nil_append, formatLoop]
      by_cases he1 : wo.escapeUnicode = true
      · rw [if_pos ⟨hff, by rw [ho]; exact he1⟩]; rfl
      · rw [if_neg (by rw [ho]; exact fun hh => he1 hh.2), if_pos ⟨hff, by rw [ho]; exact hw.resolve_left he1⟩]; rfl
    | ascii c s t hc _ ih =>
      intro n w hn ho he
      obtain ⟨n, rfl⟩ : ∃ k, n = k + 1 := ⟨n - 1, by simp at hn; omega⟩
      rw [List.cons_append, formatLoop, if_neg (by omega), if_neg (by omega)]
      exact ih n (w.push (escapeChar c)) (by simpa using hn) ho he
    | raw c s t hc h1 h2 _ ih => rw [h1, h2] at hw; rcases hw with hw | hw <;> cases hw
    | esc c tl k s t h1 h2 h3 h4 h5 h6 _ ih =>
      intro n w hn ho he
      obtain ⟨n, rfl⟩ : ∃ k, n = k + 1 := ⟨n - 1, by simp at hn; omega⟩
      have hc : 0x80 ≤ c.toNat := by
        rcases leadingOnes_inv h2 ⟨h3, h4⟩ with ⟨_, h, _⟩ | ⟨_, h, _⟩ | ⟨_, h, _⟩ <;> omega
      have e : escapeUnicode w c (tl ++ (s ++ 0xFF :: z)) = .ok (s ++ 0xFF :: z,
          w.push (([92, 117] : Bytes) ++ hex4 (contVal (c.toNat &&& ((1 <<< (7 - k)) - 1)) tl))) := by
        unfold escapeUnicode
        rw [h2]
        simp only
        rw [show (decide (k > 4) || decide (k < 2)) = false by simp; omega, Writer.errorIf_false,
          show decide (k > (tl ++ (s ++ 0xFF :: z)).length + 1) = false by simp; omega, Writer.errorIf_false, ← h5,
          contBytes_ok false tl _ _ w he h6]
        rfl
      rw [List.cons_append, List.append_assoc, formatLoop, if_pos ⟨hc, by rw [ho]; exact h1⟩, e, okb]
      exact ih n (w.push _) (by simp at hn ⊢; omega) ho he
    | copy m s t h1 h2 h3 h4 _ ih =>
      intro n w hn ho he
      obtain ⟨c, tl, k, e1, g2, g3, g4, g5, g6, hc, g7, g8⟩ := utf8_shape h3 h4
      rw [e1] at hn ⊢
      obtain ⟨n, rfl⟩ : ∃ k, n = k + 1 := ⟨n - 1, by simp at hn; omega⟩
      have e : copyUnicode w c (tl ++ (s ++ 0xFF :: z)) = .ok (s ++ 0xFF :: z, w.push (c :: tl)) := by
        unfold copyUnicode
        rw [g2]
        simp only
        rw [show (decide (k > 4) || decide (k < 2)) = false by simp; omega, Writer.errorIf_false,
          show decide (k > (tl ++ (s ++ 0xFF :: z)).length + 1) = false by simp; omega, Writer.errorIf_false, ← g5,
          contBytes_ok true tl _ _ (w.push [c]) he g6]
        simp only [g5, g7]
        rw [show ((k == 4 && decide (m ≤ 0xFFFF)) || (k == 3 && decide (m ≤ 0x7FF)) ||
          (k == 2 && decide (m ≤ 0x7F))) = false by simp; omega, Writer.errorIf_false]
        simp [Writer.push_push]
      rw [List.cons_append, List.cons_append, List.append_assoc, formatLoop, if_neg (by rw [ho, h1]; simp),
        if_pos ⟨hc, by rw [ho]; exact h2⟩, e, okb]
      exact ih n (w.push _) (by simp at hn ⊢; omega) ho he
  unfold formatString
  rw [key h3 _ ((Writer.new wo).push [34]) (Nat.le_refl _) rfl rfl]
  rfl

example : formatString (Writer.new WOpts.default) [97, 0xFF] = .error .ub :=
  C40_byte_FF_undefined _ (Or.inl rfl) [97] [] (by
    obtain ⟨w, h1, h2, _⟩ := C40_default [97] ⟨[97], by decide, by decide⟩
    exact ⟨w, h1, h2⟩)

/-! ### C43 -/

theorem parseInt_open {ro : ROpts} {s y : Bytes} (h : IntText s) (hy : Stops y) :
    ∃ r, r.err = none ∧ r.rest = y ∧
      parseInt (Reader.open ro (s ++ y)) = (stol s >>= fun i => .ok (i, r)) := by
  have hr : Reads ro (s ++ y) [Tok.int s] y := by
    have := Reads.cons (o := ro) [] s y y ⟨.int, .buffer⟩ (some s) [] Sep.nil (Lexeme.int s h) (stops_follows hy)
      (Reads.nil y)
    simpa [Tok.int] using this
  obtain ⟨r, h1, h2, h3⟩ := (FedR.open hr).fed.expect (x := .int) rfl
  refine ⟨r, h2.err, h2.rest, ?_⟩
  unfold parseInt
  rw [h1, okb]
  unfold Token.asInt
  simp only [if_true, h3 s rfl]

/-- Every 64-bit integer printed and read back, whatever follows it that does not look like more of the
number, gives the same integer and leaves what follows unread. -/
theorem C43_round_trip (wo : WOpts) (ro : ROpts) (i : Int) (h : -(2 ^ 63 : Int) ≤ i ∧ i < 2 ^ 63) (y : Bytes)
    (hy : Stops y) : ∃ r, parseInt (Reader.open ro ((formatInt (Writer.new wo) i).out ++ y)) = .ok (i, r) ∧
      r.err = none ∧ r.rest = y := by
  obtain ⟨r, h1, h2, h3⟩ := parseInt_open (ro := ro) (decText_intText i) hy
  refine ⟨r, ?_, h1, h2⟩
  show parseInt (Reader.open ro (([] : Bytes) ++ decText i ++ y)) = _
  rw [List.nil_append, h3, stol_decText h, okb]

/-- Every integer literal - digits, possibly after a minus sign, leading zeros allowed - is read as the
number it spells if that is a 64-bit integer, and raises otherwise. -/
theorem C43_literals (ro : ROpts) (neg : Bool) (ds : Bytes) (n : Nat) (h : Dec ds n) (hne : ds ≠ []) (y : Bytes)
    (hy : Stops y) :
    let v : Int := if neg then -(n : Int) else n
    let text := (if neg then [45] else []) ++ ds ++ y
    (-(2 ^ 63 : Int) ≤ v ∧ v < 2 ^ 63 →
      ∃ r, parseInt (Reader.open ro text) = .ok (v, r) ∧ r.err = none ∧ r.rest = y) ∧
    (¬ (-(2 ^ 63 : Int) ≤ v ∧ v < 2 ^ 63) → parseInt (Reader.open ro text) = .error .std) := by
  obtain ⟨h1, h2⟩ := dec_spec h
  simp only
  have hint : IntText ((if neg then [45] else []) ++ ds) := by
    cases neg with
    | true => exact ⟨45, ds, rfl, Or.inl rfl, h1⟩
    | false =>
      cases ds with
      | nil => exact absurd rfl hne
      | cons c ds =>
        exact ⟨c, ds, rfl, Or.inr (fun x hx => h1 x (by simp at hx; simp [hx])), fun x hx => h1 x (by simp [hx])⟩
  obtain ⟨r, e1, e2, e3⟩ := parseInt_open (ro := ro) hint hy
  have hstol : stol ((if neg then [45] else []) ++ ds) =
      (if -(2 ^ 63 : Int) ≤ (if neg then -(n : Int) else n) ∧ (if neg then -(n : Int) else n) < 2 ^ 63
        then .ok (if neg then -(n : Int) else n) else .error .std) := by
    cases neg with
    | true =>
      unfold stol
      simp only [if_true, List.cons_append, List.nil_append, List.head?_cons, List.tail_cons, decide_true]
      rw [if_neg hne, h2]
    | false =>
      have hhd : ¬ (ds.head? = some 45) := by
        cases ds with
        | nil => exact absurd rfl hne
        | cons c ds =>
          intro hh
          simp at hh
          have := (h1 c (by simp)).1
          rw [hh] at this
          exact absurd this (by decide)
      unfold stol
      simp only [Bool.false_eq_true, if_false, List.nil_append, hhd, decide_false]
      rw [if_neg hne, h2]
  constructor
  · intro hr
    rw [e3, hstol, if_pos hr]
    exact ⟨r, rfl, e1, e2⟩
  · intro hr
    rw [e3, hstol, if_neg hr]
    rfl

/-- A lone minus sign is let through by the tokenizer and raises when converted. -/
theorem C43_lone_minus (ro : ROpts) (y : Bytes) (hy : Stops y) :
    parseInt (Reader.open ro (45 :: y)) = .error .std := by
  obtain ⟨r, e1, e2, e3⟩ := parseInt_open (ro := ro) (s := [45]) ⟨45, [], rfl, Or.inl rfl, by intro c hc; cases hc⟩ hy
  exact e3

example : Dec [48, 52, 50] 42 :=
  Dec.snoc [48, 52] 4 2 (Dec.snoc [48] 0 4 (Dec.snoc [] 0 0 Dec.nil (by decide)) (by decide)) (by decide)
example : Stops [44, 32] := by intro c hc; simp at hc; subst hc; decide
example : Stops [] := by intro c hc; cases hc

/-! ### C52 -/

/-- the traits made by the library's functions -/
inductive TraitTerm where
  | skip
  | skipEmpty
  | alias (a : Bytes)
  | custom (parser printer : Bytes)
  | both (a b : TraitTerm)
  deriving DecidableEq

/-- the traits an expression of them evaluates to, `both` being `operator|` -/
def TraitTerm.eval : TraitTerm → Traits
  | .skip => .mkSkip
  | .skipEmpty => .mkSkipEmpty
  | .alias a => .mkAlias a
  | .custom p q => .mkCustom p q
  | .both a b => a.eval.or b.eval

/-- the parts of an expression, left to right -/
def TraitTerm.parts : TraitTerm → List TraitTerm
  | .both a b => a.parts ++ b.parts
  | t => [t]

theorem cbool_or_assoc (a b c : CBool) : (a.or b).or c = a.or (b.or c) := by
  rcases a with _ | _ | _ <;> rcases b with _ | _ | _ <;> rcases c with _ | _ | _ <;> rfl

theorem orElse_assoc (a b c : Bytes) : orElse (orElse a b) c = orElse a (orElse b c) := by
  unfold orElse
  by_cases ha : a = []
  · subst ha; simp
  · simp [ha]

/-- Combining is associative. -/
theorem C52_assoc (a b c : Traits) : (a.or b).or c = a.or (b.or c) := by
  unfold Traits.or
  simp only [Bool.or_assoc, cbool_or_assoc, orElse_assoc]

/-- leftmost non-empty one -/
def leftmost (f : TraitTerm → Bytes) : List TraitTerm → Bytes
  | [] => []
  | t :: l => if f t = [] then leftmost f l else f t

theorem leftmost_append (f : TraitTerm → Bytes) (l m : List TraitTerm) :
    leftmost f (l ++ m) = orElse (leftmost f l) (leftmost f m) := by
  induction l with
  | nil => rfl
  | cons t l ih =>
    simp only [List.cons_append, leftmost]
    split
    · exact ih
    · rename_i h; unfold orElse; rw [if_neg h]

def aliasOf : TraitTerm → Bytes | .alias a => a | _ => []
def parserOf : TraitTerm → Bytes | .custom p _ => p | _ => []
def printerOf : TraitTerm → Bytes | .custom _ q => q | _ => []

/-- However a combination is bracketed: it skips if one of its parts does, and the leftmost non-empty
alias, parser and printer win. -/
theorem C52_combination (t : TraitTerm) :
    (t.eval.skip = true ↔ TraitTerm.skip ∈ t.parts) ∧ t.eval.alias = leftmost aliasOf t.parts ∧
      t.eval.parser = leftmost parserOf t.parts ∧ t.eval.printer = leftmost printerOf t.parts := by
  have simple : ∀ a : Bytes, (if a = [] then [] else a) = a := by intro a; by_cases h : a = [] <;> simp [h]
  induction t with
  | skip => exact ⟨by simp [TraitTerm.eval, TraitTerm.parts, Traits.mkSkip, Traits.mkSkipEmpty, Traits.new], rfl, rfl, rfl⟩
  | skipEmpty => exact ⟨by simp [TraitTerm.eval, TraitTerm.parts, Traits.mkSkip, Traits.mkSkipEmpty, Traits.new], rfl, rfl, rfl⟩
  | alias a =>
    refine ⟨⟨fun h => (by cases h), fun h => (by simp [TraitTerm.parts] at h)⟩, ?_, rfl, rfl⟩
    show a = _
    simp [leftmost, aliasOf, TraitTerm.parts]
    exact (simple _).symm
  | custom p q =>
    refine ⟨⟨fun h => (by cases h), fun h => (by simp [TraitTerm.parts] at h)⟩, rfl, ?_, ?_⟩
    · show p = _
      simp [leftmost, parserOf, TraitTerm.parts]
      exact (simple _).symm
    · show q = _
      simp [leftmost, printerOf, TraitTerm.parts]
      exact (simple _).symm
  | both a b iha ihb =>
    obtain ⟨a1, a2, a3, a4⟩ := iha
    obtain ⟨b1, b2, b3, b4⟩ := ihb
    refine ⟨?_, ?_, ?_, ?_⟩
    · simp [TraitTerm.eval, Traits.or, TraitTerm.parts, a1, b1]
    · simp only [TraitTerm.eval, Traits.or, TraitTerm.parts, leftmost_append, a2, b2]
    · simp only [TraitTerm.eval, Traits.or, TraitTerm.parts, leftmost_append, a3, b3]
    · simp only [TraitTerm.eval, Traits.or, TraitTerm.parts, leftmost_append, a4, b4]

/-- But whether empty values are skipped is defined only for the combinations that ask for it: all others
leave it to what an uninitialised `bool` happens to hold. -/
theorem C52_skipEmpty_indeterminate (t : TraitTerm) :
    (TraitTerm.skipEmpty ∈ t.parts → ∀ junk, t.eval.skipEmpty.read junk = true) ∧
      (TraitTerm.skipEmpty ∉ t.parts → ∀ junk, t.eval.skipEmpty.read junk = junk) := by
  have key : t.eval.skipEmpty = if TraitTerm.skipEmpty ∈ t.parts then CBool.val true else CBool.indet := by
    induction t with
    | skip => rw [if_neg (by simp [TraitTerm.parts])]; rfl
    | skipEmpty => rw [if_pos (by simp [TraitTerm.parts])]; rfl
    | alias a => rw [if_neg (by simp [TraitTerm.parts])]; rfl
    | custom p q => rw [if_neg (by simp [TraitTerm.parts])]; rfl
    | both a b iha ihb =>
      show a.eval.skipEmpty.or b.eval.skipEmpty = _
      rw [iha, ihb]
      by_cases ha : TraitTerm.skipEmpty ∈ a.parts <;> by_cases hb : TraitTerm.skipEmpty ∈ b.parts <;>
        simp [ha, hb, TraitTerm.parts, CBool.or]
  constructor
  · intro h junk; rw [key, if_pos h]; rfl
  · intro h junk; rw [key, if_neg h]; rfl

end Reflect.Json

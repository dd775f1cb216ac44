import Verif.Spec.JsonLex
/- Facts about single bytes and UTF-8 arithmetic. -/
namespace Reflect.Json

theorem forall_byte {p : Byte → Prop} [DecidablePred p] (h : ∀ i : Fin 256, p (UInt8.ofNat i.val)) :
    ∀ b, p b := by
  intro b
  have h2 := h ⟨b.toNat, UInt8.toNat_lt b⟩
  have h3 : UInt8.ofNat b.toNat = b := UInt8.ofNat_toNat
  simpa [h3] using h2

theorem byte_lt (c : Byte) : c.toNat < 256 := UInt8.toNat_lt c

theorem byte_ext {a b : Byte} (h : a.toNat = b.toNat) : a = b := UInt8.toNat_inj.mp h

theorem toNat_ofNat {n : Nat} (h : n < 256) : (UInt8.ofNat n).toNat = n := by
  simp [UInt8.toNat_ofNat', Nat.mod_eq_of_lt h]

theorem isSpace_iff (c : Byte) : isSpace c = true ↔ c ∈ wsBytes := by
  revert c
  apply forall_byte
  decide +kernel

theorem isDigit_iff (c : Byte) : isDigit c = true ↔ 48 ≤ c.toNat ∧ c.toNat ≤ 57 := by
  simp [isDigit]

theorem IsHex.val {c : Byte} {v : Nat} (h : IsHex c v) : hexVal c = some v ∧ v < 16 := by
  cases h with
  | digit _ hk =>
    have := toNat_ofNat (n := 48 + v) (by omega)
    unfold hexVal
    rw [this, if_pos (by omega)]
    exact ⟨by congr 1; omega, by omega⟩
  | lower k hk =>
    have := toNat_ofNat (n := 97 + k) (by omega)
    unfold hexVal
    rw [this, if_neg (by omega), if_pos (by omega)]
    exact ⟨by congr 1; omega, by omega⟩
  | upper k hk =>
    have := toNat_ofNat (n := 65 + k) (by omega)
    unfold hexVal
    rw [this, if_neg (by omega), if_neg (by omega), if_pos (by omega)]
    exact ⟨by congr 1; omega, by omega⟩

theorem isHex_of_hexVal {c : Byte} {v : Nat} (h : hexVal c = some v) : IsHex c v := by
  have hc := byte_lt c
  unfold hexVal at h
  split at h
  · rename_i hr
    have h2 : v = c.toNat - 48 := by simpa using h.symm
    have h3 : c = UInt8.ofNat (48 + v) := byte_ext (by rw [toNat_ofNat (by omega)]; omega)
    rw [h3]; exact IsHex.digit v (by omega)
  · split at h
    · rename_i hr
      have h2 : v = c.toNat - 97 + 10 := by simpa using h.symm
      have h3 : c = UInt8.ofNat (97 + (v - 10)) := byte_ext (by rw [toNat_ofNat (by omega)]; omega)
      have h4 : v = 10 + (v - 10) := by omega
      rw [h3, h4]
      have := IsHex.lower (v - 10) (by omega)
      simpa using this
    · split at h
      · rename_i hr
        have h2 : v = c.toNat - 65 + 10 := by simpa using h.symm
        have h3 : c = UInt8.ofNat (65 + (v - 10)) := byte_ext (by rw [toNat_ofNat (by omega)]; omega)
        have h4 : v = 10 + (v - 10) := by omega
        rw [h3, h4]
        have := IsHex.upper (v - 10) (by omega)
        simpa using this
      · simp at h

theorem simpleEscape_iff (c e : Byte) : simpleEscape c = some e ↔ (c, e) ∈ escapes := by
  have h : ∀ c : Byte, simpleEscape c = (escapes.find? (fun p => p.1 == c)).map (·.2) := by
    apply forall_byte; decide +kernel
  rw [h]
  constructor
  · intro h2
    simp only [Option.map_eq_some_iff] at h2
    obtain ⟨⟨x, y⟩, h3, h4⟩ := h2
    have h5 := List.find?_some h3
    have h6 := List.mem_of_find?_eq_some h3
    simp only [beq_iff_eq] at h5
    simp only at h4
    subst h4
    rw [← h5]; exact h6
  · intro h2
    simp only [escapes, List.mem_cons, Prod.mk.injEq, List.not_mem_nil, or_false] at h2
    rcases h2 with ⟨rfl, rfl⟩ | ⟨rfl, rfl⟩ | ⟨rfl, rfl⟩ | ⟨rfl, rfl⟩ | ⟨rfl, rfl⟩ | ⟨rfl, rfl⟩
      | ⟨rfl, rfl⟩ | ⟨rfl, rfl⟩ <;> decide

theorem shift4_or {a d : Nat} (h : d < 16) : (a <<< 4) ||| d = 16 * a + d := by
  rw [← Nat.shiftLeft_add_eq_or_of_lt (by simpa using h), Nat.shiftLeft_eq]; omega

theorem shift6_or {a d : Nat} (h : d < 64) : (a <<< 6) ||| d = 64 * a + d := by
  rw [← Nat.shiftLeft_add_eq_or_of_lt (by simpa using h), Nat.shiftLeft_eq]; omega

theorem and_3F (n : Nat) : n &&& 0x3F = n % 64 := Nat.and_two_pow_sub_one_eq_mod n 6
theorem and_1F (n : Nat) : n &&& 0x1F = n % 32 := Nat.and_two_pow_sub_one_eq_mod n 5
theorem and_0F (n : Nat) : n &&& 0x0F = n % 16 := Nat.and_two_pow_sub_one_eq_mod n 4
theorem and_07 (n : Nat) : n &&& 0x07 = n % 8 := Nat.and_two_pow_sub_one_eq_mod n 3

theorem cont_iff (c : Byte) : (c.toNat &&& 0xC0 = 0x80) ↔ (0x80 ≤ c.toNat ∧ c.toNat < 0xC0) := by
  revert c
  apply forall_byte
  decide +kernel

theorem or_80 {n : Nat} (h : n < 64) : n ||| 0x80 = 0x80 + n := by
  rw [Nat.or_comm]
  have := Nat.shiftLeft_add_eq_or_of_lt (i := 7) (b := n) (by omega) 1
  simpa using this.symm

theorem or_C0 {n : Nat} (h : n < 32) : n ||| 0xC0 = 0xC0 + n := by
  rw [Nat.or_comm]
  have := Nat.shiftLeft_add_eq_or_of_lt (i := 6) (b := n) (by omega) 3
  simpa using this.symm

theorem or_E0 {n : Nat} (h : n < 16) : n ||| 0xE0 = 0xE0 + n := by
  rw [Nat.or_comm]
  have := Nat.shiftLeft_add_eq_or_of_lt (i := 5) (b := n) (by omega) 7
  simpa using this.symm

theorem or_F0 {n : Nat} (h : n < 8) : n ||| 0xF0 = 0xF0 + n := by
  rw [Nat.or_comm]
  have := Nat.shiftLeft_add_eq_or_of_lt (i := 4) (b := n) (by omega) 15
  simpa using this.symm

theorem encodeCode_eq {n : Nat} (h : n < 0x200000) : encodeCode n = utf8 n := by
  have e0 : encodeByte n 0 0x3F 0x80 = UInt8.ofNat (0x80 + n % 64) := by
    unfold encodeByte
    rw [and_3F, or_80 (Nat.mod_lt _ (by decide))]; rfl
  have e1 : encodeByte n 1 0x3F 0x80 = UInt8.ofNat (0x80 + n / 64 % 64) := by
    unfold encodeByte
    rw [and_3F, or_80 (Nat.mod_lt _ (by decide)), Nat.shiftRight_eq_div_pow]
  have e2 : encodeByte n 2 0x3F 0x80 = UInt8.ofNat (0x80 + n / 4096 % 64) := by
    unfold encodeByte
    rw [and_3F, or_80 (Nat.mod_lt _ (by decide)), Nat.shiftRight_eq_div_pow]
  unfold encodeCode utf8
  by_cases h1 : n < 0x80
  · rw [if_pos (by omega), if_pos h1]
  · rw [if_neg (by omega), if_neg h1]
    by_cases h2 : n < 0x800
    · rw [if_pos (by omega), if_pos h2, e0]
      congr 1
      unfold encodeByte
      rw [and_1F, Nat.shiftRight_eq_div_pow, or_C0 (Nat.mod_lt _ (by decide))]
      congr 1
      have : 2 ^ (6 * 1) = 64 := by decide
      rw [this]; omega
    · rw [if_neg (by omega), if_neg h2]
      by_cases h3 : n < 0x10000
      · rw [if_pos (by omega), if_pos h3, e0, e1]
        congr 1
        unfold encodeByte
        rw [and_0F, Nat.shiftRight_eq_div_pow, or_E0 (Nat.mod_lt _ (by decide))]
        congr 1
        have : 2 ^ (6 * 2) = 4096 := by decide
        rw [this]; omega
      · rw [if_neg (by omega), if_neg h3, if_pos (by omega), e0, e1, e2]
        congr 1
        unfold encodeByte
        rw [and_07, Nat.shiftRight_eq_div_pow, or_F0 (Nat.mod_lt _ (by decide))]
        congr 1
        have : 2 ^ (6 * 3) = 262144 := by decide
        rw [this]; omega

theorem utf8_length_pos (n : Nat) : utf8 n ≠ [] := by
  unfold utf8; split
  · simp
  · split
    · simp
    · split <;> simp

end Reflect.Json

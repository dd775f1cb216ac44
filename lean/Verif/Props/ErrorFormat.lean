import Verif.Model.ErrorFormat
import Verif.Lemmas.Json.Write
/-
  C59 error messages.
-/
namespace Reflect
open Json (Byte Bytes)

theorem store_length : ∀ (s : Bytes) (buf : List (Option Byte)) (i : Nat), (store buf i s).length = buf.length
  | [], _, _ => rfl
  | c :: s, buf, i => by rw [store, store_length s]; simp

theorem store_get : ∀ (s : Bytes) (buf : List (Option Byte)) (i : Nat), i + s.length ≤ buf.length → ∀ j,
    (store buf i s)[j]? = if i ≤ j ∧ j < i + s.length then s[j - i]?.map some else buf[j]?
  | [], buf, i, _, j => by
    rw [store, if_neg (by simp only [List.length_nil]; omega)]
  | c :: s, buf, i, h, j => by
    simp only [List.length_cons] at h
    rw [store, store_get s _ (i + 1) (by rw [List.length_set]; omega)]
    simp only [List.length_cons]
    by_cases h1 : i + 1 ≤ j ∧ j < i + 1 + s.length
    · rw [if_pos h1, if_pos (by omega)]
      obtain ⟨d, rfl⟩ : ∃ d, j = i + 1 + d := ⟨j - (i + 1), by omega⟩
      have e1 : i + 1 + d - (i + 1) = d := by omega
      have e2 : i + 1 + d - i = d + 1 := by omega
      rw [e1, e2, List.getElem?_cons_succ]
    · rw [if_neg h1]
      by_cases h2 : j = i
      · subst h2
        rw [if_pos (by omega), Nat.sub_self, List.getElem?_cons_zero, List.getElem?_set_self (by omega)]
        rfl
      · rw [if_neg (by omega), List.getElem?_set_ne (Ne.symm h2)]

/-- the buffer after formatting -/
theorem buffer (msg : Bytes) (j : Nat) (hj : j < 1024) : (vsnprintf newBuf 1023 msg).1[j]? =
    some (if j < min msg.length 1022 then msg[j]? else if j = min msg.length 1022 then some 0 else none) := by
  unfold vsnprintf
  have hl : (msg.take (1023 - 1) ++ [0] : Bytes).length = min msg.length 1022 + 1 := by
    simp only [List.length_append, List.length_take, List.length_singleton]; omega
  have hb : newBuf.length = 1024 := List.length_replicate
  rw [store_get _ _ _ (by rw [hl, hb]; omega), hl]
  by_cases h1 : j < min msg.length 1022
  · rw [if_pos (by omega), if_pos h1, Nat.sub_zero, List.getElem?_append_left (by rw [List.length_take]; omega),
      List.getElem?_take_of_lt (by omega)]
    obtain ⟨x, hx⟩ : ∃ x, msg[j]? = some x := ⟨msg[j]'(by omega), List.getElem?_eq_getElem (by omega)⟩
    rw [hx]
    rfl
  · rw [if_neg h1]
    by_cases h2 : j = min msg.length 1022
    · rw [if_pos (by omega), if_pos h2, Nat.sub_zero, List.getElem?_append_right (by rw [List.length_take]; omega)]
      rw [List.length_take]
      have : j - min (1023 - 1) msg.length = 0 := by omega
      rw [this]
      rfl
    · rw [if_neg (by omega), if_neg h2]
      unfold newBuf
      rw [List.getElem?_replicate, if_pos hj]

theorem verrorFormat_eq (msg : Bytes) : verrorFormat msg =
    if msg.length ≤ 1024 then .ok ((vsnprintf newBuf 1023 msg).1.take msg.length) else .error .ub := by
  unfold verrorFormat makeString
  have : (vsnprintf newBuf (1024 - 1) msg).1.length = 1024 := by
    unfold vsnprintf
    rw [store_length]
    exact List.length_replicate
  simp only [this]
  rfl

theorem formatted (msg : Bytes) (h : msg.length ≤ 1024) : ∃ s, verrorFormat msg = .ok s ∧ s.length = msg.length ∧
    ∀ j, j < msg.length → s[j]? = some (if j < min msg.length 1022 then msg[j]? else if j = min msg.length 1022 then some 0 else none) := by
  refine ⟨_, by rw [verrorFormat_eq, if_pos h], ?_, ?_⟩
  · rw [List.length_take]
    unfold vsnprintf
    rw [store_length]
    have : newBuf.length = 1024 := List.length_replicate
    omega
  · intro j hj
    rw [List.getElem?_take_of_lt hj, buffer msg j (by omega)]

/-- A message of at most 1022 bytes is reported as it is. -/
theorem C59_intact (msg : Bytes) (h : msg.length ≤ 1022) : verrorFormat msg = .ok (msg.map some) := by
  obtain ⟨s, h1, h2, h3⟩ := formatted msg (by omega)
  rw [h1]
  congr 1
  apply List.ext_getElem?
  intro j
  rw [List.getElem?_map]
  by_cases hj : j < msg.length
  · rw [h3 j hj, if_pos (by omega), List.getElem?_eq_getElem hj]; rfl
  · rw [List.getElem?_eq_none (by omega), List.getElem?_eq_none (by omega)]; rfl

/-- The message thrown: the place of the error, then the message. -/
theorem C59_thrown (file : Bytes) (line : Nat) (msg : Bytes) (h : msg.length ≤ 1022) :
    error true file line msg = .ok (.thrown ((file ++ [58] ++ Json.decDigits line ++ [58, 32] ++ msg).map some)) := by
  unfold error
  rw [C59_intact msg h]
  simp [verror]

/-- The message printed before aborting, if it has no zero byte. -/
theorem C59_printed (file : Bytes) (line : Nat) (msg : Bytes) (h : msg.length ≤ 1022) (hf : 0 ∉ file) (hm : 0 ∉ msg) :
    error false file line msg = .ok (.aborted ((file ++ [58] ++ Json.decDigits line ++ [58, 32] ++ msg ++ [10]).map some)) := by
  unfold error
  rw [C59_intact msg h]
  have key : ∀ s : Bytes, 0 ∉ s → (s.map some).takeWhile (· ≠ some 0) = s.map some := by
    intro s
    induction s with
    | nil => intro _; rfl
    | cons c s ih =>
      intro hs
      simp only [List.mem_cons, not_or] at hs
      rw [List.map_cons, List.takeWhile_cons, if_pos (by simpa using Ne.symm hs.1), ih hs.2]
  have e : file.map some ++ [some 58] ++ (Json.decDigits line).map some ++ [some 58, some 32] ++ msg.map some =
      (file ++ [58] ++ Json.decDigits line ++ [58, 32] ++ msg).map some := by simp
  unfold verror
  simp only [Bool.false_eq_true, if_false, e]
  rw [key]
  · simp
  · intro h0
    simp only [List.mem_append, List.mem_cons, List.not_mem_nil, or_false] at h0
    rcases h0 with (((h0 | h0) | h0) | h0) | h0
    · exact hf h0
    · exact absurd h0 (by decide)
    · have := (Json.decDigits_spec line line (Nat.le_refl _)).1 0 h0
      revert this
      decide
    · rcases h0 with h0 | h0 <;> exact absurd h0 (by decide)
    · exact hm h0

/-- At 1023 bytes the last one is lost: the string has the same length and ends with a zero byte. -/
theorem C59_last_byte_lost (msg : Bytes) (c : Byte) (h : msg.length = 1022) :
    verrorFormat (msg ++ [c]) = .ok (msg.map some ++ [some 0]) := by
  obtain ⟨s, h1, h2, h3⟩ := formatted (msg ++ [c]) (by simp [h])
  rw [h1]
  congr 1
  apply List.ext_getElem?
  intro j
  have hl : (msg ++ [c]).length = 1023 := by simp [h]
  rw [hl] at h2 h3
  by_cases hj : j < 1022
  · rw [h3 j (by omega), if_pos (by omega), List.getElem?_append_left (by omega), List.getElem?_append_left (by simp; omega),
      List.getElem?_map, List.getElem?_eq_getElem (by omega)]
    rfl
  · by_cases hj' : j = 1022
    · subst hj'
      rw [h3 1022 (by omega), if_neg (by omega), if_pos (by omega), List.getElem?_append_right (by simp; omega)]
      simp [h]
    · rw [List.getElem?_eq_none (by omega), List.getElem?_eq_none (by simp; omega)]

/-- At 1024 bytes the string ends with a byte that was never written. -/
theorem C59_indeterminate (msg : Bytes) (h : msg.length = 1024) : ∃ s, verrorFormat msg = .ok s ∧ s[1022]? = some (some 0) ∧
    s[1023]? = some none := by
  obtain ⟨s, h1, h2, h3⟩ := formatted msg (by omega)
  refine ⟨s, h1, ?_, ?_⟩
  · rw [h3 1022 (by omega), if_neg (by omega), if_pos (by omega)]
  · rw [h3 1023 (by omega), if_neg (by omega), if_neg (by omega)]

/-- A longer message makes the code read outside of its buffer. -/
theorem C59_overrun (msg : Bytes) (h : 1024 < msg.length) (except : Bool) (file : Bytes) (line : Nat) :
    error except file line msg = .error .ub := by
  unfold error
  rw [verrorFormat_eq, if_neg (by omega)]

example : ∃ msg : Bytes, msg.length ≤ 1022 ∧ msg ≠ [] := ⟨[97], by decide, by decide⟩
example : ∃ msg : Bytes, 1024 < msg.length := ⟨List.replicate 2000 97, by rw [List.length_replicate]; omega⟩

end Reflect

import Verif.Spec.JsonOut
import Verif.Props.JsonLex
import Verif.Lemmas.Json.Trip
import Verif.Lemmas.Json.DocFun
/- Printed strings and the grammar. -/
namespace Reflect.Json

theorem hexDigit_shape {i : Nat} (h : i < 16) : 0x20 ≤ (hexDigit i).toNat ∧ hexDigit i ≠ 34 ∧ hexDigit i ≠ 92 := by
  revert i; decide

theorem hexDigits_all : ∀ (k n : Nat), n ≤ k → hexDigits n ≠ [] ∧ ∀ c ∈ hexDigits n, ∃ i, i < 16 ∧ c = hexDigit i := by
  intro k
  induction k with
  | zero =>
    intro n hn
    rw [hexDigits_lt (by omega)]
    exact ⟨by simp, fun c hc => ⟨n, by omega, by simpa using hc⟩⟩
  | succ k ih =>
    intro n hn
    by_cases h : n < 16
    · rw [hexDigits_lt h]
      exact ⟨by simp, fun c hc => ⟨n, h, by simpa using hc⟩⟩
    · rw [hexDigits_ge (by omega)]
      obtain ⟨_, h2⟩ := ih (n / 16) (by omega)
      refine ⟨by simp, fun c hc => ?_⟩
      rcases List.mem_append.mp hc with hc | hc
      · exact h2 c hc
      · exact ⟨n % 16, by omega, by simpa using hc⟩

theorem hex4_shape (n : Nat) : ∃ i j k l rest, i < 16 ∧ j < 16 ∧ k < 16 ∧ l < 16 ∧
    hex4 n = hexDigit i :: hexDigit j :: hexDigit k :: hexDigit l :: rest ∧ ∀ c ∈ rest, ∃ i, i < 16 ∧ c = hexDigit i := by
  have h : ∀ c ∈ hex4 n, ∃ i, i < 16 ∧ c = hexDigit i := by
    intro c hc
    unfold hex4 at hc
    rcases List.mem_append.mp hc with hc | hc
    · exact ⟨0, by omega, (List.eq_of_mem_replicate hc).trans hexDigit_zero.symm⟩
    · exact (hexDigits_all n n (Nat.le_refl _)).2 c hc
  have hl : 4 ≤ (hex4 n).length := by
    unfold hex4
    rw [List.length_append, List.length_replicate]
    omega
  match hx : hex4 n, hl with
  | a :: b :: c :: d :: rest, _ =>
    rw [hx] at h
    obtain ⟨i, hi, rfl⟩ := h a (by simp)
    obtain ⟨j, hj, rfl⟩ := h b (by simp)
    obtain ⟨k, hk, rfl⟩ := h c (by simp)
    obtain ⟨l, hl, rfl⟩ := h d (by simp)
    exact ⟨i, j, k, l, rest, hi, hj, hk, hl, rfl, fun x hx => h x (by simp [hx])⟩

theorem strGram_append {t t' : Bytes} (h : ∀ c ∈ t, 0x20 ≤ c.toNat ∧ c ≠ 34 ∧ c ≠ 92) (h' : StrGram t') : StrGram (t ++ t') := by
  induction t with
  | nil => exact h'
  | cons c t ih =>
    obtain ⟨h1, h2, h3⟩ := h c (by simp)
    exact .unescaped c _ h1 h2 h3 (ih (fun x hx => h x (by simp [hx])))

theorem escapeChar_gram {c : Byte} (h : 0x20 ≤ c.toNat ∨ c ∈ ([8, 9, 10, 12, 13] : Bytes)) {t : Bytes} (ht : StrGram t) :
    StrGram (escapeChar c ++ t) := by
  unfold escapeChar
  by_cases h1 : c = 34
  · rw [if_pos h1]; exact .escape 34 34 t (by decide) ht
  rw [if_neg h1]
  by_cases h2 : c = 47
  · rw [if_pos h2]; exact .escape 47 47 t (by decide) ht
  rw [if_neg h2]
  by_cases h3 : c = 92
  · rw [if_pos h3]; exact .escape 92 92 t (by decide) ht
  rw [if_neg h3]
  by_cases h4 : c = 8
  · rw [if_pos h4]; exact .escape 98 8 t (by decide) ht
  rw [if_neg h4]
  by_cases h5 : c = 12
  · rw [if_pos h5]; exact .escape 102 12 t (by decide) ht
  rw [if_neg h5]
  by_cases h6 : c = 10
  · rw [if_pos h6]; exact .escape 110 10 t (by decide) ht
  rw [if_neg h6]
  by_cases h7 : c = 13
  · rw [if_pos h7]; exact .escape 114 13 t (by decide) ht
  rw [if_neg h7]
  by_cases h8 : c = 9
  · rw [if_pos h8]; exact .escape 116 9 t (by decide) ht
  rw [if_neg h8]
  refine .unescaped c t ?_ h1 h3 ht
  rcases h with h | h
  · exact h
  · simp only [List.mem_cons, List.not_mem_nil, or_false] at h
    rcases h with h | h | h | h | h <;> contradiction

theorem ftext_gram {wo : WOpts} {m t : Bytes} (h : FText wo m t) (hp : Printable m) : StrGram t := by
  induction h with
  | nil => exact .nil
  | ascii c s t hc _ ih => exact escapeChar_gram (hp c (by simp)) (ih (fun x hx => hp x (by simp [hx])))
  | raw c s t hc _ _ _ ih =>
    refine .unescaped c t (by omega) ?_ ?_ (ih (fun x hx => hp x (by simp [hx])))
    · rintro rfl; exact absurd hc (by decide)
    · rintro rfl; exact absurd hc (by decide)
  | esc c tl k s t _ _ _ _ _ _ _ ih =>
    obtain ⟨i, j, k', l, rest, h1, h2, h3, h4, h5, h6⟩ := hex4_shape (contVal (c.toNat &&& ((1 <<< (7 - k)) - 1)) tl)
    rw [h5]
    refine .unicode _ _ _ _ i j k' l _ (hexDigit_isHex h1) (hexDigit_isHex h2) (hexDigit_isHex h3) (hexDigit_isHex h4) ?_
    refine strGram_append ?_ (ih (fun x hx => hp x (by simp [hx])))
    intro x hx
    obtain ⟨i, hi, rfl⟩ := h6 x hx
    exact hexDigit_shape hi
  | copy n s t _ _ h3 h4 _ ih =>
    refine strGram_append ?_ (ih (fun x hx => hp x (by simp [hx])))
    intro x hx
    have : 0x80 ≤ x.toNat := by
      refine Classical.byContradiction fun hlt => ?_
      have := (utf8_mem_lt h4 hx (by omega)).2
      omega
    refine ⟨by omega, ?_, ?_⟩
    · rintro rfl; exact absurd this (by decide)
    · rintro rfl; exact absurd this (by decide)

theorem ftext_stands {wo : WOpts} {m t : Bytes} (h : FText wo m t) : Stands wo m t :=
  ⟨ftext_gram h, fun _ hs => survives_body hs h⟩

/-- how a value begins -/
theorem gram_head {S : Bytes → Bytes → Prop} {x : JTree} {s : Bytes} (h : Gram S x s) :
    ∃ c s', s = c :: s' ∧ (c ∈ ([110, 116, 102, 34, 91, 123, 45] : Bytes) ∨ Digits [c]) := by
  have hint : ∀ {s : Bytes}, IntGram s → ∃ c s', s = c :: s' ∧ (c ∈ ([110, 116, 102, 34, 91, 123, 45] : Bytes) ∨ Digits [c]) := by
    rintro s ⟨sg, c, ds, rfl, hs, hd, _⟩
    rcases hs with rfl | rfl
    · exact ⟨c, ds, rfl, Or.inr (fun x hx => hd x (by simp at hx; simp [hx]))⟩
    · exact ⟨45, c :: ds, rfl, Or.inl (by simp)⟩
  cases h with
  | int s h => exact hint h
  | float s h =>
    obtain ⟨i, f, e, rfl, hi, _⟩ := h
    obtain ⟨c, s', rfl, hc⟩ := hint hi
    exact ⟨c, _, rfl, hc⟩
  | _ => exact ⟨_, _, rfl, Or.inl (by simp)⟩

theorem ws_cons {w w' : Bytes} {c : Byte} {s t : Bytes} (h : w ++ t ++ w' = c :: s) (hw : Ws w) (hc : c ≠ 32 ∧ c ≠ 9 ∧ c ≠ 10 ∧ c ≠ 13) :
    w = [] := by
  cases w with
  | nil => rfl
  | cons d w =>
    simp only [List.cons_append, List.cons.injEq] at h
    have := hw d (by simp)
    rw [h.1] at this
    rcases this with h | h | h | h <;> simp [h] at hc

/-- a text beginning with something else is not a JSON text -/
theorem not_grammatical {c : Byte} {s : Bytes} (hc : c ≠ 32 ∧ c ≠ 9 ∧ c ≠ 10 ∧ c ≠ 13)
    (h : ¬ (c ∈ ([110, 116, 102, 34, 91, 123, 45] : Bytes) ∨ Digits [c])) : ¬ Grammatical (c :: s) := by
  rintro ⟨x, w, t, w', he, hw, _, hg⟩
  have := ws_cons he.symm hw hc
  subst this
  obtain ⟨c', s', rfl, h'⟩ := gram_head hg
  simp at he
  rw [he.1] at h
  exact h h'

/-- a string with a bare control character is not a JSON text -/
theorem control_not_grammatical {c : Byte} (h : c.toNat < 0x20) : ¬ Grammatical [34, c, 34] := by
  rintro ⟨x, w, t, w', he, hw, hw', hg⟩
  have := ws_cons he.symm hw (by decide)
  subst this
  have hne : ∀ {d : Byte}, Digits [d] → d ≠ 34 := by
    intro d hd e
    have := hd d (by simp)
    rw [e] at this
    exact absurd this (by decide)
  have hcase : ∃ t', t = [34] ++ t' ++ [34] ∧ StrGram t' := by
    cases hg with
    | int s h =>
      obtain ⟨c', s', rfl, h'⟩ := gram_head (S := fun _ t => StrGram t) (.int _ h)
      obtain ⟨sg, c2, ds, e2, hs, hd, _⟩ := h
      simp at he
      rcases hs with rfl | rfl
      · simp at e2
        have := hd c2 (by simp)
        rw [← e2.1, ← he.1] at this
        exact absurd this (by decide)
      · simp at e2
        rw [← he.1] at e2
        exact absurd e2.1 (by decide)
    | float s h =>
      obtain ⟨i, f, e, rfl, ⟨sg, c2, ds, rfl, hs, hd, _⟩, _⟩ := h
      rcases hs with rfl | rfl
      · simp at he
        have := hd c2 (by simp)
        rw [← he.1] at this
        exact absurd this (by decide)
      · simp at he
    | str m t h => exact ⟨t, rfl, h⟩
    | _ => simp at he
  obtain ⟨t', rfl, hs⟩ := hcase
  simp at he
  cases t' with
  | nil =>
    simp at he
    cases w' with
    | nil => simp at he
    | cons d w' =>
      simp at he
      have := hw' d (by simp)
      obtain ⟨e1, e2, e3⟩ := he
      rw [← e2] at this
      exact absurd this (by decide)
  | cons d t' =>
    simp at he
    obtain ⟨rfl, he⟩ := he
    cases hs with
    | unescaped _ _ h1 => omega
    | escape a e t h1 => exact absurd h (by decide)
    | unicode => exact absurd h (by decide)

end Reflect.Json

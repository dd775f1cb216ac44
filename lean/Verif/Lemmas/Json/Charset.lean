import Verif.Lemmas.Json.Out
/-
  Which bytes occur in a text of the grammar: those of its strings and ASCII characters.
-/
namespace Reflect.Json

/-- a property of texts that ASCII characters have and that concatenation keeps -/
structure Charset (P : Bytes → Prop) : Prop where
  nil : P []
  ascii : ∀ c : Byte, c.toNat < 0x80 → P [c]
  append : ∀ s t, P s → P t → P (s ++ t)

namespace Charset
variable {P : Bytes → Prop} (hP : Charset P)
include hP

theorem all : ∀ s : Bytes, (∀ c ∈ s, c.toNat < 0x80) → P s
  | [], _ => hP.nil
  | c :: s, h => hP.append [c] s (hP.ascii c (h c (by simp))) (all s fun x hx => h x (by simp [hx]))

theorem ws {w : Bytes} (h : Ws w) : P w := by
  refine hP.all w fun c hc => ?_
  rcases h c hc with rfl | rfl | rfl | rfl <;> decide

theorem digits {s : Bytes} (h : Digits s) : P s := hP.all s fun c hc => by have := h c hc; omega

theorem int {s : Bytes} (h : IntGram s) : P s := by
  obtain ⟨sg, c, ds, rfl, h1, h2, -⟩ := h
  refine hP.append _ _ ?_ (hP.digits h2)
  rcases h1 with rfl | rfl
  · exact hP.nil
  · exact hP.ascii 45 (by decide)

theorem float {s : Bytes} (h : FloatGram s) : P s := by
  obtain ⟨i, f, x, rfl, h1, h2, h3, -⟩ := h
  refine hP.append _ _ (hP.append _ _ (hP.int h1) ?_) ?_
  · rcases h2 with rfl | ⟨ds, rfl, -, h⟩
    · exact hP.nil
    · exact hP.append [46] ds (hP.ascii 46 (by decide)) (hP.digits h)
  · rcases h3 with rfl | ⟨e, sg, ds, rfl, he, hs, -, h⟩
    · exact hP.nil
    · refine hP.append [e] (sg ++ ds) ?_ (hP.append _ _ ?_ (hP.digits h))
      · rcases he with rfl | rfl
        · exact hP.ascii 101 (by decide)
        · exact hP.ascii 69 (by decide)
      · rcases hs with rfl | rfl | rfl
        · exact hP.nil
        · exact hP.ascii 43 (by decide)
        · exact hP.ascii 45 (by decide)

theorem quoted {t : Bytes} (h : P t) : P ([34] ++ t ++ [34]) :=
  hP.append _ _ (hP.append _ _ (hP.ascii 34 (by decide)) h) (hP.ascii 34 (by decide))

variable {S : Bytes → Bytes → Prop} (hS : ∀ m t, S m t → P t)
include hS

mutual
theorem gram : ∀ {x : JTree} {s : Bytes}, Gram S x s → P s
  | _, _, .null => hP.all _ (by decide)
  | _, _, .true => hP.all _ (by decide)
  | _, _, .false => hP.all _ (by decide)
  | _, _, .int _ h => hP.int h
  | _, _, .float _ h => hP.float h
  | _, _, .str m t h => hP.quoted (hS m t h)
  | _, _, .arrNil w h => hP.append _ _ (hP.append _ _ (hP.ascii 91 (by decide)) (hP.ws h)) (hP.ascii 93 (by decide))
  | _, _, .arr _ _ h => hP.append _ _ (hP.append _ _ (hP.ascii 91 (by decide)) (elems h)) (hP.ascii 93 (by decide))
  | _, _, .objNil w h => hP.append _ _ (hP.append _ _ (hP.ascii 123 (by decide)) (hP.ws h)) (hP.ascii 125 (by decide))
  | _, _, .obj _ _ h => hP.append _ _ (hP.append _ _ (hP.ascii 123 (by decide)) (members h)) (hP.ascii 125 (by decide))
theorem elems : ∀ {xs : List JTree} {s : Bytes}, Elems S xs s → P s
  | _, _, .one _ _ _ _ h1 h2 h3 => hP.append _ _ (hP.append _ _ (hP.ws h1) (gram h2)) (hP.ws h3)
  | _, _, .cons _ _ _ _ _ _ h1 h2 h3 h4 =>
    hP.append _ _ (hP.append _ _ (hP.append _ _ (hP.append _ _ (hP.ws h1) (gram h2)) (hP.ws h3))
      (hP.ascii 44 (by decide))) (elems h4)
theorem members : ∀ {ms : List (Bytes × JTree)} {s : Bytes}, Members S ms s → P s
  | _, _, .one m _ _ t _ _ _ _ h1 h2 h3 h4 h5 h6 =>
    hP.append _ _ (hP.append _ _ (hP.append _ _ (hP.append _ _ (hP.append _ _ (hP.append _ _ (hP.ws h1)
      (hP.quoted (hS m t h2))) (hP.ws h3)) (hP.ascii 58 (by decide))) (hP.ws h4)) (gram h5)) (hP.ws h6)
  | _, _, .cons m _ _ _ t _ _ _ _ _ h1 h2 h3 h4 h5 h6 h7 =>
    hP.append _ _ (hP.append _ _ (hP.append _ _ (hP.append _ _ (hP.append _ _ (hP.append _ _ (hP.append _ _
      (hP.append _ _ (hP.ws h1) (hP.quoted (hS m t h2))) (hP.ws h3)) (hP.ascii 58 (by decide))) (hP.ws h4))
      (gram h5)) (hP.ws h6)) (hP.ascii 44 (by decide))) (members h7)
end
end Charset

theorem ascii_charset : Charset (fun s => ∀ c ∈ s, c.toNat < 0x80) where
  nil := by simp
  ascii := by simp
  append := by
    intro s t h1 h2 c hc
    rcases List.mem_append.mp hc with h | h
    · exact h1 c h
    · exact h2 c h

theorem text_charset (m : Nat) (hm : 0x80 ≤ m) : Charset (Text m) where
  nil := ⟨[], by simp, rfl⟩
  ascii := by
    intro c hc
    refine ⟨[c.toNat], by simp; omega, ?_⟩
    simp [utf8, hc]
  append := by
    rintro s t ⟨ns, h1, rfl⟩ ⟨ms, h2, rfl⟩
    refine ⟨ns ++ ms, ?_, by simp⟩
    intro n hn
    rcases List.mem_append.mp hn with h | h
    · exact h1 n h
    · exact h2 n h

theorem escapeChar_ascii {c : Byte} (h : c.toNat < 0x80) : ∀ x ∈ escapeChar c, x.toNat < 0x80 := by
  intro x hx
  unfold escapeChar at hx
  repeat' split at hx
  all_goals simp only [List.mem_cons, List.not_mem_nil, or_false] at hx
  all_goals first
    | (rcases hx with rfl | rfl <;> decide)
    | (subst hx; exact h)

theorem hexDigit_ascii (d : Nat) (h : d < 16) : (hexDigit d).toNat < 0x80 := by
  have : ∀ i : Fin 16, (hexDigit i.val).toNat < 0x80 := by decide
  exact this ⟨d, h⟩

theorem hexDigits_ascii (n : Nat) : ∀ x ∈ hexDigits n, x.toNat < 0x80 := by
  induction n using Nat.strongRecOn with
  | _ n ih =>
    intro x hx
    by_cases h : n < 16
    · rw [hexDigits_lt h] at hx
      simp only [List.mem_cons, List.not_mem_nil, or_false] at hx
      subst hx
      exact hexDigit_ascii n h
    · rw [hexDigits_ge (by omega)] at hx
      rcases List.mem_append.mp hx with h' | h'
      · exact ih (n / 16) (by omega) x h'
      · simp only [List.mem_cons, List.not_mem_nil, or_false] at h'
        subst h'
        exact hexDigit_ascii _ (Nat.mod_lt _ (by decide))

theorem hex4_ascii (n : Nat) : ∀ x ∈ hex4 n, x.toNat < 0x80 := by
  intro x hx
  rcases List.mem_append.mp hx with h | h
  · rw [(List.mem_replicate.mp h).2]; decide
  · exact hexDigits_ascii n x h

/-- with escapes, a string is written in ASCII -/
theorem ftext_ascii {wo : WOpts} (hw : wo.escapeUnicode = true) {m t : Bytes} (h : FText wo m t) :
    ∀ c ∈ t, c.toNat < 0x80 := by
  induction h with
  | nil => simp
  | ascii c s t hc _ ih => exact ascii_charset.append _ _ (escapeChar_ascii hc) ih
  | raw c s t hc h1 => rw [hw] at h1; cases h1
  | esc c tl k s t h1 h2 h3 h4 h5 h6 _ ih =>
    refine ascii_charset.append _ _ (ascii_charset.append _ _ (by decide) (hex4_ascii _)) ih
  | copy n s t h1 => rw [hw] at h1; cases h1

/-- with validation, a string is written in UTF-8 -/
theorem ftext_utf8 {wo : WOpts} (hv : wo.validateUnicode = true) {m t : Bytes} (h : FText wo m t) :
    Text 0x200000 t := by
  have hP := text_charset 0x200000 (by decide)
  induction h with
  | nil => exact hP.nil
  | ascii c s t hc _ ih => exact hP.append _ _ (hP.all _ (escapeChar_ascii hc)) ih
  | raw c s t hc h1 h2 => rw [hv] at h2; cases h2
  | esc c tl k s t h1 h2 h3 h4 h5 h6 _ ih =>
    exact hP.append _ _ (hP.append _ _ (hP.all _ (by decide)) (hP.all _ (hex4_ascii _))) ih
  | copy n s t h1 h2 h3 h4 _ ih => exact hP.append _ _ ⟨[n], by simpa using h4, by simp⟩ ih

end Reflect.Json

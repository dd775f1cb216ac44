import Verif.Spec.JsonText
import Verif.Model.Json.Writer
import Verif.Lemmas.Json.Fed
/- The text the writer produces for strings and integers. -/
namespace Reflect.Json

/-! ### The writer -/

theorem Writer.push_push (w : Writer) (a b : Bytes) : (w.push a).push b = w.push (a ++ b) := by
  simp [Writer.push, List.append_assoc]

theorem Writer.push_nil (w : Writer) : w.push [] = w := by simp [Writer.push]

@[simp] theorem Writer.push_out (w : Writer) (a : Bytes) : (w.push a).out = w.out ++ a := rfl
@[simp] theorem Writer.push_err (w : Writer) (a : Bytes) : (w.push a).err = w.err := rfl
@[simp] theorem Writer.push_opts (w : Writer) (a : Bytes) : (w.push a).opts = w.opts := rfl
@[simp] theorem Writer.push_indent (w : Writer) (a : Bytes) : (w.push a).indent = w.indent := rfl

theorem Writer.ok_iff (w : Writer) : w.ok = true ↔ w.err = none := by
  unfold Writer.ok; cases w.err <;> simp

theorem Writer.errorIf_false (w : Writer) (m : WMsg) : w.errorIf false m = w := rfl

theorem Writer.errorIf_none {w : Writer} {c : Bool} {m : WMsg} (h : (w.errorIf c m).err = none) :
    c = false ∧ w.err = none := by
  cases c with
  | false => exact ⟨rfl, h⟩
  | true => cases h

/-! ### Strings -/

/-- `s` written under the options `wo` without an error gives `t`. -/
inductive FText (wo : WOpts) : Bytes → Bytes → Prop where
  | nil : FText wo [] []
  | ascii (c : Byte) (s t : Bytes) : c.toNat < 0x80 → FText wo s t → FText wo (c :: s) (escapeChar c ++ t)
  | raw (c : Byte) (s t : Bytes) : 0x80 ≤ c.toNat → wo.escapeUnicode = false → wo.validateUnicode = false →
      FText wo s t → FText wo (c :: s) (c :: t)
  | esc (c : Byte) (tl : Bytes) (k : Nat) (s t : Bytes) : wo.escapeUnicode = true → leadingOnes c = some k →
      2 ≤ k → k ≤ 4 → tl.length = k - 1 → (∀ x ∈ tl, IsCont x) → FText wo s t →
      FText wo (c :: (tl ++ s)) (([92, 117] : Bytes) ++ hex4 (contVal (c.toNat &&& ((1 <<< (7 - k)) - 1)) tl) ++ t)
  | copy (n : Nat) (s t : Bytes) : wo.escapeUnicode = false → wo.validateUnicode = true → 0x80 ≤ n →
      n < 0x200000 → FText wo s t → FText wo (utf8 n ++ s) (utf8 n ++ t)

theorem contBytes_ok (push : Bool) (tl : Bytes) : ∀ (s : Bytes) (code : Nat) (w : Writer), w.err = none →
    (∀ c ∈ tl, IsCont c) →
    contBytes push tl.length (tl ++ s) code w = (contVal code tl, s, if push then w.push tl else w) := by
  induction tl with
  | nil => intro s code w _ _; cases push <;> simp [contBytes, contVal, Writer.push_nil]
  | cons c tl ih =>
    intro s code w hw hc
    have hcc := (cont_iff c).mpr (hc c (by simp))
    rw [List.length_cons, contBytes.eq_def]
    simp only [(Writer.ok_iff w).mpr hw, if_true]
    simp only [List.cons_append, hcc, bne_self_eq_false, Writer.errorIf_false, and_3F]
    rw [shift6_or (Nat.mod_lt _ (by decide))]
    rw [ih s _ _ (by cases push <;> exact hw) (fun x hx => hc x (by simp [hx]))]
    cases push
    · rfl
    · simp [Writer.push_push, contVal]

theorem contBytes_err (push : Bool) (n : Nat) : ∀ (s : Bytes) (code : Nat) (w : Writer), w.err ≠ none →
    contBytes push n s code w = (code, s, w) := by
  intro s code w hw
  cases n with
  | zero => rfl
  | succ n =>
    rw [contBytes.eq_def]
    simp only
    rw [if_neg (fun h => hw ((Writer.ok_iff w).mp h))]

theorem contBytes_sound (push : Bool) (n : Nat) : ∀ (s : Bytes) (code : Nat) (w : Writer), n ≤ s.length →
    (contBytes push n s code w).2.2.err = none →
    w.err = none ∧ ∃ tl s', tl.length = n ∧ s = tl ++ s' ∧ ∀ c ∈ tl, IsCont c := by
  induction n with
  | zero => intro s code w _ h; exact ⟨h, [], s, rfl, rfl, by simp⟩
  | succ n ih =>
    intro s code w hn h
    by_cases hw : w.err = none
    · refine ⟨hw, ?_⟩
      cases s with
      | nil => simp at hn
      | cons c s =>
        rw [contBytes, if_pos ((Writer.ok_iff w).mpr hw)] at h
        simp only at h
        obtain ⟨h1, tl, s', h2, h3, h4⟩ := ih _ _ _ (by simpa using hn) h
        have h5 : (w.errorIf (c.toNat &&& 0xC0 != 0x80) .utf8Encoding).err = none := by
          cases push <;> simpa using h1
        have h6 := (Writer.errorIf_none h5).1
        refine ⟨c :: tl, s', by simp [h2], by simp [h3], ?_⟩
        intro x hx
        rcases List.mem_cons.mp hx with hx | hx
        · rw [hx]; exact (cont_iff c).mp (by simpa using h6)
        · exact h4 x hx
    · rw [contBytes_err push _ s code w hw] at h
      exact absurd h hw

theorem FText.complete {wo : WOpts} {s t : Bytes} (h : FText wo s t) : ∀ (n : Nat) (w : Writer), s.length ≤ n →
    w.opts = wo → w.err = none → formatLoop n s w = .ok (w.push t) := by
  induction h with
  | nil => intro n w _ _ _; cases n <;> simp [formatLoop, Writer.push_nil]
  | ascii c s t hc _ ih =>
    intro n w hn ho he
    obtain ⟨n, rfl⟩ : ∃ k, n = k + 1 := ⟨n - 1, by simp at hn; omega⟩
    rw [formatLoop, if_neg (by omega), if_neg (by omega)]
    rw [ih n (w.push (escapeChar c)) (by simpa using hn) ho he, Writer.push_push]
  | raw c s t hc h1 h2 _ ih =>
    intro n w hn ho he
    obtain ⟨n, rfl⟩ : ∃ k, n = k + 1 := ⟨n - 1, by simp at hn; omega⟩
    rw [formatLoop, if_neg (by rw [ho, h1]; simp), if_neg (by rw [ho, h2]; simp)]
    rw [ih n (w.push (escapeChar c)) (by simpa using hn) ho he, Writer.push_push]
    have : escapeChar c = [c] := by
      unfold escapeChar
      repeat' split
      all_goals first | rfl | (rename_i hh; subst hh; exact absurd hc (by decide))
    rw [this]; rfl
  | esc c tl k s t h1 h2 h3 h4 h5 h6 _ ih =>
    intro n w hn ho he
    obtain ⟨n, rfl⟩ : ∃ k, n = k + 1 := ⟨n - 1, by simp at hn; omega⟩
    have hc : 0x80 ≤ c.toNat := by
      rcases leadingOnes_inv h2 ⟨h3, h4⟩ with ⟨_, h, _⟩ | ⟨_, h, _⟩ | ⟨_, h, _⟩ <;> omega
    have e : escapeUnicode w c (tl ++ s) =
        .ok (s, w.push (([92, 117] : Bytes) ++ hex4 (contVal (c.toNat &&& ((1 <<< (7 - k)) - 1)) tl))) := by
      unfold escapeUnicode
      rw [h2]
      simp only
      rw [show (decide (k > 4) || decide (k < 2)) = false by simp; omega, Writer.errorIf_false,
        show decide (k > (tl ++ s).length + 1) = false by simp; omega, Writer.errorIf_false, ← h5,
        contBytes_ok false tl s _ w he h6]
      rfl
    rw [formatLoop, if_pos ⟨hc, by rw [ho]; exact h1⟩, e, okb]
    simp only
    rw [ih n (w.push _) (by simp at hn; omega) ho he, Writer.push_push]
  | copy m s t h1 h2 h3 h4 _ ih =>
    intro n w hn ho he
    obtain ⟨c, tl, k, e1, g2, g3, g4, g5, g6, hc, g7, g8⟩ := utf8_shape h3 h4
    rw [e1] at hn ⊢
    obtain ⟨n, rfl⟩ : ∃ k, n = k + 1 := ⟨n - 1, by simp at hn; omega⟩
    have e : copyUnicode w c (tl ++ s) = .ok (s, w.push (c :: tl)) := by
      unfold copyUnicode
      rw [g2]
      simp only
      rw [show (decide (k > 4) || decide (k < 2)) = false by simp; omega, Writer.errorIf_false,
        show decide (k > (tl ++ s).length + 1) = false by simp; omega, Writer.errorIf_false, ← g5,
        contBytes_ok true tl s _ (w.push [c]) he g6]
      simp only [g5, g7]
      rw [show ((k == 4 && decide (m ≤ 0xFFFF)) || (k == 3 && decide (m ≤ 0x7FF)) ||
        (k == 2 && decide (m ≤ 0x7F))) = false by simp; omega, Writer.errorIf_false]
      simp [Writer.push_push]
    rw [List.cons_append, formatLoop, if_neg (by rw [ho, h1]; simp), if_pos ⟨hc, by rw [ho]; exact h2⟩, e, okb]
    simp only
    rw [ih n (w.push _) (by simp at hn; omega) ho he, Writer.push_push]

theorem formatLoop_opts : ∀ (n : Nat) (s : Bytes) (w w' : Writer), formatLoop n s w = .ok w' →
    w'.err = none → w.err = none ∧ ∃ t, FText w.opts s t := by
  intro n
  induction n with
  | zero =>
    intro s w w' h he
    cases s with
    | nil => rw [formatLoop] at h; injection h with h; subst h; exact ⟨he, [], FText.nil⟩
    | cons c s => rw [formatLoop] at h; cases h
  | succ n ih =>
    intro s w w' h he
    cases s with
    | nil => rw [formatLoop] at h; injection h with h; subst h; exact ⟨he, [], FText.nil⟩
    | cons c s =>
      rw [formatLoop] at h
      by_cases h1 : 0x80 ≤ c.toNat ∧ w.opts.escapeUnicode = true
      · rw [if_pos h1] at h
        unfold escapeUnicode at h
        cases hk : leadingOnes c with
        | none => rw [hk] at h; cases h
        | some k =>
          rw [hk] at h
          rw [okb] at h
          simp only at h
          obtain ⟨e1, t, e2⟩ := ih _ _ _ h he
          rw [Writer.push_err] at e1
          by_cases hlen : k ≤ s.length + 1
          · obtain ⟨e3, tl, s', e4, e5, e6⟩ := contBytes_sound false (k - 1) s _ _ (by omega) e1
            have e7 := Writer.errorIf_none e3
            have e8 := Writer.errorIf_none e7.2
            have hk2 : 2 ≤ k ∧ k ≤ 4 := by
              have := e8.1
              simp at this
              omega
            refine ⟨e8.2, ?_⟩
            subst e5
            rw [e7.1, Writer.errorIf_false, e8.1, Writer.errorIf_false, ← e4, contBytes_ok false tl s' _ w e8.2 e6] at e2
            simp only [Bool.false_eq_true, if_false, Writer.push_opts] at e2
            exact ⟨_, FText.esc c tl k s' t h1.2 hk hk2.1 hk2.2 e4 e6 e2⟩
          · exfalso
            have e9 : ∀ w1 : Writer, (w1.errorIf (decide (k > s.length + 1)) .utf8Encoding).err ≠ none := by
              intro w1
              rw [show decide (k > s.length + 1) = true by simp; omega]
              intro hh; cases hh
            rw [contBytes_err _ _ _ _ _ (e9 _)] at e1
            exact e9 _ e1
      · rw [if_neg h1] at h
        by_cases h2 : 0x80 ≤ c.toNat ∧ w.opts.validateUnicode = true
        · rw [if_pos h2] at h
          unfold copyUnicode at h
          cases hk : leadingOnes c with
          | none => rw [hk] at h; cases h
          | some k =>
            rw [hk] at h
            rw [okb] at h
            simp only at h
            obtain ⟨e1, t, e2⟩ := ih _ _ _ h he
            have e10 := Writer.errorIf_none e1
            by_cases hlen : k ≤ s.length + 1
            · obtain ⟨e3, tl, s', e4, e5, e6⟩ := contBytes_sound true (k - 1) s _ _ (by omega) e10.2
              rw [Writer.push_err] at e3
              have e7 := Writer.errorIf_none e3
              have e8 := Writer.errorIf_none e7.2
              have hk2 : 2 ≤ k ∧ k ≤ 4 := by
                have := e8.1
                simp at this
                omega
              refine ⟨e8.2, ?_⟩
              subst e5
              have e11 := e10.1
              rw [e7.1, Writer.errorIf_false, e8.1, Writer.errorIf_false, ← e4,
                contBytes_ok true tl s' _ (w.push [c]) e8.2 e6] at e2 e11
              have hopt : ∀ (b : Bool) (x : Writer), (x.errorIf b .utf8Encoding).opts = x.opts := by
                intro b x; cases b <;> rfl
              rw [hopt] at e2
              simp only [if_true, Writer.push_opts] at e2 e11
              obtain ⟨m, m1, m2, m3⟩ := utf8_of_shape hk hk2 e4 e6 (by
                simp at e11
                omega)
              have := FText.copy (wo := w.opts) m s' t (by
                cases hb : w.opts.escapeUnicode with
                | false => rfl
                | true => exact absurd ⟨h2.1, hb⟩ h1) h2.2 m1 m2 e2
              rw [m3] at this
              exact ⟨_, this⟩
            · exfalso
              have e9 : ∀ w1 : Writer, ((w1.errorIf (decide (k > s.length + 1)) .utf8Encoding).push [c]).err ≠ none := by
                intro w1
                rw [show decide (k > s.length + 1) = true by simp; omega]
                intro hh; cases hh
              rw [contBytes_err _ _ _ _ _ (e9 _)] at e10
              exact e9 _ e10.2
        · rw [if_neg h2] at h
          obtain ⟨e1, t, e2⟩ := ih _ _ _ h he
          refine ⟨e1, ?_⟩
          by_cases h3 : 0x80 ≤ c.toNat
          · refine ⟨_, FText.raw c s t h3 ?_ ?_ e2⟩
            · cases hb : w.opts.escapeUnicode with
              | false => rfl
              | true => exact absurd ⟨h3, hb⟩ h1
            · cases hb : w.opts.validateUnicode with
              | false => rfl
              | true => exact absurd ⟨h3, hb⟩ h2
          · exact ⟨_, FText.ascii c s t (by omega) e2⟩

/-- Strings written without an error. -/
theorem formatString_sound {s : Bytes} {w w' : Writer} (h : formatString w s = .ok w') (he : w'.err = none) :
    w.err = none ∧ ∃ t, FText w.opts s t ∧ w' = w.push ([34] ++ t ++ [34]) := by
  unfold formatString at h
  cases hl : formatLoop s.length s (w.push [34]) with
  | error e => rw [hl] at h; cases h
  | ok w1 =>
    rw [hl, okb] at h
    injection h with h
    subst h
    obtain ⟨e1, t, e2⟩ := formatLoop_opts _ _ _ _ hl he
    refine ⟨e1, t, e2, ?_⟩
    rw [e2.complete _ _ (Nat.le_refl _) rfl e1] at hl
    injection hl with hl
    subst hl
    simp [Writer.push_push]

theorem formatString_complete {wo : WOpts} {s t : Bytes} (h : FText wo s t) {w : Writer} (ho : w.opts = wo)
    (he : w.err = none) : formatString w s = .ok (w.push ([34] ++ t ++ [34])) := by
  unfold formatString
  rw [h.complete _ _ (Nat.le_refl _) (by simpa using ho) (by simpa using he), okb]
  simp [Writer.push_push]

theorem FText.unique {wo : WOpts} {s t t' : Bytes} (h : FText wo s t) (h' : FText wo s t') : t = t' := by
  have e1 := h.complete s.length { opts := wo } (Nat.le_refl _) rfl rfl
  have e2 := h'.complete s.length { opts := wo } (Nat.le_refl _) rfl rfl
  rw [e1] at e2
  injection e2 with e2
  have := congrArg Writer.out e2
  simpa using this

/-! ### Hexadecimal digits -/

theorem hexDigit_isHex {n : Nat} (h : n < 16) : IsHex (hexDigit n) n := by
  unfold hexDigit
  split
  · exact IsHex.digit n (by assumption)
  · have := IsHex.lower (n - 10) (by omega)
    rw [show 97 + (n - 10) = 87 + n by omega, show 10 + (n - 10) = n by omega] at this
    exact this

theorem hexDigits_lt {n : Nat} (h : n < 16) : hexDigits n = [hexDigit n] := by
  unfold hexDigits; rw [if_pos h]

theorem hexDigits_ge {n : Nat} (h : 16 ≤ n) : hexDigits n = hexDigits (n / 16) ++ [hexDigit (n % 16)] := by
  conv => lhs; unfold hexDigits
  rw [if_neg (by omega)]

theorem hexDigit_zero : hexDigit 0 = 48 := by decide

/-- four digits for a code that fits in them -/
theorem hex4_eq {n : Nat} (h : n < 0x10000) :
    hex4 n = [hexDigit (n / 4096), hexDigit (n / 256 % 16), hexDigit (n / 16 % 16), hexDigit (n % 16)] := by
  unfold hex4
  by_cases h1 : n < 16
  · rw [hexDigits_lt h1, show n / 4096 = 0 by omega, show n / 256 % 16 = 0 by omega, show n / 16 % 16 = 0 by omega,
      show n % 16 = n by omega, hexDigit_zero]; rfl
  · rw [hexDigits_ge (by omega)]
    by_cases h2 : n < 256
    · rw [hexDigits_lt (by omega), show n / 4096 = 0 by omega, show n / 256 % 16 = 0 by omega,
        show n / 16 % 16 = n / 16 by omega, hexDigit_zero]; rfl
    · rw [hexDigits_ge (n := n / 16) (by omega), Nat.div_div_eq_div_mul]
      by_cases h3 : n < 4096
      · rw [hexDigits_lt (by omega), show n / 4096 = 0 by omega,
          show n / 256 % 16 = n / (16 * 16) by omega, hexDigit_zero]; rfl
      · rw [hexDigits_ge (n := n / (16 * 16)) (by omega), Nat.div_div_eq_div_mul, hexDigits_lt (by omega)]; rfl

/-- more than four digits for one that does not -/
theorem hex4_big {n : Nat} (h : 0x10000 ≤ n) : hex4 n = hexDigits (n / 16) ++ [hexDigit (n % 16)] := by
  have hl : ∀ m : Nat, 0x1000 ≤ m → 4 ≤ (hexDigits m).length := by
    intro m hm
    rw [hexDigits_ge (by omega), hexDigits_ge (n := m / 16) (by omega), hexDigits_ge (n := m / 16 / 16) (by omega)]
    have : 1 ≤ (hexDigits (m / 16 / 16 / 16)).length := by
      unfold hexDigits; split <;> simp
    simp; omega
  unfold hex4
  rw [hexDigits_ge (n := n) (by omega)]
  have := hl (n / 16) (by omega)
  rw [show 4 - (hexDigits (n / 16) ++ [hexDigit (n % 16)]).length = 0 by simp; omega]
  rfl

/-! ### Reading the text back -/

theorem escapeChar_body {o : ROpts} {c : Byte} {t v : Bytes} (hc : c.toNat < 0x80 ∨ o.validateUnicode = false)
    (h : StrBody o t v) : StrBody o (escapeChar c ++ t) (c :: v) := by
  unfold escapeChar
  repeat' split
  all_goals first
    | (rename_i hh; subst hh; exact StrBody.escape _ _ _ _ (by decide) h)
    | (refine StrBody.plain c t v ?_ ?_ ?_ hc h <;> assumption)

/-- The writer's text means the string written: escaping mode, code points of the basic plane. -/
theorem FText.body_esc {wo : WOpts} {ro : ROpts} (hw : wo.escapeUnicode = true) (hr : ro.unescapeUnicode = true) :
    ∀ (ns : List Nat), (∀ n ∈ ns, n < 0x10000) → ∃ t, FText wo (ns.flatMap utf8) t ∧ StrBody ro t (ns.flatMap utf8) := by
  intro ns
  induction ns with
  | nil => intro _; exact ⟨[], FText.nil, StrBody.nil⟩
  | cons n ns ih =>
    intro h
    obtain ⟨t, h1, h2⟩ := ih (fun m hm => h m (by simp [hm]))
    have hn := h n (by simp)
    rw [List.flatMap_cons]
    by_cases h80 : n < 0x80
    · have e : utf8 n = [UInt8.ofNat n] := by unfold utf8; rw [if_pos h80]
      have e2 : (UInt8.ofNat n).toNat < 0x80 := by rw [toNat_ofNat (by omega)]; exact h80
      rw [e]
      exact ⟨_, FText.ascii _ _ t e2 h1, escapeChar_body (Or.inl e2) h2⟩
    · obtain ⟨c, tl, k, e1, g2, g3, g4, g5, g6, hc, g7, g8⟩ := utf8_shape (n := n) (by omega) (by omega)
      have := FText.esc (wo := wo) c tl k _ t hw g2 g3 g4 g5 g6 h1
      rw [g7, hex4_eq hn] at this
      refine ⟨_, by rw [e1]; exact this, ?_⟩
      have hb := StrBody.unicode _ _ _ _ _ _ _ _ t _ hr (hexDigit_isHex (n := n / 4096) (by omega))
        (hexDigit_isHex (n := n / 256 % 16) (by omega)) (hexDigit_isHex (n := n / 16 % 16) (by omega))
        (hexDigit_isHex (n := n % 16) (by omega)) h2
      rw [show 4096 * (n / 4096) + 256 * (n / 256 % 16) + 16 * (n / 16 % 16) + n % 16 = n by omega] at hb
      exact hb

/-- Copying mode with validation. -/
theorem FText.body_copy {wo : WOpts} {ro : ROpts} (hw : wo.escapeUnicode = false) (hv : wo.validateUnicode = true) :
    ∀ (ns : List Nat), (∀ n ∈ ns, n < 0x200000) → ∃ t, FText wo (ns.flatMap utf8) t ∧ StrBody ro t (ns.flatMap utf8) := by
  intro ns
  induction ns with
  | nil => intro _; exact ⟨[], FText.nil, StrBody.nil⟩
  | cons n ns ih =>
    intro h
    obtain ⟨t, h1, h2⟩ := ih (fun m hm => h m (by simp [hm]))
    have hn := h n (by simp)
    rw [List.flatMap_cons]
    by_cases h80 : n < 0x80
    · have e : utf8 n = [UInt8.ofNat n] := by unfold utf8; rw [if_pos h80]
      have e2 : (UInt8.ofNat n).toNat < 0x80 := by rw [toNat_ofNat (by omega)]; exact h80
      rw [e]
      exact ⟨_, FText.ascii _ _ t e2 h1, escapeChar_body (Or.inl e2) h2⟩
    · refine ⟨_, FText.copy n _ t hw hv (by omega) hn h1, ?_⟩
      cases hro : ro.validateUnicode with
      | true => exact StrBody.utf8 n t _ hro (by omega) hn h2
      | false =>
        -- the bytes of the code point one by one
        obtain ⟨c, tl, k, e1, g2, g3, g4, g5, g6, hc, g7, g8⟩ := utf8_shape (n := n) (by omega) hn
        rw [e1]
        have : ∀ (bs : Bytes), (∀ x ∈ bs, 0x80 ≤ x.toNat) → StrBody ro (bs ++ t) (bs ++ ns.flatMap utf8) := by
          intro bs
          induction bs with
          | nil => intro _; exact h2
          | cons b bs ihb =>
            intro hb
            have hb1 := hb b (by simp)
            refine StrBody.plain b _ _ ?_ ?_ ?_ (Or.inr hro) (ihb (fun x hx => hb x (by simp [hx])))
            all_goals (intro hh; subst hh; exact absurd hb1 (by decide))
        exact this (c :: tl) (by
          intro x hx
          rcases List.mem_cons.mp hx with hx | hx
          · rw [hx]; exact hc
          · exact (g6 x hx).1)

/-- Raw mode: neither escaping nor validation. -/
theorem FText.body_raw {wo : WOpts} {ro : ROpts} (hw : wo.escapeUnicode = false) (hv : wo.validateUnicode = false)
    (s : Bytes) : ∃ t, FText wo s t ∧
      (ro.validateUnicode = false ∨ (∃ ns : List Nat, (∀ n ∈ ns, n < 0x200000) ∧ s = ns.flatMap utf8) → StrBody ro t s) := by
  have key : ∀ s : Bytes, FText wo s (s.flatMap escapeChar) := by
    intro s
    induction s with
    | nil => exact FText.nil
    | cons c s ih =>
      rw [List.flatMap_cons]
      by_cases hc : c.toNat < 0x80
      · exact FText.ascii c s _ hc ih
      · have : escapeChar c = [c] := by
          unfold escapeChar
          repeat' split
          all_goals first | rfl | (rename_i hh; subst hh; exact absurd hc (by decide))
        rw [this]
        exact FText.raw c s _ (by omega) hw hv ih
  refine ⟨_, key s, ?_⟩
  have lead : ∀ c : Byte, 0x80 ≤ c.toNat → escapeChar c = [c] := by
    intro c hc
    unfold escapeChar
    repeat' split
    all_goals first | rfl | (rename_i hh; subst hh; exact absurd hc (by decide))
  rintro (hr | ⟨ns, hns, rfl⟩)
  · induction s with
    | nil => exact StrBody.nil
    | cons c s ih => rw [List.flatMap_cons]; exact escapeChar_body (Or.inr hr) ih
  · cases hr : ro.validateUnicode with
    | false =>
      generalize ns.flatMap utf8 = s
      induction s with
      | nil => exact StrBody.nil
      | cons c s ih => rw [List.flatMap_cons]; exact escapeChar_body (Or.inr hr) ih
    | true =>
      induction ns with
      | nil => exact StrBody.nil
      | cons n ns ih =>
        have ih := ih (fun m hm => hns m (by simp [hm]))
        have hn := hns n (by simp)
        rw [List.flatMap_cons, List.flatMap_append]
        by_cases h80 : n < 0x80
        · have e : utf8 n = [UInt8.ofNat n] := by unfold utf8; rw [if_pos h80]
          have e2 : (UInt8.ofNat n).toNat < 0x80 := by rw [toNat_ofNat (by omega)]; exact h80
          rw [e]
          simp only [List.flatMap_cons, List.flatMap_nil, List.append_nil]
          exact escapeChar_body (Or.inl e2) ih
        · obtain ⟨c, tl, k, e1, g2, g3, g4, g5, g6, hc, g7, g8⟩ := utf8_shape (n := n) (by omega) hn
          have : ∀ bs : Bytes, (∀ x ∈ bs, 0x80 ≤ x.toNat) → bs.flatMap escapeChar = bs := by
            intro bs
            induction bs with
            | nil => intro _; rfl
            | cons b bs ihb =>
              intro hb
              rw [List.flatMap_cons, lead b (hb b (by simp)), ihb (fun x hx => hb x (by simp [hx]))]; rfl
          rw [this (utf8 n) (by
            rw [e1]
            intro x hx
            rcases List.mem_cons.mp hx with hx | hx
            · rw [hx]; exact hc
            · exact (g6 x hx).1)]
          exact StrBody.utf8 n _ _ hr (by omega) hn ih

/-! ### Integers -/

theorem decDigits_lt {n : Nat} (h : n < 10) : decDigits n = [UInt8.ofNat (48 + n)] := by
  unfold decDigits; rw [if_pos h]

theorem decDigits_ge {n : Nat} (h : 10 ≤ n) : decDigits n = decDigits (n / 10) ++ [UInt8.ofNat (48 + n % 10)] := by
  conv => lhs; unfold decDigits
  rw [if_neg (by omega)]

theorem decDigits_spec : ∀ (k n : Nat), n ≤ k → Digits (decDigits n) ∧ decDigits n ≠ [] ∧
    (decDigits n).foldl (fun a d => a * 10 + (d.toNat - 48)) 0 = n := by
  intro k
  induction k with
  | zero =>
    intro n hn
    obtain rfl : n = 0 := by omega
    rw [decDigits_lt (by omega)]
    refine ⟨?_, by simp, by decide⟩
    intro c hc
    simp at hc
    subst hc; exact ⟨by decide, by decide⟩
  | succ k ih =>
    intro n hn
    by_cases h : n < 10
    · have e : (UInt8.ofNat (48 + n)).toNat = 48 + n := toNat_ofNat (by omega)
      rw [decDigits_lt h]
      refine ⟨?_, by simp, ?_⟩
      · intro c hc
        simp only [List.mem_singleton] at hc
        rw [hc, e]; omega
      · simp only [List.foldl_cons, List.foldl_nil, e]; omega
    · rw [decDigits_ge (by omega)]
      obtain ⟨h1, h2, h3⟩ := ih (n / 10) (by omega)
      have e : (UInt8.ofNat (48 + n % 10)).toNat = 48 + n % 10 := toNat_ofNat (by omega)
      refine ⟨?_, by simp, ?_⟩
      · intro c hc
        rcases List.mem_append.mp hc with hc | hc
        · exact h1 c hc
        · simp only [List.mem_singleton] at hc
          rw [hc, e]; omega
      · rw [List.foldl_append, h3]
        simp only [List.foldl_cons, List.foldl_nil, e]
        omega

theorem decText_intText (i : Int) : IntText (decText i) := by
  obtain ⟨h1, h2, h3⟩ := decDigits_spec i.natAbs i.natAbs (Nat.le_refl _)
  unfold decText
  split
  · exact ⟨45, _, rfl, Or.inl rfl, h1⟩
  · cases hd : decDigits i.natAbs with
    | nil => exact absurd hd h2
    | cons c ds =>
      rw [hd] at h1
      exact ⟨c, ds, rfl, Or.inr (fun x hx => h1 x (by simp at hx; simp [hx])), fun x hx => h1 x (by simp [hx])⟩

theorem stol_decText {i : Int} (h : -(2 ^ 63 : Int) ≤ i ∧ i < 2 ^ 63) : stol (decText i) = .ok i := by
  obtain ⟨h1, h2, h3⟩ := decDigits_spec i.natAbs i.natAbs (Nat.le_refl _)
  unfold stol decText
  by_cases hn : i < 0
  · rw [if_pos hn]
    simp only [List.head?_cons, List.tail_cons, decide_true, if_true]
    rw [if_neg h2, h3, if_pos (by omega)]
    congr 1
    omega
  · rw [if_neg hn]
    have hne : ¬ ((decDigits i.natAbs).head? = some 45) := by
      cases hd : decDigits i.natAbs with
      | nil => exact absurd hd h2
      | cons c ds =>
        rw [hd] at h1
        intro hh
        simp at hh
        have := (h1 c (by simp)).1
        rw [hh] at this
        exact absurd this (by decide)
    simp only [hne, decide_false, Bool.false_eq_true, if_false]
    rw [if_neg h2, h3, if_pos (by omega)]
    congr 1
    omega

theorem dec_spec {ds : Bytes} {n : Nat} (h : Dec ds n) : Digits ds ∧
    ds.foldl (fun a d => a * 10 + (d.toNat - 48)) 0 = n := by
  induction h with
  | nil => exact ⟨(by intro c hc; cases hc), rfl⟩
  | snoc ds n d _ hd ih =>
    have e : (UInt8.ofNat (48 + d)).toNat = 48 + d := toNat_ofNat (by omega)
    refine ⟨?_, ?_⟩
    · intro c hc
      rcases List.mem_append.mp hc with hc | hc
      · exact ih.1 c hc
      · simp only [List.mem_singleton] at hc
        rw [hc, e]; omega
    · rw [List.foldl_append, ih.2]
      simp only [List.foldl_cons, List.foldl_nil, e]
      omega

end Reflect.Json

import Verif.Lemmas.Json.Sound
import Verif.Lemmas.Json.Ub
import Verif.Spec.JsonUb
/- The texts on which the tokenizer runs into undefined behaviour. -/
namespace Reflect.Json

variable {o : ROpts} {s b : Bytes} {r : Reader}

/-- a broken rest of a string -/
def Broken (o : ROpts) (s : Bytes) : Prop :=
  o.validateUnicode = true ∧ ∃ t v z, s = t ++ z ∧ StrBody o t v ∧ (z = [] ∨ ∃ z', z = 255 :: z')

theorem contLoop_ub (n : Nat) : ∀ (r : Reader) (c : Nat), (contLoop r c n).2.ub = r.ub := by
  induction n with
  | zero => intro r c; rfl
  | succ n ih => intro r c; unfold contLoop; split <;> simp [ih]

theorem validate_ub (r : Reader) (c : Byte) (hc : c ≠ 255) : (validateUnicode r c).ub = r.ub := by
  unfold validateUnicode
  split
  · rename_i h
    exfalso
    have : ∀ c : Byte, leadingOnes c = none → c = 255 := by
      intro c hc
      unfold leadingOnes at hc
      simp only at hc
      repeat' split at hc
      all_goals first | cases hc | skip
      have := c.toNat_lt
      exact UInt8.toNat_inj.mp (by show c.toNat = 255; omega)
    exact hc (this c h)
  · simp [contLoop_ub]

theorem stop_ub (r : Reader) (h : r.ok = false) : (readStringLoop r).ub = r.ub := by
  rw [readStringLoop_not_ok h]; simp

theorem readString_ub_sound : ∀ (k : Nat) {r : Reader} {s b : Bytes}, s.length ≤ k → At o s b r →
    (readStringLoop r).ub = true → Broken o s := by
  intro k
  induction k with
  | zero =>
    intro r s b hk h he
    have hs : s = [] := by simpa using hk
    subst hs
    cases hv : o.validateUnicode with
    | true => exact ⟨hv, [], [], [], rfl, .nil, Or.inl rfl⟩
    | false =>
      rw [readStringLoop_ub r (by rw [h.opts]; exact hv), h.ub] at he; cases he
  | succ k ih =>
    intro r s b hk h he
    match s, h with
    | [], h =>
      cases hv : o.validateUnicode with
      | true => exact ⟨hv, [], [], [], rfl, .nil, Or.inl rfl⟩
      | false =>
        rw [readStringLoop_ub r (by rw [h.opts]; exact hv), h.ub] at he; cases he
    | c :: s1, h =>
      have hp := h.pop
      have hk1 : s1.length ≤ k := by simpa using hk
      have hu := hp.2.ub
      rw [readStringLoop.eq_def, dif_pos h.ok] at he
      simp only [hp.1] at he
      by_cases c10 : c = 10
      · rw [if_pos c10, stop_ub _ (Reader.error_not_ok _ _)] at he
        simp [h.ub] at he
      rw [if_neg c10] at he
      by_cases cu : 0x80 ≤ c.toNat ∧ r.pop.2.opts.validateUnicode = true
      · rw [if_pos cu] at he
        have hvo : o.validateUnicode = true := by rw [← hp.2.opts]; exact cu.2
        by_cases c255 : c = 255
        · subst c255
          exact ⟨hvo, [], [], _, rfl, .nil, Or.inr ⟨s1, rfl⟩⟩
        · by_cases hv : (validateUnicode r.pop.2 c).err = none
          · obtain ⟨n, tl, s2, h1, h2, hu, hs⟩ := validate_sound hp.2 cu.1 hv
            have hcmp := validate_complete h1 h2 hu (hs ▸ hp.2)
            obtain ⟨_, t, v, z, hs', ht, hz⟩ := ih (by rw [hs] at hk1; simp at hk1; omega) hcmp he
            refine ⟨hvo, utf8 n ++ t, utf8 n ++ v, z, ?_, StrBody.utf8 n t v hvo h1 h2 ht, hz⟩
            rw [hu, hs, hs']; simp
          · exfalso
            rw [stop_ub _ (not_ok_of_err hv), validate_ub _ _ c255, hu] at he
            cases he
      rw [if_neg cu] at he
      by_cases c34 : c = 34
      · exfalso; subst c34
        rw [if_pos rfl, hu] at he; cases he
      rw [if_neg c34] at he
      by_cases c92 : c = 92
      · subst c92
        rw [if_pos rfl] at he
        match s1, hp with
        | [], hp =>
          rw [hp.2.pop_nil.1, if_neg (by decide)] at he
          exfalso
          have : simpleEscape 255 = none := by decide
          rw [this] at he
          simp [h.ub] at he
        | d :: s2, hp =>
          have hp2 := hp.2.pop
          rw [hp2.1] at he
          have hk2 : s2.length ≤ k := by simp at hk1; omega
          by_cases d117 : d = 117
          · subst d117
            rw [if_pos rfl] at he
            by_cases hv : (readUnicode r.pop.2.pop.2).err = none
            · obtain ⟨a, b', c, d, i, j, m, l, s3, hs, ha, hb, hc, hd⟩ := readUnicode_sound hp2.2 hv
              subst hs
              have hk3 : s3.length ≤ k := by simp at hk2; omega
              cases ho : o.unescapeUnicode with
              | true =>
                obtain ⟨g, t, v, s', hs', ht, hz⟩ := ih hk3 (readUnicode_complete hp2.2 ho ha hb hc hd) he
                subst hs'
                exact ⟨g, _, _, s', rfl, StrBody.unicode a b' c d i j m l t v ho ha hb hc hd ht, hz⟩
              | false =>
                obtain ⟨g, t, v, s', hs', ht, hz⟩ := ih hk3 (readUnicode_raw_complete hp2.2 ho ha hb hc hd) he
                subst hs'
                exact ⟨g, _, _, s', rfl, StrBody.rawUnicode a b' c d i j m l t v ho ha hb hc hd ht, hz⟩
            · exfalso
              rw [stop_ub _ (not_ok_of_err hv), readUnicode_ub, hp2.2.ub] at he
              cases he
          · rw [if_neg d117] at he
            cases hse : simpleEscape d with
            | none =>
              rw [hse] at he
              simp [h.ub] at he
            | some e =>
              rw [hse] at he
              obtain ⟨g, t, v, s', hs', ht, hz⟩ := ih hk2 (hp2.2.save e) he
              subst hs'
              exact ⟨g, _, _, s', rfl, StrBody.escape d e t v ((simpleEscape_iff d e).mp hse) ht, hz⟩
      · rw [if_neg c92] at he
        obtain ⟨g, t, v, s', hs', ht, hz⟩ := ih hk1 (hp.2.save c) he
        subst hs'
        refine ⟨g, _, _, s', rfl, StrBody.plain c t v c34 c92 c10 ?_ ht, hz⟩
        rw [hp.2.opts] at cu
        cases hvu : o.validateUnicode with
        | false => exact Or.inr rfl
        | true =>
          rw [hvu] at cu
          refine Or.inl ?_
          have : ¬ 0x80 ≤ c.toNat := fun hx => cu ⟨hx, rfl⟩
          omega

/-- reading a token -/
theorem lex_ub_sound (h : Soft o s b r) (hu : (lexToken r).2.ub = true) :
    ∃ w x, s = w ++ 34 :: x ∧ Sep o w ∧ Broken o x := by
  by_cases hs0 : s = []
  · subst hs0
    have := lex_trailing (o := o) ⟨[], Sep.nil, Or.inl rfl⟩ h
    rw [this.2.2] at hu; cases hu
  · have hat := h.at hs0
    unfold lexToken at hu
    rw [if_pos hat.ok] at hu
    simp only at hu
    have hnu := nextChar_ub r
    rw [hat.ub] at hnu
    split at hu
    · rename_i hk
      rcases nextChar_sound s.length (Nat.le_refl _) hat with ⟨w, s', es, hw, hws, hok, hat'⟩ | ⟨k1, _⟩ | ⟨k1, _⟩
      · by_cases h34 : (nextChar r).1 = 34
        · have ha := hat' (by rw [h34]; decide)
          rw [h34] at hu es
          have : tokenAt (nextChar r).2 34 = (⟨.string, .buffer⟩, readString (nextChar r).2) := rfl
          rw [this] at hu
          exact ⟨w, s', es, hw, readString_ub_sound s'.length (Nat.le_refl _) ha.reset hu⟩
        · exfalso
          generalize (nextChar r).2 = r2 at hnu hu
          generalize (nextChar r).1 = c at hu h34
          have : (tokenAt r2 c).2.ub = r2.ub := by
            unfold tokenAt
            repeat' split
            all_goals first
              | rfl
              | exact readLiteral_ub _ _
              | exact readNumber_ub _ _
              | exact error_ub _ _
              | (rename_i hx; exact absurd hx h34)
          rw [this, hnu] at hu; cases hu
      · rw [k1] at hk; cases hk
      · exact absurd (Reader.ok_err hk) k1
    · rw [hnu] at hu; cases hu

end Reflect.Json

import Verif.Lemmas.Json.Message
import Verif.Lemmas.Json.All
import Verif.Lemmas.Json.Safe
import Verif.Spec.JsonLines
/- Every text is a token, the end, or one of the troubles. -/
namespace Reflect.Json

variable {o : ROpts} {s b x y z : Bytes} {r : Reader}

/-- the bytes at the start of a text that have a property, up to `n` -/
theorem run_cases (P : Byte → Prop) : ∀ (n : Nat) (y : Bytes),
    (∃ h y2, h.length = n ∧ (∀ x ∈ h, P x) ∧ y = h ++ y2) ∨
    (∃ h c z, h.length < n ∧ (∀ x ∈ h, P x) ∧ ¬ P c ∧ y = h ++ c :: z) ∨ (y.length < n ∧ ∀ x ∈ y, P x)
  | 0, y => Or.inl ⟨[], y, rfl, by simp, rfl⟩
  | n + 1, [] => Or.inr (Or.inr ⟨by simp, by simp⟩)
  | n + 1, c :: y => by
    by_cases hc : P c
    · have all : ∀ h : Bytes, (∀ x ∈ h, P x) → ∀ x ∈ c :: h, P x := by
        intro h hh x hx
        rcases List.mem_cons.mp hx with rfl | hx
        · exact hc
        · exact hh x hx
      rcases run_cases P n y with ⟨h, y2, h1, h2, rfl⟩ | ⟨h, d, z, h1, h2, h3, rfl⟩ | ⟨h1, h2⟩
      · exact Or.inl ⟨c :: h, y2, by simp [h1], all h h2, rfl⟩
      · exact Or.inr (Or.inl ⟨c :: h, d, z, by simp; omega, all h h2, h3, rfl⟩)
      · exact Or.inr (Or.inr ⟨by simp; omega, all y h2⟩)
    · exact Or.inr (Or.inl ⟨[], c, y, by simp, by simp, hc, rfl⟩)

theorem departs_cases : ∀ (l y : Bytes), (∃ z, y = l ++ z) ∨ ∃ z, Departs l y z
  | [], y => Or.inl ⟨y, rfl⟩
  | c :: l, [] => Or.inr ⟨[], Or.inr ⟨c :: l, rfl, by simp, rfl⟩⟩
  | c :: l, d :: y => by
    by_cases h : d = c
    · subst h
      rcases departs_cases l y with ⟨z, rfl⟩ | ⟨z, ⟨p, q, e, h1, h2, h3, h4⟩ | ⟨q, h1, h2, h3⟩⟩
      · exact Or.inl ⟨z, rfl⟩
      · exact Or.inr ⟨z, Or.inl ⟨d :: p, q, e, by simp [h1], h2, h3, by simp [h4]⟩⟩
      · exact Or.inr ⟨z, Or.inr ⟨q, by simp [h1], h2, h3⟩⟩
    · exact Or.inr ⟨y, Or.inl ⟨[], c :: l, d, rfl, by simp, by simpa using fun e => h e.symm, rfl⟩⟩

/-- how a text goes on behind a quote -/
theorem string_cases (o : ROpts) : ∀ (n : Nat) (y : Bytes), y.length ≤ n →
    (∃ t v z, StrBody o t v ∧ y = t ++ 34 :: z) ∨ (∃ t v y2 m z, StrBody o t v ∧ y = t ++ y2 ∧ BadString o y2 m z) ∨
    (o.validateUnicode = true ∧ ∃ t v y2, StrBody o t v ∧ y = t ++ y2 ∧ (y2 = [] ∨ ∃ z, y2 = 255 :: z)) := by
  intro n
  induction n with
  | zero =>
    intro y hy
    have : y = [] := List.length_eq_zero_iff.mp (by omega)
    subst this
    cases hv : o.validateUnicode with
    | true => exact Or.inr (Or.inr ⟨rfl, [], [], [], .nil, rfl, Or.inl rfl⟩)
    | false => exact Or.inr (Or.inl ⟨[], [], [], _, _, .nil, rfl, .cut hv⟩)
  | succ n ih =>
    intro y hy
    -- what starts a body goes on as the rest does
    have go : ∀ (p u y2 : Bytes), (∀ t v, StrBody o t v → StrBody o (p ++ t) (u ++ v)) → y = p ++ y2 → y2.length ≤ n →
        (∃ t v z, StrBody o t v ∧ y = t ++ 34 :: z) ∨ (∃ t v y2 m z, StrBody o t v ∧ y = t ++ y2 ∧ BadString o y2 m z) ∨
        (o.validateUnicode = true ∧ ∃ t v y2, StrBody o t v ∧ y = t ++ y2 ∧ (y2 = [] ∨ ∃ z, y2 = 255 :: z)) := by
      intro p u y2 hp e hl
      subst e
      rcases ih y2 hl with ⟨t, v, z, h1, rfl⟩ | ⟨t, v, y3, m, z, h1, rfl, h2⟩ | ⟨hv, t, v, y3, h1, rfl, h2⟩
      · exact Or.inl ⟨p ++ t, u ++ v, z, hp t v h1, by simp⟩
      · exact Or.inr (Or.inl ⟨p ++ t, u ++ v, y3, m, z, hp t v h1, by simp, h2⟩)
      · exact Or.inr (Or.inr ⟨hv, p ++ t, u ++ v, y3, hp t v h1, by simp, h2⟩)
    have bad : ∀ {m z : Bytes}, BadString o y m z →
        (∃ t v z, StrBody o t v ∧ y = t ++ 34 :: z) ∨ (∃ t v y2 m z, StrBody o t v ∧ y = t ++ y2 ∧ BadString o y2 m z) ∨
        (o.validateUnicode = true ∧ ∃ t v y2, StrBody o t v ∧ y = t ++ y2 ∧ (y2 = [] ∨ ∃ z, y2 = 255 :: z)) :=
      fun h => Or.inr (Or.inl ⟨[], [], y, _, _, .nil, rfl, h⟩)
    cases y with
    | nil => exact (ih [] (Nat.zero_le _))
    | cons c y =>
      have hl : y.length ≤ n := by simp at hy; exact hy
      by_cases c10 : c = 10
      · subst c10; exact bad (.newline y)
      by_cases c34 : c = 34
      · subst c34; exact Or.inl ⟨[], [], y, .nil, rfl⟩
      by_cases c92 : c = 92
      · subst c92
        cases y with
        | nil => exact bad .escapeCut
        | cons d y =>
          have hl2 : y.length ≤ n := by simp at hl; omega
          by_cases d117 : d = 117
          · subst d117
            rcases run_cases (fun x => ∃ i, IsHex x i) 4 y with ⟨h, y2, h1, h2, rfl⟩ | ⟨h, d, z, h1, h2, h3, rfl⟩ | ⟨h1, h2⟩
            · obtain ⟨a, b', c, d, rfl⟩ : ∃ a b' c d, h = [a, b', c, d] := by
                match h, h1 with
                | [a, b', c, d], _ => exact ⟨a, b', c, d, rfl⟩
              obtain ⟨i, ha⟩ := h2 a (by simp)
              obtain ⟨j, hb⟩ := h2 b' (by simp)
              obtain ⟨k, hc⟩ := h2 c (by simp)
              obtain ⟨l, hd⟩ := h2 d (by simp)
              have hl3 : y2.length ≤ n := by simp at hl2; omega
              cases hu : o.unescapeUnicode with
              | true =>
                exact go [92, 117, a, b', c, d] (utf8 (4096 * i + 256 * j + 16 * k + l)) y2
                  (fun t v h => by simpa using StrBody.unicode a b' c d i j k l t v hu ha hb hc hd h) rfl hl3
              | false =>
                exact go [92, 117, a, b', c, d] [92, 117, a, b', c, d] y2
                  (fun t v h => by simpa using StrBody.rawUnicode a b' c d i j k l t v hu ha hb hc hd h) rfl hl3
            · exact bad (.hex h d z h2 h1 (fun i hi => h3 ⟨i, hi⟩))
            · exact bad (.hexCut y h2 h1)
          · by_cases he : ∃ e, (d, e) ∈ escapes
            · obtain ⟨e, he⟩ := he
              exact go [92, d] [e] y (fun t v h => StrBody.escape d e t v he h) rfl hl2
            · exact bad (.escape d y (fun e h => he ⟨e, h⟩) d117)
      by_cases hv : o.validateUnicode = true
      · by_cases c128 : c.toNat < 0x80
        · exact go [c] [c] y (fun t v h => StrBody.plain c t v c34 c92 c10 (Or.inl c128) h) rfl hl
        · by_cases c255 : c = 255
          · subst c255; exact Or.inr (Or.inr ⟨hv, [], [], _, .nil, rfl, Or.inr ⟨y, rfl⟩⟩)
          have hlt : c.toNat < 0xFF := by
            have := UInt8.toNat_lt c
            have : c.toNat ≠ 255 := fun e => c255 (byte_ext e)
            omega
          by_cases hh : ∃ k, Header c k
          · obtain ⟨k, hk⟩ := hh
            have hk2 := (header_ones hk).2.1
            rcases run_cases Continues (k - 1) y with ⟨tl, y2, h1, h2, rfl⟩ | ⟨tl, d, z, h1, h2, h3, rfl⟩ | ⟨h1, h2⟩
            · by_cases hn : ∃ n, 0x80 ≤ n ∧ n < 0x200000 ∧ utf8 n = c :: tl
              · obtain ⟨m, n1, n2, n3⟩ := hn
                refine go (c :: tl) (c :: tl) y2 (fun t v h => ?_) rfl (by simp at hl; omega)
                rw [← n3]
                exact StrBody.utf8 m t v hv n1 n2 h
              · exact bad (.overlong c k tl y2 hv hk h2 (by omega) (fun n n1 n2 n3 => hn ⟨n, n1, n2, n3⟩))
            · exact bad (.sequence c k tl d z hv hk h2 (by omega) h3)
            · exact bad (.sequenceCut c k y hv hk h2 (by omega))
          · refine bad (.header c y hv ?_)
            have h2 : ¬ (0xC0 ≤ c.toNat ∧ c.toNat < 0xE0) := fun h => hh ⟨2, Or.inl ⟨rfl, h⟩⟩
            have h3 : ¬ (0xE0 ≤ c.toNat ∧ c.toNat < 0xF0) := fun h => hh ⟨3, Or.inr (Or.inl ⟨rfl, h⟩)⟩
            have h4 : ¬ (0xF0 ≤ c.toNat ∧ c.toNat < 0xF8) := fun h => hh ⟨4, Or.inr (Or.inr ⟨rfl, h⟩)⟩
            omega
      · exact go [c] [c] y (fun t v h => StrBody.plain c t v c34 c92 c10 (Or.inr (by simpa using hv)) h) rfl hl

/-- what there is where a token should start -/
theorem text_cases (o : ROpts) (x : Bytes) (hx : NoSep o x) : Trailing o x ∨
    (∃ a t v z, x = a ++ z ∧ Lexeme o a t v ∧ Follows a t z) ∨ (∃ m z, Trouble o x m z) ∨
    (o.validateUnicode = true ∧ ∃ t v y, StrBody o t v ∧ x = 34 :: (t ++ y) ∧ (y = [] ∨ ∃ z, y = 255 :: z)) := by
  cases x with
  | nil => exact Or.inl ⟨[], Sep.nil, Or.inl rfl⟩
  | cons c y =>
    have hws : c ∉ wsBytes := by
      intro hc
      exact absurd (hx [c] y rfl (Sep.ws c [] hc Sep.nil)) (by simp)
    by_cases h47 : c = 47 ∧ y.head? = some 47
    · obtain ⟨rfl, h2⟩ := h47
      obtain ⟨y, rfl⟩ : ∃ y', y = 47 :: y' := by
        cases y with
        | nil => cases h2
        | cons d y => exact ⟨y, by simpa using h2⟩
      cases ho : o.allowComments with
      | false => exact Or.inr (Or.inr (Or.inl ⟨_, _, .comment y ho⟩))
      | true =>
        refine Or.inl ⟨[], Sep.nil, Or.inr ⟨ho, y, ?_, rfl⟩⟩
        intro hm
        obtain ⟨p, q, rfl⟩ := List.append_of_mem hm
        have hex : ∃ body q', p ++ 10 :: q = body ++ 10 :: q' ∧ (10 : Byte) ∉ body := by
          clear hm hx h2
          induction p with
          | nil => exact ⟨[], q, rfl, by simp⟩
          | cons d p ih =>
            by_cases hd : d = 10
            · subst hd; exact ⟨[], p ++ 10 :: q, rfl, by simp⟩
            · obtain ⟨body, q', h1, h2⟩ := ih
              exact ⟨d :: body, q', by simp [h1], by simp only [List.mem_cons, not_or]; exact ⟨fun e => hd e.symm, h2⟩⟩
        obtain ⟨body, q', h3, h4⟩ := hex
        rw [h3] at hx
        have := hx ([47, 47] ++ body ++ [10] ++ []) q' (by simp) (Sep.comment body [] ho h4 Sep.nil)
        simp at this
    · by_cases hs : c ∈ starters
      · by_cases hq : c = 34
        · subst hq
          rcases string_cases o y.length y (Nat.le_refl _) with ⟨t, v, z, h1, rfl⟩ | ⟨t, v, y2, m, z, h1, rfl, h2⟩ | ⟨hv, t, v, y2, h1, rfl, h2⟩
          · exact Or.inr (Or.inl ⟨[34] ++ t ++ [34], _, some v, z, by simp, .string t v h1, by rintro (hx | hx) <;> cases hx⟩)
          · exact Or.inr (Or.inr (Or.inl ⟨m, z, .string t v y2 m z h1 h2⟩))
          · exact Or.inr (Or.inr (Or.inr ⟨hv, t, v, y2, h1, rfl, h2⟩))
        by_cases hl : c = 110
        · subst hl
          rcases departs_cases (ascii "ull") y with ⟨z, rfl⟩ | ⟨z, h⟩
          · exact Or.inr (Or.inl ⟨_, _, none, z, rfl, .null, by rintro (hx | hx) <;> cases hx⟩)
          · exact Or.inr (Or.inr (Or.inl ⟨_, _, .null y z h⟩))
        by_cases hl : c = 116
        · subst hl
          rcases departs_cases (ascii "rue") y with ⟨z, rfl⟩ | ⟨z, h⟩
          · exact Or.inr (Or.inl ⟨_, _, none, z, rfl, .true, by rintro (hx | hx) <;> cases hx⟩)
          · exact Or.inr (Or.inr (Or.inl ⟨_, _, .true y z h⟩))
        by_cases hl : c = 102
        · subst hl
          rcases departs_cases (ascii "alse") y with ⟨z, rfl⟩ | ⟨z, h⟩
          · exact Or.inr (Or.inl ⟨_, _, none, z, rfl, .false, by rintro (hx | hx) <;> cases hx⟩)
          · exact Or.inr (Or.inr (Or.inl ⟨_, _, .false y z h⟩))
        · refine Or.inr (Or.inl ?_)
          have hat := At.open o y
          have key : ∀ c : Byte, c ∈ starters → c ≠ 34 → c ≠ 110 → c ≠ 116 → c ≠ 102 → c = 123 ∨ c = 125 ∨ c = 91 ∨ c = 93 ∨
              c = 44 ∨ c = 58 ∨ c = 45 ∨ isDigit c = true := by
            apply forall_byte; decide +kernel
          have he : (tokenAt (Reader.open o y) c).2.err = none := by
            rcases key c hs (by assumption) (by assumption) (by assumption) (by assumption) with
              rfl | rfl | rfl | rfl | rfl | rfl | rfl | h
            all_goals first
              | rfl
              | (rw [tokenAt_number (Or.inl rfl)]; exact readNumber_err _ _)
              | (rw [tokenAt_number (Or.inr h)]; exact readNumber_err _ _)
          obtain ⟨a, v, s', e, h1, _, h3⟩ := tokenAt_sound hat he
          exact ⟨c :: a, _, v, s', by simp [e], h1, h3⟩
      · exact Or.inr (Or.inr (Or.inl ⟨_, _, .char c y hws hs (fun e he => h47 ⟨e, he⟩)⟩))

theorem trouble_noSep {m : Bytes} (h : Trouble o x m z) : NoSep o x := by
  intro w x' e hw
  cases hw with
  | nil => rfl
  | ws c w hc _ =>
    exfalso
    cases h with
    | char d z h1 _ _ => injection e with e _; subst e; exact h1 hc
    | _ => injection e with e _; subst e; revert hc; decide
  | comment body w ho _ _ =>
    exfalso
    simp only [List.cons_append, List.append_assoc, List.nil_append] at e
    cases h with
    | char d z _ _ h3 => injection e with e1 e2; exact h3 e1 (by rw [e2]; rfl)
    | comment z hc => rw [ho] at hc; cases hc
    | _ => injection e with e _; cases e

/-- an error in a token: the text has one of the troubles -/
theorem trouble_only {w : Bytes} (hw : Sep o w) (hx : NoSep o x) (h : Soft o (w ++ x) b r)
    (he : (lexToken r).2.err ≠ none) (hu : (lexToken r).2.ub = false) : ∃ m z, Trouble o x m z := by
  rcases text_cases o x hx with h1 | ⟨a, t, v, z, rfl, h1, h2⟩ | h1 | ⟨hv, t, v, y, h1, rfl, h2⟩
  · exact absurd (lex_trailing (trailing_sep hw h1) h).2.1 he
  · have hne : w ++ (a ++ z) ≠ [] := by
      obtain ⟨c, a', rfl, _⟩ := lexeme_head h1; simp
    have hat := h.at hne
    rw [← List.append_assoc] at hat
    exact absurd (lex_complete hw h1 h2 hat).2.err he
  · exact h1
  · exfalso
    have hat := h.at (by simp)
    have hn := nextChar_complete hw (c := 34) (by decide) (by decide) hat
    unfold lexToken at hu
    rw [if_pos hat.ok] at hu
    simp only at hu
    rw [if_pos hn.2.ok, hn.1] at hu
    have e : tokenAt (nextChar r).2 34 = (⟨.string, .buffer⟩, readStringLoop (nextChar r).2.resetBuffer) := rfl
    rw [e] at hu
    have : (readStringLoop (nextChar r).2.resetBuffer).ub = true := by
      rcases h2 with rfl | ⟨z, rfl⟩
      · exact readString_cut_ub h1 hv (by simpa using hn.2.reset)
      · obtain ⟨r', h', e⟩ := readString_prefix h1 hn.2.reset
        rw [e]
        have hp := h'.pop
        rw [readStringLoop.eq_def, dif_pos h'.ok]
        simp only [hp.1]
        rw [if_neg (by decide), if_pos ⟨by decide, by rw [hp.2.opts]; exact hv⟩]
        have e : leadingOnes 255 = none := by decide
        unfold validateUnicode
        rw [e]
        have hne : (({ (r'.pop.2.save 255).error (.utf8Header 255) with ub := true } : Reader)).ok = false :=
          Reader.error_not_ok (r'.pop.2.save 255) (.utf8Header 255)
        simp only
        rw [readStringLoop_not_ok hne]
        simp
    simp only [this] at hu
    cases hu

end Reflect.Json

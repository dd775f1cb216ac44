import Verif.Lemmas.Json.Loop
import Verif.Lemmas.Json.Ub
import Verif.Spec.JsonMessage
/- Which error a malformed text makes the tokenizer report. -/
namespace Reflect.Json

variable {o : ROpts} {s b x y z : Bytes} {r : Reader} {m : Msg}

/-- the reader has stopped with an error -/
structure Halts (r : Reader) (m : Msg) (z : Bytes) : Prop where
  err : ∃ e, r.err = some e ∧ e.msg = m
  rest : r.rest = z
  ub : r.ub = false

theorem Halts.of (h : r.err = none) (hr : r.rest = z) (m : Msg) (hu : r.ub = false) : Halts (r.error m) m z := by
  unfold Reader.error
  rw [h]
  exact ⟨⟨_, rfl, rfl⟩, hr, hu⟩

theorem Halts.error (h : Halts r m z) (m' : Msg) : Halts (r.error m') m z := by
  obtain ⟨e, he, _⟩ := h.err
  rw [Reader.error_of_err he]; exact h

theorem Halts.errorIf (h : Halts r m z) (c : Bool) (m' : Msg) : Halts (r.errorIf c m') m z := by
  unfold Reader.errorIf; split
  · exact h.error m'
  · exact h

theorem Halts.not_ok (h : Halts r m z) : r.ok = false := by
  obtain ⟨e, he, _⟩ := h.err
  exact Reader.not_ok_of_err he

theorem Halts.stringLoop (h : Halts r m z) : Halts (readStringLoop r) m z := by
  rw [readStringLoop_not_ok h.not_ok]; exact h.error _

theorem At.halts {c : Byte} (h : At o (c :: z) b r) (m : Msg) : Halts (r.pop.2.error m) m z :=
  Halts.of h.pop.2.err h.pop.2.rest m h.pop.2.ub

theorem pop_nil_rest (h : At o [] b r) : r.pop.2.rest = [] := by
  unfold Reader.pop
  rw [h.eof, h.fail, h.rest]; rfl

theorem At.halts_nil (h : At o [] b r) (m : Msg) : Halts (r.pop.2.error m) m [] :=
  Halts.of h.pop_nil.2.2.1 (pop_nil_rest h) m (by rw [pop_ub]; exact h.ub)

theorem literal_halts {lit : Bytes} : ∀ (l : Bytes) {r : Reader} {y b : Bytes}, 255 ∉ l → At o y b r → Departs l y z →
    Halts (readLiteral lit r l) (.literal lit) z := by
  intro l
  induction l with
  | nil =>
    intro r y b _ _ h
    rcases h with ⟨p, q, d, e, hq, _⟩ | ⟨q, e, hq, _⟩
    · simp at e; exact absurd e.2 hq
    · simp at e; exact absurd e.2 hq
  | cons c l ih =>
    intro r y b hl h hd
    rw [readLiteral, if_pos h.ok]
    cases y with
    | nil =>
      rw [h.pop_nil.1, if_neg (by rintro rfl; simp at hl)]
      have hz : z = [] := by
        rcases hd with ⟨p, q, d, _, _, _, e⟩ | ⟨_, _, _, e⟩
        · simp at e
        · exact e
      subst hz
      exact h.halts_nil _
    | cons d y =>
      have hp := h.pop
      rw [hp.1]
      by_cases hdc : d = c
      · subst hdc
        rw [if_pos rfl]
        refine ih (by simp only [List.mem_cons, not_or] at hl; exact hl.2) hp.2 ?_
        rcases hd with ⟨p, q, e, h1, h2, h3, h4⟩ | ⟨q, h1, h2, h3⟩
        · cases p with
          | nil =>
            simp only [List.nil_append, List.cons.injEq] at h1 h4
            subst h1
            simp [h4.1] at h3
          | cons a p =>
            simp only [List.cons_append, List.cons.injEq] at h1 h4
            exact Or.inl ⟨p, q, e, h1.2, h2, h3, h4.2⟩
        · simp only [List.cons_append, List.cons.injEq] at h1
          exact Or.inr ⟨q, h1.2, h2, h3⟩
      · rw [if_neg hdc]
        have hz : y = z := by
          rcases hd with ⟨p, q, e, h1, h2, h3, h4⟩ | ⟨q, h1, h2, h3⟩
          · cases p with
            | nil => simp only [List.nil_append, List.cons.injEq] at h4; exact h4.2
            | cons a p =>
              simp only [List.cons_append, List.cons.injEq] at h1 h4
              exact absurd (h4.1.trans h1.1.symm) hdc
          · simp only [List.cons_append, List.cons.injEq] at h1
            exact absurd h1.1.symm hdc
        subst hz
        exact h.halts _

theorem hexVal_none {c : Byte} (h : ∀ i, ¬ IsHex c i) : hexVal c = none := by
  cases e : hexVal c with
  | none => rfl
  | some i => exact absurd (isHex_of_hexVal e) (h i)

theorem hexLoop_halts {c : Byte} (hc : y = c :: z ∧ (∀ i, ¬ IsHex c i) ∨ y = [] ∧ c = 255 ∧ z = []) :
    ∀ (h : Bytes) (n code : Nat) {r : Reader} {b : Bytes}, (∀ x ∈ h, ∃ i, IsHex x i) → h.length < n → At o (h ++ y) b r →
    Halts (hexLoop r code n).2.2 (.nonHex c) z := by
  intro h
  induction h with
  | nil =>
    intro n code r b _ hn hr
    obtain ⟨n, rfl⟩ : ∃ k, n = k + 1 := ⟨n - 1, by simp at hn; omega⟩
    rw [hexLoop, if_pos hr.ok]
    rcases hc with ⟨rfl, hc⟩ | ⟨rfl, rfl, rfl⟩
    · have hp := At.pop (s := z) (c := c) hr
      rw [hp.1, hexVal_none hc]
      have := At.halts (z := z) (c := c) hr (.nonHex c)
      dsimp only
      rw [hexLoop_not_ok _ _ _ this.not_ok]
      exact this
    · rw [hr.pop_nil.1, show hexVal 255 = none by decide]
      have := At.halts_nil hr (.nonHex 255)
      dsimp only
      rw [hexLoop_not_ok _ _ _ this.not_ok]
      exact this
  | cons a h ih =>
    intro n code r b hh hn hr
    obtain ⟨n, rfl⟩ : ∃ k, n = k + 1 := ⟨n - 1, by simp at hn; omega⟩
    obtain ⟨i, hi⟩ := hh a (by simp)
    rw [hexLoop_step (s := h ++ y) hr hi]
    exact ih n _ (fun x hx => hh x (by simp [hx])) (by simp at hn; omega) (At.pop (s := h ++ y) hr).2

theorem rawHexLoop_halts {c : Byte} (hc : y = c :: z ∧ (∀ i, ¬ IsHex c i) ∨ y = [] ∧ c = 255 ∧ z = []) :
    ∀ (h : Bytes) (n : Nat) {r : Reader} {b : Bytes}, (∀ x ∈ h, ∃ i, IsHex x i) → h.length < n → At o (h ++ y) b r →
    Halts (rawHexLoop r n).2 (.nonHex c) z := by
  intro h
  induction h with
  | nil =>
    intro n r b _ hn hr
    obtain ⟨n, rfl⟩ : ∃ k, n = k + 1 := ⟨n - 1, by simp at hn; omega⟩
    rw [rawHexLoop, if_pos hr.ok]
    rcases hc with ⟨rfl, hc⟩ | ⟨rfl, rfl, rfl⟩
    · have hp := At.pop (s := z) (c := c) hr
      rw [hp.1, hexVal_none hc]
      have := At.halts (z := z) (c := c) hr (.nonHex c)
      dsimp only
      rw [rawHexLoop_not_ok _ _ this.not_ok]
      exact this
    · rw [hr.pop_nil.1, show hexVal 255 = none by decide]
      have := At.halts_nil hr (.nonHex 255)
      dsimp only
      rw [rawHexLoop_not_ok _ _ this.not_ok]
      exact this
  | cons a h ih =>
    intro n r b hh hn hr
    obtain ⟨n, rfl⟩ : ∃ k, n = k + 1 := ⟨n - 1, by simp at hn; omega⟩
    obtain ⟨i, hi⟩ := hh a (by simp)
    rw [rawHexLoop_step (s := h ++ y) hr hi]
    exact ih n (fun x hx => hh x (by simp [hx])) (by simp at hn; omega) ((At.pop (s := h ++ y) hr).2.save a)

theorem unicode_halts {c : Byte} (hc : y = c :: z ∧ (∀ i, ¬ IsHex c i) ∨ y = [] ∧ c = 255 ∧ z = []) (h : Bytes)
    (hh : ∀ x ∈ h, ∃ i, IsHex x i) (hl : h.length < 4) (hr : At o (h ++ y) b r) : Halts (readUnicode r) (.nonHex c) z := by
  unfold readUnicode
  split
  · have := hexLoop_halts (o := o) hc h 4 0 hh hl hr
    unfold unescapeUnicode
    simp only
    have h2 := this.errorIf ((hexLoop r 0 4).2.2.ok && (hexLoop r 0 4).2.1 != 0) .hexDigits
    rw [h2.not_ok]
    exact h2
  · exact (rawHexLoop_halts (o := o) hc h 4 hh hl (hr.saveAll _)).errorIf _ _

theorem header_ones {c : Byte} {k : Nat} (h : Header c k) : leadingOnes c = some k ∧ 2 ≤ k ∧ k ≤ 4 ∧ 0x80 ≤ c.toNat := by
  rcases h with ⟨rfl, h1, h2⟩ | ⟨rfl, h1, h2⟩ | ⟨rfl, h1, h2⟩
  · exact ⟨leadingOnes_2 h1 h2, by omega, by omega, by omega⟩
  · exact ⟨leadingOnes_3 h1 h2, by omega, by omega, by omega⟩
  · exact ⟨leadingOnes_4 h1 h2, by omega, by omega, by omega⟩

theorem contLoop_halts {d : Byte} (hd : y = d :: z ∧ ¬ Continues d ∨ y = [] ∧ z = []) :
    ∀ (tl : Bytes) (n code : Nat) {r : Reader} {b : Bytes}, (∀ x ∈ tl, Continues x) → tl.length < n → At o (tl ++ y) b r →
    Halts (contLoop r code n).2 .utf8Encoding z := by
  intro tl
  induction tl with
  | nil =>
    intro n code r b _ hn hr
    obtain ⟨n, rfl⟩ : ∃ k, n = k + 1 := ⟨n - 1, by simp at hn; omega⟩
    rw [contLoop, if_pos hr.ok]
    have bad : ∀ c : Byte, ¬ Continues c → (c.toNat &&& 0xC0 != 0x80) = true := by
      intro c hc
      simp only [bne_iff_ne, ne_eq]
      intro he
      exact hc ((cont_iff c).mp he)
    rcases hd with ⟨rfl, hd⟩ | ⟨rfl, rfl⟩
    · have hp := At.pop (s := z) (c := d) hr
      dsimp only
      rw [hp.1, bad d hd]
      have : Halts ((r.pop.2.save d).errorIf true .utf8Encoding) .utf8Encoding z :=
        Halts.of (hp.2.save d).err (hp.2.save d).rest _ (hp.2.save d).ub
      rw [contLoop_not_ok _ _ _ this.not_ok]
      exact this
    · dsimp only
      rw [hr.pop_nil.1, show ((255 : Byte).toNat &&& 0xC0 != 0x80) = true by decide]
      have : Halts ((r.pop.2.save 255).errorIf true .utf8Encoding) .utf8Encoding [] :=
        Halts.of (r := r.pop.2.save 255) (by exact hr.pop_nil.2.2.1) (by exact pop_nil_rest hr) _ (by show r.pop.2.ub = false; rw [pop_ub]; exact hr.ub)
      rw [contLoop_not_ok _ _ _ this.not_ok]
      exact this
  | cons a tl ih =>
    intro n code r b hh hn hr
    obtain ⟨n, rfl⟩ : ∃ k, n = k + 1 := ⟨n - 1, by simp at hn; omega⟩
    have ha := (cont_iff a).mpr (hh a (by simp))
    have hp := At.pop (s := tl ++ y) hr
    rw [contLoop, if_pos hr.ok]
    dsimp only
    rw [hp.1, ha]
    exact ih n _ (fun x hx => hh x (by simp [hx])) (by simp at hn; omega) (hp.2.save a)

theorem validate_halts_cont {c d : Byte} {k : Nat} (hd : y = d :: z ∧ ¬ Continues d ∨ y = [] ∧ z = []) (hk : Header c k)
    (tl : Bytes) (ht : ∀ x ∈ tl, Continues x) (hl : tl.length + 1 < k) (h : At o (tl ++ y) b r) :
    Halts (validateUnicode r c) .utf8Encoding z := by
  obtain ⟨h1, h2, h3, _⟩ := header_ones hk
  unfold validateUnicode
  rw [h1]
  have e : (r.save c).errorIf (decide (k > 4) || decide (k < 2)) (.utf8Header c) = r.save c := by
    unfold Reader.errorIf; rw [if_neg (by simp; omega)]
  simp only [e]
  exact (contLoop_halts hd tl (k - 1) _ ht (by omega) (h.save c)).errorIf _ _

theorem validate_halts_long {c : Byte} {k : Nat} (hk : Header c k) (tl : Bytes) (ht : ∀ x ∈ tl, Continues x)
    (hl : tl.length + 1 = k) (hn : ∀ n, 0x80 ≤ n → n < 0x200000 → utf8 n ≠ c :: tl) (h : At o (tl ++ z) b r) :
    Halts (validateUnicode r c) .utf8Encoding z := by
  obtain ⟨h1, h2, h3, h4⟩ := header_ones hk
  have hne : (validateUnicode r c).err ≠ none := by
    intro he
    obtain ⟨n, tl', s', n1, n2, n3, n4⟩ := validate_sound h h4 he
    obtain ⟨c', tl2, k', u1, u2, _, _, u3, _⟩ := utf8_shape n1 n2
    rw [u1] at n3
    injection n3 with e1 e2
    subst e1; subst e2
    rw [h1] at u2; injection u2 with u2; subst u2
    have : tl = tl2 := (List.append_inj n4 (by omega)).1
    subst this
    exact hn n n1 n2 u1
  unfold validateUnicode at hne ⊢
  rw [h1] at hne ⊢
  have e : (r.save c).errorIf (decide (k > 4) || decide (k < 2)) (.utf8Header c) = r.save c := by
    unfold Reader.errorIf; rw [if_neg (by simp; omega)]
  simp only [e] at hne ⊢
  have hc := contLoop_complete tl (s := z) (c.toNat &&& ((1 <<< (7 - k)) - 1)) (h.save c) ht
  have e2 : tl.length = k - 1 := by omega
  rw [e2] at hc
  have h5 := hc.2
  generalize contLoop (r.save c) (c.toNat &&& (1 <<< (7 - k)) - 1) (k - 1) = q at hne h5 ⊢
  unfold Reader.errorIf at hne ⊢
  split
  · exact Halts.of h5.err h5.rest _ h5.ub
  · rename_i hx
    rw [if_neg hx] at hne
    exact absurd h5.err hne

theorem validate_halts_header {c : Byte} (hc : (0x80 ≤ c.toNat ∧ c.toNat < 0xC0) ∨ (0xF8 ≤ c.toNat ∧ c.toNat < 0xFF))
    (h : At o z b r) : Halts (validateUnicode r c) (.utf8Header c) z := by
  have hk : ∃ k, leadingOnes c = some k ∧ (k > 4 ∨ k < 2) := by
    unfold leadingOnes
    simp only
    rcases hc with ⟨h1, h2⟩ | ⟨h1, h2⟩
    · exact ⟨1, by rw [if_neg (by omega), if_pos (by omega)], by omega⟩
    · rw [if_neg (by omega), if_neg (by omega), if_neg (by omega), if_neg (by omega), if_neg (by omega)]
      repeat' split
      · exact ⟨_, rfl, by omega⟩
      · exact ⟨_, rfl, by omega⟩
      · exact ⟨_, rfl, by omega⟩
  obtain ⟨k, h1, h2⟩ := hk
  unfold validateUnicode
  rw [h1]
  have e : (r.save c).errorIf (decide (k > 4) || decide (k < 2)) (.utf8Header c) = (r.save c).error (.utf8Header c) := by
    unfold Reader.errorIf; rw [if_pos (by simpa using h2)]
  have hh : Halts ((r.save c).error (.utf8Header c)) (.utf8Header c) z := Halts.of (h.save c).err (h.save c).rest _ (h.save c).ub
  simp only [e]
  rw [contLoop_not_ok _ _ _ hh.not_ok]
  exact hh.errorIf _ _

/-- the message a malformed string gives -/
theorem badString_halts {t : Bytes} (hb : BadString o y t z) (h : At o y b r) :
    ∃ m, Halts (readStringLoop r) m z ∧ m.text = t := by
  have high : ∀ {c : Byte} {y : Bytes} {m : Msg}, o.validateUnicode = true → 0x80 ≤ c.toNat → At o (c :: y) b r →
      Halts (validateUnicode r.pop.2 c) m z → Halts (readStringLoop r) m z := by
    intro c y m hv hc h hm
    have hp := h.pop
    rw [readStringLoop.eq_def, dif_pos h.ok]
    simp only [hp.1]
    rw [if_neg (by rintro rfl; revert hc; decide), if_pos ⟨hc, by rw [hp.2.opts]; exact hv⟩]
    exact hm.stringLoop
  have low : ∀ {y : Bytes}, At o (92 :: y) b r → readStringLoop r =
      if r.pop.2.pop.1 = 117 then readStringLoop (readUnicode r.pop.2.pop.2)
      else match simpleEscape r.pop.2.pop.1 with
        | some e => readStringLoop (r.pop.2.pop.2.save e)
        | none => r.pop.2.pop.2.error (.unknownEscape r.pop.2.pop.1) := by
    intro y h
    have hp := h.pop
    rw [readStringLoop.eq_def, dif_pos h.ok]
    simp only [hp.1]
    rw [if_neg (by decide), if_neg (by intro hx; exact absurd hx.1 (by decide)), if_neg (by decide), if_pos trivial]
    rfl
  cases hb with
  | newline z =>
    have hp := h.pop
    refine ⟨.newlineInString, ?_, rfl⟩
    rw [readStringLoop.eq_def, dif_pos h.ok]
    simp only [hp.1]
    rw [if_pos trivial]
    exact (h.halts _).stringLoop
  | cut hv =>
    have hp := h.pop_nil
    refine ⟨.endOfString, ?_, rfl⟩
    rw [readStringLoop.eq_def, dif_pos h.ok]
    simp only [hp.1]
    rw [if_neg (by decide), if_neg (by rw [hp.2.2.2.1, hv]; simp), if_neg (by decide), if_neg (by decide)]
    rw [readStringLoop_not_ok (r := r.pop.2.save 255) hp.2.1]
    exact Halts.of (r := r.pop.2.save 255) hp.2.2.1 (pop_nil_rest h) _ (by show r.pop.2.ub = false; rw [pop_ub]; exact h.ub)
  | escape c z h1 h2 =>
    have hp := h.pop
    have hp2 := hp.2.pop
    refine ⟨.unknownEscape c, ?_, rfl⟩
    rw [low h, hp2.1, if_neg h2]
    have : simpleEscape c = none := by
      cases e : simpleEscape c with
      | none => rfl
      | some d => exact absurd ((simpleEscape_iff c d).mp e) (h1 d)
    rw [this]
    exact hp.2.halts _
  | escapeCut =>
    have hp := h.pop
    refine ⟨.unknownEscape 255, ?_, rfl⟩
    rw [low h, hp.2.pop_nil.1, if_neg (by decide), show simpleEscape 255 = none by decide]
    exact hp.2.halts_nil _
  | hex hs c z h1 h2 h3 =>
    have hp := h.pop
    have hp2 := hp.2.pop
    refine ⟨.nonHex c, ?_, rfl⟩
    rw [low h, if_pos hp2.1]
    exact (unicode_halts (.inl ⟨rfl, h3⟩) hs h1 h2 hp2.2).stringLoop
  | hexCut hs h1 h2 =>
    have hp := h.pop
    have hp2 := hp.2.pop
    refine ⟨.nonHex 255, ?_, rfl⟩
    rw [low h, if_pos hp2.1]
    exact (unicode_halts (y := []) (.inr ⟨rfl, rfl, rfl⟩) hs h1 h2 (by simpa using hp2.2)).stringLoop
  | header c z hv hc =>
    refine ⟨.utf8Header c, high hv (by omega) h (validate_halts_header hc h.pop.2), ?_⟩
    have key : ∀ c : Byte, 0x80 ≤ c.toNat → (Msg.utf8Header c).text =
        ascii "invalid UTF-8 header: ffffff" ++ [hexDigit (c.toNat / 16), hexDigit (c.toNat % 16)] := by
      apply forall_byte; decide +kernel
    exact key c (by omega)
  | sequence c k tl d z hv hk h1 h2 h3 =>
    exact ⟨.utf8Encoding, high hv (header_ones hk).2.2.2 h (validate_halts_cont (.inl ⟨rfl, h3⟩) hk tl h1 h2 h.pop.2), rfl⟩
  | sequenceCut c k tl hv hk h1 h2 =>
    exact ⟨.utf8Encoding, high hv (header_ones hk).2.2.2 h
      (validate_halts_cont (y := []) (d := 0) (.inr ⟨rfl, rfl⟩) hk tl h1 h2 (by simpa using h.pop.2)), rfl⟩
  | overlong c k tl z hv hk h1 h2 h3 =>
    exact ⟨.utf8Encoding, high hv (header_ones hk).2.2.2 h (validate_halts_long hk tl h1 h2 h3 h.pop.2), rfl⟩

/-- the message where no token starts -/
theorem trouble_halts {w t : Bytes} (hw : Sep o w) (hb : Trouble o x t z) (h : At o (w ++ x) b r) :
    ∃ m, Halts (lexToken r).2 m z ∧ m.text = t := by
  have start : ∀ {c : Byte} {y : Bytes}, c ∉ wsBytes → c ≠ 47 → x = c :: y →
      ∃ r', At o y b r' ∧ lexToken r = tokenAt r' c := by
    intro c y h1 h2 e
    subst e
    have hn := nextChar_complete hw h1 h2 h
    refine ⟨_, hn.2, ?_⟩
    unfold lexToken
    rw [if_pos h.ok]
    simp only
    rw [if_pos hn.2.ok, hn.1]
  have slash : ∀ {y : Bytes}, x = 47 :: y → ∃ r', At o (47 :: y) b r' ∧ nextChar r = nextChar r' := by
    intro y e
    subst e
    clear start
    induction hw generalizing r b with
    | nil => exact ⟨r, h, rfl⟩
    | ws d w hd _ ih =>
      have hp := h.pop
      obtain ⟨r', h1, h2⟩ := ih (hp.2.countNewline d)
      refine ⟨r', h1, ?_⟩
      rw [nextChar.eq_def, dif_pos h.ok]
      simp only [hp.1]
      rw [if_pos ((isSpace_iff d).mpr hd)]
      exact h2
    | comment body w ho hb' _ ih =>
      simp only [List.cons_append, List.nil_append, List.append_assoc] at h
      have hp := h.pop
      have h1 := hp.2.countNewline 47
      have e : (r.pop.2.countNewline 47).checkComments = r.pop.2.countNewline 47 := by
        unfold Reader.checkComments Reader.errorIf
        rw [h1.opts, ho]; rfl
      have h2 := skipComment_complete (47 :: body) (by
        simp only [List.mem_cons, not_or]; exact ⟨by decide, hb'⟩) h1
      obtain ⟨r', h3, h4⟩ := ih h2
      refine ⟨r', h3, ?_⟩
      rw [nextChar.eq_def, dif_pos h.ok]
      simp only [hp.1]
      rw [if_neg (by decide), if_pos trivial, h1.peek]
      simp only [if_true]
      rw [e]
      exact h4
  cases hb with
  | char c z h1 h2 h3 =>
    refine ⟨.unexpectedChar c, ?_, rfl⟩
    have hc : ∀ r : Reader, tokenAt r c = (⟨.eos, .none⟩, r.error (.unexpectedChar c)) := by
      intro r
      have key : ∀ c : Byte, c ∉ starters → c ≠ 123 ∧ c ≠ 125 ∧ c ≠ 91 ∧ c ≠ 93 ∧ c ≠ 44 ∧ c ≠ 58 ∧
          c ≠ 110 ∧ c ≠ 116 ∧ c ≠ 102 ∧ c ≠ 34 ∧ ¬ (c = 45 ∨ isDigit c = true) := by
        apply forall_byte; decide +kernel
      obtain ⟨e1, e2, e3, e4, e5, e6, e7, e8, e9, e10, e11⟩ := key c h2
      unfold tokenAt
      rw [if_neg e1, if_neg e2, if_neg e3, if_neg e4, if_neg e5, if_neg e6, if_neg e7, if_neg e8, if_neg e9,
        if_neg e10, if_neg e11]
    by_cases h4 : c = 47
    · subst h4
      obtain ⟨r', k1, k2⟩ := slash rfl
      have hp := k1.pop
      have hq := hp.2.countNewline 47
      have h5 : (r'.pop.2.countNewline 47).peek.1 ≠ 47 ∧ Soft o z b (r'.pop.2.countNewline 47).peek.2 ∧
          (r'.pop.2.countNewline 47).peek.2.ok = true := by
        cases z with
        | nil => exact ⟨by rw [(hq.soft.peek_nil).1]; decide, (hq.soft.peek_nil).2, hq.peek_nil_ok⟩
        | cons d z =>
          rw [hq.peek]
          exact ⟨fun e => h3 rfl (by simpa using e), hq.soft, hq.ok⟩
      have hn : nextChar r = (47, (r'.pop.2.countNewline 47).peek.2) := by
        rw [k2, nextChar.eq_def, dif_pos k1.ok]
        simp only [hp.1]
        rw [if_neg (by decide), if_pos trivial, if_neg h5.1]
      unfold lexToken
      rw [if_pos h.ok, hn]
      simp only
      rw [if_pos h5.2.2, hc]
      exact Halts.of h5.2.1.err h5.2.1.rest _ h5.2.1.ub
    · obtain ⟨r', k1, k2⟩ := start h1 h4 rfl
      rw [k2, hc]
      exact Halts.of k1.err k1.rest _ k1.ub
  | comment z ho =>
    refine ⟨.comments, ?_, rfl⟩
    obtain ⟨r', k1, k2⟩ := slash rfl
    have hp := k1.pop
    have hq := hp.2.countNewline 47
    have e : Halts (r'.pop.2.countNewline 47).checkComments .comments (47 :: z) := by
      unfold Reader.checkComments Reader.errorIf
      rw [hq.opts, ho]
      exact Halts.of hq.err hq.rest _ hq.ub
    have hn : nextChar r = (0, (r'.pop.2.countNewline 47).checkComments) := by
      rw [k2, nextChar.eq_def, dif_pos k1.ok]
      simp only [hp.1]
      rw [if_neg (by decide), if_pos trivial, hq.peek]
      simp only [if_true]
      rw [skipComment_not_ok e.not_ok, nextChar_not_ok e.not_ok]
    unfold lexToken
    rw [if_pos h.ok, hn]
    simp only
    rw [if_neg (by rw [e.not_ok]; simp)]
    exact e
  | null y z hd =>
    obtain ⟨r', k1, k2⟩ := start (by decide) (by decide) rfl
    refine ⟨.literal [117, 108, 108], ?_, by decide⟩
    rw [k2]
    exact literal_halts [117, 108, 108] (by decide) k1 hd
  | true y z hd =>
    obtain ⟨r', k1, k2⟩ := start (by decide) (by decide) rfl
    refine ⟨.literal [114, 117, 101], ?_, by decide⟩
    rw [k2]
    exact literal_halts [114, 117, 101] (by decide) k1 hd
  | false y z hd =>
    obtain ⟨r', k1, k2⟩ := start (by decide) (by decide) rfl
    refine ⟨.literal [97, 108, 115, 101], ?_, by decide⟩
    rw [k2]
    exact literal_halts [97, 108, 115, 101] (by decide) k1 hd
  | string t v y m z ht hb =>
    obtain ⟨r', k1, k2⟩ := start (by decide) (by decide) rfl
    obtain ⟨r2, k3, k4⟩ := readString_prefix ht k1.reset
    obtain ⟨m', k5, k6⟩ := badString_halts hb k3
    refine ⟨m', ?_, k6⟩
    rw [k2]
    have e : tokenAt r' 34 = (⟨.string, .buffer⟩, readStringLoop r'.resetBuffer) := rfl
    rw [e, k4]
    exact k5

end Reflect.Json

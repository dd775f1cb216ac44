import Verif.Lemmas.Json.Bytes
/- The tokenizer against the lexical specification, in both directions. -/
namespace Reflect.Json

/-- A reader with no lookahead, no error and a good stream, about to read `s`, with buffer `b`. -/
structure At (o : ROpts) (s b : Bytes) (r : Reader) : Prop where
  rest : r.rest = s
  buf : r.buf = b
  opts : r.opts = o
  err : r.err = none
  ub : r.ub = false
  tok : r.tok = ⟨.noToken, .none⟩
  eof : r.eof = false
  fail : r.fail = false

/-- The same, except that at the end of the input the stream bits may be set. -/
structure Soft (o : ROpts) (s b : Bytes) (r : Reader) : Prop where
  rest : r.rest = s
  buf : r.buf = b
  opts : r.opts = o
  err : r.err = none
  ub : r.ub = false
  tok : r.tok = ⟨.noToken, .none⟩
  bits : s ≠ [] → r.eof = false ∧ r.fail = false

variable {o : ROpts} {s b : Bytes} {r : Reader}

theorem At.soft (h : At o s b r) : Soft o s b r :=
  ⟨h.rest, h.buf, h.opts, h.err, h.ub, h.tok, fun _ => ⟨h.eof, h.fail⟩⟩

theorem Soft.at (h : Soft o s b r) (hs : s ≠ []) : At o s b r :=
  ⟨h.rest, h.buf, h.opts, h.err, h.ub, h.tok, (h.bits hs).1, (h.bits hs).2⟩

theorem At.open (o : ROpts) (s : Bytes) : At o s [] (Reader.open o s) :=
  ⟨rfl, rfl, rfl, rfl, rfl, rfl, rfl, rfl⟩

theorem At.ok (h : At o s b r) : r.ok = true := by simp [Reader.ok, h.err, h.fail]

theorem At.pop {c : Byte} (h : At o (c :: s) b r) : r.pop.1 = c ∧ At o s b r.pop.2 := by
  have e : r.pop = (c, { r with pos := r.pos + 1, rest := s }) := by
    unfold Reader.pop
    rw [h.eof, h.fail, h.rest]; rfl
  rw [e]
  exact ⟨rfl, rfl, h.buf, h.opts, h.err, h.ub, h.tok, h.eof, h.fail⟩

theorem At.pop_nil (h : At o [] b r) :
    r.pop.1 = 255 ∧ r.pop.2.ok = false ∧ r.pop.2.err = none ∧ r.pop.2.opts = o ∧ r.pop.2.rest = []
      ∧ r.pop.2.ub = false := by
  have e : r.pop = (255, { r with pos := r.pos + 1, eof := true, fail := true }) := by
    unfold Reader.pop
    rw [h.eof, h.fail, h.rest]; rfl
  rw [e]
  exact ⟨rfl, by simp [Reader.ok], h.err, h.opts, h.rest, h.ub⟩

theorem At.peek {c : Byte} (h : At o (c :: s) b r) : r.peek = (c, r) := by
  unfold Reader.peek
  rw [h.eof, h.fail, h.rest]; rfl

theorem At.peek_nil_ok (h : At o [] b r) : r.peek.2.ok = true := by
  unfold Reader.peek
  rw [h.eof, h.fail, h.rest]
  simp [Reader.ok, h.err, h.fail]

theorem At.save (h : At o s b r) (c : Byte) : At o s (b ++ [c]) (r.save c) :=
  ⟨h.rest, by simp [Reader.save, h.buf], h.opts, h.err, h.ub, h.tok, h.eof, h.fail⟩

theorem At.saveAll (h : At o s b r) (cs : Bytes) : At o s (b ++ cs) (r.saveAll cs) :=
  ⟨h.rest, by simp [Reader.saveAll, h.buf], h.opts, h.err, h.ub, h.tok, h.eof, h.fail⟩

theorem At.reset (h : At o s b r) : At o s [] r.resetBuffer :=
  ⟨h.rest, rfl, h.opts, h.err, h.ub, h.tok, h.eof, h.fail⟩

theorem At.newline (h : At o s b r) : At o s b r.newline :=
  ⟨h.rest, h.buf, h.opts, h.err, h.ub, h.tok, h.eof, h.fail⟩

theorem At.countNewline (h : At o s b r) (c : Byte) : At o s b (r.countNewline c) := by
  unfold Reader.countNewline; split
  · exact h.newline
  · exact h

theorem Soft.save (h : Soft o s b r) (c : Byte) : Soft o s (b ++ [c]) (r.save c) :=
  ⟨h.rest, by simp [Reader.save, h.buf], h.opts, h.err, h.ub, h.tok, h.bits⟩

/-! ### Errors stay -/

theorem Reader.error_err (r : Reader) (m : Msg) : (r.error m).err ≠ none := by
  unfold Reader.error
  cases h : r.err <;> simp [h]

theorem Reader.error_of_err {r : Reader} {e : JError} (h : r.err = some e) (m : Msg) :
    r.error m = r := by
  unfold Reader.error; rw [h]

theorem Reader.not_ok_of_err {r : Reader} {e : JError} (h : r.err = some e) : r.ok = false := by
  simp [Reader.ok, h]

theorem Reader.ok_err {r : Reader} (h : r.ok = true) : r.err = none := by
  unfold Reader.ok at h
  simp at h; exact h.1

theorem hexLoop_not_ok (n : Nat) (r : Reader) (code : Nat) (h : r.ok = false) :
    hexLoop r code n = (code, n, r) := by
  cases n with
  | zero => rfl
  | succ n => unfold hexLoop; rw [if_neg (by simp [h])]

theorem rawHexLoop_not_ok (n : Nat) (r : Reader) (h : r.ok = false) :
    rawHexLoop r n = (n, r) := by
  cases n with
  | zero => rfl
  | succ n => unfold rawHexLoop; rw [if_neg (by simp [h])]

theorem contLoop_not_ok (n : Nat) (r : Reader) (code : Nat) (h : r.ok = false) :
    contLoop r code n = (code, r) := by
  cases n with
  | zero => rfl
  | succ n => unfold contLoop; rw [if_neg (by simp [h])]

theorem readStringLoop_not_ok (h : r.ok = false) : readStringLoop r = r.error .endOfString := by
  rw [readStringLoop.eq_def, dif_neg (by simp [h])]

theorem Reader.error_not_ok (r : Reader) (m : Msg) : (r.error m).ok = false := by
  cases h : (r.error m).err with
  | none => exact absurd h (r.error_err m)
  | some e => exact Reader.not_ok_of_err h

theorem readStringLoop_err (h : r.err ≠ none) : (readStringLoop r).err ≠ none := by
  cases he : r.err with
  | none => exact absurd he h
  | some e =>
    rw [readStringLoop_not_ok (Reader.not_ok_of_err he)]
    exact Reader.error_err _ _

/-! ### Hexadecimal digits -/

theorem hexLoop_step {a : Byte} {i : Nat} (h : At o (a :: s) b r) (ha : IsHex a i) (code n : Nat) :
    hexLoop r code (n + 1) = hexLoop r.pop.2 (16 * code + i) n := by
  rw [hexLoop, if_pos h.ok, h.pop.1, ha.val.1]
  simp only
  rw [shift4_or ha.val.2]

theorem hexLoop_bad {n : Nat} (h : At o s b r) (code : Nat)
    (hb : ∀ a s', s = a :: s' → hexVal a = none) :
    (hexLoop r code (n + 1)).2.2.err ≠ none ∧ (hexLoop r code (n + 1)).2.2.ok = false := by
  rw [hexLoop, if_pos h.ok]
  have h2 : hexVal r.pop.1 = none := by
    cases s with
    | nil => rw [h.pop_nil.1]; decide
    | cons a s' => rw [h.pop.1]; exact hb a s' rfl
  rw [h2]
  simp only
  rw [hexLoop_not_ok _ _ _ (Reader.error_not_ok _ _)]
  exact ⟨Reader.error_err _ _, Reader.error_not_ok _ _⟩

theorem unescape_complete {a b' c d : Byte} {i j k l : Nat} (h : At o (a :: b' :: c :: d :: s) b r)
    (ha : IsHex a i) (hb : IsHex b' j) (hc : IsHex c k) (hd : IsHex d l) :
    At o s (b ++ utf8 (4096 * i + 256 * j + 16 * k + l)) (unescapeUnicode r) := by
  have h1 := h.pop.2
  have h2 := h1.pop.2
  have h3 := h2.pop.2
  have h4 := h3.pop.2
  have e : hexLoop r 0 4 = (4096 * i + 256 * j + 16 * k + l, 0, r.pop.2.pop.2.pop.2.pop.2) := by
    rw [hexLoop_step h ha, hexLoop_step h1 hb, hexLoop_step h2 hc, hexLoop_step h3 hd, hexLoop]
    congr 1; omega
  have lt : 4096 * i + 256 * j + 16 * k + l < 0x200000 := by
    have := ha.val.2; have := hb.val.2; have := hc.val.2; have := hd.val.2
    omega
  unfold unescapeUnicode
  simp only [e]
  have e2 : r.pop.2.pop.2.pop.2.pop.2.errorIf
      (r.pop.2.pop.2.pop.2.pop.2.ok && (0 : Nat) != 0) .hexDigits = r.pop.2.pop.2.pop.2.pop.2 := by
    simp [Reader.errorIf]
  rw [e2, if_pos h4.ok, encodeCode_eq lt]
  exact h4.saveAll _

theorem unescape_sound (h : At o s b r) (he : (unescapeUnicode r).err = none) :
    ∃ a b' c d i j k l s', s = a :: b' :: c :: d :: s' ∧ IsHex a i ∧ IsHex b' j ∧ IsHex c k ∧ IsHex d l := by
  have bad : (hexLoop r 0 4).2.2.ok = false → (hexLoop r 0 4).2.2.err ≠ none → False := by
    intro h1 h2
    apply h2
    have : unescapeUnicode r = (hexLoop r 0 4).2.2 := by
      unfold unescapeUnicode
      simp only
      rw [h1]
      simp [Reader.errorIf, h1]
    rw [← this]; exact he
  have one : ∀ (n code : Nat) (r1 : Reader) (s1 b1 : Bytes), At o s1 b1 r1 →
      hexLoop r 0 4 = hexLoop r1 code (n + 1) → ∃ a i s', s1 = a :: s' ∧ IsHex a i := by
    intro n code r1 s1 b1 h1 e
    apply Classical.byContradiction
    intro hn
    have := hexLoop_bad (n := n) h1 code (by
      intro a s' hs
      cases hv : hexVal a with
      | none => rfl
      | some v => exact absurd ⟨a, v, s', hs, isHex_of_hexVal hv⟩ hn)
    rw [← e] at this
    exact bad this.2 this.1
  obtain ⟨a, i, s1, rfl, ha⟩ := one 3 0 r s b h rfl
  have e1 : hexLoop r 0 4 = _ := hexLoop_step h ha 0 3
  obtain ⟨b', j, s2, rfl, hb⟩ := one 2 _ _ _ _ h.pop.2 e1
  have e2 := e1.trans (hexLoop_step h.pop.2 hb _ 2)
  obtain ⟨c, k, s3, rfl, hc⟩ := one 1 _ _ _ _ h.pop.2.pop.2 e2
  have e3 := e2.trans (hexLoop_step h.pop.2.pop.2 hc _ 1)
  obtain ⟨d, l, s4, rfl, hd⟩ := one 0 _ _ _ _ h.pop.2.pop.2.pop.2 e3
  exact ⟨a, b', c, d, i, j, k, l, s4, rfl, ha, hb, hc, hd⟩

theorem rawHexLoop_step {a : Byte} {i : Nat} (h : At o (a :: s) b r) (ha : IsHex a i) (n : Nat) :
    rawHexLoop r (n + 1) = rawHexLoop (r.pop.2.save a) n := by
  rw [rawHexLoop, if_pos h.ok, h.pop.1, ha.val.1]

theorem rawHexLoop_bad {n : Nat} (h : At o s b r)
    (hb : ∀ a s', s = a :: s' → hexVal a = none) :
    (rawHexLoop r (n + 1)).2.err ≠ none := by
  rw [rawHexLoop, if_pos h.ok]
  have h2 : hexVal r.pop.1 = none := by
    cases s with
    | nil => rw [h.pop_nil.1]; decide
    | cons a s' => rw [h.pop.1]; exact hb a s' rfl
  rw [h2]
  simp only
  rw [rawHexLoop_not_ok _ _ (Reader.error_not_ok _ _)]
  exact Reader.error_err _ _

theorem errorIf_err {r : Reader} {c : Bool} {m : Msg} (h : r.err ≠ none) : (r.errorIf c m).err ≠ none := by
  unfold Reader.errorIf
  split
  · exact Reader.error_err _ _
  · exact h

theorem readUnicode_raw_complete {a b' c d : Byte} {i j k l : Nat}
    (h : At o (a :: b' :: c :: d :: s) b r) (ho : o.unescapeUnicode = false)
    (ha : IsHex a i) (hb : IsHex b' j) (hc : IsHex c k) (hd : IsHex d l) :
    At o s (b ++ [92, 117, a, b', c, d]) (readUnicode r) := by
  have h0 := h.saveAll [92, 117]
  have h1 := h0.pop.2.save a
  have h2 := h1.pop.2.save b'
  have h3 := h2.pop.2.save c
  have h4 := h3.pop.2.save d
  unfold readUnicode
  rw [h.opts, ho]
  simp only [Bool.false_eq_true, if_false]
  rw [rawHexLoop_step h0 ha, rawHexLoop_step h1 hb, rawHexLoop_step h2 hc, rawHexLoop_step h3 hd,
    rawHexLoop]
  simp only [bne_self_eq_false, Bool.and_false, Reader.errorIf, Bool.false_eq_true, if_false]
  have := h4
  simp only [List.append_assoc, List.cons_append, List.nil_append] at this
  exact this

theorem readUnicode_complete {a b' c d : Byte} {i j k l : Nat}
    (h : At o (a :: b' :: c :: d :: s) b r) (ho : o.unescapeUnicode = true)
    (ha : IsHex a i) (hb : IsHex b' j) (hc : IsHex c k) (hd : IsHex d l) :
    At o s (b ++ utf8 (4096 * i + 256 * j + 16 * k + l)) (readUnicode r) := by
  unfold readUnicode
  rw [h.opts, ho]
  exact unescape_complete h ha hb hc hd

theorem readUnicode_sound (h : At o s b r) (he : (readUnicode r).err = none) :
    ∃ a b' c d i j k l s', s = a :: b' :: c :: d :: s' ∧ IsHex a i ∧ IsHex b' j ∧ IsHex c k ∧ IsHex d l := by
  unfold readUnicode at he
  split at he
  · exact unescape_sound h he
  · have h0 := h.saveAll [92, 117]
    have bad : (rawHexLoop (r.saveAll [92, 117]) 4).2.err ≠ none → False := by
      intro h2
      exact (errorIf_err (c := _) (m := _) h2) he
    have one : ∀ (n : Nat) (r1 : Reader) (s1 b1 : Bytes), At o s1 b1 r1 →
        rawHexLoop (r.saveAll [92, 117]) 4 = rawHexLoop r1 (n + 1) →
        ∃ a i s', s1 = a :: s' ∧ IsHex a i := by
      intro n r1 s1 b1 h1 e
      apply Classical.byContradiction
      intro hn
      have := rawHexLoop_bad (n := n) h1 (by
        intro a s' hs
        cases hv : hexVal a with
        | none => rfl
        | some v => exact absurd ⟨a, v, s', hs, isHex_of_hexVal hv⟩ hn)
      rw [← e] at this
      exact bad this
    obtain ⟨a, i, s1, rfl, ha⟩ := one 3 _ s _ h0 rfl
    have e1 := rawHexLoop_step h0 ha 3
    have h1 := h0.pop.2.save a
    obtain ⟨b', j, s2, rfl, hb⟩ := one 2 _ _ _ h1 e1
    have e2 := e1.trans (rawHexLoop_step h1 hb 2)
    have h2 := h1.pop.2.save b'
    obtain ⟨c, k, s3, rfl, hc⟩ := one 1 _ _ _ h2 e2
    have e3 := e2.trans (rawHexLoop_step h2 hc 1)
    have h3 := h2.pop.2.save c
    obtain ⟨d, l, s4, rfl, hd⟩ := one 0 _ _ _ h3 e3
    exact ⟨a, b', c, d, i, j, k, l, s4, rfl, ha, hb, hc, hd⟩

/-! ### UTF-8 validation -/

/-- continuation bytes -/
def IsCont (c : Byte) : Prop := 0x80 ≤ c.toNat ∧ c.toNat < 0xC0

/-- the number spelled by continuation bytes after `code` -/
def contVal (code : Nat) (tl : Bytes) : Nat := tl.foldl (fun a c => 64 * a + c.toNat % 64) code

theorem contLoop_complete (tl : Bytes) : ∀ {r : Reader} {s b : Bytes} (code : Nat),
    At o (tl ++ s) b r → (∀ c ∈ tl, IsCont c) →
    (contLoop r code tl.length).1 = contVal code tl ∧
      At o s (b ++ tl) (contLoop r code tl.length).2 := by
  induction tl with
  | nil => intro r s b code h _; exact ⟨rfl, by simpa [contLoop] using h⟩
  | cons c tl ih =>
    intro r s b code h hc
    have hp := h.pop
    have hcc := hc c (by simp)
    have e : contLoop r code (tl.length + 1) =
        contLoop (r.pop.2.save c) (64 * code + c.toNat % 64) tl.length := by
      have hmask := (cont_iff c).mpr hcc
      rw [contLoop, if_pos h.ok]
      simp only [hp.1, hmask, bne_self_eq_false, Reader.errorIf, Bool.false_eq_true, if_false, and_3F]
      rw [shift6_or (Nat.mod_lt _ (by decide))]
    rw [List.length_cons, e]
    have := ih (64 * code + c.toNat % 64) (hp.2.save c) (fun x hx => hc x (by simp [hx]))
    refine ⟨this.1, ?_⟩
    have h2 := this.2
    simpa using h2

theorem contLoop_sound (n : Nat) : ∀ {r : Reader} {s b : Bytes} (code : Nat), At o s b r →
    (contLoop r code n).2.err = none →
    ∃ tl s', tl.length = n ∧ s = tl ++ s' ∧ ∀ c ∈ tl, IsCont c := by
  induction n with
  | zero => intro r s b code h _; exact ⟨[], s, rfl, rfl, by simp⟩
  | succ n ih =>
    intro r s b code h he
    rw [contLoop, if_pos h.ok] at he
    simp only at he
    by_cases hm : r.pop.1.toNat &&& 0xC0 = 0x80
    · cases s with
      | nil =>
        rw [h.pop_nil.1] at hm
        exact absurd hm (by decide)
      | cons c s1 =>
        have hp := h.pop
        rw [hp.1] at he hm
        rw [hm] at he
        simp only [bne_self_eq_false, Reader.errorIf, Bool.false_eq_true, if_false] at he
        obtain ⟨tl, s', h1, h2, h3⟩ := ih _ (hp.2.save c) he
        refine ⟨c :: tl, s', by simp [h1], by simp [h2], ?_⟩
        intro x hx
        rcases List.mem_cons.mp hx with hx | hx
        · rw [hx]; exact (cont_iff c).mp hm
        · exact h3 x hx
    · exfalso
      have e1 : (r.pop.2.save r.pop.1).errorIf (r.pop.1.toNat &&& 0xC0 != 0x80) .utf8Encoding =
          (r.pop.2.save r.pop.1).error .utf8Encoding := by
        unfold Reader.errorIf
        rw [if_pos (by simpa using hm)]
      rw [e1, contLoop_not_ok _ _ _ (Reader.error_not_ok _ _)] at he
      exact Reader.error_err _ _ he

theorem leadingOnes_2 {c : Byte} (h : 0xC0 ≤ c.toNat) (h2 : c.toNat < 0xE0) : leadingOnes c = some 2 := by
  unfold leadingOnes
  simp only
  rw [if_neg (by omega), if_neg (by omega), if_pos (by omega)]

theorem leadingOnes_3 {c : Byte} (h : 0xE0 ≤ c.toNat) (h2 : c.toNat < 0xF0) : leadingOnes c = some 3 := by
  unfold leadingOnes
  simp only
  rw [if_neg (by omega), if_neg (by omega), if_neg (by omega), if_pos (by omega)]

theorem leadingOnes_4 {c : Byte} (h : 0xF0 ≤ c.toNat) (h2 : c.toNat < 0xF8) : leadingOnes c = some 4 := by
  unfold leadingOnes
  simp only
  rw [if_neg (by omega), if_neg (by omega), if_neg (by omega), if_neg (by omega), if_pos (by omega)]

theorem leadingOnes_inv {c : Byte} {k : Nat} (h : leadingOnes c = some k) (hk : 2 ≤ k ∧ k ≤ 4) :
    (k = 2 ∧ 0xC0 ≤ c.toNat ∧ c.toNat < 0xE0) ∨ (k = 3 ∧ 0xE0 ≤ c.toNat ∧ c.toNat < 0xF0) ∨
      (k = 4 ∧ 0xF0 ≤ c.toNat ∧ c.toNat < 0xF8) := by
  unfold leadingOnes at h
  simp only at h
  repeat' split at h
  all_goals first
    | (simp at h; done)
    | (simp only [Option.some.injEq] at h; omega)

/-- The header byte and the continuation bytes of a number between 0x80 and 2^21, and back. -/
theorem utf8_shape {n : Nat} (h1 : 0x80 ≤ n) (h2 : n < 0x200000) :
    ∃ (c : Byte) (tl : Bytes) (k : Nat), utf8 n = c :: tl ∧ leadingOnes c = some k ∧ 2 ≤ k ∧ k ≤ 4 ∧
      tl.length = k - 1 ∧ (∀ x ∈ tl, IsCont x) ∧ 0x80 ≤ c.toNat ∧
      contVal (c.toNat &&& ((1 <<< (7 - k)) - 1)) tl = n ∧
      ((k = 4 ∧ n > 0xFFFF) ∨ (k = 3 ∧ n > 0x7FF) ∨ (k = 2 ∧ n > 0x7F)) := by
  have e0 : (UInt8.ofNat (0x80 + n % 64)).toNat = 0x80 + n % 64 := toNat_ofNat (by omega)
  have e1 : (UInt8.ofNat (0x80 + n / 64 % 64)).toNat = 0x80 + n / 64 % 64 := toNat_ofNat (by omega)
  have e2 : (UInt8.ofNat (0x80 + n / 4096 % 64)).toNat = 0x80 + n / 4096 % 64 := toNat_ofNat (by omega)
  unfold utf8
  rw [if_neg (by omega)]
  by_cases h3 : n < 0x800
  · rw [if_pos h3]
    have ec : (UInt8.ofNat (0xC0 + n / 64)).toNat = 0xC0 + n / 64 := toNat_ofNat (by omega)
    refine ⟨_, _, 2, rfl, leadingOnes_2 (by omega) (by omega), by omega, by omega, rfl, ?_, by omega, ?_,
      by omega⟩
    · intro x hx
      simp only [List.mem_cons, List.not_mem_nil, or_false] at hx
      subst hx; exact ⟨by omega, by omega⟩
    · have : (1 <<< (7 - 2)) - 1 = 0x1F := by decide
      simp only [contVal, List.foldl_cons, List.foldl_nil]
      rw [this, and_1F, e0, ec]
      omega
  · rw [if_neg h3]
    by_cases h4 : n < 0x10000
    · rw [if_pos h4]
      have ec : (UInt8.ofNat (0xE0 + n / 4096)).toNat = 0xE0 + n / 4096 := toNat_ofNat (by omega)
      refine ⟨_, _, 3, rfl, leadingOnes_3 (by omega) (by omega), by omega, by omega, rfl, ?_, by omega, ?_,
        by omega⟩
      · intro x hx
        simp only [List.mem_cons, List.not_mem_nil, or_false] at hx
        rcases hx with hx | hx <;> subst hx <;> exact ⟨by omega, by omega⟩
      · have : (1 <<< (7 - 3)) - 1 = 0x0F := by decide
        simp only [contVal, List.foldl_cons, List.foldl_nil]
        rw [this, and_0F, e0, e1, ec]
        omega
    · rw [if_neg h4]
      have ec : (UInt8.ofNat (0xF0 + n / 262144)).toNat = 0xF0 + n / 262144 := toNat_ofNat (by omega)
      refine ⟨_, _, 4, rfl, leadingOnes_4 (by omega) (by omega), by omega, by omega, rfl, ?_, by omega, ?_,
        by omega⟩
      · intro x hx
        simp only [List.mem_cons, List.not_mem_nil, or_false] at hx
        rcases hx with hx | hx | hx <;> subst hx <;> exact ⟨by omega, by omega⟩
      · have : (1 <<< (7 - 4)) - 1 = 0x07 := by decide
        simp only [contVal, List.foldl_cons, List.foldl_nil]
        rw [this, and_07, e0, e1, e2, ec]
        omega

theorem utf8_of_shape {c : Byte} {tl : Bytes} {k : Nat} (hk : leadingOnes c = some k)
    (hk2 : 2 ≤ k ∧ k ≤ 4) (hl : tl.length = k - 1) (hc : ∀ x ∈ tl, IsCont x)
    (hv : (k = 4 ∧ contVal (c.toNat &&& ((1 <<< (7 - k)) - 1)) tl > 0xFFFF) ∨
      (k = 3 ∧ contVal (c.toNat &&& ((1 <<< (7 - k)) - 1)) tl > 0x7FF) ∨
      (k = 2 ∧ contVal (c.toNat &&& ((1 <<< (7 - k)) - 1)) tl > 0x7F)) :
    ∃ n, 0x80 ≤ n ∧ n < 0x200000 ∧ utf8 n = c :: tl := by
  rcases leadingOnes_inv hk hk2 with ⟨rfl, hc1, hc2⟩ | ⟨rfl, hc1, hc2⟩ | ⟨rfl, hc1, hc2⟩
  · match tl, hl with
    | [x], _ =>
      have hx := hc x (by simp)
      have hx1 := hx.1
      have hx2 := hx.2
      have : (1 <<< (7 - 2)) - 1 = 0x1F := by decide
      simp only [contVal, List.foldl_cons, List.foldl_nil, this, and_1F] at hv
      refine ⟨64 * (c.toNat % 32) + x.toNat % 64, by omega, by omega, ?_⟩
      unfold utf8
      rw [if_neg (by omega), if_pos (by omega)]
      congr 1
      · apply byte_ext; rw [toNat_ofNat (by omega)]; omega
      · congr 1
        apply byte_ext; rw [toNat_ofNat (by omega)]; omega
  · match tl, hl with
    | [x, y], _ =>
      have hx := hc x (by simp)
      have hy := hc y (by simp)
      have hx1 := hx.1
      have hx2 := hx.2
      have hy1 := hy.1
      have hy2 := hy.2
      have : (1 <<< (7 - 3)) - 1 = 0x0F := by decide
      simp only [contVal, List.foldl_cons, List.foldl_nil, this, and_0F] at hv
      refine ⟨64 * (64 * (c.toNat % 16) + x.toNat % 64) + y.toNat % 64, by omega, by omega, ?_⟩
      unfold utf8
      rw [if_neg (by omega), if_neg (by omega), if_pos (by omega)]
      congr 1
      · apply byte_ext; rw [toNat_ofNat (by omega)]; omega
      · congr 1
        · apply byte_ext; rw [toNat_ofNat (by omega)]; omega
        · congr 1
          apply byte_ext; rw [toNat_ofNat (by omega)]; omega
  · match tl, hl with
    | [x, y, z], _ =>
      have hx := hc x (by simp)
      have hy := hc y (by simp)
      have hz := hc z (by simp)
      have hx1 := hx.1
      have hx2 := hx.2
      have hy1 := hy.1
      have hy2 := hy.2
      have hz1 := hz.1
      have hz2 := hz.2
      have : (1 <<< (7 - 4)) - 1 = 0x07 := by decide
      simp only [contVal, List.foldl_cons, List.foldl_nil, this, and_07] at hv
      refine ⟨64 * (64 * (64 * (c.toNat % 8) + x.toNat % 64) + y.toNat % 64) + z.toNat % 64,
        by omega, by omega, ?_⟩
      unfold utf8
      rw [if_neg (by omega), if_neg (by omega), if_neg (by omega)]
      congr 1
      · apply byte_ext; rw [toNat_ofNat (by omega)]; omega
      · congr 1
        · apply byte_ext; rw [toNat_ofNat (by omega)]; omega
        · congr 1
          · apply byte_ext; rw [toNat_ofNat (by omega)]; omega
          · congr 1
            apply byte_ext; rw [toNat_ofNat (by omega)]; omega

theorem validate_complete {n : Nat} {c : Byte} {tl : Bytes} (h1 : 0x80 ≤ n) (h2 : n < 0x200000)
    (hu : utf8 n = c :: tl) (h : At o (tl ++ s) b r) :
    At o s (b ++ c :: tl) (validateUnicode r c) := by
  obtain ⟨c', tl', k, hu', hk, hk1, hk2, hl, hcont, _, hval, hbig⟩ := utf8_shape h1 h2
  rw [hu] at hu'
  injection hu' with e1 e2
  subst e1; subst e2
  unfold validateUnicode
  rw [hk]
  have hno : (decide (k > 4) || decide (k < 2)) = false := by
    have a : ¬ k > 4 := by omega
    have b : ¬ k < 2 := by omega
    simp [a, b]
  have e : (r.save c).errorIf (decide (k > 4) || decide (k < 2)) (.utf8Header c) = r.save c := by
    unfold Reader.errorIf; rw [hno]; rfl
  simp only [e]
  have hcl := contLoop_complete tl (c.toNat &&& ((1 <<< (7 - k)) - 1)) (h.save c) hcont
  rw [hl] at hcl
  have hfin : (!((k == 4 && decide ((contLoop (r.save c) (c.toNat &&& (1 <<< (7 - k)) - 1) (k - 1)).1 > 0xFFFF))
      || (k == 3 && decide ((contLoop (r.save c) (c.toNat &&& (1 <<< (7 - k)) - 1) (k - 1)).1 > 0x7FF))
      || (k == 2 && decide ((contLoop (r.save c) (c.toNat &&& (1 <<< (7 - k)) - 1) (k - 1)).1 > 0x7F)))) = false := by
    rw [hcl.1, hval]
    rcases hbig with ⟨rfl, hb⟩ | ⟨rfl, hb⟩ | ⟨rfl, hb⟩ <;> simp [hb]
  rw [hfin]
  simp only [Reader.errorIf, Bool.false_eq_true, if_false]
  have := hcl.2
  simpa using this

theorem validate_sound {c : Byte} (h : At o s b r) (hc : 0x80 ≤ c.toNat)
    (he : (validateUnicode r c).err = none) :
    ∃ n tl s', 0x80 ≤ n ∧ n < 0x200000 ∧ utf8 n = c :: tl ∧ s = tl ++ s' := by
  unfold validateUnicode at he
  cases hk : leadingOnes c with
  | none =>
    rw [hk] at he
    exact absurd he (Reader.error_err (r.save c) (.utf8Header c))
  | some k =>
    rw [hk] at he
    simp only at he
    by_cases hr : k > 4 ∨ k < 2
    · exfalso
      have e : (r.save c).errorIf (decide (k > 4) || decide (k < 2)) (.utf8Header c)
          = (r.save c).error (.utf8Header c) := by
        unfold Reader.errorIf; rw [if_pos (by simpa using hr)]
      rw [e, contLoop_not_ok _ _ _ (Reader.error_not_ok _ _)] at he
      exact (errorIf_err (Reader.error_err (r.save c) (.utf8Header c))) he
    · have e : (r.save c).errorIf (decide (k > 4) || decide (k < 2)) (.utf8Header c) = r.save c := by
        unfold Reader.errorIf; rw [if_neg (by simpa using hr)]
      rw [e] at he
      have he2 : (contLoop (r.save c) (c.toNat &&& (1 <<< (7 - k)) - 1) (k - 1)).2.err = none :=
        Classical.byContradiction fun hne => (errorIf_err hne) he
      obtain ⟨tl, s', hl, hs, hcont⟩ := contLoop_sound (k - 1) _ (h.save c) he2
      have hcl := contLoop_complete tl (s := s') (c.toNat &&& ((1 <<< (7 - k)) - 1))
        (hs ▸ h.save c) hcont
      rw [hl] at hcl
      have hv : (k = 4 ∧ contVal (c.toNat &&& ((1 <<< (7 - k)) - 1)) tl > 0xFFFF) ∨
          (k = 3 ∧ contVal (c.toNat &&& ((1 <<< (7 - k)) - 1)) tl > 0x7FF) ∨
          (k = 2 ∧ contVal (c.toNat &&& ((1 <<< (7 - k)) - 1)) tl > 0x7F) := by
        apply Classical.byContradiction
        intro hn
        rw [hcl.1] at he
        unfold Reader.errorIf at he
        rw [if_pos (by
          simp only [Bool.not_eq_true', Bool.or_eq_false_iff, Bool.and_eq_false_iff, beq_eq_false_iff_ne,
            decide_eq_false_iff_not]
          generalize contVal (c.toNat &&& ((1 <<< (7 - k)) - 1)) tl = V at hn
          omega)] at he
        exact Reader.error_err _ _ he
      obtain ⟨n, h1, h2, h3⟩ := utf8_of_shape hk (by omega) hl hcont hv
      exact ⟨n, tl, s', h1, h2, h3, hs⟩

/-! ### Strings -/

/-- Reading a string body: the loop goes on behind it. -/
theorem readString_prefix {t v : Bytes} (ht : StrBody o t v) : ∀ {r : Reader} {s b : Bytes},
    At o (t ++ s) b r → ∃ r', At o s (b ++ v) r' ∧ readStringLoop r = readStringLoop r' := by
  induction ht with
  | nil => intro r s b h; exact ⟨r, by simpa using h, rfl⟩
  | plain c t v h1 h2 h3 h4 _ ih =>
    intro r s b h
    have hp := h.pop
    rw [readStringLoop.eq_def, dif_pos h.ok]
    simp only [hp.1]
    rw [if_neg h3, if_neg (by
      rw [hp.2.opts]
      intro hx
      rcases h4 with h4 | h4
      · omega
      · rw [h4] at hx; simp at hx), if_neg h1, if_neg h2]
    have := ih (hp.2.save c)
    simpa using this
  | utf8 n t v h1 h2 h3 _ ih =>
    intro r s b h
    obtain ⟨c, tl, k, hu, _, _, _, _, _, hc, _⟩ := utf8_shape h2 h3
    rw [hu] at h ⊢
    simp only [List.cons_append, List.append_assoc] at h
    have hp := h.pop
    rw [readStringLoop.eq_def, dif_pos h.ok]
    simp only [hp.1]
    have hc10 : c ≠ 10 := by intro hx; subst hx; exact absurd hc (by decide)
    rw [if_neg hc10, if_pos ⟨hc, by rw [hp.2.opts]; exact h1⟩]
    have := ih (validate_complete h2 h3 hu hp.2)
    simpa using this
  | escape c e t v h1 _ ih =>
    intro r s b h
    have hp := h.pop
    have hp2 := hp.2.pop
    rw [readStringLoop.eq_def, dif_pos h.ok]
    simp only [hp.1]
    rw [if_neg (by decide), if_neg (by intro hx; exact absurd hx.1 (by decide)), if_neg (by decide), if_pos trivial, hp2.1]
    have hne : c ≠ 117 := by
      intro hx; subst hx
      exact absurd ((simpleEscape_iff _ _).mpr h1) (by simp [simpleEscape])
    rw [if_neg hne, (simpleEscape_iff c e).mpr h1]
    have := ih (hp2.2.save e)
    simpa using this
  | unicode a b' c d i j k l t v h1 ha hb hc hd _ ih =>
    intro r s b h
    have hp := h.pop
    have hp2 := hp.2.pop
    rw [readStringLoop.eq_def, dif_pos h.ok]
    simp only [hp.1]
    rw [if_neg (by decide), if_neg (by intro hx; exact absurd hx.1 (by decide)), if_neg (by decide), if_pos trivial, hp2.1,
      if_pos rfl]
    have := ih (readUnicode_complete hp2.2 h1 ha hb hc hd)
    simpa using this
  | rawUnicode a b' c d i j k l t v h1 ha hb hc hd _ ih =>
    intro r s b h
    have hp := h.pop
    have hp2 := hp.2.pop
    rw [readStringLoop.eq_def, dif_pos h.ok]
    simp only [hp.1]
    rw [if_neg (by decide), if_neg (by intro hx; exact absurd hx.1 (by decide)), if_neg (by decide), if_pos trivial, hp2.1,
      if_pos rfl]
    have := ih (readUnicode_raw_complete hp2.2 h1 ha hb hc hd)
    simpa using this

theorem readString_complete {t v : Bytes} (ht : StrBody o t v) {r : Reader} {s b : Bytes}
    (h : At o (t ++ 34 :: s) b r) : At o s (b ++ v) (readStringLoop r) := by
  obtain ⟨r', h', e⟩ := readString_prefix ht h
  rw [e]
  have hp := h'.pop
  rw [readStringLoop.eq_def, dif_pos h'.ok]
  simp only [hp.1]
  rw [if_neg (by decide), if_neg (by intro hx; exact absurd hx.1 (by decide)), if_pos trivial]
  exact hp.2

theorem readString_nil (h : At o [] b r) : (readStringLoop r).err ≠ none := by
  have hp := h.pop_nil
  rw [readStringLoop.eq_def, dif_pos h.ok]
  simp only [hp.1]
  rw [if_neg (by decide)]
  split
  · apply readStringLoop_err
    have e : leadingOnes 255 = none := by decide
    unfold validateUnicode
    rw [e]
    exact Reader.error_err (r.pop.2.save 255) (.utf8Header 255)
  · rw [if_neg (by decide), if_neg (by decide)]
    rw [readStringLoop_not_ok (r := r.pop.2.save 255) hp.2.1]
    exact Reader.error_err _ _

theorem readString_sound : ∀ (k : Nat) {r : Reader} {s b : Bytes}, s.length ≤ k → At o s b r →
    (readStringLoop r).err = none → ∃ t v s', s = t ++ 34 :: s' ∧ StrBody o t v := by
  intro k
  induction k with
  | zero =>
    intro r s b hk h he
    have hs : s = [] := by simpa using hk
    subst hs
    exact absurd he (readString_nil h)
  | succ k ih =>
    intro r s b hk h he
    match s, h with
    | [], h => exact absurd he (readString_nil h)
    | c :: s1, h =>
      have hp := h.pop
      have hk1 : s1.length ≤ k := by simpa using hk
      rw [readStringLoop.eq_def, dif_pos h.ok] at he
      simp only [hp.1] at he
      by_cases c10 : c = 10
      · rw [if_pos c10] at he
        exact absurd he (readStringLoop_err (Reader.error_err _ _))
      rw [if_neg c10] at he
      by_cases cu : 0x80 ≤ c.toNat ∧ r.pop.2.opts.validateUnicode = true
      · rw [if_pos cu] at he
        have hv : (validateUnicode r.pop.2 c).err = none :=
          Classical.byContradiction fun hne => (readStringLoop_err hne) he
        obtain ⟨n, tl, s2, h1, h2, hu, hs⟩ := validate_sound hp.2 cu.1 hv
        have hcmp := validate_complete h1 h2 hu (hs ▸ hp.2)
        obtain ⟨t, v, s', hs', ht⟩ := ih (by rw [hs] at hk1; simp at hk1; omega) hcmp he
        refine ⟨utf8 n ++ t, utf8 n ++ v, s', ?_, StrBody.utf8 n t v (by rw [← hp.2.opts]; exact cu.2) h1 h2 ht⟩
        rw [hu, hs, hs']; simp
      rw [if_neg cu] at he
      by_cases c34 : c = 34
      · subst c34
        exact ⟨[], [], s1, rfl, StrBody.nil⟩
      rw [if_neg c34] at he
      by_cases c92 : c = 92
      · subst c92
        rw [if_pos rfl] at he
        match s1, hp with
        | [], hp =>
          rw [hp.2.pop_nil.1, if_neg (by decide)] at he
          exact absurd he (Reader.error_err _ _)
        | d :: s2, hp =>
          have hp2 := hp.2.pop
          rw [hp2.1] at he
          have hk2 : s2.length ≤ k := by simp at hk1; omega
          by_cases d117 : d = 117
          · subst d117
            rw [if_pos rfl] at he
            have hv : (readUnicode r.pop.2.pop.2).err = none :=
              Classical.byContradiction fun hne => (readStringLoop_err hne) he
            obtain ⟨a, b', c, d, i, j, m, l, s3, hs, ha, hb, hc, hd⟩ := readUnicode_sound hp2.2 hv
            subst hs
            have hk3 : s3.length ≤ k := by simp at hk2; omega
            cases ho : o.unescapeUnicode with
            | true =>
              obtain ⟨t, v, s', hs', ht⟩ := ih hk3 (readUnicode_complete hp2.2 ho ha hb hc hd) he
              subst hs'
              exact ⟨_, _, s', rfl, StrBody.unicode a b' c d i j m l t v ho ha hb hc hd ht⟩
            | false =>
              obtain ⟨t, v, s', hs', ht⟩ := ih hk3 (readUnicode_raw_complete hp2.2 ho ha hb hc hd) he
              subst hs'
              exact ⟨_, _, s', rfl, StrBody.rawUnicode a b' c d i j m l t v ho ha hb hc hd ht⟩
          · rw [if_neg d117] at he
            cases hse : simpleEscape d with
            | none =>
              rw [hse] at he
              exact absurd he (Reader.error_err _ _)
            | some e =>
              rw [hse] at he
              obtain ⟨t, v, s', hs', ht⟩ := ih hk2 (hp2.2.save e) he
              subst hs'
              exact ⟨_, _, s', rfl, StrBody.escape d e t v ((simpleEscape_iff d e).mp hse) ht⟩
      · rw [if_neg c92] at he
        obtain ⟨t, v, s', hs', ht⟩ := ih hk1 (hp.2.save c) he
        subst hs'
        refine ⟨_, _, s', rfl, StrBody.plain c t v c34 c92 c10 ?_ ht⟩
        rw [hp.2.opts] at cu
        cases hvu : o.validateUnicode with
        | false => exact Or.inr rfl
        | true =>
          rw [hvu] at cu
          refine Or.inl ?_
          have : ¬ 0x80 ≤ c.toNat := fun hx => cu ⟨hx, rfl⟩
          omega

/-! ### Numbers -/

theorem Soft.peek_cons {c : Byte} (h : Soft o (c :: s) b r) : r.peek = (c, r) :=
  (h.at (by simp)).peek

theorem Soft.peek_nil (h : Soft o [] b r) : r.peek.1 = 255 ∧ Soft o [] b r.peek.2 := by
  unfold Reader.peek
  split
  · exact ⟨rfl, h.rest, h.buf, h.opts, h.err, h.ub, h.tok, fun hx => absurd rfl hx⟩
  · rw [h.rest]
    exact ⟨rfl, rfl, h.buf, h.opts, h.err, h.ub, h.tok, fun hx => absurd rfl hx⟩

theorem Soft.pop_cons {c : Byte} (h : Soft o (c :: s) b r) : r.pop.1 = c ∧ Soft o s b r.pop.2 :=
  ⟨(h.at (by simp)).pop.1, (h.at (by simp)).pop.2.soft⟩

theorem readDigits_soft : ∀ (s : Bytes) {r : Reader} {b : Bytes}, Soft o s b r →
    Soft o (s.dropWhile isDigit) (b ++ s.takeWhile isDigit) (readDigits r) := by
  intro s
  induction s with
  | nil =>
    intro r b h
    rw [readDigits.eq_def]
    split
    · have hp := h.peek_nil
      rw [hp.1, if_neg (by decide)]
      simpa using hp.2
    · simpa using h
  | cons c s ih =>
    intro r b h
    have ha := h.at (by simp)
    rw [readDigits.eq_def, dif_pos ha.ok, h.peek_cons]
    simp only
    by_cases hc : isDigit c = true
    · rw [if_pos hc, List.dropWhile_cons, if_pos hc, List.takeWhile_cons, if_pos hc]
      have hp := h.pop_cons
      rw [hp.1]
      have := ih (hp.2.save c)
      simpa using this
    · rw [if_neg hc, List.dropWhile_cons, if_neg hc, List.takeWhile_cons, if_neg hc]
      simpa using h

theorem readChar_soft {c : Byte} (h : Soft o s b r) (hc : c ≠ 255) :
    (∃ s', s = c :: s' ∧ (readChar r c).1 = true ∧ Soft o s' (b ++ [c]) (readChar r c).2) ∨
      (s.head? ≠ some c ∧ (readChar r c).1 = false ∧ Soft o s b (readChar r c).2) := by
  unfold readChar
  cases s with
  | nil =>
    refine Or.inr ⟨by simp, ?_⟩
    have hp := h.peek_nil
    split
    · rw [hp.1, if_neg (Ne.symm hc)]; exact ⟨rfl, hp.2⟩
    · exact ⟨rfl, h⟩
  | cons d s =>
    rw [if_pos (h.at (by simp)).ok, h.peek_cons]
    simp only
    by_cases hd : d = c
    · subst hd
      have hp := h.pop_cons
      refine Or.inl ⟨s, rfl, ?_⟩
      rw [if_pos rfl, hp.1]
      exact ⟨rfl, hp.2.save d⟩
    · refine Or.inr ⟨by simpa using hd, ?_⟩
      rw [if_neg hd]
      exact ⟨rfl, h⟩

theorem readChars_soft {c d : Byte} (h : Soft o s b r) (hc : c ≠ 255) (hd : d ≠ 255) :
    (∃ x s', s = x :: s' ∧ (x = c ∨ x = d) ∧ (readChars r c d).1 = true ∧
        Soft o s' (b ++ [x]) (readChars r c d).2) ∨
      (s.head? ≠ some c ∧ s.head? ≠ some d ∧ (readChars r c d).1 = false ∧
        Soft o s b (readChars r c d).2) := by
  unfold readChars
  cases s with
  | nil =>
    refine Or.inr ⟨by simp, by simp, ?_⟩
    have hp := h.peek_nil
    have hp2 := hp.2.peek_nil
    split
    · rw [hp.1, if_neg (Ne.symm hc), hp2.1, if_neg (Ne.symm hd)]; exact ⟨rfl, hp2.2⟩
    · exact ⟨rfl, h⟩
  | cons x s =>
    rw [if_pos (h.at (by simp)).ok, h.peek_cons]
    simp only
    have hp := h.pop_cons
    by_cases hxc : x = c
    · refine Or.inl ⟨x, s, rfl, Or.inl hxc, ?_⟩
      rw [if_pos hxc, hp.1]
      exact ⟨rfl, hp.2.save x⟩
    · rw [if_neg hxc, h.peek_cons]
      simp only
      by_cases hxd : x = d
      · refine Or.inl ⟨x, s, rfl, Or.inr hxd, ?_⟩
        rw [if_pos hxd, hp.1]
        exact ⟨rfl, hp.2.save x⟩
      · refine Or.inr ⟨by simpa using hxc, by simpa using hxd, ?_⟩
        rw [if_neg hxd]
        exact ⟨rfl, h⟩

theorem takeWhile_digits (s : Bytes) : Digits (s.takeWhile isDigit) := by
  intro c hc
  exact (isDigit_iff c).mp (by
    have := List.all_takeWhile (l := s) (p := isDigit)
    rw [List.all_eq_true] at this
    exact this c hc)

/-- The byte after a number with fraction `f` and exponent `x` does not continue it. -/
def NumStop (f x s : Bytes) : Prop := ∀ y, s.head? = some y →
  ¬ isDigit y = true ∧ (x = [] → y ≠ 101 ∧ y ≠ 69) ∧ (f = [] → x = [] → y ≠ 46) ∧
    (∀ e, x = [e] → y ≠ 43 ∧ y ≠ 45)

/-- What `readNumber` does, read off the text that follows the first character. -/
theorem readNumber_spec {c : Byte} (h : At o s b r) :
    ∃ d f x s', s = d ++ f ++ x ++ s' ∧ Digits d ∧ FracText f ∧ ExpText x ∧
      (readNumber r c).1 = (if f = [] ∧ x = [] then .int else .float) ∧
      Soft o s' (c :: (d ++ f ++ x)) (readNumber r c).2 ∧
      NumStop f x s' := by
  have hd0 := readDigits_soft s (h.reset.save c).soft
  simp only [List.nil_append] at hd0
  generalize hr1 : readDigits (r.resetBuffer.save c) = r1 at hd0
  have hs0 : s = s.takeWhile isDigit ++ s.dropWhile isDigit := (List.takeWhile_append_dropWhile).symm
  have hdd := takeWhile_digits s
  have hnd : ∀ (u : Bytes) y, (u.dropWhile isDigit).head? = some y → ¬ isDigit y = true := by
    intro u y hy
    have := List.head?_dropWhile_not isDigit u
    rw [hy] at this
    simpa using this
  generalize hs1 : s.dropWhile isDigit = s1 at hd0 hs0
  generalize s.takeWhile isDigit = d at hd0 hs0 hdd
  have hs1d : ∀ y, s1.head? = some y → ¬ isDigit y = true := hs1 ▸ hnd s
  -- the part after the dot
  have hfrac : ∃ f s2 r2 t, s1 = f ++ s2 ∧ FracText f ∧ (t = if f = [] then TokType.int else .float) ∧
      ((if (readChar r1 46).1 then (TokType.float, readDigits (readChar r1 46).2)
        else (.int, (readChar r1 46).2)) = (t, r2)) ∧ Soft o s2 (c :: (d ++ f)) r2 ∧
      (∀ y, s2.head? = some y → ¬ isDigit y = true ∧ ¬ (f = [] ∧ y = 46)) := by
    rcases readChar_soft hd0 (c := 46) (by decide) with ⟨s1', e, e1, e2⟩ | ⟨hne, e1, e2⟩
    · have hd1 := readDigits_soft s1' e2
      refine ⟨46 :: s1'.takeWhile isDigit, s1'.dropWhile isDigit, _, .float, ?_, ?_, by simp, by rw [e1]; rfl, ?_, ?_⟩
      · rw [e, List.cons_append, List.takeWhile_append_dropWhile]
      · exact Or.inr ⟨_, rfl, takeWhile_digits s1'⟩
      · simpa using hd1
      · intro y hy
        exact ⟨hnd s1' y hy, by simp⟩
    · refine ⟨[], s1, _, .int, rfl, Or.inl rfl, rfl, by rw [e1]; rfl, by simpa using e2, ?_⟩
      intro y hy
      refine ⟨hs1d y hy, ?_⟩
      rintro ⟨_, rfl⟩
      exact hne hy
  obtain ⟨f, s2, r2, t, hs1', hf, ht, hif, hsoft, hs2⟩ := hfrac
  unfold readNumber
  simp only [hr1, hif]
  rcases readChars_soft hsoft (c := 101) (d := 69) (by decide) (by decide) with
    ⟨x, s3, e, hx, e1, e2⟩ | ⟨hne1, hne2, e1, e2⟩
  · rw [e1]
    simp only [if_true]
    generalize (readChars r2 101 69).2 = r3 at e2
    have hsign : ∃ sg s4, s3 = sg ++ s4 ∧ (sg = [] ∨ sg = [43] ∨ sg = [45]) ∧
        Soft o s4 (c :: (d ++ f ++ x :: sg)) (readChars r3 43 45).2 ∧
        (sg = [] → s4.head? ≠ some 43 ∧ s4.head? ≠ some 45) := by
      rcases readChars_soft e2 (c := 43) (d := 45) (by decide) (by decide) with
        ⟨y, s4, e', hy, _, e2'⟩ | ⟨hn1, hn2, _, e2'⟩
      · refine ⟨[y], s4, e', ?_, by simpa using e2', by simp⟩
        rcases hy with hy | hy <;> simp [hy]
      · exact ⟨[], s3, rfl, Or.inl rfl, by simpa using e2', fun _ => ⟨hn1, hn2⟩⟩
    obtain ⟨sg, s4, hs3, hsg, hsoft4, hsg0⟩ := hsign
    have hd4 := readDigits_soft s4 hsoft4
    refine ⟨d, f, x :: (sg ++ s4.takeWhile isDigit), s4.dropWhile isDigit, ?_, hdd, hf,
      Or.inr ⟨x, sg, _, rfl, hx, hsg, takeWhile_digits s4⟩, by simp, ?_, ?_⟩
    · rw [hs0, hs1', e, hs3]
      simp [List.takeWhile_append_dropWhile]
    · simpa using hd4
    · intro y hy
      refine ⟨hnd s4 y hy, by simp, by simp, ?_⟩
      intro e' hx'
      simp only [List.cons.injEq, List.append_eq_nil_iff] at hx'
      obtain ⟨_, rfl, htw⟩ := hx'
      have hs4 : s4.dropWhile isDigit = s4 := by
        have := List.takeWhile_append_dropWhile (p := isDigit) (l := s4)
        rw [htw] at this; simpa using this
      rw [hs4] at hy
      exact ⟨fun h => (hsg0 rfl).1 (h ▸ hy), fun h => (hsg0 rfl).2 (h ▸ hy)⟩
  · rw [e1]
    simp only [Bool.false_eq_true, if_false]
    refine ⟨d, f, [], s2, by rw [hs0, hs1']; simp, hdd, hf, Or.inl rfl, by rw [ht]; simp, by simpa using e2, ?_⟩
    intro y hy
    refine ⟨(hs2 y hy).1, fun _ => ⟨fun h => hne1 (h ▸ hy), fun h => hne2 (h ▸ hy)⟩, ?_, by simp⟩
    intro hfe _ h
    exact (hs2 y hy).2 ⟨hfe, h⟩

theorem span_digits : ∀ {d u : Bytes}, Digits d → (∀ y, u.head? = some y → ¬ isDigit y = true) →
    (d ++ u).takeWhile isDigit = d ∧ (d ++ u).dropWhile isDigit = u := by
  intro d
  induction d with
  | nil =>
    intro u _ hu
    cases u with
    | nil => exact ⟨rfl, rfl⟩
    | cons y u =>
      have := hu y rfl
      simp [this]
  | cons c d ih =>
    intro u hd hu
    have hc : isDigit c = true := (isDigit_iff c).mpr (hd c (by simp))
    have := ih (u := u) (fun x hx => hd x (by simp [hx])) hu
    simp [hc, this.1, this.2]

theorem not_digit_of_eq {y : Byte} (h : y = 46 ∨ y = 101 ∨ y = 69 ∨ y = 43 ∨ y = 45) :
    ¬ isDigit y = true := by
  rcases h with rfl | rfl | rfl | rfl | rfl <;> decide

theorem readNumber_complete {c : Byte} {d f x : Bytes} (hd : Digits d) (hf : FracText f) (hx : ExpText x)
    (hs : NumStop f x s) (h : At o (d ++ f ++ x ++ s) b r) :
    (readNumber r c).1 = (if f = [] ∧ x = [] then .int else .float) ∧
      Soft o s (c :: (d ++ f ++ x)) (readNumber r c).2 := by
  have hxs : ∀ y, (x ++ s).head? = some y → ¬ isDigit y = true ∧ (f = [] → y ≠ 46) := by
    intro y hy
    rcases hx with rfl | ⟨e, sg, ds, rfl, he, _, _⟩
    · exact ⟨(hs y hy).1, fun hf0 => (hs y hy).2.2.1 hf0 rfl⟩
    · simp at hy; subst hy
      refine ⟨not_digit_of_eq ?_, fun _ => ?_⟩
      · rcases he with rfl | rfl <;> simp
      · rcases he with rfl | rfl <;> decide
  have hfxs : ∀ y, (f ++ x ++ s).head? = some y → ¬ isDigit y = true := by
    intro y hy
    rcases hf with rfl | ⟨ds, rfl, _⟩
    · exact (hxs y (by simpa using hy)).1
    · simp at hy; subst hy; decide
  have hd0 := readDigits_soft _ (h.reset.save c).soft
  have e0 := span_digits hd hfxs
  rw [← List.append_assoc, ← List.append_assoc] at e0
  rw [e0.1, e0.2] at hd0
  simp only [List.nil_append] at hd0
  generalize hr1 : readDigits (r.resetBuffer.save c) = r1 at hd0
  have hfrac : ∃ r2, ((if (readChar r1 46).1 then (TokType.float, readDigits (readChar r1 46).2)
        else (.int, (readChar r1 46).2)) = (if f = [] then TokType.int else .float, r2)) ∧
      Soft o (x ++ s) (c :: (d ++ f)) r2 := by
    rcases hf with rfl | ⟨ds, rfl, hds⟩
    · rcases readChar_soft hd0 (c := 46) (by decide) with ⟨s1', e, _, _⟩ | ⟨_, e1, e2⟩
      · exact absurd rfl ((hxs 46 (by simp at e; simp [e])).2 rfl)
      · rw [e1]
        exact ⟨_, rfl, by simpa using e2⟩
    · rcases readChar_soft hd0 (c := 46) (by decide) with ⟨s1', e, e1, e2⟩ | ⟨hne, _, _⟩
      · rw [e1]
        simp only [List.cons_append, List.cons.injEq, true_and] at e
        subst e
        have e3 := readDigits_soft _ e2
        have e4 := span_digits (u := x ++ s) hds (fun y hy => (hxs y hy).1)
        rw [← List.append_assoc] at e4
        rw [e4.1, e4.2] at e3
        exact ⟨_, rfl, by simpa using e3⟩
      · exact absurd rfl hne
  obtain ⟨r2, hif, hsoft⟩ := hfrac
  unfold readNumber
  simp only [hr1, hif]
  rcases hx with rfl | ⟨e, sg, ds, rfl, he, hsg, hds⟩
  · rcases readChars_soft hsoft (c := 101) (d := 69) (by decide) (by decide) with
      ⟨y, s3, e, hy, _, _⟩ | ⟨_, _, e1, e2⟩
    · have := (hs y (by simp at e; simp [e])).2.1 rfl
      rcases hy with hy | hy
      · exact absurd hy this.1
      · exact absurd hy this.2
    · rw [e1]
      simp only [Bool.false_eq_true, if_false, and_true]
      exact ⟨trivial, by simpa using e2⟩
  · rcases readChars_soft hsoft (c := 101) (d := 69) (by decide) (by decide) with
      ⟨y, s3, e', hy, e1, e2⟩ | ⟨hne1, hne2, _, _⟩
    · rw [e1]
      simp only [List.cons_append, List.cons.injEq] at e'
      obtain ⟨rfl, rfl⟩ := e'
      simp only [if_true, List.cons_ne_nil, and_false, if_false, true_and]
      generalize (readChars r2 101 69).2 = r3 at e2
      have hend : ∀ y, s.head? = some y → ¬ isDigit y = true := fun y hy => (hs y hy).1
      have hds2 : sg = [] → ∀ y, (ds ++ s).head? = some y → y ≠ 43 ∧ y ≠ 45 := by
        intro hsg0 y hy
        cases ds with
        | nil =>
          exact (hs y (by simpa using hy)).2.2.2 e (by rw [hsg0]; rfl)
        | cons z ds =>
          simp at hy; subst hy
          have := hds z (by simp)
          refine ⟨?_, ?_⟩ <;> (intro hz; subst hz; revert this; decide)
      have hsign : Soft o (ds ++ s) (c :: (d ++ f ++ e :: sg)) (readChars r3 43 45).2 := by
        rcases readChars_soft e2 (c := 43) (d := 45) (by decide) (by decide) with
          ⟨y, s4, e', hy, _, e2'⟩ | ⟨hn1, hn2, _, e2'⟩
        · rcases hsg with rfl | rfl | rfl
          · exfalso
            have := hds2 rfl y (by simp at e'; simp [e'])
            rcases hy with hy | hy
            · exact this.1 hy
            · exact this.2 hy
          · simp at e'; obtain ⟨rfl, rfl⟩ := e'; simpa using e2'
          · simp at e'; obtain ⟨rfl, rfl⟩ := e'; simpa using e2'
        · rcases hsg with rfl | rfl | rfl
          · simpa using e2'
          · exact absurd rfl hn1
          · exact absurd rfl hn2
      have e3 := readDigits_soft _ hsign
      have e4 := span_digits hds hend
      rw [e4.1, e4.2] at e3
      simpa using e3
    · exfalso
      rcases he with rfl | rfl
      · exact hne1 rfl
      · exact hne2 rfl

/-- Number texts, taken apart. -/
theorem numText_iff {w : Bytes} : NumText w ↔ ∃ c d f x, w = c :: (d ++ f ++ x) ∧ (c = 45 ∨ Digits [c]) ∧
    Digits d ∧ FracText f ∧ ExpText x := by
  constructor
  · rintro (⟨c, ds, rfl, hc, hd⟩ | ⟨i, f, x, rfl, ⟨c, ds, rfl, hc, hd⟩, hf, hx, _⟩)
    · exact ⟨c, ds, [], [], by simp, hc, hd, Or.inl rfl, Or.inl rfl⟩
    · exact ⟨c, ds, f, x, by simp, hc, hd, hf, hx⟩
  · rintro ⟨c, d, f, x, rfl, hc, hd, hf, hx⟩
    by_cases hfx : f = [] ∧ x = []
    · obtain ⟨rfl, rfl⟩ := hfx
      exact Or.inl ⟨c, d, by simp, hc, hd⟩
    · refine Or.inr ⟨c :: d, f, x, by simp, ⟨c, d, rfl, hc, hd⟩, hf, hx, ?_⟩
      by_cases hf' : f = []
      · exact Or.inr fun hx' => hfx ⟨hf', hx'⟩
      · exact Or.inl hf'

theorem digits_snoc {d : Bytes} {y : Byte} (hd : Digits d) (hy : isDigit y = true) : Digits (d ++ [y]) := by
  intro z hz
  simp only [List.mem_append, List.mem_cons, List.not_mem_nil, or_false] at hz
  rcases hz with hz | rfl
  · exact hd z hz
  · exact (isDigit_iff _).mp hy

/-- The two ways to say where a number ends. -/
theorem numStop_iff {c : Byte} {d f x s : Bytes} (hc : c = 45 ∨ Digits [c]) (hd : Digits d) (hf : FracText f)
    (hx : ExpText x) :
    NumStop f x s ↔ ∀ y, s.head? = some y → ¬ NumText ((c :: (d ++ f ++ x)) ++ [y]) := by
  constructor
  · intro h y hy hn
    obtain ⟨c', d', f', x', he, hc', hd', hf', hx'⟩ := numText_iff.mp hn
    -- reading `d f x y` stops before `y`, and also after it
    simp only [List.cons_append, List.cons.injEq] at he
    obtain ⟨rfl, he⟩ := he
    let o : ROpts := ROpts.default
    have h1 := readNumber_complete (o := o) (s := [y]) (c := c) hd hf hx (fun z hz => h z (by simpa using (by
      simp at hz; subst hz; exact hy))) (At.open o _)
    have h2 := readNumber_complete (o := o) (s := []) (c := c) hd' hf' hx' (fun z hz => by simp at hz) (At.open o _)
    rw [List.append_nil, ← he] at h2
    have e1 := h1.2.rest
    have e2 := h2.2.rest
    rw [e1] at e2
    cases e2
  · intro h y hy
    have hno := h y hy
    rw [numText_iff] at hno
    refine ⟨?_, ?_, ?_, ?_⟩
    · intro hyd
      apply hno
      rcases hx with rfl | ⟨e, sg, ds, rfl, he, hsg, hds⟩
      · rcases hf with rfl | ⟨ds, rfl, hds⟩
        · exact ⟨c, d ++ [y], [], [], by simp, hc, digits_snoc hd hyd, Or.inl rfl, Or.inl rfl⟩
        · exact ⟨c, d, 46 :: (ds ++ [y]), [], by simp, hc, hd, Or.inr ⟨_, rfl, digits_snoc hds hyd⟩, Or.inl rfl⟩
      · exact ⟨c, d, f, e :: (sg ++ (ds ++ [y])), by simp, hc, hd, hf,
          Or.inr ⟨e, sg, _, rfl, he, hsg, digits_snoc hds hyd⟩⟩
    · rintro rfl
      have hgo : (y = 101 ∨ y = 69) → False := fun hy2 => hno ⟨c, d, f, [y], by simp, hc, hd, hf,
        Or.inr ⟨y, [], [], rfl, hy2, Or.inl rfl, fun z hz => by cases hz⟩⟩
      exact ⟨fun h => hgo (Or.inl h), fun h => hgo (Or.inr h)⟩
    · rintro rfl rfl rfl
      exact hno ⟨c, d, [46], [], by simp, hc, hd, Or.inr ⟨[], rfl, fun z hz => by cases hz⟩, Or.inl rfl⟩
    · rintro e rfl
      have he : e = 101 ∨ e = 69 := by
        rcases hx with hx | ⟨e', sg, ds, hx, he, _, _⟩
        · cases hx
        · injection hx with hx _; exact hx ▸ he
      have hgo : (y = 43 ∨ y = 45) → False := fun hy2 => hno ⟨c, d, f, [e, y], by simp, hc, hd, hf,
        Or.inr ⟨e, [y], [], rfl, he, by rcases hy2 with h | h <;> simp [h], fun z hz => by cases hz⟩⟩
      exact ⟨fun h => hgo (Or.inl h), fun h => hgo (Or.inr h)⟩

/-! ### Separators -/

theorem skipComment_complete : ∀ (body : Bytes) {r : Reader} {s b : Bytes}, (10 : Byte) ∉ body →
    At o (body ++ 10 :: s) b r → At o s b (skipComment r) := by
  intro body
  induction body with
  | nil =>
    intro r s b _ h
    have hp := h.pop
    rw [skipComment.eq_def, dif_pos h.ok, hp.1, if_pos rfl]
    exact hp.2
  | cons c body ih =>
    intro r s b hb h
    have hp := h.pop
    simp only [List.mem_cons, not_or] at hb
    rw [skipComment.eq_def, dif_pos h.ok, hp.1, if_neg (Ne.symm hb.1)]
    exact ih hb.2 hp.2

theorem ws_not_slash {c : Byte} (h : c ∈ wsBytes) : c ≠ 47 := by
  intro hc; subst hc; revert h; decide

theorem nextChar_complete {w : Bytes} (hw : Sep o w) : ∀ {r : Reader} {s b : Bytes} {c : Byte},
    c ∉ wsBytes → c ≠ 47 → At o (w ++ c :: s) b r →
    (nextChar r).1 = c ∧ At o s b (nextChar r).2 := by
  induction hw with
  | nil =>
    intro r s b c hc hc2 h
    have hp := h.pop
    have hsp : ¬ isSpace c = true := fun hx => hc ((isSpace_iff c).mp hx)
    rw [nextChar.eq_def, dif_pos h.ok]
    simp only [hp.1]
    rw [if_neg hsp, if_neg hc2]
    exact ⟨rfl, hp.2.countNewline c⟩
  | ws d w hd _ ih =>
    intro r s b c hc hc2 h
    have hp := h.pop
    rw [nextChar.eq_def, dif_pos h.ok]
    simp only [hp.1]
    rw [if_pos ((isSpace_iff d).mpr hd)]
    exact ih hc hc2 (hp.2.countNewline d)
  | comment body w ho hb _ ih =>
    intro r s b c hc hc2 h
    simp only [List.cons_append, List.nil_append, List.append_assoc] at h
    have hp := h.pop
    have h1 := hp.2.countNewline 47
    rw [nextChar.eq_def, dif_pos h.ok]
    simp only [hp.1]
    rw [if_neg (by decide), if_pos trivial, h1.peek]
    simp only [if_true]
    have e : (r.pop.2.countNewline 47).checkComments = r.pop.2.countNewline 47 := by
      unfold Reader.checkComments Reader.errorIf
      rw [h1.opts, ho]; rfl
    rw [e]
    have h2 := skipComment_complete (47 :: body) (by
      simp only [List.mem_cons, not_or]; exact ⟨by decide, hb⟩) h1
    exact ih hc hc2 h2

/-! ### Literals -/

theorem readLiteral_complete {lit : Bytes} : ∀ (l : Bytes) {r : Reader} {s b : Bytes},
    At o (l ++ s) b r → At o s b (readLiteral lit r l) := by
  intro l
  induction l with
  | nil => intro r s b h; exact h
  | cons c l ih =>
    intro r s b h
    have hp := h.pop
    rw [readLiteral, if_pos h.ok, hp.1, if_pos rfl]
    exact ih hp.2

theorem readLiteral_sound {lit : Bytes} : ∀ (l : Bytes) {r : Reader} {s b : Bytes}, (255 : Byte) ∉ l → At o s b r →
    (readLiteral lit r l).err = none → ∃ s', s = l ++ s' := by
  intro l
  induction l with
  | nil => intro r s b _ _ _; exact ⟨s, rfl⟩
  | cons c l ih =>
    intro r s b hl h he
    simp only [List.mem_cons, not_or] at hl
    rw [readLiteral, if_pos h.ok] at he
    split at he
    · rename_i hc
      cases s with
      | nil =>
        rw [h.pop_nil.1] at hc
        exact absurd hc hl.1
      | cons d s =>
        have hp := h.pop
        rw [hp.1] at hc
        subst hc
        obtain ⟨s', rfl⟩ := ih hl.2 hp.2 he
        exact ⟨s', rfl⟩
    · exact absurd he (Reader.error_err _ _)

/-! ### The next character, soundness -/

theorem skipComment_not_ok (h : r.ok = false) : skipComment r = r := by
  rw [skipComment.eq_def, dif_neg (by simp [h])]

theorem nextChar_not_ok (h : r.ok = false) : nextChar r = (0, r) := by
  rw [nextChar.eq_def, dif_neg (by simp [h])]

theorem skipComment_sound : ∀ (s : Bytes) {r : Reader} {b : Bytes}, At o s b r →
    (∃ body s', s = body ++ 10 :: s' ∧ (10 : Byte) ∉ body) ∨
      ((10 : Byte) ∉ s ∧ (skipComment r).ok = false ∧ (skipComment r).err = none) := by
  intro s
  induction s with
  | nil =>
    intro r b h
    refine Or.inr ⟨by simp, ?_⟩
    have hp := h.pop_nil
    rw [skipComment.eq_def, dif_pos h.ok, hp.1, if_neg (by decide), skipComment_not_ok hp.2.1]
    exact ⟨hp.2.1, hp.2.2.1⟩
  | cons c s ih =>
    intro r b h
    have hp := h.pop
    by_cases hc : c = 10
    · subst hc; exact Or.inl ⟨[], s, rfl, by simp⟩
    · rw [skipComment.eq_def, dif_pos h.ok, hp.1, if_neg hc]
      rcases ih hp.2 with ⟨body, s', e, hb⟩ | ⟨h1, h2⟩
      · exact Or.inl ⟨c :: body, s', by simp [e], by simp [hb, Ne.symm hc]⟩
      · exact Or.inr ⟨by simp [h1, Ne.symm hc], h2⟩

/-- The three ways `nextChar` can end. -/
theorem nextChar_sound : ∀ (k : Nat) {r : Reader} {s b : Bytes}, s.length ≤ k → At o s b r →
    (∃ w s', s = w ++ (nextChar r).1 :: s' ∧ Sep o w ∧ (nextChar r).1 ∉ wsBytes ∧ (nextChar r).2.ok = true ∧
      ((nextChar r).1 ≠ 47 → At o s' b (nextChar r).2)) ∨
    ((nextChar r).2.ok = false ∧ (nextChar r).2.err = none ∧ Trailing o s) ∨
    ((nextChar r).2.err ≠ none ∧ o.allowComments = false ∧ ∃ w s', Sep o w ∧ s = w ++ 47 :: 47 :: s') := by
  intro k
  induction k with
  | zero =>
    intro r s b hk h
    have hs : s = [] := by simpa using hk
    subst hs
    have hp := h.pop_nil
    refine Or.inr (Or.inl ?_)
    rw [nextChar.eq_def, dif_pos h.ok]
    simp only [hp.1]
    have e : r.pop.2.countNewline 255 = r.pop.2 := rfl
    rw [if_neg (by decide), if_neg (by decide), e]
    exact ⟨hp.2.1, hp.2.2.1, [], Sep.nil, Or.inl rfl⟩
  | succ k ih =>
    intro r s b hk h
    match s, h with
    | [], h => exact ih (by simp) h
    | c :: s1, h =>
      have hp := h.pop
      have hk1 : s1.length ≤ k := by simpa using hk
      have h1 := hp.2.countNewline c
      rw [nextChar.eq_def, dif_pos h.ok]
      simp only [hp.1]
      by_cases hsp : isSpace c = true
      · rw [if_pos hsp]
        have hws := (isSpace_iff c).mp hsp
        rcases ih hk1 h1 with ⟨w, s', e, hw, hx⟩ | ⟨h2, h3, w, hw, ht⟩ | ⟨h2, h3, w, s', hw, e⟩
        · exact Or.inl ⟨c :: w, s', by rw [e]; rfl, Sep.ws c w hws hw, hx⟩
        · refine Or.inr (Or.inl ⟨h2, h3, c :: w, Sep.ws c w hws hw, ?_⟩)
          rcases ht with ht | ⟨ho, body, hb, ht⟩
          · exact Or.inl (by rw [ht])
          · exact Or.inr ⟨ho, body, hb, by rw [ht]; rfl⟩
        · exact Or.inr (Or.inr ⟨h2, h3, c :: w, s', Sep.ws c w hws hw, by rw [e]; rfl⟩)
      · rw [if_neg hsp]
        have hws : c ∉ wsBytes := fun hx => hsp ((isSpace_iff c).mpr hx)
        by_cases hc : c = 47
        · subst hc
          rw [if_pos rfl]
          match s1, h1 with
          | [], h1 =>
            have hpk := h1.soft.peek_nil
            rw [hpk.1, if_neg (by decide)]
            exact Or.inl ⟨[], [], rfl, Sep.nil, hws, h1.peek_nil_ok, fun hx => absurd rfl hx⟩
          | d :: s2, h1 =>
            rw [h1.peek]
            simp only
            by_cases hd : d = 47
            · subst hd
              rw [if_pos rfl]
              cases ho : o.allowComments with
              | false =>
                refine Or.inr (Or.inr ⟨?_, rfl, [], s2, Sep.nil, rfl⟩)
                have e : (r.pop.2.countNewline 47).checkComments
                    = (r.pop.2.countNewline 47).error .comments := by
                  unfold Reader.checkComments Reader.errorIf
                  rw [h1.opts, ho]; rfl
                have hno := Reader.error_not_ok (r.pop.2.countNewline 47) .comments
                rw [e, skipComment_not_ok hno, nextChar_not_ok hno]
                exact Reader.error_err _ _
              | true =>
                have e : (r.pop.2.countNewline 47).checkComments = r.pop.2.countNewline 47 := by
                  unfold Reader.checkComments Reader.errorIf
                  rw [h1.opts, ho]; rfl
                rw [e]
                rcases skipComment_sound _ h1 with ⟨body, s', es, hb⟩ | ⟨hb, h2, h3⟩
                · match body, es, hb with
                  | [], es, hb => simp at es
                  | x :: body, es, hb =>
                    simp only [List.cons_append, List.cons.injEq] at es
                    obtain ⟨rfl, rfl⟩ := es
                    have hb2 : (10 : Byte) ∉ body := fun hx => hb (by simp [hx])
                    have h2 := skipComment_complete (47 :: body) hb h1
                    have hk2 : s'.length ≤ k := by simp at hk1; omega
                    rcases ih hk2 h2 with ⟨w, s'', e2, hw, hx⟩ | ⟨h4, h5, w, hw, ht⟩ | ⟨h4, h5, w, s'', hw, e2⟩
                    · refine Or.inl ⟨[47, 47] ++ body ++ [10] ++ w, s'', ?_, Sep.comment body w ho hb2 hw, hx⟩
                      rw [e2]; simp
                    · refine Or.inr (Or.inl ⟨h4, h5, _, Sep.comment body w ho hb2 hw, ?_⟩)
                      rcases ht with ht | ⟨ho', body', hb', ht⟩
                      · exact Or.inl (by rw [ht]; simp)
                      · exact Or.inr ⟨ho', body', hb', by rw [ht]; simp⟩
                    · rw [ho] at h5; simp at h5
                · rw [nextChar_not_ok h2]
                  refine Or.inr (Or.inl ⟨h2, h3, [], Sep.nil, Or.inr ⟨ho, s2, ?_, by simp⟩⟩)
                  exact fun hx => hb (by simp [hx])
            · rw [if_neg hd]
              exact Or.inl ⟨[], d :: s2, rfl, Sep.nil, hws, h1.ok, fun hx => absurd rfl hx⟩
        · rw [if_neg hc]
          exact Or.inl ⟨[], s1, rfl, Sep.nil, hws, h1.ok, fun _ => h1⟩

/-! ### Tokens -/

theorem lexeme_head {a : Bytes} {t : Token} {v : Option Bytes} (h : Lexeme o a t v) :
    ∃ c a', a = c :: a' ∧ c ∉ wsBytes ∧ c ≠ 47 := by
  have hint : ∀ s, IntText s → ∃ c a', s = c :: a' ∧ c ∉ wsBytes ∧ c ≠ 47 := by
    intro s hs
    obtain ⟨c, ds, rfl, hc, _⟩ := hs
    refine ⟨c, ds, rfl, ?_⟩
    rcases hc with rfl | hc
    · decide
    · have := hc c (by simp)
      have hb : ∀ c : Byte, 48 ≤ c.toNat ∧ c.toNat ≤ 57 → c ∉ wsBytes ∧ c ≠ 47 := by
        apply forall_byte; decide +kernel
      exact hb c this
  cases h with
  | string t v _ => exact ⟨34, _, rfl, by decide, by decide⟩
  | int _ hs => exact hint _ hs
  | float _ hs =>
    obtain ⟨i, f, x, rfl, hi, _⟩ := hs
    obtain ⟨c, a', rfl, h2⟩ := hint i hi
    exact ⟨c, a' ++ f ++ x, by simp, h2⟩
  | _ => exact ⟨_, _, rfl, by decide, by decide⟩

theorem tokenAt_number {c : Byte} (h : c = 45 ∨ isDigit c = true) :
    tokenAt r c = (⟨(readNumber r c).1, .buffer⟩, (readNumber r c).2) := by
  have hb : ∀ c : Byte, (c = 45 ∨ isDigit c = true) → c ≠ 123 ∧ c ≠ 125 ∧ c ≠ 91 ∧ c ≠ 93 ∧ c ≠ 44 ∧ c ≠ 58 ∧
      c ≠ 110 ∧ c ≠ 116 ∧ c ≠ 102 ∧ c ≠ 34 := by
    apply forall_byte; decide +kernel
  obtain ⟨h1, h2, h3, h4, h5, h6, h7, h8, h9, h10⟩ := hb c h
  unfold tokenAt
  rw [if_neg h1, if_neg h2, if_neg h3, if_neg h4, if_neg h5, if_neg h6, if_neg h7, if_neg h8, if_neg h9,
    if_neg h10, if_pos h]

theorem tokenAt_complete {a : Bytes} {c : Byte} {t : Token} {v : Option Bytes} (hl : Lexeme o (c :: a) t v)
    (hf : Follows (c :: a) t s) (h : At o (a ++ s) b r) :
    (tokenAt r c).1 = t ∧ Soft o s (v.getD b) (tokenAt r c).2 := by
  have hnum : ∀ (d f x : Bytes), (c = 45 ∨ Digits [c]) → Digits d → FracText f → ExpText x →
      a = d ++ f ++ x → (t = ⟨if f = [] ∧ x = [] then .int else .float, .buffer⟩) → v = some (c :: a) →
      (tokenAt r c).1 = t ∧ Soft o s (v.getD b) (tokenAt r c).2 := by
    intro d f x hc hd hfr hx ha ht hv
    have hs : NumStop f x s := by
      rw [numStop_iff hc hd hfr hx, ← ha]
      apply hf
      rw [ht]
      by_cases hfx : f = [] ∧ x = []
      · simp [hfx]
      · simp [hfx]
    have hc' : c = 45 ∨ isDigit c = true := by
      rcases hc with hc | hc
      · exact Or.inl hc
      · exact Or.inr ((isDigit_iff c).mpr (hc c (by simp)))
    rw [tokenAt_number hc']
    subst ha
    have := readNumber_complete (c := c) hd hfr hx hs h
    rw [this.1, ht, hv]
    exact ⟨rfl, this.2⟩
  cases hl with
  | objectStart => exact ⟨rfl, h.soft⟩
  | objectEnd => exact ⟨rfl, h.soft⟩
  | arrayStart => exact ⟨rfl, h.soft⟩
  | arrayEnd => exact ⟨rfl, h.soft⟩
  | separator => exact ⟨rfl, h.soft⟩
  | keySeparator => exact ⟨rfl, h.soft⟩
  | null => exact ⟨rfl, (readLiteral_complete _ h).soft⟩
  | true => exact ⟨rfl, (readLiteral_complete _ h).soft⟩
  | false => exact ⟨rfl, (readLiteral_complete _ h).soft⟩
  | string u v hb =>
    refine ⟨rfl, ?_⟩
    have h' : At o (u ++ 34 :: s) b r := by
      have e : (u.append [34]) ++ s = u ++ 34 :: s := by
        change (u ++ [34]) ++ s = _
        simp
      exact e ▸ h
    have := readString_complete hb h'.reset
    exact this.soft
  | int _ hi =>
    obtain ⟨c', ds, he, hc, hds⟩ := hi
    injection he with e1 e2
    subst e1; subst e2
    exact hnum a [] [] hc hds (Or.inl rfl) (Or.inl rfl) (by simp) rfl rfl
  | float _ hi =>
    obtain ⟨i, f, x, he, hi, hfr, hx, hne⟩ := hi
    obtain ⟨c', ds, rfl, hc, hds⟩ := hi
    simp only [List.cons_append, List.cons.injEq] at he
    obtain ⟨rfl, rfl⟩ := he
    refine hnum ds f x hc hds hfr hx rfl ?_ rfl
    have : ¬ (f = [] ∧ x = []) := by
      rintro ⟨h1, h2⟩
      rcases hne with hne | hne
      · exact hne h1
      · exact hne h2
    rw [if_neg this]

theorem lex_complete {w a : Bytes} {t : Token} {v : Option Bytes} (hw : Sep o w) (hl : Lexeme o a t v)
    (hf : Follows a t s) (h : At o (w ++ a ++ s) b r) :
    (lexToken r).1 = t ∧ Soft o s (v.getD b) (lexToken r).2 := by
  obtain ⟨c, a', rfl, hc1, hc2⟩ := lexeme_head hl
  simp only [List.append_assoc, List.cons_append] at h
  have hn := nextChar_complete hw hc1 hc2 h
  unfold lexToken
  rw [if_pos h.ok]
  simp only
  rw [if_pos hn.2.ok, hn.1]
  exact tokenAt_complete hl hf hn.2

theorem tokenAt_sound {c : Byte} (h : At o s b r) (he : (tokenAt r c).2.err = none) :
    ∃ a v s', s = a ++ s' ∧ Lexeme o (c :: a) (tokenAt r c).1 v ∧ Soft o s' (v.getD b) (tokenAt r c).2 ∧
      Follows (c :: a) (tokenAt r c).1 s' := by
  by_cases hnum : c = 45 ∨ isDigit c = true
  · rw [tokenAt_number hnum] at he ⊢
    obtain ⟨d, f, x, s', hs, hd, hf, hx, ht, hsoft, hstop⟩ := readNumber_spec (c := c) h
    have hc : c = 45 ∨ Digits [c] := by
      rcases hnum with hc | hc
      · exact Or.inl hc
      · refine Or.inr ?_
        intro y hy
        simp only [List.mem_cons, List.not_mem_nil, or_false] at hy
        subst hy
        exact (isDigit_iff _).mp hc
    refine ⟨d ++ f ++ x, some (c :: (d ++ f ++ x)), s', hs, ?_, hsoft, fun _ => (numStop_iff hc hd hf hx).mp hstop⟩
    rw [ht]
    by_cases hfx : f = [] ∧ x = []
    · rw [if_pos hfx]
      obtain ⟨rfl, rfl⟩ := hfx
      exact Lexeme.int _ ⟨c, d, by simp, hc, hd⟩
    · rw [if_neg hfx]
      refine Lexeme.float _ ⟨c :: d, f, x, by simp, ⟨c, d, rfl, hc, hd⟩, hf, hx, ?_⟩
      by_cases hf' : f = []
      · exact Or.inr fun hx' => hfx ⟨hf', hx'⟩
      · exact Or.inl hf'
  · unfold tokenAt at he ⊢
    by_cases h1 : c = 123
    · subst h1; exact ⟨[], none, s, rfl, Lexeme.objectStart, h.soft, (by rintro (hx | hx) <;> cases hx)⟩
    rw [if_neg h1] at he ⊢
    by_cases h2 : c = 125
    · subst h2; exact ⟨[], none, s, rfl, Lexeme.objectEnd, h.soft, (by rintro (hx | hx) <;> cases hx)⟩
    rw [if_neg h2] at he ⊢
    by_cases h3 : c = 91
    · subst h3; exact ⟨[], none, s, rfl, Lexeme.arrayStart, h.soft, (by rintro (hx | hx) <;> cases hx)⟩
    rw [if_neg h3] at he ⊢
    by_cases h4 : c = 93
    · subst h4; exact ⟨[], none, s, rfl, Lexeme.arrayEnd, h.soft, (by rintro (hx | hx) <;> cases hx)⟩
    rw [if_neg h4] at he ⊢
    by_cases h5 : c = 44
    · subst h5; exact ⟨[], none, s, rfl, Lexeme.separator, h.soft, (by rintro (hx | hx) <;> cases hx)⟩
    rw [if_neg h5] at he ⊢
    by_cases h6 : c = 58
    · subst h6; exact ⟨[], none, s, rfl, Lexeme.keySeparator, h.soft, (by rintro (hx | hx) <;> cases hx)⟩
    rw [if_neg h6] at he ⊢
    by_cases h7 : c = 110
    · subst h7
      rw [if_pos rfl] at he ⊢
      obtain ⟨s', rfl⟩ := readLiteral_sound _ (by decide) h he
      exact ⟨_, none, s', rfl, Lexeme.null, (readLiteral_complete _ h).soft, (by rintro (hx | hx) <;> cases hx)⟩
    rw [if_neg h7] at he ⊢
    by_cases h8 : c = 116
    · subst h8
      rw [if_pos rfl] at he ⊢
      obtain ⟨s', rfl⟩ := readLiteral_sound _ (by decide) h he
      exact ⟨_, none, s', rfl, Lexeme.true, (readLiteral_complete _ h).soft, (by rintro (hx | hx) <;> cases hx)⟩
    rw [if_neg h8] at he ⊢
    by_cases h9 : c = 102
    · subst h9
      rw [if_pos rfl] at he ⊢
      obtain ⟨s', rfl⟩ := readLiteral_sound _ (by decide) h he
      exact ⟨_, none, s', rfl, Lexeme.false, (readLiteral_complete _ h).soft, (by rintro (hx | hx) <;> cases hx)⟩
    rw [if_neg h9] at he ⊢
    by_cases h10 : c = 34
    · subst h10
      rw [if_pos rfl] at he ⊢
      obtain ⟨t, v, s', rfl, ht⟩ := readString_sound s.length (Nat.le_refl _) h.reset he
      refine ⟨t ++ [34], some v, s', by simp, (by simpa using Lexeme.string (o := o) t v ht), ?_⟩
      have := readString_complete ht h.reset
      exact ⟨this.soft, (by rintro (hx | hx) <;> cases hx)⟩
    rw [if_neg h10, if_neg hnum] at he
    exact absurd he (Reader.error_err _ _)

theorem lex_sound (h : At o s b r) (he : (lexToken r).2.err = none) :
    ((lexToken r).1 = ⟨.eos, .none⟩ ∧ (lexToken r).2.ok = false ∧ Trailing o s) ∨
    ∃ w a v s', s = w ++ a ++ s' ∧ Sep o w ∧ Lexeme o a (lexToken r).1 v ∧
      Soft o s' (v.getD b) (lexToken r).2 ∧ Follows a (lexToken r).1 s' := by
  unfold lexToken at he ⊢
  rw [if_pos h.ok] at he ⊢
  simp only at he ⊢
  rcases nextChar_sound s.length (Nat.le_refl _) h with ⟨w, s', es, hw, hws, hok, hat⟩ | ⟨h2, h3, ht⟩ | ⟨h2, _⟩
  · by_cases h47 : (nextChar r).1 = 47
    · exfalso
      split at he
      · rw [h47] at he
        exact Reader.error_err _ _ he
      · rename_i hno
        -- a lone '/' leaves the reader usable
        exact hno hok
    · have hat := hat h47
      rw [if_pos hat.ok] at he ⊢
      obtain ⟨a, v, s'', es', hl, hsoft, hfol⟩ := tokenAt_sound hat he
      refine Or.inr ⟨w, (nextChar r).1 :: a, v, s'', ?_, hw, hl, hsoft, hfol⟩
      rw [es, es']; simp
  · rw [if_neg (by simp [h2])] at he ⊢
    exact Or.inl ⟨rfl, h2, ht⟩
  · exfalso
    have hno : (nextChar r).2.ok = false := by
      cases hh : (nextChar r).2.err with
      | none => exact absurd hh h2
      | some e => exact Reader.not_ok_of_err hh
    rw [if_neg (by simp [hno])] at he
    exact h2 he

end Reflect.Json

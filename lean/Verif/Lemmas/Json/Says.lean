import Verif.Lemmas.Json.Keeps
import Verif.Lemmas.Json.Safe
/- Messages are short, but for those about a token. -/
namespace Reflect.Json

variable {r : Reader}

/-- a message that is short, or about a token with a text, and then fits the buffer -/
def Sayable (m : Msg) : Prop :=
  m.text.length ≤ 64 ∨ (m.text.length ≤ 1024 ∧ ∃ t a w, m = .unexpectedToken t (some a) w ∧ m.text.length ≤ a.length + 56)

/-- the error of a reader, if any, is such -/
def Says (r : Reader) : Prop := ∀ e, r.err = some e → Sayable e.msg

theorem Says.same {r' : Reader} (h : Says r) (he : r'.err = r.err) : Says r' := by
  unfold Says; rw [he]; exact h

theorem Says.error (h : Says r) {m : Msg} (hm : Sayable m) : Says (r.error m) := by
  unfold Reader.error
  split
  · exact h
  · intro e he; injection he with he; subst he; exact hm

theorem Says.errorIf (h : Says r) (c : Bool) {m : Msg} (hm : Sayable m) : Says (r.errorIf c m) := by
  unfold Reader.errorIf; split
  · exact h.error hm
  · exact h

theorem sayable_char (c : Byte) : Sayable (.unexpectedChar c) := Or.inl (by
  revert c; apply forall_byte; decide +kernel)
theorem sayable_escape (c : Byte) : Sayable (.unknownEscape c) := Or.inl (by
  revert c; apply forall_byte; decide +kernel)
theorem sayable_hex (c : Byte) : Sayable (.nonHex c) := Or.inl (by
  revert c; apply forall_byte; decide +kernel)
theorem sayable_header (c : Byte) : Sayable (.utf8Header c) := Or.inl (by
  revert c; apply forall_byte; decide +kernel)

theorem Says.pop (h : Says r) : Says r.pop.2 := by
  refine h.same ?_
  unfold Reader.pop; repeat' split
  all_goals rfl
theorem Says.peek (h : Says r) : Says r.peek.2 := by
  refine h.same ?_
  unfold Reader.peek; repeat' split
  all_goals rfl
theorem Says.save (h : Says r) (c : Byte) : Says (r.save c) := h
theorem Says.saveAll (h : Says r) (c : Bytes) : Says (r.saveAll c) := h
theorem Says.reset (h : Says r) : Says r.resetBuffer := h
theorem Says.newline (h : Says r) (c : Byte) : Says (r.countNewline c) := by
  refine h.same ?_
  unfold Reader.countNewline; split <;> rfl

theorem skipComment_says (r : Reader) (h : Says r) : Says (skipComment r) := by
  fun_induction skipComment r with
  | case1 r _ _ => exact h.pop
  | case2 r _ _ ih => exact ih h.pop
  | case3 r _ => exact h

theorem nextChar_says (r : Reader) (h : Says r) : Says (nextChar r).2 := by
  fun_induction nextChar r with
  | case1 r hk c r1 _ ih => exact ih (h.pop.newline _)
  | case2 r hk c r1 _ _ _ ih =>
    exact ih (skipComment_says _ ((h.pop.newline _).peek.errorIf _ (Or.inl (by decide))))
  | case3 r hk c r1 => exact (h.pop.newline _).peek
  | case4 r hk c r1 => exact h.pop.newline _
  | case5 r hk => exact h

theorem readLiteral_says {lit : Bytes} (hl : Sayable (.literal lit)) (l : Bytes) : ∀ r : Reader, Says r → Says (readLiteral lit r l) := by
  induction l with
  | nil => intro r h; exact h
  | cons c l ih =>
    intro r h; unfold readLiteral
    repeat' split
    · exact ih _ h.pop
    · exact h.pop.error hl
    · exact h.error hl

theorem hexLoop_says (n : Nat) : ∀ (r : Reader) (c : Nat), Says r → Says (hexLoop r c n).2.2 := by
  induction n with
  | zero => intro r c h; exact h
  | succ n ih =>
    intro r c h; unfold hexLoop
    repeat' split
    · exact ih _ _ h.pop
    · exact ih _ _ (h.pop.error (sayable_hex _))
    · exact h

theorem rawHexLoop_says (n : Nat) : ∀ (r : Reader), Says r → Says (rawHexLoop r n).2 := by
  induction n with
  | zero => intro r h; exact h
  | succ n ih =>
    intro r h; unfold rawHexLoop
    repeat' split
    · exact ih _ (h.pop.save _)
    · exact ih _ (h.pop.error (sayable_hex _))
    · exact h

theorem readUnicode_says (h : Says r) : Says (readUnicode r) := by
  unfold readUnicode
  split
  · unfold unescapeUnicode
    simp only
    split
    · exact ((hexLoop_says _ _ _ h).errorIf _ (Or.inl (by decide))).saveAll _
    · exact (hexLoop_says _ _ _ h).errorIf _ (Or.inl (by decide))
  · exact (rawHexLoop_says _ _ (h.saveAll _)).errorIf _ (Or.inl (by decide))

theorem contLoop_says (n : Nat) : ∀ (r : Reader) (c : Nat), Says r → Says (contLoop r c n).2 := by
  induction n with
  | zero => intro r c h; exact h
  | succ n ih =>
    intro r c h; unfold contLoop; split
    · exact ih _ _ ((h.pop.save _).errorIf _ (Or.inl (by decide)))
    · exact h

theorem validate_says (h : Says r) (c : Byte) : Says (validateUnicode r c) := by
  unfold validateUnicode
  split
  · exact Says.same ((h.save c).error (sayable_header c)) rfl
  · exact (contLoop_says _ _ _ ((h.save c).errorIf _ (sayable_header c))).errorIf _ (Or.inl (by decide))

theorem readStringLoop_says (r : Reader) (h : Says r) : Says (readStringLoop r) := by
  fun_induction readStringLoop r with
  | case1 r hk c r1 _ ih => exact ih (h.pop.error (Or.inl (by decide)))
  | case2 r hk c r1 _ _ ih => exact ih (validate_says h.pop _)
  | case3 r hk c r1 => exact h.pop
  | case4 r hk c r1 _ _ _ hc _ ih => exact ih (readUnicode_says h.pop.pop)
  | case5 r hk c r1 _ _ _ hc _ _ _ ih => exact ih (h.pop.pop.save _)
  | case6 r hk c r1 _ _ _ hc => exact h.pop.pop.error (sayable_escape _)
  | case7 r hk c r1 _ _ _ _ ih => exact ih (h.pop.save _)
  | case8 r hk => exact h.error (Or.inl (by decide))

theorem tokenAt_says (h : Says r) (c : Byte) : Says (tokenAt r c).2 := by
  unfold tokenAt
  repeat' split
  all_goals first
    | exact h
    | exact readLiteral_says (Or.inl (by decide)) _ _ h
    | exact Says.same (r' := (readNumber r c).2) h (readNumber_err r c)
    | exact h.error (sayable_char _)
    | exact readStringLoop_says _ h.reset

theorem lexToken_says (h : Says r) : Says (lexToken r).2 := by
  unfold lexToken
  repeat' split
  · simp only
    split
    · exact tokenAt_says (nextChar_says _ h) _
    · exact nextChar_says _ h
  · exact h

/-- a token with a text is a string, a number or a truth value -/
def Spoken (t : Token) : Prop := t.val ≠ .none → t.type = .string ∨ t.type = .int ∨ t.type = .float ∨ t.type = .bool

theorem readNumber_type (r : Reader) (c : Byte) : (readNumber r c).1 = .int ∨ (readNumber r c).1 = .float := by
  unfold readNumber
  simp only
  repeat' split
  all_goals simp

theorem tokenAt_spoken (r : Reader) (c : Byte) : Spoken (tokenAt r c).1 := by
  unfold tokenAt
  repeat' split
  all_goals first
    | (intro h; exact absurd rfl h)
    | exact fun _ => Or.inr (Or.inr (Or.inr rfl))
    | exact fun _ => Or.inl rfl
    | exact fun _ => (readNumber_type _ _).elim (fun h => Or.inr (Or.inl h)) (fun h => Or.inr (Or.inr (Or.inl h)))

theorem lexToken_spoken (r : Reader) : Spoken (lexToken r).1 := by
  unfold lexToken
  repeat' split
  · simp only
    split
    · exact tokenAt_spoken _ _
    · intro h; exact absurd rfl h
  · intro h; exact absurd rfl h

/-- what parsing keeps -/
def Talks (r : Reader) : Prop := Says r ∧ Spoken r.tok

theorem checked_keeps {p : Token × Reader} {P : Token × Reader → Prop} (h : P p) : Keeps (Reader.checked p) P := by
  unfold Reader.checked; split
  · exact Keeps.err
  · exact Keeps.ok h

theorem tok_of_lex (r : Reader) : (lexToken r).2.tok = r.tok := (lexToken_step r).tok

theorem length_cstr_le (s : Bytes) : (cstr s).length ≤ s.length := (List.takeWhile_sublist _).length_le

theorem print_le6 (t : TokType) : t.print.length ≤ 6 := by cases t <;> decide

theorem unexpected_length (t : TokType) (x : Option Bytes) (w : TokType) :
    (Msg.unexpectedToken t x w).text.length ≤ 33 + (printToken t x).length + w.print.length := by
  have h1 := length_cstr_le (printToken t x)
  have e1 : (ascii "unexpected token <").length = 18 := by decide
  have e2 : (ascii ">, expecting <").length = 14 := by decide
  have e3 : (ascii ">").length = 1 := by decide
  unfold Msg.text
  simp only [List.length_append, e1, e2, e3]
  omega

theorem unexpected_sayable {r : Reader} {t : Token} {w : TokType} (ht : t.type ≠ w) (he : r.err = none)
    (h : r.mayAssert t w = .ok ()) : Sayable (.unexpectedToken t.type (t.text r) w) := by
  have e1 : (ascii "<Token ").length = 7 := by decide
  have e2 : (ascii ">").length = 1 := by decide
  have e3 : (ascii ": ").length = 2 := by decide
  have hfit : (Msg.unexpectedToken t.type (t.text r) w).text.length ≤ 1024 := by
    apply Nat.le_of_not_lt
    intro hl
    unfold Reader.mayAssert at h
    rw [if_neg ht, format_long he hl] at h
    cases h
  have hl := unexpected_length t.type (t.text r) w
  cases hx : t.text r with
  | none =>
    rw [hx] at hl
    have h1 := print_le6 t.type
    have h2 := print_le6 w
    refine Or.inl (Nat.le_trans hl ?_)
    unfold printToken
    simp only [List.length_append, e1, e2, List.append_nil]
    omega
  | some a =>
    rw [hx] at hl hfit
    refine Or.inr ⟨hfit, t.type, a, w, rfl, Nat.le_trans hl ?_⟩
    have h1 : t.type.print.length + w.print.length ≤ 11 := by
      generalize t.type = q at ht
      revert ht
      cases q <;> cases w <;> decide
    unfold printToken
    simp only [List.length_append, e1, e2, e3]
    omega

theorem talks_kept : KeepsAll Talks where
  next := by
    intro r h
    unfold Reader.nextToken
    split
    · exact checked_keeps ⟨lexToken_says h.1, by rw [tok_of_lex]; exact h.2⟩
    · exact Keeps.ok ⟨h.1, fun h => absurd rfl h⟩
  peek := by
    intro r h
    unfold Reader.peekToken
    split
    · refine Keeps.bind (checked_keeps (P := fun p => Says p.2 ∧ Spoken p.1) ⟨lexToken_says h.1, lexToken_spoken r⟩) fun p _ hp => ?_
      exact Keeps.ok ⟨hp.1, hp.2⟩
    · exact Keeps.ok h
  assert := by
    intro r r' p w h _ hm
    unfold Reader.assertToken
    split
    · exact h
    · rename_i ht
      refine ⟨?_, ?_⟩
      · cases he : r'.err with
        | some e => rw [Reader.error_of_err he]; exact h.1
        | none => exact h.1.error (unexpected_sayable ht he hm)
      · unfold Reader.error; split <;> exact h.2
  unknown := by
    intro r p h hp h1 h2 h3 h4 h5
    have hs : Talks p.2 ∧ Spoken p.1 := by
      unfold Reader.peekToken at hp
      split at hp
      · have : Keeps (Reader.checked (lexToken r) >>= fun p => (.ok (p.1, { p.2 with tok := p.1 }) : Res (Token × Reader)))
            (fun p => Talks p.2 ∧ Spoken p.1) :=
          Keeps.bind (checked_keeps (P := fun p => Says p.2 ∧ Spoken p.1) ⟨lexToken_says h.1, lexToken_spoken r⟩)
            fun p _ hp => Keeps.ok ⟨⟨hp.1, hp.2⟩, hp.2⟩
        exact this p hp
      · injection hp with hp; subst hp; exact ⟨h, h.2⟩
    have hnone : p.1.text p.2 = none := by
      have : p.1.val = .none := by
        apply Classical.byContradiction
        intro hv
        rcases hs.2 hv with h | h | h | h
        · exact h5 h
        · exact h3 h
        · exact h4 h
        · exact h2 h
      unfold Token.text; rw [this]
    rw [hnone]
    refine ⟨hs.1.1.error (Or.inl ?_), ?_⟩
    · generalize p.1.type = t
      cases t <;> decide
    · unfold Reader.error; split <;> exact hs.1.2

end Reflect.Json

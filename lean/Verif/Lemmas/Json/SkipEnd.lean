import Verif.Lemmas.Json.NumEnd
import Verif.Lemmas.Json.All
/- Skipping a document that ends the text. -/
namespace Reflect.Json

variable {o : ROpts} {s y b : Bytes} {r : Reader} {t : Token} {v : Option Bytes} {ts : List Tok}

/-- After a token other than a number, no stream bit is set, even at the end. -/
theorem tokenAt_plain {a : Bytes} {c : Byte} (hl : Lexeme o (c :: a) t v) (ht : ¬ (t.type = .int ∨ t.type = .float))
    (h : At o (a ++ s) b r) : (tokenAt r c).2.ok = true := by
  cases hl with
  | objectStart => exact h.ok
  | objectEnd => exact h.ok
  | arrayStart => exact h.ok
  | arrayEnd => exact h.ok
  | separator => exact h.ok
  | keySeparator => exact h.ok
  | null => exact (readLiteral_complete _ h).ok
  | true => exact (readLiteral_complete _ h).ok
  | false => exact (readLiteral_complete _ h).ok
  | string u v hb =>
    have h' : At o (u ++ 34 :: s) b r := by
      have e : (u.append [34]) ++ s = u ++ 34 :: s := by
        change (u ++ [34]) ++ s = _
        simp
      exact e ▸ h
    exact (readString_complete hb h'.reset).ok
  | int _ hi => exact absurd (Or.inl rfl) ht
  | float _ hi => exact absurd (Or.inr rfl) ht

theorem lex_plain_end (h : Ready o s r) (hr : Reads o s ((t, v) :: ts) y) (ht : ¬ (t.type = .int ∨ t.type = .float)) :
    (lexToken r).2.ok = true := by
  obtain ⟨b, h⟩ := h
  have hat := h.at (reads_ne_nil hr)
  obtain ⟨w, a, s', rfl, h1, h3, h4, h5⟩ := reads_cons_inv hr
  obtain ⟨c, a', rfl, hc1, hc2⟩ := lexeme_head h3
  simp only [List.append_assoc, List.cons_append] at hat
  have hnc := nextChar_complete h1 hc1 hc2 hat
  unfold lexToken
  rw [if_pos hat.ok]
  simp only
  rw [if_pos hnc.2.ok, hnc.1]
  exact tokenAt_plain h3 ht hnc.2

theorem lex_last (p : Tok) (h : Ready o s r) (hr : Reads o s [p] []) :
    (lexToken r).2.ok = false ↔ ∃ k, p.2 = some k ∧ (p.1.type = .int ∨ p.1.type = .float) ∧ NoExp k := by
  obtain ⟨t, v⟩ := p
  by_cases ht : t.type = .int ∨ t.type = .float
  · obtain ⟨w, a, s', e, h1, h3, h4, h5⟩ := reads_cons_inv hr
    have : ∃ k, v = some k := by
      cases h3 with
      | int => exact ⟨_, rfl⟩
      | float => exact ⟨_, rfl⟩
      | string => rcases ht with ht | ht <;> cases ht
      | _ => rcases ht with ht | ht <;> cases ht
    obtain ⟨k, rfl⟩ := this
    rw [lex_number_end h hr ht]
    constructor
    · intro hn; exact ⟨k, rfl, ht, hn⟩
    · rintro ⟨k', e, _, hn⟩; injection e with e; exact e ▸ hn
  · rw [lex_plain_end h hr ht]
    constructor
    · intro h; cases h
    · rintro ⟨_, _, h, _⟩; exact absurd h ht

/-- Peeking at the only token left. -/
theorem peek_end {p : Tok} (h : Ready o s r) (hr : Reads o s [p] []) :
    ∃ r1, r.peekToken = .ok (p.1, r1) ∧ Ahead o p.1 p.2 [] r1 ∧
      (r1.ok = false ↔ ∃ k, p.2 = some k ∧ (p.1.type = .int ∨ p.1.type = .float) ∧ NoExp k) := by
  obtain ⟨t, v⟩ := p
  obtain ⟨e1, e2, e3, e4, s', hs, hr', hx⟩ := lex_ready h hr
  have := reads_nil_inv hr'
  subst this
  refine ⟨{ (lexToken r).2 with tok := (lexToken r).1 }, ?_, ⟨e1, e4, hx, ?_⟩, ?_⟩
  · unfold Reader.peekToken
    rw [if_pos e3]
    unfold Reader.checked
    rw [e2, ← e1]; rfl
  · have : ({ ({ (lexToken r).2 with tok := (lexToken r).1 } : Reader) with tok := ⟨.noToken, .none⟩ } : Reader)
      = (lexToken r).2 := by
      have := hs.tok
      cases hq : (lexToken r).2 with
      | mk a1 a2 a3 a4 a5 a6 a7 a8 a9 a10 => rw [hq] at this; simp at this; simp [this]
    rw [this]
    exact hs
  · exact lex_last (t, v) h hr

/-- Skipping the only token left, when it is a document of its own: a number without exponent stays where it is. -/
theorem skip_end (n : Nat) (p : Tok)
    (hp : p.1.type = .null ∨ p.1.type = .bool ∨ p.1.type = .int ∨ p.1.type = .float ∨ p.1.type = .string)
    (h : Ready o s r) (hr : Reads o s [p] []) :
    ∃ r', skip (n + 1) r = .ok r' ∧
      (((∃ k, p.2 = some k ∧ (p.1.type = .int ∨ p.1.type = .float) ∧ NoExp k) ∧ Ahead o p.1 p.2 [] r') ∨
       ((¬ ∃ k, p.2 = some k ∧ (p.1.type = .int ∨ p.1.type = .float) ∧ NoExp k) ∧ FedR o [] [] r')) := by
  obtain ⟨r1, h1, h2, h3⟩ := peek_end h hr
  cases hok : r1.ok with
  | false =>
    refine ⟨r1, ?_, Or.inl ⟨h3.mp hok, h2⟩⟩
    unfold skip
    rw [h1]
    show (if r1.ok = true then _ else _) = _
    rw [hok, if_neg (by simp)]
  | true =>
    have e : r1.nextToken = .ok (p.1, { r1 with tok := ⟨.noToken, .none⟩ }) := by
      unfold Reader.nextToken
      rw [if_neg (by rw [h2.tok]; exact h2.type), h2.tok]
    refine ⟨{ r1 with tok := ⟨.noToken, .none⟩ }, ?_, Or.inr ⟨fun hk => ?_, [], ⟨_, h2.soft⟩, Reads.nil _⟩⟩
    · unfold skip
      rw [h1]
      show (if r1.ok = true then _ else _) = _
      rw [if_pos hok]
      rcases hp with hp | hp | hp | hp | hp <;>
      · show (match p.1.type with | _ => _) = _
        rw [hp]
        show (r1.nextToken >>= _) = _
        rw [e]; rfl
    · have := h3.mpr hk
      rw [hok] at this; cases this

theorem readAll_ahead {p : Tok} (hr : Reads o s [p] []) (h : Ahead o p.1 p.2 [] r) :
    ∃ r', readAll 2 r = .ok ([p], r') ∧ r'.err = none := by
  obtain ⟨t, v⟩ := p
  obtain ⟨w, a, s', _, _, hl, _, _⟩ := reads_cons_inv hr
  have hne := (lexeme_type hl).2
  obtain ⟨r1, e1, e2, e3⟩ := Fed.next (y := []) (ts := []) (Or.inr ⟨t, v, [], [], rfl, h, Reads.nil _⟩)
  obtain ⟨r', e4, e5⟩ := readAll_complete [] r1 [] e2 ⟨[], Sep.nil, Or.inl rfl⟩
  refine ⟨r', ?_, e5⟩
  rw [readAll, e1, okb, if_neg hne]
  have e4' : readAll 1 r1 = .ok ([], r') := e4
  rw [e4', okb, tokText_eq hl e3]

end Reflect.Json

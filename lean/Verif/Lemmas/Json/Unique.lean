import Verif.Lemmas.Json.Sound
/- A text is the text of one document only, and no document's text starts with another one's. -/
namespace Reflect.Json

variable {o : ROpts} {s y b : Bytes} {r : Reader} {t : Token} {v : Option Bytes} {ts : List Tok}

theorem reads_first {t' : Token} {v' : Option Bytes} {ts' : List Tok} {y' : Bytes} (h : Reads o s ((t, v) :: ts) y)
    (h' : Reads o s ((t', v') :: ts') y') : (t, v) = (t', v') ∧ ∃ s1, Reads o s1 ts y ∧ Reads o s1 ts' y' := by
  have hat := (At.open o s)
  obtain ⟨e1, _, _, _, s1, hs1, hr1, hx1⟩ := lex_ready (r := Reader.open o s) ⟨[], hat.soft⟩ h
  obtain ⟨e2, _, _, _, s2, hs2, hr2, hx2⟩ := lex_ready (r := Reader.open o s) ⟨[], hat.soft⟩ h'
  have ett : t' = t := e2.symm.trans e1
  have ess : s1 = s2 := hs1.rest.symm.trans hs2.rest
  subst ett; subst ess
  obtain ⟨_, _, _, _, _, hl, _, _⟩ := reads_cons_inv h
  obtain ⟨_, _, _, _, _, hl', _, _⟩ := reads_cons_inv h'
  have evv : v' = v := (tokText_eq hl' hx2).symm.trans (tokText_eq hl hx1)
  subst evv
  exact ⟨rfl, s1, hr1, hr2⟩

/-- of two readings of a text, one goes further than the other -/
theorem reads_compare : ∀ {ts ts' : List Tok} {s y y' : Bytes}, Reads o s ts y → Reads o s ts' y' →
    (∃ l, ts' = ts ++ l ∧ Reads o y l y') ∨ (∃ l, ts = ts' ++ l ∧ Reads o y' l y) := by
  intro ts
  induction ts with
  | nil =>
    intro ts' s y y' h h'
    have := reads_nil_inv h
    subst this
    exact Or.inl ⟨ts', rfl, h'⟩
  | cons p ts ih =>
    intro ts' s y y' h h'
    cases ts' with
    | nil =>
      have := reads_nil_inv h'
      subst this
      exact Or.inr ⟨p :: ts, rfl, h⟩
    | cons p' ts' =>
      obtain ⟨t, v⟩ := p
      obtain ⟨t', v'⟩ := p'
      obtain ⟨e, s1, h1, h2⟩ := reads_first h h'
      rw [e]
      rcases ih h1 h2 with ⟨l, e1, e2⟩ | ⟨l, e1, e2⟩
      · exact Or.inl ⟨l, by rw [e1]; rfl, e2⟩
      · exact Or.inr ⟨l, by rw [e1]; rfl, e2⟩

theorem commas_cons (x : List Tok) (xs : List (List Tok)) :
    commas (x :: xs) = x ++ (if xs = [] then [] else Tok.comma :: commas xs) := by
  cases xs with
  | nil => simp [commas]
  | cons a l => simp [commas]

theorem elems_nil {xs : List JTree} : JTree.elems xs = [] ↔ xs = [] := by cases xs <;> simp [JTree.elems]
theorem members_nil {xs : List (Bytes × JTree)} : JTree.members xs = [] ↔ xs = [] := by
  cases xs with
  | nil => simp [JTree.members]
  | cons p l => obtain ⟨k, x⟩ := p; simp [JTree.members]

mutual
theorem toks_prefix : ∀ (x x' : JTree) (ts ts' : List Tok), x.toks ++ ts = x'.toks ++ ts' → x = x' ∧ ts = ts'
  | .null, x', ts, ts', h => by
    cases x' <;> simp [JTree.toks, Tok.null, Tok.bool, Tok.int, Tok.float, Tok.str, Tok.lbrack, Tok.lbrace] at h
    exact ⟨rfl, h⟩
  | .bool b, x', ts, ts', h => by
    cases x' <;> simp [JTree.toks, Tok.null, Tok.bool, Tok.int, Tok.float, Tok.str, Tok.lbrack, Tok.lbrace] at h
    exact ⟨by rw [h.1], h.2⟩
  | .int b, x', ts, ts', h => by
    cases x' <;> simp [JTree.toks, Tok.null, Tok.bool, Tok.int, Tok.float, Tok.str, Tok.lbrack, Tok.lbrace] at h
    exact ⟨by rw [h.1], h.2⟩
  | .float b, x', ts, ts', h => by
    cases x' <;> simp [JTree.toks, Tok.null, Tok.bool, Tok.int, Tok.float, Tok.str, Tok.lbrack, Tok.lbrace] at h
    exact ⟨by rw [h.1], h.2⟩
  | .str b, x', ts, ts', h => by
    cases x' <;> simp [JTree.toks, Tok.null, Tok.bool, Tok.int, Tok.float, Tok.str, Tok.lbrack, Tok.lbrace] at h
    exact ⟨by rw [h.1], h.2⟩
  | .arr xs, x', ts, ts', h => by
    cases x' with
    | arr xs' =>
      simp only [JTree.toks, List.cons_append, List.append_assoc, List.nil_append, List.cons.injEq, true_and] at h
      obtain ⟨h1, h2⟩ := elems_prefix xs xs' ts ts' h
      exact ⟨by rw [h1], h2⟩
    | _ => simp [JTree.toks, Tok.null, Tok.bool, Tok.int, Tok.float, Tok.str, Tok.lbrack, Tok.lbrace] at h
  | .obj xs, x', ts, ts', h => by
    cases x' with
    | obj xs' =>
      simp only [JTree.toks, List.cons_append, List.append_assoc, List.nil_append, List.cons.injEq, true_and] at h
      obtain ⟨h1, h2⟩ := members_prefix xs xs' ts ts' h
      exact ⟨by rw [h1], h2⟩
    | _ => simp [JTree.toks, Tok.null, Tok.bool, Tok.int, Tok.float, Tok.str, Tok.lbrack, Tok.lbrace] at h
theorem elems_prefix : ∀ (xs xs' : List JTree) (ts ts' : List Tok), commas (JTree.elems xs) ++ Tok.rbrack :: ts =
    commas (JTree.elems xs') ++ Tok.rbrack :: ts' → xs = xs' ∧ ts = ts'
  | [], [], ts, ts', h => by simpa [JTree.elems, commas] using h
  | [], x' :: xs', ts, ts', h => by
    exfalso
    obtain ⟨p, l, e, hp⟩ := toks_head x'
    simp only [JTree.elems, commas_cons, e, commas, List.nil_append, List.cons_append, List.cons.injEq] at h
    rw [← h.1] at hp
    exact hp rfl
  | x :: xs, [], ts, ts', h => by
    exfalso
    obtain ⟨p, l, e, hp⟩ := toks_head x
    simp only [JTree.elems, commas_cons, e, commas, List.nil_append, List.cons_append, List.cons.injEq] at h
    rw [h.1] at hp
    exact hp rfl
  | x :: xs, x' :: xs', ts, ts', h => by
    simp only [JTree.elems, commas_cons, List.append_assoc] at h
    obtain ⟨h1, h2⟩ := toks_prefix x x' _ _ h
    by_cases e1 : xs = []
    · by_cases e2 : xs' = []
      · subst e1; subst e2
        simp [JTree.elems] at h2
        exact ⟨by rw [h1], h2⟩
      · rw [if_pos (elems_nil.mpr e1), if_neg (by rw [elems_nil]; exact e2)] at h2
        simp [Tok.rbrack, Tok.comma] at h2
    · by_cases e2 : xs' = []
      · rw [if_neg (by rw [elems_nil]; exact e1), if_pos (elems_nil.mpr e2)] at h2
        simp [Tok.rbrack, Tok.comma] at h2
      · rw [if_neg (by rw [elems_nil]; exact e1), if_neg (by rw [elems_nil]; exact e2)] at h2
        simp only [List.cons_append, List.cons.injEq, true_and] at h2
        obtain ⟨h3, h4⟩ := elems_prefix xs xs' ts ts' h2
        exact ⟨by rw [h1, h3], h4⟩
theorem members_prefix : ∀ (xs xs' : List (Bytes × JTree)) (ts ts' : List Tok), commas (JTree.members xs) ++ Tok.rbrace :: ts =
    commas (JTree.members xs') ++ Tok.rbrace :: ts' → xs = xs' ∧ ts = ts'
  | [], [], ts, ts', h => by simpa [JTree.members, commas] using h
  | [], (k, x') :: xs', ts, ts', h => by
    exfalso
    simp [JTree.members, commas_cons, commas, Tok.str, Tok.rbrace] at h
  | (k, x) :: xs, [], ts, ts', h => by
    exfalso
    simp [JTree.members, commas_cons, commas, Tok.str, Tok.rbrace] at h
  | (k, x) :: xs, (k', x') :: xs', ts, ts', h => by
    simp only [JTree.members, commas_cons, List.append_assoc, List.cons_append, List.cons.injEq, true_and] at h
    obtain ⟨hk, h⟩ := h
    obtain ⟨h1, h2⟩ := toks_prefix x x' _ _ h
    have hk' : k = k' := by simpa [Tok.str] using hk
    by_cases e1 : xs = []
    · by_cases e2 : xs' = []
      · subst e1; subst e2
        simp [JTree.members] at h2
        exact ⟨by rw [h1, hk'], h2⟩
      · rw [if_pos (members_nil.mpr e1), if_neg (by rw [members_nil]; exact e2)] at h2
        simp [Tok.rbrace, Tok.comma] at h2
    · by_cases e2 : xs' = []
      · rw [if_neg (by rw [members_nil]; exact e1), if_pos (members_nil.mpr e2)] at h2
        simp [Tok.rbrace, Tok.comma] at h2
      · rw [if_neg (by rw [members_nil]; exact e1), if_neg (by rw [members_nil]; exact e2)] at h2
        simp only [List.cons_append, List.cons.injEq, true_and] at h2
        obtain ⟨h3, h4⟩ := members_prefix xs xs' ts ts' h2
        exact ⟨by rw [h1, h3, hk'], h4⟩
end

/-- A text starts with one document only. -/
theorem reads_tree_unique {x x' : JTree} {y' : Bytes} (h : Reads o s x.toks y) (h' : Reads o s x'.toks y') : x = x' ∧ y = y' := by
  rcases reads_compare h h' with ⟨l, e1, e2⟩ | ⟨l, e1, e2⟩
  · obtain ⟨g1, g2⟩ := toks_prefix x' x [] l (by simpa using e1)
    subst g2
    exact ⟨g1.symm, reads_nil_inv e2⟩
  · obtain ⟨g1, g2⟩ := toks_prefix x x' [] l (by simpa using e1)
    subst g2
    exact ⟨g1, (reads_nil_inv e2).symm⟩

/-- whether the last token is a number -/
def endsNum (ts : List Tok) : Prop := ∃ p, ts.getLast? = some p ∧ (p.1.type = .int ∨ p.1.type = .float)

/-- What follows a reading does not matter, unless it could continue a number. -/
theorem reads_more {z : Bytes} : ∀ {ts : List Tok} {s y : Bytes}, Reads o s ts y → (y ≠ [] ∨ ¬ endsNum ts) →
    Reads o (s ++ z) ts (y ++ z) := by
  intro ts
  induction ts with
  | nil => intro s y h _; rw [reads_nil_inv h]; exact Reads.nil _
  | cons p ts ih =>
    intro s y h hy
    obtain ⟨t, v⟩ := p
    obtain ⟨w, a, s', rfl, h1, h2, h3, h4⟩ := reads_cons_inv h
    have h5 : Reads o (s' ++ z) ts (y ++ z) := by
      apply ih h4
      rcases hy with hy | hy
      · exact Or.inl hy
      · refine Or.inr fun ⟨p, hp, hn⟩ => hy ⟨p, ?_, hn⟩
        rw [List.getLast?_cons, hp]; rfl
    have hf : Follows a t (s' ++ z) := by
      intro ht c hc
      by_cases hs' : s' = []
      · exfalso
        subst hs'
        have hts : ts = [] := by
          cases ts with
          | nil => rfl
          | cons q l => exact absurd rfl (reads_ne_nil h4)
        subst hts
        have := reads_nil_inv h4
        subst this
        rcases hy with hy | hy
        · exact hy rfl
        · exact hy ⟨(t, v), rfl, ht⟩
      · refine h3 ht c ?_
        cases s' with
        | nil => exact absurd rfl hs'
        | cons d l => simpa using hc
    have := Reads.cons w a (s' ++ z) (y ++ z) t v ts h1 h2 hf h5
    simpa [List.append_assoc] using this

/-- a number is told from its first byte -/
theorem lexeme_num {a : Bytes} {c : Byte} (h : Lexeme o (c :: a) t v) :
    (t.type = .int ∨ t.type = .float) ↔ (c = 45 ∨ isDigit c = true) := by
  have hi : ∀ l, IntText l → ∃ d l', l = d :: l' ∧ (d = 45 ∨ isDigit d = true) := by
    rintro l ⟨d, ds, rfl, h, _⟩
    refine ⟨d, ds, rfl, h.imp id fun h => (isDigit_iff d).mpr (h d (by simp))⟩
  generalize e : c :: a = x at h
  cases h with
  | int s h =>
    obtain ⟨d, l, rfl, hd⟩ := hi _ h
    injection e with e1 e2
    subst e1
    exact ⟨fun _ => hd, fun _ => Or.inl rfl⟩
  | float s h =>
    obtain ⟨i, f, z, rfl, h, _⟩ := h
    obtain ⟨d, l, rfl, hd⟩ := hi _ h
    injection e with e1 e2
    subst e1
    exact ⟨fun _ => hd, fun _ => Or.inr rfl⟩
  | _ =>
    injection e with e1 e2
    subst e1
    constructor
    · intro h; rcases h with h | h <;> cases h
    · intro h; revert h; decide

/-- a text that starts with a number goes on starting with a number -/
theorem reads_num_more {z : Bytes} {t' : Token} {v' : Option Bytes} {ts' : List Tok} {y' : Bytes} (h : Reads o s ((t, v) :: ts) y)
    (h' : Reads o (s ++ z) ((t', v') :: ts') y') (ht : t.type = .int ∨ t.type = .float) : t'.type = .int ∨ t'.type = .float := by
  obtain ⟨w, a, s1, rfl, h1, h2, _, _⟩ := reads_cons_inv h
  obtain ⟨w', a', s1', e, h1', h2', _, _⟩ := reads_cons_inv h'
  obtain ⟨c, a, rfl, g1, g2⟩ := lexeme_head h2
  obtain ⟨c', a', rfl, g1', g2'⟩ := lexeme_head h2'
  have e1 := (nextChar_complete h1 g1 g2 (b := []) (s := a ++ s1 ++ z) (by
    have := At.open o (w ++ c :: (a ++ s1 ++ z)); exact this)).1
  have e2 := (nextChar_complete h1' g1' g2' (b := []) (s := a' ++ s1') (by
    have := At.open o (w' ++ c' :: (a' ++ s1')); exact this)).1
  have e3 : w ++ c :: (a ++ s1 ++ z) = w' ++ c' :: (a' ++ s1') := by
    simpa [List.append_assoc] using e
  rw [e3, e2] at e1
  subst e1
  exact (lexeme_num h2').mpr ((lexeme_num h2).mp ht)

end Reflect.Json

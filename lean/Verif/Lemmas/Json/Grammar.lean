import Verif.Spec.JsonGrammar
import Verif.Spec.JsonText
import Verif.Lemmas.Json.All
/- JSON texts as the reader sees them. -/
namespace Reflect.Json

variable {o : ROpts}

theorem ws_sep {w : Bytes} (h : Ws w) : Sep o w := by
  induction w with
  | nil => exact Sep.nil
  | cons c w ih =>
    refine Sep.ws c w ?_ (ih (fun x hx => h x (by simp [hx])))
    have := h c (by simp)
    simp only [wsBytes, List.mem_cons, List.not_mem_nil, or_false]
    rcases this with h | h | h | h <;> simp [h]

theorem stops_cons {c : Byte} {y : Bytes} (h : c ∉ numCont) : Stops (c :: y) := by
  intro d hd
  simp at hd
  rw [← hd]; exact h

theorem stops_ws {w y : Bytes} (h : Ws w) (hy : Stops y) : Stops (w ++ y) := by
  cases w with
  | nil => exact hy
  | cons c w =>
    refine stops_cons ?_
    rcases h c (by simp) with h | h | h | h <;> rw [h] <;> decide

theorem stops_nil : Stops [] := by intro c hc; cases hc

theorem intGram_text {s : Bytes} (h : IntGram s) : IntText s := by
  obtain ⟨sg, c, ds, rfl, hsg, hd, _⟩ := h
  rcases hsg with rfl | rfl
  · exact ⟨c, ds, rfl, Or.inr (fun x hx => hd x (by simp at hx; simp [hx])), fun x hx => hd x (by simp [hx])⟩
  · exact ⟨45, c :: ds, rfl, Or.inl rfl, hd⟩

theorem floatGram_text {s : Bytes} (h : FloatGram s) : FloatText s := by
  obtain ⟨i, f, x, rfl, hi, hf, hx, hne⟩ := h
  refine ⟨i, f, x, rfl, intGram_text hi, ?_, ?_, hne⟩
  · rcases hf with hf | ⟨ds, h1, _, h2⟩
    · exact Or.inl hf
    · exact Or.inr ⟨ds, h1, h2⟩
  · rcases hx with hx | ⟨e, sg, ds, h1, h2, h3, _, h4⟩
    · exact Or.inl hx
    · exact Or.inr ⟨e, sg, ds, h1, h2, h3, h4⟩

theorem stops_follows {a y : Bytes} {t : Token} (h : Stops y) : Follows a t y := by
  apply follows_of_not_num
  intro c hc
  have := h c hc
  simp only [numCont, List.mem_cons, List.not_mem_nil, or_false, not_or] at this
  obtain ⟨h0, h1, h2, h3, h4, h5, h6, h7, h8, h9, h10, h11, h12, h13, h14⟩ := this
  have hd : ∀ c : Byte, 48 ≤ c.toNat → c.toNat ≤ 57 → c = 48 ∨ c = 49 ∨ c = 50 ∨ c = 51 ∨ c = 52 ∨ c = 53 ∨ c = 54 ∨
      c = 55 ∨ c = 56 ∨ c = 57 := by
    apply forall_byte; decide +kernel
  rintro (⟨hh1, hh2⟩ | hh)
  · rcases hd c hh1 hh2 with hh | hh | hh | hh | hh | hh | hh | hh | hh | hh <;> contradiction
  · rcases hh with hh | hh | hh | hh | hh <;> contradiction

theorem reads_lead {w s z : Bytes} {p : Tok} {ts : List Tok} (hw : Sep o w) (h : Reads o s (p :: ts) z) :
    Reads o (w ++ s) (p :: ts) z := by
  obtain ⟨t, v⟩ := p
  obtain ⟨w2, a, s', rfl, h1, h2, h3, h4⟩ := reads_cons_inv h
  have := Reads.cons (w ++ w2) a s' z t v ts (sep_append hw h1) h2 h3 h4
  simpa [List.append_assoc] using this

theorem reads_lead' {w s z : Bytes} {ts : List Tok} (hw : Sep o w) (hne : ts ≠ []) (h : Reads o s ts z) :
    Reads o (w ++ s) ts z := by
  cases ts with
  | nil => exact absurd rfl hne
  | cons p ts => exact reads_lead hw h

/-- one lexeme, with nothing before it -/
theorem reads_one {a y z : Bytes} {t : Token} {v : Option Bytes} {ts : List Tok} (h : Lexeme o a t v)
    (hf : Follows a t y) (hr : Reads o y ts z) : Reads o (a ++ y) ((t, v) :: ts) z := by
  have := Reads.cons [] a y z t v ts Sep.nil h hf hr
  simpa using this

/-- only numbers care about what follows them -/
theorem follows_other {a y : Bytes} {t : Token} (h : t.type ≠ .int ∧ t.type ≠ .float) : Follows a t y := by
  intro hh; rcases hh with hh | hh
  · exact absurd hh h.1
  · exact absurd hh h.2

variable {Str : Bytes → Bytes → Prop}

mutual
theorem gram_reads (hS : ∀ m t, Str m t → StrBody o t m) : ∀ {x : JTree} {s : Bytes}, Gram Str x s →
    ∀ (y : Bytes) (ts : List Tok) (z : Bytes), Stops y → Reads o y ts z → Reads o (s ++ y) (x.toks ++ ts) z
  | _, _, .null, y, ts, z, hy, h => reads_one Lexeme.null (stops_follows hy) h
  | _, _, .true, y, ts, z, hy, h => reads_one Lexeme.true (stops_follows hy) h
  | _, _, .false, y, ts, z, hy, h => reads_one Lexeme.false (stops_follows hy) h
  | _, _, .int s hs, y, ts, z, hy, h => reads_one (Lexeme.int s (intGram_text hs)) (stops_follows hy) h
  | _, _, .float s hs, y, ts, z, hy, h => reads_one (Lexeme.float s (floatGram_text hs)) (stops_follows hy) h
  | _, _, .str m t ht, y, ts, z, hy, h => reads_one (Lexeme.string t m (hS m t ht)) (stops_follows hy) h
  | _, _, .arrNil w hw, y, ts, z, hy, h => by
    have h1 := reads_one (o := o) Lexeme.arrayEnd (stops_follows hy) h
    have h2 := reads_lead (ws_sep hw) h1
    have h3 := reads_one (o := o) Lexeme.arrayStart (follows_other (by decide)) h2
    simpa [JTree.toks, JTree.elems, commas, Tok.lbrack, Tok.rbrack] using h3
  | _, _, .arr xs s hs, y, ts, z, hy, h => by
    have h1 := reads_one (o := o) Lexeme.arrayEnd (stops_follows hy) h
    have h2 := elems_reads hS hs _ _ _ (stops_cons (by decide)) (by simp) h1
    have h3 := reads_one (o := o) Lexeme.arrayStart (follows_other (by decide)) h2
    simpa [JTree.toks, Tok.lbrack, Tok.rbrack] using h3
  | _, _, .objNil w hw, y, ts, z, hy, h => by
    have h1 := reads_one (o := o) Lexeme.objectEnd (stops_follows hy) h
    have h2 := reads_lead (ws_sep hw) h1
    have h3 := reads_one (o := o) Lexeme.objectStart (follows_other (by decide)) h2
    simpa [JTree.toks, JTree.members, commas, Tok.lbrace, Tok.rbrace] using h3
  | _, _, .obj ms s hs, y, ts, z, hy, h => by
    have h1 := reads_one (o := o) Lexeme.objectEnd (stops_follows hy) h
    have h2 := members_reads hS hs _ _ _ (stops_cons (by decide)) (by simp) h1
    have h3 := reads_one (o := o) Lexeme.objectStart (follows_other (by decide)) h2
    simpa [JTree.toks, Tok.lbrace, Tok.rbrace] using h3
theorem elems_reads (hS : ∀ m t, Str m t → StrBody o t m) : ∀ {xs : List JTree} {s : Bytes}, Elems Str xs s →
    ∀ (y : Bytes) (ts : List Tok) (z : Bytes), Stops y → ts ≠ [] → Reads o y ts z →
      Reads o (s ++ y) (commas (JTree.elems xs) ++ ts) z
  | _, _, .one x w s w' hw hs hw', y, ts, z, hy, hne, h => by
    have h1 := reads_lead' (ws_sep hw') hne h
    have h2 := gram_reads hS hs _ _ _ (stops_ws hw' hy) h1
    have h3 := reads_lead' (ws_sep hw) (by simp [hne]) h2
    simpa [JTree.elems, commas] using h3
  | _, _, .cons x xs w s w' s' hw hs hw' hs', y, ts, z, hy, hne, h => by
    have h0 := elems_reads hS hs' _ _ _ hy hne h
    have h1 := reads_one (o := o) Lexeme.separator (follows_other (by decide)) h0
    have h2 := reads_lead (ws_sep hw') h1
    have h3 := gram_reads hS hs _ _ _ (stops_ws hw' (stops_cons (by decide))) h2
    have h4 := reads_lead' (ws_sep hw) (by simp) h3
    cases xs with
    | nil => cases hs'
    | cons x2 xs => simpa [JTree.elems, commas, Tok.comma] using h4
theorem members_reads (hS : ∀ m t, Str m t → StrBody o t m) : ∀ {ms : List (Bytes × JTree)} {s : Bytes},
    Members Str ms s → ∀ (y : Bytes) (ts : List Tok) (z : Bytes), Stops y → ts ≠ [] → Reads o y ts z →
      Reads o (s ++ y) (commas (JTree.members ms) ++ ts) z
  | _, _, .one m x w t w1 w2 s w' hw ht hw1 hw2 hs hw', y, ts, z, hy, hne, h => by
    have h1 := reads_lead' (ws_sep hw') hne h
    have h2 := gram_reads hS hs _ _ _ (stops_ws hw' hy) h1
    have h3 := reads_lead' (ws_sep hw2) (by simp [hne]) h2
    have h4 := reads_one (o := o) Lexeme.keySeparator (follows_other (by decide)) h3
    have h5 := reads_lead (ws_sep hw1) h4
    have h6 := reads_one (o := o) (Lexeme.string t m (hS m t ht)) (follows_other (by decide)) h5
    have h7 := reads_lead (ws_sep hw) h6
    simpa [JTree.members, commas, Tok.str, Tok.colon] using h7
  | _, _, .cons m x ms w t w1 w2 s w' s' hw ht hw1 hw2 hs hw' hs', y, ts, z, hy, hne, h => by
    have h0 := members_reads hS hs' _ _ _ hy hne h
    have h00 := reads_one (o := o) Lexeme.separator (follows_other (by decide)) h0
    have h1 := reads_lead (ws_sep hw') h00
    have h2 := gram_reads hS hs _ _ _ (stops_ws hw' (stops_cons (by decide))) h1
    have h3 := reads_lead' (ws_sep hw2) (by simp) h2
    have h4 := reads_one (o := o) Lexeme.keySeparator (follows_other (by decide)) h3
    have h5 := reads_lead (ws_sep hw1) h4
    have h6 := reads_one (o := o) (Lexeme.string t m (hS m t ht)) (follows_other (by decide)) h5
    have h7 := reads_lead (ws_sep hw) h6
    cases ms with
    | nil => cases hs'
    | cons p ms => obtain ⟨k2, x2⟩ := p; simpa [JTree.members, commas, Tok.str, Tok.colon, Tok.comma] using h7
end

end Reflect.Json

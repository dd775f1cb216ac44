import Mathlib.Data.List.Chain
import Verif.Spec.JsonUb
import Verif.Lemmas.Json.Unique
/- In a document, no value is missing. -/
namespace Reflect.Json

/-- a token that can stand where a value is due -/
def Starter (a : Tok) : Prop := ¬ (a = Tok.comma ∨ a = Tok.colon ∨ a = Tok.rbrack ∨ a = Tok.rbrace)
/-- a token after which no value is due -/
def Ender (a : Tok) : Prop := ¬ (a = Tok.colon ∨ a = Tok.comma ∨ a = Tok.lbrack)

/-- a list of tokens in which no value is missing, which begins and ends like a value -/
structure Fits (ts : List Tok) : Prop where
  chain : ts.IsChain fun a b => ¬ Misplaced a b
  head : ∃ a, ts.head? = some a ∧ Starter a
  last : ∃ a, ts.getLast? = some a ∧ Ender a

theorem starter_ok {a b : Tok} (h : Starter b) : ¬ Misplaced a b := fun hm => h hm.2
theorem ender_ok {a b : Tok} (h : Ender a) : ¬ Misplaced a b := fun hm => h (by
  rcases hm.1 with h | h | h
  · exact Or.inl h
  · exact Or.inr (Or.inl h)
  · exact Or.inr (Or.inr h.1))

theorem fits_single {a : Tok} (h1 : Starter a) (h2 : Ender a) : Fits [a] := ⟨.singleton a, ⟨a, rfl, h1⟩, ⟨a, rfl, h2⟩⟩

theorem Fits.ne {ts : List Tok} (h : Fits ts) : ts ≠ [] := by
  rintro rfl
  obtain ⟨a, h, _⟩ := h.head
  cases h

theorem Fits.append {l1 l2 : List Tok} {a : Tok} (h1 : Fits l1) (h2 : Fits l2) : Fits (l1 ++ a :: l2) := by
  obtain ⟨x, hx, hxs⟩ := h1.head
  obtain ⟨y, hy, hye⟩ := h1.last
  obtain ⟨z, hz, hzs⟩ := h2.head
  obtain ⟨w, hw, hwe⟩ := h2.last
  refine ⟨?_, ⟨x, ?_, hxs⟩, ⟨w, ?_, hwe⟩⟩
  · rw [List.isChain_append]
    refine ⟨h1.chain, ?_, ?_⟩
    · rw [List.isChain_cons]
      refine ⟨?_, h2.chain⟩
      intro y hy'
      rw [hz] at hy'; cases hy'
      exact starter_ok hzs
    · intro p hp q hq
      rw [hy] at hp; cases hp
      exact ender_ok hye
  · cases l1 with
    | nil => exact absurd rfl h1.ne
    | cons b l => simpa using hx
  · rw [List.getLast?_append, List.getLast?_cons]
    simp [hw]

theorem Fits.wrap {l : List Tok} {a b : Tok} (h : Fits l) (ha : Starter a) (hb : Ender b) : Fits (a :: (l ++ [b])) := by
  obtain ⟨z, hz, hzs⟩ := h.head
  obtain ⟨w, hw, hwe⟩ := h.last
  refine ⟨?_, ⟨a, rfl, ha⟩, ⟨b, ?_, hb⟩⟩
  · rw [List.isChain_cons]
    refine ⟨?_, ?_⟩
    · intro y hy
      cases l with
      | nil => exact absurd rfl h.ne
      | cons c l =>
        simp only [List.head?_cons, Option.some.injEq] at hz
        subst hz
        simp only [List.cons_append, List.head?_cons, Option.mem_def, Option.some.injEq] at hy
        subst hy
        exact starter_ok hzs
    · rw [List.isChain_append]
      refine ⟨h.chain, .singleton b, ?_⟩
      intro p hp q hq
      rw [hw] at hp; cases hp
      exact ender_ok hwe
  · rw [List.getLast?_cons, List.getLast?_append]
    simp

theorem starter_open : Starter Tok.lbrack ∧ Starter Tok.lbrace := by constructor <;> (unfold Starter; decide)
theorem ender_close : Ender Tok.rbrack ∧ Ender Tok.rbrace := by constructor <;> (unfold Ender; decide)

theorem fits_str (s : Bytes) : Fits [Tok.str s] := by
  apply fits_single <;> simp [Starter, Ender, Tok.str, Tok.comma, Tok.colon, Tok.rbrack, Tok.rbrace, Tok.lbrack]

mutual
theorem toks_fits : ∀ x : JTree, Fits x.toks
  | .null => by apply fits_single <;> simp [Starter, Ender, Tok.null, Tok.comma, Tok.colon, Tok.rbrack, Tok.rbrace, Tok.lbrack]
  | .bool b => by apply fits_single <;> simp [Starter, Ender, Tok.bool, Tok.comma, Tok.colon, Tok.rbrack, Tok.rbrace, Tok.lbrack]
  | .int s => by apply fits_single <;> simp [Starter, Ender, Tok.int, Tok.comma, Tok.colon, Tok.rbrack, Tok.rbrace, Tok.lbrack]
  | .float s => by apply fits_single <;> simp [Starter, Ender, Tok.float, Tok.comma, Tok.colon, Tok.rbrack, Tok.rbrace, Tok.lbrack]
  | .str s => fits_str s
  | .arr xs => by
    have h := elems_fits xs
    by_cases hx : xs = []
    · subst hx
      refine ⟨?_, ⟨_, rfl, starter_open.1⟩, ⟨_, rfl, ender_close.1⟩⟩
      refine .cons_cons ?_ (.singleton _)
      simp [Misplaced, Tok.lbrack, Tok.colon, Tok.comma]
    · unfold JTree.toks
      exact (h hx).wrap starter_open.1 ender_close.1
  | .obj ms => by
    have h := members_fits ms
    by_cases hx : ms = []
    · subst hx
      refine ⟨?_, ⟨_, rfl, starter_open.2⟩, ⟨_, rfl, ender_close.2⟩⟩
      refine .cons_cons ?_ (.singleton _)
      simp [Misplaced, Tok.lbrace, Tok.lbrack, Tok.colon, Tok.comma]
    · unfold JTree.toks
      exact (h hx).wrap starter_open.2 ender_close.2
theorem elems_fits : ∀ xs : List JTree, xs ≠ [] → Fits (commas (JTree.elems xs))
  | [] => fun h => absurd rfl h
  | x :: xs => fun _ => by
    have h1 := toks_fits x
    have h2 := elems_fits xs
    cases xs with
    | nil => simp only [JTree.elems, commas]; exact h1
    | cons y xs =>
      have h := h2 (by simp)
      simp only [JTree.elems, commas] at h ⊢
      exact h1.append h
theorem members_fits : ∀ ms : List (Bytes × JTree), ms ≠ [] → Fits (commas (JTree.members ms))
  | [] => fun h => absurd rfl h
  | (k, x) :: ms => fun _ => by
    have h1 := toks_fits x
    have h2 := members_fits ms
    cases ms with
    | nil =>
      simp only [JTree.members, commas]
      exact (fits_str k).append (a := Tok.colon) h1
    | cons m ms =>
      have h := h2 (by simp)
      obtain ⟨k', y⟩ := m
      simp only [JTree.members, commas] at h ⊢
      exact ((fits_str k).append (a := Tok.colon) h1).append (a := Tok.comma) h
end

/-- no value is missing in a document -/
theorem toks_misplaced (x : JTree) (l1 l2 : List Tok) (a b : Tok) (h : x.toks = l1 ++ a :: b :: l2) : ¬ Misplaced a b := by
  have := (toks_fits x).chain
  rw [h, List.isChain_append_cons_cons] at this
  exact this.2.1

variable {o : ROpts}

theorem misplaced_not_num {ts : List Tok} {a b : Tok} (h : Misplaced a b) : ¬ endsNum (ts ++ [a, b]) := by
  unfold endsNum
  rcases h.2 with rfl | rfl | rfl | rfl <;> simp [Tok.comma, Tok.colon, Tok.rbrack, Tok.rbrace]

theorem reads_length {s y : Bytes} {ts : List Tok} (h : Reads o s ts y) : y.length ≤ s.length := by
  induction h with
  | nil => exact Nat.le_refl _
  | cons w a s y t v ts _ _ _ _ ih => simp only [List.length_append]; omega

/-- nor in a text that stops inside one -/
theorem cut_no_missing {s1 s2 y : Bytes} {x : JTree} (h : Reads o (s1 ++ s2) x.toks y) (hy : y.length < s2.length) :
    ¬ ValueMissing o s1 := by
  rintro ⟨ts, a, b, z, hr, hm⟩
  have h2 := reads_more (z := s2) hr (Or.inr (misplaced_not_num hm))
  rcases reads_compare h2 h with ⟨l, e, _⟩ | ⟨l, _, e⟩
  · exact toks_misplaced x ts l a b (by simpa using e) hm
  · have := reads_length e
    simp at this
    omega

end Reflect.Json

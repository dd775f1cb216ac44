import Verif.Lemmas.Json.Tables
import Verif.Lemmas.Json.Grammar
/- What the generic printing functions write is grammatical if the items are. -/
namespace Reflect.Json

variable {wo : WOpts} {Str : Bytes → Bytes → Prop}

theorem errorIf_opts (w : Writer) (b : Bool) (m : WMsg) : (w.errorIf b m).opts = w.opts := by
  cases b <;> rfl

theorem contBytes_opts (push : Bool) : ∀ (n : Nat) (s : Bytes) (code : Nat) (w : Writer),
    (contBytes push n s code w).2.2.opts = w.opts := by
  intro n
  induction n with
  | zero => intro s code w; rfl
  | succ n ih =>
    intro s code w
    unfold contBytes
    split
    · split
      · rfl
      · simp only
        rw [ih]
        cases push <;> exact errorIf_opts _ _ _
    · rfl

theorem formatLoop_keeps : ∀ (n : Nat) (s : Bytes) (w w' : Writer), formatLoop n s w = .ok w' → w'.opts = w.opts := by
  intro n
  induction n with
  | zero =>
    intro s w w' h
    cases s with
    | nil => unfold formatLoop at h; injection h with h; subst h; rfl
    | cons c s => unfold formatLoop at h; cases h
  | succ n ih =>
    intro s w w' h
    cases s with
    | nil => unfold formatLoop at h; injection h with h; subst h; rfl
    | cons c s =>
      unfold formatLoop at h
      split at h
      · cases he : escapeUnicode w c s with
        | error e => rw [he] at h; cases h
        | ok p =>
          rw [he, okb] at h
          rw [ih _ _ _ h]
          unfold escapeUnicode at he
          split at he
          · cases he
          · injection he with he
            subst he
            simp only [Writer.push_opts, contBytes_opts, errorIf_opts]
      · split at h
        · cases he : copyUnicode w c s with
          | error e => rw [he] at h; cases h
          | ok p =>
            rw [he, okb] at h
            rw [ih _ _ _ h]
            unfold copyUnicode at he
            split at he
            · cases he
            · injection he with he
              subst he
              simp only [Writer.push_opts, contBytes_opts, errorIf_opts]
        · rw [ih _ _ _ h]; rfl

theorem formatString_opts {s : Bytes} {w w' : Writer} (h : formatString w s = .ok w') : w'.opts = w.opts := by
  unfold formatString at h
  cases hl : formatLoop s.length s (w.push [34]) with
  | error e => rw [hl] at h; cases h
  | ok w1 =>
    rw [hl, okb] at h
    injection h with h
    rw [← h]
    have := formatLoop_keeps _ _ _ _ hl
    exact this

theorem ws_nil : Ws [] := by intro c hc; cases hc
theorem ws_append {a b : Bytes} (ha : Ws a) (hb : Ws b) : Ws (a ++ b) := by
  intro c hc
  rcases List.mem_append.mp hc with h | h
  · exact ha c h
  · exact hb c h

theorem newline_spec {w w' : Writer} (h : w.newline = .ok w') : ∃ ws, Ws ws ∧ w' = w.push ws := by
  unfold Writer.newline at h
  split at h
  · split at h
    · injection h with h
      refine ⟨[10] ++ List.replicate (w.indent * 4) 32, ?_, by rw [← h, Writer.push_push]⟩
      intro c hc
      simp at hc
      rcases hc with hc | ⟨_, hc⟩
      · exact Or.inr (Or.inr (Or.inl hc))
      · exact Or.inl hc
    · cases h
  · injection h with h
    exact ⟨[], ws_nil, by rw [← h, Writer.push_nil]⟩

theorem space_spec (w : Writer) : ∃ ws, Ws ws ∧ w.space = w.push ws := by
  unfold Writer.space
  split
  · refine ⟨[32], ?_, rfl⟩
    intro c hc
    simp at hc
    exact Or.inl hc
  · exact ⟨[], ws_nil, by rw [Writer.push_nil]⟩

theorem openLayout_spec {many : Bool} {w w' : Writer} (h : openLayout many w = .ok w') :
    ∃ ws, Ws ws ∧ w' = { w.push ws with indent := w.indent + (if many then 1 else 0) } := by
  unfold openLayout at h
  cases many with
  | true =>
    obtain ⟨ws, h1, h2⟩ := newline_spec h
    exact ⟨ws, h1, by rw [h2]; rfl⟩
  | false =>
    injection h with h
    obtain ⟨ws, h1, h2⟩ := space_spec w
    exact ⟨ws, h1, by rw [← h, h2]; rfl⟩

theorem closeLayout_spec {many : Bool} {w w' : Writer} (h : closeLayout many w = .ok w') :
    ∃ ws, Ws ws ∧ w' = { w.push ws with indent := w.indent - (if many then 1 else 0) } := by
  unfold closeLayout at h
  cases many with
  | true =>
    obtain ⟨ws, h1, h2⟩ := newline_spec h
    exact ⟨ws, h1, by rw [h2]; rfl⟩
  | false =>
    injection h with h
    obtain ⟨ws, h1, h2⟩ := space_spec w
    exact ⟨ws, h1, by rw [← h, h2]; rfl⟩

theorem itemLayout_spec {first : Bool} {w w' : Writer} (h : itemLayout first w = .ok w') :
    ∃ ws, Ws ws ∧ w' = w.push ((if first then [] else [44]) ++ ws) := by
  unfold itemLayout at h
  cases first with
  | true => injection h with h; exact ⟨[], ws_nil, by rw [← h]; simp [Writer.push_nil]⟩
  | false =>
    obtain ⟨ws, h1, h2⟩ := newline_spec h
    exact ⟨ws, h1, by rw [h2, Writer.push_push]; rfl⟩

theorem elems_lead {xs : List JTree} {s w0 : Bytes} (hw : Ws w0) (h : Elems Str xs s) : Elems Str xs (w0 ++ s) := by
  cases h with
  | one x w s w' h1 h2 h3 =>
    have := Elems.one (Str := Str) x (w0 ++ w) s w' (ws_append hw h1) h2 h3
    simpa using this
  | cons x xs w s w' s' h1 h2 h3 h4 =>
    have := Elems.cons (Str := Str) x xs (w0 ++ w) s w' s' (ws_append hw h1) h2 h3 h4
    simpa using this

theorem elems_trail {w0 : Bytes} (hw : Ws w0) : ∀ {xs : List JTree} {s : Bytes}, Elems Str xs s → Elems Str xs (s ++ w0)
  | _, _, .one x w s w' h1 h2 h3 => by
    have := Elems.one (Str := Str) x w s (w' ++ w0) h1 h2 (ws_append h3 hw)
    simpa using this
  | _, _, .cons x xs w s w' s' h1 h2 h3 h4 => by
    have := Elems.cons (Str := Str) x xs w s w' (s' ++ w0) h1 h2 h3 (elems_trail hw h4)
    simpa using this

theorem members_lead {ms : List (Bytes × JTree)} {s w0 : Bytes} (hw : Ws w0) (h : Members Str ms s) :
    Members Str ms (w0 ++ s) := by
  cases h with
  | one m x w t w1 w2 s w' h1 h2 h3 h4 h5 h6 =>
    have := Members.one (Str := Str) m x (w0 ++ w) t w1 w2 s w' (ws_append hw h1) h2 h3 h4 h5 h6
    simpa using this
  | cons m x ms w t w1 w2 s w' s' h1 h2 h3 h4 h5 h6 h7 =>
    have := Members.cons (Str := Str) m x ms (w0 ++ w) t w1 w2 s w' s' (ws_append hw h1) h2 h3 h4 h5 h6 h7
    simpa using this

theorem members_trail {w0 : Bytes} (hw : Ws w0) : ∀ {ms : List (Bytes × JTree)} {s : Bytes}, Members Str ms s →
    Members Str ms (s ++ w0)
  | _, _, .one m x w t w1 w2 s w' h1 h2 h3 h4 h5 h6 => by
    have := Members.one (Str := Str) m x w t w1 w2 s (w' ++ w0) h1 h2 h3 h4 h5 (ws_append h6 hw)
    simpa using this
  | _, _, .cons m x ms w t w1 w2 s w' s' h1 h2 h3 h4 h5 h6 h7 => by
    have := Members.cons (Str := Str) m x ms w t w1 w2 s w' (s' ++ w0) h1 h2 h3 h4 h5 h6 (members_trail hw h7)
    simpa using this

/-- the items written by the rest of a loop: nothing, or items with a comma before them unless they are the
first -/
def SeqOf {α : Type} (P : List α → Bytes → Prop) (first : Bool) (ts : List α) (body : Bytes) : Prop :=
  (ts = [] ∧ body = []) ∨ ∃ e, body = (if first then [] else [44]) ++ e ∧ P ts e

/-- corresponding items are related -/
inductive All2 {α β : Type} (R : α → β → Prop) : List α → List β → Prop where
  | nil : All2 R [] []
  | cons {a b as bs} : R a b → All2 R as bs → All2 R (a :: as) (b :: bs)

/-- A piece of text written without an error that stands for a document. -/
def Wrote (Str : Bytes → Bytes → Prop) (w w' : Writer) (R : JTree → Prop) : Prop :=
  w.err = none ∧ ∃ x body, w' = w.push body ∧ R x ∧ Gram Str x body

theorem printItems_sound {α : Type} {fn : α → Writer → Res Writer} {R : α → JTree → Prop} :
    ∀ (xs : List α) (first : Bool) (w w' : Writer) (b : Bool),
    (∀ x ∈ xs, ∀ w w', w.opts = wo → fn x w = .ok w' → w'.err = none → Wrote Str w w' (R x)) → w.opts = wo →
    printItems fn xs first w = .ok (w', b) → w'.err = none →
    w.err = none ∧ b = true ∧ ∃ ts body, w' = w.push body ∧ All2 R xs ts ∧ SeqOf (Elems Str) first ts body := by
  intro xs
  induction xs with
  | nil =>
    intro first w w' b _ _ h he
    unfold printItems at h
    injection h with h
    injection h with h1 h2
    subst h1
    exact ⟨he, h2.symm, [], [], by rw [Writer.push_nil], All2.nil, Or.inl ⟨rfl, rfl⟩⟩
  | cons x xs ih =>
    intro first w w' b hfn ho h he
    unfold printItems at h
    split at h
    · rename_i hok
      have hwe := (Writer.ok_iff w).mp hok
      cases h1 : itemLayout first w with
      | error e => rw [h1] at h; cases h
      | ok w1 =>
        rw [h1, okb] at h
        cases h2 : fn x w1 with
        | error e => rw [h2] at h; cases h
        | ok w2 =>
          rw [h2, okb] at h
          obtain ⟨ws, e1, e2⟩ := itemLayout_spec h1
          have ho1 : w1.opts = wo := by rw [e2]; exact ho
          have aux : w2.opts = wo ∧ (w2.err = none → ∃ t body, w2 = w1.push body ∧ R x t ∧ Gram Str t body) →
              w.err = none ∧ b = true ∧ ∃ ts body, w' = w.push body ∧ All2 R (x :: xs) ts ∧ SeqOf (Elems Str) first ts body := by
            rintro ⟨ho2, hx⟩
            obtain ⟨g1, g2, ts, body, g3, g4, g5⟩ := ih false w2 w' b (fun x hx => hfn x (by simp [hx])) ho2 h he
            obtain ⟨t, b1, k1, k2, k3⟩ := hx g1
            refine ⟨hwe, g2, t :: ts, (if first then [] else [44]) ++ ws ++ (b1 ++ body), ?_, All2.cons k2 g4, Or.inr ?_⟩
            · rw [g3, k1, e2]; simp [Writer.push_push]
            · rcases g5 with ⟨rfl, rfl⟩ | ⟨e, rfl, g6⟩
              · refine ⟨ws ++ b1 ++ [], by simp, Elems.one t ws b1 [] e1 k3 ws_nil⟩
              · refine ⟨ws ++ b1 ++ [] ++ [44] ++ e, by simp, Elems.cons t ts ws b1 [] e e1 k3 ws_nil g6⟩
          by_cases he2 : w2.err = none
          · obtain ⟨_, t, body, k1, k2, k3⟩ := hfn x (by simp) w1 w2 ho1 h2 he2
            exact aux ⟨by rw [k1]; exact ho1, fun _ => ⟨t, body, k1, k2, k3⟩⟩
          · -- the loop stops at once with the error
            exfalso
            cases xs with
            | nil => unfold printItems at h; injection h with h; injection h with h _; subst h; exact he2 he
            | cons y ys =>
              unfold printItems at h
              rw [if_neg (fun hh => he2 ((Writer.ok_iff w2).mp hh))] at h
              injection h with h; injection h with h _; subst h; exact he2 he
    · rename_i hok
      injection h with h
      injection h with h1 h2
      subst h1
      exact absurd ((Writer.ok_iff w).mpr he) hok

theorem printArray_sound {α : Type} {fn : α → Writer → Res Writer} {R : α → JTree → Prop} {xs : List α} {w w' : Writer}
    (hfn : ∀ x ∈ xs, ∀ w w', w.opts = wo → fn x w = .ok w' → w'.err = none → Wrote Str w w' (R x)) (ho : w.opts = wo)
    (h : printArray fn xs w = .ok w') (he : w'.err = none) :
    Wrote Str w w' (fun t => ∃ ts, t = .arr ts ∧ All2 R xs ts) := by
  unfold printArray at h
  cases h1 : openLayout (decide (xs.length > 1)) (w.push [91]) with
  | error e => simp only [h1] at h; cases h
  | ok w1 =>
    simp only [h1] at h
    rw [okb] at h
    cases h2 : printItems fn xs true w1 with
    | error e => rw [h2] at h; cases h
    | ok p =>
      obtain ⟨w2, b⟩ := p
      rw [h2, okb] at h
      obtain ⟨ws, e1, e2⟩ := openLayout_spec h1
      have ho1 : w1.opts = wo := by rw [e2]; exact ho
      cases b with
      | false =>
        simp only [Bool.false_eq_true, if_false] at h
        injection h with h; subst h
        obtain ⟨_, g, _⟩ := printItems_sound xs true w1 _ _ hfn ho1 h2 he
        cases g
      | true =>
        simp only [if_true] at h
        cases h3 : closeLayout (decide (xs.length > 1)) w2 with
        | error e => rw [h3] at h; cases h
        | ok w3 =>
          rw [h3, okb] at h
          injection h with h
          obtain ⟨ws2, e3, e4⟩ := closeLayout_spec h3
          have he2 : w2.err = none := by
            rw [← h, e4] at he; exact he
          obtain ⟨g1, _, ts, body, g3, g4, g5⟩ := printItems_sound xs true w1 _ _ hfn ho1 h2 he2
          have hw : w.err = none := by rw [e2] at g1; exact g1
          refine ⟨hw, .arr ts, [91] ++ (ws ++ body ++ ws2) ++ [93], ?_, ⟨ts, rfl, g4⟩, ?_⟩
          · rw [← h, e4, g3, e2]
            simp [Writer.push]
          · rcases g5 with ⟨rfl, rfl⟩ | ⟨e, rfl, g6⟩
            · have := Gram.arrNil (Str := Str) (ws ++ ws2) (ws_append e1 e3)
              simpa using this
            · have := Gram.arr (Str := Str) ts _ (elems_trail e3 (elems_lead e1 g6))
              simpa using this

/-! ### Objects -/

/-- the members shown, and those skipped -/
inductive Shown (skip : Bytes → Res Bool) (R : Bytes → JTree → Prop) : List Bytes → List (Bytes × JTree) → Prop where
  | nil : Shown skip R [] []
  | shown {k x ks ms} : skip k = .ok false → R k x → Shown skip R ks ms → Shown skip R (k :: ks) ((k, x) :: ms)
  | omitted {k ks ms} : skip k = .ok true → Shown skip R ks ms → Shown skip R (k :: ks) ms

theorem printMembers_sound {fn : Bytes → Writer → Res Writer} {skip : Bytes → Res Bool} {R : Bytes → JTree → Prop} :
    ∀ (ks : List Bytes) (first : Bool) (w w' : Writer) (b : Bool),
    (∀ k ∈ ks, ∀ w w', w.opts = wo → fn k w = .ok w' → w'.err = none → Wrote (FText wo) w w' (R k)) → w.opts = wo →
    printMembers fn skip ks first w = .ok (w', b) → w'.err = none →
    w.err = none ∧ b = true ∧ ∃ ms body, w' = w.push body ∧ Shown skip R ks ms ∧ SeqOf (Members (FText wo)) first ms body := by
  intro ks
  induction ks with
  | nil =>
    intro first w w' b _ _ h he
    unfold printMembers at h
    injection h with h
    injection h with h1 h2
    subst h1
    exact ⟨he, h2.symm, [], [], by rw [Writer.push_nil], Shown.nil, Or.inl ⟨rfl, rfl⟩⟩
  | cons k ks ih =>
    intro first w w' b hfn ho h he
    unfold printMembers at h
    split at h
    · rename_i hok
      have hwe := (Writer.ok_iff w).mp hok
      cases h0 : skip k with
      | error e => rw [h0] at h; cases h
      | ok s =>
        rw [h0, okb] at h
        cases s with
        | true =>
          simp only [if_true] at h
          obtain ⟨g1, g2, ms, body, g3, g4, g5⟩ := ih first w w' b (fun x hx => hfn x (by simp [hx])) ho h he
          exact ⟨g1, g2, ms, body, g3, Shown.omitted h0 g4, g5⟩
        | false =>
          simp only [Bool.false_eq_true, if_false] at h
          cases h1 : itemLayout first w with
          | error e => rw [h1] at h; cases h
          | ok w1 =>
            rw [h1, okb] at h
            cases h2 : formatString w1 k with
            | error e => rw [h2] at h; cases h
            | ok w2 =>
              rw [h2, okb] at h
              cases h3 : fn k (w2.push [58]).space with
              | error e => rw [h3] at h; cases h
              | ok w3 =>
                rw [h3, okb] at h
                -- the error, if any, would stay
                have he3 : w3.err = none := by
                  refine Classical.byContradiction fun he3 => ?_
                  cases ks with
                  | nil => unfold printMembers at h; injection h with h; injection h with h _; subst h; exact he3 he
                  | cons y ys =>
                    unfold printMembers at h
                    rw [if_neg (fun hh => he3 ((Writer.ok_iff w3).mp hh))] at h
                    injection h with h; injection h with h _; subst h; exact he3 he
                obtain ⟨ws, e1, e2⟩ := itemLayout_spec h1
                have ho1 : w1.opts = wo := by rw [e2]; exact ho
                obtain ⟨ws2, e3, e4⟩ := space_spec (w2.push [58])
                rw [e4, Writer.push_push] at h3
                have hopts : w2.opts = wo := by
                  have := formatString_opts h2
                  rw [this]; exact ho1
                obtain ⟨g1, x, bx, g2, g3, g4⟩ := hfn k (by simp) _ w3 (by simpa using hopts) h3 he3
                have he2 : w2.err = none := g1
                obtain ⟨f1, t, f2, f3⟩ := formatString_sound h2 he2
                rw [ho1] at f2
                have ho3 : w3.opts = wo := by rw [g2]; exact hopts
                obtain ⟨k1, k2, ms, body, k3, k4, k5⟩ := ih false w3 w' b (fun x hx => hfn x (by simp [hx])) ho3 h he
                refine ⟨hwe, k2, (k, x) :: ms, (if first then [] else [44]) ++ ws ++ (([34] ++ t ++ [34]) ++ ([58] ++ ws2) ++ bx ++ body),
                  ?_, Shown.shown h0 g3 k4, Or.inr ?_⟩
                · rw [k3, g2, f3, e2]; simp [Writer.push_push]
                · rcases k5 with ⟨rfl, rfl⟩ | ⟨e, rfl, k6⟩
                  · exact ⟨ws ++ ([34] ++ t ++ [34]) ++ [] ++ [58] ++ ws2 ++ bx ++ [], by simp,
                      Members.one k x ws t [] ws2 bx [] e1 f2 ws_nil e3 g4 ws_nil⟩
                  · exact ⟨ws ++ ([34] ++ t ++ [34]) ++ [] ++ [58] ++ ws2 ++ bx ++ [] ++ [44] ++ e, by simp,
                      Members.cons k x ms ws t [] ws2 bx [] e e1 f2 ws_nil e3 g4 ws_nil k6⟩
    · rename_i hok
      injection h with h
      injection h with h1 h2
      subst h1
      exact absurd ((Writer.ok_iff w).mpr he) hok

theorem printObject_sound {fn : Bytes → Writer → Res Writer} {skip : Bytes → Res Bool} {R : Bytes → JTree → Prop}
    {ks : List Bytes} {w w' : Writer}
    (hfn : ∀ k ∈ ks, ∀ w w', w.opts = wo → fn k w = .ok w' → w'.err = none → Wrote (FText wo) w w' (R k)) (ho : w.opts = wo)
    (h : printObject fn skip ks w = .ok w') (he : w'.err = none) :
    Wrote (FText wo) w w' (fun t => ∃ ms, t = .obj ms ∧ Shown skip R ks ms) := by
  unfold printObject at h
  cases h1 : openLayout (decide (ks.length > 1)) (w.push [123]) with
  | error e => simp only [h1] at h; cases h
  | ok w1 =>
    simp only [h1] at h
    rw [okb] at h
    cases h2 : printMembers fn skip ks true w1 with
    | error e => rw [h2] at h; cases h
    | ok p =>
      obtain ⟨w2, b⟩ := p
      rw [h2, okb] at h
      obtain ⟨ws, e1, e2⟩ := openLayout_spec h1
      have ho1 : w1.opts = wo := by rw [e2]; exact ho
      cases b with
      | false =>
        simp only [Bool.false_eq_true, if_false] at h
        injection h with h; subst h
        obtain ⟨_, g, _⟩ := printMembers_sound ks true w1 _ _ hfn ho1 h2 he
        cases g
      | true =>
        simp only [if_true] at h
        cases h3 : closeLayout (decide (ks.length > 1)) w2 with
        | error e => rw [h3] at h; cases h
        | ok w3 =>
          rw [h3, okb] at h
          injection h with h
          obtain ⟨ws2, e3, e4⟩ := closeLayout_spec h3
          have he2 : w2.err = none := by
            rw [← h, e4] at he; exact he
          obtain ⟨g1, _, ts, body, g3, g4, g5⟩ := printMembers_sound ks true w1 _ _ hfn ho1 h2 he2
          have hw : w.err = none := by rw [e2] at g1; exact g1
          refine ⟨hw, .obj ts, [123] ++ (ws ++ body ++ ws2) ++ [125], ?_, ⟨ts, rfl, g4⟩, ?_⟩
          · rw [← h, e4, g3, e2]
            simp [Writer.push]
          · rcases g5 with ⟨rfl, rfl⟩ | ⟨e, rfl, g6⟩
            · have := Gram.objNil (Str := FText wo) (ws ++ ws2) (ws_append e1 e3)
              simpa using this
            · have := Gram.obj (Str := FText wo) ts _ (members_trail e3 (members_lead e1 g6))
              simpa using this

end Reflect.Json

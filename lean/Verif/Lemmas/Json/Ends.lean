import Verif.Lemmas.Json.LoadParse
import Verif.Lemmas.Json.Tables
import Verif.Lemmas.Json.Fuel
import Verif.Lemmas.Json.Ub
import Verif.Spec.JsonEnds
/- Parsing ends on every input; and where it can run into undefined behaviour. -/
namespace Reflect.Json

variable {env : Env} {c : PCache} {T : TyId → Prop}

/-! ### Readers that are not usable -/

theorem left_of_not_ok {r : Reader} (h : r.ok = false) : r.left = 0 := by unfold Reader.left; rw [h]; rfl

theorem ok_of_left {r : Reader} (h : 1 ≤ r.left) : r.ok = true := by
  cases hk : r.ok with
  | true => rfl
  | false => rw [left_of_not_ok hk] at h; omega

theorem not_ok_of_left {r : Reader} (h : r.left = 0) : r.ok = false := by
  cases hk : r.ok with
  | false => rfl
  | true => have := left_pos hk; omega

/-- with an unusable reader, no call-back is called -/
theorem parseArray_dead {σ : Type} {fn : Nat → σ → Reader → Res (σ × Reader)} (n : Nat) (a : σ) (r : Reader)
    (hr : r.ok = false) : Fine (parseArray fn (n + 1) a r) (fun p => PStep r p.2 ∧ p.2.left ≤ r.left) := by
  unfold parseArray
  apply Fine.bind (nextToken_fine r)
  intro p ⟨hp1, hp2, hp3⟩
  have hl : r.left = 0 := left_of_not_ok hr
  split
  · exact Fine.ok ⟨hp1, by show p.2.left ≤ _; omega⟩
  · have ha := assertToken_p p.2 p.1 .arrayStart
    apply Fine.bind (mayAssert_fine p.2 p.1 _)
    intro _ _
    apply Fine.bind (peekToken_fine _)
    intro q ⟨hq1, hq2, _, _⟩
    split
    · apply Fine.bind (expectToken_fine q.2 _)
      intro e ⟨he1, he2, _⟩
      exact Fine.ok ⟨((hp1.trans ha.1).trans hq1).trans he1, by show e.2.left ≤ _; omega⟩
    · unfold arrLoop
      rw [if_neg]
      · exact Fine.ok ⟨(hp1.trans ha.1).trans hq1, by show q.2.left ≤ _; omega⟩
      · rw [not_ok_of_left (by omega)]; simp

theorem parseObject_dead {σ : Type} {fn : Bytes → σ → Reader → Res (σ × Reader)} (n : Nat) (a : σ) (r : Reader)
    (hr : r.ok = false) : Fine (parseObject fn (n + 1) a r) (fun p => PStep r p.2 ∧ p.2.left ≤ r.left) := by
  unfold parseObject
  apply Fine.bind (nextToken_fine r)
  intro p ⟨hp1, hp2, hp3⟩
  have hl : r.left = 0 := left_of_not_ok hr
  split
  · exact Fine.ok ⟨hp1, by show p.2.left ≤ _; omega⟩
  · have ha := assertToken_p p.2 p.1 .objectStart
    apply Fine.bind (mayAssert_fine p.2 p.1 _)
    intro _ _
    apply Fine.bind (peekToken_fine _)
    intro q ⟨hq1, hq2, _, _⟩
    split
    · apply Fine.bind (expectToken_fine q.2 _)
      intro e ⟨he1, he2, _⟩
      exact Fine.ok ⟨((hp1.trans ha.1).trans hq1).trans he1, by show e.2.left ≤ _; omega⟩
    · unfold objLoop
      rw [if_neg]
      · exact Fine.ok ⟨(hp1.trans ha.1).trans hq1, by show q.2.left ≤ _; omega⟩
      · rw [not_ok_of_left (by omega)]; simp

/-- containers, when the call-back is fine on what is left after a usable reader's first token -/
theorem parseArray_ends {σ : Type} {fn : Nat → σ → Reader → Res (σ × Reader)} (n : Nat) (a : σ) (r : Reader)
    (hn : r.left ≤ n) (hf : r.ok = true → FnFine fn (r.left - 1)) (h1 : 1 ≤ n) :
    Fine (parseArray fn n a r) (fun p => PStep r p.2 ∧ p.2.left ≤ r.left) := by
  cases hk : r.ok with
  | true =>
    have := left_pos hk
    exact parseArray_fine n a r (by omega) (hf hk)
  | false =>
    obtain ⟨n, rfl⟩ : ∃ k, n = k + 1 := ⟨n - 1, by omega⟩
    exact parseArray_dead n a r hk

theorem parseObject_ends {σ : Type} {fn : Bytes → σ → Reader → Res (σ × Reader)} (n : Nat) (a : σ) (r : Reader)
    (hn : r.left ≤ n) (hf : r.ok = true → FnFine fn (r.left - 1)) (h1 : 1 ≤ n) :
    Fine (parseObject fn n a r) (fun p => PStep r p.2 ∧ p.2.left ≤ r.left) := by
  cases hk : r.ok with
  | true =>
    have := left_pos hk
    exact parseObject_fine n a r (by omega) (hf hk)
  | false =>
    obtain ⟨n, rfl⟩ : ∃ k, n = k + 1 := ⟨n - 1, by omega⟩
    exact parseObject_dead n a r hk

/-! ### Scalars -/

theorem parseNull_fine (r : Reader) : Fine (parseNull r) (fun p => PStep r p ∧ p.left ≤ r.left) := by
  unfold parseNull
  apply Fine.bind (expectToken_fine r _)
  intro p ⟨h1, h2, _⟩
  exact Fine.ok ⟨h1, by omega⟩

theorem parseBool_fine (r : Reader) : Fine (parseBool r) (fun p => PStep r p.2 ∧ p.2.left ≤ r.left) := by
  unfold parseBool
  apply Fine.bind (expectToken_fine r _)
  intro p ⟨h1, h2, _⟩
  apply Fine.bind (P := fun _ => True)
  · unfold Token.asBool
    split
    · exact Fine.ok trivial
    · exact Fine.err (invalid_ne _ _ _)
  · intro b _
    exact Fine.ok ⟨h1, by show p.2.left ≤ _; omega⟩

theorem stol_fine (s : Bytes) : Fine (stol s) (fun _ => True) := by
  unfold stol
  simp only
  repeat' split
  all_goals first
    | exact Fine.ok trivial
    | exact Fine.err (by decide)

theorem parseInt_fine (r : Reader) : Fine (parseInt r) (fun p => PStep r p.2 ∧ p.2.left ≤ r.left) := by
  unfold parseInt
  apply Fine.bind (expectToken_fine r _)
  intro p ⟨h1, h2, _⟩
  apply Fine.bind (P := fun _ => True)
  · unfold Token.asInt
    split
    · exact stol_fine _
    · exact Fine.err (invalid_ne _ _ _)
  · intro b _
    exact Fine.ok ⟨h1, by show p.2.left ≤ _; omega⟩

theorem parseFloat_fine (r : Reader) : Fine (parseFloatText r) (fun p => PStep r p.2 ∧ p.2.left ≤ r.left) := by
  unfold parseFloatText
  apply Fine.bind (nextToken_fine r)
  intro p ⟨h1, h2, _⟩
  have ha := assertToken_p p.2 p.1 .float
  have h3 : PStep r (if p.1.type = .int then p.2 else (p.2.assertToken p.1 .float).2) ∧
      (if p.1.type = .int then p.2 else (p.2.assertToken p.1 .float).2).left ≤ r.left := by
    split
    · exact ⟨h1, by omega⟩
    · exact ⟨h1.trans ha.1, by omega⟩
  simp only
  apply Fine.bind (P := fun _ => True)
  · split
    · exact Fine.ok trivial
    · exact mayAssert_fine _ _ _
  intro _ _
  apply Fine.bind (P := fun _ => True)
  · unfold Token.asFloatText
    split
    · exact Fine.ok trivial
    · exact Fine.err (invalid_ne _ _ _)
  · intro b _
    exact Fine.ok h3

theorem parseString_fine (r : Reader) : Fine (parseString r) (fun p => PStep r p.2 ∧ p.2.left ≤ r.left) := by
  unfold parseString
  apply Fine.bind (expectToken_fine r _)
  intro p ⟨h1, h2, _⟩
  apply Fine.bind (P := fun _ => True)
  · unfold Token.asString
    split
    · exact Fine.ok trivial
    · exact Fine.err (invalid_ne _ _ _)
  · intro b _
    exact Fine.ok ⟨h1, by show p.2.left ≤ _; omega⟩

/-- no matter what `std::stod` does with a text, it ends -/
theorem stod_fine (hd : ∀ s, env.stod s ≠ .error .diverge) (s : Bytes) : Fine (env.stod s) (fun _ => True) :=
  ⟨hd s, fun _ _ => trivial⟩

theorem untyped_fine (hd : ∀ s, env.stod s ≠ .error .diverge) : ∀ (n : Nat) (v : JV) (r : Reader), r.left + 1 < n →
    Fine (parseUntyped env n v r) (fun p => PStep r p.2 ∧ p.2.left ≤ r.left) := by
  intro n
  induction n with
  | zero => intro v r h; omega
  | succ n ih =>
    intro v r hn
    unfold parseUntyped
    apply Fine.bind (peekToken_fine r)
    intro p ⟨hp1, hp2, _, _⟩
    split
    · apply Fine.bind (parseNull_fine p.2)
      intro q ⟨h1, h2⟩
      exact Fine.ok ⟨hp1.trans h1, by show q.left ≤ _; omega⟩
    · apply Fine.bind (parseBool_fine p.2)
      intro q ⟨h1, h2⟩
      exact Fine.ok ⟨hp1.trans h1, by show q.2.left ≤ _; omega⟩
    · apply Fine.bind (parseInt_fine p.2)
      intro q ⟨h1, h2⟩
      exact Fine.ok ⟨hp1.trans h1, by show q.2.left ≤ _; omega⟩
    · apply Fine.bind (parseFloat_fine p.2)
      intro q ⟨h1, h2⟩
      apply Fine.bind (stod_fine hd q.1)
      intro x _
      exact Fine.ok ⟨hp1.trans h1, by show q.2.left ≤ _; omega⟩
    · apply Fine.bind (parseString_fine p.2)
      intro q ⟨h1, h2⟩
      exact Fine.ok ⟨hp1.trans h1, by show q.2.left ≤ _; omega⟩
    · apply Fine.bind (parseArray_ends n _ p.2 (by omega) ?_ (by omega))
      · intro q ⟨h1, h2⟩
        exact Fine.ok ⟨hp1.trans h1, by show q.2.left ≤ _; omega⟩
      · intro hk i a r' hr'
        have := left_pos hk
        apply Fine.bind (ih .void r' (by omega))
        intro q h
        exact Fine.ok h
    · apply Fine.bind (parseObject_ends n _ p.2 (by omega) ?_ (by omega))
      · intro q ⟨h1, h2⟩
        exact Fine.ok ⟨hp1.trans h1, by show q.2.left ≤ _; omega⟩
      · intro hk i a r' hr'
        have := left_pos hk
        apply Fine.bind (ih .void r' (by omega))
        intro q h
        exact Fine.ok h
    · refine Fine.ok ⟨hp1.trans (Step.error _ _).p, ?_⟩
      show (Reader.error _ _).left ≤ _
      rw [left_error]; omega

theorem construct_fine (t : TyId) : Fine (env.construct t) (fun _ => True) := by
  unfold Env.construct
  split
  · exact Fine.err (by decide)
  · split
    · exact Fine.err (by decide)
    · exact Fine.ok trivial

theorem allocate_fine (t : TyId) : Fine (env.allocate t) (fun _ => True) := by
  unfold Env.allocate
  split
  · exact Fine.err (by decide)
  · split
    · exact construct_fine t
    · exact Fine.err (by decide)

/-- Parsing into a value ends: `B` bounds the number of pointers in a row. -/
theorem parseV_fine (hc : Good env c) (hT : env.Closed T) (hd : ∀ s, env.stod s ≠ .error .diverge) {rank : TyId → Nat} {B : Nat}
    (hB : ∀ ty, rank ty ≤ B) (hr : ∀ ty d t, T ty → env.Has ty d (.ptr t) → rank t < rank ty) :
    ∀ (n : Nat) (ty : TyId) (v : JV) (r : Reader), T ty → r.left * (B + 1) + rank ty + 3 < n →
    Fine (parseV env c n ty v r) (fun p => PStep r p.2 ∧ p.2.left ≤ r.left) := by
  intro n
  induction n with
  | zero => intro ty v r _ h; omega
  | succ n ih =>
    intro ty v r ht hn
    have hle : r.left ≤ r.left * (B + 1) := Nat.le_mul_of_pos_right _ (by omega)
    have hcall : ∀ (t : TyId), T t → r.ok = true → ∀ (d : JV) (r' : Reader), r'.left ≤ r.left - 1 →
        Fine (parseV env c n t d r') (fun p => PStep r' p.2 ∧ p.2.left ≤ r'.left) := by
      intro t ht hk d r' hr'
      have hp := left_pos hk
      apply ih t d r' ht
      have h1 : r'.left * (B + 1) ≤ (r.left - 1) * (B + 1) := Nat.mul_le_mul_right _ hr'
      have h2 : r.left * (B + 1) = (r.left - 1) * (B + 1) + (B + 1) := by
        obtain ⟨k, hk⟩ : ∃ k, r.left = k + 1 := ⟨r.left - 1, by omega⟩
        rw [hk, Nat.add_sub_cancel, Nat.succ_mul]
      have h3 := hB t
      omega
    cases hg : Assoc.get c ty with
    | none =>
      unfold parseV
      simp only [hg]
      exact Fine.err (by decide)
    | some st =>
      obtain ⟨td, sh, hh⟩ := hT.kind ty ht
      obtain ⟨st', g1, g2, g3, g4⟩ := good_get hc hh (by rw [hg]; rfl)
      rw [hg] at g1; injection g1 with g1; subst g1
      unfold parseV
      simp only [hg, g2]
      cases sh with
      | bool =>
        simp only [Shape.pk]
        apply Fine.bind (parseBool_fine r)
        intro p h
        split
        · exact Fine.ok h
        · exact Fine.err (by decide)
      | int =>
        simp only [Shape.pk]
        apply Fine.bind (parseInt_fine r)
        intro p h
        split
        · exact Fine.ok h
        · exact Fine.err (by decide)
      | float =>
        simp only [Shape.pk]
        apply Fine.bind (parseFloat_fine r)
        intro p h
        apply Fine.bind (stod_fine hd p.1)
        intro x _
        split
        · exact Fine.ok h
        · exact Fine.err (by decide)
      | string =>
        simp only [Shape.pk]
        apply Fine.bind (parseString_fine r)
        intro p h
        split
        · exact Fine.ok h
        · exact Fine.err (by decide)
      | ptr t =>
        obtain ⟨e1, e2⟩ := g3 t (Or.inl rfl)
        have htt := hT.ptr ty td t ht hh
        have hrk := hr ty td t ht hh
        simp only [Shape.pk, e1]
        apply Fine.bind (peekToken_fine r)
        intro p ⟨hp1, hp2, _, _⟩
        have hcl : ∀ d, Fine (parseV env c n t d p.2) (fun q => PStep p.2 q.2 ∧ q.2.left ≤ p.2.left) := by
          intro d
          apply ih t d p.2 htt
          have h1 : p.2.left * (B + 1) ≤ r.left * (B + 1) := Nat.mul_le_mul_right _ hp2
          omega
        split
        · apply Fine.bind (nextToken_fine p.2)
          intro q ⟨h1, h2, _⟩
          exact Fine.ok ⟨hp1.trans h1, by show q.2.left ≤ _; omega⟩
        · cases v with
          | ptr w =>
            apply Fine.bind (hcl w)
            intro q ⟨h1, h2⟩
            exact Fine.ok ⟨hp1.trans h1, by show q.2.left ≤ _; omega⟩
          | null =>
            apply Fine.bind (allocate_fine t)
            intro m _
            apply Fine.bind (hcl m)
            intro q ⟨h1, h2⟩
            exact Fine.ok ⟨hp1.trans h1, by show q.2.left ≤ _; omega⟩
          | _ => exact Fine.err (by decide)
      | list t =>
        obtain ⟨e1, e2⟩ := g3 t (Or.inr (Or.inl rfl))
        have htt := hT.list ty td t ht hh
        simp only [Shape.pk, e1]
        cases v with
        | list vs =>
          simp only
          apply Fine.bind (parseArray_ends n vs r (by omega) ?_ (by omega))
          · intro q h; exact Fine.ok h
          · intro hk i a r' hr'
            apply Fine.bind (construct_fine t)
            intro m _
            apply Fine.bind (hcall t htt hk m r' hr')
            intro q h
            split <;> exact Fine.ok h
        | _ => exact Fine.err (by decide)
      | map t =>
        obtain ⟨e1, e2⟩ := g3 t (Or.inr (Or.inr rfl))
        have htt := hT.map ty td t ht hh
        simp only [Shape.pk, e1]
        cases v with
        | map m =>
          simp only
          apply Fine.bind (parseObject_ends n m r (by omega) ?_ (by omega))
          · intro q h; exact Fine.ok h
          · intro hk i a r' hr'
            apply Fine.bind (construct_fine t)
            intro m _
            apply Fine.bind (hcall t htt hk m r' hr')
            intro q h
            split <;> exact Fine.ok h
        | _ => exact Fine.err (by decide)
      | void =>
        simp only [Shape.pk]
        exact untyped_fine hd n v r (by omega)
      | object =>
        simp only [Shape.pk]
        cases v with
        | obj fs =>
          simp only
          apply Fine.bind (parseObject_ends n fs r (by omega) ?_ (by omega))
          · intro q h; exact Fine.ok h
          · intro hk i a r' hr'
            simp only
            split
            · apply Fine.bind (skip_fine n r' (by omega))
              intro q h
              exact Fine.ok h
            · rename_i k hkey
              split
              · exact Fine.err (by decide)
              · rename_i t hf
                split
                · exact Fine.err (by decide)
                · rename_i x hx
                  have htt : T t := by
                    by_cases hm : i ∈ td.keys
                    · obtain ⟨f, hfm, hfa⟩ := List.mem_filterMap.mp hm
                      obtain ⟨k1, k2, _⟩ := (g4 rfl).1 f hfm i hfa
                      rw [hkey] at k1; injection k1 with k1; subst k1
                      rw [hf] at k2; injection k2 with k2; subst k2
                      exact hT.field ty td f ht hh hfm (by rw [hfa]; simp)
                    · have := (g4 rfl).2 i hm
                      rw [this] at hkey; cases hkey
                  apply Fine.bind (hcall t htt hk x r' hr')
                  intro q h
                  exact Fine.ok h
        | _ => exact Fine.err (by decide)

end Reflect.Json

import Verif.Lemmas.Json.Print
import Verif.Lemmas.Json.Cache
import Verif.Lemmas.Json.CacheW
/-
  Two caches whose parsers (printers) are fully initialised are as good as one another.
-/
namespace Reflect.Json

variable {env : Env}

theorem parseV_same {c c' : PCache} (hc : Good env c) (hc' : Good env c') : ∀ (n : Nat) (ty : TyId) (v : JV) (r : Reader),
    (Assoc.get c ty).isSome → (Assoc.get c' ty).isSome → parseV env c n ty v r = parseV env c' n ty v r
  | 0, _, _, _, _, _ => by rw [parseV, parseV]
  | n + 1, ty, v, r, h1, h2 => by
    have ih := parseV_same hc hc' n
    rw [parseV.eq_def, parseV.eq_def]
    simp only
    obtain ⟨st, hst⟩ := Option.isSome_iff_exists.mp h1
    obtain ⟨st', hst'⟩ := Option.isSome_iff_exists.mp h2
    obtain ⟨d, a1, a2, a3, a4, a5, a6⟩ := hc ty st hst
    obtain ⟨d', b1, b2, b3, b4, b5, b6⟩ := hc' ty st' hst'
    rw [a1] at b1; cases b1
    rw [hst, hst']
    simp only
    rw [a2, b2]
    cases hk : d.parserKind <;> try rfl
    · obtain ⟨t, e1, e2, e3⟩ := a3 hk
      obtain ⟨t', f1, f2, f3⟩ := b3 hk
      rw [e1] at f1; cases f1
      simp only
      rw [e2, f2]
      congr 1; funext p
      split
      · rfl
      · cases v <;> try rfl
        · simp only
          congr 1; funext m
          rw [ih t _ _ e3 f3]
        · simp only
          rw [ih t _ _ e3 f3]
    · obtain ⟨t, e1, e2, e3⟩ := a4 (Or.inl hk)
      obtain ⟨t', f1, f2, f3⟩ := b4 (Or.inl hk)
      rw [e1] at f1; cases f1
      simp only
      rw [e2, f2]
      cases v <;> try rfl
      simp only
      congr 2; funext k m r'
      congr 1; funext d
      rw [ih t _ _ e3 f3]
    · obtain ⟨t, e1, e2, e3⟩ := a4 (Or.inr hk)
      obtain ⟨t', f1, f2, f3⟩ := b4 (Or.inr hk)
      rw [e1] at f1; cases f1
      simp only
      rw [e2, f2]
      cases v <;> try rfl
      simp only
      congr 2; funext k m r'
      congr 1; funext d
      rw [ih t _ _ e3 f3]
    · obtain ⟨e1, _⟩ := a6 hk
      obtain ⟨f1, _⟩ := b6 hk
      simp only
      rw [e1, f1]
    · obtain ⟨e1, e2⟩ := a5 hk
      obtain ⟨f1, f2⟩ := b5 hk
      simp only
      cases v <;> try rfl
      simp only
      congr 2; funext k fs r'
      cases hx : Assoc.get st.keys k with
      | none =>
        cases hy : Assoc.get st'.keys k with
        | none => rfl
        | some y =>
          obtain ⟨f, g1, g2, g3⟩ := f2 k y hy
          rw [(e1 f g1 k g2).1] at hx; cases hx
      | some x =>
        obtain ⟨f, g1, g2, g3⟩ := e2 k x hx
        subst g3
        obtain ⟨i1, i2, i3⟩ := e1 f g1 k g2
        obtain ⟨j1, j2, j3⟩ := f1 f g1 k g2
        rw [j1]
        simp only
        rw [i2, j2]
        simp only
        cases Assoc.get fs f.name with
        | none => rfl
        | some x => simp only; rw [ih f.type _ _ i3 j3]

theorem printMembers_on {f g : Bytes → Writer → Res Writer} {sk sk' : Bytes → Res Bool} : ∀ (ks : List Bytes) (b : Bool) (w : Writer),
    (∀ k ∈ ks, (∀ w, f k w = g k w) ∧ sk k = sk' k) → printMembers f sk ks b w = printMembers g sk' ks b w
  | [], _, _, _ => rfl
  | k :: ks, b, w, h => by
    rw [printMembers, printMembers]
    have ih := fun b w => printMembers_on ks b w (fun k' hk' => h k' (by simp [hk']))
    rw [(h k (by simp)).2]
    have hf : f k = g k := funext (h k (by simp)).1
    rw [hf]
    simp only [ih]

theorem printObject_on {f g : Bytes → Writer → Res Writer} {sk sk' : Bytes → Res Bool} (ks : List Bytes) (w : Writer)
    (h : ∀ k ∈ ks, (∀ w, f k w = g k w) ∧ sk k = sk' k) : printObject f sk ks w = printObject g sk' ks w := by
  unfold printObject
  simp only [fun b w => printMembers_on ks b w h]

theorem isEmptyV_same {c c' : WCache} (hc : GoodW env c) (hc' : GoodW env c') : ∀ (v : JV) (ty : TyId),
    (Assoc.get c ty).isSome → (Assoc.get c' ty).isSome → isEmptyV env c v ty = isEmptyV env c' v ty
  | v, ty, h1, h2 => by
    rw [isEmptyV.eq_def, isEmptyV.eq_def]
    simp only
    obtain ⟨st, hst⟩ := Option.isSome_iff_exists.mp h1
    obtain ⟨st', hst'⟩ := Option.isSome_iff_exists.mp h2
    obtain ⟨d, a1, a2, a3, a4, a5, a6⟩ := hc ty st hst
    obtain ⟨d', b1, b2, b3, b4, b5, b6⟩ := hc' ty st' hst'
    rw [a1] at b1; cases b1
    rw [hst, hst']
    simp only
    rw [a2] at b2
    injection b2 with b2
    rw [← b2]
    cases hk : st.kind <;> try rfl
    obtain ⟨t, e1, e2, e3⟩ := a3 hk
    obtain ⟨t', f1, f2, f3⟩ := b3 (b2 ▸ hk)
    rw [e1] at f1; cases f1
    simp only
    rw [e2, f2]
    cases v <;> try rfl
    rename_i w
    exact isEmptyV_same hc hc' w t e3 f3

theorem printV_same {c c' : WCache} (hc : GoodW env c) (hc' : GoodW env c') : ∀ (n : Nat) (ty : TyId) (v : JV) (w : Writer),
    (Assoc.get c ty).isSome → (Assoc.get c' ty).isSome → printV env c n ty v w = printV env c' n ty v w
  | 0, _, _, _, _, _ => by rw [printV, printV]
  | n + 1, ty, v, w, h1, h2 => by
    have ih := printV_same hc hc' n
    rw [printV.eq_def, printV.eq_def]
    simp only
    obtain ⟨st, hst⟩ := Option.isSome_iff_exists.mp h1
    obtain ⟨st', hst'⟩ := Option.isSome_iff_exists.mp h2
    obtain ⟨d, a1, a2, a3, a4, a5, a6⟩ := hc ty st hst
    obtain ⟨d', b1, b2, b3, b4, b5, b6⟩ := hc' ty st' hst'
    rw [a1] at b1; cases b1
    rw [hst, hst']
    simp only
    rw [a2] at b2
    injection b2 with b2
    rw [← b2] at b3 b4 b5 b6 ⊢
    cases hk : st.kind <;> try rfl
    · obtain ⟨t, e1, e2, e3⟩ := a3 hk
      obtain ⟨t', f1, f2, f3⟩ := b3 hk
      rw [e1] at f1; cases f1
      simp only
      rw [e2, f2]
      cases v <;> try rfl
      exact ih t _ _ e3 f3
    · obtain ⟨t, e1, e2, e3⟩ := a4 (Or.inl hk)
      obtain ⟨t', f1, f2, f3⟩ := b4 (Or.inl hk)
      rw [e1] at f1; cases f1
      simp only
      rw [e2, f2]
      cases v <;> try rfl
      rename_i kvs
      simp only
      congr 1; funext k w'
      cases Assoc.get kvs k with
      | none => rfl
      | some x => exact ih t _ _ e3 f3
    · obtain ⟨t, e1, e2, e3⟩ := a4 (Or.inr hk)
      obtain ⟨t', f1, f2, f3⟩ := b4 (Or.inr hk)
      rw [e1] at f1; cases f1
      simp only
      rw [e2, f2]
      cases v <;> try rfl
      simp only
      congr 1; funext k w'
      exact ih t _ _ e3 f3
    · obtain ⟨e1, _⟩ := a6 hk
      obtain ⟨f1, _⟩ := b6 hk
      simp only
      rw [e1, f1]
    · obtain ⟨e1, e2, e3⟩ := a5 hk
      obtain ⟨f1, f2, f3⟩ := b5 hk
      simp only
      cases v <;> try rfl
      rename_i kvs
      simp only
      rw [e1, f1]
      apply printObject_on
      intro a ha
      have hmem : a ∈ d.keys := (sortKeys_perm _).mem_iff.mp ha
      obtain ⟨f, g1, g2⟩ := List.mem_filterMap.mp hmem
      obtain ⟨f, hl⟩ := last_exists d.fields f g1 g2
      obtain ⟨i1, i2, i3⟩ := e2 a f hl
      obtain ⟨j1, j2, j3⟩ := f2 a f hl
      have hskip : st.skipEmpty.contains a = st'.skipEmpty.contains a := by
        have := (e3 a).trans (f3 a).symm
        rw [Bool.eq_iff_iff, List.contains_iff_mem, List.contains_iff_mem]
        exact this
      constructor
      · intro w'
        rw [i1, j1]; simp only
        rw [i2, j2]; simp only
        cases Assoc.get kvs f.name with
        | none => rfl
        | some x => exact ih f.type _ _ i3 j3
      · rw [hskip]
        split
        · rfl
        · rw [i1, j1]; simp only
          rw [i2, j2]; simp only
          cases Assoc.get kvs f.name with
          | none => rfl
          | some x => exact isEmptyV_same hc hc' _ f.type i3 j3

end Reflect.Json

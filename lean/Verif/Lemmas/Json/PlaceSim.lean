import Verif.Model.Json.Parser
/- Two call-backs that do the same to states that are related lead to the same. -/
namespace Reflect.Json

/-- the same outcome, on states related by `R` -/
def RSim {σ τ : Type} (R : σ → τ → Prop) : Res (σ × Reader) → Res (τ × Reader) → Prop
  | .error e, q => q = .error e
  | .ok (a, r), q => ∃ b, q = .ok (b, r) ∧ R a b

theorem arrLoop_rsim {σ τ : Type} {R : σ → τ → Prop} {f : Nat → σ → Reader → Res (σ × Reader)} {g : Nat → τ → Reader → Res (τ × Reader)}
    (hfg : ∀ i a b r, R a b → RSim R (f i a r) (g i b r)) :
    ∀ n i a b r, R a b → RSim R (arrLoop f n i a r) (arrLoop g n i b r)
  | 0, _, _, _, _, _ => rfl
  | n + 1, i, a, b, r, hab => by
    unfold arrLoop
    by_cases hr : r.ok = true
    · rw [if_pos hr, if_pos hr]
      have h1 := hfg i a b r hab
      cases hf : f i a r with
      | error e => rw [hf] at h1; have h1 : g i b r = .error e := h1; rw [h1]; rfl
      | ok q =>
        obtain ⟨a', r'⟩ := q
        rw [hf] at h1
        obtain ⟨b', h1, h2⟩ : ∃ b', g i b r = .ok (b', r') ∧ R a' b' := h1
        rw [h1]
        show RSim R (Except.bind _ _) (Except.bind _ _)
        simp only [Except.bind]
        show RSim R (Except.bind _ _) (Except.bind _ _)
        cases r'.nextToken with
        | error e => rfl
        | ok e =>
          show RSim R (ite _ _ _) (ite _ _ _)
          split
          · exact ⟨b', rfl, h2⟩
          · show RSim R (Except.bind _ _) (Except.bind _ _)
            cases e.2.mayAssert e.1 .separator with
            | error e => rfl
            | ok _ => exact arrLoop_rsim hfg n (i + 1) a' b' _ h2
    · rw [if_neg hr, if_neg hr]
      exact ⟨b, rfl, hab⟩

theorem objLoop_rsim {σ τ : Type} {R : σ → τ → Prop} {f : Bytes → σ → Reader → Res (σ × Reader)} {g : Bytes → τ → Reader → Res (τ × Reader)}
    (hfg : ∀ k a b r, R a b → RSim R (f k a r) (g k b r)) :
    ∀ n a b r, R a b → RSim R (objLoop f n a r) (objLoop g n b r)
  | 0, _, _, _, _ => rfl
  | n + 1, a, b, r, hab => by
    unfold objLoop
    by_cases hr : r.ok = true
    · rw [if_pos hr, if_pos hr]
      show RSim R (Except.bind _ _) (Except.bind _ _)
      cases r.expectToken .string with
      | error e => rfl
      | ok q =>
      simp only [Except.bind]
      show RSim R (Except.bind _ _) (Except.bind _ _)
      cases q.1.asString q.2 with
      | error e => rfl
      | ok _ =>
      simp only [Except.bind]
      show RSim R (Except.bind _ _) (Except.bind _ _)
      cases q.2.expectToken .keySeparator with
      | error e => rfl
      | ok q =>
      simp only [Except.bind]
      have h1 := hfg q.2.buf a b q.2 hab
      show RSim R (Except.bind _ _) (Except.bind _ _)
      cases hf : f q.2.buf a q.2 with
      | error e => rw [hf] at h1; have h1 : g q.2.buf b q.2 = .error e := h1; rw [h1]; rfl
      | ok s =>
        obtain ⟨a', r'⟩ := s
        rw [hf] at h1
        obtain ⟨b', h1, h2⟩ : ∃ b', g q.2.buf b q.2 = .ok (b', r') ∧ R a' b' := h1
        rw [h1]
        simp only [Except.bind]
        show RSim R (Except.bind _ _) (Except.bind _ _)
        cases r'.nextToken with
        | error e => rfl
        | ok e =>
          simp only [Except.bind]
          split
          · exact ⟨b', rfl, h2⟩
          · show RSim R (Except.bind _ _) (Except.bind _ _)
            cases e.2.mayAssert e.1 .separator with
            | error e => rfl
            | ok _ => exact objLoop_rsim hfg n a' b' _ h2
    · rw [if_neg hr, if_neg hr]
      exact ⟨b, rfl, hab⟩

theorem parseArray_rsim {σ τ : Type} {R : σ → τ → Prop} {f : Nat → σ → Reader → Res (σ × Reader)} {g : Nat → τ → Reader → Res (τ × Reader)}
    (hfg : ∀ i a b r, R a b → RSim R (f i a r) (g i b r)) (n : Nat) (a : σ) (b : τ) (r : Reader) (hab : R a b) :
    RSim R (parseArray f n a r) (parseArray g n b r) := by
  unfold parseArray
  show RSim R (Except.bind _ _) (Except.bind _ _)
  cases r.nextToken with
  | error e => rfl
  | ok q =>
  simp only [Except.bind]
  split
  · exact ⟨b, rfl, hab⟩
  · show RSim R (Except.bind _ _) (Except.bind _ _)
    cases q.2.mayAssert q.1 .arrayStart with
    | error e => rfl
    | ok _ =>
    simp only [Except.bind]
    show RSim R (Except.bind _ _) (Except.bind _ _)
    cases (q.2.assertToken q.1 .arrayStart).2.peekToken with
    | error e => rfl
    | ok q =>
    simp only [Except.bind]
    split
    · show RSim R (Except.bind _ _) (Except.bind _ _)
      cases q.2.expectToken .arrayEnd with
      | error e => rfl
      | ok q => exact ⟨b, rfl, hab⟩
    · exact arrLoop_rsim hfg n 0 a b _ hab

theorem parseObject_rsim {σ τ : Type} {R : σ → τ → Prop} {f : Bytes → σ → Reader → Res (σ × Reader)} {g : Bytes → τ → Reader → Res (τ × Reader)}
    (hfg : ∀ k a b r, R a b → RSim R (f k a r) (g k b r)) (n : Nat) (a : σ) (b : τ) (r : Reader) (hab : R a b) :
    RSim R (parseObject f n a r) (parseObject g n b r) := by
  unfold parseObject
  show RSim R (Except.bind _ _) (Except.bind _ _)
  cases r.nextToken with
  | error e => rfl
  | ok q =>
  simp only [Except.bind]
  split
  · exact ⟨b, rfl, hab⟩
  · show RSim R (Except.bind _ _) (Except.bind _ _)
    cases q.2.mayAssert q.1 .objectStart with
    | error e => rfl
    | ok _ =>
    simp only [Except.bind]
    show RSim R (Except.bind _ _) (Except.bind _ _)
    cases (q.2.assertToken q.1 .objectStart).2.peekToken with
    | error e => rfl
    | ok q =>
    simp only [Except.bind]
    split
    · show RSim R (Except.bind _ _) (Except.bind _ _)
      cases q.2.expectToken .objectEnd with
      | error e => rfl
      | ok q => exact ⟨b, rfl, hab⟩
    · exact objLoop_rsim hfg n a b _ hab

end Reflect.Json

import Verif.Lemmas.Json.Share
/-
  Parsers satisfy what the machine needs.
-/
namespace Reflect.Json.Share

theorem after_append {σ : Type} (c : Assoc TyId σ) (a b : Writes σ) : after c (a ++ b) = after (after c a) b := by
  simp [after]

theorem after_cons {σ : Type} (c : Assoc TyId σ) (w : TyId × σ) (b : Writes σ) : after c (w :: b) = after (Assoc.set c w.1 w.2) b := rfl

theorem after_nil {σ : Type} (c : Assoc TyId σ) : after c [] = c := rfl

mutual
/-- the writes are those of `getParser` -/
theorem getParserW_eq (env : Env) : ∀ (n : Nat) (ty : TyId) (c : PCache),
    getParser env n ty c = ((getParserW env n ty c).1, after c (getParserW env n ty c).2)
  | 0, ty, c => by rw [getParser, getParserW]; rfl
  | n + 1, ty, c => by
    rw [getParser, getParserW]
    cases Assoc.get c ty with
    | some st => rfl
    | none =>
      simp only
      cases env.types[ty]? with
      | none => rfl
      | some d =>
        simp only
        cases d.parserKind <;> try rfl
        · simp only; rw [initInnerP_eq env n]; rfl
        · simp only; rw [initInnerP_eq env n]; rfl
        · simp only; rw [initInnerP_eq env n]; rfl
        · simp only; cases env.parseFn ty d.customParser <;> rfl
        · simp only; rw [initFieldsP_eq env n]; rfl
termination_by n _ _ => (n, 0)
theorem initInnerP_eq (env : Env) : ∀ (n : Nat) (ty : TyId) (st : PState) (ot : Option TyId) (c : PCache),
    initInner env n ty st ot c = ((initInnerP env n ty st ot c).1, after c (initInnerP env n ty st ot c).2)
  | n, ty, st, none, c => by rw [initInner, initInnerP]; rfl
  | n, ty, st, some t, c => by
    rw [initInner, initInnerP, getParserW_eq env n t c]
    cases (getParserW env n t c).1 with
    | error e => rfl
    | ok u => simp only [after_append]; rfl
termination_by n _ _ _ _ => (n, 1)
theorem initFieldsP_eq (env : Env) : ∀ (n : Nat) (ty : TyId) (fs : List FieldD) (st : PState) (c : PCache),
    initFields env n ty fs st c = ((initFieldsP env n ty fs st c).1, after c (initFieldsP env n ty fs st c).2)
  | n, ty, [], st, c => by rw [initFields, initFieldsP]; rfl
  | n, ty, f :: fs, st, c => by
    rw [initFields, initFieldsP]
    cases f.alias? with
    | none => exact initFieldsP_eq env n ty fs st c
    | some a =>
      simp only
      split
      · rfl
      · rw [getParserW_eq env n f.type]
        simp only
        cases (getParserW env n f.type (Assoc.set c ty { st with keys := Assoc.set st.keys a f.name })).1 with
        | error e => rfl
        | ok u =>
          simp only
          rw [initFieldsP_eq env n ty fs]
          simp only [after_append, after_cons]
termination_by n _ fs _ _ => (n, fs.length + 1)
end

/-- each write is to a type for which `ok` holds, which the writes before may have changed -/
theorem isSome_after {σ : Type} : ∀ (ws : Writes σ) (c : Assoc TyId σ) (t : TyId), (Assoc.get c t).isSome → (Assoc.get (after c ws) t).isSome
  | [], _, _, h => h
  | w :: ws, c, t, h => by
    rw [after_cons]
    refine isSome_after ws _ t ?_
    rw [Assoc.get_set]
    split
    · rfl
    · exact h

theorem isSome_set {σ : Type} (c : Assoc TyId σ) (ty : TyId) (st : σ) (t : TyId) (h : (Assoc.get c t).isSome) : (Assoc.get (Assoc.set c ty st) t).isSome :=
  isSome_after [(ty, st)] c t h

theorem none_of {σ : Type} {c : Assoc TyId σ} {ws : Writes σ} {t : TyId} (h : Assoc.get (after c ws) t = none) : Assoc.get c t = none := by
  cases hx : Assoc.get c t with
  | none => rfl
  | some x =>
    have := isSome_after ws c t (by rw [hx]; rfl)
    rw [h] at this; cases this

theorem none_set {σ : Type} {c : Assoc TyId σ} {ty t : TyId} {st : σ} (h : Assoc.get (Assoc.set c ty st) t = none) : Assoc.get c t = none :=
  none_of (ws := [(ty, st)]) h

mutual
/-- no parser object that was there is written to -/
theorem getParserW_fresh (env : Env) : ∀ (n : Nat) (ty : TyId) (c : PCache), ∀ w ∈ (getParserW env n ty c).2, Assoc.get c w.1 = none
  | 0, ty, c => by rw [getParserW]; intro w h; cases h
  | n + 1, ty, c => by
    rw [getParserW]
    cases hc : Assoc.get c ty with
    | some st => intro w h; cases h
    | none =>
      simp only
      cases env.types[ty]? with
      | none => intro w h; cases h
      | some d =>
        simp only
        have low : ∀ (ws : Writes PState) (st : PState), (∀ w ∈ ws, w.1 = ty ∨ Assoc.get (Assoc.set c ty st) w.1 = none) →
            ∀ w ∈ (ty, st) :: ws, Assoc.get c w.1 = none := by
          intro ws st h w hw
          rcases List.mem_cons.1 hw with rfl | hw
          · exact hc
          · rcases h w hw with e | e
            · rw [e]; exact hc
            · exact none_of (ws := [(ty, st)]) e
        cases d.parserKind with
        | pointer => exact low _ _ (initInnerP_fresh env n ty _ _ _)
        | map => exact low _ _ (initInnerP_fresh env n ty _ _ _)
        | list => exact low _ _ (initInnerP_fresh env n ty _ _ _)
        | custom =>
          simp only
          cases env.parseFn ty d.customParser with
          | none => exact low _ _ (by intro w h; cases h)
          | some f => exact low _ _ (by intro w h; simp only [List.mem_singleton] at h; subst h; exact Or.inl rfl)
        | object => exact low _ _ (initFieldsP_fresh env n ty _ _ _ (by rw [Assoc.get_set, if_pos rfl]; rfl))
        | _ => exact low _ _ (by intro w h; cases h)
termination_by n _ _ => (n, 0)
theorem initInnerP_fresh (env : Env) : ∀ (n : Nat) (ty : TyId) (st : PState) (ot : Option TyId) (c : PCache),
    ∀ w ∈ (initInnerP env n ty st ot c).2, w.1 = ty ∨ Assoc.get c w.1 = none
  | n, ty, st, none, c => by rw [initInnerP]; intro w h; cases h
  | n, ty, st, some t, c => by
    rw [initInnerP]
    have hf := getParserW_fresh env n t c
    cases (getParserW env n t c).1 with
    | error e => intro w hw; exact Or.inr (hf w hw)
    | ok u =>
      intro w hw
      rcases List.mem_append.1 hw with h | h
      · exact Or.inr (hf w h)
      · simp only [List.mem_singleton] at h; subst h; exact Or.inl rfl
termination_by n _ _ _ _ => (n, 1)
theorem initFieldsP_fresh (env : Env) : ∀ (n : Nat) (ty : TyId) (fs : List FieldD) (st : PState) (c : PCache), (Assoc.get c ty).isSome →
    ∀ w ∈ (initFieldsP env n ty fs st c).2, w.1 = ty ∨ Assoc.get c w.1 = none
  | n, ty, [], st, c, _ => by rw [initFieldsP]; intro w h; cases h
  | n, ty, f :: fs, st, c, hin => by
    rw [initFieldsP]
    cases f.alias? with
    | none => exact initFieldsP_fresh env n ty fs st c hin
    | some a =>
      simp only
      split
      · intro w h; cases h
      · have hf := getParserW_fresh env n f.type (Assoc.set c ty { st with keys := Assoc.set st.keys a f.name })
        have hg : ∀ w ∈ (getParserW env n f.type (Assoc.set c ty { st with keys := Assoc.set st.keys a f.name })).2,
            w.1 = ty ∨ Assoc.get c w.1 = none := fun w hw => Or.inr (none_of (ws := [(ty, _)]) (hf w hw))
        cases (getParserW env n f.type (Assoc.set c ty { st with keys := Assoc.set st.keys a f.name })).1 with
        | error e =>
          intro w hw
          rcases List.mem_cons.1 hw with rfl | hw
          · exact Or.inl rfl
          · exact hg w hw
        | ok u =>
          simp only
          intro w hw
          rcases List.mem_cons.1 hw with rfl | hw
          · exact Or.inl rfl
          · rcases List.mem_append.1 hw with hw | hw
            · exact hg w hw
            · rcases List.mem_cons.1 hw with rfl | hw
              · exact Or.inl rfl
              · rcases initFieldsP_fresh env n ty fs _ _ (isSome_set _ _ _ _ (isSome_after _ _ _ (isSome_set _ _ _ _ hin))) w hw with e | e
                · exact Or.inl e
                · exact Or.inr (none_set (none_of (none_set e)))
termination_by n _ fs _ _ _ => (n, fs.length + 1)
end

/-- the parsers that a parser object refers to -/
def PState.Refs (st : PState) (t : TyId) : Prop := st.inner = some t ∨ ∃ k, Assoc.get st.fields k = some t

/-- parsers refer to parsers that have been made -/
def ClosedP (c : PCache) : Prop := ∀ ty st t, Assoc.get c ty = some st → PState.Refs st t → (Assoc.get c t).isSome

theorem ClosedP.set {c : PCache} (h : ClosedP c) (ty : TyId) (st : PState) (hst : ∀ t, PState.Refs st t → t = ty ∨ (Assoc.get c t).isSome) :
    ClosedP (Assoc.set c ty st) := by
  intro ty' st' t hx hr
  rw [Assoc.get_set] at hx
  split at hx
  · cases hx
    rcases hst t hr with rfl | e
    · rw [Assoc.get_set, if_pos rfl]; rfl
    · exact isSome_set _ _ _ _ e
  · exact isSome_set _ _ _ _ (h ty' st' t hx hr)

mutual
theorem getParser_closed (env : Env) : ∀ (n : Nat) (ty : TyId) (c : PCache), ClosedP c → ClosedP (getParser env n ty c).2 ∧
    ((getParser env n ty c).1 = .ok () → (Assoc.get (getParser env n ty c).2 ty).isSome)
  | 0, ty, c, h => by rw [getParser]; exact ⟨h, fun e => by cases e⟩
  | n + 1, ty, c, h => by
    rw [getParser]
    cases hc : Assoc.get c ty with
    | some st => exact ⟨h, fun _ => by rw [hc]; rfl⟩
    | none =>
      simp only
      cases env.types[ty]? with
      | none => exact ⟨h, fun e => by cases e⟩
      | some d =>
        simp only
        have hin : ∀ st : PState, (Assoc.get (Assoc.set c ty st) ty).isSome := fun st => by rw [Assoc.get_set, if_pos rfl]; rfl
        have hnew : ∀ (k : PKind) (fn : Option Bytes), ClosedP (Assoc.set c ty { kind := k, fn := fn }) := fun k fn => h.set ty _ (by
          rintro t (e | ⟨k, e⟩)
          · cases e
          · cases e)
        have hno : ∀ (k : PKind) t, ¬ PState.Refs { kind := k } t := by
          rintro k t (e | ⟨k, e⟩)
          · cases e
          · cases e
        cases d.parserKind with
        | pointer => exact initInner_closed env n ty _ _ _ (hnew _ _) (hin _) (hno _)
        | map => exact initInner_closed env n ty _ _ _ (hnew _ _) (hin _) (hno _)
        | list => exact initInner_closed env n ty _ _ _ (hnew _ _) (hin _) (hno _)
        | custom =>
          simp only
          cases env.parseFn ty d.customParser with
          | none => exact ⟨hnew _ _, fun e => by cases e⟩
          | some f =>
            refine ⟨(hnew .custom none).set ty _ ?_, fun _ => by rw [Assoc.get_set, if_pos rfl]; rfl⟩
            rintro t (e | ⟨k, e⟩)
            · cases e
            · cases e
        | object => exact initFields_closed env n ty _ _ _ (hnew _ _) (hin _) (fun t e => absurd e (hno _ t)) rfl
        | _ => exact ⟨hnew _ _, fun _ => hin _⟩
termination_by n _ _ _ => (n, 0)
theorem initInner_closed (env : Env) : ∀ (n : Nat) (ty : TyId) (st : PState) (ot : Option TyId) (c : PCache), ClosedP c →
    (Assoc.get c ty).isSome → (∀ t, ¬ PState.Refs st t) → ClosedP (initInner env n ty st ot c).2 ∧
    ((initInner env n ty st ot c).1 = .ok () → (Assoc.get (initInner env n ty st ot c).2 ty).isSome)
  | n, ty, st, none, c, h, hin, hno => by rw [initInner]; exact ⟨h, fun _ => hin⟩
  | n, ty, st, some t, c, h, hin, hno => by
    rw [initInner]
    obtain ⟨h1, h2⟩ := getParser_closed env n t c h
    cases hx : (getParser env n t c).1 with
    | error e => exact ⟨h1, fun e => by cases e⟩
    | ok u =>
      simp only
      refine ⟨h1.set ty _ ?_, fun _ => by rw [Assoc.get_set, if_pos rfl]; rfl⟩
      rintro t' (e | ⟨k, e⟩)
      · cases e; exact Or.inr (h2 hx)
      · exact absurd (Or.inr ⟨k, e⟩) (hno t')
termination_by n _ _ _ _ _ _ _ => (n, 1)
theorem initFields_closed (env : Env) : ∀ (n : Nat) (ty : TyId) (fs : List FieldD) (st : PState) (c : PCache), ClosedP c →
    (Assoc.get c ty).isSome → (∀ t, PState.Refs st t → (Assoc.get c t).isSome) → st.inner = none → ClosedP (initFields env n ty fs st c).2 ∧
    ((initFields env n ty fs st c).1 = .ok () → (Assoc.get (initFields env n ty fs st c).2 ty).isSome)
  | n, ty, [], st, c, h, hin, hst, hi => by rw [initFields]; exact ⟨h, fun _ => hin⟩
  | n, ty, f :: fs, st, c, h, hin, hst, hi => by
    rw [initFields]
    cases f.alias? with
    | none => exact initFields_closed env n ty fs st c h hin hst hi
    | some a =>
      simp only
      split
      · exact ⟨h, fun _ => hin⟩
      · have h0 : ClosedP (Assoc.set c ty { st with keys := Assoc.set st.keys a f.name }) := h.set ty _ (fun t e => Or.inr (hst t e))
        obtain ⟨h1, h2⟩ := getParser_closed env n f.type _ h0
        have hk := getParser_kept env n f.type (Assoc.set c ty { st with keys := Assoc.set st.keys a f.name })
        have hk' : ∀ t, (Assoc.get c t).isSome →
            (Assoc.get (getParser env n f.type (Assoc.set c ty { st with keys := Assoc.set st.keys a f.name })).2 t).isSome := by
          intro t ht
          obtain ⟨x, hx⟩ := Option.isSome_iff_exists.mp (isSome_set c ty { st with keys := Assoc.set st.keys a f.name } t ht)
          rw [hk t x hx]; rfl
        cases hx : (getParser env n f.type (Assoc.set c ty { st with keys := Assoc.set st.keys a f.name })).1 with
        | error e => exact ⟨h1, fun e => by cases e⟩
        | ok u =>
          simp only
          have href : ∀ t, PState.Refs { st with keys := Assoc.set st.keys a f.name, fields := Assoc.emplace st.fields f.name f.type } t →
              (Assoc.get (getParser env n f.type (Assoc.set c ty { st with keys := Assoc.set st.keys a f.name })).2 t).isSome := by
            rintro t (e | ⟨k, e⟩)
            · simp only at e; rw [hi] at e; cases e
            · simp only at e
              rw [Assoc.get_emplace] at e
              cases hg : Assoc.get st.fields k with
              | some y =>
                rw [hg] at e; cases e
                exact hk' t (hst t (Or.inr ⟨k, hg⟩))
              | none =>
                rw [hg] at e
                simp only at e
                split at e
                · cases e; exact h2 hx
                · cases e
          refine initFields_closed env n ty fs _ _ (h1.set ty _ fun t e => Or.inr (href t e)) ?_ ?_ hi
          · rw [Assoc.get_set, if_pos rfl]; rfl
          · intro t e
            exact isSome_set _ _ _ _ (href t e)
termination_by n _ fs _ _ _ _ _ _ => (n, fs.length + 1)
end

/-- A parser in use depends only on the parsers that were there when it was obtained. -/
theorem parseS_near (env : Env) (look : Nat × TyId × JV × Reader → PCache) (c : PCache) (hc : ClosedP c) (hk : ∀ x, Keeps c (look x)) :
    ∀ (n : Nat) (ty : TyId) (v : JV) (r : Reader), (Assoc.get c ty).isSome → parseS env look n ty v r = parseV env c n ty v r
  | 0, _, _, _, _ => by rw [parseS, parseV]
  | n + 1, ty, v, r, hty => by
    have ih := parseS_near env look c hc hk n
    rw [parseS.eq_def, parseV.eq_def]
    simp only
    cases hx : Assoc.get c ty with
    | none => rw [hx] at hty; cases hty
    | some st =>
      rw [hk (n, ty, v, r) ty st hx]
      have href := fun t => hc ty st t hx
      simp only
      cases hki : st.kind <;> try rfl
      · simp only
        congr 1; funext p
        split
        · rfl
        · cases hin : st.inner with
          | none => cases v <;> rfl
          | some t =>
            cases v <;> try rfl
            · simp only
              congr 1; funext m
              rw [ih t _ _ (href t (Or.inl hin))]
            · simp only
              rw [ih t _ _ (href t (Or.inl hin))]
      · simp only
        cases hin : st.inner with
        | none => cases v <;> rfl
        | some t =>
          cases v <;> try rfl
          simp only
          congr 2; funext k m r'
          congr 1; funext d
          rw [ih t _ _ (href t (Or.inl hin))]
      · simp only
        cases hin : st.inner with
        | none => cases v <;> rfl
        | some t =>
          cases v <;> try rfl
          simp only
          congr 2; funext k m r'
          congr 1; funext d
          rw [ih t _ _ (href t (Or.inl hin))]
      · simp only
        cases v <;> try rfl
        simp only
        congr 2; funext k fs r'
        cases Assoc.get st.keys k with
        | none => rfl
        | some k =>
          simp only
          cases hf : Assoc.get st.fields k with
          | none => rfl
          | some t =>
            simp only
            cases Assoc.get fs k with
            | none => rfl
            | some x =>
              simp only
              rw [ih t _ _ (href t (Or.inr ⟨k, hf⟩))]

/-- parsers -/
theorem parsers_sound (env : Env) (n : Nat) : Sound (parsers env n) ClosedP (parse1 env n) where
  closed := by
    intro k c h
    have := (getParser_closed env n k.1 c h).1
    rw [getParserW_eq] at this
    exact this
  fresh := fun k c => getParserW_fresh env n k.1 c
  made := by
    intro k c h e
    have := (getParser_closed env n k.1 c h).2
    rw [getParserW_eq] at this
    exact this e
  near := by
    intro k c look hc hty hk
    have hty' : (Assoc.get c k.1).isSome := hty
    show parseS env look n _ _ _ = parseS env _ n _ _ _
    rw [parseS_near env look c hc hk n _ _ _ hty', parseS_near env _ c hc (fun _ => Keeps.refl _) n _ _ _ hty']
  call := by
    intro k c h
    have h1 := (getParser_closed env n k.1 c h)
    rw [getParserW_eq] at h1
    show parse env n c k.1 k.2.1 k.2.2 = (_, after c (getParserW env n k.1 c).2)
    unfold parse
    rw [getParserW_eq]
    simp only
    cases hx : (getParserW env n k.1 c).1 with
    | error e =>
      have : ((parsers env n).make k c).1 = .error e := hx
      simp only [this]
    | ok u =>
      have : ((parsers env n).make k c).1 = .ok u := hx
      simp only [this]
      have e : (parsers env n).use k (fun _ => after c ((parsers env n).make k c).2) =
        parseS env (fun _ => after c (getParserW env n k.1 c).2) n k.1 k.2.1 k.2.2 := rfl
      rw [e, parseS_near env _ _ h1.1 (fun _ => Keeps.refl _) n _ _ _ (h1.2 hx)]

end Reflect.Json.Share

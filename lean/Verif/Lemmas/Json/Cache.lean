import Verif.Model.Json.Typed
import Verif.Spec.JsonData
/- The cache of parsers. -/
namespace Reflect.Json

variable {env : Env}

/-- every entry of `c` is in `c'` -/
def Kept (c c' : PCache) : Prop := ∀ t st, Assoc.get c t = some st → Assoc.get c' t = some st

/-- every entry of `c` but that of `ty` is in `c'`, and that of `ty` is still there in some form -/
def KeptBut (ty : TyId) (c c' : PCache) : Prop :=
  (∀ t st, t ≠ ty → Assoc.get c t = some st → Assoc.get c' t = some st) ∧
    ((Assoc.get c ty).isSome → (Assoc.get c' ty).isSome)

theorem Kept.refl (c : PCache) : Kept c c := fun _ _ h => h
theorem Kept.trans {a b c : PCache} (h : Kept a b) (h2 : Kept b c) : Kept a c := fun t st x => h2 t st (h t st x)
theorem Kept.but {a b : PCache} (h : Kept a b) (ty : TyId) : KeptBut ty a b :=
  ⟨fun t st _ x => h t st x, fun x => by
    cases hx : Assoc.get a ty with
    | none => rw [hx] at x; cases x
    | some st => rw [h ty st hx]; rfl⟩
theorem KeptBut.trans {ty : TyId} {a b c : PCache} (h : KeptBut ty a b) (h2 : KeptBut ty b c) : KeptBut ty a c :=
  ⟨fun t st ht x => h2.1 t st ht (h.1 t st ht x), fun x => h2.2 (h.2 x)⟩

theorem keptBut_set (c : PCache) (ty : TyId) (st : PState) : KeptBut ty c (Assoc.set c ty st) := by
  refine ⟨fun t st' ht h => ?_, fun _ => ?_⟩
  · rw [Assoc.get_set, if_neg (fun e => ht e.symm)]; exact h
  · rw [Assoc.get_set, if_pos rfl]; rfl

mutual
theorem getParser_kept (env : Env) : ∀ (n : Nat) (ty : TyId) (c : PCache), Kept c (getParser env n ty c).2
  | 0, ty, c => by unfold getParser; exact Kept.refl c
  | n + 1, ty, c => by
    unfold getParser
    split
    · exact Kept.refl c
    · rename_i hnone
      have close : ∀ c', KeptBut ty c c' → Kept c c' := by
        intro c' h t st hx
        by_cases ht : t = ty
        · subst ht; rw [hnone] at hx; cases hx
        · exact h.1 t st ht hx
      split
      · exact Kept.refl c
      · rename_i d hd
        apply close
        simp only
        split
        · exact keptBut_set c ty _
        · exact keptBut_set c ty _
        · exact keptBut_set c ty _
        · exact keptBut_set c ty _
        · exact keptBut_set c ty _
        · exact (keptBut_set c ty _).trans (initInner_kept env n ty _ _ _)
        · exact (keptBut_set c ty _).trans (initInner_kept env n ty _ _ _)
        · exact (keptBut_set c ty _).trans (initInner_kept env n ty _ _ _)
        · split
          · exact keptBut_set c ty _
          · exact (keptBut_set c ty _).trans (keptBut_set _ ty _)
        · exact (keptBut_set c ty _).trans (initFields_kept env n ty _ _ _)
theorem initInner_kept (env : Env) : ∀ (n : Nat) (ty : TyId) (st : PState) (t : Option TyId) (c : PCache),
    KeptBut ty c (initInner env n ty st t c).2
  | n, ty, st, none, c => by unfold initInner; exact (Kept.refl c).but ty
  | n, ty, st, some t, c => by
    unfold initInner
    simp only
    split
    · exact (getParser_kept env n t c).but ty
    · exact ((getParser_kept env n t c).but ty).trans (keptBut_set _ ty _)
theorem initFields_kept (env : Env) : ∀ (n : Nat) (ty : TyId) (fs : List FieldD) (st : PState) (c : PCache),
    KeptBut ty c (initFields env n ty fs st c).2
  | n, ty, [], st, c => by unfold initFields; exact (Kept.refl c).but ty
  | n, ty, f :: fs, st, c => by
    unfold initFields
    split
    · exact initFields_kept env n ty fs st c
    · split
      · exact (Kept.refl c).but ty
      · simp only
        split
        · exact (keptBut_set c ty _).trans ((getParser_kept env n f.type _).but ty)
        · exact ((keptBut_set c ty _).trans ((getParser_kept env n f.type _).but ty)).trans
            ((keptBut_set _ ty _).trans (initFields_kept env n ty fs _ _))
end

/-- The parser object of `ty` in `c` is fully initialised. -/
def GoodP (env : Env) (c : PCache) (ty : TyId) (st : PState) : Prop :=
  ∃ d, env.types[ty]? = some d ∧ st.kind = d.parserKind ∧
    (d.parserKind = .pointer → ∃ t, d.pointee = some t ∧ st.inner = some t ∧ (Assoc.get c t).isSome) ∧
    (d.parserKind = .map ∨ d.parserKind = .list → ∃ t, d.valueType = some t ∧ st.inner = some t ∧ (Assoc.get c t).isSome) ∧
    (d.parserKind = .object →
      (∀ f ∈ d.fields, ∀ a, f.alias? = some a → Assoc.get st.keys a = some f.name ∧
        Assoc.get st.fields f.name = some f.type ∧ (Assoc.get c f.type).isSome) ∧
      (∀ a k, Assoc.get st.keys a = some k → ∃ f ∈ d.fields, f.alias? = some a ∧ f.name = k)) ∧
    (d.parserKind = .custom → st.fn = some d.customParser ∧ (env.parseFn ty d.customParser).isSome)

theorem GoodP.mono {c c' : PCache} {ty : TyId} {st : PState} (h : GoodP env c ty st)
    (hp : ∀ t, (Assoc.get c t).isSome → (Assoc.get c' t).isSome) : GoodP env c' ty st := by
  obtain ⟨d, h1, h2, h3, h4, h5, h6⟩ := h
  refine ⟨d, h1, h2, ?_, ?_, ?_, h6⟩
  · intro hk
    obtain ⟨t, e1, e2, e3⟩ := h3 hk
    exact ⟨t, e1, e2, hp t e3⟩
  · intro hk
    obtain ⟨t, e1, e2, e3⟩ := h4 hk
    exact ⟨t, e1, e2, hp t e3⟩
  · intro hk
    obtain ⟨e1, e2⟩ := h5 hk
    exact ⟨fun f hf a ha => ⟨(e1 f hf a ha).1, (e1 f hf a ha).2.1, hp _ (e1 f hf a ha).2.2⟩, e2⟩

theorem KeptBut.isSome {ty : TyId} {c c' : PCache} (h : KeptBut ty c c') (t : TyId)
    (ht : (Assoc.get c t).isSome) : (Assoc.get c' t).isSome := by
  by_cases e : t = ty
  · subst e; exact h.2 ht
  · cases hx : Assoc.get c t with
    | none => rw [hx] at ht; cases ht
    | some st => rw [h.1 t st e hx]; rfl

/-- every parser but those in `P` is fully initialised -/
def GoodExcept (env : Env) (P : TyId → Prop) (c : PCache) : Prop :=
  ∀ t st, Assoc.get c t = some st → P t ∨ GoodP env c t st

/-- the cache after the object of `ty` was changed -/
theorem GoodExcept.set {P : TyId → Prop} {c : PCache} (h : GoodExcept env P c) (ty : TyId) (st : PState)
    (hty : P ty) : GoodExcept env P (Assoc.set c ty st) := by
  intro t st' hx
  by_cases e : t = ty
  · subst e; exact Or.inl hty
  · rw [Assoc.get_set, if_neg (fun h => e h.symm)] at hx
    rcases h t st' hx with h1 | h1
    · exact Or.inl h1
    · exact Or.inr (h1.mono (fun t => (keptBut_set c ty st).isSome t))

/-- state of the object parser of `ty` once the fields `done` have been handled -/
structure Partly (env : Env) (c : PCache) (ty : TyId) (done : List FieldD) (st : PState) : Prop where
  kind : st.kind = .object
  get : Assoc.get c ty = some st
  fwd : ∀ f ∈ done, ∀ a, f.alias? = some a → Assoc.get st.keys a = some f.name ∧
        Assoc.get st.fields f.name = some f.type ∧ (Assoc.get c f.type).isSome
  back : ∀ a k, Assoc.get st.keys a = some k → ∃ f ∈ done, f.alias? = some a ∧ f.name = k
  names : ∀ k t, Assoc.get st.fields k = some t → ∃ f ∈ done, f.name = k

mutual
theorem getParser_good (hn : env.Named) : ∀ (n : Nat) (ty : TyId) (c c' : PCache) (P : TyId → Prop),
    getParser env n ty c = (.ok (), c') → GoodExcept env P c → GoodExcept env P c' ∧ (Assoc.get c' ty).isSome
  | 0, ty, c, c', P, h, _ => by unfold getParser at h; cases h
  | n + 1, ty, c, c', P, h, hg => by
    unfold getParser at h
    split at h
    · rename_i st hst
      injection h with _ h
      subst h
      exact ⟨hg, by rw [hst]; rfl⟩
    · rename_i hnone
      split at h
      · cases h
      · rename_i d hd
        have hg1 : ∀ st, GoodExcept env (fun t => P t ∨ t = ty) (Assoc.set c ty st) := fun st =>
          GoodExcept.set (fun t st hx => (hg t st hx).imp Or.inl id) ty st (Or.inr rfl)
        have hset : ∀ st, (Assoc.get (Assoc.set c ty st) ty) = some st := fun st => by
          rw [Assoc.get_set, if_pos rfl]
        -- the end: `ty` itself is good
        have close : ∀ c2 : PCache, GoodExcept env (fun t => P t ∨ t = ty) c2 →
            (∃ st, Assoc.get c2 ty = some st ∧ GoodP env c2 ty st) → GoodExcept env P c2 ∧ (Assoc.get c2 ty).isSome := by
          rintro c2 h1 ⟨st, h2, h3⟩
          refine ⟨fun t st' hx => ?_, by rw [h2]; rfl⟩
          rcases h1 t st' hx with (h4 | h4) | h4
          · exact Or.inl h4
          · subst h4
            rw [h2] at hx; injection hx with hx; subst hx
            exact Or.inr h3
          · exact Or.inr h4
        have scalar : ∀ k : PKind, d.parserKind = k → k ≠ .pointer → k ≠ .map → k ≠ .list → k ≠ .object → k ≠ .custom →
            GoodP env (Assoc.set c ty { kind := d.parserKind }) ty { kind := d.parserKind } := by
          intro k hk k1 k2 k3 k4 k5
          refine ⟨d, hd, rfl, fun e => absurd (hk.symm.trans e) k1, ?_, fun e => absurd (hk.symm.trans e) k4,
            fun e => absurd (hk.symm.trans e) k5⟩
          rintro (e | e)
          · exact absurd (hk.symm.trans e) k2
          · exact absurd (hk.symm.trans e) k3
        simp only at h
        split at h
        · rename_i hk
          injection h with _ h; subst h
          exact close _ (hg1 _) ⟨_, hset _, scalar _ hk (by simp) (by simp) (by simp) (by simp) (by simp)⟩
        · rename_i hk
          injection h with _ h; subst h
          exact close _ (hg1 _) ⟨_, hset _, scalar _ hk (by simp) (by simp) (by simp) (by simp) (by simp)⟩
        · rename_i hk
          injection h with _ h; subst h
          exact close _ (hg1 _) ⟨_, hset _, scalar _ hk (by simp) (by simp) (by simp) (by simp) (by simp)⟩
        · rename_i hk
          injection h with _ h; subst h
          exact close _ (hg1 _) ⟨_, hset _, scalar _ hk (by simp) (by simp) (by simp) (by simp) (by simp)⟩
        · rename_i hk
          injection h with _ h; subst h
          exact close _ (hg1 _) ⟨_, hset _, scalar _ hk (by simp) (by simp) (by simp) (by simp) (by simp)⟩
        · rename_i hk
          obtain ⟨t, ht, h1, h2, h3⟩ := initInner_good hn n ty _ _ _ c' _ h (Or.inr rfl) (hg1 _)
          refine close _ h1 ⟨_, h2, d, hd, rfl, fun _ => ⟨t, ht, rfl, h3⟩, ?_, fun e => ?_, fun e => ?_⟩
          · rintro (e | e) <;> (rw [hk] at e; cases e)
          · rw [hk] at e; cases e
          · rw [hk] at e; cases e
        · rename_i hk
          obtain ⟨t, ht, h1, h2, h3⟩ := initInner_good hn n ty _ _ _ c' _ h (Or.inr rfl) (hg1 _)
          refine close _ h1 ⟨_, h2, d, hd, rfl, fun e => ?_, fun _ => ⟨t, ht, rfl, h3⟩, fun e => ?_, fun e => ?_⟩
          · rw [hk] at e; cases e
          · rw [hk] at e; cases e
          · rw [hk] at e; cases e
        · rename_i hk
          obtain ⟨t, ht, h1, h2, h3⟩ := initInner_good hn n ty _ _ _ c' _ h (Or.inr rfl) (hg1 _)
          refine close _ h1 ⟨_, h2, d, hd, rfl, fun e => ?_, fun _ => ⟨t, ht, rfl, h3⟩, fun e => ?_, fun e => ?_⟩
          · rw [hk] at e; cases e
          · rw [hk] at e; cases e
          · rw [hk] at e; cases e
        · rename_i hk
          split at h
          · cases h
          · rename_i hfn
            injection h with _ h; subst h
            refine close _ (GoodExcept.set (hg1 _) ty _ (Or.inr rfl)) ⟨_, by rw [Assoc.get_set, if_pos rfl], d, hd, rfl,
              fun e => ?_, ?_, fun e => ?_, fun _ => ⟨rfl, by rw [hfn]; rfl⟩⟩
            · rw [hk] at e; cases e
            · rintro (e | e) <;> (rw [hk] at e; cases e)
            · rw [hk] at e; cases e
        · rename_i hk
          obtain ⟨st', h1, h2⟩ := initFields_good hn n ty d hd d.fields [] _ _ c' _ h rfl (Or.inr rfl)
            ⟨hk, hset _, (by simp), (by intro a k hx; cases hx), (by intro a k hx; cases hx)⟩ (hg1 _)
          refine close _ h1 ⟨_, h2.get, d, hd, h2.kind.trans hk.symm, fun e => ?_, ?_, fun _ => ⟨h2.fwd, h2.back⟩, fun e => ?_⟩
          · rw [hk] at e; cases e
          · rintro (e | e) <;> (rw [hk] at e; cases e)
          · rw [hk] at e; cases e
theorem initInner_good (hn : env.Named) : ∀ (n : Nat) (ty : TyId) (st : PState) (ot : Option TyId) (c c' : PCache)
    (P : TyId → Prop), initInner env n ty st ot c = (.ok (), c') → P ty → GoodExcept env P c →
    ∃ t, ot = some t ∧ GoodExcept env P c' ∧ Assoc.get c' ty = some { st with inner := some t } ∧ (Assoc.get c' t).isSome
  | n, ty, st, none, c, c', P, h, _, _ => by unfold initInner at h; cases h
  | n, ty, st, some t, c, c', P, h, hP, hg => by
    unfold initInner at h
    simp only at h
    split at h
    · cases h
    · rename_i u hu
      injection h with _ h
      have hp : getParser env n t c = (.ok (), (getParser env n t c).2) := by rw [← hu]
      obtain ⟨h1, h2⟩ := getParser_good hn n t c _ P hp hg
      subst h
      exact ⟨t, rfl, h1.set ty _ hP, by rw [Assoc.get_set, if_pos rfl], (keptBut_set _ ty _).isSome t h2⟩
theorem initFields_good (hn : env.Named) : ∀ (n : Nat) (ty : TyId) (d : TyD) (_ : env.types[ty]? = some d)
    (fs done : List FieldD) (st : PState) (c c' : PCache) (P : TyId → Prop),
    initFields env n ty fs st c = (.ok (), c') → d.fields = done ++ fs → P ty → Partly env c ty done st →
    GoodExcept env P c → ∃ st', GoodExcept env P c' ∧ Partly env c' ty d.fields st'
  | n, ty, d, hd, [], done, st, c, c', P, h, he, _, hp, hg => by
    unfold initFields at h
    injection h with _ h
    subst h
    rw [List.append_nil] at he
    rw [he]
    exact ⟨st, hg, hp⟩
  | n, ty, d, hd, f :: fs, done, st, c, c', P, h, he, hP, hp, hg => by
    unfold initFields at h
    have hdone : ∀ g ∈ done, g.name ≠ f.name := by
      have := hn ty d hd
      rw [he, List.map_append, List.nodup_append] at this
      intro g hg2 hh
      exact this.2.2 g.name (List.mem_map_of_mem hg2) f.name (by simp) hh
    split at h
    · rename_i hnone
      refine initFields_good hn n ty d hd fs (done ++ [f]) st c c' P h (by simp [he]) hP ⟨hp.kind, hp.get, ?_, ?_, ?_⟩ hg
      · intro g hg2 a ha
        rcases List.mem_append.mp hg2 with hg2 | hg2
        · exact hp.fwd g hg2 a ha
        · simp at hg2; subst hg2; rw [hnone] at ha; cases ha
      · intro a k hx
        obtain ⟨g, g1, g2⟩ := hp.back a k hx
        exact ⟨g, List.mem_append_left _ g1, g2⟩
      · intro k t hx
        obtain ⟨g, g1, g2⟩ := hp.names k t hx
        exact ⟨g, List.mem_append_left _ g1, g2⟩
    · rename_i a ha
      split at h
      · cases h
      · rename_i hfresh
        simp only at h
        split at h
        · cases h
        · rename_i u hu
          have hpk : getParser env n f.type (Assoc.set c ty { st with keys := Assoc.set st.keys a f.name }) =
            (.ok (), (getParser env n f.type (Assoc.set c ty { st with keys := Assoc.set st.keys a f.name })).2) := by
            rw [← hu]
          obtain ⟨h1, h2⟩ := getParser_good hn n f.type _ _ P hpk (hg.set ty _ hP)
          have hkeep := ((keptBut_set c ty { st with keys := Assoc.set st.keys a f.name }).trans
            ((getParser_kept env n f.type _).but ty)).trans (keptBut_set _ ty
              { st with keys := Assoc.set st.keys a f.name, fields := Assoc.emplace st.fields f.name f.type })
          have hfn : Assoc.get st.fields f.name = none := by
            cases hx : Assoc.get st.fields f.name with
            | none => rfl
            | some t =>
              obtain ⟨g, g1, g2⟩ := hp.names _ _ hx
              exact absurd g2 (hdone g g1)
          refine initFields_good hn n ty d hd fs (done ++ [f]) _ _ c' P h (by simp [he]) hP
            ⟨hp.kind, by rw [Assoc.get_set, if_pos rfl], ?_, ?_, ?_⟩ (h1.set ty _ hP)
          · intro g hg2 b hb
            rcases List.mem_append.mp hg2 with hg2 | hg2
            · obtain ⟨e1, e2, e3⟩ := hp.fwd g hg2 b hb
              refine ⟨?_, ?_, hkeep.isSome _ e3⟩
              · simp only
                rw [Assoc.get_set, if_neg, e1]
                intro hab
                subst hab
                rw [e1] at hfresh
                exact hfresh rfl
              · simp only
                rw [Assoc.get_emplace, e2]
            · simp at hg2
              subst hg2
              rw [ha] at hb
              injection hb with hb
              subst hb
              refine ⟨by simp only; rw [Assoc.get_set, if_pos rfl], ?_, (keptBut_set _ ty _).isSome _ h2⟩
              simp only
              rw [Assoc.get_emplace, hfn]
              simp
          · intro b k hx
            simp only at hx
            rw [Assoc.get_set] at hx
            split at hx
            · rename_i hab
              injection hx with hx
              subst hx; subst hab
              exact ⟨f, by simp, ha, rfl⟩
            · obtain ⟨g, g1, g2⟩ := hp.back b k hx
              exact ⟨g, List.mem_append_left _ g1, g2⟩
          · intro k t hx
            simp only at hx
            rw [Assoc.get_emplace] at hx
            cases hk : Assoc.get st.fields k with
            | some t' =>
              obtain ⟨g, g1, g2⟩ := hp.names k t' hk
              exact ⟨g, List.mem_append_left _ g1, g2⟩
            | none =>
              rw [hk] at hx
              simp only at hx
              split at hx
              · rename_i hh; exact ⟨f, by simp, hh⟩
              · cases hx
end

/-- Every parser in the cache is fully initialised. -/
def Good (env : Env) (c : PCache) : Prop := ∀ t st, Assoc.get c t = some st → GoodP env c t st

theorem good_nil : Good env [] := by intro t st h; cases h

theorem getParser_Good (hn : env.Named) {n : Nat} {ty : TyId} {c c' : PCache}
    (h : getParser env n ty c = (.ok (), c')) (hg : Good env c) : Good env c' ∧ (Assoc.get c' ty).isSome := by
  obtain ⟨h1, h2⟩ := getParser_good hn n ty c c' (fun _ => False) h (fun t st hx => Or.inr (hg t st hx))
  exact ⟨fun t st hx => (h1 t st hx).resolve_left id, h2⟩

/-! ### Termination -/

/-- the number of types without a parser -/
def missing (env : Env) (c : PCache) : Nat :=
  ((List.range env.types.length).filter (fun t => (Assoc.get c t).isNone)).length

theorem filter_length_le {α : Type} (p q : α → Bool) (l : List α) (h : ∀ x, q x = true → p x = true) :
    (l.filter q).length ≤ (l.filter p).length := by
  induction l with
  | nil => simp
  | cons a l ih =>
    simp only [List.filter_cons]
    by_cases hq : q a = true
    · rw [if_pos hq, if_pos (h a hq)]; simp only [List.length_cons]; omega
    · rw [if_neg hq]
      split
      · simp only [List.length_cons]; omega
      · exact ih

theorem filter_length_lt {α : Type} (p q : α → Bool) (l : List α) (h : ∀ x, q x = true → p x = true) (a : α)
    (ha : a ∈ l) (hp : p a = true) (hq : q a = false) : (l.filter q).length < (l.filter p).length := by
  induction l with
  | nil => cases ha
  | cons b l ih =>
    simp only [List.filter_cons]
    rcases List.mem_cons.mp ha with e | e
    · subst e
      rw [hp, hq]
      simp
      have := filter_length_le p q l h
      omega
    · have := ih e
      by_cases hqb : q b = true
      · rw [if_pos hqb, if_pos (h b hqb)]; simp only [List.length_cons]; omega
      · rw [if_neg hqb]
        split
        · simp only [List.length_cons]; omega
        · exact this

theorem missing_mono {ty : TyId} {c c' : PCache} (h : KeptBut ty c c') : missing env c' ≤ missing env c := by
  apply filter_length_le
  intro t ht
  cases hx : Assoc.get c t with
  | none => rfl
  | some st =>
    have := h.isSome t (by rw [hx]; rfl)
    cases hy : Assoc.get c' t with
    | none => rw [hy] at this; cases this
    | some st' => rw [hy] at ht; cases ht

theorem missing_set {c : PCache} {ty : TyId} (h : Assoc.get c ty = none) (hl : ty < env.types.length) (st : PState) :
    missing env (Assoc.set c ty st) < missing env c := by
  apply filter_length_lt _ _ _ _ ty (by simpa using hl) (by rw [h]; rfl) (by rw [Assoc.get_set, if_pos rfl]; rfl)
  intro t ht
  cases hx : Assoc.get c t with
  | none => rfl
  | some st' =>
    have := (keptBut_set c ty st).isSome t (by rw [hx]; rfl)
    cases hy : Assoc.get (Assoc.set c ty st) t with
    | none => rw [hy] at this; cases this
    | some st' => rw [hy] at ht; cases ht

mutual
theorem getParser_ends : ∀ (n : Nat) (ty : TyId) (c : PCache), missing env c < n →
    (getParser env n ty c).1 ≠ .error .diverge
  | 0, ty, c, h => by omega
  | n + 1, ty, c, h => by
    unfold getParser
    split
    · simp
    · rename_i hnone
      split
      · simp
      · rename_i d hd
        have hl : ty < env.types.length := by
          rcases List.getElem?_eq_some_iff.mp hd with ⟨hl, _⟩
          exact hl
        have hm := missing_set (env := env) hnone hl
        simp only
        split
        · simp
        · simp
        · simp
        · simp
        · simp
        · exact initInner_ends n ty _ _ _ (by have := hm { kind := d.parserKind }; omega)
        · exact initInner_ends n ty _ _ _ (by have := hm { kind := d.parserKind }; omega)
        · exact initInner_ends n ty _ _ _ (by have := hm { kind := d.parserKind }; omega)
        · split <;> simp
        · exact initFields_ends n ty _ _ _ (by have := hm { kind := d.parserKind }; omega)
theorem initInner_ends : ∀ (n : Nat) (ty : TyId) (st : PState) (t : Option TyId) (c : PCache), missing env c < n →
    (initInner env n ty st t c).1 ≠ .error .diverge
  | n, ty, st, none, c, h => by unfold initInner; simp
  | n, ty, st, some t, c, h => by
    unfold initInner
    simp only
    split
    · rename_i e he
      have := getParser_ends n t c h
      rw [he] at this
      exact this
    · simp
theorem initFields_ends : ∀ (n : Nat) (ty : TyId) (fs : List FieldD) (st : PState) (c : PCache), missing env c < n →
    (initFields env n ty fs st c).1 ≠ .error .diverge
  | n, ty, [], st, c, h => by unfold initFields; simp
  | n, ty, f :: fs, st, c, h => by
    unfold initFields
    split
    · exact initFields_ends n ty fs st c h
    · rename_i a ha
      split
      · simp
      · simp only
        have h1 := missing_mono (env := env) (keptBut_set c ty { st with keys := Assoc.set st.keys a f.name })
        split
        · rename_i e he
          have := getParser_ends n f.type _ (Nat.lt_of_le_of_lt h1 h)
          rw [he] at this
          exact this
        · refine initFields_ends n ty fs _ _ ?_
          refine Nat.lt_of_le_of_lt ?_ h
          exact missing_mono (((keptBut_set c ty _).trans ((getParser_kept env n f.type _).but ty)).trans (keptBut_set _ ty _))
end

end Reflect.Json

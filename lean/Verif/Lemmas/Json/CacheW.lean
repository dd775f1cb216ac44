import Verif.Lemmas.Json.LoadParse
/- The cache of printers. -/
namespace Reflect.Json

variable {env : Env}

/-- every entry of `c` is in `c'` -/
def KeptW (c c' : WCache) : Prop := ∀ t st, Assoc.get c t = some st → Assoc.get c' t = some st

/-- every entry of `c` but that of `ty` is in `c'`, and that of `ty` is still there in some form -/
def KeptWBut (ty : TyId) (c c' : WCache) : Prop :=
  (∀ t st, t ≠ ty → Assoc.get c t = some st → Assoc.get c' t = some st) ∧
    ((Assoc.get c ty).isSome → (Assoc.get c' ty).isSome)

theorem KeptW.refl (c : WCache) : KeptW c c := fun _ _ h => h
theorem KeptW.trans {a b c : WCache} (h : KeptW a b) (h2 : KeptW b c) : KeptW a c := fun t st x => h2 t st (h t st x)
theorem KeptW.but {a b : WCache} (h : KeptW a b) (ty : TyId) : KeptWBut ty a b :=
  ⟨fun t st _ x => h t st x, fun x => by
    cases hx : Assoc.get a ty with
    | none => rw [hx] at x; cases x
    | some st => rw [h ty st hx]; rfl⟩
theorem KeptWBut.trans {ty : TyId} {a b c : WCache} (h : KeptWBut ty a b) (h2 : KeptWBut ty b c) : KeptWBut ty a c :=
  ⟨fun t st ht x => h2.1 t st ht (h.1 t st ht x), fun x => h2.2 (h.2 x)⟩

theorem keptButW_set (c : WCache) (ty : TyId) (st : WState) : KeptWBut ty c (Assoc.set c ty st) := by
  refine ⟨fun t st' ht h => ?_, fun _ => ?_⟩
  · rw [Assoc.get_set, if_neg (fun e => ht e.symm)]; exact h
  · rw [Assoc.get_set, if_pos rfl]; rfl

mutual
theorem getPrinter_kept (env : Env) : ∀ (n : Nat) (ty : TyId) (c : WCache), KeptW c (getPrinter env n ty c).2
  | 0, ty, c => by unfold getPrinter; exact KeptW.refl c
  | n + 1, ty, c => by
    unfold getPrinter
    split
    · exact KeptW.refl c
    · rename_i hnone
      have close : ∀ c', KeptWBut ty c c' → KeptW c c' := by
        intro c' h t st hx
        by_cases ht : t = ty
        · subst ht; rw [hnone] at hx; cases hx
        · exact h.1 t st ht hx
      split
      · exact KeptW.refl c
      · rename_i d hd
        apply close
        split
        · exact (KeptW.refl c).but ty
        simp only
        split
        · exact keptButW_set c ty _
        · exact keptButW_set c ty _
        · exact keptButW_set c ty _
        · exact keptButW_set c ty _
        · exact (keptButW_set c ty _).trans (initInnerW_kept env n ty _ _ _)
        · exact (keptButW_set c ty _).trans (initInnerW_kept env n ty _ _ _)
        · exact (keptButW_set c ty _).trans (initInnerW_kept env n ty _ _ _)
        · split
          · exact keptButW_set c ty _
          · exact (keptButW_set c ty _).trans (keptButW_set _ ty _)
        · exact (keptButW_set c ty _).trans (initFieldsW_kept env n ty _ _ _)
theorem initInnerW_kept (env : Env) : ∀ (n : Nat) (ty : TyId) (st : WState) (t : Option TyId) (c : WCache),
    KeptWBut ty c (initInnerW env n ty st t c).2
  | n, ty, st, none, c => by unfold initInnerW; exact (KeptW.refl c).but ty
  | n, ty, st, some t, c => by
    unfold initInnerW
    simp only
    split
    · exact (getPrinter_kept env n t c).but ty
    · exact ((getPrinter_kept env n t c).but ty).trans (keptButW_set _ ty _)
theorem initFieldsW_kept (env : Env) : ∀ (n : Nat) (ty : TyId) (fs : List FieldD) (st : WState) (c : WCache),
    KeptWBut ty c (initFieldsW env n ty fs st c).2
  | n, ty, [], st, c => by unfold initFieldsW; exact keptButW_set c ty _
  | n, ty, f :: fs, st, c => by
    unfold initFieldsW
    split
    · exact initFieldsW_kept env n ty fs st c
    · split
      · exact (KeptW.refl c).but ty
      · simp only
        split
        · exact (keptButW_set c ty _).trans ((getPrinter_kept env n f.type _).but ty)
        · exact ((keptButW_set c ty _).trans ((getPrinter_kept env n f.type _).but ty)).trans
            ((keptButW_set _ ty _).trans (initFieldsW_kept env n ty fs _ _))
end


/-- `LastIn fs a f`: `f` is the last of the fields `fs` with key `a`. -/
def LastIn (fs : List FieldD) (a : Bytes) (f : FieldD) : Prop :=
  ∃ l1 l2, fs = l1 ++ f :: l2 ∧ f.key = some a ∧ ∀ g ∈ l2, g.key ≠ some a

theorem lastIn_snoc {fs : List FieldD} {a : Bytes} {f g : FieldD} (h : LastIn (fs ++ [f]) a g) :
    (g = f ∧ f.key = some a) ∨ (f.key ≠ some a ∧ LastIn fs a g) := by
  obtain ⟨l1, l2, h1, h2, h3⟩ := h
  rcases List.eq_nil_or_concat l2 with rfl | ⟨l, x, rfl⟩
  · have := List.append_inj_right' h1 rfl
    injection this with this _
    subst this
    exact Or.inl ⟨rfl, h2⟩
  · rw [List.concat_eq_append] at h1 h3
    have h1' : fs ++ [f] = (l1 ++ g :: l) ++ [x] := by rw [h1]; simp
    have e1 := List.append_inj_right' h1' rfl
    have e2 := List.append_inj_left' h1' rfl
    injection e1 with e1 _
    subst e1
    exact Or.inr ⟨h3 f (by simp), l1, l, e2, h2, fun y hy => h3 y (by simp [hy])⟩

/-- a field asks for empty values to be skipped -/
def SkipsIn (env : Env) (ty : TyId) (fs : List FieldD) (a : Bytes) : Prop :=
  ∃ f ∈ fs, f.key = some a ∧ ∃ t, f.json = some t ∧ t.skipEmpty.read (env.junk ty f.name) = true

theorem skipEmpty_iff {env : Env} {ty : TyId} {f : FieldD} :
    env.skipEmpty ty f = true ↔ ∃ t, f.json = some t ∧ t.skipEmpty.read (env.junk ty f.name) = true := by
  unfold Env.skipEmpty
  cases f.json with
  | none => simp
  | some t => simp

/-- The printer object of `ty` in `c` is fully initialised. -/
def GoodWP (env : Env) (c : WCache) (ty : TyId) (st : WState) : Prop :=
  ∃ d, env.types[ty]? = some d ∧ d.printerKind = some st.kind ∧
    (st.kind = .pointer → ∃ t, d.pointee = some t ∧ st.inner = some t ∧ (Assoc.get c t).isSome) ∧
    (st.kind = .map ∨ st.kind = .list → ∃ t, d.valueType = some t ∧ st.inner = some t ∧ (Assoc.get c t).isSome) ∧
    (st.kind = .object →
      st.sortedKeys = sortKeys d.keys ∧
      (∀ a f, LastIn d.fields a f → Assoc.get st.keys a = some f.name ∧
        Assoc.get st.fields f.name = some f.type ∧ (Assoc.get c f.type).isSome) ∧
      (∀ a, a ∈ st.skipEmpty ↔ SkipsIn env ty d.fields a)) ∧
    (st.kind = .custom → st.fn = some d.customPrinter ∧ (env.printFn ty d.customPrinter).isSome)

theorem GoodWP.mono {c c' : WCache} {ty : TyId} {st : WState} (h : GoodWP env c ty st)
    (hp : ∀ t, (Assoc.get c t).isSome → (Assoc.get c' t).isSome) : GoodWP env c' ty st := by
  obtain ⟨d, h1, h2, h3, h4, h5, h6⟩ := h
  refine ⟨d, h1, h2, ?_, ?_, ?_, h6⟩
  · intro hk
    obtain ⟨t, e1, e2, e3⟩ := h3 hk
    exact ⟨t, e1, e2, hp t e3⟩
  · intro hk
    obtain ⟨t, e1, e2, e3⟩ := h4 hk
    exact ⟨t, e1, e2, hp t e3⟩
  · intro hk
    obtain ⟨e0, e1, e2⟩ := h5 hk
    exact ⟨e0, fun a f hf => ⟨(e1 a f hf).1, (e1 a f hf).2.1, hp _ (e1 a f hf).2.2⟩, e2⟩

theorem KeptWBut.isSome {ty : TyId} {c c' : WCache} (h : KeptWBut ty c c') (t : TyId)
    (ht : (Assoc.get c t).isSome) : (Assoc.get c' t).isSome := by
  by_cases e : t = ty
  · subst e; exact h.2 ht
  · cases hx : Assoc.get c t with
    | none => rw [hx] at ht; cases ht
    | some st => rw [h.1 t st e hx]; rfl

/-- every printer but those in `P` is fully initialised -/
def GoodWExcept (env : Env) (P : TyId → Prop) (c : WCache) : Prop :=
  ∀ t st, Assoc.get c t = some st → P t ∨ GoodWP env c t st

theorem GoodWExcept.set {P : TyId → Prop} {c : WCache} (h : GoodWExcept env P c) (ty : TyId) (st : WState)
    (hty : P ty) : GoodWExcept env P (Assoc.set c ty st) := by
  intro t st' hx
  by_cases e : t = ty
  · subst e; exact Or.inl hty
  · rw [Assoc.get_set, if_neg (fun h => e h.symm)] at hx
    rcases h t st' hx with h1 | h1
    · exact Or.inl h1
    · exact Or.inr (h1.mono (fun t => (keptButW_set c ty st).isSome t))

/-- state of the object printer of `ty` once the fields `done` have been handled -/
structure PartlyW (env : Env) (c : WCache) (ty : TyId) (done : List FieldD) (st : WState) : Prop where
  kind : st.kind = .object
  get : Assoc.get c ty = some st
  keys : st.sortedKeys = done.filterMap FieldD.key
  last : ∀ a f, LastIn done a f → Assoc.get st.keys a = some f.name ∧
        Assoc.get st.fields f.name = some f.type ∧ (Assoc.get c f.type).isSome
  skips : ∀ a, a ∈ st.skipEmpty ↔ SkipsIn env ty done a
  names : ∀ k t, Assoc.get st.fields k = some t → ∃ f ∈ done, f.name = k

mutual
theorem getPrinter_good (hn : env.Named) : ∀ (n : Nat) (ty : TyId) (c c' : WCache) (P : TyId → Prop),
    getPrinter env n ty c = (.ok (), c') → GoodWExcept env P c → GoodWExcept env P c' ∧ (Assoc.get c' ty).isSome
  | 0, ty, c, c', P, h, _ => by unfold getPrinter at h; cases h
  | n + 1, ty, c, c', P, h, hg => by
    unfold getPrinter at h
    split at h
    · rename_i st hst
      injection h with _ h
      subst h
      exact ⟨hg, by rw [hst]; rfl⟩
    · rename_i hnone
      split at h
      · cases h
      · rename_i d hd
        have hg1 : ∀ st, GoodWExcept env (fun t => P t ∨ t = ty) (Assoc.set c ty st) := fun st =>
          GoodWExcept.set (fun t st hx => (hg t st hx).imp Or.inl id) ty st (Or.inr rfl)
        have hset : ∀ st, (Assoc.get (Assoc.set c ty st) ty) = some st := fun st => by
          rw [Assoc.get_set, if_pos rfl]
        have close : ∀ c2 : WCache, GoodWExcept env (fun t => P t ∨ t = ty) c2 →
            (∃ st, Assoc.get c2 ty = some st ∧ GoodWP env c2 ty st) → GoodWExcept env P c2 ∧ (Assoc.get c2 ty).isSome := by
          rintro c2 h1 ⟨st, h2, h3⟩
          refine ⟨fun t st' hx => ?_, by rw [h2]; rfl⟩
          rcases h1 t st' hx with (h4 | h4) | h4
          · exact Or.inl h4
          · subst h4
            rw [h2] at hx; injection hx with hx; subst hx
            exact Or.inr h3
          · exact Or.inr h4
        split at h
        · cases h
        rename_i k hk
        have scalar : ∀ k : WKind, d.printerKind = some k → k ≠ .pointer → k ≠ .map → k ≠ .list → k ≠ .object → k ≠ .custom →
            GoodWP env (Assoc.set c ty { kind := k }) ty { kind := k } := by
          intro k hk k1 k2 k3 k4 k5
          refine ⟨d, hd, hk, fun e => absurd e k1, ?_, fun e => absurd e k4, fun e => absurd e k5⟩
          rintro (e | e)
          · exact absurd e k2
          · exact absurd e k3
        simp only at h
        split at h
        · injection h with _ h; subst h
          exact close _ (hg1 _) ⟨_, hset _, scalar _ hk (by simp) (by simp) (by simp) (by simp) (by simp)⟩
        · injection h with _ h; subst h
          exact close _ (hg1 _) ⟨_, hset _, scalar _ hk (by simp) (by simp) (by simp) (by simp) (by simp)⟩
        · injection h with _ h; subst h
          exact close _ (hg1 _) ⟨_, hset _, scalar _ hk (by simp) (by simp) (by simp) (by simp) (by simp)⟩
        · injection h with _ h; subst h
          exact close _ (hg1 _) ⟨_, hset _, scalar _ hk (by simp) (by simp) (by simp) (by simp) (by simp)⟩
        · obtain ⟨t, ht, h1, h2, h3⟩ := initInnerW_good hn n ty _ _ _ c' _ h (Or.inr rfl) (hg1 _)
          refine close _ h1 ⟨_, h2, d, hd, hk, fun _ => ⟨t, ht, rfl, h3⟩, ?_, fun e => ?_, fun e => ?_⟩
          · rintro (e | e) <;> cases e
          · cases e
          · cases e
        · obtain ⟨t, ht, h1, h2, h3⟩ := initInnerW_good hn n ty _ _ _ c' _ h (Or.inr rfl) (hg1 _)
          refine close _ h1 ⟨_, h2, d, hd, hk, fun e => ?_, fun _ => ⟨t, ht, rfl, h3⟩, fun e => ?_, fun e => ?_⟩
          · cases e
          · cases e
          · cases e
        · obtain ⟨t, ht, h1, h2, h3⟩ := initInnerW_good hn n ty _ _ _ c' _ h (Or.inr rfl) (hg1 _)
          refine close _ h1 ⟨_, h2, d, hd, hk, fun e => ?_, fun _ => ⟨t, ht, rfl, h3⟩, fun e => ?_, fun e => ?_⟩
          · cases e
          · cases e
          · cases e
        · split at h
          · cases h
          · rename_i hfn
            injection h with _ h; subst h
            refine close _ (GoodWExcept.set (hg1 _) ty _ (Or.inr rfl)) ⟨_, by rw [Assoc.get_set, if_pos rfl], d, hd, hk,
              fun e => ?_, ?_, fun e => ?_, fun _ => ⟨rfl, by rw [hfn]; rfl⟩⟩
            · cases e
            · rintro (e | e) <;> cases e
            · cases e
        · obtain ⟨st', h1, h2⟩ := initFieldsW_good hn n ty d hd d.fields [] _ _ c' _ h rfl (Or.inr rfl)
            ⟨rfl, hset _, rfl, (by rintro a f ⟨l1, l2, e, _⟩; simp at e),
              (by intro a; simp [SkipsIn]), (by intro a k hx; cases hx)⟩ (hg1 _)
          refine close _ h1 ⟨_, h2.1, d, hd, hk.trans (by rw [h2.2.1]), fun e => ?_, ?_, fun _ => h2.2.2, fun e => ?_⟩
          · rw [h2.2.1] at e; cases e
          · rw [h2.2.1]; rintro (e | e) <;> cases e
          · rw [h2.2.1] at e; cases e
theorem initInnerW_good (hn : env.Named) : ∀ (n : Nat) (ty : TyId) (st : WState) (ot : Option TyId) (c c' : WCache)
    (P : TyId → Prop), initInnerW env n ty st ot c = (.ok (), c') → P ty → GoodWExcept env P c →
    ∃ t, ot = some t ∧ GoodWExcept env P c' ∧ Assoc.get c' ty = some { st with inner := some t } ∧ (Assoc.get c' t).isSome
  | n, ty, st, none, c, c', P, h, _, _ => by unfold initInnerW at h; cases h
  | n, ty, st, some t, c, c', P, h, hP, hg => by
    unfold initInnerW at h
    simp only at h
    split at h
    · cases h
    · rename_i u hu
      injection h with _ h
      have hp : getPrinter env n t c = (.ok (), (getPrinter env n t c).2) := by rw [← hu]
      obtain ⟨h1, h2⟩ := getPrinter_good hn n t c _ P hp hg
      subst h
      exact ⟨t, rfl, h1.set ty _ hP, by rw [Assoc.get_set, if_pos rfl], (keptButW_set _ ty _).isSome t h2⟩
theorem initFieldsW_good (hn : env.Named) : ∀ (n : Nat) (ty : TyId) (d : TyD) (_ : env.types[ty]? = some d)
    (fs done : List FieldD) (st : WState) (c c' : WCache) (P : TyId → Prop),
    initFieldsW env n ty fs st c = (.ok (), c') → d.fields = done ++ fs → P ty → PartlyW env c ty done st →
    GoodWExcept env P c → ∃ st', GoodWExcept env P c' ∧ Assoc.get c' ty = some st' ∧ st'.kind = .object ∧
      st'.sortedKeys = sortKeys d.keys ∧
      (∀ a f, LastIn d.fields a f → Assoc.get st'.keys a = some f.name ∧
        Assoc.get st'.fields f.name = some f.type ∧ (Assoc.get c' f.type).isSome) ∧
      (∀ a, a ∈ st'.skipEmpty ↔ SkipsIn env ty d.fields a)
  | n, ty, d, hd, [], done, st, c, c', P, h, he, hP, hp, hg => by
    unfold initFieldsW at h
    injection h with _ h
    subst h
    rw [List.append_nil] at he
    unfold TyD.keys
    rw [he]
    exact ⟨{ st with sortedKeys := sortKeys st.sortedKeys }, hg.set ty _ hP, by rw [Assoc.get_set, if_pos rfl], hp.kind, by rw [← hp.keys],
      fun a f hf => ⟨(hp.last a f hf).1, (hp.last a f hf).2.1, (keptButW_set _ ty _).isSome _ (hp.last a f hf).2.2⟩, hp.skips⟩
  | n, ty, d, hd, f :: fs, done, st, c, c', P, h, he, hP, hp, hg => by
    unfold initFieldsW at h
    have hdone : ∀ g ∈ done, g.name ≠ f.name := by
      have := hn ty d hd
      rw [he, List.map_append, List.nodup_append] at this
      intro g hg2 hh
      exact this.2.2 g.name (List.mem_map_of_mem hg2) f.name (by simp) hh
    split at h
    · rename_i hnone
      rw [alias?_eq_key] at hnone
      refine initFieldsW_good hn n ty d hd fs (done ++ [f]) st c c' P h (by simp [he]) hP
        ⟨hp.kind, hp.get, ?_, ?_, ?_, ?_⟩ hg
      · rw [hp.keys, List.filterMap_append]; simp [hnone]
      · intro a g hl
        rcases lastIn_snoc hl with ⟨_, e⟩ | ⟨_, e⟩
        · rw [hnone] at e; cases e
        · exact hp.last a g e
      · intro a
        rw [hp.skips]
        constructor
        · rintro ⟨g, g1, g2⟩
          exact ⟨g, List.mem_append_left _ g1, g2⟩
        · rintro ⟨g, g1, g2, g3⟩
          rcases List.mem_append.mp g1 with g1 | g1
          · exact ⟨g, g1, g2, g3⟩
          · simp at g1; subst g1; rw [hnone] at g2; cases g2
      · intro k t hx
        obtain ⟨g, g1, g2⟩ := hp.names k t hx
        exact ⟨g, List.mem_append_left _ g1, g2⟩
    · rename_i a ha
      rw [alias?_eq_key] at ha
      split at h
      · cases h
      · rename_i hfresh
        simp only at h
        split at h
        · cases h
        · rename_i u hu
          have hpk := Prod.ext (x := getPrinter env n f.type (Assoc.set c ty { st with keys := Assoc.set st.keys a f.name, sortedKeys := st.sortedKeys ++ [a], skipEmpty := if env.skipEmpty ty f then a :: st.skipEmpty else st.skipEmpty }))
            (y := (.ok (), _)) hu rfl
          obtain ⟨h1, h2⟩ := getPrinter_good hn n f.type _ _ P hpk (hg.set ty _ hP)
          have hkeep := fun st1 => ((keptButW_set c ty { st with keys := Assoc.set st.keys a f.name, sortedKeys := st.sortedKeys ++ [a], skipEmpty := if env.skipEmpty ty f then a :: st.skipEmpty else st.skipEmpty }).trans
            ((getPrinter_kept env n f.type _).but ty)).trans (keptButW_set _ ty st1)
          have hfn : Assoc.get st.fields f.name = none := by
            cases hx : Assoc.get st.fields f.name with
            | none => rfl
            | some t =>
              obtain ⟨g, g1, g2⟩ := hp.names _ _ hx
              exact absurd g2 (hdone g g1)
          refine initFieldsW_good hn n ty d hd fs (done ++ [f]) _ _ c' P h (by simp [he]) hP
            ⟨hp.kind, by rw [Assoc.get_set, if_pos rfl], ?_, ?_, ?_, ?_⟩ (h1.set ty _ hP)
          · simp only
            rw [hp.keys, List.filterMap_append]; simp [ha]
          · intro b g hl
            simp only
            rcases lastIn_snoc hl with ⟨e1, e2⟩ | ⟨e1, e2⟩
            · subst e1
              rw [ha] at e2; injection e2 with e2; subst e2
              refine ⟨by rw [Assoc.get_set, if_pos rfl], ?_, (keptButW_set _ ty _).isSome _ h2⟩
              rw [Assoc.get_emplace, hfn]
              simp
            · obtain ⟨k1, k2, k3⟩ := hp.last b g e2
              refine ⟨?_, ?_, (hkeep _).isSome _ k3⟩
              · rw [Assoc.get_set, if_neg, k1]
                intro hab
                subst hab
                exact e1 ha
              · rw [Assoc.get_emplace, k2]
          · intro b
            simp only
            constructor
            · intro hb
              split at hb
              · rename_i hse
                rcases List.mem_cons.mp hb with rfl | hb
                · exact ⟨f, by simp, ha, skipEmpty_iff.mp hse⟩
                · obtain ⟨g, g1, g2⟩ := (hp.skips b).mp hb
                  exact ⟨g, List.mem_append_left _ g1, g2⟩
              · obtain ⟨g, g1, g2⟩ := (hp.skips b).mp hb
                exact ⟨g, List.mem_append_left _ g1, g2⟩
            · rintro ⟨g, g1, g2, g3⟩
              rcases List.mem_append.mp g1 with g1 | g1
              · have := (hp.skips b).mpr ⟨g, g1, g2, g3⟩
                split
                · exact List.mem_cons_of_mem _ this
                · exact this
              · simp at g1; subst g1
                rw [ha] at g2; injection g2 with g2; subst g2
                rw [if_pos (skipEmpty_iff.mpr g3)]
                simp
          · intro k t hx
            simp only at hx
            rw [Assoc.get_emplace] at hx
            cases hk : Assoc.get st.fields k with
            | some t' =>
              obtain ⟨g, g1, g2⟩ := hp.names k t' hk
              exact ⟨g, List.mem_append_left _ g1, g2⟩
            | none =>
              rw [hk] at hx
              simp only at hx
              split at hx
              · rename_i hh; exact ⟨f, by simp, hh⟩
              · cases hx
end

/-- Every printer in the cache is fully initialised. -/
def GoodW (env : Env) (c : WCache) : Prop := ∀ t st, Assoc.get c t = some st → GoodWP env c t st

theorem goodW_nil : GoodW env [] := by intro t st h; cases h

theorem getPrinter_Good (hn : env.Named) {n : Nat} {ty : TyId} {c c' : WCache}
    (h : getPrinter env n ty c = (.ok (), c')) (hg : GoodW env c) : GoodW env c' ∧ (Assoc.get c' ty).isSome := by
  obtain ⟨h1, h2⟩ := getPrinter_good hn n ty c c' (fun _ => False) h (fun t st hx => Or.inr (hg t st hx))
  exact ⟨fun t st hx => (h1 t st hx).resolve_left id, h2⟩

/-! ### Termination -/

/-- the number of types without a printer -/
def missingW (env : Env) (c : WCache) : Nat :=
  ((List.range env.types.length).filter (fun t => (Assoc.get c t).isNone)).length

theorem missingW_mono {ty : TyId} {c c' : WCache} (h : KeptWBut ty c c') : missingW env c' ≤ missingW env c := by
  apply filter_length_le
  intro t ht
  cases hx : Assoc.get c t with
  | none => rfl
  | some st =>
    have := h.isSome t (by rw [hx]; rfl)
    cases hy : Assoc.get c' t with
    | none => rw [hy] at this; cases this
    | some st' => rw [hy] at ht; cases ht

theorem missingW_set {c : WCache} {ty : TyId} (h : Assoc.get c ty = none) (hl : ty < env.types.length) (st : WState) :
    missingW env (Assoc.set c ty st) < missingW env c := by
  apply filter_length_lt _ _ _ _ ty (by simpa using hl) (by rw [h]; rfl) (by rw [Assoc.get_set, if_pos rfl]; rfl)
  intro t ht
  cases hx : Assoc.get c t with
  | none => rfl
  | some st' =>
    have := (keptButW_set c ty st).isSome t (by rw [hx]; rfl)
    cases hy : Assoc.get (Assoc.set c ty st) t with
    | none => rw [hy] at this; cases this
    | some st' => rw [hy] at ht; cases ht

mutual
theorem getPrinter_ends : ∀ (n : Nat) (ty : TyId) (c : WCache), missingW env c < n →
    (getPrinter env n ty c).1 ≠ .error .diverge
  | 0, ty, c, h => by omega
  | n + 1, ty, c, h => by
    unfold getPrinter
    split
    · simp
    · rename_i hnone
      split
      · simp
      · rename_i d hd
        have hl : ty < env.types.length := by
          rcases List.getElem?_eq_some_iff.mp hd with ⟨hl, _⟩
          exact hl
        have hm := missingW_set (env := env) hnone hl
        split
        · simp
        rename_i k hk
        simp only
        split
        · simp
        · simp
        · simp
        · simp
        · exact initInnerW_ends n ty _ _ _ (by exact Nat.lt_of_lt_of_le (hm _) (by omega))
        · exact initInnerW_ends n ty _ _ _ (by exact Nat.lt_of_lt_of_le (hm _) (by omega))
        · exact initInnerW_ends n ty _ _ _ (by exact Nat.lt_of_lt_of_le (hm _) (by omega))
        · split <;> simp
        · exact initFieldsW_ends n ty _ _ _ (by exact Nat.lt_of_lt_of_le (hm _) (by omega))
theorem initInnerW_ends : ∀ (n : Nat) (ty : TyId) (st : WState) (t : Option TyId) (c : WCache), missingW env c < n →
    (initInnerW env n ty st t c).1 ≠ .error .diverge
  | n, ty, st, none, c, h => by unfold initInnerW; simp
  | n, ty, st, some t, c, h => by
    unfold initInnerW
    simp only
    split
    · rename_i e he
      have := getPrinter_ends n t c h
      rw [he] at this
      exact this
    · simp
theorem initFieldsW_ends : ∀ (n : Nat) (ty : TyId) (fs : List FieldD) (st : WState) (c : WCache), missingW env c < n →
    (initFieldsW env n ty fs st c).1 ≠ .error .diverge
  | n, ty, [], st, c, h => by unfold initFieldsW; simp
  | n, ty, f :: fs, st, c, h => by
    unfold initFieldsW
    split
    · exact initFieldsW_ends n ty fs st c h
    · rename_i a ha
      split
      · simp
      · simp only
        have h1 := missingW_mono (env := env) (keptButW_set c ty { st with keys := Assoc.set st.keys a f.name, sortedKeys := st.sortedKeys ++ [a], skipEmpty := if env.skipEmpty ty f then a :: st.skipEmpty else st.skipEmpty })
        split
        · rename_i e he
          have := getPrinter_ends n f.type _ (Nat.lt_of_le_of_lt h1 h)
          rw [he] at this
          exact this
        · refine initFieldsW_ends n ty fs _ _ ?_
          refine Nat.lt_of_le_of_lt ?_ h
          exact missingW_mono (((keptButW_set c ty _).trans ((getPrinter_kept env n f.type _).but ty)).trans (keptButW_set _ ty _))
end

end Reflect.Json

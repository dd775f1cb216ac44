import Verif.Lemmas.Json.Refuse
import Verif.Lemmas.Json.CacheW
namespace Reflect.Json

variable {env : Env}

/-- what `printerKind` says of the type -/
theorem printerKind_cases (d : TyD) :
    (match d.printerKind with
      | some .bool | some .float | some .int | some .string => d.Scalar
      | some .pointer => ¬ d.Scalar ∧ d.pointee.isSome
      | some .map | some .list => d.Container
      | some .custom => d.Custom d.customPrinter
      | none => d.Rest d.customPrinter ∧ d.isVoid = true
      | some .object => d.Rest d.customPrinter ∧ d.isVoid = false) := by
  unfold TyD.printerKind TyD.Container TyD.Custom TyD.Rest TyD.Scalar
  generalize d.customPrinter = cp
  cases hb : d.isBool <;> cases hf : d.isFloat <;> cases hi : d.isInt <;> cases hs : d.isString <;> simp
  cases hp : d.pointee <;> cases hm : d.isMap <;> cases hl : d.isList <;> simp
  by_cases hc : cp = [] <;> cases hv : d.isVoid <;> simp [hc]

abbrev inW (c : WCache) (t : TyId) : Prop := (Assoc.get c t).isSome

theorem inW_set (c : WCache) (ty : TyId) (st : WState) (t : TyId) : inW (Assoc.set c ty st) t ↔ t = ty ∨ inW c t := by
  unfold inW
  rw [Assoc.get_set]
  by_cases h : ty = t
  · simp [h]
  · rw [if_neg h]
    exact ⟨.inr, fun hh => hh.resolve_left (fun e => h e.symm)⟩

theorem KeptW.inW {c c' : WCache} (h : KeptW c c') {t : TyId} (ht : inW c t) : inW c' t := by
  unfold Json.inW at *
  cases hx : Assoc.get c t with
  | none => rw [hx] at ht; cases ht
  | some st => rw [h t st hx]; rfl

theorem KeptWBut.inW {ty : TyId} {c c' : WCache} (h : KeptWBut ty c c') {t : TyId} (ht : inW c t) : inW c' t := by
  by_cases e : t = ty
  · subst e; exact h.2 ht
  · unfold Json.inW at *
    cases hx : Assoc.get c t with
    | none => rw [hx] at ht; cases ht
    | some st => rw [h.1 t st e hx]; rfl

/-- the types with a printer in `c'` but not in `c` are printable and have the printers of their parts in `c'` -/
def NewOkW (env : Env) (c c' : WCache) : Prop := ∀ t, inW c' t → ¬ inW c t → env.types[t]? ≠ none ∧ ¬ Unprintable env t ∧
  ∀ u, Refers env TyD.customPrinter t u → inW c' u

theorem NewOkW.mono {env : Env} {c c1 c2 : WCache} (h : NewOkW env c c1) (hk : ∀ t, inW c1 t → inW c2 t)
    (h2 : NewOkW env c1 c2) : NewOkW env c c2 := by
  intro t ht hn
  by_cases h1 : inW c1 t
  · obtain ⟨a, b, d⟩ := h t h1 hn
    exact ⟨a, b, fun u hu => hk u (d u hu)⟩
  · exact h2 t ht h1

theorem NewOkW.refl (env : Env) (c : WCache) : NewOkW env c c := fun _ h hn => absurd h hn

/-- setting an entry that is there changes nothing -/
theorem NewOkW.set {c c' : WCache} {ty : TyId} (st : WState) (h : NewOkW env c c') (hi : inW c' ty) :
    NewOkW env c (Assoc.set c' ty st) := by
  intro t ht hn
  rw [inW_set] at ht
  have ht' : inW c' t := by
    rcases ht with rfl | ht
    · exact hi
    · exact ht
  obtain ⟨a, b, d⟩ := h t ht' hn
  exact ⟨a, b, fun u hu => (inW_set _ _ _ _).mpr (.inr (d u hu))⟩

theorem fieldsW_ok {n : Nat} {ty : TyId}
    (ih : ∀ t c c' u, getPrinter env n t c = (.ok u, c') → inW c' t ∧ NewOkW env c c') : ∀ (fs : List FieldD) (st : WState) (c c' : WCache) (u : Unit),
    initFieldsW env n ty fs st c = (.ok u, c') → inW c ty →
    (∀ f ∈ fs, f.key ≠ none → inW c' f.type) ∧ NewOkW env c c' := by
  intro fs
  induction fs with
  | nil =>
    intro st c c' u h hi
    unfold initFieldsW at h
    injection h with _ h
    subst h
    exact ⟨by simp, (NewOkW.refl env c).set _ hi⟩
  | cons f fs ihf =>
    intro st c c' u h hi
    unfold initFieldsW at h
    cases ha : f.alias? with
    | none =>
      simp only [ha] at h
      rw [alias?_eq_key] at ha
      obtain ⟨g1, g2⟩ := ihf st c c' u h hi
      refine ⟨?_, g2⟩
      intro g hg hk
      rcases List.mem_cons.mp hg with rfl | hg
      · exact absurd ha hk
      · exact g1 g hg hk
    | some a =>
      simp only [ha] at h
      rw [alias?_eq_key] at ha
      split at h
      · cases h
      · generalize hst : (⟨st.kind, st.inner, st.sortedKeys ++ [a],
          if env.skipEmpty ty f then a :: st.skipEmpty else st.skipEmpty, Assoc.set st.keys a f.name, st.fields, st.fn⟩ : WState) = st1 at h
        cases hp : getPrinter env n f.type (Assoc.set c ty st1) with
        | mk r c1 =>
          rw [hp] at h
          cases r with
          | error e => cases h
          | ok u1 =>
            simp only at h
            obtain ⟨p1, p2⟩ := ih _ _ _ _ hp
            have hk1 := getPrinter_kept env n f.type (Assoc.set c ty st1)
            rw [hp] at hk1
            have hi1 : inW c1 ty := hk1.inW ((inW_set _ _ _ _).mpr (.inl rfl))
            have n1 : NewOkW env c c1 := by
              intro t ht hn
              refine p2 t ht (fun hh => ?_)
              rcases (inW_set _ _ _ _).mp hh with rfl | hh
              · exact hn hi
              · exact hn hh
            have hks0 : ∀ st c, initFieldsW env n ty fs st c = (.ok u, c') → KeptWBut ty c c' := by
              intro st c h
              have := initFieldsW_kept env n ty fs st c
              rwa [h] at this
            have hks := hks0 _ _ h
            obtain ⟨g1, g2⟩ := ihf _ _ c' u h ((inW_set _ _ _ _).mpr (.inl rfl))
            have hback : ∀ t, inW c1 t → inW c' t := fun t ht => hks.inW ((inW_set _ _ _ _).mpr (.inr ht))
            refine ⟨?_, NewOkW.mono (n1.set _ hi1) (fun t ht => hks.inW ht) g2⟩
            intro g hg hk
            rcases List.mem_cons.mp hg with rfl | hg
            · exact hback _ p1
            · exact g1 g hg hk

theorem getPrinter_newOk : ∀ (n : Nat) (ty : TyId) (c c' : WCache) (u : Unit), getPrinter env n ty c = (.ok u, c') →
    inW c' ty ∧ NewOkW env c c' := by
  intro n
  induction n with
  | zero => intro ty c c' u h; unfold getPrinter at h; cases h
  | succ n ih =>
    intro ty c c' u h
    have ih' : ∀ t c c' u, getPrinter env n t c = (.ok u, c') → inW c' t ∧ NewOkW env c c' := ih
    unfold getPrinter at h
    cases hx : Assoc.get c ty with
    | some st =>
      simp only [hx] at h
      injection h with _ h
      subst h
      exact ⟨by unfold inW; rw [hx]; rfl, NewOkW.refl env c⟩
    | none =>
      simp only [hx] at h
      cases hd : env.types[ty]? with
      | none => simp only [hd] at h; cases h
      | some d =>
        simp only [hd] at h
        have hpc := printerKind_cases d
        -- the new entries, but for that of the type itself
        have fin : ∀ (st : WState) (c2 : WCache), inW c2 ty → NewOkW env (Assoc.set c ty st) c2 → ¬ Unprintable env ty →
            (∀ t, Refers env TyD.customPrinter ty t → inW c2 t) → inW c2 ty ∧ NewOkW env c c2 := by
          intro st c2 h1 h2 h3 h4
          refine ⟨h1, fun t ht hn => ?_⟩
          by_cases e : t = ty
          · subst e; exact ⟨by rw [hd]; simp, h3, h4⟩
          · exact h2 t ht (fun hh => by
              rcases (inW_set _ _ _ _).mp hh with hh | hh
              · exact e hh
              · exact hn hh)
        have unp : Unprintable env ty → (d.Container ∧ d.valueType = none) ∨
            (d.Custom d.customPrinter ∧ env.printFn ty d.customPrinter = none) ∨
            (d.Rest d.customPrinter ∧ d.isVoid = true) := by
          rintro ⟨d', h1, h2⟩
          rw [hd] at h1; injection h1 with h1; subst h1; exact h2
        have scalar : ∀ k : WKind, d.Scalar → (.ok (), Assoc.set c ty { kind := k }) = ((.ok u, c') : Res Unit × WCache) →
            inW c' ty ∧ NewOkW env c c' := by
          intro _ hs he
          injection he with _ he
          subst he
          refine fin _ _ ((inW_set _ _ _ _).mpr (.inl rfl)) (NewOkW.refl env _) ?_ ?_
          · intro hu
            rcases unp hu with ⟨⟨g, _⟩, _⟩ | ⟨⟨g, _⟩, _⟩ | ⟨⟨g, _⟩, _⟩ <;> exact g hs
          · intro t ht
            rcases refers_inv hd ht with ⟨g, _⟩ | ⟨⟨g, _⟩, _⟩ | ⟨⟨g, _⟩, _⟩ <;> exact absurd hs g
        have inner : ∀ (o : Option TyId) (st : WState), initInnerW env n ty st o (Assoc.set c ty st) = (.ok u, c') →
            (¬ Unprintable env ty) → (∀ t, Refers env TyD.customPrinter ty t → o = some t) → inW c' ty ∧ NewOkW env c c' := by
          intro o st he hu hr
          cases o with
          | none => unfold initInnerW at he; cases he
          | some t =>
            unfold initInnerW at he
            simp only at he
            cases hp : getPrinter env n t (Assoc.set c ty st) with
            | mk r c1 =>
              rw [hp] at he
              cases r with
              | error e => cases he
              | ok u1 =>
                simp only at he
                injection he with _ he
                subst he
                obtain ⟨p1, p2⟩ := ih' _ _ _ _ hp
                have hk1 := getPrinter_kept env n t (Assoc.set c ty st)
                rw [hp] at hk1
                have hi1 : inW c1 ty := hk1.inW ((inW_set _ _ _ _).mpr (.inl rfl))
                refine fin st _ ((inW_set _ _ _ _).mpr (.inl rfl)) (p2.set _ hi1) hu ?_
                intro t' ht'
                have := hr t' ht'
                injection this with this
                subst this
                exact (inW_set _ _ _ _).mpr (.inr p1)
        cases hk : d.printerKind with
        | none => simp only [hk] at h; cases h
        | some k =>
        cases k with
        | bool => simp only [hk] at h hpc; exact scalar _ hpc h
        | float => simp only [hk] at h hpc; exact scalar _ hpc h
        | int => simp only [hk] at h hpc; exact scalar _ hpc h
        | string => simp only [hk] at h hpc; exact scalar _ hpc h
        | pointer =>
          simp only [hk] at h hpc
          refine inner _ _ h ?_ ?_
          · intro hu
            rcases unp hu with ⟨⟨_, g, _⟩, _⟩ | ⟨⟨_, g, _⟩, _⟩ | ⟨⟨_, g, _⟩, _⟩ <;> (rw [g] at hpc; cases hpc.2)
          · intro t ht
            rcases refers_inv hd ht with ⟨_, g⟩ | ⟨⟨_, g, _⟩, _⟩ | ⟨⟨_, g, _⟩, _⟩
            · exact g
            · rw [g] at hpc; cases hpc.2
            · rw [g] at hpc; cases hpc.2
        | map =>
          simp only [hk] at h hpc
          refine inner _ _ h ?_ ?_
          · intro hu
            rcases unp hu with ⟨_, g⟩ | ⟨⟨_, _, g1, g2, _⟩, _⟩ | ⟨⟨_, _, g1, g2, _⟩, _⟩
            · rw [g] at h; unfold initInnerW at h; cases h
            · rcases hpc.2.2 with e | e
              · rw [g1] at e; cases e
              · rw [g2] at e; cases e
            · rcases hpc.2.2 with e | e
              · rw [g1] at e; cases e
              · rw [g2] at e; cases e
          · intro t ht
            rcases refers_inv hd ht with ⟨_, g⟩ | ⟨_, g⟩ | ⟨⟨_, _, g1, g2, _⟩, _⟩
            · rw [hpc.2.1] at g; cases g
            · exact g
            · rcases hpc.2.2 with e | e
              · rw [g1] at e; cases e
              · rw [g2] at e; cases e
        | list =>
          simp only [hk] at h hpc
          refine inner _ _ h ?_ ?_
          · intro hu
            rcases unp hu with ⟨_, g⟩ | ⟨⟨_, _, g1, g2, _⟩, _⟩ | ⟨⟨_, _, g1, g2, _⟩, _⟩
            · rw [g] at h; unfold initInnerW at h; cases h
            · rcases hpc.2.2 with e | e
              · rw [g1] at e; cases e
              · rw [g2] at e; cases e
            · rcases hpc.2.2 with e | e
              · rw [g1] at e; cases e
              · rw [g2] at e; cases e
          · intro t ht
            rcases refers_inv hd ht with ⟨_, g⟩ | ⟨_, g⟩ | ⟨⟨_, _, g1, g2, _⟩, _⟩
            · rw [hpc.2.1] at g; cases g
            · exact g
            · rcases hpc.2.2 with e | e
              · rw [g1] at e; cases e
              · rw [g2] at e; cases e
        | custom =>
          simp only [hk] at h hpc
          cases hf : env.printFn ty d.customPrinter with
          | none => simp only [hf] at h; cases h
          | some f =>
            simp only [hf] at h
            injection h with _ h
            subst h
            refine fin { kind := .custom } _ ((inW_set _ _ _ _).mpr (.inl rfl))
              ((NewOkW.refl env _).set _ ((inW_set _ _ _ _).mpr (.inl rfl))) ?_ ?_
            · intro hu
              rcases unp hu with ⟨⟨_, _, g⟩, _⟩ | ⟨_, g⟩ | ⟨⟨_, _, _, _, g⟩, _⟩
              · rw [hpc.2.2.1, hpc.2.2.2.1] at g; rcases g with g | g <;> cases g
              · rw [hf] at g; cases g
              · exact hpc.2.2.2.2 g
            · intro t ht
              rcases refers_inv hd ht with ⟨_, g⟩ | ⟨⟨_, _, g⟩, _⟩ | ⟨⟨_, _, _, _, g⟩, _⟩
              · rw [hpc.2.1] at g; cases g
              · rw [hpc.2.2.1, hpc.2.2.2.1] at g; rcases g with g | g <;> cases g
              · exact absurd g hpc.2.2.2.2
        | object =>
          simp only [hk] at h hpc
          obtain ⟨g1, g2⟩ := fieldsW_ok (env := env) (n := n) (ty := ty) ih' _ _ _ _ _ h ((inW_set _ _ _ _).mpr (.inl rfl))
          have hks := initFieldsW_kept env n ty d.fields { kind := .object } (Assoc.set c ty { kind := .object })
          rw [h] at hks
          refine fin _ _ (hks.inW ((inW_set _ _ _ _).mpr (.inl rfl))) g2 ?_ ?_
          · intro hu
            rcases unp hu with ⟨⟨_, _, g⟩, _⟩ | ⟨⟨_, _, _, _, g⟩, _⟩ | ⟨_, g⟩
            · rw [hpc.1.2.2.1, hpc.1.2.2.2.1] at g; rcases g with g | g <;> cases g
            · exact g hpc.1.2.2.2.2
            · rw [hpc.2] at g; cases g
          · intro t ht
            rcases refers_inv hd ht with ⟨_, g⟩ | ⟨⟨_, _, g⟩, _⟩ | ⟨_, _, f, hf, hkf, rfl⟩
            · rw [hpc.1.2.1] at g; cases g
            · rw [hpc.1.2.2.1, hpc.1.2.2.2.1] at g; rcases g with g | g <;> cases g
            · exact g1 f hf hkf

/-- a type whose lookup fails has a part that is to blame -/
def BlameW (env : Env) (ty : TyId) (e : Fault) : Prop :=
  e = .diverge ∨ ∃ t, Reaches env TyD.customPrinter ty t ∧
    ((e = .err ∧ Unprintable env t) ∨ (e = .ub ∧ env.types[t]? = none))

theorem BlameW.of_part {ty t : TyId} {e : Fault} (h : Refers env TyD.customPrinter ty t) (hb : BlameW env t e) : BlameW env ty e := by
  rcases hb with hb | ⟨u, h1, h2⟩
  · exact .inl hb
  · exact .inr ⟨u, .step _ _ _ h h1, h2⟩

theorem fieldsW_blame {n : Nat} {ty : TyId}
    (ih : ∀ t c c' e, getPrinter env n t c = (.error e, c') → BlameW env t e) : ∀ (fs : List FieldD) (st : WState) (c c' : WCache) (e : Fault),
    (fs.map (·.name)).Nodup → (∀ f ∈ fs, Assoc.get st.fields f.name = none) →
    initFieldsW env n ty fs st c = (.error e, c') → ∃ f ∈ fs, f.key ≠ none ∧ BlameW env f.type e := by
  intro fs
  induction fs with
  | nil => intro st c c' e _ _ h; unfold initFieldsW at h; cases h
  | cons f fs ihf =>
    intro st c c' e hnd hfr h
    simp only [List.map_cons, List.nodup_cons] at hnd
    unfold initFieldsW at h
    cases ha : f.alias? with
    | none =>
      simp only [ha] at h
      obtain ⟨g, g1, g2⟩ := ihf st c c' e hnd.2 (fun g hg => hfr g (by simp [hg])) h
      exact ⟨g, by simp [g1], g2⟩
    | some a =>
      simp only [ha] at h
      rw [alias?_eq_key] at ha
      rw [hfr f (by simp)] at h
      simp only [Option.isSome_none, Bool.false_eq_true, if_false] at h
      generalize hst : (⟨st.kind, st.inner, st.sortedKeys ++ [a],
          if env.skipEmpty ty f then a :: st.skipEmpty else st.skipEmpty, Assoc.set st.keys a f.name, st.fields, st.fn⟩ : WState) = st1 at h
      have hf1 : st1.fields = st.fields := by rw [← hst]
      cases hp : getPrinter env n f.type (Assoc.set c ty st1) with
      | mk r c1 =>
        rw [hp] at h
        cases r with
        | error e1 =>
          simp only at h
          injection h with h _
          injection h with h
          subst h
          exact ⟨f, by simp, by rw [ha]; simp, ih _ _ _ _ hp⟩
        | ok u1 =>
          simp only at h
          obtain ⟨g, g1, g2⟩ := ihf _ _ _ _ hnd.2 (fun g hg => by
            simp only [hf1]
            rw [Assoc.emplace, hfr f (by simp)]
            simp only [Assoc.get]
            rw [if_neg]
            · exact hfr g (by simp [hg])
            · intro hh
              exact hnd.1 (by rw [hh]; exact List.mem_map.mpr ⟨g, hg, rfl⟩)) h
          exact ⟨g, by simp [g1], g2⟩

theorem getPrinter_blame (hn : env.Named) : ∀ (n : Nat) (ty : TyId) (c c' : WCache) (e : Fault), getPrinter env n ty c = (.error e, c') →
    BlameW env ty e := by
  intro n
  induction n with
  | zero =>
    intro ty c c' e h; unfold getPrinter at h
    injection h with h _; injection h with h; exact .inl h.symm
  | succ n ih =>
    intro ty c c' e h
    unfold getPrinter at h
    cases hx : Assoc.get c ty with
    | some st => simp only [hx] at h; cases h
    | none =>
      simp only [hx] at h
      cases hd : env.types[ty]? with
      | none =>
        simp only [hd] at h
        injection h with h _; injection h with h
        exact .inr ⟨ty, .refl ty, .inr ⟨h.symm, hd⟩⟩
      | some d =>
        simp only [hd] at h
        have hpc := printerKind_cases d
        have inner : ∀ (o : Option TyId) (st : WState), initInnerW env n ty st o (Assoc.set c ty st) = (.error e, c') →
            (o = none → Unprintable env ty) → (∀ t, o = some t → Refers env TyD.customPrinter ty t) → BlameW env ty e := by
          intro o st he hu hr
          cases o with
          | none =>
            unfold initInnerW at he
            injection he with he _; injection he with he
            exact .inr ⟨ty, .refl ty, .inl ⟨he.symm, hu rfl⟩⟩
          | some t =>
            unfold initInnerW at he
            simp only at he
            cases hp : getPrinter env n t (Assoc.set c ty st) with
            | mk r c1 =>
              rw [hp] at he
              cases r with
              | error e1 =>
                simp only at he
                injection he with he _
                injection he with he
                subst he
                exact .of_part (hr t rfl) (ih _ _ _ _ hp)
              | ok u => cases he
        cases hk : d.printerKind with
        | none =>
          simp only [hk] at h hpc
          injection h with h _; injection h with h
          exact .inr ⟨ty, .refl ty, .inl ⟨h.symm, d, hd, .inr (.inr hpc)⟩⟩
        | some k =>
        cases k with
        | bool => simp only [hk] at h; cases h
        | float => simp only [hk] at h; cases h
        | int => simp only [hk] at h; cases h
        | string => simp only [hk] at h; cases h
        | pointer =>
          simp only [hk] at h hpc
          refine inner _ _ h ?_ (fun t ht => .pointee d hd hpc.1 ht)
          intro hn; rw [hn] at hpc; cases hpc.2
        | map =>
          simp only [hk] at h hpc
          exact inner _ _ h (fun hn => ⟨d, hd, .inl ⟨hpc, hn⟩⟩) (fun t ht => .element d hd hpc ht)
        | list =>
          simp only [hk] at h hpc
          exact inner _ _ h (fun hn => ⟨d, hd, .inl ⟨hpc, hn⟩⟩) (fun t ht => .element d hd hpc ht)
        | custom =>
          simp only [hk] at h hpc
          cases hf : env.printFn ty d.customPrinter with
          | some f => simp only [hf] at h; cases h
          | none =>
            simp only [hf] at h
            injection h with h _; injection h with h
            exact .inr ⟨ty, .refl ty, .inl ⟨h.symm, d, hd, .inr (.inl ⟨hpc, hf⟩)⟩⟩
        | object =>
          simp only [hk] at h hpc
          obtain ⟨f, f1, f2, f3⟩ := fieldsW_blame (env := env) (n := n) (ty := ty) ih _ _ _ _ _ (hn ty d hd) (fun _ _ => rfl) h
          exact .of_part (.field d f hd hpc.1 hpc.2 f1 f2 rfl) f3

/-- the first lookup with an empty cache -/
theorem getPrinter_iff (hn : env.Named) {n : Nat} {ty : TyId} (hr : ∀ t, Reaches env TyD.customPrinter ty t → env.types[t]? ≠ none)
    (hdiv : (getPrinter env n ty []).1 ≠ .error .diverge) :
    ((getPrinter env n ty []).1 = .error .err ↔ ∃ t, Reaches env TyD.customPrinter ty t ∧ Unprintable env t) ∧
      ((getPrinter env n ty []).1 = .error .err ∨ (getPrinter env n ty []).1 = .ok ()) := by
  cases hp : getPrinter env n ty [] with
  | mk r c' =>
    rw [hp] at hdiv
    cases r with
    | error e =>
      rcases getPrinter_blame hn n ty [] c' e hp with g | ⟨t, g1, ⟨rfl, g2⟩ | ⟨_, g2⟩⟩
      · subst g; exact absurd rfl hdiv
      · exact ⟨⟨fun _ => ⟨t, g1, g2⟩, fun _ => rfl⟩, .inl rfl⟩
      · exact absurd g2 (hr t g1)
    | ok u =>
      obtain ⟨g1, g2⟩ := getPrinter_newOk n ty [] c' u hp
      refine ⟨⟨fun h => (by cases h), ?_⟩, .inr rfl⟩
      rintro ⟨t, ht, hu⟩
      exfalso
      have : ∀ {a b}, Reaches env TyD.customPrinter a b → inW c' a → inW c' b := by
        intro a b hab
        induction hab with
        | refl => exact id
        | step a t b h1 _ ih => exact fun ha => ih ((g2 a ha (by intro hh; cases hh)).2.2 t h1)
      exact (g2 t (this ht g1) (by intro hh; cases hh)).2.1 hu

end Reflect.Json

import Verif.Spec.JsonRefuse
import Verif.Lemmas.Json.Cache
import Verif.Lemmas.Json.Fuel
namespace Reflect.Json

variable {env : Env}

theorem Reaches.trans {fn : TyD → Bytes} {a b c : TyId} (h : Reaches env fn a b) (h2 : Reaches env fn b c) :
    Reaches env fn a c := by
  induction h with
  | refl => exact h2
  | step ty t u h1 _ ih => exact .step ty t c h1 (ih h2)

/-- what `parserKind` says of the type -/
theorem parserKind_cases (d : TyD) :
    (match d.parserKind with
      | .bool | .float | .int | .string => d.Scalar
      | .pointer => ¬ d.Scalar ∧ d.pointee.isSome
      | .map | .list => d.Container
      | .custom => d.Custom d.customParser
      | .value => d.Rest d.customParser ∧ d.isVoid = true
      | .object => d.Rest d.customParser ∧ d.isVoid = false) := by
  unfold TyD.parserKind TyD.Container TyD.Custom TyD.Rest TyD.Scalar
  generalize d.customParser = cp
  cases hb : d.isBool <;> cases hf : d.isFloat <;> cases hi : d.isInt <;> cases hs : d.isString <;> simp
  cases hp : d.pointee <;> cases hm : d.isMap <;> cases hl : d.isList <;> simp
  by_cases hc : cp = [] <;> cases hv : d.isVoid <;> simp [hc]

abbrev inC (c : PCache) (t : TyId) : Prop := (Assoc.get c t).isSome

theorem inC_set (c : PCache) (ty : TyId) (st : PState) (t : TyId) : inC (Assoc.set c ty st) t ↔ t = ty ∨ inC c t := by
  unfold inC
  rw [Assoc.get_set]
  by_cases h : ty = t
  · simp [h]
  · rw [if_neg h]
    exact ⟨.inr, fun hh => hh.resolve_left (fun e => h e.symm)⟩

theorem Kept.inC {c c' : PCache} (h : Kept c c') {t : TyId} (ht : inC c t) : inC c' t := by
  unfold Json.inC at *
  cases hx : Assoc.get c t with
  | none => rw [hx] at ht; cases ht
  | some st => rw [h t st hx]; rfl

theorem KeptBut.inC {ty : TyId} {c c' : PCache} (h : KeptBut ty c c') {t : TyId} (ht : inC c t) : inC c' t := by
  by_cases e : t = ty
  · subst e; exact h.2 ht
  · unfold Json.inC at *
    cases hx : Assoc.get c t with
    | none => rw [hx] at ht; cases ht
    | some st => rw [h.1 t st e hx]; rfl

/-- the types with a parser in `c'` but not in `c` are parsable and have the parsers of their parts in `c'` -/
def NewOk (env : Env) (c c' : PCache) : Prop := ∀ t, inC c' t → ¬ inC c t → env.types[t]? ≠ none ∧ ¬ Unparsable env t ∧
  ∀ u, Refers env TyD.customParser t u → inC c' u

theorem NewOk.mono {env : Env} {c c1 c2 : PCache} (h : NewOk env c c1) (hk : ∀ t, inC c1 t → inC c2 t)
    (h2 : NewOk env c1 c2) : NewOk env c c2 := by
  intro t ht hn
  by_cases h1 : inC c1 t
  · obtain ⟨a, b, d⟩ := h t h1 hn
    exact ⟨a, b, fun u hu => hk u (d u hu)⟩
  · exact h2 t ht h1

theorem NewOk.refl (env : Env) (c : PCache) : NewOk env c c := fun _ h hn => absurd h hn

/-- setting an entry that is there changes nothing -/
theorem NewOk.set {c c' : PCache} {ty : TyId} (st : PState) (h : NewOk env c c') (hi : inC c' ty) :
    NewOk env c (Assoc.set c' ty st) := by
  intro t ht hn
  rw [inC_set] at ht
  have ht' : inC c' t := by
    rcases ht with rfl | ht
    · exact hi
    · exact ht
  obtain ⟨a, b, d⟩ := h t ht' hn
  exact ⟨a, b, fun u hu => (inC_set _ _ _ _).mpr (.inr (d u hu))⟩

theorem fields_ok {n : Nat} {ty : TyId}
    (ih : ∀ t c c' u, getParser env n t c = (.ok u, c') → inC c' t ∧ NewOk env c c') : ∀ (fs : List FieldD) (st : PState) (c c' : PCache) (u : Unit),
    initFields env n ty fs st c = (.ok u, c') → inC c ty →
    (∀ f ∈ fs, f.key ≠ none → inC c' f.type) ∧ NewOk env c c' ∧ (fs.filterMap FieldD.key).Nodup ∧
      ∀ a ∈ fs.filterMap FieldD.key, Assoc.get st.keys a = none := by
  intro fs
  induction fs with
  | nil =>
    intro st c c' u h hi
    unfold initFields at h
    injection h with _ h
    subst h
    exact ⟨by simp, NewOk.refl env c, by simp, by simp⟩
  | cons f fs ihf =>
    intro st c c' u h hi
    have hkept := initFields_kept env n ty (f :: fs) st c
    rw [h] at hkept
    unfold initFields at h
    cases ha : f.alias? with
    | none =>
      simp only [ha] at h
      rw [alias?_eq_key] at ha
      obtain ⟨g1, g2, g3, g4⟩ := ihf st c c' u h hi
      refine ⟨?_, g2, by simpa [ha] using g3, by simpa [ha] using g4⟩
      intro g hg hk
      rcases List.mem_cons.mp hg with rfl | hg
      · exact absurd ha hk
      · exact g1 g hg hk
    | some a =>
      simp only [ha] at h
      rw [alias?_eq_key] at ha
      split at h
      · cases h
      · rename_i hnew
        have hnone : Assoc.get st.keys a = none := by simpa using hnew
        cases hp : getParser env n f.type (Assoc.set c ty { st with keys := Assoc.set st.keys a f.name }) with
        | mk r c1 =>
          rw [hp] at h
          cases r with
          | error e => cases h
          | ok u1 =>
            simp only at h
            obtain ⟨p1, p2⟩ := ih _ _ _ _ hp
            have hk1 := getParser_kept env n f.type (Assoc.set c ty { st with keys := Assoc.set st.keys a f.name })
            rw [hp] at hk1
            have hi0 : inC (Assoc.set c ty { st with keys := Assoc.set st.keys a f.name }) ty := (inC_set _ _ _ _).mpr (.inl rfl)
            have hi1 : inC c1 ty := hk1.inC hi0
            have n1 : NewOk env c c1 := by
              intro t ht hn
              refine p2 t ht (fun hh => ?_)
              rcases (inC_set _ _ _ _).mp hh with rfl | hh
              · exact hn hi
              · exact hn hh
            have hks := initFields_kept env n ty fs { st with
              keys := Assoc.set st.keys a f.name, fields := Assoc.emplace st.fields f.name f.type }
              (Assoc.set c1 ty { st with
                keys := Assoc.set st.keys a f.name, fields := Assoc.emplace st.fields f.name f.type })
            rw [h] at hks
            obtain ⟨g1, g2, g3, g4⟩ := ihf _ _ c' u h ((inC_set _ _ _ _).mpr (.inl rfl))
            have hback : ∀ t, inC c1 t → inC c' t := fun t ht => hks.inC ((inC_set _ _ _ _).mpr (.inr ht))
            refine ⟨?_, NewOk.mono (n1.set _ hi1) (fun t ht => hks.inC ht) g2, ?_, ?_⟩
            · intro g hg hk
              rcases List.mem_cons.mp hg with rfl | hg
              · exact hback _ p1
              · exact g1 g hg hk
            · simp only [List.filterMap_cons, ha, List.nodup_cons]
              refine ⟨fun hm => ?_, g3⟩
              have := g4 a hm
              rw [Assoc.get_set, if_pos rfl] at this
              cases this
            · simp only [List.filterMap_cons, ha, List.mem_cons]
              rintro b (rfl | hb)
              · exact hnone
              · have := g4 b hb
                rw [Assoc.get_set] at this
                split at this
                · cases this
                · exact this

theorem refers_inv {fn : TyD → Bytes} {ty t : TyId} {d : TyD} (hd : env.types[ty]? = some d) (h : Refers env fn ty t) :
    (¬ d.Scalar ∧ d.pointee = some t) ∨ (d.Container ∧ d.valueType = some t) ∨
      (d.Rest (fn d) ∧ d.isVoid = false ∧ ∃ f ∈ d.fields, f.key ≠ none ∧ f.type = t) := by
  cases h with
  | pointee d' h1 h2 h3 => rw [hd] at h1; injection h1 with h1; subst h1; exact .inl ⟨h2, h3⟩
  | element d' h1 h2 h3 => rw [hd] at h1; injection h1 with h1; subst h1; exact .inr (.inl ⟨h2, h3⟩)
  | field d' f h1 h2 h3 h4 h5 h6 =>
    rw [hd] at h1; injection h1 with h1; subst h1; exact .inr (.inr ⟨h2, h3, f, h4, h5, h6⟩)

theorem getParser_newOk : ∀ (n : Nat) (ty : TyId) (c c' : PCache) (u : Unit), getParser env n ty c = (.ok u, c') →
    inC c' ty ∧ NewOk env c c' := by
  intro n
  induction n with
  | zero => intro ty c c' u h; unfold getParser at h; cases h
  | succ n ih =>
    intro ty c c' u h
    have ih' : ∀ t c c' u, getParser env n t c = (.ok u, c') → inC c' t ∧ NewOk env c c' := ih
    unfold getParser at h
    cases hx : Assoc.get c ty with
    | some st =>
      simp only [hx] at h
      injection h with _ h
      subst h
      exact ⟨by unfold inC; rw [hx]; rfl, NewOk.refl env c⟩
    | none =>
      simp only [hx] at h
      cases hd : env.types[ty]? with
      | none => simp only [hd] at h; cases h
      | some d =>
        simp only [hd] at h
        have hpc := parserKind_cases d
        -- the new entries, but for that of the type itself
        have fin : ∀ (st : PState) (c2 : PCache), inC c2 ty → NewOk env (Assoc.set c ty st) c2 → ¬ Unparsable env ty →
            (∀ t, Refers env TyD.customParser ty t → inC c2 t) → inC c2 ty ∧ NewOk env c c2 := by
          intro st c2 h1 h2 h3 h4
          refine ⟨h1, fun t ht hn => ?_⟩
          by_cases e : t = ty
          · subst e; exact ⟨by rw [hd]; simp, h3, h4⟩
          · exact h2 t ht (fun hh => by
              rcases (inC_set _ _ _ _).mp hh with hh | hh
              · exact e hh
              · exact hn hh)
        have unp : Unparsable env ty → (d.Container ∧ d.valueType = none) ∨
            (d.Custom d.customParser ∧ env.parseFn ty d.customParser = none) ∨
            (d.Rest d.customParser ∧ d.isVoid = false ∧ ¬ d.keys.Nodup) := by
          rintro ⟨d', h1, h2⟩
          rw [hd] at h1; injection h1 with h1; subst h1; exact h2
        have scalar : d.Scalar → (.ok (), Assoc.set c ty { kind := d.parserKind }) = ((.ok u, c') : Res Unit × PCache) →
            inC c' ty ∧ NewOk env c c' := by
          intro hs he
          injection he with _ he
          subst he
          refine fin _ _ ((inC_set _ _ _ _).mpr (.inl rfl)) (NewOk.refl env _) ?_ ?_
          · intro hu
            rcases unp hu with ⟨⟨g, _⟩, _⟩ | ⟨⟨g, _⟩, _⟩ | ⟨⟨g, _⟩, _⟩ <;> exact g hs
          · intro t ht
            rcases refers_inv hd ht with ⟨g, _⟩ | ⟨⟨g, _⟩, _⟩ | ⟨⟨g, _⟩, _⟩ <;> exact absurd hs g
        have inner : ∀ (o : Option TyId) (st : PState), initInner env n ty st o (Assoc.set c ty st) = (.ok u, c') →
            (¬ Unparsable env ty) → (∀ t, Refers env TyD.customParser ty t → o = some t) → inC c' ty ∧ NewOk env c c' := by
          intro o st he hu hr
          cases o with
          | none => unfold initInner at he; cases he
          | some t =>
            unfold initInner at he
            simp only at he
            cases hp : getParser env n t (Assoc.set c ty st) with
            | mk r c1 =>
              rw [hp] at he
              cases r with
              | error e => cases he
              | ok u1 =>
                simp only at he
                injection he with _ he
                subst he
                obtain ⟨p1, p2⟩ := ih' _ _ _ _ hp
                have hk1 := getParser_kept env n t (Assoc.set c ty st)
                rw [hp] at hk1
                have hi1 : inC c1 ty := hk1.inC ((inC_set _ _ _ _).mpr (.inl rfl))
                refine fin st _ ((inC_set _ _ _ _).mpr (.inl rfl)) (p2.set _ hi1) hu ?_
                intro t' ht'
                have := hr t' ht'
                injection this with this
                subst this
                exact (inC_set _ _ _ _).mpr (.inr p1)
        cases hk : d.parserKind with
        | bool => simp only [hk] at h hpc; exact scalar hpc (by rw [hk]; exact h)
        | float => simp only [hk] at h hpc; exact scalar hpc (by rw [hk]; exact h)
        | int => simp only [hk] at h hpc; exact scalar hpc (by rw [hk]; exact h)
        | string => simp only [hk] at h hpc; exact scalar hpc (by rw [hk]; exact h)
        | pointer =>
          simp only [hk] at h hpc
          refine inner _ _ h ?_ ?_
          · intro hu
            rcases unp hu with ⟨⟨_, g, _⟩, _⟩ | ⟨⟨_, g, _⟩, _⟩ | ⟨⟨_, g, _⟩, _⟩ <;> (rw [g] at hpc; cases hpc.2)
          · intro t ht
            rcases refers_inv hd ht with ⟨_, g⟩ | ⟨⟨_, g, _⟩, _⟩ | ⟨⟨_, g, _⟩, _⟩
            · exact g
            · rw [g] at hpc; cases hpc.2
            · rw [g] at hpc; cases hpc.2
        | map =>
          simp only [hk] at h hpc
          refine inner _ _ h ?_ ?_
          · intro hu
            rcases unp hu with ⟨_, g⟩ | ⟨⟨_, _, g1, g2, _⟩, _⟩ | ⟨⟨_, _, g1, g2, _⟩, _⟩
            · rw [g] at h; unfold initInner at h; cases h
            · rcases hpc.2.2 with e | e
              · rw [g1] at e; cases e
              · rw [g2] at e; cases e
            · rcases hpc.2.2 with e | e
              · rw [g1] at e; cases e
              · rw [g2] at e; cases e
          · intro t ht
            rcases refers_inv hd ht with ⟨_, g⟩ | ⟨_, g⟩ | ⟨⟨_, _, g1, g2, _⟩, _⟩
            · rw [hpc.2.1] at g; cases g
            · exact g
            · rcases hpc.2.2 with e | e
              · rw [g1] at e; cases e
              · rw [g2] at e; cases e
        | list =>
          simp only [hk] at h hpc
          refine inner _ _ h ?_ ?_
          · intro hu
            rcases unp hu with ⟨_, g⟩ | ⟨⟨_, _, g1, g2, _⟩, _⟩ | ⟨⟨_, _, g1, g2, _⟩, _⟩
            · rw [g] at h; unfold initInner at h; cases h
            · rcases hpc.2.2 with e | e
              · rw [g1] at e; cases e
              · rw [g2] at e; cases e
            · rcases hpc.2.2 with e | e
              · rw [g1] at e; cases e
              · rw [g2] at e; cases e
          · intro t ht
            rcases refers_inv hd ht with ⟨_, g⟩ | ⟨_, g⟩ | ⟨⟨_, _, g1, g2, _⟩, _⟩
            · rw [hpc.2.1] at g; cases g
            · exact g
            · rcases hpc.2.2 with e | e
              · rw [g1] at e; cases e
              · rw [g2] at e; cases e
        | custom =>
          simp only [hk] at h hpc
          cases hf : env.parseFn ty d.customParser with
          | none => simp only [hf] at h; cases h
          | some f =>
            simp only [hf] at h
            injection h with _ h
            subst h
            refine fin { kind := .custom } _ ((inC_set _ _ _ _).mpr (.inl rfl))
              ((NewOk.refl env _).set _ ((inC_set _ _ _ _).mpr (.inl rfl))) ?_ ?_
            · intro hu
              rcases unp hu with ⟨⟨_, _, g⟩, _⟩ | ⟨_, g⟩ | ⟨⟨_, _, _, _, g⟩, _⟩
              · rw [hpc.2.2.1, hpc.2.2.2.1] at g; rcases g with g | g <;> cases g
              · rw [hf] at g; cases g
              · exact hpc.2.2.2.2 g
            · intro t ht
              rcases refers_inv hd ht with ⟨_, g⟩ | ⟨⟨_, _, g⟩, _⟩ | ⟨⟨_, _, _, _, g⟩, _⟩
              · rw [hpc.2.1] at g; cases g
              · rw [hpc.2.2.1, hpc.2.2.2.1] at g; rcases g with g | g <;> cases g
              · exact absurd g hpc.2.2.2.2
        | value =>
          simp only [hk] at h hpc
          injection h with _ h
          subst h
          refine fin _ _ ((inC_set _ _ _ _).mpr (.inl rfl)) (NewOk.refl env _) ?_ ?_
          · intro hu
            rcases unp hu with ⟨⟨_, _, g⟩, _⟩ | ⟨⟨_, _, _, _, g⟩, _⟩ | ⟨_, g, _⟩
            · rw [hpc.1.2.2.1, hpc.1.2.2.2.1] at g; rcases g with g | g <;> cases g
            · exact g hpc.1.2.2.2.2
            · rw [hpc.2] at g; cases g
          · intro t ht
            rcases refers_inv hd ht with ⟨_, g⟩ | ⟨⟨_, _, g⟩, _⟩ | ⟨_, g, _⟩
            · rw [hpc.1.2.1] at g; cases g
            · rw [hpc.1.2.2.1, hpc.1.2.2.2.1] at g; rcases g with g | g <;> cases g
            · rw [hpc.2] at g; cases g
        | object =>
          simp only [hk] at h hpc
          obtain ⟨g1, g2, g3, g4⟩ := fields_ok (env := env) (n := n) (ty := ty) ih' _ _ _ _ _ h ((inC_set _ _ _ _).mpr (.inl rfl))
          have hks := initFields_kept env n ty d.fields { kind := .object } (Assoc.set c ty { kind := .object })
          rw [h] at hks
          refine fin _ _ (hks.inC ((inC_set _ _ _ _).mpr (.inl rfl))) g2 ?_ ?_
          · intro hu
            rcases unp hu with ⟨⟨_, _, g⟩, _⟩ | ⟨⟨_, _, _, _, g⟩, _⟩ | ⟨_, _, g⟩
            · rw [hpc.1.2.2.1, hpc.1.2.2.2.1] at g; rcases g with g | g <;> cases g
            · exact g hpc.1.2.2.2.2
            · exact g g3
          · intro t ht
            rcases refers_inv hd ht with ⟨_, g⟩ | ⟨⟨_, _, g⟩, _⟩ | ⟨_, _, f, hf, hkf, rfl⟩
            · rw [hpc.1.2.1] at g; cases g
            · rw [hpc.1.2.2.1, hpc.1.2.2.2.1] at g; rcases g with g | g <;> cases g
            · exact g1 f hf hkf

/-- a type whose lookup fails has a part that is to blame -/
def Blame (env : Env) (ty : TyId) (e : Fault) : Prop :=
  e = .diverge ∨ ∃ t, Reaches env TyD.customParser ty t ∧
    ((e = .err ∧ Unparsable env t) ∨ (e = .ub ∧ env.types[t]? = none))

theorem Blame.of_part {ty t : TyId} {e : Fault} (h : Refers env TyD.customParser ty t) (hb : Blame env t e) : Blame env ty e := by
  rcases hb with hb | ⟨u, h1, h2⟩
  · exact .inl hb
  · exact .inr ⟨u, .step _ _ _ h h1, h2⟩

theorem fields_blame {n : Nat} {ty : TyId} 
    (ih : ∀ t c c' e, getParser env n t c = (.error e, c') → Blame env t e) : ∀ (fs : List FieldD) (st : PState) (c c' : PCache) (e : Fault),
    initFields env n ty fs st c = (.error e, c') →
    (∃ f ∈ fs, f.key ≠ none ∧ Blame env f.type e) ∨
      (e = .err ∧ ((∃ a ∈ fs.filterMap FieldD.key, (Assoc.get st.keys a).isSome) ∨ ¬ (fs.filterMap FieldD.key).Nodup)) := by
  intro fs
  induction fs with
  | nil => intro st c c' e h; unfold initFields at h; cases h
  | cons f fs ihf =>
    intro st c c' e h
    unfold initFields at h
    cases ha : f.alias? with
    | none =>
      simp only [ha] at h
      rw [alias?_eq_key] at ha
      rcases ihf st c c' e h with ⟨g, g1, g2⟩ | g
      · exact .inl ⟨g, by simp [g1], g2⟩
      · exact .inr (by simpa [ha] using g)
    | some a =>
      simp only [ha] at h
      rw [alias?_eq_key] at ha
      split at h
      · rename_i hold
        injection h with h _
        injection h with h
        exact .inr ⟨h.symm, .inl ⟨a, by simp [ha], hold⟩⟩
      · cases hp : getParser env n f.type (Assoc.set c ty { st with keys := Assoc.set st.keys a f.name }) with
        | mk r c1 =>
          rw [hp] at h
          cases r with
          | error e1 =>
            simp only at h
            injection h with h _
            injection h with h
            subst h
            exact .inl ⟨f, by simp, by rw [ha]; simp, ih _ _ _ _ hp⟩
          | ok u1 =>
            simp only at h
            rcases ihf _ _ _ _ h with ⟨g, g1, g2⟩ | ⟨he, g⟩
            · exact .inl ⟨g, by simp [g1], g2⟩
            · refine .inr ⟨he, ?_⟩
              simp only [List.filterMap_cons, ha, List.mem_cons, List.nodup_cons]
              rcases g with ⟨b, hb, hs⟩ | g
              · rw [Assoc.get_set] at hs
                split at hs
                · rename_i e; subst e; exact .inr (fun hh => hh.1 hb)
                · exact .inl ⟨b, .inr hb, hs⟩
              · exact .inr (fun hh => g hh.2)

theorem getParser_blame : ∀ (n : Nat) (ty : TyId) (c c' : PCache) (e : Fault), getParser env n ty c = (.error e, c') →
    Blame env ty e := by
  intro n
  induction n with
  | zero =>
    intro ty c c' e h; unfold getParser at h
    injection h with h _; injection h with h; exact .inl h.symm
  | succ n ih =>
    intro ty c c' e h
    unfold getParser at h
    cases hx : Assoc.get c ty with
    | some st => simp only [hx] at h; cases h
    | none =>
      simp only [hx] at h
      cases hd : env.types[ty]? with
      | none =>
        simp only [hd] at h
        injection h with h _; injection h with h
        exact .inr ⟨ty, .refl ty, .inr ⟨h.symm, hd⟩⟩
      | some d =>
        simp only [hd] at h
        have hpc := parserKind_cases d
        have inner : ∀ (o : Option TyId) (st : PState), initInner env n ty st o (Assoc.set c ty st) = (.error e, c') →
            (o = none → Unparsable env ty) → (∀ t, o = some t → Refers env TyD.customParser ty t) → Blame env ty e := by
          intro o st he hu hr
          cases o with
          | none =>
            unfold initInner at he
            injection he with he _; injection he with he
            exact .inr ⟨ty, .refl ty, .inl ⟨he.symm, hu rfl⟩⟩
          | some t =>
            unfold initInner at he
            simp only at he
            cases hp : getParser env n t (Assoc.set c ty st) with
            | mk r c1 =>
              rw [hp] at he
              cases r with
              | error e1 =>
                simp only at he
                injection he with he _
                injection he with he
                subst he
                exact .of_part (hr t rfl) (ih _ _ _ _ hp)
              | ok u => cases he
        cases hk : d.parserKind with
        | bool => simp only [hk] at h; cases h
        | float => simp only [hk] at h; cases h
        | int => simp only [hk] at h; cases h
        | string => simp only [hk] at h; cases h
        | value => simp only [hk] at h; cases h
        | pointer =>
          simp only [hk] at h hpc
          refine inner _ _ h ?_ (fun t ht => .pointee d hd hpc.1 ht)
          intro hn; rw [hn] at hpc; cases hpc.2
        | map =>
          simp only [hk] at h hpc
          exact inner _ _ h (fun hn => ⟨d, hd, .inl ⟨hpc, hn⟩⟩) (fun t ht => .element d hd hpc ht)
        | list =>
          simp only [hk] at h hpc
          exact inner _ _ h (fun hn => ⟨d, hd, .inl ⟨hpc, hn⟩⟩) (fun t ht => .element d hd hpc ht)
        | custom =>
          simp only [hk] at h hpc
          cases hf : env.parseFn ty d.customParser with
          | some f => simp only [hf] at h; cases h
          | none =>
            simp only [hf] at h
            injection h with h _; injection h with h
            exact .inr ⟨ty, .refl ty, .inl ⟨h.symm, d, hd, .inr (.inl ⟨hpc, hf⟩)⟩⟩
        | object =>
          simp only [hk] at h hpc
          rcases fields_blame (env := env) (n := n) (ty := ty) ih _ _ _ _ _ h with ⟨f, f1, f2, f3⟩ | ⟨he, g⟩
          · exact .of_part (.field d f hd hpc.1 hpc.2 f1 f2 rfl) f3
          · refine .inr ⟨ty, .refl ty, .inl ⟨he, d, hd, .inr (.inr ⟨hpc.1, hpc.2, ?_⟩)⟩⟩
            rcases g with ⟨b, _, hs⟩ | g
            · cases hs
            · exact g

/-- the first lookup with an empty cache -/
theorem getParser_iff {n : Nat} {ty : TyId} (hr : ∀ t, Reaches env TyD.customParser ty t → env.types[t]? ≠ none)
    (hdiv : (getParser env n ty []).1 ≠ .error .diverge) :
    ((getParser env n ty []).1 = .error .err ↔ ∃ t, Reaches env TyD.customParser ty t ∧ Unparsable env t) ∧
      ((getParser env n ty []).1 = .error .err ∨ (getParser env n ty []).1 = .ok ()) := by
  cases hp : getParser env n ty [] with
  | mk r c' =>
    rw [hp] at hdiv
    cases r with
    | error e =>
      rcases getParser_blame n ty [] c' e hp with g | ⟨t, g1, ⟨rfl, g2⟩ | ⟨_, g2⟩⟩
      · subst g; exact absurd rfl hdiv
      · exact ⟨⟨fun _ => ⟨t, g1, g2⟩, fun _ => rfl⟩, .inl rfl⟩
      · exact absurd g2 (hr t g1)
    | ok u =>
      obtain ⟨g1, g2⟩ := getParser_newOk n ty [] c' u hp
      refine ⟨⟨fun h => (by cases h), ?_⟩, .inr rfl⟩
      rintro ⟨t, ht, hu⟩
      exfalso
      have : ∀ {a b}, Reaches env TyD.customParser a b → inC c' a → inC c' b := by
        intro a b hab
        induction hab with
        | refl => exact id
        | step a t b h1 _ ih => exact fun ha => ih ((g2 a ha (by intro hh; cases hh)).2.2 t h1)
      exact (g2 t (this ht g1) (by intro hh; cases hh)).2.1 hu

end Reflect.Json

import Verif.Lemmas.Json.Order
/- On a closed set of types, looking up parsers and printers succeeds; what a printer holds; emptiness. -/
namespace Reflect.Json

variable {env : Env} {T : TyId → Prop}

theorem is_unique {d : TyD} {s1 s2 : Shape} (h1 : d.Is s1) (h2 : d.Is s2) : s1 = s2 := by
  cases h1 <;> cases h2 <;> simp_all

theorem has_unique {ty : TyId} {d1 d2 : TyD} {s1 s2 : Shape} (h1 : env.Has ty d1 s1) (h2 : env.Has ty d2 s2) :
    d1 = d2 ∧ s1 = s2 := by
  have := h1.1.symm.trans h2.1
  injection this with this
  subst this
  exact ⟨rfl, is_unique h1.2 h2.2⟩

mutual
theorem getParser_ok (hn : env.Named) (hT : env.Closed T) : ∀ (n : Nat) (ty : TyId) (c : PCache), T ty →
    missing env c < n → (getParser env n ty c).1 = .ok ()
  | 0, ty, c, _, h => by omega
  | n + 1, ty, c, ht, h => by
    unfold getParser
    split
    · rfl
    · rename_i hnone
      obtain ⟨d, sh, hd⟩ := hT.kind ty ht
      have hl : ty < env.types.length := (List.getElem?_eq_some_iff.mp hd.1).1
      have hm := fun st => Nat.lt_of_lt_of_le (missing_set (env := env) hnone hl st) (Nat.lt_succ_iff.mp h)
      have hk := is_parserKind hd.2
      rw [hd.1]
      simp only
      cases sh with
      | bool => rw [hk]; rfl
      | int => rw [hk]; rfl
      | float => rw [hk]; rfl
      | string => rw [hk]; rfl
      | void => rw [hk]; rfl
      | ptr t =>
        rw [hk]
        obtain ⟨e1, e2⟩ := hd
        cases e2 with
        | ptr _ _ hp =>
          simp only [Shape.pk]
          rw [hp]
          exact initInner_ok hn hT n ty _ t _ (hT.ptr ty d t ht ⟨e1, TyD.Is.ptr t ‹_› hp⟩) (hm _)
      | list t =>
        rw [hk]
        obtain ⟨e1, e2⟩ := hd
        cases e2 with
        | list _ _ hp =>
          simp only [Shape.pk]
          rw [hp]
          exact initInner_ok hn hT n ty _ t _ (hT.list ty d t ht ⟨e1, TyD.Is.list t ‹_› hp⟩) (hm _)
      | map t =>
        rw [hk]
        obtain ⟨e1, e2⟩ := hd
        cases e2 with
        | map _ _ hp =>
          simp only [Shape.pk]
          rw [hp]
          exact initInner_ok hn hT n ty _ t _ (hT.map ty d t ht ⟨e1, TyD.Is.map t ‹_› hp⟩) (hm _)
      | object =>
        rw [hk]
        simp only [Shape.pk]
        refine initFields_ok hn hT n ty d d.fields [] _ _ ht hd rfl (fun a k hx => by cases hx) (hm _)
theorem initInner_ok (hn : env.Named) (hT : env.Closed T) : ∀ (n : Nat) (ty : TyId) (st : PState) (t : TyId) (c : PCache),
    T t → missing env c < n → (initInner env n ty st (some t) c).1 = .ok ()
  | n, ty, st, t, c, ht, h => by
    unfold initInner
    simp only
    rw [getParser_ok hn hT n t c ht h]
theorem initFields_ok (hn : env.Named) (hT : env.Closed T) : ∀ (n : Nat) (ty : TyId) (d : TyD) (fs done : List FieldD)
    (st : PState) (c : PCache), T ty → env.Has ty d .object → d.fields = done ++ fs →
    (∀ a k, Assoc.get st.keys a = some k → ∃ g ∈ done, g.key = some a) → missing env c < n →
    (initFields env n ty fs st c).1 = .ok ()
  | n, ty, d, [], done, st, c, _, _, _, _, h => by unfold initFields; rfl
  | n, ty, d, f :: fs, done, st, c, ht, hd, he, hst, h => by
    unfold initFields
    split
    · exact initFields_ok hn hT n ty d fs (done ++ [f]) st c ht hd (by simp [he])
        (fun a k hx => by obtain ⟨g, g1, g2⟩ := hst a k hx; exact ⟨g, List.mem_append_left _ g1, g2⟩) h
    · rename_i a ha
      rw [alias?_eq_key] at ha
      have hfree : ¬ (Assoc.get st.keys a).isSome := by
        intro hh
        cases hx : Assoc.get st.keys a with
        | none => rw [hx] at hh; cases hh
        | some k =>
          obtain ⟨g, g1, g2⟩ := hst a k hx
          have := hT.keys ty d ht hd
          unfold TyD.keys at this
          rw [he, List.filterMap_append, List.nodup_append] at this
          exact this.2.2 a (List.mem_filterMap.mpr ⟨g, g1, g2⟩) a (List.mem_filterMap.mpr ⟨f, by simp, ha⟩) rfl
      rw [if_neg hfree]
      simp only
      have h1 := missing_mono (env := env) (keptBut_set c ty { st with keys := Assoc.set st.keys a f.name })
      rw [getParser_ok hn hT n f.type _ (hT.field ty d f ht hd (by rw [he]; simp) (by rw [ha]; simp))
        (Nat.lt_of_le_of_lt h1 h)]
      simp only
      refine initFields_ok hn hT n ty d fs (done ++ [f]) _ _ ht hd (by simp [he]) ?_ ?_
      · intro b k hx
        simp only at hx
        rw [Assoc.get_set] at hx
        split at hx
        · rename_i hab
          subst hab
          exact ⟨f, by simp, ha⟩
        · obtain ⟨g, g1, g2⟩ := hst b k hx
          exact ⟨g, List.mem_append_left _ g1, g2⟩
      · refine Nat.lt_of_le_of_lt ?_ h
        exact missing_mono (((keptBut_set c ty _).trans ((getParser_kept env n f.type _).but ty)).trans (keptBut_set _ ty _))
end

/-! ### Printers -/

/-- the class of printer for a kind of type -/
def Shape.wk : Shape → Option WKind
  | .bool => some .bool | .int => some .int | .float => some .float | .string => some .string
  | .ptr _ => some .pointer | .list _ => some .list | .map _ => some .map | .void => none | .object => some .object

theorem is_printerKind {d : TyD} {sh : Shape} (h : d.Is sh) : d.printerKind = sh.wk := by
  have hc : (∀ t, d.json = some t → t.parser = [] ∧ t.printer = []) → d.customPrinter = [] := by
    intro h
    unfold TyD.customPrinter
    cases hj : d.json with
    | none => rfl
    | some t => exact (h t hj).2
  have go : ∀ {b1 b2 b3 b4 b5 b6 b7 b8 : Bool}, d.flags = [b1, b2, b3, b4, b5, b6, b7, b8] →
      d.printerKind = (if b1 then some .bool else if b2 then some .int else if b3 then some .float
        else if b4 then some .string else if b5 then some .pointer else if b6 then some .map
        else if b7 then some .list else if d.customPrinter ≠ [] then some .custom
        else if b8 then none else some .object) := by
    intro b1 b2 b3 b4 b5 b6 b7 b8 h1
    simp only [TyD.flags, List.cons.injEq, and_true] at h1
    obtain ⟨a1, a2, a3, a4, a5, a6, a7, a8⟩ := h1
    unfold TyD.printerKind
    rw [a1, a2, a3, a4, a5, a6, a7, a8]
  cases h with
  | void h1 h2 => rw [go h1, hc h2]; rfl
  | object h1 h2 => rw [go h1, hc h2]; rfl
  | ptr _ h1 _ => rw [go h1]; rfl
  | map _ h1 _ => rw [go h1]; rfl
  | list _ h1 _ => rw [go h1]; rfl
  | _ h1 => rw [go h1]; rfl

mutual
theorem getPrinter_ok (hn : env.Named) (hT : env.Closed T) (hv : ∀ ty d, T ty → ¬ env.Has ty d .void) :
    ∀ (n : Nat) (ty : TyId) (c : WCache), T ty → missingW env c < n → (getPrinter env n ty c).1 = .ok ()
  | 0, ty, c, _, h => by omega
  | n + 1, ty, c, ht, h => by
    unfold getPrinter
    split
    · rfl
    · rename_i hnone
      obtain ⟨d, sh, hd⟩ := hT.kind ty ht
      have hl : ty < env.types.length := (List.getElem?_eq_some_iff.mp hd.1).1
      have hm := fun st => Nat.lt_of_lt_of_le (missingW_set (env := env) hnone hl st) (Nat.lt_succ_iff.mp h)
      have hk := is_printerKind hd.2
      rw [hd.1]
      simp only
      cases sh with
      | bool => rw [hk]; rfl
      | int => rw [hk]; rfl
      | float => rw [hk]; rfl
      | string => rw [hk]; rfl
      | void => exact absurd hd (hv ty d ht)
      | ptr t =>
        rw [hk]
        obtain ⟨e1, e2⟩ := hd
        cases e2 with
        | ptr _ _ hp =>
          simp only [Shape.wk]
          rw [hp]
          exact initInnerW_ok hn hT hv n ty _ t _ (hT.ptr ty d t ht ⟨e1, TyD.Is.ptr t ‹_› hp⟩) (hm _)
      | list t =>
        rw [hk]
        obtain ⟨e1, e2⟩ := hd
        cases e2 with
        | list _ _ hp =>
          simp only [Shape.wk]
          rw [hp]
          exact initInnerW_ok hn hT hv n ty _ t _ (hT.list ty d t ht ⟨e1, TyD.Is.list t ‹_› hp⟩) (hm _)
      | map t =>
        rw [hk]
        obtain ⟨e1, e2⟩ := hd
        cases e2 with
        | map _ _ hp =>
          simp only [Shape.wk]
          rw [hp]
          exact initInnerW_ok hn hT hv n ty _ t _ (hT.map ty d t ht ⟨e1, TyD.Is.map t ‹_› hp⟩) (hm _)
      | object =>
        rw [hk]
        simp only [Shape.wk]
        refine initFieldsW_ok hn hT hv n ty d d.fields [] _ _ ht hd rfl (fun a k hx => by cases hx) (hm _)
theorem initInnerW_ok (hn : env.Named) (hT : env.Closed T) (hv : ∀ ty d, T ty → ¬ env.Has ty d .void) :
    ∀ (n : Nat) (ty : TyId) (st : WState) (t : TyId) (c : WCache),
    T t → missingW env c < n → (initInnerW env n ty st (some t) c).1 = .ok ()
  | n, ty, st, t, c, ht, h => by
    unfold initInnerW
    simp only
    rw [getPrinter_ok hn hT hv n t c ht h]
theorem initFieldsW_ok (hn : env.Named) (hT : env.Closed T) (hv : ∀ ty d, T ty → ¬ env.Has ty d .void) :
    ∀ (n : Nat) (ty : TyId) (d : TyD) (fs done : List FieldD)
    (st : WState) (c : WCache), T ty → env.Has ty d .object → d.fields = done ++ fs →
    (∀ k t, Assoc.get st.fields k = some t → ∃ g ∈ done, g.name = k) → missingW env c < n →
    (initFieldsW env n ty fs st c).1 = .ok ()
  | n, ty, d, [], done, st, c, _, _, _, _, h => by unfold initFieldsW; rfl
  | n, ty, d, f :: fs, done, st, c, ht, hd, he, hst, h => by
    unfold initFieldsW
    split
    · exact initFieldsW_ok hn hT hv n ty d fs (done ++ [f]) st c ht hd (by simp [he])
        (fun a k hx => by obtain ⟨g, g1, g2⟩ := hst a k hx; exact ⟨g, List.mem_append_left _ g1, g2⟩) h
    · rename_i a ha
      rw [alias?_eq_key] at ha
      have hfree : ¬ (Assoc.get st.fields f.name).isSome := by
        intro hh
        cases hx : Assoc.get st.fields f.name with
        | none => rw [hx] at hh; cases hh
        | some k =>
          obtain ⟨g, g1, g2⟩ := hst _ k hx
          have := hn ty d hd.1
          rw [he, List.map_append, List.nodup_append] at this
          exact this.2.2 g.name (List.mem_map_of_mem g1) f.name (by simp) g2
      rw [if_neg hfree]
      simp only
      have h1 := missingW_mono (env := env) (keptButW_set c ty { st with keys := Assoc.set st.keys a f.name, sortedKeys := st.sortedKeys ++ [a], skipEmpty := if env.skipEmpty ty f then a :: st.skipEmpty else st.skipEmpty })
      rw [getPrinter_ok hn hT hv n f.type _ (hT.field ty d f ht hd (by rw [he]; simp) (by rw [ha]; simp))
        (Nat.lt_of_le_of_lt h1 h)]
      simp only
      refine initFieldsW_ok hn hT hv n ty d fs (done ++ [f]) _ _ ht hd (by simp [he]) ?_ ?_
      · intro b k hx
        simp only at hx
        rw [Assoc.get_emplace] at hx
        cases hk : Assoc.get st.fields b with
        | some t' =>
          obtain ⟨g, g1, g2⟩ := hst b t' hk
          exact ⟨g, List.mem_append_left _ g1, g2⟩
        | none =>
          rw [hk] at hx
          simp only at hx
          split at hx
          · rename_i hh; exact ⟨f, by simp, hh⟩
          · cases hx
      · refine Nat.lt_of_le_of_lt ?_ h
        exact missingW_mono (((keptButW_set c ty _).trans ((getPrinter_kept env n f.type _).but ty)).trans (keptButW_set _ ty _))
end

/-- the printer of a type of a given kind in a good cache -/
theorem goodW_get {c : WCache} (hc : GoodW env c) {ty : TyId} {td : TyD} {sh : Shape} (h : env.Has ty td sh)
    (hs : (Assoc.get c ty).isSome) : ∃ st, Assoc.get c ty = some st ∧ sh.wk = some st.kind ∧
      (∀ t, sh = .ptr t ∨ sh = .list t ∨ sh = .map t → st.inner = some t ∧ (Assoc.get c t).isSome) ∧
      (sh = .object → st.sortedKeys = sortKeys td.keys ∧
        (∀ a f, td.LastWith a f → Assoc.get st.keys a = some f.name ∧
          Assoc.get st.fields f.name = some f.type ∧ (Assoc.get c f.type).isSome) ∧
        (∀ a, a ∈ st.skipEmpty ↔ env.Skips ty td a)) := by
  cases hx : Assoc.get c ty with
  | none => rw [hx] at hs; cases hs
  | some st =>
    obtain ⟨d, h1, h2, h3, h4, h5, h6⟩ := hc ty st hx
    obtain ⟨g1, g2⟩ := h
    rw [h1] at g1; injection g1 with g1; subst g1
    have hk := (is_printerKind g2).symm.trans h2
    refine ⟨st, rfl, hk, ?_, ?_⟩
    · intro t ht
      rcases ht with rfl | rfl | rfl
      · obtain ⟨t', e1, e2, e3⟩ := h3 (by injection hk with hk; exact hk.symm)
        cases g2 with
        | ptr _ _ hp => rw [hp] at e1; injection e1 with e1; subst e1; exact ⟨e2, e3⟩
      · obtain ⟨t', e1, e2, e3⟩ := h4 (Or.inr (by injection hk with hk; exact hk.symm))
        cases g2 with
        | list _ _ hp => rw [hp] at e1; injection e1 with e1; subst e1; exact ⟨e2, e3⟩
      · obtain ⟨t', e1, e2, e3⟩ := h4 (Or.inl (by injection hk with hk; exact hk.symm))
        cases g2 with
        | map _ _ hp => rw [hp] at e1; injection e1 with e1; subst e1; exact ⟨e2, e3⟩
    · rintro rfl
      exact h5 (by injection hk with hk; exact hk.symm)

theorem goodW_has {c : WCache} (hc : GoodW env c) (hsh : env.Shaped) {ty : TyId} {st : WState}
    (h : Assoc.get c ty = some st) : ∃ d sh, env.Has ty d sh := by
  obtain ⟨d, h1, _⟩ := hc ty st h
  obtain ⟨sh, h2⟩ := hsh ty d h1
  exact ⟨d, sh, h1, h2⟩

theorem empty_inv_has {ty : TyId} {v : JV} (h : Empty env ty v) : ∃ d sh, env.Has ty d sh := by
  cases h <;> exact ⟨_, _, ‹_›⟩

theorem exact_of {ty : TyId} {d : TyD} {sh : Shape} (h : env.Has ty d sh) (he : env.exact ty = true) : d.exact = true := by
  unfold Env.exact at he; rw [h.1] at he; exact he

/-- what `isEmpty` does with the printer of a type of a given kind -/
theorem isEmpty_eq {c : WCache} (hc : GoodW env c) {ty : TyId} {d : TyD} {sh : Shape} (hd : env.Has ty d sh)
    (hs : (Assoc.get c ty).isSome) (v : JV) : isEmptyV env c v ty = (match sh with
      | .bool | .object => .ok false
      | .void => isEmptyV env c v ty
      | .int => match v with
        | .int i => if env.exact ty then .ok (i == 0) else .error .err
        | _ => .error .err
      | .float => match v with
        | .flt x => if env.exact ty then .ok (x == 0 || x == 0x8000000000000000) else .error .err
        | _ => .error .err
      | .string => match v with | .str s => .ok (s == []) | _ => .error .err
      | .ptr t => match v with
        | .null => .ok true
        | .ptr w => isEmptyV env c w t
        | _ => .error .err
      | .list _ => match v with | .list vs => .ok vs.isEmpty | _ => .error .err
      | .map _ => match v with | .map m => .ok m.isEmpty | _ => .error .err) := by
  obtain ⟨st, h1, h2, h3, _⟩ := goodW_get hc hd hs
  cases sh with
  | void => rfl
  | ptr t =>
    injection h2 with h2
    rw [isEmptyV.eq_def]
    simp only [h1, ← h2, (h3 t (Or.inl rfl)).1]
    cases v <;> rfl
  | _ => injection h2 with h2; rw [isEmptyV.eq_def]; simp only [h1, ← h2]; try (cases v <;> rfl)

theorem isEmpty_void {c : WCache} (hc : GoodW env c) {ty : TyId} {d : TyD} (hd : env.Has ty d .void)
    (hs : (Assoc.get c ty).isSome) : False := by
  obtain ⟨st, h1, h2, _⟩ := goodW_get hc hd hs
  cases h2

theorem isEmpty_some {c : WCache} {v : JV} {ty : TyId} {b : Bool} (h : isEmptyV env c v ty = .ok b) :
    (Assoc.get c ty).isSome := by
  rw [isEmptyV.eq_def] at h
  cases hx : Assoc.get c ty with
  | none => simp only [hx] at h; cases h
  | some st => rfl

theorem isEmpty_spec {c : WCache} (hc : GoodW env c) (hsh : env.Shaped) : ∀ (v : JV) (ty : TyId) (b : Bool),
    isEmptyV env c v ty = .ok b → (b = true ↔ Empty env ty v) := by
  intro v
  induction v using JV.rec (motive_2 := fun _ => True) (motive_3 := fun _ => True) (motive_4 := fun _ => True) with
  | ptr w ih =>
    intro ty b h
    have hs := isEmpty_some h
    cases hx : Assoc.get c ty with
    | none => rw [hx] at hs; cases hs
    | some st =>
      obtain ⟨d, sh, hd⟩ := goodW_has hc hsh hx
      rw [isEmpty_eq hc hd hs] at h
      cases sh with
      | void => exact (isEmpty_void hc hd hs).elim
      | ptr t =>
        have := ih t b h
        rw [this]
        constructor
        · intro he; exact Empty.ptr ty d t w hd he
        · intro he
          cases he with
          | ptr _ d' t' _ hd' he' =>
            obtain ⟨_, e⟩ := has_unique hd hd'
            injection e with e
            subst e; exact he'
      | bool =>
        injection h with h; subst h
        refine ⟨(by simp), fun he => ?_⟩
        cases he; rename_i hd' _; cases (has_unique hd hd').2
      | object =>
        injection h with h; subst h
        refine ⟨(by simp), fun he => ?_⟩
        cases he; rename_i hd' _; cases (has_unique hd hd').2
      | _ => cases h
  | void | bool _ | int _ | flt _ | str _ | null | list _ _ | map _ _ | obj _ _ =>
    intro ty b h
    have hs := isEmpty_some h
    cases hx : Assoc.get c ty with
    | none => rw [hx] at hs; cases hs
    | some st =>
      obtain ⟨d, sh, hd⟩ := goodW_has hc hsh hx
      rw [isEmpty_eq hc hd hs] at h
      cases sh with
      | void => exact (isEmpty_void hc hd hs).elim
      | int =>
        first
        | (cases h; done)
        | (simp only at h
           split at h
           · rename_i he
             injection h with h; subst h
             constructor
             · intro hz; simp at hz; subst hz; exact Empty.int ty d hd (exact_of hd he)
             · intro hz; cases hz; rfl
           · cases h)
      | float =>
        first
        | (cases h; done)
        | (simp only at h
           split at h
           · rename_i he
             injection h with h; subst h
             constructor
             · intro hz; simp at hz; exact Empty.flt ty d _ hd (exact_of hd he) hz
             · intro hz; cases hz; simpa using ‹_ ∨ _›
           · cases h)
      | string =>
        first
        | (cases h; done)
        | (injection h with h; subst h
           constructor
           · intro hz; simp at hz; subst hz; exact Empty.str ty d hd
           · intro hz; cases hz; rfl)
      | ptr t =>
        first
        | (injection h with h; subst h; exact ⟨fun _ => Empty.null ty d t hd, fun _ => rfl⟩)
        | cases h
      | list t =>
        first
        | (cases h; done)
        | (injection h with h; subst h
           constructor
           · intro hz; simp at hz; subst hz; exact Empty.list ty d t hd
           · intro hz; cases hz; rfl)
      | map t =>
        first
        | (cases h; done)
        | (injection h with h; subst h
           constructor
           · intro hz; simp at hz; subst hz; exact Empty.map ty d t hd
           · intro hz; cases hz; rfl)
      | bool =>
        injection h with h; subst h
        refine ⟨(by simp), fun he => ?_⟩
        cases he <;> cases (has_unique hd ‹_›).2
      | object =>
        injection h with h; subst h
        refine ⟨(by simp), fun he => ?_⟩
        cases he <;> cases (has_unique hd ‹_›).2
  | _ => trivial

/-- emptiness is found out -/
theorem empty_isEmpty {c : WCache} (hc : GoodW env c) : ∀ {ty : TyId} {v : JV}, Empty env ty v →
    (Assoc.get c ty).isSome → isEmptyV env c v ty = .ok true := by
  intro ty v h
  induction h with
  | int ty d hd he => intro hs; rw [isEmpty_eq hc hd hs]; simp only; rw [if_pos (exact_has hd he)]; rfl
  | flt ty d x hd he hx =>
    intro hs; rw [isEmpty_eq hc hd hs]; simp only; rw [if_pos (exact_has hd he)]
    congr 1; simpa using hx
  | str ty d hd => intro hs; rw [isEmpty_eq hc hd hs]; rfl
  | null ty d t hd => intro hs; rw [isEmpty_eq hc hd hs]
  | ptr ty d t v hd _ ih =>
    intro hs
    rw [isEmpty_eq hc hd hs]
    obtain ⟨st, h1, h2, h3, _⟩ := goodW_get hc hd hs
    exact ih (h3 t (Or.inl rfl)).2
  | list ty d t hd => intro hs; rw [isEmpty_eq hc hd hs]; rfl
  | map ty d t hd => intro hs; rw [isEmpty_eq hc hd hs]; rfl

end Reflect.Json

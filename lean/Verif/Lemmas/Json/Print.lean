import Verif.Lemmas.Json.Layout
/- Printing a value writes the document `Doc` says. -/
namespace Reflect.Json

variable {env : Env} {c : WCache}

theorem floatsL_mem {vs : List JV} {v : JV} (h : v ∈ vs) : ∀ x ∈ v.floats, x ∈ JV.floatsL vs := by
  induction vs with
  | nil => cases h
  | cons u vs ih =>
    intro x hx
    rcases List.mem_cons.mp h with rfl | h
    · simp [JV.floatsL, hx]
    · simp [JV.floatsL, ih h x hx]

theorem floatsM_mem {m : List (Bytes × JV)} {k : Bytes} {v : JV} (h : Assoc.get m k = some v) :
    ∀ x ∈ v.floats, x ∈ JV.floatsM m := by
  have := Assoc.get_some_mem h
  clear h
  induction m with
  | nil => cases this
  | cons p m ih =>
    obtain ⟨l, u⟩ := p
    intro x hx
    rcases List.mem_cons.mp this with e | h
    · injection e with _ e; subst e
      simp [JV.floatsM, hx]
    · simp [JV.floatsM, ih h x hx]

theorem last_exists {a : Bytes} : ∀ (fs : List FieldD) (f : FieldD), f ∈ fs → f.key = some a → ∃ f, LastIn fs a f := by
  intro fs
  induction fs with
  | nil => intro f hf; cases hf
  | cons g fs ih =>
    intro f hf hfa
    by_cases h : ∃ f ∈ fs, f.key = some a
    · obtain ⟨f2, h1, h2⟩ := h
      obtain ⟨f3, l1, l2, e1, e2⟩ := ih f2 h1 h2
      exact ⟨f3, g :: l1, l2, by rw [e1]; rfl, e2⟩
    · rcases List.mem_cons.mp hf with rfl | hm
      · exact ⟨f, [], fs, rfl, hfa, fun x hx hh => h ⟨x, hx, hh⟩⟩
      · exact absurd ⟨f, hm, hfa⟩ h

/-- the list of a type's keys in order, with the fields they stand for -/
theorem listing_of (d : TyD) : ∃ l, d.Listing l ∧ l.map (·.1) = sortKeys d.keys := by
  have key : ∀ a ∈ d.keys, ∃ f, d.LastWith a f := by
    intro a ha
    obtain ⟨f, hf, hfa⟩ := List.mem_filterMap.mp ha
    exact last_exists d.fields f hf hfa
  have go : ∀ ks : List Bytes, (∀ a ∈ ks, a ∈ d.keys) → ∃ l : List (Bytes × FieldD), l.map (·.1) = ks ∧ ∀ p ∈ l, d.LastWith p.1 p.2 := by
    intro ks
    induction ks with
    | nil => intro _; exact ⟨[], rfl, by simp⟩
    | cons a ks ih =>
      intro h
      obtain ⟨l, h1, h2⟩ := ih (fun x hx => h x (by simp [hx]))
      obtain ⟨f, hf⟩ := key a (h a (by simp))
      refine ⟨(a, f) :: l, by simp [h1], ?_⟩
      intro p hp
      rcases List.mem_cons.mp hp with rfl | hp
      · exact hf
      · exact h2 p hp
  obtain ⟨l, h1, h2⟩ := go (sortKeys d.keys) (fun a ha => (sortKeys_perm _).subset ha)
  exact ⟨l, ⟨by rw [h1]; exact sortKeys_perm _, by rw [h1]; exact sortKeys_sorted _, h2⟩, h1⟩

theorem shown_entries {t : TyId} {m : List (Bytes × JV)} {compact : Bool} : ∀ {ks : List Bytes} {ms : List (Bytes × JTree)},
    Shown (fun _ => .ok false) (fun k x => ∃ v, Assoc.get m k = some v ∧ Doc env compact t v x) ks ms →
    ∃ es : List (Bytes × JV), es.map (·.1) = ks ∧ (∀ p ∈ es, Assoc.get m p.1 = some p.2) ∧ DocEntries env compact t es ms := by
  intro ks ms h
  induction h with
  | nil => exact ⟨[], rfl, by simp, DocEntries.nil t⟩
  | @shown k x ks ms _ hx _ ih =>
    obtain ⟨v, h1, h2⟩ := hx
    obtain ⟨es, e1, e2, e3⟩ := ih
    refine ⟨(k, v) :: es, by simp [e1], ?_, DocEntries.cons t k v es x ms h2 e3⟩
    intro p hp
    rcases List.mem_cons.mp hp with rfl | hp
    · exact h1
    · exact e2 p hp
  | omitted h _ _ => cases h

/-- `getField` of `ObjectPrinter`, as in `printV` -/
def getField (st : WState) (fs : List (Bytes × JV)) (a : Bytes) : Res (TyId × JV) :=
  match Assoc.get st.keys a with
  | none => .error .err
  | some k =>
    match Assoc.get st.fields k with
    | none => .error .err
    | some t => match Assoc.get fs k with | none => .error .err | some x => .ok (t, x)

/-- the test whether a member is left out, as in `printV` -/
def skipField (env : Env) (c : WCache) (compact : Bool) (st : WState) (fs : List (Bytes × JV)) (a : Bytes) : Res Bool :=
  if !compact && !st.skipEmpty.contains a then .ok false
  else do
    let p ← getField st fs a
    isEmptyV env c p.2 p.1

theorem getField_eq {st : WState} {fs : List (Bytes × JV)} {a : Bytes} {f : FieldD}
    (h1 : Assoc.get st.keys a = some f.name) (h2 : Assoc.get st.fields f.name = some f.type) :
    getField st fs a = (match Assoc.get fs f.name with | none => .error .err | some x => .ok (f.type, x)) := by
  unfold getField
  rw [h1]; simp only; rw [h2]

theorem shown_fields (hc : GoodW env c) (hsh : env.Shaped) {ty : TyId} {d : TyD} {st : WState} {fs : List (Bytes × JV)}
    {compact : Bool} (hst : ∀ a f, d.LastWith a f → Assoc.get st.keys a = some f.name ∧
      Assoc.get st.fields f.name = some f.type ∧ (Assoc.get c f.type).isSome)
    (hsk : ∀ a, a ∈ st.skipEmpty ↔ env.Skips ty d a) : ∀ (l : List (Bytes × FieldD)) {ms : List (Bytes × JTree)},
    (∀ p ∈ l, d.LastWith p.1 p.2) →
    Shown (skipField env c compact st fs)
      (fun a x => ∃ p, getField st fs a = .ok p ∧ Doc env compact p.1 p.2 x) (l.map (·.1)) ms →
    DocFields env compact ty d fs l ms := by
  intro l
  induction l with
  | nil =>
    intro ms _ h
    cases h
    exact DocFields.nil ty d fs
  | cons p l ih =>
    obtain ⟨a, f⟩ := p
    intro ms hl h
    obtain ⟨k1, k2, k3⟩ := hst a f (hl (a, f) (by simp))
    have hgf := getField_eq (fs := fs) k1 k2
    have hcond : (!compact && !st.skipEmpty.contains a) = false ↔ (compact = true ∨ env.Skips ty d a) := by
      rw [← hsk a]
      cases compact <;> simp
    simp only [List.map_cons] at h
    cases h with
    | shown hs hx hr =>
      rename_i x ms
      obtain ⟨p, e1, e2⟩ := hx
      rw [hgf] at e1
      cases hv : Assoc.get fs f.name with
      | none => rw [hv] at e1; cases e1
      | some v =>
        rw [hv] at e1
        injection e1 with e1
        subst e1
        refine DocFields.shown ty d fs a f v x l ms hv ?_ e2 (ih (fun p hp => hl p (by simp [hp])) hr)
        rintro ⟨g1, g2⟩
        unfold skipField at hs
        rw [hcond.mpr g1] at hs
        simp only [Bool.false_eq_true, if_false] at hs
        rw [hgf, hv] at hs
        simp only at hs
        rw [okb] at hs
        have := (isEmpty_spec hc hsh v f.type false hs).mpr g2
        cases this
    | omitted hs hr =>
      unfold skipField at hs
      split at hs
      · cases hs
      · rename_i hb
        have hb' : (!compact && !st.skipEmpty.contains a) = false := by simpa using hb
        rw [hgf] at hs
        cases hv : Assoc.get fs f.name with
        | none => rw [hv] at hs; cases hs
        | some v =>
          rw [hv] at hs
          simp only at hs
          rw [okb] at hs
          exact DocFields.omitted ty d fs a f v l ms hv (hcond.mp hb') ((isEmpty_spec hc hsh v f.type true hs).mp rfl)
            (ih (fun p hp => hl p (by simp [hp])) hr)

theorem all2_elems {t : TyId} {compact : Bool} {vs : List JV} {xs : List JTree}
    (h : All2 (fun v x => Doc env compact t v x) vs xs) : DocElems env compact t vs xs := by
  induction h with
  | nil => exact DocElems.nil t
  | cons h1 _ ih => exact DocElems.cons t _ _ _ _ h1 ih

theorem decDigits_head : ∀ (k n : Nat), n ≤ k → 0 < n → ∃ c ds, decDigits n = c :: ds ∧ c ≠ 48 := by
  intro k
  induction k with
  | zero => intro n h1 h2; omega
  | succ k ih =>
    intro n h1 h2
    by_cases h : n < 10
    · rw [decDigits_lt h]
      refine ⟨_, _, rfl, ?_⟩
      intro e
      have := congrArg UInt8.toNat e
      rw [toNat_ofNat (by omega)] at this
      have h48 : (48 : UInt8).toNat = 48 := rfl
      omega
    · rw [decDigits_ge (by omega)]
      obtain ⟨c, ds, e1, e2⟩ := ih (n / 10) (by omega) (by omega)
      exact ⟨c, ds ++ [UInt8.ofNat (48 + n % 10)], by rw [e1]; rfl, e2⟩

theorem decDigits_dec : ∀ (k n : Nat), n ≤ k → Dec (decDigits n) n := by
  intro k
  induction k with
  | zero =>
    intro n h
    obtain rfl : n = 0 := by omega
    rw [decDigits_lt (by omega)]
    exact Dec.snoc [] 0 0 Dec.nil (by omega)
  | succ k ih =>
    intro n h
    by_cases h10 : n < 10
    · rw [decDigits_lt h10]
      have := Dec.snoc [] 0 n Dec.nil h10
      simpa using this
    · rw [decDigits_ge (by omega)]
      have := Dec.snoc _ _ (n % 10) (ih (n / 10) (by omega)) (by omega)
      have e : 10 * (n / 10) + n % 10 = n := by omega
      rw [e] at this
      exact this

theorem decText_gram (i : Int) : IntGram (decText i) := by
  obtain ⟨h1, h2, _⟩ := decDigits_spec i.natAbs i.natAbs (Nat.le_refl _)
  obtain ⟨c, ds, e⟩ : ∃ c ds, decDigits i.natAbs = c :: ds := by
    cases hd : decDigits i.natAbs with
    | nil => exact absurd hd h2
    | cons c ds => exact ⟨c, ds, rfl⟩
  have hz : c = 48 → ds = [] := by
    intro hc
    by_cases h0 : i.natAbs = 0
    · rw [h0, decDigits_lt (by omega)] at e
      injection e with _ e
      exact e.symm
    · obtain ⟨c', ds', e', hne⟩ := decDigits_head i.natAbs i.natAbs (Nat.le_refl _) (by omega)
      rw [e] at e'
      injection e' with e' _
      exact absurd (e'.symm.trans hc) hne
  rw [e] at h1
  unfold decText
  split
  · exact ⟨[45], c, ds, by rw [e]; rfl, Or.inr rfl, h1, hz⟩
  · exact ⟨[], c, ds, by rw [e]; rfl, Or.inl rfl, h1, hz⟩

theorem decText_val {i : Int} (h : -(2 ^ 63 : Int) ≤ i ∧ i < 2 ^ 63) : IntVal (decText i) i := by
  obtain ⟨_, h2, _⟩ := decDigits_spec i.natAbs i.natAbs (Nat.le_refl _)
  refine ⟨decide (i < 0), decDigits i.natAbs, i.natAbs, ?_, h2, decDigits_dec _ _ (Nat.le_refl _), ?_, h.1, h.2⟩
  · unfold decText
    by_cases hn : i < 0 <;> simp [hn]
  · by_cases hn : i < 0 <;> simp [hn] <;> omega

theorem print_sound (hc : GoodW env c) (hsh : env.Shaped) : ∀ (n : Nat) (ty : TyId) (v : JV) (w w' : Writer),
    printV env c n ty v w = .ok w' → w'.err = none →
    (∀ x ∈ v.floats, IntGram (env.fmtG x) ∨ FloatGram (env.fmtG x)) →
    Wrote (FText w.opts) w w' (fun x => Doc env w.opts.compact ty v x) := by
  intro n
  induction n with
  | zero => intro ty v w w' h; unfold printV at h; cases h
  | succ n ih =>
    intro ty v w w' h he hF
    unfold printV at h
    cases hx : Assoc.get c ty with
    | none => simp only [hx] at h; cases h
    | some st =>
      obtain ⟨d, sh, hd⟩ := goodW_has hc hsh hx
      obtain ⟨st', e1, hk, hin, hobj⟩ := goodW_get hc hd (by rw [hx]; rfl)
      rw [hx] at e1; injection e1 with e1; subst e1
      simp only [hx] at h
      cases sh with
      | void => cases hk
      | bool =>
        injection hk with hk
        simp only [← hk] at h
        cases v with
        | bool b =>
          simp only at h
          split at h
          · rename_i hex
            injection h with h; subst h
            refine ⟨he, .bool b, _, rfl, Doc.bool ty d b hd (exact_of hd hex), ?_⟩
            cases b
            · exact Gram.false
            · exact Gram.true
          · cases h
        | _ => cases h
      | int =>
        injection hk with hk
        simp only [← hk] at h
        cases v with
        | int i =>
          simp only at h
          split at h
          · rename_i hex
            injection h with h; subst h
            exact ⟨he, .int (decText i), _, rfl, Doc.int ty d i hd (exact_of hd hex), Gram.int _ (decText_gram i)⟩
          · cases h
        | _ => cases h
      | float =>
        injection hk with hk
        simp only [← hk] at h
        cases v with
        | flt x =>
          simp only at h
          split at h
          · rename_i hex
            injection h with h; subst h
            rcases hF x (by simp [JV.floats]) with g | g
            · exact ⟨he, .int _, _, rfl, Doc.fltInt ty d x hd (exact_of hd hex) g, Gram.int _ g⟩
            · exact ⟨he, .float _, _, rfl, Doc.flt ty d x hd (exact_of hd hex) g, Gram.float _ g⟩
          · cases h
        | _ => cases h
      | string =>
        injection hk with hk
        simp only [← hk] at h
        cases v with
        | str s =>
          simp only at h
          split at h
          · rename_i hex
            obtain ⟨g1, t, g2, g3⟩ := formatString_sound h he
            exact ⟨g1, .str s, _, g3, Doc.str ty d s hd (exact_of hd hex), Gram.str _ _ g2⟩
          · cases h
        | _ => cases h
      | ptr t =>
        injection hk with hk
        simp only [← hk] at h
        cases v with
        | null =>
          injection h with h; subst h
          exact ⟨he, .null, _, rfl, Doc.null ty d t hd, Gram.null⟩
        | ptr u =>
          simp only [(hin t (Or.inl rfl)).1] at h
          obtain ⟨g1, x, body, g2, g3, g4⟩ := ih t u w w' h he (fun x hx => hF x (by simpa [JV.floats] using hx))
          exact ⟨g1, x, body, g2, Doc.ptr ty d t u x hd g3, g4⟩
        | _ => cases h
      | list t =>
        injection hk with hk
        simp only [← hk] at h
        cases v with
        | list vs =>
          simp only [(hin t (Or.inr (Or.inl rfl))).1] at h
          obtain ⟨g1, x, body, g2, ⟨xs, rfl, g3⟩, g4⟩ := printArray_sound (wo := w.opts) (Str := FText w.opts)
            (R := fun v x => Doc env w.opts.compact t v x) (by
              intro v hv w1 w2 ho hp he2
              have := ih t v w1 w2 hp he2 (fun x hx => hF x (by
                simp only [JV.floats]; exact floatsL_mem hv x hx))
              rw [ho] at this
              exact this) rfl h he
          exact ⟨g1, .arr xs, body, g2, Doc.list ty d t vs xs hd (all2_elems g3), g4⟩
        | _ => cases h
      | map t =>
        injection hk with hk
        simp only [← hk] at h
        cases v with
        | map m =>
          simp only [(hin t (Or.inr (Or.inr rfl))).1, hd.1] at h
          obtain ⟨g1, x, body, g2, ⟨ms, rfl, g3⟩, g4⟩ := printObject_sound (wo := w.opts)
            (R := fun k x => ∃ v, Assoc.get m k = some v ∧ Doc env w.opts.compact t v x) (by
              intro k _ w1 w2 ho hp he2
              cases hg : Assoc.get m k with
              | none => simp only [hg] at hp; cases hp
              | some v =>
                simp only [hg] at hp
                have := ih t v w1 w2 hp he2 (fun x hx => hF x (by
                  simp only [JV.floats]; exact floatsM_mem hg x hx))
                rw [ho] at this
                obtain ⟨q1, x, b, q2, q3, q4⟩ := this
                exact ⟨q1, x, b, q2, ⟨v, rfl, q3⟩, q4⟩) rfl h he
          obtain ⟨es, k1, k2, k3⟩ := shown_entries g3
          exact ⟨g1, .obj ms, body, g2, Doc.map ty d t m es ms hd k1 k2 k3, g4⟩
        | _ => cases h
      | object =>
        injection hk with hk
        simp only [← hk] at h
        cases v with
        | obj fs =>
          simp only at h
          obtain ⟨k1, k2, k3⟩ := hobj rfl
          have h' : printObject (fun a w => do
              let p ← getField st fs a
              printV env c n p.1 p.2 w) (skipField env c w.opts.compact st fs) st.sortedKeys w = .ok w' := h
          obtain ⟨g1, x, body, g2, ⟨ms, rfl, g3⟩, g4⟩ := printObject_sound (wo := w.opts)
            (R := fun a x => ∃ p, getField st fs a = .ok p ∧ Doc env w.opts.compact p.1 p.2 x) (by
              intro a _ w1 w2 ho hp he2
              cases hg : getField st fs a with
              | error e => simp only [hg] at hp; cases hp
              | ok p =>
                simp only [hg] at hp
                rw [okb] at hp
                have hmem : ∃ k, Assoc.get fs k = some p.2 := by
                  unfold getField at hg
                  split at hg
                  · cases hg
                  · split at hg
                    · cases hg
                    · split at hg
                      · cases hg
                      · rename_i hq; injection hg with hg; subst hg; exact ⟨_, hq⟩
                obtain ⟨k, hk2⟩ := hmem
                have := ih p.1 p.2 w1 w2 hp he2 (fun x hx => hF x (by
                  simp only [JV.floats]; exact floatsM_mem hk2 x hx))
                rw [ho] at this
                obtain ⟨q1, x, b, q2, q3, q4⟩ := this
                exact ⟨q1, x, b, q2, ⟨p, rfl, q3⟩, q4⟩) rfl h' he
          obtain ⟨l, l1, l2⟩ := listing_of d
          rw [k1, ← l2] at g3
          exact ⟨g1, .obj ms, body, g2, Doc.obj ty d fs l ms hd l1
            (shown_fields hc hsh k2 k3 l l1.2.2 g3), g4⟩
        | _ => cases h

end Reflect.Json

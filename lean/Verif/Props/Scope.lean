import Verif.Lemmas.ScopeWF
/-
  Properties C03-C07: the scope tree (src/scope.cpp:84-378).

  Observations are the API's own queries: `hasScope`, `scopes`-by-path `id`, `hasType`,
  `typesAll` = `types(true)`, `functionsAll` = `functions(true)`, `hasFunction`, `function`.
  `WF` holds of every tree produced by a history of proper names (`C03_reachable_wf`).
-/
namespace Reflect.Scope
open Reflect.Spec
variable {F : Type}

/-- Every history of registrations and lookups by proper qualified names ends in a well-formed
    tree, so the `WF` hypotheses below are met by every reachable tree. -/
theorem C03_reachable_wf (add : List F → F → Res (List F)) (ops : List (Op F))
    (h : ProperOps ops) : WF (run add ops) := foldl_WF add ops _ WF_root h

/-! ### C03: scope creation -/

/-- C03. Creating scope `cs` succeeds; afterwards exactly the old scopes and the prefixes of `cs`
    exist. -/
theorem C03_scope_exact (t : Tree F) (cs ds : List Name) (hc : ProperPath cs) (hd : ProperPath ds) :
    (scopeMut t (qualified cs)).2 = .ok cs ∧
    ∃ b, hasScope t (qualified ds) = .ok b ∧
      hasScope (scopeMut t (qualified cs)).1 (qualified ds) = .ok (b || decide (ds <+: cs)) := by
  rw [scopeMut_eq t cs hc]
  refine ⟨rfl, _, hasScope_eq t ds hd, ?_⟩
  rw [hasScope_eq _ ds hd, at_upd_isSome]
  intro k; rfl

/-- C03. Creating it again changes nothing at all. -/
theorem C03_scope_idempotent (t : Tree F) (cs : List Name) (hc : ProperPath cs) :
    scopeMut (scopeMut t (qualified cs)).1 (qualified cs) =
      ((scopeMut t (qualified cs)).1, .ok cs) := by
  rw [scopeMut_eq t cs hc]
  simp only
  rw [scopeMut_eq _ cs hc, upd_id_of_isSome]
  rw [at_upd_self]; rfl

/-- C03. It changes no registered type and no overload set. -/
theorem C03_scope_frame (t : Tree F) (ht : WF t) (cs ds : List Name) (hc : ProperPath cs)
    (hd : ProperPath ds) (x : Name) :
    let t' := (scopeMut t (qualified cs)).1
    hasType t' (qualified ds) = hasType t (qualified ds) ∧
    (function t' (qualified ds)).2 = (function t (qualified ds)).2 ∧
    (x ∈ typesAll t' ↔ x ∈ typesAll t) ∧ (x ∈ functionsAll t' ↔ x ∈ functionsAll t) := by
  have hT : ∀ es, typesAt (t.upd cs fun k => k) es = typesAt t es := by
    intro es
    rw [typesAt_upd _ _ _ (by intro k; rfl)]
    split
    · rename_i h; subst h; exact typesAt_getD ..
    · rfl
  have hF : ∀ es, fnsAt (t.upd cs fun k => k) es = fnsAt t es := by
    intro es
    rw [fnsAt_upd _ _ _ (by intro k; rfl)]
    split
    · rename_i h; subst h; exact fnsAt_getD ..
    · rfl
  have hw : WF (t.upd cs fun k => k) :=
    WF_upd t cs _ ht (fun c hx => hc.2 c hx) (fun k hk => hk) (fun _ => rfl)
  obtain ⟨es, f, rfl⟩ := exists_snoc hd.1
  simp only [scopeMut_eq t cs hc]
  refine ⟨?_, ?_, ?_, ?_⟩
  · have e : BlockedT (t.upd cs fun k => k) (es ++ [f]) ↔ BlockedT t (es ++ [f]) := by
      simp [BlockedT, hT]
    by_cases hb : BlockedT t (es ++ [f])
    · rw [(hasType_eq _ es f hd).1 (e.2 hb), (hasType_eq _ es f hd).1 hb]
    · rw [(hasType_eq _ es f hd).2 (fun h => hb (e.1 h)), (hasType_eq _ es f hd).2 hb, hT]
  · rw [function_eq _ es f hd, function_eq _ es f hd, hF]
  · rw [mem_typesAll _ hw, mem_typesAll _ ht]; simp [hT]
  · rw [mem_functionsAll _ hw, mem_functionsAll _ ht]; simp [hF]

/-- C03. The id of a scope is the qualified name it was asked by. -/
theorem C03_scope_id (t : Tree F) (ht : WF t) (cs : List Name) (hc : ProperPath cs) :
    id (scopeMut t (qualified cs)).1 cs = some (qualified cs) := by
  rw [scopeMut_eq t cs hc]
  have hw : WF (t.upd cs fun k => k) :=
    WF_upd t cs _ ht (fun c hx => hc.2 c hx) (fun k hk => hk) (fun _ => rfl)
  unfold id
  rw [idAlong_eq _ hw [] cs hc.1 (by rw [at_upd_self]; rfl)]
  simp [join]

/-! ### C04: type registration -/

/-- C04. `hasType` in terms of the listing: an enclosing type makes the query raise, otherwise the
    answer is membership in the listing. -/
theorem C04_hasType_listing (t : Tree F) (ht : WF t) (cs : List Name) (hc : ProperPath cs) :
    (PrefixIn (typesAll t) cs → hasType t (qualified cs) = .error .err) ∧
    (¬ PrefixIn (typesAll t) cs →
      hasType t (qualified cs) = .ok (decide (qualified cs ∈ typesAll t))) := by
  obtain ⟨es, f, rfl⟩ := exists_snoc hc.1
  rw [← blockedT_iff ht hc]
  refine ⟨(hasType_eq t es f hc).1, fun h => ?_⟩
  rw [(hasType_eq t es f hc).2 h]
  simp only [mem_typesAll_qualified ht hc]

/-- C04. A name is accepted unless an enclosing name is a type or a function; then it is listed
    under its qualified name, nothing else is, and every function listing is as before. -/
theorem C04_addType_accepts (t : Tree F) (ht : WF t) (cs : List Name) (hc : ProperPath cs)
    (h1 : ¬ PrefixIn (typesAll t) cs) (h2 : ¬ PrefixIn (functionsAll t) cs) :
    let r := addType t (qualified cs)
    r.2 = .ok () ∧ hasType r.1 (qualified cs) = .ok true ∧
    (∀ x, x ∈ typesAll r.1 ↔ x = qualified cs ∨ x ∈ typesAll t) ∧
    (∀ x, x ∈ functionsAll r.1 ↔ x ∈ functionsAll t) := by
  obtain ⟨es, f, rfl⟩ := exists_snoc hc.1
  rw [← blockedT_iff ht hc] at h1
  rw [← blockedF_iff ht hc] at h2
  have hr := (addType_eq t es f hc).2 h1 h2
  have hT : ∀ ds x, x ∈ typesAt (t.upd es (insertType f)) ds ↔
      (ds = es ∧ x = f) ∨ x ∈ typesAt t ds := by
    intro ds x
    rw [typesAt_upd _ _ _ (by simp)]
    split
    · rename_i h; subst h; rw [mem_insertType, typesAt_getD]; simp
    · rename_i h; simp [h]
  have hF : ∀ ds, fnsAt (t.upd es (insertType f)) ds = fnsAt t ds := by
    intro ds
    rw [fnsAt_upd _ _ _ (by simp)]
    split
    · rename_i h; subst h; rw [insertType_fns]; exact fnsAt_getD ..
    · rfl
  have hw : WF (t.upd es (insertType f)) :=
    WF_upd t es _ ht (PC_init hc) (fun k hk => WF_insertType f (PC_last hc) k hk) (by simp)
  simp only [hr]
  refine ⟨trivial, ?_, ?_, ?_⟩
  · have hb : ¬ BlockedT (t.upd es (insertType f)) (es ++ [f]) := by
      rintro ⟨ds, g, gs, he, hne, hg⟩
      rcases (hT ds g).1 hg with ⟨rfl, rfl⟩ | hg
      · have := congrArg List.length he
        simp at this
        exact hne this
      · exact h1 ⟨ds, g, gs, he, hne, hg⟩
    rw [(hasType_eq _ es f hc).2 hb]
    simp [hT]
  · intro x
    rw [mem_typesAll _ hw, mem_typesAll _ ht]
    simp only [hT]
    constructor
    · rintro ⟨ds, g, rfl, ⟨rfl, rfl⟩ | h⟩
      · exact Or.inl rfl
      · exact Or.inr ⟨ds, g, rfl, h⟩
    · rintro (rfl | ⟨ds, g, rfl, h⟩)
      · exact ⟨es, f, rfl, Or.inl ⟨rfl, rfl⟩⟩
      · exact ⟨ds, g, rfl, Or.inr h⟩
  · intro x; rw [mem_functionsAll _ hw, mem_functionsAll _ ht]; simp [hF]

/-- C04. A refused name leaves the tree exactly as it was. -/
theorem C04_addType_rejects (t : Tree F) (ht : WF t) (cs : List Name) (hc : ProperPath cs)
    (h : PrefixIn (typesAll t) cs ∨ PrefixIn (functionsAll t) cs) :
    addType t (qualified cs) = (t, .error .err) := by
  obtain ⟨es, f, rfl⟩ := exists_snoc hc.1
  rw [← blockedT_iff ht hc, ← blockedF_iff ht hc] at h
  exact (addType_eq t es f hc).1 h

/-- what one operation adds to the accepted type names -/
def acceptedOne (o : Op F) (r : Res Unit) : List Name :=
  match o with
  | .type n => if r = .ok () then [n] else []
  | _ => []

/-- The type names a history was told had been accepted, in order. -/
def accepted (add : List F → F → Res (List F)) : Tree F → List (Op F) → List Name
  | _, [] => []
  | t, o :: os =>
    let r := step add t o
    acceptedOne o r.2 ++ accepted add r.1 os

theorem addFunction_frame (add : List F → F → Res (List F)) (t : Tree F) (es : List Name) (f : Name)
    (fn : F) : ∀ ds, typesAt (t.upd es (fun k => (addFunctionHere add f fn k).1)) ds = typesAt t ds := by
  intro ds
  rw [typesAt_upd _ _ _ (by
    intro k; obtain ⟨v, hv⟩ := addFunctionHere_shape add f fn k; rw [hv]; rfl)]
  split
  · rename_i h; subst h
    obtain ⟨v, hv⟩ := addFunctionHere_shape add f fn ((t.at ds).getD (Tree.new (ds.getLastD [])))
    rw [hv]; exact typesAt_getD ..
  · rfl

/-- C04, for whole histories: after any sequence of scope, type and function registrations and
    lookups, the recursive listing is exactly the accepted names. -/
theorem C04_listing_history (add : List F → F → Res (List F)) (ops : List (Op F))
    (h : ProperOps ops) (x : Name) :
    x ∈ typesAll (run add ops) ↔ x ∈ accepted add Tree.root ops := by
  suffices H : ∀ (t : Tree F), WF t →
      (x ∈ typesAll (ops.foldl (fun t o => (step add t o).1) t) ↔
        x ∈ typesAll t ∨ x ∈ accepted add t ops) by
    have := H Tree.root WF_root
    rw [run, this]
    simp [Tree.root, typesAll, typesAllKids]
  induction ops with
  | nil => intro t _; simp [accepted]
  | cons o os ih =>
    intro t ht
    have ho := h o (by simp)
    have hw := WF_step add t o ht ho
    have ih := ih (fun y hy => h y (by simp [hy])) _ hw
    rw [List.foldl_cons, ih, accepted]
    simp only [List.mem_append]
    rw [← or_assoc]
    apply or_congr_left
    obtain ⟨cs, hp, hn⟩ := ho
    cases o with
    | scope n =>
      simp only [Op.name] at hn; subst hn
      have := (C03_scope_frame t ht cs cs hp hp x).2.2.1
      simp only [step, this]; simp [acceptedOne]
    | lookup n =>
      simp only [Op.name] at hn; subst hn
      obtain ⟨ds, f, rfl⟩ := exists_snoc hp.1
      have hT : ∀ es, typesAt (t.upd ds fun k => k) es = typesAt t es := by
        intro es
        rw [typesAt_upd _ _ _ (by intro k; rfl)]
        split
        · rename_i h; subst h; exact typesAt_getD ..
        · rfl
      rw [mem_typesAll _ hw, mem_typesAll _ ht]
      simp only [step, function_eq t ds f hp, hT]; simp [acceptedOne]
    | fn n fn =>
      simp only [Op.name] at hn; subst hn
      obtain ⟨ds, f, rfl⟩ := exists_snoc hp.1
      rw [mem_typesAll _ hw, mem_typesAll _ ht]
      simp only [step, addFunction_eq add t ds f fn hp, addFunction_frame]; simp [acceptedOne]
    | type n =>
      simp only [Op.name] at hn; subst hn
      simp only [step]
      by_cases hb : PrefixIn (typesAll t) cs ∨ PrefixIn (functionsAll t) cs
      · rw [C04_addType_rejects t ht cs hp hb]; simp [acceptedOne]
      · have hA := C04_addType_accepts t ht cs hp (fun h => hb (Or.inl h)) (fun h => hb (Or.inr h))
        simp only at hA
        rw [hA.2.2.1 x]
        simp [acceptedOne, hA.1, or_comm]

/-! ### C05: order of registration -/

def nm (s : String) : Name := s.toList

/-- C05 is false of the code: `a::b` then `a` is accepted, and from then on asking for `a::b`
    raises; `a` then `a::b` is refused. -/
theorem C05_order_matters :
    let t1 := addType (addType (Tree.root : Tree Unit) (nm "a::b")).1 (nm "a")
    let t2 := addType (addType (Tree.root : Tree Unit) (nm "a")).1 (nm "a::b")
    t1.2 = .ok () ∧ hasType t1.1 (nm "a::b") = .error .err ∧ nm "a::b" ∈ typesAll t1.1 ∧
    t2.2 = .error .err ∧ nm "a::b" ∉ typesAll t2.1 := by
  have e1 : addType (Tree.root : Tree Unit) (nm "a::b") =
      (.mk [] [] [] (.cons (nm "a") (.mk (nm "a") [nm "b"] [] .nil) .nil), .ok ()) := by
    simp [addType, head, headLoop, nm, Tree.root, Tree.types, Tree.fns, findFn, Tree.kidOrNew,
      Tree.kids, Tree.new, Tree.setKid, Tree.setTypes, Tree.name, Kids.set]
  have e2 : addType (Tree.root : Tree Unit) (nm "a") = (.mk [] [nm "a"] [] .nil, .ok ()) := by
    simp [addType, head, headLoop, nm, Tree.root, Tree.types, Tree.fns,
      Tree.kids, Tree.setTypes, Tree.name]
  rw [e1, e2]
  simp [addType, hasType, head, headLoop, nm, Tree.types, Tree.fns, 
    Tree.kids, Tree.setTypes, Tree.name, typesAll, typesAllKids, join]

/-- C05. Two names neither of which encloses the other (or which are equal)
    register alike in either order: same outcomes, same listing. -/
theorem C05_order_irrelevant (t : Tree F) (ht : WF t) (cs ds : List Name) (hc : ProperPath cs)
    (hd : ProperPath ds) (h1 : cs <+: ds → cs = ds) (h2 : ds <+: cs → ds = cs) :
    (addType (addType t (qualified cs)).1 (qualified ds)).2 = (addType t (qualified ds)).2 ∧
    ∀ x, x ∈ typesAll (addType (addType t (qualified cs)).1 (qualified ds)).1 ↔
         x ∈ typesAll (addType (addType t (qualified ds)).1 (qualified cs)).1 := by
  -- one registration changes neither the acceptance nor the effect of the other
  have key : ∀ (cs ds : List Name), ProperPath cs → ProperPath ds → (cs <+: ds → cs = ds) →
      let r := addType t (qualified cs)
      WF r.1 ∧
      (PrefixIn (typesAll r.1) ds ∨ PrefixIn (functionsAll r.1) ds ↔
        PrefixIn (typesAll t) ds ∨ PrefixIn (functionsAll t) ds) ∧
      (∀ x, x ∈ typesAll r.1 ↔
        (x = qualified cs ∧ ¬ (PrefixIn (typesAll t) cs ∨ PrefixIn (functionsAll t) cs)) ∨
          x ∈ typesAll t) := by
    intro cs ds hc hd hpre
    by_cases hb : PrefixIn (typesAll t) cs ∨ PrefixIn (functionsAll t) cs
    · simp [C04_addType_rejects t ht cs hc hb, hb, ht]
    · obtain ⟨h1, _, h3, h4⟩ :=
        C04_addType_accepts t ht cs hc (fun h => hb (Or.inl h)) (fun h => hb (Or.inr h))
      refine ⟨WF_step (fun _ _ => .error .err) t (.type (qualified cs)) ht ⟨cs, hc, rfl⟩, ?_, ?_⟩
      · have hf : PrefixIn (functionsAll (addType t (qualified cs)).1) ds ↔
            PrefixIn (functionsAll t) ds := by simp [PrefixIn, h4]
        rw [hf]
        apply or_congr_left
        simp only [PrefixIn, h3]
        constructor
        · rintro ⟨as, bs, rfl, ha, hbs, hx | hx⟩
          · have := qualified_inj (proper_prefix hd ha) hc hx
            subst this
            have := hpre ⟨bs, rfl⟩
            have := congrArg List.length this
            simp at this
            exact absurd this hbs
          · exact ⟨as, bs, rfl, ha, hbs, hx⟩
        · rintro ⟨as, bs, rfl, ha, hb, hx⟩
          exact ⟨as, bs, rfl, ha, hb, Or.inr hx⟩
      · intro x; rw [h3]; simp [hb]
  obtain ⟨w1, k1, l1⟩ := key cs ds hc hd h1
  obtain ⟨w2, k2, l2⟩ := key ds cs hd hc h2
  have out : ∀ (t : Tree F), WF t → ∀ ds, ProperPath ds →
      ((PrefixIn (typesAll t) ds ∨ PrefixIn (functionsAll t) ds) ∧
          addType t (qualified ds) = (t, .error .err)) ∨
      (¬ (PrefixIn (typesAll t) ds ∨ PrefixIn (functionsAll t) ds) ∧
          (addType t (qualified ds)).2 = .ok () ∧
          ∀ x, x ∈ typesAll (addType t (qualified ds)).1 ↔ x = qualified ds ∨ x ∈ typesAll t) := by
    intro t ht ds hd
    by_cases hb : PrefixIn (typesAll t) ds ∨ PrefixIn (functionsAll t) ds
    · exact Or.inl ⟨hb, C04_addType_rejects t ht ds hd hb⟩
    · obtain ⟨h1, _, h3, h4⟩ :=
        C04_addType_accepts t ht ds hd (fun h => hb (Or.inl h)) (fun h => hb (Or.inr h))
      exact Or.inr ⟨hb, h1, h3⟩
  constructor
  · rcases out _ w1 ds hd with ⟨a, b⟩ | ⟨a, b, _⟩
    · rw [b, C04_addType_rejects t ht ds hd (k1.1 a)]
    · rcases out t ht ds hd with ⟨a', b'⟩ | ⟨a', b', _⟩
      · exact absurd (k1.2 a') a
      · rw [b, b']
  · intro x
    rcases out _ w1 ds hd with ⟨a, b⟩ | ⟨a, b, c⟩
    · rw [b]
      rcases out _ w2 cs hc with ⟨a', b'⟩ | ⟨a', b', c'⟩
      · rw [b']; simp [l1, l2, k1.1 a, k2.1 a']
      · have na : ¬ _ := fun h => a' (k2.2 h)
        rw [c']; simp only [l1, l2, k1.1 a, na]; simp
    · rw [c]
      have nb : ¬ _ := fun h => a (k1.2 h)
      rcases out _ w2 cs hc with ⟨a', b'⟩ | ⟨a', b', c'⟩
      · rw [b']; simp only [l1, l2, nb, k2.1 a']; simp
      · have na : ¬ _ := fun h => a' (k2.2 h)
        rw [c']; simp only [l1, l2, na, nb]
        simp only [not_false_eq_true, and_true]
        constructor
        · rintro (h | h | h)
          · exact Or.inr (Or.inl h)
          · exact Or.inl h
          · exact Or.inr (Or.inr h)
        · rintro (h | h | h)
          · exact Or.inr (Or.inl h)
          · exact Or.inl h
          · exact Or.inr (Or.inr h)

/-- C05, exactly: when is the second of two registrations accepted? When the name was acceptable from
    the start and the first name, if accepted, is not an enclosing one. -/
theorem C05_second_accepted_iff (t : Tree F) (ht : WF t) (cs ds : List Name) (hc : ProperPath cs)
    (hd : ProperPath ds) :
    (addType (addType t (qualified cs)).1 (qualified ds)).2 = .ok () ↔
      (addType t (qualified ds)).2 = .ok () ∧
      ¬ ((addType t (qualified cs)).2 = .ok () ∧ cs <+: ds ∧ cs ≠ ds) := by
  have acc : ∀ (t : Tree F), WF t → ∀ ds, ProperPath ds → ((addType t (qualified ds)).2 = .ok () ↔
      ¬ (PrefixIn (typesAll t) ds ∨ PrefixIn (functionsAll t) ds)) := by
    intro t ht ds hd
    by_cases hb : PrefixIn (typesAll t) ds ∨ PrefixIn (functionsAll t) ds
    · simp [C04_addType_rejects t ht ds hd hb, hb]
    · obtain ⟨h1, -⟩ :=
        C04_addType_accepts t ht ds hd (fun h => hb (Or.inl h)) (fun h => hb (Or.inr h))
      simp [h1, hb]
  have hw : WF (addType t (qualified cs)).1 :=
    WF_step (fun _ _ => .error .err) t (.type (qualified cs)) ht ⟨cs, hc, rfl⟩
  rw [acc _ hw ds hd, acc t ht ds hd, acc t ht cs hc]
  by_cases hb : PrefixIn (typesAll t) cs ∨ PrefixIn (functionsAll t) cs
  · simp [C04_addType_rejects t ht cs hc hb, hb]
  · obtain ⟨-, -, h3, h4⟩ :=
      C04_addType_accepts t ht cs hc (fun h => hb (Or.inl h)) (fun h => hb (Or.inr h))
    have hf : PrefixIn (functionsAll (addType t (qualified cs)).1) ds ↔
        PrefixIn (functionsAll t) ds := by simp [PrefixIn, h4]
    have hT : PrefixIn (typesAll (addType t (qualified cs)).1) ds ↔
        PrefixIn (typesAll t) ds ∨ (cs <+: ds ∧ cs ≠ ds) := by
      simp only [PrefixIn, h3]
      constructor
      · rintro ⟨as, bs, rfl, ha, hbs, hx | hx⟩
        · have := qualified_inj (proper_prefix hd ha) hc hx
          subst this
          refine .inr ⟨⟨bs, rfl⟩, fun h => ?_⟩
          have := congrArg List.length h
          simp at this
          exact hbs this
        · exact .inl ⟨as, bs, rfl, ha, hbs, hx⟩
      · rintro (⟨as, bs, rfl, ha, hb, hx⟩ | ⟨⟨bs, rfl⟩, hne⟩)
        · exact ⟨as, bs, rfl, ha, hb, Or.inr hx⟩
        · exact ⟨cs, bs, rfl, hc.1, fun h => hne (by simp [h]), Or.inl rfl⟩
    rw [hf, hT]
    simp only [hb, not_false_eq_true, true_and, not_or]
    constructor
    · rintro ⟨⟨h5, h6⟩, h7⟩; exact ⟨⟨h5, h7⟩, h6⟩
    · rintro ⟨⟨h5, h6⟩, h7⟩; exact ⟨⟨h5, h7⟩, h6⟩

/-- C05, for every pair of an acceptable name and an acceptable enclosing name: the longer one first,
    both are accepted and from then on asking for the longer one raises although it is listed; the
    enclosing one first, the longer one is refused. -/
theorem C05_order_matters_when_enclosing (t : Tree F) (ht : WF t) (cs ds : List Name)
    (hc : ProperPath cs) (hd : ProperPath ds) (h1 : (addType t (qualified cs)).2 = .ok ())
    (h2 : (addType t (qualified ds)).2 = .ok ()) (hpre : cs <+: ds) (hne : cs ≠ ds) :
    let a := addType (addType t (qualified ds)).1 (qualified cs)
    let b := addType (addType t (qualified cs)).1 (qualified ds)
    a.2 = .ok () ∧ hasType a.1 (qualified ds) = .error .err ∧ qualified ds ∈ typesAll a.1 ∧
    b.2 ≠ .ok () := by
  have hw : WF (addType t (qualified ds)).1 :=
    WF_step (fun _ _ => .error .err) t (.type (qualified ds)) ht ⟨ds, hd, rfl⟩
  have hnp : ¬ (ds <+: cs) := fun h => hne (by
    obtain ⟨x, rfl⟩ := hpre
    obtain ⟨y, hy⟩ := h
    have := congrArg List.length hy
    simp only [List.length_append] at this
    have : x = [] := List.length_eq_zero_iff.1 (by omega)
    simp [this])
  have ha := (C05_second_accepted_iff t ht ds cs hd hc).2 ⟨h1, fun h => hnp h.2.1⟩
  have nb : ∀ (t : Tree F), WF t → ∀ ds, ProperPath ds → (addType t (qualified ds)).2 = .ok () →
      ∀ x, x ∈ typesAll (addType t (qualified ds)).1 ↔ x = qualified ds ∨ x ∈ typesAll t := by
    intro t ht ds hd h
    by_cases hb : PrefixIn (typesAll t) ds ∨ PrefixIn (functionsAll t) ds
    · rw [C04_addType_rejects t ht ds hd hb] at h; cases h
    · exact (C04_addType_accepts t ht ds hd (fun h => hb (Or.inl h)) (fun h => hb (Or.inr h))).2.2.1
  have l1 := nb t ht ds hd h2
  have l2 := nb _ hw cs hc ha
  have hw2 : WF (addType (addType t (qualified ds)).1 (qualified cs)).1 :=
    WF_step (fun _ _ => .error .err) _ (.type (qualified cs)) hw ⟨cs, hc, rfl⟩
  refine ⟨ha, (C04_hasType_listing _ hw2 ds hd).1 ?_, by rw [l2, l1]; exact .inr (.inl rfl), ?_⟩
  · obtain ⟨x, rfl⟩ := hpre
    exact ⟨cs, x, rfl, hc.1, fun h => hne (by simp [h]), by rw [l2]; exact .inl rfl⟩
  · intro hb
    exact ((C05_second_accepted_iff t ht cs ds hc hd).1 hb).2 ⟨h1, hpre, hne⟩

/-! ### C06: lookups -/

/-- C06 is false of the code: looking up a function of a missing scope raises, and creates the
    scope; `hasFunction` raises instead of answering. -/
theorem C06_lookup_mutates :
    let t := (Tree.root : Tree Unit)
    hasScope t (nm "a") = .ok false ∧
    (function t (nm "a::f")).2 = .error .err ∧
    hasScope (function t (nm "a::f")).1 (nm "a") = .ok true ∧
    hasFunction t (nm "a::f") = .error .err := by
  simp [hasScope, function, hasFunction, scopeMut, scopeConst, head, headLoop, tail, tailLoop, nm,
    Tree.root, Tree.kids, find_cons, Tree.setKid, Tree.kidOrNew, Kids.set, Kids.find, at_cons, Tree.fns, Tree.new, findFn]

/-- C06. A lookup changes no type and no function of any scope, its answer is
    the registered overload set, and when the enclosing scope exists it changes nothing at all. -/
theorem C06_lookup (t : Tree F) (ht : WF t) (cs : List Name) (f : Name)
    (hc : ProperPath (cs ++ [f])) (x : Name) :
    let r := function t (qualified (cs ++ [f]))
    (x ∈ typesAll r.1 ↔ x ∈ typesAll t) ∧ (x ∈ functionsAll r.1 ↔ x ∈ functionsAll t) ∧
    ((∃ o, r.2 = .ok o) ↔ qualified (cs ++ [f]) ∈ functionsAll t) ∧
    ((cs = [] ∨ hasScope t (qualified cs) = .ok true) → r.1 = t) := by
  have hT : ∀ es, typesAt (t.upd cs fun k => k) es = typesAt t es := by
    intro es
    rw [typesAt_upd _ _ _ (by intro k; rfl)]
    split
    · rename_i h; subst h; exact typesAt_getD ..
    · rfl
  have hF : ∀ es, fnsAt (t.upd cs fun k => k) es = fnsAt t es := by
    intro es
    rw [fnsAt_upd _ _ _ (by intro k; rfl)]
    split
    · rename_i h; subst h; exact fnsAt_getD ..
    · rfl
  have hw : WF (t.upd cs fun k => k) :=
    WF_upd t cs _ ht (PC_init hc) (fun k hk => hk) (fun _ => rfl)
  simp only [function_eq t cs f hc]
  refine ⟨?_, ?_, ?_, ?_⟩
  · rw [mem_typesAll _ hw, mem_typesAll _ ht]; simp [hT]
  · rw [mem_functionsAll _ hw, mem_functionsAll _ ht]; simp [hF]
  · rw [mem_functionsAll_qualified ht hc]
    cases findFn (fnsAt t cs) f <;> simp
  · rintro (rfl | h)
    · rfl
    · by_cases h2 : cs = []
      · subst h2; rfl
      · rw [hasScope_eq t cs (proper_init hc h2)] at h
        exact upd_id_of_isSome t cs (by simpa using h)

/-- C06, exactly: a lookup creates the missing scopes on the way to the function and nothing else. -/
theorem C06_lookup_creates (t : Tree F) (cs ds : List Name) (f : Name)
    (hc : ProperPath (cs ++ [f])) (hd : ProperPath ds) :
    ∃ b, hasScope t (qualified ds) = .ok b ∧
      hasScope (function t (qualified (cs ++ [f]))).1 (qualified ds) =
        .ok (b || decide (ds <+: cs)) := by
  refine ⟨_, hasScope_eq t ds hd, ?_⟩
  rw [function_eq t cs f hc, hasScope_eq _ ds hd]
  rw [at_upd_isSome]
  intro k; rfl

/-- C06, `hasFunction`: answers membership in the listing when the enclosing scope exists, raises
    when it does not. -/
theorem C06_hasFunction (t : Tree F) (ht : WF t) (cs : List Name) (f : Name)
    (hc : ProperPath (cs ++ [f])) :
    ((cs = [] ∨ hasScope t (qualified cs) = .ok true) →
      hasFunction t (qualified (cs ++ [f])) =
        .ok (decide (qualified (cs ++ [f]) ∈ functionsAll t))) ∧
    (hasScope t (qualified cs) = .ok false → cs ≠ [] →
      hasFunction t (qualified (cs ++ [f])) = .error .err) := by
  rw [hasFunction_eq t cs f hc]
  constructor
  · intro h
    have : (t.at cs).isSome := by
      rcases h with rfl | h
      · rfl
      · by_cases h2 : cs = []
        · subst h2; rfl
        · rw [hasScope_eq t cs (proper_init hc h2)] at h; simpa using h
    rw [if_pos this]
    congr 1
    rw [Bool.eq_iff_iff, decide_eq_true_iff, mem_functionsAll_qualified ht hc]
  · intro h h2
    rw [hasScope_eq t cs (proper_init hc h2)] at h
    simp at h; simp [h]

/-! ### C07: function registration -/

/-- C07. Registering a function: the overload set at its name becomes the old one with the function
    added (or the call raises and that overload set is as before); every other name keeps its
    overload set; no type is touched. -/
theorem C07_addFunction_exact (add : List F → F → Res (List F)) (t : Tree F) (ht : WF t)
    (cs : List Name) (f : Name) (fn : F) (hc : ProperPath (cs ++ [f]))
    (old : List F) (hold : (function t (qualified (cs ++ [f]))).2 = .ok old) :
    let r := addFunction add t (qualified (cs ++ [f])) fn
    (∀ new, add old fn = .ok new →
      r.2 = .ok () ∧ (function r.1 (qualified (cs ++ [f]))).2 = .ok new) ∧
    (∀ e, add old fn = .error e →
      r.2 = .error e ∧ (function r.1 (qualified (cs ++ [f]))).2 = .ok old) ∧
    (∀ ds, ProperPath ds → ds ≠ cs ++ [f] →
      (function r.1 (qualified ds)).2 = (function t (qualified ds)).2) ∧
    (∀ x, x ∈ typesAll r.1 ↔ x ∈ typesAll t) ∧
    (∀ x, x ∈ functionsAll r.1 ↔ x = qualified (cs ++ [f]) ∨ x ∈ functionsAll t) := by
  rw [function_eq t cs f hc] at hold
  have hold' : findFn (fnsAt t cs) f = some old := by
    simp only at hold
    cases hf : findFn (fnsAt t cs) f with
    | none => rw [hf] at hold; cases hold
    | some o => rw [hf] at hold; injection hold with h; rw [h]
  have hF : ∀ ds, fnsAt (t.upd cs fun k => (addFunctionHere add f fn k).1) ds =
      if ds = cs then setFn (fnsAt t cs) f (match add old fn with | .ok n => n | .error _ => old)
      else fnsAt t ds := by
    intro ds
    rw [fnsAt_upd _ _ _ (by
      intro k; obtain ⟨v, hv⟩ := addFunctionHere_shape add f fn k; rw [hv]; rfl)]
    split
    · unfold addFunctionHere
      simp only [fnsAt_getD, hold', Option.getD_some]
      cases add old fn <;> simp [fnsAt_getD]
    · rfl
  have hw : WF (t.upd cs fun k => (addFunctionHere add f fn k).1) :=
    by
      have := WF_step add t (.fn (qualified (cs ++ [f])) fn) ht ⟨_, hc, rfl⟩
      simpa only [step, addFunction_eq add t cs f fn hc] using this
  simp only [addFunction_eq add t cs f fn hc, hold', Option.getD_some]
  refine ⟨?_, ?_, ?_, ?_, ?_⟩
  · intro new hn
    rw [function_eq _ cs f hc, hF]
    simp [hn, findFn_setFn, Except.map]
  · intro e hn
    rw [function_eq _ cs f hc, hF]
    simp [hn, findFn_setFn, Except.map]
  · intro ds hd hne
    obtain ⟨es, g, rfl⟩ := exists_snoc hd.1
    rw [function_eq _ es g hd, function_eq _ es g hd, hF]
    by_cases h : es = cs
    · subst h
      have : f ≠ g := by rintro rfl; exact hne rfl
      simp [findFn_setFn, this]
    · simp [h]
  · intro x
    rw [mem_typesAll _ hw, mem_typesAll _ ht]; simp [addFunction_frame]
  · intro x
    rw [mem_functionsAll _ hw, mem_functionsAll _ ht]
    simp only [hF]
    constructor
    · rintro ⟨ds, g, rfl, hg⟩
      split at hg
      · rename_i h; subst h
        rw [findFn_setFn] at hg
        split at hg
        · rename_i h; subst h; exact Or.inl rfl
        · exact Or.inr ⟨ds, g, rfl, hg⟩
      · exact Or.inr ⟨ds, g, rfl, hg⟩
    · rintro (rfl | ⟨ds, g, rfl, hg⟩)
      · exact ⟨cs, f, rfl, by simp [findFn_setFn]⟩
      · refine ⟨ds, g, rfl, ?_⟩
        split
        · rename_i h; subst h
          rw [findFn_setFn]; split
          · rfl
          · exact hg
        · exact hg

/-- C07, first registration under a name: the overload set becomes what `add` makes of the empty
    one, the name is listed, and everything else is as before. -/
theorem C07_addFunction_first (add : List F → F → Res (List F)) (t : Tree F) (ht : WF t)
    (cs : List Name) (f : Name) (fn : F) (hc : ProperPath (cs ++ [f]))
    (hnone : qualified (cs ++ [f]) ∉ functionsAll t) (new : List F) (hadd : add [] fn = .ok new) :
    let r := addFunction add t (qualified (cs ++ [f])) fn
    r.2 = .ok () ∧ (function r.1 (qualified (cs ++ [f]))).2 = .ok new ∧
    (∀ ds, ProperPath ds → ds ≠ cs ++ [f] →
      (function r.1 (qualified ds)).2 = (function t (qualified ds)).2) ∧
    (∀ x, x ∈ typesAll r.1 ↔ x ∈ typesAll t) ∧
    (∀ x, x ∈ functionsAll r.1 ↔ x = qualified (cs ++ [f]) ∨ x ∈ functionsAll t) := by
  rw [mem_functionsAll_qualified ht hc] at hnone
  have hn : findFn (fnsAt t cs) f = none := by
    cases h : findFn (fnsAt t cs) f with
    | none => rfl
    | some o => simp [h] at hnone
  have hF : ∀ ds, fnsAt (t.upd cs fun k => (addFunctionHere add f fn k).1) ds =
      if ds = cs then setFn (fnsAt t cs) f new else fnsAt t ds := by
    intro ds
    rw [fnsAt_upd _ _ _ (by
      intro k; obtain ⟨v, hv⟩ := addFunctionHere_shape add f fn k; rw [hv]; rfl)]
    split
    · unfold addFunctionHere
      simp [fnsAt_getD, hn, hadd]
    · rfl
  have hw : WF (t.upd cs fun k => (addFunctionHere add f fn k).1) :=
    by
      have := WF_step add t (.fn (qualified (cs ++ [f])) fn) ht ⟨_, hc, rfl⟩
      simpa only [step, addFunction_eq add t cs f fn hc] using this
  simp only [addFunction_eq add t cs f fn hc, hn, Option.getD_none, hadd]
  refine ⟨rfl, ?_, ?_, ?_, ?_⟩
  · rw [function_eq _ cs f hc, hF]; simp [findFn_setFn]
  · intro ds hd hne
    obtain ⟨es, g, rfl⟩ := exists_snoc hd.1
    rw [function_eq _ es g hd, function_eq _ es g hd, hF]
    by_cases h : es = cs
    · subst h
      have : f ≠ g := by rintro rfl; exact hne rfl
      simp [findFn_setFn, this]
    · simp [h]
  · intro x
    rw [mem_typesAll _ hw, mem_typesAll _ ht]; simp [addFunction_frame]
  · intro x
    rw [mem_functionsAll _ hw, mem_functionsAll _ ht]
    simp only [hF]
    constructor
    · rintro ⟨ds, g, rfl, hg⟩
      split at hg
      · rename_i h; subst h
        rw [findFn_setFn] at hg
        split at hg
        · rename_i h; subst h; exact Or.inl rfl
        · exact Or.inr ⟨ds, g, rfl, hg⟩
      · exact Or.inr ⟨ds, g, rfl, hg⟩
    · rintro (rfl | ⟨ds, g, rfl, hg⟩)
      · exact ⟨cs, f, rfl, by simp [findFn_setFn]⟩
      · refine ⟨ds, g, rfl, ?_⟩
        split
        · rename_i h; subst h
          rw [findFn_setFn]; split
          · rfl
          · exact hg
        · exact hg

/-! ### the hypotheses are met -/

theorem proper_ab : ProperPath [nm "a", nm "vec<b::c>"] := by
  refine ⟨by simp, ?_⟩
  intro c hc
  simp only [List.mem_cons, List.not_mem_nil, or_false] at hc
  rcases hc with rfl | rfl
  · exact ⟨((head_ok (nm "a") _ []).1 (by decide)).1, by decide⟩
  · exact ⟨((head_ok (nm "vec<b::c>") _ []).1 (by decide)).1, by decide⟩

/-- a reachable tree with a nested type, reached by a history of proper names -/
example : let ops : List (Op Nat) := [.type (qualified [nm "a", nm "vec<b::c>"])]
    ProperOps ops ∧ WF (run (fun l f => .ok (l ++ [f])) ops) ∧
    qualified [nm "a", nm "vec<b::c>"] ∈ typesAll (run (fun l f => .ok (l ++ [f])) ops) := by
  have hp : ProperOps ([.type (qualified [nm "a", nm "vec<b::c>"])] : List (Op Nat)) := by
    intro o ho; simp at ho; subst ho; exact ⟨_, proper_ab, rfl⟩
  refine ⟨hp, C03_reachable_wf _ _ hp, ?_⟩
  rw [C04_listing_history _ _ hp]
  have hw : WF (Tree.root : Tree Nat) := WF_root
  have := (C04_addType_accepts (Tree.root : Tree Nat) hw _ proper_ab
    (by rintro ⟨_, _, _, _, _, h⟩; simp [Tree.root, typesAll, typesAllKids] at h)
    (by rintro ⟨_, _, _, _, _, h⟩; simp [Tree.root, functionsAll, functionsAllKids] at h)).1
  simp [accepted, acceptedOne, step, this]

end Reflect.Scope

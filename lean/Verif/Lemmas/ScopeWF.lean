import Verif.Lemmas.Scope
namespace Reflect.Scope
open Reflect.Spec
variable {F : Type}

/-- a key that is a proper single component -/
def PC (c : Name) : Prop := IsComponent c ∧ c ≠ []

structure NodeOk (k : Tree F) : Prop where
  nodup : k.kids.keys.Nodup
  keys : ∀ x ∈ k.kids.keys, PC x
  types : ∀ x ∈ k.types, PC x
  fns : ∀ x ∈ k.fns.map (·.1), PC x
  named : ∀ c k', k.kids.find c = some k' → k'.name = c

/-- every scope of the tree is well formed -/
def WF (t : Tree F) : Prop := ∀ cs k, t.at cs = some k → NodeOk k

theorem WF.node {t : Tree F} (h : WF t) : NodeOk t := h [] t (by simp)

theorem WF.kid {t k : Tree F} (h : WF t) {c : Name} (hk : t.kids.find c = some k) : WF k := by
  intro cs k' h'
  exact h (c :: cs) k' (by rw [at_cons]; simp [hk, h'])

theorem WF_iff (t : Tree F) :
    WF t ↔ NodeOk t ∧ ∀ c k, t.kids.find c = some k → WF k := by
  constructor
  · intro h; exact ⟨h.node, fun c k hk => h.kid hk⟩
  · rintro ⟨h1, h2⟩ cs k hk
    cases cs with
    | nil => simp at hk; exact hk ▸ h1
    | cons c cs =>
      rw [at_cons] at hk
      cases hc : t.kids.find c with
      | none => simp [hc] at hk
      | some k' => simp only [hc] at hk; exact h2 c k' hc cs k hk

theorem WF_new (n : Name) : WF (Tree.new n : Tree F) := by
  rw [WF_iff]
  refine ⟨⟨?_, ?_, ?_, ?_, ?_⟩, ?_⟩ <;> simp [Kids.keys]

theorem WF_root : WF (Tree.root : Tree F) := WF_new []

theorem upd_name (t : Tree F) (cs : List Name) (g : Tree F → Tree F)
    (hg : ∀ k, (g k).name = k.name) : (t.upd cs g).name = t.name := by
  cases cs with
  | nil => exact hg t
  | cons c cs => rfl

theorem WF_upd (t : Tree F) (cs : List Name) (g : Tree F → Tree F) (ht : WF t)
    (hcs : ∀ c ∈ cs, PC c) (hg : ∀ k, WF k → WF (g k)) (hn : ∀ k, (g k).name = k.name) :
    WF (t.upd cs g) := by
  induction cs generalizing t with
  | nil => exact hg t ht
  | cons c cs ih =>
    have hkid : WF (t.kidOrNew c) := by
      cases hk : t.kids.find c with
      | none => rw [kidOrNew_none hk]; exact WF_new c
      | some k => rw [kidOrNew_some hk]; exact ht.kid hk
    have hname : (t.kidOrNew c).name = c := by
      cases hk : t.kids.find c with
      | none => rw [kidOrNew_none hk]; rfl
      | some k => rw [kidOrNew_some hk]; exact ht.node.named c k hk
    have hih := ih (t.kidOrNew c) hkid (fun x hx => hcs x (by simp [hx]))
    rw [WF_iff]
    simp only [Tree.upd]
    refine ⟨⟨?_, ?_, ?_, ?_, ?_⟩, ?_⟩
    · simp only [setKid_kids, keys_set]
      split
      · exact ht.node.nodup
      · rename_i hni
        rw [List.nodup_append]
        refine ⟨ht.node.nodup, by simp, ?_⟩
        intro a ha b hb; simp at hb; subst hb; intro he; exact hni (he ▸ ha)
    · intro x hx
      simp only [setKid_kids, keys_set] at hx
      split at hx
      · exact ht.node.keys x hx
      · simp at hx
        rcases hx with hx | rfl
        · exact ht.node.keys x hx
        · exact hcs x (by simp)
    · simpa using ht.node.types
    · simpa using ht.node.fns
    · intro d k' hk'
      simp only [setKid_kids, find_set] at hk'
      split at hk'
      · rename_i hd; simp at hk'; subst hk'; rw [upd_name _ _ _ hn, hname, hd]
      · exact ht.node.named d k' hk'
    · intro d k' hk'
      simp only [setKid_kids, find_set] at hk'
      split at hk'
      · simp at hk'; exact hk' ▸ hih
      · exact ht.kid hk'

theorem WF_insertType (f : Name) (hf : PC f) (k : Tree F) (h : WF k) : WF (insertType f k) := by
  rw [WF_iff] at h ⊢
  obtain ⟨h, hk⟩ := h
  refine ⟨⟨?_, ?_, ?_, ?_, ?_⟩, ?_⟩
  · simpa using h.nodup
  · simpa using h.keys
  · intro x hx
    rcases (mem_insertType ..).1 hx with rfl | hx
    · exact hf
    · exact h.types x hx
  · simpa using h.fns
  · simpa using h.named
  · simpa using hk

theorem addFunctionHere_shape (add : List F → F → Res (List F)) (f : Name) (fn : F) (k : Tree F) :
    ∃ v, (addFunctionHere add f fn k).1 = k.setFns (setFn k.fns f v) := by
  unfold addFunctionHere
  simp only
  split
  · exact ⟨_, rfl⟩
  · exact ⟨_, rfl⟩

theorem WF_addFunctionHere (add : List F → F → Res (List F)) (f : Name) (fn : F) (hf : PC f)
    (k : Tree F) (h : WF k) : WF (addFunctionHere add f fn k).1 := by
  obtain ⟨v, hv⟩ := addFunctionHere_shape add f fn k
  rw [hv]
  rw [WF_iff] at h ⊢
  obtain ⟨h, hk⟩ := h
  refine ⟨⟨?_, ?_, ?_, ?_, ?_⟩, ?_⟩
  · simpa using h.nodup
  · simpa using h.keys
  · simpa using h.types
  · intro x hx
    rcases (mem_keys_setFn ..).1 hx with rfl | hx
    · exact hf
    · exact h.fns x hx
  · simpa using h.named
  · simpa using hk

theorem join_qualified {c : Name} {cs : List Name} (hc : c ≠ []) (hcs : cs ≠ []) :
    join c (qualified cs) = qualified (c :: cs) := by
  rw [qualified_cons hcs]; simp [join, hc, sep]

mutual
theorem mem_typesAll (t : Tree F) (h : WF t) (x : Name) :
    x ∈ typesAll t ↔ ∃ cs f, x = qualified (cs ++ [f]) ∧ f ∈ typesAt t cs := by
  match t with
  | .mk n ts fs ks =>
    have hk := mem_typesAllKids ks h.node.nodup (fun c hc => (h.node.keys c hc).2)
      (fun c k hk => h.kid (c := c) hk) x
    simp only [typesAll, List.mem_append, hk]
    constructor
    · rintro (hx | ⟨c, k, cs, f, h1, rfl, h3⟩)
      · exact ⟨[], x, rfl, by simpa [Tree.types] using hx⟩
      · refine ⟨c :: cs, f, rfl, ?_⟩
        rw [typesAt_cons, kidOrNew_some (t := Tree.mk n ts fs ks) h1]; exact h3
    · rintro ⟨cs, f, rfl, hf⟩
      cases cs with
      | nil => left; simpa [Tree.types, qualified] using hf
      | cons c cs =>
        right
        rw [typesAt_cons] at hf
        cases hk : ks.find c with
        | none =>
          rw [kidOrNew_none (t := Tree.mk n ts fs ks) hk, typesAt_new] at hf
          simp at hf
        | some k =>
          rw [kidOrNew_some (t := Tree.mk n ts fs ks) hk] at hf
          exact ⟨c, k, cs, f, hk, rfl, hf⟩

theorem mem_typesAllKids (ks : Kids F) (hn : ks.keys.Nodup) (hp : ∀ c ∈ ks.keys, c ≠ [])
    (hw : ∀ c k, ks.find c = some k → WF k) (x : Name) :
    x ∈ typesAllKids ks ↔
      ∃ c k cs f, ks.find c = some k ∧ x = qualified (c :: (cs ++ [f])) ∧ f ∈ typesAt k cs := by
  match ks with
  | .nil => simp [typesAllKids]
  | .cons key t rest =>
    simp only [Kids.keys, List.nodup_cons] at hn
    have hkey : key ≠ [] := hp key (by simp [Kids.keys])
    have h1 := mem_typesAll t (hw key t (by simp [find_cons]))
    have hrest : ∀ c k, rest.find c = some k → key ≠ c := by
      rintro c k hk rfl
      exact hn.1 ((find_isSome_iff rest key).1 (by rw [hk]; rfl))
    have h2 := mem_typesAllKids rest hn.2 (fun c hc => hp c (by simp [Kids.keys, hc]))
      (fun c k hk => hw c k (by rw [find_cons, if_neg (hrest c k hk)]; exact hk)) x
    simp only [typesAllKids, List.mem_append, List.mem_map, h2]
    constructor
    · rintro (⟨y, hy, rfl⟩ | ⟨c, k, cs, f, hk, hx, hf⟩)
      · obtain ⟨cs, f, rfl, hf⟩ := (h1 y).1 hy
        exact ⟨key, t, cs, f, by simp [find_cons], join_qualified hkey (by simp), hf⟩
      · exact ⟨c, k, cs, f, by rw [find_cons, if_neg (hrest c k hk)]; exact hk, hx, hf⟩
    · rintro ⟨c, k, cs, f, hk, rfl, hf⟩
      rw [find_cons] at hk
      split at hk
      · rename_i he; simp at hk; subst hk; subst he
        left
        exact ⟨_, (h1 _).2 ⟨cs, f, rfl, hf⟩, join_qualified hkey (by simp)⟩
      · right; exact ⟨c, k, cs, f, hk, rfl, hf⟩
end

mutual
theorem mem_functionsAll (t : Tree F) (h : WF t) (x : Name) :
    x ∈ functionsAll t ↔
      ∃ cs f, x = qualified (cs ++ [f]) ∧ (findFn (fnsAt t cs) f).isSome := by
  match t with
  | .mk n ts fs ks =>
    have hk := mem_functionsAllKids ks h.node.nodup (fun c hc => (h.node.keys c hc).2)
      (fun c k hk => h.kid (c := c) hk) x
    simp only [functionsAll, List.mem_append, hk]
    constructor
    · rintro (hx | ⟨c, k, cs, f, h1, rfl, h3⟩)
      · exact ⟨[], x, rfl, by
          rw [findFn_isSome_iff]; simpa [Tree.fns] using hx⟩
      · refine ⟨c :: cs, f, rfl, ?_⟩
        rw [fnsAt_cons, kidOrNew_some (t := Tree.mk n ts fs ks) h1]; exact h3
    · rintro ⟨cs, f, rfl, hf⟩
      cases cs with
      | nil =>
        left
        rw [findFn_isSome_iff] at hf
        simpa [Tree.fns, qualified] using hf
      | cons c cs =>
        right
        rw [fnsAt_cons] at hf
        cases hk : ks.find c with
        | none =>
          rw [kidOrNew_none (t := Tree.mk n ts fs ks) hk, fnsAt_new] at hf
          simp [findFn] at hf
        | some k =>
          rw [kidOrNew_some (t := Tree.mk n ts fs ks) hk] at hf
          exact ⟨c, k, cs, f, hk, rfl, hf⟩

theorem mem_functionsAllKids (ks : Kids F) (hn : ks.keys.Nodup) (hp : ∀ c ∈ ks.keys, c ≠ [])
    (hw : ∀ c k, ks.find c = some k → WF k) (x : Name) :
    x ∈ functionsAllKids ks ↔
      ∃ c k cs f, ks.find c = some k ∧ x = qualified (c :: (cs ++ [f])) ∧
        (findFn (fnsAt k cs) f).isSome := by
  match ks with
  | .nil => simp [functionsAllKids]
  | .cons key t rest =>
    simp only [Kids.keys, List.nodup_cons] at hn
    have hkey : key ≠ [] := hp key (by simp [Kids.keys])
    have h1 := mem_functionsAll t (hw key t (by simp [find_cons]))
    have hrest : ∀ c k, rest.find c = some k → key ≠ c := by
      rintro c k hk rfl
      exact hn.1 ((find_isSome_iff rest key).1 (by rw [hk]; rfl))
    have h2 := mem_functionsAllKids rest hn.2 (fun c hc => hp c (by simp [Kids.keys, hc]))
      (fun c k hk => hw c k (by rw [find_cons, if_neg (hrest c k hk)]; exact hk)) x
    simp only [functionsAllKids, List.mem_append, List.mem_map, h2]
    constructor
    · rintro (⟨y, hy, rfl⟩ | ⟨c, k, cs, f, hk, hx, hf⟩)
      · obtain ⟨cs, f, rfl, hf⟩ := (h1 y).1 hy
        exact ⟨key, t, cs, f, by simp [find_cons], join_qualified hkey (by simp), hf⟩
      · exact ⟨c, k, cs, f, by rw [find_cons, if_neg (hrest c k hk)]; exact hk, hx, hf⟩
    · rintro ⟨c, k, cs, f, hk, rfl, hf⟩
      rw [find_cons] at hk
      split at hk
      · rename_i he; simp at hk; subst hk; subst he
        left
        exact ⟨_, (h1 _).2 ⟨cs, f, rfl, hf⟩, join_qualified hkey (by simp)⟩
      · right; exact ⟨c, k, cs, f, hk, rfl, hf⟩
end

/-- keys on an existing path are proper components -/
theorem WF.path {t : Tree F} (h : WF t) (cs : List Name) (hk : (t.at cs).isSome) :
    ∀ c ∈ cs, PC c := by
  induction cs generalizing t with
  | nil => simp
  | cons c cs ih =>
    rw [at_cons] at hk
    cases hc : t.kids.find c with
    | none => simp [hc] at hk
    | some k =>
      simp only [hc] at hk
      intro x hx
      simp at hx
      rcases hx with rfl | hx
      · exact h.node.keys x ((find_isSome_iff _ _).1 (by rw [hc]; rfl))
      · exact ih (h.kid hc) hk x hx

theorem WF.typesAt_proper {t : Tree F} (h : WF t) {cs : List Name} {f : Name}
    (hf : f ∈ typesAt t cs) : ProperPath (cs ++ [f]) := by
  unfold typesAt at hf
  cases hk : t.at cs with
  | none => simp [hk] at hf
  | some k =>
    simp [hk] at hf
    refine ⟨by simp, fun c hc => ?_⟩
    simp at hc
    rcases hc with hc | rfl
    · exact h.path cs (by rw [hk]; rfl) c hc
    · exact (h cs k hk).types c hf

theorem WF.fnsAt_proper {t : Tree F} (h : WF t) {cs : List Name} {f : Name}
    (hf : (findFn (fnsAt t cs) f).isSome) : ProperPath (cs ++ [f]) := by
  unfold fnsAt at hf
  cases hk : t.at cs with
  | none => simp [hk, findFn] at hf
  | some k =>
    simp only [hk, Option.map_some, Option.getD_some] at hf
    refine ⟨by simp, fun c hc => ?_⟩
    simp at hc
    rcases hc with hc | rfl
    · exact h.path cs (by rw [hk]; rfl) c hc
    · exact (h cs k hk).fns c ((findFn_isSome_iff _ _).1 hf)

theorem qualified_inj {cs ds : List Name} (hc : ProperPath cs) (hd : ProperPath ds)
    (h : qualified cs = qualified ds) : cs = ds := by
  have h1 := peelFront_qualified cs hc
  rw [h, peelFront_qualified ds hd] at h1
  exact (Except.ok.inj h1).symm

theorem mem_typesAll_qualified {t : Tree F} (h : WF t) {cs : List Name} {f : Name}
    (hp : ProperPath (cs ++ [f])) :
    qualified (cs ++ [f]) ∈ typesAll t ↔ f ∈ typesAt t cs := by
  rw [mem_typesAll t h]
  constructor
  · rintro ⟨ds, g, he, hg⟩
    have := qualified_inj hp (h.typesAt_proper hg) he
    obtain ⟨rfl, h2⟩ := List.append_inj' this rfl
    simp at h2; subst h2; exact hg
  · intro hf; exact ⟨cs, f, rfl, hf⟩

theorem mem_functionsAll_qualified {t : Tree F} (h : WF t) {cs : List Name} {f : Name}
    (hp : ProperPath (cs ++ [f])) :
    qualified (cs ++ [f]) ∈ functionsAll t ↔ (findFn (fnsAt t cs) f).isSome := by
  rw [mem_functionsAll t h]
  constructor
  · rintro ⟨ds, g, he, hg⟩
    have := qualified_inj hp (h.fnsAt_proper hg) he
    obtain ⟨rfl, h2⟩ := List.append_inj' this rfl
    simp at h2; subst h2; exact hg
  · intro hf; exact ⟨cs, f, rfl, hf⟩

theorem proper_prefix {ds es : List Name} (h : ProperPath (ds ++ es)) (h2 : ds ≠ []) :
    ProperPath ds := ⟨h2, fun x hx => h.2 x (by simp [hx])⟩

theorem blockedT_iff {t : Tree F} (h : WF t) {cs : List Name} (hp : ProperPath cs) :
    BlockedT t cs ↔ PrefixIn (typesAll t) cs := by
  constructor
  · rintro ⟨ds, f, es, rfl, hne, hf⟩
    refine ⟨ds ++ [f], es, by simp, by simp, hne, ?_⟩
    exact (mem_typesAll t h _).2 ⟨ds, f, rfl, hf⟩
  · rintro ⟨ds, es, rfl, h1, h2, hm⟩
    obtain ⟨ds', f, rfl⟩ : ∃ ds' f, ds = ds' ++ [f] :=
      ⟨_, _, (List.dropLast_concat_getLast h1).symm⟩
    have hp' := proper_prefix hp h1
    exact ⟨ds', f, es, by simp, h2, (mem_typesAll_qualified h hp').1 hm⟩

theorem blockedF_iff {t : Tree F} (h : WF t) {cs : List Name} (hp : ProperPath cs) :
    BlockedF t cs ↔ PrefixIn (functionsAll t) cs := by
  constructor
  · rintro ⟨ds, f, es, rfl, hne, hf⟩
    refine ⟨ds ++ [f], es, by simp, by simp, hne, ?_⟩
    exact (mem_functionsAll t h _).2 ⟨ds, f, rfl, hf⟩
  · rintro ⟨ds, es, rfl, h1, h2, hm⟩
    obtain ⟨ds', f, rfl⟩ : ∃ ds' f, ds = ds' ++ [f] :=
      ⟨_, _, (List.dropLast_concat_getLast h1).symm⟩
    have hp' := proper_prefix hp h1
    exact ⟨ds', f, es, by simp, h2, (mem_functionsAll_qualified h hp').1 hm⟩

/-- a history in which every name is a proper qualified name -/
def ProperOps (ops : List (Op F)) : Prop :=
  ∀ o ∈ ops, ∃ cs, ProperPath cs ∧ o.name = qualified cs

theorem exists_snoc {cs : List Name} (h : cs ≠ []) : ∃ ds f, cs = ds ++ [f] :=
  ⟨_, _, (List.dropLast_concat_getLast h).symm⟩

theorem PC_init {cs : List Name} {f : Name} (h : ProperPath (cs ++ [f])) : ∀ c ∈ cs, PC c :=
  fun c hc => h.2 c (by simp [hc])

theorem PC_last {cs : List Name} {f : Name} (h : ProperPath (cs ++ [f])) : PC f :=
  h.2 f (by simp)

theorem WF_step (add : List F → F → Res (List F)) (t : Tree F) (o : Op F) (h : WF t)
    (ho : ∃ cs, ProperPath cs ∧ o.name = qualified cs) : WF (step add t o).1 := by
  obtain ⟨cs, hp, hn⟩ := ho
  cases o with
  | scope n =>
    simp only [Op.name] at hn; subst hn
    simp only [step, scopeMut_eq t cs hp]
    exact WF_upd t cs _ h (fun c hc => hp.2 c hc) (fun k hk => hk) (fun _ => rfl)
  | type n =>
    simp only [Op.name] at hn; subst hn
    obtain ⟨ds, f, rfl⟩ := exists_snoc hp.1
    simp only [step]
    have := addType_eq t ds f hp
    by_cases hb : BlockedT t (ds ++ [f]) ∨ BlockedF t (ds ++ [f])
    · rw [this.1 hb]; exact h
    · rw [this.2 (fun x => hb (Or.inl x)) (fun x => hb (Or.inr x))]
      exact WF_upd t ds _ h (PC_init hp) (fun k hk => WF_insertType f (PC_last hp) k hk) (by simp)
  | fn n fn =>
    simp only [Op.name] at hn; subst hn
    obtain ⟨ds, f, rfl⟩ := exists_snoc hp.1
    simp only [step, addFunction_eq add t ds f fn hp]
    refine WF_upd t ds _ h (PC_init hp)
      (fun k hk => WF_addFunctionHere add f fn (PC_last hp) k hk) ?_
    intro k
    obtain ⟨v, hv⟩ := addFunctionHere_shape add f fn k
    rw [hv]; rfl
  | lookup n =>
    simp only [Op.name] at hn; subst hn
    obtain ⟨ds, f, rfl⟩ := exists_snoc hp.1
    simp only [step, function_eq t ds f hp]
    exact WF_upd t ds _ h (PC_init hp) (fun k hk => hk) (fun _ => rfl)

theorem foldl_WF (add : List F → F → Res (List F)) (ops : List (Op F)) (t : Tree F) (ht : WF t)
    (h : ProperOps ops) : WF (ops.foldl (fun t o => (step add t o).1) t) := by
  induction ops generalizing t with
  | nil => exact ht
  | cons o os ih =>
    exact ih _ (WF_step add t o ht (h o (by simp))) (fun x hx => h x (by simp [hx]))

theorem idAlong_eq (t : Tree F) (ht : WF t) (acc : Name) (cs : List Name) (hc : cs ≠ [])
    (hk : (t.at cs).isSome) :
    idAlong t acc cs = some (join acc (qualified cs)) := by
  induction cs generalizing t acc with
  | nil => exact absurd rfl hc
  | cons c cs ih =>
    have hpc := ht.path _ hk
    rw [at_cons] at hk
    cases hf : t.kids.find c with
    | none => simp [hf] at hk
    | some k =>
      simp only [hf] at hk
      have hname := ht.node.named c k hf
      rw [idAlong]; simp only [hf, hname]
      by_cases h2 : cs = []
      · subst h2; simp [idAlong, qualified]
      · rw [ih k (ht.kid hf) _ h2 hk]
        rw [qualified_cons h2]
        have hcne : c ≠ [] := (hpc c (by simp)).2
        by_cases ha : acc = []
        · simp [join, ha, hcne, sep]
        · simp [join, ha, sep]

end Reflect.Scope

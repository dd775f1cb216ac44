f='/verif/lean/Verif/Lemmas/PrintType.lean'
s=open(f).read()
s=s.replace("""      exact absurd (List.prefix_append _ _ : Pre "type " (j, "type ".toList ++ w.id)) (hr _ (by rw [h]; rfl))""","""      exact absurd (List.prefix_append "type ".toList w.id) (hr (j, "type ".toList ++ w.id) (by rw [h]; rfl))""")
s=s.replace("""      exact absurd (List.prefix_append _ _ : Pre "type " (j, "type ".toList ++ v.id)) (hs _ (by rw [← h]; rfl))""","""      exact absurd (List.prefix_append "type ".toList v.id) (hs (j, "type ".toList ++ v.id) (by rw [← h]; rfl))""")
s=s.replace("unfold sortedFields; rw [e]; rfl","unfold sortedFields; rw [e]; exact List.mergeSort_nil")
i=s.rindex(" \nend Reflect.Print")
s=s[:i]+'''
/-! ### scopes -/

def typesL (j : Nat) (ns : List Name) : List Line := ns.map fun n => (j, "type ".toList ++ n ++ ";".toList)

def fnView (f : Name × List SigView) : FnView := ⟨f.1, [], f.2⟩

mutual
def scopeL : Scope.Tree SigView → Nat → List Line
  | .mk name types fns kids, j =>
    (j, "scope ".toList ++ name) :: (j, "{".toList) ::
      (fnsL (j + 4) (fns.map fnView) ++
      (gap j (decide (fns ≠ [] ∧ (types ≠ [] ∨ kids.keys ≠ []))) ++
      (typesL (j + 4) types ++ (gap j (decide (types ≠ [] ∧ kids.keys ≠ [])) ++
      (kidsL kids (j + 4) ++ [(j, "}".toList)])))))
def kidsL : Scope.Kids SigView → Nat → List Line
  | .nil, _ => []
  | .cons _ t rest, j => scopeL t j ++ ((0, []) :: kidsL rest j)
end

mutual
def scopeB : Scope.Tree SigView → Nat → List Line
  | .mk name types fns kids, j =>
    (j, "scope ".toList ++ name) :: (j, "{".toList) ::
      (fnsL (j + 4) (fns.map fnView) ++ (typesL (j + 4) types ++ (kidsB kids (j + 4) ++ [(j, "}".toList)])))
def kidsB : Scope.Kids SigView → Nat → List Line
  | .nil, _ => []
  | .cons _ t rest, j => scopeB t j ++ kidsB rest j
end

theorem fnView_named {fns : List (Name × List SigView)} (h : ∀ f ∈ fns, FnName f.1 ∧ ∀ s ∈ f.2, s.Named) :
    ∀ f ∈ fns.map fnView, f.Named := by
  intro f hf
  obtain ⟨g, hg, rfl⟩ := List.mem_map.1 hf
  exact ⟨(h g hg).1, by simp [fnView], (h g hg).2⟩

theorem typesL_pre {j : Nat} {ns : List Name} : ∀ l ∈ typesL j ns, l.1 = j ∧ Pre "type " l := by
  intro l hl
  obtain ⟨n, _, rfl⟩ := List.mem_map.1 hl
  refine ⟨rfl, ?_⟩
  show "type ".toList <+: "type ".toList ++ n ++ ";".toList
  rw [List.append_assoc]
  exact List.prefix_append _ _

theorem typesL_solid {j : Nat} {ns : List Name} : ∀ l ∈ typesL j ns, l.2 ≠ [] := by
  intro l hl e
  obtain ⟨r, hr⟩ := (typesL_pre l hl).2
  rw [e] at hr
  simp at hr

mutual
theorem scopeB_eq : ∀ (t : Scope.Tree SigView), ScopeNamed t → ∀ j, solid (scopeL t j) = scopeB t j
  | .mk name types fns kids => fun h j => by
    simp only [ScopeNamed] at h
    simp only [scopeL, scopeB]
    rw [solid_cons (by simp), solid_cons (by simp)]
    simp only [solid_append, solid_gap, List.nil_append, kidsB_eq kids h.2.2.2, solid_self typesL_solid,
      solid_self (fun l hl => (groups_clean (fnView_named h.2.2.1) l hl).2)]
    rfl
theorem kidsB_eq : ∀ (k : Scope.Kids SigView), KidsNamed k → ∀ j, solid (kidsL k j) = kidsB k j
  | .nil => fun _ j => by simp only [kidsL, kidsB]; rfl
  | .cons key t rest => fun h j => by
    simp only [KidsNamed] at h
    simp only [kidsL, kidsB, solid_append, scopeB_eq t h.1]
    have : solid ((0, []) :: kidsL rest j) = solid (kidsL rest j) := by simp [solid]
    rw [this, kidsB_eq rest h.2]
end

mutual
theorem scopeL_clean : ∀ (t : Scope.Tree SigView), ScopeNamed t → ∀ j, ∀ l ∈ scopeL t j, Clean l
  | .mk name types fns kids => fun h j l hl => by
    simp only [ScopeNamed] at h
    simp only [scopeL, List.mem_cons, List.mem_append, List.not_mem_nil, or_false] at hl
    rcases hl with rfl | rfl | hl | hl | hl | hl | hl | rfl
    · refine ⟨?_, by simp⟩
      intro hm
      rcases List.mem_append.1 hm with hm | hm
      · revert hm; decide
      · exact h.1 hm
    · exact ⟨by show '\\n' ∉ "{".toList; decide, by show "{".toList.head? ≠ _; decide⟩
    · exact (groups_clean (fnView_named h.2.2.1) l hl).1
    · exact gap_clean l hl
    · obtain ⟨n, hn, rfl⟩ := List.mem_map.1 hl
      refine ⟨?_, by simp⟩
      intro hm
      simp only [List.mem_append] at hm
      rcases hm with (hm | hm) | hm
      · revert hm; decide
      · exact h.2.1 n hn hm
      · revert hm; decide
    · exact gap_clean l hl
    · exact kidsL_clean kids h.2.2.2 _ l hl
    · exact ⟨by show '\\n' ∉ "}".toList; decide, by show "}".toList.head? ≠ _; decide⟩
theorem kidsL_clean : ∀ (k : Scope.Kids SigView), KidsNamed k → ∀ j, ∀ l ∈ kidsL k j, Clean l
  | .nil => fun _ j l hl => by simp [kidsL] at hl
  | .cons key t rest => fun h j l hl => by
    simp only [KidsNamed] at h
    simp only [kidsL, List.mem_append, List.mem_cons] at hl
    rcases hl with hl | rfl | hl
    · exact scopeL_clean t h.1 j l hl
    · exact ⟨by simp, by simp⟩
    · exact kidsL_clean rest h.2 j l hl
end

theorem kidsB_head {k : Scope.Kids SigView} {j : Nat} {r : List Line} {l : Line}
    (h : (kidsB k j ++ r).head? = some l) : (l.1 = j ∧ Pre "scope " l) ∨ r.head? = some l := by
  cases k with
  | nil => exact .inr (by simpa [kidsB] using h)
  | cons key t rest =>
    left
    cases t with
    | mk name types fns kids =>
      simp only [kidsB, scopeB, List.cons_append, List.head?_cons, Option.some.injEq] at h
      rw [← h]
      exact ⟨rfl, List.prefix_append "scope ".toList name⟩

theorem view_inj {a b : List (Name × List SigView)} (h : a.map fnView = b.map fnView) : a = b :=
  map_inj_on (q := fun _ => True) (fun x y _ _ e => by
    obtain ⟨x1, x2⟩ := x
    obtain ⟨y1, y2⟩ := y
    simp only [fnView, FnView.mk.injEq, true_and] at e
    rw [e.1, e.2]) (fun _ _ => trivial) (fun _ _ => trivial) h

mutual
/-- the keys under which scopes are found are their names -/
def Keyed : Scope.Tree SigView → Prop
  | .mk _ _ _ kids => KidsKeyed kids
def KidsKeyed : Scope.Kids SigView → Prop
  | .nil => True
  | .cons k t rest => k = t.name ∧ Keyed t ∧ KidsKeyed rest
end

mutual
theorem view_keyed (ids : Ty → Name) : ∀ t, Keyed (scopeView ids t)
  | .mk _ _ _ kids => by simp only [scopeView, Keyed]; exact kidsView_keyed ids kids
theorem kidsView_keyed (ids : Ty → Name) : ∀ k, KidsKeyed (kidsView ids k)
  | .nil => by simp only [kidsView, KidsKeyed]
  | .cons _ t rest => by
    simp only [kidsView, KidsKeyed]
    refine ⟨?_, view_keyed ids t, kidsView_keyed ids rest⟩
    cases t; rfl
end

mutual
theorem scopeB_inj : ∀ (t u : Scope.Tree SigView), ScopeNamed t → ScopeNamed u → Keyed t → Keyed u →
    ∀ (j : Nat) (r s : List Line), scopeB t j ++ r = scopeB u j ++ s → t = u ∧ r = s
  | .mk name types fns kids, .mk name' types' fns' kids' => fun ht hu kt ku j r s h => by
    simp only [ScopeNamed] at ht hu
    simp only [Keyed] at kt ku
    simp only [scopeB, List.cons_append, List.append_assoc, List.cons.injEq, Prod.mk.injEq, true_and,
      List.nil_append] at h
    obtain ⟨h1, h⟩ := h
    have h1 := List.append_cancel_left h1
    have kH : ∀ (k : Scope.Kids SigView) (r : List Line) l, (kidsB k (j + 4) ++ (j, "}".toList) :: r).head? = some l →
        ¬ Pre "type " l ∧ (l.1 = j ∨ Pre "scope " l) := by
      intro k r l hl
      rcases kidsB_head hl with ⟨_, hl⟩ | hl
      · exact ⟨pre_clash rfl (by simp) (by simp) hl, .inr hl⟩
      · simp only [List.head?_cons, Option.some.injEq] at hl
        rw [← hl]
        exact ⟨closing_noPre j rfl (by simp), .inl rfl⟩
    have tH : ∀ (ns : List Name) (k : Scope.Kids SigView) (r : List Line) l,
        (typesL (j + 4) ns ++ (kidsB k (j + 4) ++ (j, "}".toList) :: r)).head? = some l →
        ¬ (l.1 ≠ j ∧ (l.1 = j + 4 → ¬ Pre "type " l ∧ ¬ Pre "scope " l)) := by
      rintro ns k r l hl ⟨n1, n2⟩
      rcases head_append hl with hl | ⟨_, hl⟩
      · have := typesL_pre l hl
        exact (n2 this.1).1 this.2
      · rcases kidsB_head hl with ⟨e, hl⟩ | hl
        · exact (n2 e).2 hl
        · simp only [List.head?_cons, Option.some.injEq] at hl
          rw [← hl] at n1
          exact n1 rfl
    have fH : ∀ (fns : List (Name × List SigView)), (∀ f ∈ fns, FnName f.1 ∧ ∀ s ∈ f.2, s.Named) →
        ∀ l ∈ fnsL (j + 4) (fns.map fnView), l.1 ≠ j ∧ (l.1 = j + 4 → ¬ Pre "type " l ∧ ¬ Pre "scope " l) := by
      intro fns hn l hl
      refine ⟨fun e => by have := fnsL_indent l hl; omega, fun e => ?_⟩
      simp only [fnsL, List.mem_flatMap] at hl
      obtain ⟨g, hg, hl⟩ := hl
      have gi := group_indent (j + 4) _ g hg
      rcases List.mem_cons.1 hl with rfl | hl
      · obtain ⟨f, hf, rfl⟩ := List.mem_map.1 hg
        have := FnName.noPre (fnView_named hn f hf).1
        exact ⟨this.1, this.2.1⟩
      · exact absurd e (gi.2 l hl)
    obtain ⟨h2, h⟩ := while_inj (q := fun l : Line => l.1 ≠ j ∧ (l.1 = j + 4 → ¬ Pre "type " l ∧ ¬ Pre "scope " l))
      (fH fns ht.2.2.1) (fH fns' hu.2.2.1) (tH types kids r) (tH types' kids' s) h
    obtain ⟨h3, h⟩ := while_inj (q := Pre "type ") (fun a ha => (typesL_pre a ha).2)
      (fun a ha => (typesL_pre a ha).2) (fun l hl => (kH kids r l hl).1) (fun l hl => (kH kids' s l hl).1) h
    have cH : ∀ (r : List Line) l, ((j, "}".toList) :: r).head? = some l → ¬ Pre "scope " l := by
      intro r l hl
      simp only [List.head?_cons, Option.some.injEq] at hl
      rw [← hl]
      exact closing_noPre j rfl (by simp)
    obtain ⟨h4, h⟩ := kidsB_inj kids kids' ht.2.2.2 hu.2.2.2 kt ku (j + 4) _ _ (cH r) (cH s) h
    have h2 := view_inj (fnsL_inj (fnView_named ht.2.2.1) (fnView_named hu.2.2.1) h2)
    have h3 : types = types' := map_inj_on (q := fun _ => True) (fun a b _ _ e => by
      have e := congrArg Prod.snd e
      exact List.append_cancel_left (List.append_cancel_right e)) (fun _ _ => trivial) (fun _ _ => trivial) h3
    simp only [List.cons.injEq, true_and] at h
    exact ⟨by rw [h1, h2, h3, h4], h⟩
theorem kidsB_inj : ∀ (k m : Scope.Kids SigView), KidsNamed k → KidsNamed m → KidsKeyed k → KidsKeyed m →
    ∀ (j : Nat) (r s : List Line), (∀ l, r.head? = some l → ¬ Pre "scope " l) →
    (∀ l, s.head? = some l → ¬ Pre "scope " l) → kidsB k j ++ r = kidsB m j ++ s → k = m ∧ r = s
  | .nil, .nil => fun _ _ _ _ j r s _ _ h => ⟨rfl, by simpa [kidsB] using h⟩
  | .nil, .cons key t rest => fun _ _ _ _ j r s hr _ h => by
    cases t with
    | mk name types fns kids =>
      simp only [kidsB, scopeB, List.nil_append, List.cons_append] at h
      exact absurd (List.prefix_append "scope ".toList name)
        (hr (j, "scope ".toList ++ name) (by rw [h]; rfl))
  | .cons key t rest, .nil => fun _ _ _ _ j r s _ hs h => by
    cases t with
    | mk name types fns kids =>
      simp only [kidsB, scopeB, List.nil_append, List.cons_append] at h
      exact absurd (List.prefix_append "scope ".toList name)
        (hs (j, "scope ".toList ++ name) (by rw [← h]; rfl))
  | .cons key t rest, .cons key' t' rest' => fun hk hm kk km j r s hr hs h => by
    simp only [KidsNamed] at hk hm
    simp only [KidsKeyed] at kk km
    simp only [kidsB, List.append_assoc] at h
    obtain ⟨h1, h⟩ := scopeB_inj t t' hk.1 hm.1 kk.2.1 km.2.1 j _ _ h
    obtain ⟨h2, h⟩ := kidsB_inj rest rest' hk.2 hm.2 kk.2.2 km.2.2 j r s hr hs h
    exact ⟨by rw [kk.1, km.1, h1, h2], h⟩
end

theorem scopeL_inj {t u : Scope.Tree SigView} (ht : ScopeNamed t) (hu : ScopeNamed u) (kt : Keyed t) (ku : Keyed u)
    {j : Nat} (h : unl (scopeL t j) = unl (scopeL u j)) : t = u := by
  have h := congrArg solid (unl_inj (scopeL_clean t ht j) (scopeL_clean u hu j) h)
  rw [scopeB_eq t ht, scopeB_eq u hu] at h
  exact (scopeB_inj t u ht hu kt ku j [] [] (by simpa using h)).1

theorem unl_gap' (j : Nat) (P : Prop) [Decidable P] :
    unl (gap j (decide P)) = if P then spaces j ++ "\\n".toList else [] := by
  by_cases h : P
  · simp [gap, unl, h]
  · simp [gap, unl, h]

theorem keys_view (ids : Ty → Name) (k : Scope.Kids Fn) : (kidsView ids k).keys ≠ [] ↔ k.keys ≠ [] := by
  cases k <;> simp [kidsView, Scope.Kids.keys]

mutual
theorem scopeText_lines (ids : Ty → Name) : ∀ (t : Scope.Tree Fn) (j : Nat),
    scopeText ids t j = unl (scopeL (scopeView ids t) j)
  | .mk name types fns kids, j => by
    simp only [scopeView, scopeL, scopeText, unl_cons, unl_append, unl_nil, unl_gap',
      kidsText_lines ids kids (j + 4), keys_view]
    have f1 : unl (fnsL (j + 4) ((fns.map fun f => (f.1, f.2.map fun g => sigView ids g.ret g.args)).map fnView)) =
        _ := by
      rw [List.map_map]
      exact unl_fns ids (j + 4) (fun _ => []) fns
    have f2 : unl (typesL (j + 4) types) =
        types.flatMap fun n => spaces (j + 4) ++ "type ".toList ++ n ++ ";\\n".toList := by
      unfold typesL unl
      rw [List.flatMap_map]
      congr 1
      funext n
      have : ";\\n".toList = ";".toList ++ ['\\n'] := rfl
      rw [this]
      simp only [List.append_assoc]
    have f3 : (fns.map fun f => (f.1, f.2.map fun g => sigView ids g.ret g.args)) ≠ [] ↔ fns ≠ [] := by
      cases fns <;> simp
    rw [f1, f2]
    simp only [f3]
    have g : "{\\n".toList = "{".toList ++ ['\\n'] := rfl
    have g' : "\\n".toList = ['\\n'] := rfl
    have g'' : "}\\n".toList = "}".toList ++ ['\\n'] := rfl
    rw [g, g', g'']
    simp only [List.append_assoc, List.append_nil]
    rfl
theorem kidsText_lines (ids : Ty → Name) : ∀ (k : Scope.Kids Fn) (j : Nat),
    kidsText ids k j = unl (kidsL (kidsView ids k) j)
  | .nil, j => by simp only [kidsView, kidsL, kidsText]; rfl
  | .cons _ t rest, j => by
    simp only [kidsView, kidsL, kidsText, unl_append, unl_cons, scopeText_lines ids t j,
      kidsText_lines ids rest j]
    simp [spaces]
end

end Reflect.Print
'''
open(f,'w').write(s)

import Verif.Lemmas.PrintLines
/-
  Printed types and scopes as lines.
-/
namespace Reflect.Print
open Reflect.Spec

/-! ### types -/

/-- lines with nothing on them are left out -/
def solid (ls : List Line) : List Line := ls.filter fun l => l.2 ≠ []

theorem solid_append (a b : List Line) : solid (a ++ b) = solid a ++ solid b := List.filter_append ..

theorem solid_self {ls : List Line} (h : ∀ l ∈ ls, l.2 ≠ []) : solid ls = ls :=
  List.filter_eq_self.2 (by simpa using h)

def gap (j : Nat) (c : Bool) : List Line := if c then [(j, [])] else []

theorem solid_gap (j : Nat) (c : Bool) : solid (gap j c) = [] := by cases c <;> rfl

/-- the lines of a type with its ancestors `anc` -/
def typeL : List TypeView → Nat → List Line
  | [], _ => []
  | v :: anc, j =>
    (j, "type ".toList ++ v.id) :: (j, "{".toList) ::
      (typeL anc (j + 4) ++
      (gap (j + 4) (decide (v.traits ≠ []) && decide (anc ≠ [])) ++ (traitsL (j + 4) v.traits ++
      (gap (j + 4) (decide (v.fields ≠ []) && (decide (anc ≠ []) || decide (v.traits ≠ []))) ++
      (fieldsL (j + 4) v.fields ++
      (gap (j + 4) (decide (v.functions ≠ []) &&
        (decide (anc ≠ []) || decide (v.traits ≠ []) || decide (v.fields ≠ []))) ++
      (fnsL (j + 4) v.functions ++ [(j, "}".toList)])))))))

/-- those with something on them -/
def typeB : List TypeView → Nat → List Line
  | [], _ => []
  | v :: anc, j =>
    (j, "type ".toList ++ v.id) :: (j, "{".toList) ::
      (typeB anc (j + 4) ++ (traitsL (j + 4) v.traits ++ (fieldsL (j + 4) v.fields ++
      (fnsL (j + 4) v.functions ++ [(j, "}".toList)]))))

theorem traitsL_solid {j : Nat} {ns : List Name} : ∀ l ∈ traitsL j ns, l.2 ≠ [] := by
  intro l hl e
  obtain ⟨r, hr⟩ := (traitsL_pre l hl).2
  rw [e] at hr
  simp at hr

theorem fieldsL_pre {j : Nat} {fs : List FieldView} : ∀ l ∈ fieldsL j fs, l.1 = j ∧ Pre "0x" l := by
  intro l hl
  obtain ⟨f, _, rfl⟩ := List.mem_map.1 hl
  exact ⟨rfl, fieldT_prefix f⟩

theorem fieldsL_solid {j : Nat} {fs : List FieldView} : ∀ l ∈ fieldsL j fs, l.2 ≠ [] := by
  intro l hl e
  obtain ⟨r, hr⟩ := (fieldsL_pre l hl).2
  rw [e] at hr
  simp at hr

theorem solid_cons {l : Line} (h : l.2 ≠ []) (ls : List Line) : solid (l :: ls) = l :: solid ls := by
  simp [solid, h]

theorem typeB_eq : ∀ {vs : List TypeView}, (∀ v ∈ vs, v.Named) → ∀ j, solid (typeL vs j) = typeB vs j := by
  intro vs
  induction vs with
  | nil => intro _ j; rfl
  | cons v anc ih =>
    intro h j
    have hv := h v (by simp)
    simp only [typeL, typeB]
    rw [solid_cons (by simp), solid_cons (by simp)]
    simp only [solid_append, solid_gap, List.nil_append, ih (fun v hv => h v (by simp [hv])),
      solid_self traitsL_solid, solid_self fieldsL_solid,
      solid_self (fun l hl => (groups_clean hv.functions l hl).2)]
    rfl

theorem fieldsL_clean {j : Nat} {fs : List FieldView} (h : ∀ f ∈ fs, FieldNamed f) : ∀ l ∈ fieldsL j fs, Clean l := by
  intro l hl
  obtain ⟨f, hf, rfl⟩ := List.mem_map.1 hl
  exact ⟨fieldT_line (h f hf), by simp [fieldT]⟩

theorem traitsL_clean {j : Nat} {ns : List Name} (h : ∀ x ∈ ns, Word x) : ∀ l ∈ traitsL j ns, Clean l := by
  intro l hl
  unfold traitsL at hl
  split at hl
  · rw [List.mem_singleton] at hl
    rw [hl]
    exact ⟨traitsT_line h, by simp [traitsT]⟩
  · simp at hl

theorem gap_clean {j : Nat} {c : Bool} : ∀ l ∈ gap j c, Clean l := by
  intro l hl
  unfold gap at hl
  split at hl
  · rw [List.mem_singleton] at hl
    rw [hl]
    exact ⟨by simp, by simp⟩
  · simp at hl

theorem typeL_clean : ∀ {vs : List TypeView}, (∀ v ∈ vs, v.Named) → ∀ j, ∀ l ∈ typeL vs j, Clean l := by
  intro vs
  induction vs with
  | nil => intro _ j l hl; simp [typeL] at hl
  | cons v anc ih =>
    intro h j l hl
    have hv := h v (by simp)
    simp only [typeL, List.mem_cons, List.mem_append, List.not_mem_nil, or_false] at hl
    rcases hl with rfl | rfl | hl | hl | hl | hl | hl | hl | hl | rfl
    · refine ⟨?_, by simp⟩
      intro hm
      rcases List.mem_append.1 hm with hm | hm
      · revert hm; decide
      · exact (hv.id.chars _ hm).1 rfl
    · exact ⟨by show '\n' ∉ "{".toList; decide, by show "{".toList.head? ≠ _; decide⟩
    · exact ih (fun v hv => h v (by simp [hv])) _ l hl
    · exact gap_clean l hl
    · exact traitsL_clean hv.traits l hl
    · exact gap_clean l hl
    · exact fieldsL_clean hv.fields l hl
    · exact gap_clean l hl
    · exact (groups_clean hv.functions l hl).1
    · exact ⟨by show '\n' ∉ "}".toList; decide, by show "}".toList.head? ≠ _; decide⟩

theorem closing_noPre (j : Nat) {p : String} (h : (p.toList.head? == some '}') = false) (hp : p.toList ≠ []) :
    ¬ Pre p (j, "}".toList) := by
  rintro ⟨r, e⟩
  cases hc : p.toList with
  | nil => exact hp hc
  | cons c cs =>
    rw [hc] at e h
    have e : c :: (cs ++ r) = ['}'] := e
    simp only [List.cons.injEq] at e
    simp [e.1] at h

/-- the head of a list of parts comes from one of them -/
theorem head_append {α : Type} {a b : List α} {x : α} (h : (a ++ b).head? = some x) :
    x ∈ a ∨ (a = [] ∧ b.head? = some x) := by
  cases a with
  | nil => exact .inr ⟨rfl, h⟩
  | cons y a =>
    left
    simp only [List.cons_append, List.head?_cons, Option.some.injEq] at h
    rw [← h]; simp

theorem pre_clash {p q : String} {l : Line} (h : (p.toList.head? == q.toList.head?) = false) (hp : p.toList ≠ [])
    (hq : q.toList ≠ []) (h1 : Pre p l) : ¬ Pre q l := by
  intro h2
  obtain ⟨r, h1⟩ := h1
  obtain ⟨s, h2⟩ := h2
  cases hc : p.toList with
  | nil => exact hp hc
  | cons c cs =>
    cases hd : q.toList with
    | nil => exact hq hd
    | cons d ds =>
      rw [hc] at h1 h; rw [hd] at h2 h
      rw [← h1] at h2
      simp only [List.cons_append, List.cons.injEq] at h2
      simp [h2.1] at h

theorem typeB_inj : ∀ {vs ws : List TypeView}, (∀ v ∈ vs, v.Named) → (∀ v ∈ ws, v.Named) → ∀ {j : Nat}
    {r s : List Line}, (∀ l, r.head? = some l → ¬ Pre "type " l) → (∀ l, s.head? = some l → ¬ Pre "type " l) →
    typeB vs j ++ r = typeB ws j ++ s → vs = ws ∧ r = s := by
  intro vs
  induction vs with
  | nil =>
    intro ws _ _ j r s hr _ h
    cases ws with
    | nil => exact ⟨rfl, h⟩
    | cons w ws =>
      simp only [typeB, List.nil_append] at h
      exact absurd (List.prefix_append "type ".toList w.id) (hr (j, "type ".toList ++ w.id) (by rw [h]; rfl))
  | cons v vs ih =>
    intro ws hv hw j r s hr hs h
    cases ws with
    | nil =>
      simp only [typeB, List.nil_append] at h
      exact absurd (List.prefix_append "type ".toList v.id) (hs (j, "type ".toList ++ v.id) (by rw [← h]; rfl))
    | cons w ws =>
      have nv := hv v (by simp)
      have nw := hw w (by simp)
      simp only [typeB, List.cons_append, List.append_assoc, List.cons.injEq, Prod.mk.injEq, true_and,
        List.nil_append] at h
      obtain ⟨h1, h⟩ := h
      have h1 := List.append_cancel_left h1
      -- what may come where
      have fnH : ∀ (v : TypeView), v.Named → ∀ (r : List Line) l,
          (fnsL (j + 4) v.functions ++ (j, "}".toList) :: r).head? = some l →
          ¬ Pre "type " l ∧ ¬ Pre "[ " l ∧ ¬ Pre "0x" l := by
        intro v nv r l hl
        rcases fnsL_head nv.functions l hl with ⟨a, _, b, c⟩ | hl
        · exact ⟨a, b, c⟩
        · simp only [List.head?_cons, Option.some.injEq] at hl
          rw [← hl]
          exact ⟨closing_noPre j rfl (by simp), closing_noPre j rfl (by simp), closing_noPre j rfl (by simp)⟩
      have fdH : ∀ (v : TypeView), v.Named → ∀ (r : List Line) l,
          (fieldsL (j + 4) v.fields ++ (fnsL (j + 4) v.functions ++ (j, "}".toList) :: r)).head? = some l →
          ¬ Pre "type " l ∧ ¬ Pre "[ " l := by
        intro v nv r l hl
        rcases head_append hl with hl | ⟨_, hl⟩
        · have := (fieldsL_pre l hl).2
          exact ⟨pre_clash rfl (by simp) (by simp) this, pre_clash rfl (by simp) (by simp) this⟩
        · exact ⟨(fnH v nv r l hl).1, (fnH v nv r l hl).2.1⟩
      have trH : ∀ (v : TypeView), v.Named → ∀ (r : List Line) l, (traitsL (j + 4) v.traits ++
          (fieldsL (j + 4) v.fields ++ (fnsL (j + 4) v.functions ++ (j, "}".toList) :: r))).head? = some l →
          ¬ Pre "type " l := by
        intro v nv r l hl
        rcases head_append hl with hl | ⟨_, hl⟩
        · exact pre_clash rfl (by simp) (by simp) (traitsL_pre l hl).2
        · exact (fdH v nv r l hl).1
      obtain ⟨h2, h⟩ := ih (fun x hx => hv x (by simp [hx])) (fun x hx => hw x (by simp [hx]))
        (trH v nv r) (trH w nw s) h
      obtain ⟨h3, h⟩ := while_inj (q := Pre "[ ") (fun a ha => (traitsL_pre a ha).2)
        (fun a ha => (traitsL_pre a ha).2) (fun l hl => (fdH v nv r l hl).2) (fun l hl => (fdH w nw s l hl).2) h
      obtain ⟨h4, h⟩ := while_inj (q := Pre "0x") (fun a ha => (fieldsL_pre a ha).2)
        (fun a ha => (fieldsL_pre a ha).2) (fun l hl => (fnH v nv r l hl).2.2) (fun l hl => (fnH w nw s l hl).2.2) h
      have ind : ∀ (fs : List FnView), ∀ l ∈ fnsL (j + 4) fs, ¬ l.1 = j := by
        intro fs l hl e
        have := fnsL_indent l hl
        omega
      obtain ⟨h5, h⟩ := while_inj (q := fun l : Line => ¬ l.1 = j) (ind _) (ind _)
        (fun l hl => by simp only [List.head?_cons, Option.some.injEq] at hl; rw [← hl]; exact fun h => h rfl)
        (fun l hl => by simp only [List.head?_cons, Option.some.injEq] at hl; rw [← hl]; exact fun h => h rfl) h
      have h3 := traitsL_inj nv.traits nw.traits h3
      have h4 := fieldsL_inj nv.fields nw.fields h4
      have h5 := fnsL_inj nv.functions nw.functions h5
      simp only [List.cons.injEq, true_and] at h
      refine ⟨?_, h⟩
      obtain ⟨a, b, c, d⟩ := v
      obtain ⟨a', b', c', d'⟩ := w
      simp only at h1 h3 h4 h5
      rw [h1, h2, h3, h4, h5]

theorem typeL_inj {vs ws : List TypeView} (hv : ∀ v ∈ vs, v.Named) (hw : ∀ v ∈ ws, v.Named) {j : Nat}
    (h : unl (typeL vs j) = unl (typeL ws j)) : vs = ws := by
  have h := congrArg solid (unl_inj (typeL_clean hv j) (typeL_clean hw j) h)
  rw [typeB_eq hv, typeB_eq hw] at h
  exact (typeB_inj (r := []) (s := []) hv hw (by simp) (by simp) (by simpa using h)).1

/-! ### the text of a type -/

theorem unl_traits (j : Nat) (m : Traits) (n : List Name) (h : n = m.names) :
    unl (traitsL j n) = if m ≠ [] then spaces j ++ m.text ++ "\n".toList else [] := by
  subst h
  unfold traitsL
  have : m.names ≠ [] ↔ m ≠ [] := by
    cases m with
    | nil => simp [Traits.names]
    | cons x m => simp [Traits.names]
  by_cases c : m = []
  · subst c; rfl
  · rw [if_pos c, if_pos (this.2 c)]
    simp only [unl, List.flatMap_cons, List.flatMap_nil, List.append_nil]
    rfl

theorem unl_sigs (ids : Ty → Name) (j : Nat) (o : Overloads) :
    unl ((o.map fun g => sigView ids g.ret g.args).map fun s => (j, sigT s)) =
      o.flatMap fun f => spaces j ++ sigText ids f.ret f.args ++ "\n".toList := by
  simp only [unl, List.map_map, List.flatMap_map, Function.comp, sig_eq]
  rfl

theorem unl_group (ids : Ty → Name) (j : Nat) (n : Name) (m : Traits) (o : Overloads) :
    unl ((groupL j ⟨n, m.names, o.map fun g => sigView ids g.ret g.args⟩).1 ::
      (groupL j ⟨n, m.names, o.map fun g => sigView ids g.ret g.args⟩).2) =
      spaces j ++ n ++ ":\n".toList ++ overloadsText ids (j + 4) m o := by
  unfold groupL
  rw [unl_cons, unl_append, unl_traits _ m _ rfl, unl_sigs]
  simp only [overloadsText]
  have : ":\n".toList = ":".toList ++ ['\n'] := rfl
  rw [this]
  simp only [List.append_assoc]

theorem unl_flat {α : Type} (f : α → List Line) (l : List α) : unl (l.flatMap f) = l.flatMap fun a => unl (f a) := by
  simp only [unl, List.flatMap_assoc]

theorem unl_fns (ids : Ty → Name) (j : Nat) (tr : Name → Traits) (fns : Assoc Name Overloads) :
    unl (fnsL j (fns.map fun f => ⟨f.1, (tr f.1).names, f.2.map fun g => sigView ids g.ret g.args⟩)) =
      fns.flatMap fun f => spaces j ++ f.1 ++ ":\n".toList ++ overloadsText ids (j + 4) (tr f.1) f.2 := by
  unfold fnsL
  rw [unl_flat, List.flatMap_map, List.flatMap_map]
  simp only [unl_group]

theorem unl_fields (ids : Ty → Name) (j : Nat) (tr : Name → Traits) (fs : List (Name × FieldD)) :
    unl (fieldsL j (fs.map fun f => ⟨f.2.offset, ids f.2.arg.type, f.1, (tr f.1).names⟩)) =
      fs.flatMap fun f => spaces j ++ fieldText ids f.1 f.2 (tr f.1) ++ "\n".toList := by
  unfold fieldsL unl
  rw [List.map_map, List.flatMap_map]
  congr 1
  funext f
  have : fieldT ⟨f.2.offset, ids f.2.arg.type, f.1, (tr f.1).names⟩ = fieldText ids f.1 f.2 (tr f.1) := by
    unfold fieldT fieldText
    have h : (tr f.1).names ≠ [] ↔ tr f.1 ≠ [] := by
      cases tr f.1 with
      | nil => simp [Traits.names]
      | cons x m => simp [Traits.names]
    by_cases c : tr f.1 = []
    · rw [if_neg (fun h' => h.1 h' c), if_neg (fun h' => h' c)]
    · rw [if_pos (h.2 c), if_pos c]
      rfl
  simp only [Function.comp, this]
  rfl

theorem unl_gap (j : Nat) (before next : Bool) : unl (gap j (next && before)) = sepText j before next := by
  cases before <;> cases next <;> simp [gap, unl, sepText]

theorem decide_map {α β : Type} (l : List α) (f : α → β) (d : Decidable (l.map f ≠ [])) (d' : Decidable (l ≠ [])) :
    @decide (l.map f ≠ []) d = @decide (l ≠ []) d' := by
  cases l <;> simp

theorem typeText_lines {tbl : Ty → Noted} {t : Ty} {l : List Ty} (h : Lineage tbl t l) : ∀ (fuel j : Nat),
    l.length ≤ fuel → ∃ s, typeTextF tbl fuel t j = .ok s ∧ s ++ "\n".toList = unl (typeL (l.map (typeView tbl)) j) := by
  -- everything but the parent
  have rest : ∀ (t : Ty) (j : Nat) (anc : List TypeView) (s : Name) (b : Bool), b = decide (anc ≠ []) →
      s = unl (typeL anc (j + 4)) →
      spaces j ++ "type ".toList ++ (tbl t).d.id ++ "\n".toList ++ spaces j ++ "{\n".toList ++ s ++
        sepText (j + 4) b (decide ((tbl t).own ≠ [])) ++
        (if decide ((tbl t).own ≠ []) = true then spaces (j + 4) ++ (tbl t).own.text ++ "\n".toList else []) ++
        sepText (j + 4) (b || decide ((tbl t).own ≠ [])) (decide ((tbl t).d.fields ≠ [])) ++
        (sortedFields (tbl t).d.fields).flatMap (fun f => spaces (j + 4) ++
          fieldText (fun u => (tbl u).d.id) f.1 f.2 ((tbl t).fieldTraits f.1) ++ "\n".toList) ++
        sepText (j + 4) (b || decide ((tbl t).own ≠ []) || decide ((tbl t).d.fields ≠ []))
          (decide ((tbl t).d.fns ≠ [])) ++
        (tbl t).d.fns.flatMap (fun f => spaces (j + 4) ++ f.1 ++ ":\n".toList ++
          overloadsText (fun u => (tbl u).d.id) (j + 8) ((tbl t).fnTraits f.1) f.2) ++
        spaces j ++ "}".toList ++ "\n".toList = unl (typeL (typeView tbl t :: anc) j) := by
    intro t j anc s b hb hs
    subst hb hs
    simp only [typeL, unl_cons, unl_append, unl_nil]
    have e1 : (decide ((typeView tbl t).traits ≠ [])) = decide ((tbl t).own ≠ []) := decide_map _ _ _ _
    have e3 : (decide ((typeView tbl t).functions ≠ [])) = decide ((tbl t).d.fns ≠ []) := decide_map _ _ _ _
    have e2 : (decide ((typeView tbl t).fields ≠ [])) = decide ((tbl t).d.fields ≠ []) := by
      have : (sortedFields (tbl t).d.fields ≠ []) ↔ ((tbl t).d.fields ≠ []) := by
        have := List.length_mergeSort (le := fun a b : Name × FieldD => decide (a.2.offset ≤ b.2.offset))
          (tbl t).d.fields
        constructor
        · intro h e; apply h; unfold sortedFields; rw [e]; exact List.mergeSort_nil
        · intro h e; apply h
          unfold sortedFields at e
          rw [e] at this
          exact List.length_eq_zero_iff.1 this.symm
      have e := decide_map (sortedFields (tbl t).d.fields) (fun f => (⟨f.2.offset, (tbl f.2.arg.type).d.id, f.1,
        ((tbl t).fieldTraits f.1).names⟩ : FieldView)) inferInstance inferInstance
      refine Eq.trans e ?_
      exact decide_eq_decide.2 this
    simp only [e1, e2, e3, unl_gap]
    have f1 : unl (traitsL (j + 4) (typeView tbl t).traits) = _ := unl_traits (j + 4) (tbl t).own _ rfl
    have f2 : unl (fieldsL (j + 4) (typeView tbl t).fields) = _ :=
      unl_fields (fun u => (tbl u).d.id) (j + 4) (tbl t).fieldTraits (sortedFields (tbl t).d.fields)
    have f3 : unl (fnsL (j + 4) (typeView tbl t).functions) = _ :=
      unl_fns (fun u => (tbl u).d.id) (j + 4) (tbl t).fnTraits (tbl t).d.fns
    rw [f1, f2, f3]
    have g : "{\n".toList = "{".toList ++ ['\n'] := rfl
    have g' : "\n".toList = ['\n'] := rfl
    rw [g, g']
    simp only [List.append_assoc, decide_eq_true_eq, List.append_nil]
    rfl
  induction h with
  | root hp =>
    intro fuel j hf
    cases fuel with
    | zero => simp at hf
    | succ fuel =>
      refine ⟨_, by rw [typeTextF]; simp only [hp]; rfl, ?_⟩
      exact rest _ j [] [] false rfl rfl
  | @step t p l hp _ ih =>
    intro fuel j hf
    cases fuel with
    | zero => simp at hf
    | succ fuel =>
      obtain ⟨s, h1, h2⟩ := ih fuel (j + 4) (by simpa using hf)
      refine ⟨_, by rw [typeTextF]; simp only [hp, h1]; rfl, ?_⟩
      refine rest _ j _ _ true ?_ h2
      rename_i hl
      cases hl <;> simp

/-! ### scopes -/

def typesL (j : Nat) (ns : List Name) : List Line := ns.map fun n => (j, "type ".toList ++ n ++ ";".toList)

def fnView (f : Name × List SigView) : FnView := ⟨f.1, [], f.2⟩

mutual
def scopeL : Scope.Tree SigView → Nat → List Line
  | .mk name types fns kids, j =>
    (j, "scope ".toList ++ name) :: (j, "{".toList) ::
      (fnsL (j + 4) (fns.map fnView) ++
      (gap j (decide (fns ≠ [] ∧ (types ≠ [] ∨ kids.keys ≠ []))) ++
      (typesL (j + 4) types ++ (gap j (decide (types ≠ [] ∧ kids.keys ≠ [])) ++
      (kidsL kids (j + 4) ++ [(j, "}".toList)])))))
def kidsL : Scope.Kids SigView → Nat → List Line
  | .nil, _ => []
  | .cons _ t rest, j => scopeL t j ++ ((0, []) :: kidsL rest j)
end

mutual
def scopeB : Scope.Tree SigView → Nat → List Line
  | .mk name types fns kids, j =>
    (j, "scope ".toList ++ name) :: (j, "{".toList) ::
      (fnsL (j + 4) (fns.map fnView) ++ (typesL (j + 4) types ++ (kidsB kids (j + 4) ++ [(j, "}".toList)])))
def kidsB : Scope.Kids SigView → Nat → List Line
  | .nil, _ => []
  | .cons _ t rest, j => scopeB t j ++ kidsB rest j
end

theorem fnView_named {fns : List (Name × List SigView)} (h : ∀ f ∈ fns, FnName f.1 ∧ ∀ s ∈ f.2, s.Named) :
    ∀ f ∈ fns.map fnView, f.Named := by
  intro f hf
  obtain ⟨g, hg, rfl⟩ := List.mem_map.1 hf
  exact ⟨(h g hg).1, by simp [fnView], (h g hg).2⟩

theorem typesL_pre {j : Nat} {ns : List Name} : ∀ l ∈ typesL j ns, l.1 = j ∧ Pre "type " l := by
  intro l hl
  obtain ⟨n, _, rfl⟩ := List.mem_map.1 hl
  refine ⟨rfl, ?_⟩
  show "type ".toList <+: "type ".toList ++ n ++ ";".toList
  rw [List.append_assoc]
  exact List.prefix_append _ _

theorem typesL_solid {j : Nat} {ns : List Name} : ∀ l ∈ typesL j ns, l.2 ≠ [] := by
  intro l hl e
  obtain ⟨r, hr⟩ := (typesL_pre l hl).2
  rw [e] at hr
  simp at hr

mutual
theorem scopeB_eq : ∀ (t : Scope.Tree SigView), ScopeNamed t → ∀ j, solid (scopeL t j) = scopeB t j
  | .mk name types fns kids => fun h j => by
    simp only [ScopeNamed] at h
    simp only [scopeL, scopeB]
    rw [solid_cons (by simp), solid_cons (by simp)]
    simp only [solid_append, solid_gap, List.nil_append, kidsB_eq kids h.2.2.2, solid_self typesL_solid,
      solid_self (fun l hl => (groups_clean (fnView_named h.2.2.1) l hl).2)]
    rfl
theorem kidsB_eq : ∀ (k : Scope.Kids SigView), KidsNamed k → ∀ j, solid (kidsL k j) = kidsB k j
  | .nil => fun _ j => by simp only [kidsL, kidsB]; rfl
  | .cons key t rest => fun h j => by
    simp only [KidsNamed] at h
    simp only [kidsL, kidsB, solid_append, scopeB_eq t h.1]
    have : solid ((0, []) :: kidsL rest j) = solid (kidsL rest j) := by simp [solid]
    rw [this, kidsB_eq rest h.2]
end

mutual
theorem scopeL_clean : ∀ (t : Scope.Tree SigView), ScopeNamed t → ∀ j, ∀ l ∈ scopeL t j, Clean l
  | .mk name types fns kids => fun h j l hl => by
    simp only [ScopeNamed] at h
    simp only [scopeL, List.mem_cons, List.mem_append, List.not_mem_nil, or_false] at hl
    rcases hl with rfl | rfl | hl | hl | hl | hl | hl | rfl
    · refine ⟨?_, by simp⟩
      intro hm
      rcases List.mem_append.1 hm with hm | hm
      · revert hm; decide
      · exact h.1 hm
    · exact ⟨by show '\n' ∉ "{".toList; decide, by show "{".toList.head? ≠ _; decide⟩
    · exact (groups_clean (fnView_named h.2.2.1) l hl).1
    · exact gap_clean l hl
    · obtain ⟨n, hn, rfl⟩ := List.mem_map.1 hl
      refine ⟨?_, by simp⟩
      intro hm
      simp only [List.mem_append] at hm
      rcases hm with (hm | hm) | hm
      · revert hm; decide
      · exact h.2.1 n hn hm
      · revert hm; decide
    · exact gap_clean l hl
    · exact kidsL_clean kids h.2.2.2 _ l hl
    · exact ⟨by show '\n' ∉ "}".toList; decide, by show "}".toList.head? ≠ _; decide⟩
theorem kidsL_clean : ∀ (k : Scope.Kids SigView), KidsNamed k → ∀ j, ∀ l ∈ kidsL k j, Clean l
  | .nil => fun _ j l hl => by simp [kidsL] at hl
  | .cons key t rest => fun h j l hl => by
    simp only [KidsNamed] at h
    simp only [kidsL, List.mem_append, List.mem_cons] at hl
    rcases hl with hl | rfl | hl
    · exact scopeL_clean t h.1 j l hl
    · exact ⟨by simp, by simp⟩
    · exact kidsL_clean rest h.2 j l hl
end

theorem kidsB_head {k : Scope.Kids SigView} {j : Nat} {r : List Line} {l : Line}
    (h : (kidsB k j ++ r).head? = some l) : (l.1 = j ∧ Pre "scope " l) ∨ r.head? = some l := by
  cases k with
  | nil => exact .inr (by simpa [kidsB] using h)
  | cons key t rest =>
    left
    cases t with
    | mk name types fns kids =>
      simp only [kidsB, scopeB, List.cons_append, List.head?_cons, Option.some.injEq] at h
      rw [← h]
      exact ⟨rfl, List.prefix_append "scope ".toList name⟩

theorem view_inj {a b : List (Name × List SigView)} (h : a.map fnView = b.map fnView) : a = b :=
  map_inj_on (q := fun _ => True) (fun x y _ _ e => by
    obtain ⟨x1, x2⟩ := x
    obtain ⟨y1, y2⟩ := y
    simp only [fnView, FnView.mk.injEq, true_and] at e
    rw [e.1, e.2]) (fun _ _ => trivial) (fun _ _ => trivial) h

mutual
/-- the keys under which scopes are found are their names -/
def Keyed : Scope.Tree SigView → Prop
  | .mk _ _ _ kids => KidsKeyed kids
def KidsKeyed : Scope.Kids SigView → Prop
  | .nil => True
  | .cons k t rest => k = t.name ∧ Keyed t ∧ KidsKeyed rest
end

mutual
theorem view_keyed (ids : Ty → Name) : ∀ t, Keyed (scopeView ids t)
  | .mk _ _ _ kids => by simp only [scopeView, Keyed]; exact kidsView_keyed ids kids
theorem kidsView_keyed (ids : Ty → Name) : ∀ k, KidsKeyed (kidsView ids k)
  | .nil => by simp only [kidsView, KidsKeyed]
  | .cons _ t rest => by
    simp only [kidsView, KidsKeyed]
    refine ⟨?_, view_keyed ids t, kidsView_keyed ids rest⟩
    cases t; rfl
end

mutual
theorem scopeB_inj : ∀ (t u : Scope.Tree SigView), ScopeNamed t → ScopeNamed u → Keyed t → Keyed u →
    ∀ (j : Nat) (r s : List Line), scopeB t j ++ r = scopeB u j ++ s → t = u ∧ r = s
  | .mk name types fns kids, .mk name' types' fns' kids' => fun ht hu kt ku j r s h => by
    simp only [ScopeNamed] at ht hu
    simp only [Keyed] at kt ku
    simp only [scopeB, List.cons_append, List.append_assoc, List.cons.injEq, Prod.mk.injEq, true_and,
      List.nil_append] at h
    obtain ⟨h1, h⟩ := h
    have h1 := List.append_cancel_left h1
    have kH : ∀ (k : Scope.Kids SigView) (r : List Line) l, (kidsB k (j + 4) ++ (j, "}".toList) :: r).head? = some l →
        ¬ Pre "type " l ∧ (l.1 = j ∨ Pre "scope " l) := by
      intro k r l hl
      rcases kidsB_head hl with ⟨_, hl⟩ | hl
      · exact ⟨pre_clash rfl (by simp) (by simp) hl, .inr hl⟩
      · simp only [List.head?_cons, Option.some.injEq] at hl
        rw [← hl]
        exact ⟨closing_noPre j rfl (by simp), .inl rfl⟩
    have tH : ∀ (ns : List Name) (k : Scope.Kids SigView) (r : List Line) l,
        (typesL (j + 4) ns ++ (kidsB k (j + 4) ++ (j, "}".toList) :: r)).head? = some l →
        ¬ (l.1 ≠ j ∧ (l.1 = j + 4 → ¬ Pre "type " l ∧ ¬ Pre "scope " l)) := by
      rintro ns k r l hl ⟨n1, n2⟩
      rcases head_append hl with hl | ⟨_, hl⟩
      · have := typesL_pre l hl
        exact (n2 this.1).1 this.2
      · rcases kidsB_head hl with ⟨e, hl⟩ | hl
        · exact (n2 e).2 hl
        · simp only [List.head?_cons, Option.some.injEq] at hl
          rw [← hl] at n1
          exact n1 rfl
    have fH : ∀ (fns : List (Name × List SigView)), (∀ f ∈ fns, FnName f.1 ∧ ∀ s ∈ f.2, s.Named) →
        ∀ l ∈ fnsL (j + 4) (fns.map fnView), l.1 ≠ j ∧ (l.1 = j + 4 → ¬ Pre "type " l ∧ ¬ Pre "scope " l) := by
      intro fns hn l hl
      refine ⟨fun e => by have := fnsL_indent l hl; omega, fun e => ?_⟩
      simp only [fnsL, List.mem_flatMap] at hl
      obtain ⟨g, hg, hl⟩ := hl
      have gi := group_indent (j + 4) _ g hg
      rcases List.mem_cons.1 hl with rfl | hl
      · obtain ⟨f, hf, rfl⟩ := List.mem_map.1 hg
        have := FnName.noPre (fnView_named hn f hf).1
        exact ⟨this.1, this.2.1⟩
      · exact absurd e (gi.2 l hl)
    obtain ⟨h2, h⟩ := while_inj (q := fun l : Line => l.1 ≠ j ∧ (l.1 = j + 4 → ¬ Pre "type " l ∧ ¬ Pre "scope " l))
      (fH fns ht.2.2.1) (fH fns' hu.2.2.1) (tH types kids r) (tH types' kids' s) h
    obtain ⟨h3, h⟩ := while_inj (q := Pre "type ") (fun a ha => (typesL_pre a ha).2)
      (fun a ha => (typesL_pre a ha).2) (fun l hl => (kH kids r l hl).1) (fun l hl => (kH kids' s l hl).1) h
    have cH : ∀ (r : List Line) l, ((j, "}".toList) :: r).head? = some l → ¬ Pre "scope " l := by
      intro r l hl
      simp only [List.head?_cons, Option.some.injEq] at hl
      rw [← hl]
      exact closing_noPre j rfl (by simp)
    obtain ⟨h4, h⟩ := kidsB_inj kids kids' ht.2.2.2 hu.2.2.2 kt ku (j + 4) _ _ (cH r) (cH s) h
    have h2 := view_inj (fnsL_inj (fnView_named ht.2.2.1) (fnView_named hu.2.2.1) h2)
    have h3 : types = types' := map_inj_on (q := fun _ => True) (fun a b _ _ e => by
      have e := congrArg Prod.snd e
      exact List.append_cancel_left (List.append_cancel_right e)) (fun _ _ => trivial) (fun _ _ => trivial) h3
    simp only [List.cons.injEq, true_and] at h
    exact ⟨by rw [h1, h2, h3, h4], h⟩
theorem kidsB_inj : ∀ (k m : Scope.Kids SigView), KidsNamed k → KidsNamed m → KidsKeyed k → KidsKeyed m →
    ∀ (j : Nat) (r s : List Line), (∀ l, r.head? = some l → ¬ Pre "scope " l) →
    (∀ l, s.head? = some l → ¬ Pre "scope " l) → kidsB k j ++ r = kidsB m j ++ s → k = m ∧ r = s
  | .nil, .nil => fun _ _ _ _ j r s _ _ h => ⟨rfl, by simpa [kidsB] using h⟩
  | .nil, .cons key t rest => fun _ _ _ _ j r s hr _ h => by
    cases t with
    | mk name types fns kids =>
      simp only [kidsB, scopeB, List.nil_append, List.cons_append] at h
      exact absurd (List.prefix_append "scope ".toList name)
        (hr (j, "scope ".toList ++ name) (by rw [h]; rfl))
  | .cons key t rest, .nil => fun _ _ _ _ j r s _ hs h => by
    cases t with
    | mk name types fns kids =>
      simp only [kidsB, scopeB, List.nil_append, List.cons_append] at h
      exact absurd (List.prefix_append "scope ".toList name)
        (hs (j, "scope ".toList ++ name) (by rw [← h]; rfl))
  | .cons key t rest, .cons key' t' rest' => fun hk hm kk km j r s hr hs h => by
    simp only [KidsNamed] at hk hm
    simp only [KidsKeyed] at kk km
    simp only [kidsB, List.append_assoc] at h
    obtain ⟨h1, h⟩ := scopeB_inj t t' hk.1 hm.1 kk.2.1 km.2.1 j _ _ h
    obtain ⟨h2, h⟩ := kidsB_inj rest rest' hk.2 hm.2 kk.2.2 km.2.2 j r s hr hs h
    exact ⟨by rw [kk.1, km.1, h1, h2], h⟩
end

theorem scopeL_inj {t u : Scope.Tree SigView} (ht : ScopeNamed t) (hu : ScopeNamed u) (kt : Keyed t) (ku : Keyed u)
    {j : Nat} (h : unl (scopeL t j) = unl (scopeL u j)) : t = u := by
  have h := congrArg solid (unl_inj (scopeL_clean t ht j) (scopeL_clean u hu j) h)
  rw [scopeB_eq t ht, scopeB_eq u hu] at h
  exact (scopeB_inj t u ht hu kt ku j [] [] (by simpa using h)).1

theorem unl_gap' (j : Nat) (P : Prop) [Decidable P] :
    unl (gap j (decide P)) = if P then spaces j ++ "\n".toList else [] := by
  by_cases h : P
  · simp [gap, unl, h]
  · simp [gap, unl, h]

theorem keys_view (ids : Ty → Name) (k : Scope.Kids Fn) : (kidsView ids k).keys ≠ [] ↔ k.keys ≠ [] := by
  cases k <;> simp [kidsView, Scope.Kids.keys]

mutual
theorem scopeText_lines (ids : Ty → Name) : ∀ (t : Scope.Tree Fn) (j : Nat),
    scopeText ids t j = unl (scopeL (scopeView ids t) j)
  | .mk name types fns kids, j => by
    simp only [scopeView, scopeL, scopeText, unl_cons, unl_append, unl_nil, unl_gap',
      kidsText_lines ids kids (j + 4), keys_view]
    have f1 : unl (fnsL (j + 4) ((fns.map fun f => (f.1, f.2.map fun g => sigView ids g.ret g.args)).map fnView)) =
        fns.flatMap (fun f => spaces (j + 4) ++ f.1 ++ ":\n".toList ++ overloadsText ids (j + 4 + 4) [] f.2) := by
      rw [List.map_map]
      exact unl_fns ids (j + 4) (fun _ => []) fns
    have f2 : unl (typesL (j + 4) types) =
        types.flatMap fun n => spaces (j + 4) ++ "type ".toList ++ n ++ ";\n".toList := by
      unfold typesL unl
      rw [List.flatMap_map]
      congr 1
      funext n
      have : ";\n".toList = ";".toList ++ ['\n'] := rfl
      rw [this]
      simp only [List.append_assoc]
    have f3 : (fns.map fun f => (f.1, f.2.map fun g => sigView ids g.ret g.args)) ≠ [] ↔ fns ≠ [] := by
      cases fns <;> simp
    rw [f1, f2]
    simp only [f3]
    have g : "{\n".toList = "{".toList ++ ['\n'] := rfl
    have g' : "\n".toList = ['\n'] := rfl
    have g'' : "}\n".toList = "}".toList ++ ['\n'] := rfl
    rw [g, g', g'']
    simp only [List.append_assoc, List.append_nil]
theorem kidsText_lines (ids : Ty → Name) : ∀ (k : Scope.Kids Fn) (j : Nat),
    kidsText ids k j = unl (kidsL (kidsView ids k) j)
  | .nil, j => by simp only [kidsView, kidsL, kidsText]; rfl
  | .cons _ t rest, j => by
    simp only [kidsView, kidsL, kidsText, unl_append, unl_cons, scopeText_lines ids t j,
      kidsText_lines ids rest j]
    simp [spaces]
end

end Reflect.Print

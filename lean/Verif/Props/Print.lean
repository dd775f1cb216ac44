import Verif.Lemmas.PrintType
/-
  C78: what printed text tells of arguments, signatures, types and scopes.
-/
namespace Reflect
open Spec Print

/-- Two arguments, be they of different programs, print alike exactly when they agree in the name of the
    type, in const and in how they refer. -/
theorem C78_argument (ids ids' : Ty → Name) (a b : Arg) (ha : TypeName (ids a.type)) (hb : TypeName (ids' b.type)) :
    a.text ids = b.text ids' ↔ ids a.type = ids' b.type ∧ a.isConst = b.isConst ∧ a.ref = b.ref := by
  rw [text_eq, text_eq]
  constructor
  · intro h
    have := argText_inj ha hb h
    simpa [argView] using this
  · rintro ⟨h1, h2, h3⟩
    rw [argView, argView, h1, h2, h3]

/-- Two signatures print alike exactly when the return types and the arguments, one by one, do. -/
theorem C78_signature (ids ids' : Ty → Name) (r r' : Arg) (as as' : List Arg)
    (h : (sigView ids r as).Named) (h' : (sigView ids' r' as').Named) :
    sigText ids r as = sigText ids' r' as' ↔ sigView ids r as = sigView ids' r' as' := by
  rw [sig_eq, sig_eq]
  exact ⟨sigT_inj h h', fun e => by rw [e]⟩

/-- With distinct names for distinct types, functions shown alike have the same signature. -/
theorem C78_signature_types (ids : Ty → Name) (hinj : ∀ a b, ids a = ids b → a = b) (f g : Fn)
    (hf : (sigView ids f.ret f.args).Named) (hg : (sigView ids g.ret g.args).Named)
    (h : sigText ids f.ret f.args = sigText ids g.ret g.args) : f.ret = g.ret ∧ f.args = g.args := by
  have h := (C78_signature ids ids _ _ _ _ hf hg).1 h
  have key : ∀ a b : Arg, argView ids a = argView ids b → a = b := by
    intro a b e
    obtain ⟨t, c, r⟩ := a
    obtain ⟨t', c', r'⟩ := b
    simp only [argView, ArgView.mk.injEq] at e
    rw [hinj _ _ e.1, e.2.1, e.2.2]
  simp only [sigView, SigView.mk.injEq] at h
  refine ⟨key _ _ h.1, ?_⟩
  exact map_inj_on (q := fun _ => True) (fun a b _ _ e => key a b e) (fun _ _ => trivial) (fun _ _ => trivial) h.2

/-- A type whose ancestry ends is printed. -/
theorem C78_type_printed {tbl : Ty → Noted} {t : Ty} {l : List Ty} (h : Lineage tbl t l) (j fuel : Nat)
    (hf : l.length ≤ fuel) : ∃ s, typeTextF tbl fuel t j = .ok s := by
  obtain ⟨s, h, _⟩ := typeText_lines h fuel j hf
  exact ⟨s, h⟩

/-- A type whose ancestry does not end, because a type descends from itself, is printed forever. -/
theorem C78_type_endless {tbl : Ty → Noted} (t : Ty) (h : ¬ ∃ l, Lineage tbl t l) (fuel j : Nat) :
    typeTextF tbl fuel t j = .error .diverge := by
  induction fuel generalizing t j with
  | zero => rfl
  | succ fuel ih =>
    cases hp : (tbl t).d.parent with
    | none => exact absurd ⟨_, .root hp⟩ h
    | some p =>
      have := ih p (fun ⟨l, hl⟩ => h ⟨_, .step hp hl⟩) (j + 4)
      rw [typeTextF]
      simp only [hp, this]

/-- Two types, be they of different programs, print alike exactly when they and their ancestors, one by one,
    agree in names, traits, fields by increasing offset, and functions with their signatures. -/
theorem C78_type_text {tbl tbl' : Ty → Noted} {t t' : Ty} {l l' : List Ty} (h : Lineage tbl t l)
    (h' : Lineage tbl' t' l') (n : ∀ u ∈ l, (typeView tbl u).Named) (n' : ∀ u ∈ l', (typeView tbl' u).Named)
    (j fuel : Nat) (hf : l.length ≤ fuel) (hf' : l'.length ≤ fuel) :
    typeTextF tbl fuel t j = typeTextF tbl' fuel t' j ↔ l.map (typeView tbl) = l'.map (typeView tbl') := by
  obtain ⟨s, h1, h2⟩ := typeText_lines h fuel j hf
  obtain ⟨s', h1', h2'⟩ := typeText_lines h' fuel j hf'
  rw [h1, h1']
  constructor
  · intro e
    have e : s = s' := by injection e
    rw [e, h2'] at h2
    exact (typeL_inj (fun v hv => by obtain ⟨u, hu, rfl⟩ := List.mem_map.1 hv; exact n' u hu)
      (fun v hv => by obtain ⟨u, hu, rfl⟩ := List.mem_map.1 hv; exact n u hu) h2).symm
  · intro e
    rw [e, ← h2'] at h2
    rw [List.append_cancel_right h2]

/-- The fields shown are those of the type, each once, by increasing offset. -/
theorem C78_fields_in_order (tbl : Ty → Noted) (t : Ty) :
    (typeView tbl t).fields.Pairwise (fun a b => a.offset ≤ b.offset) ∧
      ((typeView tbl t).fields.map fun f => (f.name, f.offset, f.type)).Perm
        ((tbl t).d.fields.map fun f => (f.1, f.2.offset, (tbl f.2.arg.type).d.id)) := by
  constructor
  · simp only [typeView, List.pairwise_map]
    have := List.pairwise_mergeSort (le := fun a b : Name × FieldD => decide (a.2.offset ≤ b.2.offset))
      (fun a b c h1 h2 => by simp only [decide_eq_true_eq] at *; omega)
      (fun a b => by simp only [Bool.or_eq_true, decide_eq_true_eq]; omega) (tbl t).d.fields
    exact this.imp (fun h => by simpa using h)
  · simp only [typeView, List.map_map]
    exact (List.mergeSort_perm _ _).map _

/-- Two scopes, be they of different programs, print alike exactly when they agree in names, types, functions
    with their signatures, and the scopes in them. -/
theorem C78_scope_text (ids ids' : Ty → Name) (t u : Scope.Tree Fn) (ht : ScopeNamed (scopeView ids t))
    (hu : ScopeNamed (scopeView ids' u)) (j : Nat) :
    scopeText ids t j = scopeText ids' u j ↔ scopeView ids t = scopeView ids' u := by
  rw [scopeText_lines, scopeText_lines]
  exact ⟨scopeL_inj ht hu (view_keyed ids t) (view_keyed ids' u), fun e => by rw [e]⟩

/-- What is not shown: whether a field is const. -/
theorem C78_field_const_unseen (ids : Ty → Name) (name : Name) (f : FieldD) (c : Bool) (tr : Traits) :
    fieldText ids name { f with arg := { f.arg with isConst := c } } tr = fieldText ids name f tr := rfl

/-! ### a case -/

namespace PrintEx

def exIds : Ty → Name := fun t => if t = 1 then "int".toList else if t = 2 then "A".toList else "B".toList

def exFn : Fn := { name := "f".toList, arity := 2, ret := ⟨1, .copy, false⟩, args := [⟨2, .lvalue, true⟩, ⟨1, .rvalue, false⟩], body := 0 }

example : sigText exIds exFn.ret exFn.args = "int(A const&, int&&)".toList := by decide +kernel

theorem plain {s : Name} (h : s = "int".toList ∨ s = "A".toList ∨ s = "B".toList) : TypeName s := by
  refine ⟨?_, ?_, ?_, ?_, ?_, ?_⟩
  · rcases h with rfl | rfl | rfl <;> decide
  · rcases h with rfl | rfl | rfl <;> decide
  · rcases h with rfl | rfl | rfl <;> decide
  · intro a e
    have := congrArg List.length e
    rw [List.length_append] at this
    rcases h with rfl | rfl | rfl <;> simp at this <;> omega
  · rcases h with rfl | rfl | rfl <;> decide
  · intro a b e
    have : ',' ∈ s := by rw [e]; simp
    rcases h with rfl | rfl | rfl <;> revert this <;> decide

theorem exNamed (t : Ty) : TypeName (exIds t) := by
  apply plain
  unfold exIds
  split
  · exact .inl rfl
  · split
    · exact .inr (.inl rfl)
    · exact .inr (.inr rfl)

def exB : Noted :=
  { d := { TypeD.new "B".toList with fields := [("y".toList, ⟨⟨1, .copy, false⟩, 8⟩), ("x".toList, ⟨⟨1, .copy, true⟩, 0⟩)]
                                     fns := [("f".toList, [exFn])] } }
def exA : Noted := { d := { TypeD.new "A".toList with parent := some 3 }, own := [] }
def exTbl : Ty → Noted := fun t => if t = 2 then exA else if t = 3 then exB else { d := TypeD.new "int".toList }

theorem exLine : Lineage exTbl 2 [2, 3] := .step rfl (.root rfl)

example : ∀ u ∈ [2, 3], (typeView exTbl u).Named := by
  intro u hu
  have hw : Word "x".toList ∧ Word "y".toList := by unfold Word; decide
  simp only [List.mem_cons, List.not_mem_nil, or_false] at hu
  rcases hu with rfl | rfl
  · refine ⟨plain (.inr (.inl rfl)), ?_, ?_, ?_⟩
    · intro x hx; simp [typeView, exTbl, exA, Traits.names] at hx
    · intro f hf; simp [typeView, exTbl, exA, TypeD.new, sortedFields] at hf
    · intro f hf; simp [typeView, exTbl, exA, TypeD.new] at hf
  · refine ⟨plain (.inr (.inr rfl)), ?_, ?_, ?_⟩
    · intro x hx; simp [typeView, exTbl, exB, Traits.names] at hx
    · intro f hf
      simp only [typeView, sortedFields, List.mem_map] at hf
      obtain ⟨g, hg, rfl⟩ := hf
      rw [List.mem_mergeSort] at hg
      have hg : g ∈ [("y".toList, (⟨⟨1, .copy, false⟩, 8⟩ : FieldD)), ("x".toList, ⟨⟨1, .copy, true⟩, 0⟩)] := hg
      simp only [List.mem_cons, List.not_mem_nil, or_false] at hg
      rcases hg with rfl | rfl
      · exact ⟨plain (.inl rfl), hw.2, by intro x hx; simp [Noted.fieldTraits, exTbl, exB, Traits.names, Assoc.get] at hx⟩
      · exact ⟨plain (.inl rfl), hw.1, by intro x hx; simp [Noted.fieldTraits, exTbl, exB, Traits.names, Assoc.get] at hx⟩
    · intro f hf
      have hf : f ∈ [(⟨"f".toList, [], [sigView (fun u => (exTbl u).d.id) exFn.ret exFn.args]⟩ : FnView)] := hf
      rw [List.mem_singleton] at hf
      subst hf
      refine ⟨⟨by decide, by decide, by decide, ?_, ?_, ?_, ?_⟩, by simp, ?_⟩
      · intro a e; simp at e
      · intro a e; simp at e
      · intro a e; simp at e
      · intro a e; simp at e
      · intro s hs
        rw [List.mem_singleton] at hs
        subst hs
        refine ⟨plain (.inl rfl), ?_⟩
        intro a ha
        simp only [sigView, exFn, List.map_cons, List.map_nil, List.mem_cons, List.not_mem_nil, or_false] at ha
        rcases ha with rfl | rfl
        · exact plain (.inr (.inl rfl))
        · exact plain (.inl rfl)

theorem exB_sorted : sortedFields exB.d.fields =
    [("x".toList, ⟨⟨1, .copy, true⟩, 0⟩), ("y".toList, ⟨⟨1, .copy, false⟩, 8⟩)] := by
  simp [sortedFields, exB, TypeD.new, List.mergeSort, List.MergeSort.Internal.splitInTwo]

theorem exA_sorted : sortedFields exA.d.fields = [] := by simp [sortedFields, exA, TypeD.new]

example : typeTextF exTbl 2 2 0 = .ok ("type A\n{\n    type B\n    {\n        0x0: int x\n        0x8: int y\n        \n        f:\n            int(A const&, int&&)\n    }\n}").toList := by
  simp only [typeTextF, show exTbl 2 = exA from rfl, show exA.d.parent = some 3 from rfl,
    show exTbl 3 = exB from rfl, show exB.d.parent = none from rfl, exB_sorted, exA_sorted]
  decide +kernel

example : hexText 300 = "12c".toList := by decide +kernel

/-- a type that is its own parent -/
example : ¬ ∃ l, Lineage (fun _ => { d := { TypeD.new "A".toList with parent := some 0 } }) 0 l := by
  rintro ⟨l, h⟩
  induction l with
  | nil => cases h
  | cons x l ih =>
    cases h with
    | root h => cases h
    | step h h' =>
      cases h
      exact ih h'

example : ScopeNamed (scopeView exIds
    (.mk [] ["A".toList] [("f".toList, [exFn])] (.cons "ns".toList (.mk "ns".toList ["ns::B".toList] [] .nil) .nil))) := by
  simp only [scopeView, kidsView, ScopeNamed, KidsNamed]
  refine ⟨by decide, by decide, ?_, ⟨by decide, by decide, by simp, trivial⟩, trivial⟩
  intro f hf
  simp only [List.map_cons, List.map_nil, List.mem_singleton] at hf
  subst hf
  refine ⟨⟨by decide, by decide, by decide, ?_, ?_, ?_, ?_⟩, ?_⟩
  · intro a e; simp at e
  · intro a e; simp at e
  · intro a e; simp at e
  · intro a e; simp at e
  · intro s hs
    simp only [List.mem_singleton] at hs
    subst hs
    refine ⟨exNamed exFn.ret.type, ?_⟩
    intro a ha
    obtain ⟨b, _, rfl⟩ := List.mem_map.1 ha
    exact exNamed b.type

end PrintEx

end Reflect

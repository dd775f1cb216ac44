import Verif.Lemmas.TypeName
import Verif.Props.Registry
import Verif.Props.Scope
/-
  C75: the name a C++ type is registered under.
-/
namespace Reflect.TypeName

open Reflect.Spec

/-- C75. Two C++ types get the same name exactly when they are the same type once `const` and
    references are disregarded, at every level. -/
theorem C75_same_name_iff (s t : CTy) (hs : s.Simple) (ht : t.Simple) :
    typeId s = typeId t ↔ s.strip = t.strip := by
  constructor
  · intro h
    have h' : text s ++ (List.replicate 0 '*' ++ []) = text t ++ (List.replicate 0 '*' ++ []) := by
      simpa [typeId_eq_text] using h
    exact (text_inj s t 0 0 [] [] hs ht (Or.inl rfl) (Or.inl rfl) h').1
  · intro h
    rw [typeId_eq_text, typeId_eq_text, ← text_strip s, ← text_strip t, h]

/-- C75. `type<S>()` and `type<T>()`, asked for at any two points of any history (no alias being
    declared over either name), are one type object exactly when `S` and `T` are the same type but for
    `const` and references. -/
theorem C75_same_object_iff (prog : LoaderId → List Registry.Act) (fuel f1 f2 f3 : Nat)
    (before between : List Registry.Act) (s t : CTy) (hs : s.Simple) (ht : t.Simple)
    (a b : TypeId)
    (h1 : let st := Registry.run prog fuel Registry.St.init before
      (Registry.get prog f1 st (typeId s)).2 = .ok a)
    (h2 : let st := Registry.run prog fuel Registry.St.init before
      let st' := Registry.run prog f2 (Registry.get prog f1 st (typeId s)).1 between
      (Registry.get prog f3 st' (typeId t)).2 = .ok b)
    (hal : let st := Registry.run prog fuel Registry.St.init before
      let st' := Registry.run prog f2 (Registry.get prog f1 st (typeId s)).1 between
      st'.aliases.get (typeId s) = none ∧ st'.aliases.get (typeId t) = none) :
    a = b ↔ s.strip = t.strip := by
  simp only at h1 h2 hal
  generalize hst : Registry.run prog fuel Registry.St.init before = st at h1 h2 hal
  have hi : Registry.Inv st := by rw [← hst]; exact Registry.inv_run prog fuel before
  have hi1 := Registry.inv_get prog f1 st (typeId s) hi
  have hr1 := Registry.get_registered prog f1 st (typeId s) a h1
  generalize hg : (Registry.get prog f1 st (typeId s)).1 = st1 at hi1 hr1 h2 hal
  have he := Registry.ext_run prog f2 st1 between
  have hi2 : Registry.Inv (Registry.run prog f2 st1 between) :=
    Registry.run_pres prog Registry.inv_stable
      (fun s id l h _ hn hl => Registry.inv_begin s id l h hn hl) f2 st1 between hi1
  generalize hst' : Registry.run prog f2 st1 between = st' at he hi2 h2 hal
  have hr2 := Registry.get_registered prog f3 st' (typeId t) b h2
  have hi3 := Registry.inv_get prog f3 st' (typeId t) hi2
  have he3 := Registry.ext_get prog f3 st' (typeId t)
  have hs0 : st.aliases.get (typeId s) = none := by
    cases hx : st.aliases.get (typeId s) with
    | none => rfl
    | some x =>
      have hy := (Registry.ext_get prog f1 st (typeId s)).aliases _ _ hx
      rw [hg] at hy
      rw [he.aliases _ _ hy] at hal
      simp at hal
  have hra : Registry.resolve st (typeId s) = typeId s := by simp [Registry.resolve, hs0]
  have hrb : Registry.resolve st' (typeId t) = typeId t := by simp [Registry.resolve, hal.2]
  rw [hra] at hr1
  rw [hrb] at hr2
  have hr1' := he3.types _ _ (he.types _ _ hr1)
  rw [← C75_same_name_iff s t hs ht]
  constructor
  · intro hab
    subst hab
    obtain ⟨l, hl⟩ := hi3.typeRun _ _ hr1'
    obtain ⟨l', hl'⟩ := hi3.typeRun _ _ hr2
    exact hi3.inj _ _ _ _ _ hl hl'
  · intro hn
    rw [hn, hr2] at hr1'
    exact (Option.some.inj hr1').symm

/-- C75. A pointer, vector, map … lives in the scope of its outermost name: its enclosing scopes are
    those of that name, whatever qualified names occur in its arguments. -/
theorem C75_scope (t : CTy) (ht : t.Simple) (scopes : List Name) (c : Name)
    (hn : t.headName = qualified (scopes ++ [c])) (hp : ProperPath (scopes ++ [c])) :
    ∃ e, typeId t = qualified (scopes ++ [c ++ e]) ∧ ProperPath (scopes ++ [c ++ e]) := by
  refine ⟨suffix t, ?_, by simp, ?_⟩
  · rw [typeId_eq_text, text_suffix, hn, qualified_extend]
  · intro x hx
    simp only [List.mem_append, List.mem_singleton] at hx
    rcases hx with hx | rfl
    · exact hp.2 x (by simp [hx])
    · have := hp.2 c (by simp)
      exact ⟨component_app _ _ this.1 (component_suffix t ht), by simp [this.2]⟩

theorem prefixIn_last (l scopes : List Name) (c d : Name) :
    PrefixIn l (scopes ++ [c]) → PrefixIn l (scopes ++ [d]) := by
  rintro ⟨ds, es, h, hd, he, hm⟩
  rcases List.append_eq_append_iff.1 h with ⟨x, h1, h2⟩ | ⟨x, h1, h2⟩
  · cases x with
    | nil => simp at h1; exact ⟨ds, [d], by rw [h1], hd, by simp, hm⟩
    | cons y x =>
      simp only [List.cons_append, List.cons.injEq, List.nil_eq, List.append_eq_nil_iff] at h2
      exact absurd h2.2.2 he
  · exact ⟨ds, x ++ [d], by rw [h1, List.append_assoc], hd, by simp, hm⟩

/-- C75. So the scope tree accepts such a type exactly when it would accept its outermost name: no
    namespace is ever opened for, and no clash ever caused by, the names in its arguments. -/
theorem C75_accepted_iff {F : Type} (tree : Scope.Tree F) (hw : Scope.WF tree) (t : CTy) (ht : t.Simple)
    (cs : List Name) (hn : t.headName = qualified cs) (hp : ProperPath cs) :
    (Scope.addType tree (typeId t)).2 = .ok () ↔ (Scope.addType tree t.headName).2 = .ok () := by
  obtain ⟨scopes, c, rfl⟩ : ∃ scopes c, cs = scopes ++ [c] :=
    ⟨cs.dropLast, cs.getLast hp.1, (List.dropLast_concat_getLast hp.1).symm⟩
  obtain ⟨e, h1, h2⟩ := C75_scope t ht scopes c hn hp
  rw [h1, hn]
  have key : ∀ (ds es : List Name), ProperPath ds → ProperPath es →
      (∀ l, PrefixIn l ds ↔ PrefixIn l es) → (Scope.addType tree (qualified ds)).2 = .ok () →
      (Scope.addType tree (qualified es)).2 = .ok () := by
    intro ds es hds hes hl ha
    have h3 : ¬ (PrefixIn (Scope.typesAll tree) ds ∨ PrefixIn (Scope.functionsAll tree) ds) := by
      intro hb
      rw [Scope.C04_addType_rejects tree hw ds hds hb] at ha
      cases ha
    rw [hl, hl] at h3
    exact (Scope.C04_addType_accepts tree hw es hes (fun h => h3 (Or.inl h))
      (fun h => h3 (Or.inr h))).1
  have hl : ∀ l, PrefixIn l (scopes ++ [c ++ e]) ↔ PrefixIn l (scopes ++ [c]) := fun l =>
    ⟨prefixIn_last l scopes _ _, prefixIn_last l scopes _ _⟩
  exact ⟨key _ _ h2 hp hl, key _ _ hp h2 fun l => (hl l).symm⟩

/-- C75. The hazard: a template of `const T` and of `T` are different C++ types with one name, so in
    every history at most one of their two descriptions is ever run — that of the one registered first —
    and both are served its result. -/
theorem C75_const_argument (n : Name) (t : CTy) :
    (CTy.app1 n (.cst t)) ≠ .app1 n t ∧ typeId (.app1 n (.cst t)) = typeId (.app1 n t) ∧
    ∀ (prog : LoaderId → List Registry.Act) (fuel : Nat) (ops : List Registry.Act)
      (l l' : LoaderId) (a a' : TypeId),
      let st := Registry.run prog fuel Registry.St.init ops
      (typeId (.app1 n (.cst t)), l, a) ∈ st.runs → (typeId (.app1 n t), l', a') ∈ st.runs →
        l = l' ∧ a = a' ∧ (st.regs.find? (fun r => r.1 = typeId (.app1 n t))).map (·.2) = some l := by
  have hid : typeId (.app1 n (.cst t)) = typeId (.app1 n t) := by simp [typeId_eq_text, text]
  refine ⟨?_, hid, ?_⟩
  · intro h
    have := congrArg CTy.size h
    simp [CTy.size] at this
  · intro prog fuel ops l l' a a' st h h'
    rw [hid] at h
    have e1 := Registry.C09_first_registration_wins prog fuel ops _ l a h
    have e2 := Registry.C09_first_registration_wins prog fuel ops _ l' a' h'
    have e3 := (Registry.inv_run prog fuel ops).runType _ _ _ h
    have e4 := (Registry.inv_run prog fuel ops).runType _ _ _ h'
    refine ⟨?_, ?_, e1⟩
    · rw [e1] at e2; exact Option.some.inj e2
    · rw [e3] at e4; exact Option.some.inj e4

/-! ### instances -/

namespace NameDemo

/-- `const std::map<std::string, std::vector<my::T const*>>&` -/
def big : CTy :=
  .lref (.cst (.app2 "std::map".toList (.plain "std::string".toList)
    (.app1 "std::vector".toList (.ptr (.cst (.plain "my::T".toList))))))

example : big.Simple := by
  simp only [big, CTy.Simple]; decide

example : typeId big = "std::map<std::string,std::vector<my::T*>>".toList := by
  rw [typeId_eq_text]; decide +kernel

example : big.headName = qualified (["std".toList] ++ ["map".toList]) := by decide

-- `T* const*&` and `const T**` are `T**`
example : typeId (.lref (.ptr (.cst (.ptr (.plain ['T']))))) = "T**".toList ∧
    typeId (.ptr (.ptr (.cst (.plain ['T'])))) = "T**".toList := by
  simp only [typeId_eq_text]; decide +kernel

-- different types, different names
example : typeId (.ptr (.app1 ['v'] (.plain ['T']))) ≠ typeId (.app1 ['v'] (.ptr (.plain ['T']))) := by
  rw [Ne, C75_same_name_iff _ _ (by simp [CTy.Simple, nameChar]) (by simp [CTy.Simple, nameChar])]
  simp [CTy.strip]

-- without the restriction on names two types can share one: a plain type reflected as `v<T>`
example : typeId (.plain "v<T>".toList) = typeId (.app1 ['v'] (.plain ['T'])) := by
  simp only [typeId_eq_text]; decide +kernel

/-- loader 1 describes `p<const T>`, loader 2 `p<T>`; each defines one member -/
def prog : LoaderId → List Registry.Act := fun l => [.member l]

/-- `type<p<const T>>()` and then `type<p<T>>()` -/
def hist : List Registry.Act := [.require "p<T>".toList 1, .require "p<T>".toList 2]

-- both lookups succeed, with one type object, described by loader 1 alone
example : (Registry.run prog 5 Registry.St.init hist).runs = [("p<T>".toList, 1, 0)] ∧
    (Registry.run prog 5 Registry.St.init hist).defs = [(0, 1)] ∧
    (Registry.get prog 5 (Registry.run prog 5 Registry.St.init hist) "p<T>".toList).2 = .ok 0 := by
  decide +kernel

end NameDemo

end Reflect.TypeName

import Verif.Lemmas.Json.RefuseW
import Verif.Props.JsonRefuse
import Verif.Props.JsonRound
/-
  C65: which types the JSON parser and printer refuse.
-/
namespace Reflect.Json

theorem missing_le {env : Env} (c : PCache) : missing env c ≤ env.types.length := by
  unfold missing
  exact Nat.le_trans (List.length_filter_le _ _) (by simp)

theorem missingW_le {env : Env} (c : WCache) : missingW env c ≤ env.types.length := by
  unfold missingW
  exact Nat.le_trans (List.length_filter_le _ _) (by simp)

/-- C65. The first parse of a program, of a value of any type: it is refused by raising, never otherwise, and
exactly if the type has, at some depth, a part that cannot be parsed.  (`n` is the depth of recursion the model
allows; the number of types is enough.) -/
theorem C65_refused_iff (env : Env) (n : Nat) (ty : TyId)
    (hr : ∀ t, Reaches env TyD.customParser ty t → env.types[t]? ≠ none) (hd : env.types.length < n)
    (u : JV) (r : Reader) :
    ((∃ t, Reaches env TyD.customParser ty t ∧ Unparsable env t) → (parse env n [] ty u r).1 = .error .err) ∧
    ((¬ ∃ t, Reaches env TyD.customParser ty t ∧ Unparsable env t) →
      ∃ c, (parse env n [] ty u r).1 = parseV env c n ty u r) := by
  obtain ⟨h1, h2⟩ := getParser_iff hr (getParser_ends n ty [] (by have := missing_le (env := env) []; omega))
  constructor
  · intro h
    unfold parse
    simp only [h1.mpr h]
  · intro h
    rcases h2 with h2 | h2
    · exact absurd (h1.mp h2) h
    · refine ⟨(getParser env n ty []).2, ?_⟩
      unfold parse
      simp only [h2]

/-- C65. The same of printing. -/
theorem C65_print_refused_iff (env : Env) (hn : env.Named) (n : Nat) (ty : TyId)
    (hr : ∀ t, Reaches env TyD.customPrinter ty t → env.types[t]? ≠ none) (hd : env.types.length < n)
    (v : JV) (w : Writer) :
    ((∃ t, Reaches env TyD.customPrinter ty t ∧ Unprintable env t) → (print env n [] ty v w).1 = .error .err) ∧
    ((¬ ∃ t, Reaches env TyD.customPrinter ty t ∧ Unprintable env t) →
      ∃ c, (print env n [] ty v w).1 = printV env c n ty v w) := by
  obtain ⟨h1, h2⟩ := getPrinter_iff hn hr (getPrinter_ends n ty [] (by have := missingW_le (env := env) []; omega))
  constructor
  · intro h
    unfold print
    simp only [h1.mpr h]
  · intro h
    rcases h2 with h2 | h2
    · exact absurd (h1.mp h2) h
    · refine ⟨(getPrinter env n ty []).2, ?_⟩
      unfold print
      simp only [h2]

namespace Ex2

/-- The hypotheses hold of lists of a type with two members of one key, which are refused for it. -/
example : (∀ t, Reaches env TyD.customParser 2 t → env.types[t]? ≠ none) ∧ env.types.length < 5 ∧
    Reaches env TyD.customParser 2 1 ∧ Unparsable env 1 := by
  have part : ∀ a t, Refers env TyD.customParser a t → t < 3 := by
    intro a t h
    have aux : ∀ d ∈ env.types, (d.pointee = none) ∧ (∀ t, d.valueType = some t → t < 3) ∧ (∀ f ∈ d.fields, f.type < 3) := by
      intro d hd
      simp only [env, List.mem_cons, List.not_mem_nil, or_false] at hd
      rcases hd with rfl | rfl | rfl
      · exact ⟨rfl, (by intro t h; cases h), (by intro f h; cases h)⟩
      · refine ⟨rfl, (by intro t h; cases h), ?_⟩
        intro f hf
        simp only [tBad, List.mem_cons, List.not_mem_nil, or_false] at hf
        rcases hf with rfl | rfl | rfl <;> decide
      · refine ⟨rfl, ?_, (by intro f h; cases h)⟩
        intro t h
        simp only [tList] at h
        injection h with h
        rw [← h]; exact (by decide : (1 : Nat) < 3)
    cases h with
    | pointee d h1 h2 h3 => rw [(aux d (List.mem_of_getElem? h1)).1] at h3; cases h3
    | element d h1 h2 h3 => exact (aux d (List.mem_of_getElem? h1)).2.1 t h3
    | field d f h1 h2 h3 h4 h5 h6 => rw [← h6]; exact (aux d (List.mem_of_getElem? h1)).2.2 f h4
  have range : ∀ a b, Reaches env TyD.customParser a b → a < 3 → b < 3 := by
    intro a b h
    induction h with
    | refl => exact id
    | step a t b h1 _ ih => exact fun _ => ih (part a t h1)
  refine ⟨?_, by decide, ?_, ?_⟩
  · intro t ht hn
    have := range 2 t ht (by decide)
    rw [List.getElem?_eq_none_iff] at hn
    exact absurd this (by simpa [env] using hn)
  · exact .step 2 1 1 (.element tList rfl ⟨by simp [TyD.Scalar, tList], rfl, .inr rfl⟩ rfl) (.refl 1)
  · exact ⟨tBad, rfl, .inr (.inr ⟨⟨by simp [TyD.Scalar, tBad], rfl, rfl, rfl, rfl⟩, rfl, by decide⟩)⟩

end Ex2

end Reflect.Json

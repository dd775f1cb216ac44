import Verif.Props.Registry
import Verif.Props.TypeGraph
import Verif.Props.Overloads
import Verif.Props.Config
/-
  How the library refuses: by raising its own error, never by undefined behaviour.
-/
namespace Reflect

/-- C19. A call of a definition is accepted or raises `ReflectError`. -/
theorem C19_refusal_raises (e : Env) (d : TypeD) (op : TypeOp) :
    (d.step e op).2 = .ok () ∨ (d.step e op).2 = .error .err := by
  cases op with
  | addFunction n f =>
    simp only [TypeD.step, TypeD.addFunction]
    cases d.fields.get n with
    | some x => exact .inr rfl
    | none =>
      simp only [Overloads.add]
      split
      · exact .inr rfl
      · exact .inl rfl
  | addField n a o =>
    simp only [TypeD.step, TypeD.addField, Field.new]
    by_cases h : a.ref = .copy
    · simp only [h, ne_eq, not_true_eq_false, if_false]
      cases d.fns.get n <;> cases d.fields.get n <;> simp
    · simp [h]
  | setPointer k t =>
    simp only [TypeD.step, TypeD.setPointer]
    cases d.ptr <;> simp
  | setParent t => exact .inl rfl

/-- C19. A definition is accepted as a whole or raises `ReflectError`. -/
theorem C19_definition_raises (e : Env) (ops : List TypeOp) : ∀ d : TypeD,
    (d.runAll e ops).2 = .ok () ∨ (d.runAll e ops).2 = .error .err := by
  induction ops with
  | nil => intro d; exact .inl rfl
  | cons op ops ih =>
    intro d
    simp only [TypeD.runAll]
    rcases C19_refusal_raises e d op with h | h
    · rw [h]; exact ih _
    · rw [h]; exact .inr rfl

/-- C26. An argument is a temporary, a reference to const or a mutable reference, and only one of them: as written,
    `T` and `T&&` (const or not), `const T&`, `T&`. -/
theorem C26_kinds (a : Arg) :
    (a.isTemporary = true ↔ a.ref ≠ .lvalue) ∧
    (a.isConstRef = true ↔ a.ref = .lvalue ∧ a.isConst = true) ∧
    (a.isLValueRef = true ↔ a.ref = .lvalue ∧ a.isConst = false) := by
  obtain ⟨t, r, c⟩ := a
  cases r <;> cases c <;> simp [Arg.isTemporary, Arg.isConstRef, Arg.isLValueRef]

namespace Registry

/-- C11. An alias is accepted or raises `ReflectError`. -/
theorem C11_alias_raises (s : St) (id al : Name) :
    (addAlias s id al).2 = .ok () ∨ (addAlias s id al).2 = .error .err := by
  unfold addAlias
  split
  · exact .inr rfl
  · cases s.aliases.get al
    · exact .inl rfl
    · exact .inr rfl

/-- C09. A loader without a name is refused with `ReflectError` and nothing is registered. -/
theorem C09_nameless_raises (s : St) (l : LoaderId) : addLoader s [] l = (s, .error .err) := by
  simp [addLoader]

end Registry

/-- C31. The query raises `ReflectError` when nothing matches. -/
theorem C31_get_raises (e : Env) (o : Overloads) (ret : Arg) (args : List Arg)
    (h : ∀ f ∈ o, f.test e ret args = .none) : o.get e ret args = .error .err := by
  unfold Overloads.get
  have : o.find? (fun f => decide (f.test e ret args ≠ .none)) = none := by
    rw [List.find?_eq_none]; intro f hf; simp [h f hf]
  rw [this]

/-- C31. Asking a set of overloads about a function: whether the function could be called with what some overload
    takes, by a caller who wants what that overload returns. -/
theorem C31_test_function (e : Env) (o : Overloads) (f : Fn) :
    o.testFn e f = true ↔ ∃ g ∈ o, testReturn e g.ret f.ret ≠ .none ∧ g.args.length = f.args.length ∧
      ∀ q ∈ g.args.zip f.args, Spec.Matches e q.1 q.2 := by
  unfold Overloads.testFn
  rw [List.any_eq_true]
  refine exists_congr fun g => and_congr_right fun _ => ?_
  rw [decide_eq_true_iff]
  unfold Fn.testFn
  have hc : ∀ a b : Match, combine a b ≠ .none ↔ a ≠ .none ∧ b ≠ .none := by
    intro a b; cases a <;> cases b <;> simp [combine]
  rw [hc]
  refine and_congr_right fun _ => ?_
  rw [Ne, C23_none_iff]
  constructor
  · intro h
    refine ⟨Classical.byContradiction fun hl => h (.inl hl), fun q hq => ?_⟩
    rw [← C22_matches_iff]
    intro hn
    exact h (.inr ⟨q, hq, hn⟩)
  · rintro ⟨hl, hm⟩ (h | ⟨q, hq, hn⟩)
    · exact h hl
    · exact (C22_matches_iff e q.1 q.2).2 (hm q hq) hn

namespace Config
open Json (Byte Bytes)

/-- C61. A component of ASCII characters that are not all digits is no index: asking for it raises
    `ReflectError`. -/
theorem C61_not_digits (p : Path) (i : Nat) (s : Bytes) (hs : p[i]? = some s)
    (hascii : ∀ c ∈ s, c.toNat < 0x80) (hd : ¬ ∀ c ∈ s, 48 ≤ c.toNat ∧ c.toNat ≤ 57) :
    p.isIndex i = .ok false ∧ p.index i = .error .err := by
  have key : ∀ s : Bytes, (∀ c ∈ s, c.toNat < 0x80) → (¬ ∀ c ∈ s, 48 ≤ c.toNat ∧ c.toNat ≤ 57) →
      allDigits s = .ok false := by
    intro s
    induction s with
    | nil => intro _ h; exact absurd (fun c hc => by simp at hc) h
    | cons c s ih =>
      intro ha hd
      have h1 : c.toNat < 0x80 := ha c (by simp)
      unfold allDigits isDigit
      rw [if_neg (by omega)]
      by_cases hc : 48 ≤ c.toNat ∧ c.toNat ≤ 57
      · simp only [hc, and_self, decide_true]
        refine ih (fun d hm => ha d (by simp [hm])) fun hall => hd fun d hm => ?_
        rcases List.mem_cons.1 hm with rfl | hm
        · exact hc
        · exact hall d hm
      · simp only [hc, decide_false]
  have := key s hascii hd
  simp [Path.isIndex, Path.index, hs, this]

/-- C56. Without a separator given, the components are separated by dots. -/
theorem C56_default_separator (s : Bytes) (p pre q : Path) :
    (Path.ofText s = .ok p ↔ Path.ofText s 0x2E = .ok p) ∧ p.toText = List.intercalate [0x2E] p ∧
    (Path.append pre s = .ok q ↔ Path.append pre s 0x2E = .ok q) :=
  ⟨Iff.rfl, C56_text 0x2E p, Iff.rfl⟩

end Config

/-! ### concrete cases -/

example : Overloads.testFn demoEnv [fRvalue] fConstRef = true ∧ Overloads.testFn demoEnv [fConstRef] fRvalue = false := by
  decide
example : ((TypeD.new ['T']).step demoEnv (.addField ['x'] ⟨2, .lvalue, false⟩ 0)).2 = .error .err := by decide
example : (Config.Path.index [[0x41]] 0) = .error .err :=
  (Config.C61_not_digits [[0x41]] 0 [0x41] rfl (by decide) (by decide)).2
example : (Overloads.get demoEnv [] ⟨0, .copy, false⟩ [] : Res Fn) = .error .err :=
  C31_get_raises demoEnv [] _ _ (by simp)

end Reflect

import Verif.Props.Value
/-
  Property C60: which constructor `Value::copy`, `Value::move` and passing by value run.
-/
namespace Reflect

section
variable (p : Prog) (fuel : Nat) (hp : Heap) (v : Handle)

/-- C60. `Value::copy` runs the copy constructor, in whatever order the constructors were registered: for
    a plainly copied type and a value that is an lvalue or const it makes a fresh stored object with equal
    contents, which the new value owns, and changes nothing. -/
theorem C60_copy (hplain : PlainCopy p v.arg.type) (hconv : p.w.env.conv v.arg.type v.arg.type = false)
    (hok : hp.Ok v.addr (p.size v.arg.type)) (hl : v.arg.ref = .rvalue → v.arg.isConst = true) :
    ∃ hp' r, p.copy (fuel + 1) hp v = .ok (hp', r) ∧ r.arg = ⟨v.arg.type, .lvalue, false⟩ ∧
      hp.next ≤ r.addr ∧ r.owner = some r.addr ∧
      (∀ i < p.size v.arg.type, hp'.mem (r.addr + i) = hp.mem (v.addr + i)) ∧
      ∀ x < hp.next, hp'.mem x = hp.mem x := by
  obtain ⟨hp', a', h1, h2⟩ := construct_plain hp v fuel hplain hok
    ⟨hplain.notValue, child_refl p.w v.arg.type, hconv, fun hh => by rw [hl hh.1] at hh; cases hh.2⟩
  exact ⟨hp', _, by unfold Prog.copy; rw [if_pos hplain.copiable, h1], rfl, h2.fresh, rfl, h2.same,
    h2.frame⟩

/-- C60. `Value::move` of a mutable value runs the move constructor, in whatever order the constructors
    were registered: for a plainly moved type it makes a fresh stored object with the contents the source
    had, leaves the source moved from and changes nothing else. -/
theorem C60_move (hplain : PlainMove p v.arg.type) (hconv : p.w.env.conv v.arg.type v.arg.type = false)
    (hok : hp.Ok v.addr (p.size v.arg.type)) (hm : v.arg.isConst = false) :
    ∃ hp' r, p.move (fuel + 1) hp v = .ok (hp', r) ∧ r.arg = ⟨v.arg.type, .lvalue, false⟩ ∧
      hp.next ≤ r.addr ∧ r.owner = some r.addr ∧
      (∀ i < p.size v.arg.type, hp'.mem (r.addr + i) = hp.mem (v.addr + i)) ∧
      (∀ i < p.size v.arg.type, hp'.mem (v.addr + i) = p.moved v.arg.type (hp.mem (v.addr + i))) ∧
      ∀ x < hp.next, x < v.addr ∨ v.addr + p.size v.arg.type ≤ x → hp'.mem x = hp.mem x := by
  obtain ⟨hp', a', h1, h2⟩ := construct_moved hp v.rvalue fuel hplain hok
    ⟨hplain.notValue, child_refl p.w v.arg.type, hconv, rfl, hm⟩
  exact ⟨hp', _, by unfold Prog.move; rw [if_pos hplain.isMovable, h1], rfl, h2.fresh, rfl, h2.same,
    h2.moved, h2.frame⟩

/-- C60. `Value::move` of a const value copies: the object of the const value keeps its contents. -/
theorem C60_move_const (hplain : PlainCopy p v.arg.type) (hmov : p.w.isMovable v.arg.type = true)
    (hconv : p.w.env.conv v.arg.type v.arg.type = false)
    (hok : hp.Ok v.addr (p.size v.arg.type)) (hc : v.arg.isConst = true) :
    ∃ hp' r, p.move (fuel + 1) hp v = .ok (hp', r) ∧ r.arg = ⟨v.arg.type, .lvalue, false⟩ ∧
      hp.next ≤ r.addr ∧ r.owner = some r.addr ∧
      (∀ i < p.size v.arg.type, hp'.mem (r.addr + i) = hp.mem (v.addr + i)) ∧
      ∀ x < hp.next, hp'.mem x = hp.mem x := by
  have hc' : v.rvalue.arg.isConst = true := hc
  obtain ⟨hp', a', h1, h2⟩ := construct_plain hp v.rvalue fuel hplain hok
    ⟨hplain.notValue, child_refl p.w v.arg.type, hconv, fun hh => by rw [hc'] at hh; cases hh.2⟩
  exact ⟨hp', _, by unfold Prog.move; rw [if_pos hmov, h1], rfl, h2.fresh, rfl, h2.same, h2.frame⟩

/-- C60. A type that is not copiable (movable) cannot be copied (moved): the call raises. -/
theorem C60_refused :
    (p.w.isCopiable v.arg.type = false → p.copy fuel hp v = .error .err) ∧
    (p.w.isMovable v.arg.type = false → p.move fuel hp v = .error .err) := by
  constructor <;> intro h
  · unfold Prog.copy; rw [if_neg (by simp [h])]
  · unfold Prog.move; rw [if_neg (by simp [h])]

/-- C60 is false of the code: `copy()` of an `rvalue()` of a mutable object moves from the object. -/
theorem C60_copy_of_rvalue_moves (hplain : PlainMove p v.arg.type)
    (hconv : p.w.env.conv v.arg.type v.arg.type = false) (hcop : p.w.isCopiable v.arg.type = true)
    (hok : hp.Ok v.addr (p.size v.arg.type)) (hm : v.arg.isConst = false) :
    ∃ hp' r, p.copy (fuel + 1) hp v.rvalue = .ok (hp', r) ∧
      ∀ i < p.size v.arg.type, hp'.mem (v.addr + i) = p.moved v.arg.type (hp.mem (v.addr + i)) := by
  obtain ⟨hp', a', h1, h2⟩ := construct_moved hp v.rvalue fuel hplain hok
    ⟨hplain.notValue, child_refl p.w v.arg.type, hconv, rfl, hm⟩
  refine ⟨hp', ⟨⟨v.arg.type, .lvalue, false⟩, a', some a'⟩, ?_, h2.moved⟩
  unfold Prog.copy
  rw [show v.rvalue.arg.type = v.arg.type from rfl, if_pos hcop, h1]

/-! ### other constructors that accept the object -/

/-- two functions accepted partially and none exactly: the call is ambiguous -/
theorem select_ambiguous (e : Env) (o : Overloads) (ret : Arg) (args : List Arg) (f g : Fn) (hf : f ∈ o)
    (hg : g ∈ o) (hfg : f ≠ g) (h1 : f.test e ret args = .part) (h2 : g.test e ret args = .part)
    (hx : ∀ h ∈ o, h.test e ret args ≠ .exact) : o.select e ret args = .error .err := by
  rw [C27_select]
  unfold Spec.choose
  have h3 : (o.filter fun f => f.test e ret args = .exact) = [] := by
    simp only [List.filter_eq_nil_iff, decide_eq_true_eq]; exact hx
  rw [h3]
  have hf' : f ∈ o.filter fun f => f.test e ret args = .part := by simp [hf, h1]
  have hg' : g ∈ o.filter fun f => f.test e ret args = .part := by simp [hg, h2]
  cases hl : o.filter fun f => f.test e ret args = .part with
  | nil => rfl
  | cons a as =>
    cases as with
    | nil =>
      rw [hl] at hf' hg'
      simp only [List.mem_singleton] at hf' hg'
      exact absurd (hf'.trans hg'.symm) hfg
    | cons b bs => simp

/-- C60 is false of the code: a class with a constructor from a type its objects convert to (a class with
    `T(U)` and `operator U()`) cannot have its mutable objects copied, nor passed by value: both raise, as
    ambiguous, in whatever order the constructors were registered, although the copy constructor is there
    and `isCopiable` and `isCastable` say yes. -/
theorem C60_convertible_ambiguous (o : Overloads) (f g : Fn) (u : Arg)
    (hv : v.arg.type ≠ p.w.voidT) (hd : v.arg.type ≠ p.w.valueT) (hvd : p.w.valueT ≠ p.w.voidT)
    (hctors : p.w.functionF p.w.fuel v.arg.type (p.w.ty v.arg.type).id = .ok o)
    (hcop : p.w.isCopiable v.arg.type = true)
    (hf : f ∈ o) (hg : g ∈ o) (hcopy : IsCopyCtor p v.arg.type f)
    (hgargs : g.args = [u]) (hgret : g.ret = ⟨v.arg.type, .copy, false⟩)
    (hu : u.ref ≠ .lvalue) (hud : u.type ≠ p.w.valueT) (hut : u.type ≠ v.arg.type)
    (hconv : p.w.env.conv v.arg.type u.type = true)
    (hself : p.w.env.conv v.arg.type v.arg.type = false)
    (hother : ∀ h ∈ o, h = f ∨ h = g ∨ IsMoveCtor p v.arg.type h ∨ NotFor p v.arg.type h)
    (hm : v.arg.ref = .lvalue ∧ v.arg.isConst = false) :
    p.isCastable v ⟨v.arg.type, .copy, false⟩ = true ∧
    p.copy fuel hp v = .error .err ∧
    p.castTo (p.run fuel) hp v ⟨v.arg.type, .copy, false⟩ = .error .err := by
  have hr := child_refl p.w v.arg.type
  have h1 : f.test p.w.env p.valueArg [v.arg] = .part := by
    rw [test_copyCtor hv hd hvd hcopy v.arg hd hr hself, if_neg (by simp [hm.2])]
  have h2 : g.test p.w.env p.valueArg [v.arg] = .part := by
    have h2 := test_ctor p.w.env g u v.arg hvd (by rw [hgret]; exact hv) (by rw [hgret]; exact hd) hgargs
    have h3 : isConvertibleTo p.w.env v.arg u = .part := by
      unfold isConvertibleTo
      rw [if_neg (by rintro rfl; exact hut rfl), if_neg (by simp [World.env, hd, hud]), if_pos hconv,
        if_pos hu]
    rw [h3] at h2
    exact h2
  have hfg : f ≠ g := by
    rintro rfl
    rw [hcopy.args] at hgargs
    simp only [List.cons.injEq, and_true] at hgargs
    rw [← hgargs] at hu
    exact hu rfl
  have hsel := select_ambiguous p.w.env o p.valueArg [v.arg] f g hf hg hfg h1 h2 (by
    intro h hh
    rcases hother h hh with rfl | rfl | hmc | hn
    · rw [h1]; simp
    · rw [h2]; simp
    · rw [test_moveCtor hv hd hvd hmc v.arg hd hr hself, if_neg (by simp [hm.1])]; simp
    · rw [test_notFor hn v.arg hr]; simp)
  have hcon : ∀ rec, p.construct rec hp v.arg.type v = .error .err := by
    intro rec
    unfold Prog.construct Prog.callDyn
    rw [hctors]
    simp only [hsel]
  refine ⟨?_, by unfold Prog.copy; rw [if_pos hcop, hcon], ?_⟩
  · have hne : (⟨v.arg.type, .copy, false⟩ : Arg) ≠ p.valueArg := fun hh => hd (by
      simpa [Prog.valueArg] using hh)
    unfold Prog.isCastable
    simp only [hne, decide_false, Bool.false_or, decide_eq_true_eq]
    unfold isConvertibleTo
    rw [if_neg (by intro hh; rw [hh] at hm; cases hm.1), if_neg (by simp [World.env, hd]), if_neg (by simp [hself])]
    simp only [hr, hm.1]
    simp
  · have hne : (⟨v.arg.type, .copy, false⟩ : Arg) ≠ p.valueArg := fun hh => hd (by
      simpa [Prog.valueArg] using hh)
    unfold Prog.castTo
    rw [if_neg hne]
    simp only [Prog.castV, hcop, if_true, hr, hcon]

/-- C60 is false of the code: copying a mutable object of a class with a constructor that takes a mutable
    reference to a parent class runs that constructor, not the copy constructor (C++ would run the copy
    constructor). -/
theorem C60_mutable_parent (rec : Runner) (o : Overloads) (g : Fn) (u : Ty)
    (hv : v.arg.type ≠ p.w.voidT) (hd : v.arg.type ≠ p.w.valueT) (hvd : p.w.valueT ≠ p.w.voidT)
    (hctors : p.w.functionF p.w.fuel v.arg.type (p.w.ty v.arg.type).id = .ok o)
    (hg : g ∈ o) (hgargs : g.args = [⟨u, .lvalue, false⟩]) (hgret : g.ret = ⟨v.arg.type, .copy, false⟩)
    (hud : u ≠ p.w.valueT) (hconv : p.w.env.conv v.arg.type u = false)
    (hchild : p.w.env.child v.arg.type u = true)
    (hself : p.w.env.conv v.arg.type v.arg.type = false)
    (hother : ∀ h ∈ o, h = g ∨ IsCopyCtor p v.arg.type h ∨ IsMoveCtor p v.arg.type h ∨ NotFor p v.arg.type h)
    (hm : v.arg.ref = .lvalue ∧ v.arg.isConst = false) :
    p.construct rec hp v.arg.type v = rec hp g [v] := by
  have hr := child_refl p.w v.arg.type
  have h2 : g.test p.w.env p.valueArg [v.arg] = .exact := by
    have h2 := test_ctor p.w.env g _ v.arg hvd (by rw [hgret]; exact hv) (by rw [hgret]; exact hd) hgargs
    have h3 : isConvertibleTo p.w.env v.arg ⟨u, .lvalue, false⟩ = .exact := by
      unfold isConvertibleTo
      split
      · rfl
      · rw [if_neg (by simp [World.env, hd, hud]), if_neg (by simp [hconv])]
        simp [hm.1, hm.2, testConstConversion, hchild]
    rw [h3] at h2
    exact h2
  have hx : ∀ h ∈ o, h ≠ g → h.test p.w.env p.valueArg [v.arg] ≠ .exact := by
    intro h hh hne
    rcases hother h hh with rfl | hc | hmc | hn
    · exact absurd rfl hne
    · rw [test_copyCtor hv hd hvd hc v.arg hd hr hself, if_neg (by simp [hm.2])]; simp
    · rw [test_moveCtor hv hd hvd hmc v.arg hd hr hself, if_neg (by simp [hm.1])]; simp
    · rw [test_notFor hn v.arg hr]; simp
  have hsel : o.select p.w.env p.valueArg [v.arg] = .ok g := by
    rw [C27_select]
    unfold Spec.choose
    have hg' : g ∈ o.filter fun f => f.test p.w.env p.valueArg [v.arg] = .exact := by simp [hg, h2]
    cases hl : o.filter fun f => f.test p.w.env p.valueArg [v.arg] = .exact with
    | nil => rw [hl] at hg'; cases hg'
    | cons a as =>
      have ha : a ∈ o.filter fun f => f.test p.w.env p.valueArg [v.arg] = .exact := by rw [hl]; simp
      simp only [List.mem_filter, decide_eq_true_eq] at ha
      have : a = g := Classical.byContradiction fun hne => hx a ha.1 hne ha.2
      rw [this]
  unfold Prog.construct Prog.callDyn
  rw [hctors]
  simp only [hsel]

/-- C60 is false of the code: a value whose class derives from `t` and also declares a conversion operator
    to `t` is moved from when it is passed by value as a `t`, even when it is const: `const t&` does not
    match a value that converts, `t&&` does. -/
theorem C60_converting_child (t : Ty) (hplain : PlainMove p t) (hcop : p.w.isCopiable t = true)
    (hcap : (p.caps t).copyConstructible = true)
    (hd : v.arg.type ≠ p.w.valueT) (hchild : p.w.env.child v.arg.type t = true) (hne : v.arg.type ≠ t)
    (hconv : p.w.env.conv v.arg.type t = true) (hok : hp.Ok v.addr (p.size t)) :
    p.isCastable v ⟨t, .copy, false⟩ = true ∧
    ∃ hp' a', p.castTo (p.run (fuel + 1)) hp v ⟨t, .copy, false⟩ = .ok (hp', .obj a' true) ∧
      (∀ i < p.size t, hp'.mem (a' + i) = hp.mem (v.addr + i)) ∧
      ∀ i < p.size t, hp'.mem (v.addr + i) = p.moved t (hp.mem (v.addr + i)) := by
  have hnv : (⟨t, .copy, false⟩ : Arg) ≠ p.valueArg := fun hh => hplain.notValue (by
    simpa [Prog.valueArg] using hh)
  have hcv : ∀ u : Arg, u.type = t → isConvertibleTo p.w.env v.arg u =
      if u.ref ≠ .lvalue then .part else .none := by
    intro u hu
    unfold isConvertibleTo
    rw [if_neg (by rintro rfl; exact hne hu),
      if_neg (by simp [World.env, hd, hu, hplain.notValue]), hu, if_pos hconv]
  refine ⟨?_, ?_⟩
  · unfold Prog.isCastable
    simp [hnv, hcv]
  obtain ⟨pre, f, post, hf, hmove, hother⟩ := hplain.ctor
  obtain ⟨h1, a1, e1, x1⟩ := run_moveCtor hplain.movable hplain.isMovable hmove hp v fuel hok hchild
  obtain ⟨h2, a2, e2, x2⟩ := copyObj_fresh h1 (p.size t) a1 x1.ok
  have x3 := x1.copy hok x2
  have hct : ∀ (g : Fn) (u : Arg), g.args = [u] → u.type = t → g.ret = ⟨t, .copy, false⟩ →
      g.test p.w.env p.valueArg [v.arg] = if u.ref ≠ .lvalue then .part else .none := by
    intro g u hgu hut hgr
    have := test_ctor p.w.env g u v.arg hplain.distinct (by rw [hgr]; exact hplain.notVoid)
      (by rw [hgr]; exact hplain.notValue) hgu
    rw [hcv u hut] at this
    exact this
  have hsel := select_sole p.w.env p.valueArg [v.arg] pre post f
    (by rw [hct f _ hmove.args rfl hmove.ret]; simp) (by
      intro g hg
      rcases hother g hg with hc | hn
      · rw [hct g _ hc.args rfl hc.ret]; simp
      · exact test_notFor hn v.arg hchild)
  refine ⟨h2, a2, ?_, x3.same, x3.moved⟩
  have hcon : p.construct (p.run (fuel + 1)) hp t v = .ok (h1, ⟨⟨t, .lvalue, false⟩, a1, some a1⟩) := by
    unfold Prog.construct Prog.callDyn
    rw [hf]
    simp only [hsel, e1]
  unfold Prog.castTo
  rw [if_neg hnv]
  simp only [Prog.castV, hcop, hchild, if_true, hcon, Prog.castRet, hcap, Handle.get, child_refl, e2]

end

/-! ### concrete cases -/

namespace CopyingDemo
open ValueDemo

def tobj : Handle := ⟨⟨2, .lvalue, false⟩, 1, none⟩

example : PlainCopy prog tobj.arg.type ∧ PlainMove prog tobj.arg.type ∧
    prog.w.env.conv tobj.arg.type tobj.arg.type = false ∧ heap.Ok tobj.addr (prog.size tobj.arg.type) ∧
    prog.w.isCopiable tobj.arg.type = true ∧ prog.w.isMovable tobj.arg.type = true :=
  ⟨plainT.1, plainT.2, by decide, by decide, by decide, by decide⟩

/-- the test `copyMove` of value_test.cpp: a copy leaves the object alone, a move empties it -/
example : (match prog.copy 1 heap tobj with
    | .ok (hp, r) => decide (hp.mem r.addr = 7 ∧ hp.mem 1 = 7)
    | _ => false) = true ∧
    (match prog.move 1 heap tobj with
    | .ok (hp, r) => decide (hp.mem r.addr = 7 ∧ hp.mem 1 = 0)
    | _ => false) = true := by decide

/-- the order of the constructors does not matter: `T` with its constructors registered backwards -/
def backwards : Prog :=
  { prog with w := { world with ty := fun t =>
      if t = 2 then { TypeD.new ['T'] with fns := [(['T'], tCtors.reverse)] } else world.ty t } }

example : (match backwards.copy 1 heap tobj with
    | .ok (hp, r) => decide (hp.mem r.addr = 7 ∧ hp.mem 1 = 7)
    | _ => false) = true ∧
    (match backwards.move 1 heap tobj with
    | .ok (hp, r) => decide (hp.mem r.addr = 7 ∧ hp.mem 1 = 0)
    | _ => false) = true := by decide

/-- a class `T` with `T(U)` and `operator U()`, registered after its plumbing: all accepted -/
def convT : TypeD :=
  ((TypeD.new ['T']).runAll world.env (plumbingOps 2 ['T'] ⟨true, true, true, true, true⟩ ++
    [.addFunction (World.converterName ['U']) (Fn.make (World.converterName ['U']) ⟨4, .copy, false⟩
      [⟨2, .lvalue, true⟩] 1),
     .addFunction ['T'] (Fn.make ['T'] ⟨2, .copy, false⟩ [⟨4, .copy, false⟩] 1)])).1

def convProg : Prog :=
  { prog with w := { world with ty := fun t => if t = 2 then convT else world.ty t } }

/-- its mutable objects cannot be copied, its const ones can -/
example : convProg.w.isCopiable 2 = true ∧ convProg.w.env.conv 2 4 = true ∧ convProg.w.env.conv 2 2 = false ∧
    (convProg.copy 5 heap tobj).toOption.isSome = false ∧
    (convProg.copy 5 heap ⟨⟨2, .lvalue, true⟩, 1, none⟩).toOption.isSome = true := by decide

/-- a child of `T` with `operator T()` is emptied by being passed by value, even through a const value -/
example : (match progConv.castTo (progConv.run 1) heap obj.toConst ⟨2, .copy, false⟩ with
    | .ok (hp, .obj a _) => decide (hp.mem a = 7 ∧ hp.mem 1 = 0)
    | _ => false) = true := by decide

example : PlainMove progConv 2 ∧ progConv.w.isCopiable 2 = true := by
  refine ⟨(C32_plumbed progConv 2 ⟨true, true, true, true, true⟩ [] (by decide) (by decide) (by decide)
    rfl rfl rfl (by decide) (by decide) (by simp) ?_ ?_).2, by decide⟩
  · intro hp a m h; rfl
  · intro hp a m h; rfl

/-- a child `C` of `T` with `C(T&)`: copying a mutable `C` runs that constructor (body 9), which here
    returns no object -/
def mutC : TypeD :=
  { TypeD.new ['C'] with
    parent := some 2
    fns := [(['C'], plumbedConstructors 3 ['C'] ⟨true, true, true, true, true⟩ ++
      [Fn.make ['C'] ⟨3, .copy, false⟩ [⟨2, .lvalue, false⟩] 9])] }

def mutT : Prog :=
  { prog with w := { world with ty := fun t => if t = 3 then mutC else world.ty t } }

example : (match mutT.copy 5 heap obj with
    | .ok (_, r) => decide (r = mutT.voidHandle)
    | _ => false) = true ∧ mutT.w.env.child 3 2 = true ∧ mutT.w.env.conv 3 2 = false := by decide

end CopyingDemo

end Reflect

import Verif.Model.Callable
import Verif.Props.Alloc
/-
  C80: what is recorded of a C++ callable and how it is then chosen and constructed with.
-/
namespace Reflect
open Spec

/-! ### the record -/

/-- C80. A free function, or a functor, is recorded under its name with the result and the parameters it declares,
    in order: their number, how each is passed, whether it is const, and its type. -/
theorem C80_free_recorded (ids : CxxTy → Ty) (name : Name) (r : Written) (ps : List Written) (b : Nat)
    (c : Callable) (hc : c = .global r.cxx (ps.map Written.cxx) ∨ ∃ k, c = .functor k r.cxx (ps.map Written.cxx)) :
    let f := c.reflect ids name b
    f.name = name ∧ f.body = b ∧ f.arity = ps.length ∧ f.args.length = ps.length ∧
    (f.ret.ref = r.ref ∧ f.ret.isConst = r.const ∧ f.ret.type = ids r.cxx.clean) ∧
    ∀ (i : Nat) (p : Written), ps[i]? = some p →
      ∃ a, f.args[i]? = some a ∧ a.ref = p.ref ∧ a.isConst = p.const ∧ a.type = ids p.cxx.clean := by
  have h1 : c.ret = r.cxx ∧ c.args = ps.map Written.cxx := by
    rcases hc with rfl | ⟨k, rfl⟩ <;> exact ⟨rfl, rfl⟩
  obtain ⟨hr, ha⟩ := h1
  refine ⟨rfl, rfl, ?_, ?_, ?_, ?_⟩
  · simp [Callable.reflect, Fn.make, ha]
  · simp [Callable.reflect, Fn.make, ha]
  · show (Arg.make ids c.ret).ref = _ ∧ (Arg.make ids c.ret).isConst = _ ∧ (Arg.make ids c.ret).type = _
    rw [hr]
    exact ⟨(C26_read ids r).1, (C26_read ids r).2, rfl⟩
  · intro i p hp
    refine ⟨Arg.make ids p.cxx, ?_, (C26_read ids p).1, (C26_read ids p).2, rfl⟩
    show (c.args.map (Arg.make ids))[i]? = _
    rw [ha]
    simp [hp]

/-- C80. A member function of the class `cls` has one parameter more than it declares, the first: an lvalue reference
    to the object, const exactly when the member is. The class is the one that declares the member: for
    `reflectFn(f)` of an inherited `f`, the base. -/
theorem C80_member_recorded (ids : CxxTy → Ty) (name cls : Name) (k : Bool) (r : Written) (ps : List Written)
    (b : Nat) :
    let f := (Callable.member (.obj cls) k r.cxx (ps.map Written.cxx)).reflect ids name b
    f.name = name ∧ f.body = b ∧ f.arity = ps.length + 1 ∧ f.args.length = ps.length + 1 ∧
    (f.ret.ref = r.ref ∧ f.ret.isConst = r.const ∧ f.ret.type = ids r.cxx.clean) ∧
    f.args[0]? = some ⟨ids (.obj cls), .lvalue, k⟩ ∧
    ∀ (i : Nat) (p : Written), ps[i]? = some p →
      ∃ a, f.args[i + 1]? = some a ∧ a.ref = p.ref ∧ a.isConst = p.const ∧ a.type = ids p.cxx.clean := by
  refine ⟨rfl, rfl, ?_, ?_, ⟨(C26_read ids r).1, (C26_read ids r).2, rfl⟩, ?_, ?_⟩
  · cases k <;> simp [Callable.reflect, Fn.make, Callable.args]
  · cases k <;> simp [Callable.reflect, Fn.make, Callable.args]
  · cases k <;> rfl
  · intro i p hp
    refine ⟨Arg.make ids p.cxx, ?_, (C26_read ids p).1, (C26_read ids p).2, rfl⟩
    cases k <;> simp [Callable.reflect, Fn.make, Callable.args, hp]

/-- C80. A member function cannot be told from a function, or lambda, that takes the object as its first parameter:
    with the same result and parameters, whichever of the two is declared second under a name is refused and the set
    is left as it was. -/
theorem C80_member_or_free (e : Env) (ids : CxxTy → Ty) (name : Name) (cls : CxxTy) (k : Bool) (r : CxxTy)
    (ps : List CxxTy) (b b' : Nat) (o : Overloads) (m c : Callable)
    (hm : m = .member cls k r ps)
    (hc : c = .global r (.lref (if k then .const cls else cls) :: ps) ∨
      ∃ q, c = .functor q r (.lref (if k then .const cls else cls) :: ps)) :
    (m.reflect ids name b ∈ o → Overloads.add e o (c.reflect ids name b') = (o, .error .err)) ∧
    (c.reflect ids name b ∈ o → Overloads.add e o (m.reflect ids name b') = (o, .error .err)) := by
  have h : m.ret = c.ret ∧ m.args = c.args := by
    subst hm
    rcases hc with rfl | ⟨q, rfl⟩ <;> cases k <;> exact ⟨rfl, rfl⟩
  constructor
  · intro hin
    refine C30_duplicate_refused e o _ ⟨_, hin, ?_, ?_⟩
    · show Arg.make ids m.ret = Arg.make ids c.ret; rw [h.1]
    · show m.args.map (Arg.make ids) = c.args.map (Arg.make ids); rw [h.2]
  · intro hin
    refine C30_duplicate_refused e o _ ⟨_, hin, ?_, ?_⟩
    · show Arg.make ids c.ret = Arg.make ids m.ret; rw [h.1]
    · show c.args.map (Arg.make ids) = m.args.map (Arg.make ids); rw [h.2]

/-! ### const and mutable overloads -/

/-- `f` takes an object of type `t` by reference and then `ps` -/
structure Method (f : Fn) (t : Ty) (k : Bool) (ps : List Arg) : Prop where
  args : f.args = ⟨t, .lvalue, k⟩ :: ps

theorem method_reflect (ids : CxxTy → Ty) (name cls : Name) (k : Bool) (r : CxxTy) (ps : List CxxTy) (b : Nat) :
    Method ((Callable.member (.obj cls) k r ps).reflect ids name b) (ids (.obj cls)) k (ps.map (Arg.make ids)) := by
  constructor
  cases k <;> rfl

theorem testReturn_exact (e : Env) (a b : Arg) (h : testReturn e a b ≠ .none) : testReturn e a b = .exact := by
  revert h
  unfold testReturn
  repeat' split
  all_goals simp

theorem testArguments_cons (e : Env) (a p : Arg) (as ps : List Arg) :
    testArguments e (a :: as) (p :: ps) = combine (isConvertibleTo e a p) (testArguments e as ps) := by
  apply match_ext
  · rw [C23_none_iff, combine_eq_none, C23_none_iff]
    simp only [List.length_cons, List.zip_cons_cons, List.mem_cons, exists_eq_or_imp]
    constructor
    · rintro (h | h | h)
      · exact .inr (.inl (by omega))
      · exact .inl h
      · exact .inr (.inr h)
    · rintro (h | h | h)
      · exact .inr (.inl h)
      · exact .inl (by omega)
      · exact .inr (.inr h)
  · rw [C23_exact_iff, combine_eq_exact, C23_exact_iff]
    simp only [List.length_cons, List.zip_cons_cons, List.mem_cons, forall_eq_or_imp]
    constructor
    · rintro ⟨h1, h2, h3⟩; exact ⟨h2, by omega, h3⟩
    · rintro ⟨h1, h2, h3⟩; exact ⟨by omega, h1, h3⟩

/-- C80. A const member and a mutable one with the same parameters can both be declared, in either order, whatever
    they return. -/
theorem C80_both_accepted (e : Env) (fm fc : Fn) (t : Ty) (ps : List Arg) (hm : Method fm t false ps)
    (hc : Method fc t true ps) :
    Overloads.build e [fm, fc] = [fm, fc] ∧ Overloads.build e [fc, fm] = [fc, fm] := by
  have hne : ∀ k : Bool, isConvertibleTo e ⟨t, .lvalue, k⟩ ⟨t, .lvalue, !k⟩ ≠ .exact := by
    intro k h
    generalize ha : (⟨t, .lvalue, k⟩ : Arg) = a at h
    generalize hb : (⟨t, .lvalue, !k⟩ : Arg) = b at h
    have hk : a.isConst = k ∧ b.isConst = !k ∧ a.type = b.type ∧ b.ref = .lvalue := by
      subst ha hb; exact ⟨rfl, rfl, rfl, rfl⟩
    cases (C22_exact_iff e _ _).1 h with
    | same => exact absurd (hk.1.symm.trans hk.2.1) (by cases k <;> simp)
    | dynamic hd =>
      rcases hd with hd | hd
      · exact hd.2 (hk.2.2.1 ▸ hd.1)
      · exact hd.1 (hk.2.2.1 ▸ hd.2)
    | alike _ _ _ _ hc => rw [hk.1, hk.2.1] at hc; revert hc; cases k <;> simp
    | consumed _ _ _ hc => rw [hk.2.2.2] at hc; cases hc
  have key : ∀ f g : Fn, ∀ k, Method f t k ps → Method g t (!k) ps → f.testFn e g ≠ .exact := by
    intro f g k hf hg h
    unfold Fn.testFn at h
    rw [combine_eq_exact, hf.args, hg.args, testArguments_cons, combine_eq_exact] at h
    have := hne (!k)
    simp only [Bool.not_not] at this
    exact this h.2.1
  have h1 := key fc fm true hc hm
  have h2 := key fm fc false hm hc
  simp [Overloads.build, Overloads.add, h1, h2]

/-- an argument that is an object of `t` or of a class derived from it, to be taken as such -/
structure Receiver (e : Env) (a : Arg) (t : Ty) : Prop where
  notValue : a.type ≠ e.valueT
  objNotValue : t ≠ e.valueT
  noConverter : e.conv a.type t = false
  derives : e.child a.type t = true

theorem receiver_mutable (e : Env) (a : Arg) (t : Ty) (h : Receiver e a t) :
    isConvertibleTo e a ⟨t, .lvalue, false⟩ = if a.ref = .lvalue ∧ a.isConst = false then .exact else .none := by
  obtain ⟨h1, h2, h3, h4⟩ := h
  by_cases heq : a = ⟨t, .lvalue, false⟩
  · subst heq; rw [convertible_same]; simp
  · have hnd : ¬ OneDynamic e a ⟨t, .lvalue, false⟩ := by
      rintro (hd | hd)
      · exact h1 hd.1
      · exact h2 hd.2
    have hi := convertible_inherited e a ⟨t, .lvalue, false⟩ heq hnd h3 h4
    split
    · rename_i hr
      exact hi.2.2 ⟨.mutableRef rfl rfl hr.1 hr.2, .inl ⟨hr.1, hr.2⟩⟩
    · rename_i hr
      refine Classical.byContradiction fun hn => hr ?_
      cases hi.1.1 hn with
      | byValue h => cases h
      | constRef _ h => cases h
      | mutableRef _ _ h h' => exact ⟨h, h'⟩
      | rvalueRef h => cases h

/-- C80. On any object of the class, or of one derived from it, a const member can be called: also on const objects
    and temporaries; a mutable one only on objects that are neither. -/
theorem C80_receiver (e : Env) (f : Fn) (want a : Arg) (as ps : List Arg) (t : Ty) (k : Bool)
    (hf : Method f t k ps) (ha : Receiver e a t) :
    f.test e want (a :: as) ≠ .none ↔
      testReturn e want f.ret ≠ .none ∧ testArguments e as ps ≠ .none ∧
      (k = true ∨ (a.ref = .lvalue ∧ a.isConst = false)) := by
  unfold Fn.test
  rw [hf.args, testArguments_cons, Ne, combine_eq_none, combine_eq_none]
  cases k
  · rw [receiver_mutable e a t ha]
    by_cases h : a.ref = .lvalue ∧ a.isConst = false
    · simp [h]
    · simp [h]
  · rw [match_constref_arg e a t ha.notValue ha.objNotValue ha.noConverter ha.derives]
    by_cases h : a.ref = .lvalue ∧ a.isConst = true
    · simp [h]
    · simp [h]

theorem select_other (e : Env) (f g : Fn) (want : Arg) (as : List Arg) (hf : f.test e want as ≠ .none)
    (hg : g.test e want as = .none) :
    Overloads.select e [f, g] want as = .ok f ∧ Overloads.select e [g, f] want as = .ok f := by
  rw [C27_select, C27_select]
  cases h : f.test e want as <;> simp_all [Spec.choose, List.filter_cons]

theorem select_exact_part (e : Env) (f g : Fn) (want : Arg) (as : List Arg) (hf : f.test e want as = .exact)
    (hg : g.test e want as ≠ .exact) :
    Overloads.select e [f, g] want as = .ok f ∧ Overloads.select e [g, f] want as = .ok f := by
  rw [C27_select, C27_select]
  cases h : g.test e want as <;> simp_all [Spec.choose, List.filter_cons]

theorem select_part_part (e : Env) (f g : Fn) (want : Arg) (as : List Arg) (hf : f.test e want as = .part)
    (hg : g.test e want as = .part) :
    Overloads.select e [f, g] want as = .error .err ∧ Overloads.select e [g, f] want as = .error .err := by
  rw [C27_select, C27_select]
  simp [Spec.choose, List.filter_cons, hf, hg]

/-- C80. Of a mutable and a const member with the same parameters, declared in either order, a call on a const object
    or on a temporary runs the const one, whenever the other arguments and the result suit. -/
theorem C80_const_chosen (e : Env) (fm fc : Fn) (want a : Arg) (as ps : List Arg) (t : Ty)
    (hm : Method fm t false ps) (hc : Method fc t true ps) (ha : Receiver e a t)
    (hr : testReturn e want fc.ret ≠ .none) (hs : testArguments e as ps ≠ .none)
    (hk : a.isConst = true ∨ a.ref ≠ .lvalue) :
    Overloads.select e [fm, fc] want (a :: as) = .ok fc ∧ Overloads.select e [fc, fm] want (a :: as) = .ok fc := by
  have h1 := (C80_receiver e fc want a as ps t true hc ha).2 ⟨hr, hs, .inl rfl⟩
  have h2 : fm.test e want (a :: as) = .none := by
    refine Classical.byContradiction fun hn => ?_
    have := ((C80_receiver e fm want a as ps t false hm ha).1 hn).2.2
    rcases this with this | ⟨h3, h4⟩
    · cases this
    · rcases hk with hk | hk
      · rw [h4] at hk; cases hk
      · exact hk h3
  exact And.symm (select_other e fc fm want (a :: as) h1 h2)

/-- C80. A call on a mutable object runs the mutable one, when each of the other arguments suits exactly. -/
theorem C80_mutable_chosen (e : Env) (fm fc : Fn) (want a : Arg) (as ps : List Arg) (t : Ty)
    (hm : Method fm t false ps) (hc : Method fc t true ps) (ha : Receiver e a t)
    (hr : testReturn e want fm.ret ≠ .none) (hs : testArguments e as ps = .exact)
    (hk : a.isConst = false ∧ a.ref = .lvalue) :
    Overloads.select e [fm, fc] want (a :: as) = .ok fm ∧ Overloads.select e [fc, fm] want (a :: as) = .ok fm := by
  apply select_exact_part
  · unfold Fn.test
    rw [hm.args, testArguments_cons, receiver_mutable e a t ha, if_pos ⟨hk.2, hk.1⟩, hs, testReturn_exact e _ _ hr]
    rfl
  · unfold Fn.test
    rw [Ne, combine_eq_exact, hc.args, testArguments_cons, combine_eq_exact,
      match_constref_arg e a t ha.notValue ha.objNotValue ha.noConverter ha.derives]
    simp [hk.1]

/-- C80, a hazard. When one of the other arguments suits, but not exactly, as an `int` variable passed for a
    `const int&`, the same call raises: neither overload is preferred. In C++ it is the mutable one. -/
theorem C80_mutable_ambiguous (e : Env) (fm fc : Fn) (want a : Arg) (as ps : List Arg) (t : Ty)
    (hm : Method fm t false ps) (hc : Method fc t true ps) (ha : Receiver e a t)
    (hr : testReturn e want fm.ret ≠ .none) (hr' : testReturn e want fc.ret ≠ .none)
    (hs : testArguments e as ps = .part) (hk : a.isConst = false ∧ a.ref = .lvalue) :
    Overloads.select e [fm, fc] want (a :: as) = .error .err ∧
    Overloads.select e [fc, fm] want (a :: as) = .error .err := by
  apply select_part_part
  · unfold Fn.test
    rw [hm.args, testArguments_cons, receiver_mutable e a t ha, if_pos ⟨hk.2, hk.1⟩, hs, testReturn_exact e _ _ hr]
    rfl
  · unfold Fn.test
    rw [hc.args, testArguments_cons, match_constref_arg e a t ha.notValue ha.objNotValue ha.noConverter ha.derives,
      if_neg (by simp [hk.1]), hs, testReturn_exact e _ _ hr']
    rfl

/-! ### constructing -/

/-- C80. `type->construct(args...)` calls the functions named like the type, as `call<Value>(type->id(), args...)`
    does: when the selected one is a constructor `reflectCons` made, whose body leaves a new object, the caller has a
    mutable value that owns a fresh object with the contents that were constructed. -/
theorem C80_construct (p : Prog) (fuel : Nat) (hp h1 h2 h3 : Heap) (t : Ty) (as : List Actual) (o : Overloads)
    (ids : CxxTy → Ty) (cls : Name) (ps : List CxxTy) (b : Nat) (vs : List Handle) (bs : List BArg) (a : Nat)
    (hids : ids (.obj cls) = t) (hnv : t ≠ p.w.voidT) (hnV : t ≠ p.w.valueT) (hd : p.w.valueT ≠ p.w.voidT)
    (hf : p.w.functionF p.w.fuel t (p.w.ty t).id = .ok o)
    (hsel : o.select p.w.env p.valueArg (as.map Actual.arg) =
      .ok ((consCallable (.obj cls) ps).reflect ids (p.w.ty t).id b))
    (hargs : testArguments p.w.env (as.map Actual.arg) (ps.map (Arg.make ids)) ≠ .none)
    (hh : p.toHandles hp as = .ok (h1, vs))
    (hbind : p.bind (p.run fuel) h1 vs (ps.map (Arg.make ids)) = .ok (h2, bs))
    (hbody : p.impl b h2 bs = .ok (h3, .obj a)) (hok : h3.Ok a (p.size t))
    (hcaps : (p.caps t).copyConstructible = true ∨ (p.caps t).moveConstructible = true) :
    ∃ hp' v, p.constructWith (fuel + 1) hp t as = .ok (hp', some (.val v)) ∧ Stored p h3 hp' t a v := by
  have hret : ((consCallable (.obj cls) ps).reflect ids (p.w.ty t).id b).ret = t.val := by
    show (⟨ids (.obj cls), .copy, false⟩ : Arg) = _
    rw [hids]; rfl
  obtain ⟨hp', v, w1, w2, -⟩ := C67_temporary_stored p h3 t.val a (by simp [Ty.val])
    (hcaps.imp id fun h => ⟨rfl, h⟩) hok
  refine ⟨hp', v, ?_, w2⟩
  refine typeCall_of_select p _ hp t _ as o _ hf hd hsel ?_ h1 hp' vs v hh ?_
  · unfold Fn.test
    rw [hret, ret_value p t hnv hnV hd, Ne, combine_eq_none]
    rintro (h | h)
    · cases h
    · exact hargs h
  · have hb : ((consCallable (.obj cls) ps).reflect ids (p.w.ty t).id b).body = b := rfl
    have ha : ((consCallable (.obj cls) ps).reflect ids (p.w.ty t).id b).args = ps.map (Arg.make ids) := rfl
    simp only [Prog.run, hb, ha, hbind, hbody, hret, Prog.wrapRet, w1]

/-- C80. Without a function named like the type, on the type and on its ancestors, `construct` raises. -/
theorem C80_construct_missing (p : Prog) (hcl : p.w.Closed) (hac : p.w.Acyclic) (fuel : Nat) (hp : Heap) (t : Ty)
    (ht : t < p.w.n) (as : List Actual)
    (h : ∀ k u, p.w.anc k t = some u → (p.w.ty u).fns.get (p.w.ty t).id = none) :
    p.constructWith fuel hp t as = .error .err := by
  have := ((C17_function_nearest p.w hcl hac t ht (p.w.ty t).id p.w.fuel (by simp [World.fuel])).2.1).1 h
  unfold Prog.constructWith Prog.typeCall
  rw [this]

/-- C80. `construct` raises when no constructor takes the arguments, and nothing is constructed. -/
theorem C80_construct_refused (p : Prog) (fuel : Nat) (hp : Heap) (t : Ty) (as : List Actual) (o : Overloads)
    (hf : p.w.functionF p.w.fuel t (p.w.ty t).id = .ok o)
    (h : ∀ f ∈ o, testArguments p.w.env (as.map Actual.arg) f.args = .none) :
    p.constructWith fuel hp t as = .error .err := by
  have hsel : o.select p.w.env p.valueArg (as.map Actual.arg) = .error .err := by
    have h2 : ∀ f ∈ o, f.test p.w.env p.valueArg (as.map Actual.arg) = .none := by
      intro f hf'
      unfold Fn.test
      rw [combine_eq_none]
      exact .inr (h f hf')
    have h3 : ∀ o' : Overloads, (∀ f ∈ o', f.test p.w.env p.valueArg (as.map Actual.arg) = .none) →
        Overloads.selectLoop p.w.env p.valueArg (as.map Actual.arg) o' none false = (none, false) := by
      intro o'
      induction o' with
      | nil => intro _; rfl
      | cons f fs ih =>
        intro hall
        simp only [Overloads.selectLoop]
        rw [if_pos (hall f (by simp))]
        exact ih fun g hg => hall g (by simp [hg])
    unfold Overloads.select
    rw [h3 o h2]
  unfold Prog.constructWith Prog.typeCall Prog.callOv
  rw [hf]
  simp only [hsel]

/-! ### a concrete case -/

namespace CallableDemo

/-- 0 void, 1 Value, 2 T, 3 a child of T, 4 int -/
def ids : CxxTy → Ty
  | .obj ['T'] => 2
  | .obj ['C'] => 3
  | .obj ['i'] => 4
  | .obj ['v'] => 0
  | _ => 9

def int : CxxTy := .obj ['i']
def cint : CxxTy := .lref (.const int)

/-- `int& T::at(const int&)` and `const int& T::at(const int&) const` -/
def atM : Fn := (Callable.member (.obj ['T']) false (.lref int) [cint]).reflect ids ['a'] 21
def atC : Fn := (Callable.member (.obj ['T']) true cint [cint]).reflect ids ['a'] 22
/-- `T(int)` -/
def cons : Fn := (consCallable (.obj ['T']) [int]).reflect ids ['T'] 23

def world : World :=
  { n := 5, voidT := 0, valueT := 1
    ty := fun t => match t with
      | 0 => TypeD.new ['v']
      | 1 => TypeD.new ['V']
      | 2 => ((TypeD.new ['T']).runAll ⟨0, 1, fun a b => a = b, fun _ _ => false⟩
          [consOp ids ['T'] (.obj ['T']) [int] 23, .addFunction ['a'] atM, .addFunction ['a'] atC]).1
      | 3 => { TypeD.new ['C'] with parent := some 2 }
      | _ => ((TypeD.new ['i']).runAll ⟨0, 1, fun a b => a = b, fun _ _ => false⟩ (plumbingOps 4 ['i'] AllocDemo.all)).1 }

/-- the constructor makes a `T` of the int given and of 5 -/
def prog : Prog :=
  { w := world, size := fun t => if t = 4 then 1 else 2, caps := fun _ => AllocDemo.all, moved := fun _ _ => 0, junk := .copy
    impl := fun b hp as => match b, as with
      | 23, [.obj a _] => .ok ((hp.newObj (fun i => if i = 0 then hp.mem a else 5) 2).1, .obj hp.next)
      | 1, [.obj a _] => .ok ((hp.newObj (fun _ => hp.mem a) 1).1, .obj hp.next)
      | _, _ => .error .ub }

def heap : Heap := { mem := fun a => if a = 1 then 7 else 0, next := 4 }

def mutT : Arg := ⟨2, .lvalue, false⟩
def constT : Arg := ⟨2, .lvalue, true⟩
def tempC : Arg := ⟨3, .rvalue, false⟩

example : atM.args = [⟨2, .lvalue, false⟩, ⟨4, .lvalue, true⟩] ∧ atM.ret = ⟨4, .lvalue, false⟩ ∧ atM.arity = 2 := by
  decide
example : (prog.w.ty 2).fns.get ['a'] = some [atM, atC] ∧ (prog.w.ty 2).fns.get ['T'] = some [cons] := by decide +kernel
example : Method atM 2 false [⟨4, .lvalue, true⟩] ∧ Method atC 2 true [⟨4, .lvalue, true⟩] := ⟨⟨rfl⟩, ⟨rfl⟩⟩
example : Receiver prog.w.env mutT 2 ∧ Receiver prog.w.env constT 2 ∧ Receiver prog.w.env tempC 2 :=
  ⟨⟨by decide, by decide, by decide +kernel, by decide +kernel⟩, ⟨by decide, by decide, by decide +kernel, by decide +kernel⟩,
    ⟨by decide, by decide, by decide +kernel, by decide +kernel⟩⟩
/-- called with a const int variable ... -/
example : Overloads.select prog.w.env [atM, atC] prog.valueArg [mutT, ⟨4, .lvalue, true⟩] = .ok atM :=
  (C80_mutable_chosen prog.w.env atM atC prog.valueArg mutT [⟨4, .lvalue, true⟩] [⟨4, .lvalue, true⟩] 2 ⟨rfl⟩ ⟨rfl⟩
    ⟨by decide, by decide, by decide +kernel, by decide +kernel⟩ (by decide +kernel) (by decide +kernel) (by decide)).1
example : Overloads.select prog.w.env [atM, atC] prog.valueArg [tempC, ⟨4, .lvalue, false⟩] = .ok atC :=
  (C80_const_chosen prog.w.env atM atC prog.valueArg tempC [⟨4, .lvalue, false⟩] [⟨4, .lvalue, true⟩] 2 ⟨rfl⟩ ⟨rfl⟩
    ⟨by decide, by decide, by decide +kernel, by decide +kernel⟩ (by decide +kernel) (by decide +kernel) (by decide)).1
/-- ... and with a mutable one -/
example : Overloads.select prog.w.env [atM, atC] prog.valueArg [mutT, ⟨4, .lvalue, false⟩] = .error .err :=
  (C80_mutable_ambiguous prog.w.env atM atC prog.valueArg mutT [⟨4, .lvalue, false⟩] [⟨4, .lvalue, true⟩] 2 ⟨rfl⟩ ⟨rfl⟩
    ⟨by decide, by decide, by decide +kernel, by decide +kernel⟩ (by decide +kernel) (by decide +kernel) (by decide +kernel)
    (by decide)).1

/-- `type->construct(x)` with the int variable at 1 -/
def got (r : Res (Heap × Option BArg)) : Option (Arg × Nat × List Nat) := match r with
  | .ok (h, some (.val v)) => some (v.arg, v.owner.getD 0, [h.mem v.addr, h.mem (v.addr + 1), h.mem 1])
  | _ => none
example : got (prog.constructWith 4 heap 2 [.native ⟨4, .lvalue, false⟩ 1]) = some (mutT, 13, [7, 5, 7]) := by decide +kernel
example : prog.constructWith 4 heap 2 [] = .error .err :=
  C80_construct_refused prog 4 heap 2 [] [cons] (by decide +kernel) (by decide +kernel)
/-- the child is constructed by nothing: its parent's constructor has another name -/
example : prog.w.functionF prog.w.fuel 3 ['C'] = .error .err := by decide +kernel

end CallableDemo

end Reflect

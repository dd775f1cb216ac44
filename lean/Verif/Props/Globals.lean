import Verif.Model.Globals
import Verif.Props.Scope
import Verif.Props.Assign
import Verif.Props.StdUse
/-
  Property C77: global functions and variables (src/dsl/scope.h:52-84).
-/
namespace Reflect
open World Reflect.Spec Reflect.Scope

/-! ### registering -/

theorem tail_path {cs : List Name} {f : Name} (h : ProperPath (cs ++ [f])) :
    ∃ front, Scope.tail (qualified (cs ++ [f])) = .ok (f, front) := by
  have hf := (h.2 f (by simp)).1
  by_cases hc : cs = []
  · subst hc; exact ⟨[], tail_single hf⟩
  · exact ⟨_, tail_qualified hf hc⟩

theorem addGlobal_eq (e : Env) (t : Tree Fn) {cs : List Name} {f : Name} (h : ProperPath (cs ++ [f]))
    (ret : Arg) (args : List Arg) (body : Nat) :
    addGlobal e t (qualified (cs ++ [f])) ret args body =
      Scope.addFunction (addOv e) t (qualified (cs ++ [f])) (Fn.make f ret args body) := by
  obtain ⟨front, hf⟩ := tail_path h
  unfold addGlobal; rw [hf]

theorem addGlobal_WF (e : Env) (t : Tree Fn) (ht : WF t) {cs : List Name} {f : Name}
    (h : ProperPath (cs ++ [f])) (ret : Arg) (args : List Arg) (body : Nat) :
    WF (addGlobal e t (qualified (cs ++ [f])) ret args body).1 := by
  rw [addGlobal_eq e t h]
  exact WF_step (addOv e) t (.fn (qualified (cs ++ [f])) (Fn.make f ret args body)) ht ⟨_, h, rfl⟩

/-- the global scope stays well formed, so that one declaration can follow another -/
theorem globalVar_WF (e : Env) (t : Tree Fn) (ht : WF t) {cs : List Name} {f : Name}
    (h : ProperPath (cs ++ [f])) (ty : Ty) (get set : Nat) :
    WF (globalVar e t (qualified (cs ++ [f])) ty get set).1 := by
  unfold globalVar
  have h1 := addGlobal_WF e t ht h ty.val [] get
  generalize addGlobal e t (qualified (cs ++ [f])) ty.val [] get = r at h1
  obtain ⟨t1, x1⟩ := r
  cases x1 with
  | error => exact h1
  | ok => exact addGlobal_WF e t1 h1 h _ _ set

/-- an existing function `g` stands in the way of a new one with result `ret` and parameters `args` -/
def InTheWay (e : Env) (ret : Arg) (args : List Arg) (g : Fn) : Prop :=
  testReturn e g.ret ret = .exact ∧ testArguments e g.args args = .exact

theorem testFn_exact (e : Env) (f g : Fn) :
    f.testFn e g = .exact ↔ InTheWay e f.ret f.args g := by
  unfold Fn.testFn InTheWay
  cases testReturn e g.ret f.ret <;> cases testArguments e g.args f.args <;> simp [combine]

theorem addOv_ok (e : Env) (o : List Fn) (f : Fn) (h : ∀ g ∈ o, ¬ InTheWay e f.ret f.args g) :
    addOv e o f = .ok (o ++ [f]) := by
  have : o.any (fun other => decide (f.testFn e other = .exact)) = false := by
    rw [List.any_eq_false]
    intro g hg hh
    exact h g hg ((testFn_exact e f g).1 (by simpa using hh))
  unfold addOv Overloads.add
  rw [this]; rfl

theorem addOv_err (e : Env) (o : List Fn) (f : Fn) (h : ∃ g ∈ o, InTheWay e f.ret f.args g) :
    addOv e o f = .error .err := by
  have : o.any (fun other => decide (f.testFn e other = .exact)) = true := by
    rw [List.any_eq_true]
    obtain ⟨g, hg, hw⟩ := h
    exact ⟨g, hg, by simpa using (testFn_exact e f g).2 hw⟩
  unfold addOv Overloads.add
  rw [this]; rfl

theorem not_inTheWay_length (e : Env) (ret : Arg) (args : List Arg) (g : Fn)
    (h : g.args.length ≠ args.length) : ¬ InTheWay e ret args g := by
  rintro ⟨-, h'⟩
  unfold testArguments at h'
  rw [if_pos h] at h'
  cases h'

/-- nothing but the overloads at `name` differs between two global scopes, where the name is now listed -/
structure OnlyAt (t t' : Tree Fn) (cs : List Name) (f : Name) : Prop where
  others : ∀ ds, ProperPath ds → ds ≠ cs ++ [f] →
    (Scope.function t' (qualified ds)).2 = (Scope.function t (qualified ds)).2
  types : ∀ x, x ∈ typesAll t' ↔ x ∈ typesAll t
  listed : ∀ x, x ∈ functionsAll t' ↔ x = qualified (cs ++ [f]) ∨ x ∈ functionsAll t

theorem OnlyAt.trans {t t' t'' : Tree Fn} {cs : List Name} {f : Name} (a : OnlyAt t t' cs f)
    (b : OnlyAt t' t'' cs f) : OnlyAt t t'' cs f := by
  refine ⟨fun ds h1 h2 => (b.others ds h1 h2).trans (a.others ds h1 h2),
    fun x => (b.types x).trans (a.types x), fun x => ?_⟩
  rw [b.listed, a.listed]
  constructor
  · rintro (h | h | h)
    · exact .inl h
    · exact .inl h
    · exact .inr h
  · rintro (h | h)
    · exact .inl h
    · exact .inr (.inr h)

/-- the overloads a global scope has under a name, none if the name is not registered -/
def Has (t : Tree Fn) (cs : List Name) (f : Name) (o : List Fn) : Prop :=
  (Scope.function t (qualified (cs ++ [f]))).2 = .ok o ∨
    (o = [] ∧ qualified (cs ++ [f]) ∉ functionsAll t)

theorem addGlobal_ok (e : Env) (t : Tree Fn) (ht : WF t) {cs : List Name} {f : Name}
    (hc : ProperPath (cs ++ [f])) (ret : Arg) (args : List Arg) (body : Nat) (o : List Fn) (ho : Has t cs f o)
    (hw : ∀ g ∈ o, ¬ InTheWay e ret args g) :
    let r := addGlobal e t (qualified (cs ++ [f])) ret args body
    r.2 = .ok () ∧
    (Scope.function r.1 (qualified (cs ++ [f]))).2 = .ok (o ++ [Fn.make f ret args body]) ∧
    OnlyAt t r.1 cs f := by
  have hadd := addOv_ok e o (Fn.make f ret args body) hw
  intro r
  have hr : r = Scope.addFunction (addOv e) t (qualified (cs ++ [f])) (Fn.make f ret args body) :=
    addGlobal_eq e t hc ret args body
  rw [hr]
  rcases ho with ho | ⟨rfl, hn⟩
  · obtain ⟨h1, -, h3, h4, h5⟩ := C07_addFunction_exact (addOv e) t ht cs f (Fn.make f ret args body) hc o ho
    obtain ⟨h1, h2⟩ := h1 _ hadd
    exact ⟨h1, h2, h3, h4, h5⟩
  · obtain ⟨h1, h2, h3, h4, h5⟩ := C07_addFunction_first (addOv e) t ht cs f (Fn.make f ret args body) hc hn _ hadd
    exact ⟨h1, h2, h3, h4, h5⟩

theorem addGlobal_err (e : Env) (t : Tree Fn) (ht : WF t) {cs : List Name} {f : Name}
    (hc : ProperPath (cs ++ [f])) (ret : Arg) (args : List Arg) (body : Nat) (o : List Fn)
    (ho : (Scope.function t (qualified (cs ++ [f]))).2 = .ok o)
    (hw : ∃ g ∈ o, InTheWay e ret args g) :
    let r := addGlobal e t (qualified (cs ++ [f])) ret args body
    r.2 = .error .err ∧ (Scope.function r.1 (qualified (cs ++ [f]))).2 = .ok o ∧ OnlyAt t r.1 cs f := by
  have hadd := addOv_err e o (Fn.make f ret args body) hw
  intro r
  have hr : r = Scope.addFunction (addOv e) t (qualified (cs ++ [f])) (Fn.make f ret args body) :=
    addGlobal_eq e t hc ret args body
  rw [hr]
  obtain ⟨-, h2, h3, h4, h5⟩ := C07_addFunction_exact (addOv e) t ht cs f (Fn.make f ret args body) hc o ho
  obtain ⟨h1, h2⟩ := h2 _ hadd
  exact ⟨h1, h2, h3, h4, h5⟩

/-- C77. Reflecting a global function under a name: it joins the overloads of that name, unless one of them
    would take it exactly; then the declaration raises, and the overloads are as before. No other name and no
    type is affected. -/
theorem C77_function_declared (e : Env) (t : Tree Fn) (ht : WF t) (cs : List Name) (f : Name)
    (hc : ProperPath (cs ++ [f])) (ret : Arg) (args : List Arg) (body : Nat) (o : List Fn) (ho : Has t cs f o) :
    let r := globalFn e t (qualified (cs ++ [f])) ret args body
    ((∀ g ∈ o, ¬ InTheWay e ret args g) → r.2 = .ok () ∧
      (Scope.function r.1 (qualified (cs ++ [f]))).2 = .ok (o ++ [Fn.make f ret args body])) ∧
    ((∃ g ∈ o, InTheWay e ret args g) → r.2 = .error .err ∧
      (Scope.function r.1 (qualified (cs ++ [f]))).2 = .ok o) ∧
    OnlyAt t r.1 cs f := by
  unfold globalFn
  have h1 : (∀ g ∈ o, ¬ InTheWay e ret args g) → _ := addGlobal_ok e t ht hc ret args body o ho
  have h2 : (∃ g ∈ o, InTheWay e ret args g) → _ := fun hw => addGlobal_err e t ht hc ret args body o (by
    rcases ho with ho | ⟨rfl, -⟩
    · exact ho
    · obtain ⟨g, hg, -⟩ := hw; cases hg) hw
  refine ⟨fun h => ⟨(h1 h).1, (h1 h).2.1⟩, fun h => ⟨(h2 h).1, (h2 h).2.1⟩, ?_⟩
  by_cases h : ∃ g ∈ o, InTheWay e ret args g
  · exact (h2 h).2.2
  · exact (h1 fun g hg hw => h ⟨g, hg, hw⟩).2.2

/-- the getter and the setter of a variable of type `ty` called `f` -/
def getter (f : Name) (ty : Ty) (get : Nat) : Fn := Fn.make f ty.val [] get
def setter (e : Env) (f : Name) (ty : Ty) (set : Nat) : Fn := Fn.make f (Ty.val e.voidT) [ty.cref] set

/-- C77. Reflecting a global variable under a name none of whose functions takes fewer than two arguments (a
    new name, for one) adds exactly a getter and a setter to that name, in this order; no other name and no type
    is affected. -/
theorem C77_declared (e : Env) (t : Tree Fn) (ht : WF t) (cs : List Name) (f : Name)
    (hc : ProperPath (cs ++ [f])) (ty : Ty) (get set : Nat) (o : List Fn) (ho : Has t cs f o)
    (hlen : ∀ g ∈ o, 2 ≤ g.args.length) :
    let r := globalVar e t (qualified (cs ++ [f])) ty get set
    r.2 = .ok () ∧
    (Scope.function r.1 (qualified (cs ++ [f]))).2 = .ok (o ++ [getter f ty get, setter e f ty set]) ∧
    OnlyAt t r.1 cs f := by
  obtain ⟨h1, h2, h3⟩ := addGlobal_ok e t ht hc ty.val [] get o ho (fun g hg =>
    not_inTheWay_length e _ _ g (by have := hlen g hg; simp; intro h; rw [h] at this; simp at this))
  have hw := addGlobal_WF e t ht hc ty.val [] get
  unfold globalVar
  generalize addGlobal e t (qualified (cs ++ [f])) ty.val [] get = r1 at *
  obtain ⟨t1, x1⟩ := r1
  simp only at h1 h2 h3 hw
  subst h1
  simp only
  obtain ⟨g1, g2, g3⟩ := addGlobal_ok e t1 hw hc (Ty.val e.voidT) [ty.cref] set _ (.inl h2) (fun g hg =>
    not_inTheWay_length e _ _ g (by
      rw [List.mem_append] at hg
      rcases hg with hg | hg
      · have := hlen g hg
        simp only [List.length_cons, List.length_nil]; omega
      · simp only [List.mem_cons, List.not_mem_nil, or_false] at hg
        subst hg
        simp [Fn.make]))
  refine ⟨g1, ?_, h3.trans g3⟩
  rw [g2]
  simp [getter, setter]

/-- C77. Reflecting a const global variable adds a getter only. -/
theorem C77_const_declared (e : Env) (t : Tree Fn) (ht : WF t) (cs : List Name) (f : Name)
    (hc : ProperPath (cs ++ [f])) (ty : Ty) (get : Nat) (o : List Fn) (ho : Has t cs f o)
    (hlen : ∀ g ∈ o, 1 ≤ g.args.length) :
    let r := globalConst e t (qualified (cs ++ [f])) ty get
    r.2 = .ok () ∧
    (Scope.function r.1 (qualified (cs ++ [f]))).2 = .ok (o ++ [getter f ty get]) ∧
    OnlyAt t r.1 cs f := by
  exact addGlobal_ok e t ht hc ty.val [] get o ho (fun g hg =>
    not_inTheWay_length e _ _ g (by have := hlen g hg; simp; intro h; rw [h] at this; simp at this))

theorem getter_inTheWay (e : Env) (ty : Ty) (g : Fn) (hr : g.ret = ty.val) (ha : g.args = []) :
    InTheWay e ty.val [] g := by
  have h : isConvertibleTo e ty.val ty.val = .exact := by unfold isConvertibleTo; exact if_pos rfl
  constructor
  · rw [hr]
    unfold testReturn
    by_cases hv : ty.val.type = e.voidT
    · rw [if_pos hv]
    · rw [if_neg hv, if_neg hv, h]
      simp [Arg.isConstRef, Ty.val]
  · rw [ha]; rfl

/-- C77. A name that has a function without parameters returning the variable's type, such as the name of a
    variable already reflected, is refused: the declaration raises and every name has the overloads it had. -/
theorem C77_taken (e : Env) (t : Tree Fn) (ht : WF t) (cs : List Name) (f : Name)
    (hc : ProperPath (cs ++ [f])) (ty : Ty) (get set : Nat) (o : List Fn)
    (ho : (Scope.function t (qualified (cs ++ [f]))).2 = .ok o)
    (hg : ∃ g ∈ o, g.ret = ty.val ∧ g.args = []) :
    let r := globalVar e t (qualified (cs ++ [f])) ty get set
    r.2 = .error .err ∧ (Scope.function r.1 (qualified (cs ++ [f]))).2 = .ok o ∧ OnlyAt t r.1 cs f ∧
    globalConst e t (qualified (cs ++ [f])) ty get = r := by
  obtain ⟨g, hg, hr, ha⟩ := hg
  obtain ⟨h1, h2, h3⟩ := addGlobal_err e t ht hc ty.val [] get o ho ⟨g, hg, getter_inTheWay e ty g hr ha⟩
  unfold globalVar globalConst
  generalize addGlobal e t (qualified (cs ++ [f])) ty.val [] get = r1 at *
  obtain ⟨t1, x1⟩ := r1
  simp only at h1 h2 h3
  subst h1
  exact ⟨rfl, h2, h3, rfl⟩

/-- C77. Under a name that has no function without parameters but one without result taking a `const T&`, the
    declaration raises half-way: the getter stays behind, the setter is missing. -/
theorem C77_half_declared (e : Env) (t : Tree Fn) (ht : WF t) (cs : List Name) (f : Name)
    (hc : ProperPath (cs ++ [f])) (ty : Ty) (get set : Nat) (o : List Fn)
    (ho : (Scope.function t (qualified (cs ++ [f]))).2 = .ok o)
    (hlen : ∀ g ∈ o, 1 ≤ g.args.length)
    (hg : ∃ g ∈ o, g.ret.type = e.voidT ∧ g.args = [ty.cref]) :
    let r := globalVar e t (qualified (cs ++ [f])) ty get set
    r.2 = .error .err ∧
    (Scope.function r.1 (qualified (cs ++ [f]))).2 = .ok (o ++ [getter f ty get]) ∧ OnlyAt t r.1 cs f := by
  obtain ⟨h1, h2, h3⟩ := C77_const_declared e t ht cs f hc ty get o (.inl ho) hlen
  have hw := addGlobal_WF e t ht hc ty.val [] get
  unfold globalConst at *
  unfold globalVar
  generalize addGlobal e t (qualified (cs ++ [f])) ty.val [] get = r1 at *
  obtain ⟨t1, x1⟩ := r1
  simp only at h1 h2 h3 hw
  subst h1
  simp only
  obtain ⟨g, hg, hr, ha⟩ := hg
  have hcv : isConvertibleTo e ty.cref ty.cref = .exact := by unfold isConvertibleTo; exact if_pos rfl
  obtain ⟨g1, g2, g3⟩ := addGlobal_err e t1 hw hc (Ty.val e.voidT) [ty.cref] set _ h2
    ⟨g, by simp [hg], ⟨by unfold testReturn; exact if_pos hr, by rw [ha, testArguments_single]; exact hcv⟩⟩
  exact ⟨g1, g2, h3.trans g3⟩

/-! ### using -/

/-- The global scope has the variable of type `ty` at address `a` under `name`: what `C77_declared` and
    `C77_const_declared` establish for a new name, once the program's numbers `get` and `set` are those of
    the two lambdas. -/
structure Variable (p : Prog) (t : Tree Fn) (name : Name) (ty : Ty) (a : Nat) (writable : Bool) : Prop where
  overloads : ∃ f get set,
    (Scope.function t name).2 =
      .ok (getter f ty get :: if writable then [setter p.w.env f ty set] else []) ∧
    p.impl get = getBody p ty a ∧ (writable = true → p.impl set = setBody p ty a)

/-- C77. A variable reflected under a new name is a variable of the global scope, and so is every variable that
    was one before. -/
theorem C77_declares (p : Prog) (t : Tree Fn) (ht : WF t) (cs : List Name) (f : Name)
    (hc : ProperPath (cs ++ [f])) (hn : qualified (cs ++ [f]) ∉ functionsAll t) (ty : Ty) (get set a : Nat)
    (hg : p.impl get = getBody p ty a) (hs : p.impl set = setBody p ty a) :
    Variable p (globalVar p.w.env t (qualified (cs ++ [f])) ty get set).1 (qualified (cs ++ [f])) ty a true ∧
    Variable p (globalConst p.w.env t (qualified (cs ++ [f])) ty get).1 (qualified (cs ++ [f])) ty a false ∧
    ∀ ds ty' a' k, ProperPath ds → Variable p t (qualified ds) ty' a' k →
      Variable p (globalVar p.w.env t (qualified (cs ++ [f])) ty get set).1 (qualified ds) ty' a' k ∧
      Variable p (globalConst p.w.env t (qualified (cs ++ [f])) ty get).1 (qualified ds) ty' a' k := by
  obtain ⟨-, h2, h3⟩ := C77_declared p.w.env t ht cs f hc ty get set [] (.inr ⟨rfl, hn⟩) (by simp)
  obtain ⟨-, g2, g3⟩ := C77_const_declared p.w.env t ht cs f hc ty get [] (.inr ⟨rfl, hn⟩) (by simp)
  refine ⟨⟨f, get, set, h2, hg, fun _ => hs⟩, ⟨f, get, set, g2, hg, fun h => by cases h⟩, ?_⟩
  intro ds ty' a' k hd ⟨f', get', set', hv, hg', hs'⟩
  have hne : ds ≠ cs ++ [f] := by
    rintro rfl
    rw [mem_functionsAll_qualified ht hc] at hn
    rw [function_eq t cs f hc] at hv
    cases hf : findFn (fnsAt t cs) f with
    | none => rw [hf] at hv; cases hv
    | some o => rw [hf] at hn; simp at hn
  exact ⟨⟨f', get', set', by rw [h3.others ds hd hne]; exact hv, hg', hs'⟩,
    ⟨f', get', set', by rw [g3.others ds hd hne]; exact hv, hg', hs'⟩⟩

theorem setter_test_none (e : Env) (f : Name) (ty : Ty) (set : Nat) (want : Arg) (as : List Arg)
    (h : as.length ≠ 1) : (setter e f ty set).test e want as = .none :=
  test_none_of_length _ _ _ _ (by simpa [setter, Fn.make] using fun h' => h h'.symm)

theorem getter_test_none (e : Env) (f : Name) (ty : Ty) (get : Nat) (want : Arg) (as : List Arg)
    (h : as ≠ []) : (getter f ty get).test e want as = .none :=
  test_none_of_length _ _ _ _ (by
    simp only [getter, Fn.make, List.length_nil]
    cases as with
    | nil => exact absurd rfl h
    | cons x xs => simp)

theorem getter_test (e : Env) (f : Name) (ty : Ty) (get : Nat) (want : Arg) :
    (getter f ty get).test e want [] = testReturn e want ty.val := by
  unfold Fn.test
  have : testArguments e [] (getter f ty get).args = .exact := rfl
  rw [this]
  change combine (testReturn e want ty.val) .exact = _
  cases testReturn e want ty.val <;> rfl

/-- without arguments, the getter is what is called, if anything -/
theorem select_getter (e : Env) (f : Name) (ty : Ty) (get : Nat) (want : Arg) (rest : List Fn)
    (hrest : ∀ g ∈ rest, g.test e want [] = .none) (h : testReturn e want ty.val ≠ .none) :
    Overloads.select e (getter f ty get :: rest) want [] = .ok (getter f ty get) := by
  have := select_sole e want [] [] rest (getter f ty get) (by rw [getter_test]; exact h) (by simpa using hrest)
  simpa using this

theorem rest_none (e : Env) (f : Name) (ty : Ty) (set : Nat) (want : Arg) (k : Bool) (as : List Arg)
    (h : as.length ≠ 1) : ∀ g ∈ (if k then [setter e f ty set] else []), g.test e want as = .none := by
  intro g hg
  cases k with
  | false => simp at hg
  | true => simp only [if_true, List.mem_cons, List.not_mem_nil, or_false] at hg; subst hg
            exact setter_test_none e f ty set want as h

/-- C77. Reading a global variable, as its type or as a class it derives from: the caller obtains a fresh object
    with the contents the variable has, and nothing that existed changes. -/
theorem C77_read (p : Prog) (fuel : Nat) (hp : Heap) (t : Tree Fn) (name : Name) (ty u : Ty) (a : Nat) (k : Bool)
    (hv : Variable p t name ty a k) (hok : hp.Ok a (p.size ty))
    (hty : ty ≠ p.w.voidT) (htv : ty ≠ p.w.valueT) (hmv : (p.caps ty).moveConstructible = true)
    (hu : PlainCopy p u) (hchild : p.w.env.child ty u = true) (hconv : p.w.env.conv ty u = false)
    (hsize : p.size u ≤ p.size ty) :
    ∃ hp' b, p.callGlobal (fuel + 1) hp t name u.val [] = .ok (hp', some (.obj b true)) ∧
      FreshCopy hp hp' (p.size u) a b := by
  obtain ⟨f, get, set, hf, hget, -⟩ := hv.overloads
  have hret : testReturn p.w.env u.val ty.val ≠ .none := by
    have hcv : isConvertibleTo p.w.env ty.val u.val ≠ .none := by
      unfold Ty.val
      rw [convertible_static _ _ _ _ _ _ _ (not_dynamic _ ty u htv hu.notValue _ _ _ _)]
      simp [hconv, hchild]
    unfold testReturn
    rw [if_neg (show ¬ (u.val.type = p.w.env.voidT) from hu.notVoid),
      if_neg (show ¬ (ty.val.type = p.w.env.voidT) from hty), if_neg hcv]
    simp [Arg.isConstRef, Ty.val]
  obtain ⟨h2, b, e1, x1⟩ := copyObj_fresh hp (p.size ty) a hok
  obtain ⟨hp', b', e2, e3, e4, e5, e6, e7⟩ := C68_result_by_value p fuel hp hp h2 (getter f ty get) u.val []
    [] hp [] b (by rw [List.map_nil, getter_test]; exact hret) rfl rfl
    (by
      change p.impl get hp [] = _
      rw [hget]; simp [getBody, e1])
    rfl rfl hu hchild hsize htv hconv ⟨rfl, hmv⟩ x1.ok
  refine ⟨hp', b', ?_, ⟨Nat.le_trans x1.grow e3, e4, fun i hi => ?_, fun x hx => ?_, Nat.le_trans x1.grow e7⟩⟩
  · unfold Prog.callGlobal Prog.callOv
    rw [hf]
    simp only [List.map_nil]
    rw [select_getter _ _ _ _ _ _ (rest_none p.w.env f ty set _ k [] (by simp)) hret]
    exact e2
  · have hlt : i < p.size ty := Nat.lt_of_lt_of_le hi hsize
    rw [e5 i hi, x1.same i hlt]
  · have := x1.grow
    rw [e6 x (by omega) (.inl (Nat.lt_of_lt_of_le hx x1.fresh)), x1.frame x hx]

/-- C77. Reading a global variable as a `Value`: the value owns a fresh mutable object with the variable's
    contents, and nothing that existed changes. -/
theorem C77_read_value (p : Prog) (fuel : Nat) (hp : Heap) (t : Tree Fn) (name : Name) (ty : Ty) (a : Nat)
    (k : Bool) (hv : Variable p t name ty a k) (hok : hp.Ok a (p.size ty))
    (hty : ty ≠ p.w.voidT) (htv : ty ≠ p.w.valueT) (hvv : p.w.valueT ≠ p.w.voidT)
    (hmv : (p.caps ty).moveConstructible = true) :
    ∃ hp' v, p.callGlobal (fuel + 1) hp t name p.valueArg [] = .ok (hp', some (.val v)) ∧
      v.arg = ty.lref ∧ v.owner = some v.addr ∧ FreshCopy hp hp' (p.size ty) a v.addr := by
  obtain ⟨f, get, set, hf, hget, -⟩ := hv.overloads
  have hcv : isConvertibleTo p.w.env ty.val p.valueArg = .exact := by
    unfold isConvertibleTo
    by_cases h : ty.val = p.valueArg
    · rw [if_pos h]
    · rw [if_neg h, if_pos]; simp [Ty.val, Prog.valueArg, World.env, htv]
  have hret : testReturn p.w.env p.valueArg ty.val ≠ .none := by
    unfold testReturn
    rw [if_neg (show ¬ (p.valueArg.type = p.w.env.voidT) from hvv),
      if_neg (show ¬ (ty.val.type = p.w.env.voidT) from hty), hcv]
    simp [Arg.isConstRef, Prog.valueArg]
  obtain ⟨h2, b, e1, x1⟩ := copyObj_fresh hp (p.size ty) a hok
  obtain ⟨h3, v, hw, hst, -⟩ := C67_temporary_stored p h2 ty.val b (by simp [Ty.val]) (.inr ⟨rfl, hmv⟩) x1.ok
  have hrun : p.run (fuel + 1) hp (getter f ty get) [] = .ok (h3, v) := by
    have hi : p.impl (getter f ty get).body hp [] = .ok (h2, .obj b) := by
      change p.impl get hp [] = _
      rw [hget]; simp [getBody, e1]
    have hb : p.bind (p.run fuel) hp [] (getter f ty get).args = .ok (hp, []) := rfl
    simp only [Prog.run, hb, hi, Prog.wrapRet]
    exact hw
  refine ⟨h3, v, ?_, hst.arg, hst.owner, ⟨Nat.le_trans x1.grow hst.fresh, hst.live, fun i hi => ?_, fun x hx => ?_,
    Nat.le_trans x1.grow hst.grow⟩⟩
  · unfold Prog.callGlobal Prog.callOv
    rw [hf]
    simp only [List.map_nil]
    rw [select_getter _ _ _ _ _ _ (rest_none p.w.env f ty set _ k [] (by simp)) hret]
    simp only [Prog.callFn, List.map_nil]
    rw [getter_test, if_neg hret]
    simp only [Prog.toHandles, hrun]
    unfold Prog.retCast Prog.castTo
    rw [if_neg (show ¬ (p.valueArg.type = p.w.voidT) from hvv), if_pos rfl]
  · rw [hst.same i hi, x1.same i hi]
  · have := x1.grow
    rw [hst.frame x (by omega) (.inl (Nat.lt_of_lt_of_le hx x1.fresh)), x1.frame x hx]

/-- one argument and nothing wanted: the setter is what is called, if anything -/
theorem select_setter (e : Env) (f : Name) (ty : Ty) (get set : Nat) (want a : Arg) (hw : want.type = e.voidT)
    (h : isConvertibleTo e a ty.cref ≠ .none) :
    Overloads.select e [getter f ty get, setter e f ty set] want [a] = .ok (setter e f ty set) ∧
    (setter e f ty set).test e want [a] ≠ .none := by
  have ht : (setter e f ty set).test e want [a] ≠ .none := by
    rw [test_void e _ _ _ hw]
    have : (setter e f ty set).args = [ty.cref] := rfl
    rw [this, testArguments_single]; exact h
  exact ⟨select_sole e want [a] [getter f ty get] [] (setter e f ty set) ht (by
    intro g hg
    simp only [List.append_nil, List.mem_cons, List.not_mem_nil, or_false] at hg
    subst hg
    exact getter_test_none e f ty get want [a] (by simp)), ht⟩

theorem match_cref (p : Prog) (ty : Ty) (x : Arg) (htv : ty ≠ p.w.valueT) (hx : x.type ≠ p.w.valueT)
    (hch : p.w.env.child x.type ty = true) (hconv : p.w.env.conv x.type ty = false) :
    isConvertibleTo p.w.env x ty.cref ≠ .none := by
  have := match_constref_arg p.w.env x ty hx htv hconv hch
  rw [show ty.cref = ⟨ty, .lvalue, true⟩ from rfl, this]
  split <;> simp

theorem run_setter (p : Prog) (fuel : Nat) (h1 h2 : Heap) (f : Name) (ty : Ty) (set a : Nat) (v : Handle)
    (hs : p.impl set = setBody p ty a) (hch : p.w.env.child v.arg.type ty = true)
    (he : h1.assignObj (p.size ty) a v.addr = .ok h2) :
    p.run (fuel + 1) h1 (setter p.w.env f ty set) [v] = .ok (h2, p.voidHandle) := by
  have hne : ty.cref ≠ p.valueArg := by simp [Ty.cref, Prog.valueArg]
  have hb : p.bind (p.run fuel) h1 [v] (setter p.w.env f ty set).args = .ok (h1, [.obj v.addr false]) := by
    have : (setter p.w.env f ty set).args = [ty.cref] := rfl
    rw [this]
    have hc : p.castTo (p.run fuel) h1 v ty.cref = .ok (h1, .obj v.addr false) := by
      unfold Prog.castTo
      rw [if_neg hne]
      simp [Prog.castV, Ty.cref, hch, Prog.castRet, Handle.as]
    simp only [Prog.bind, hc]
  have hi : p.impl (setter p.w.env f ty set).body h1 [.obj v.addr false] = .ok (h2, .void) := by
    change p.impl set h1 _ = _
    rw [hs]; simp [setBody, he]
  simp only [Prog.run, hb, hi, Prog.wrapRet]

theorem call_setter (p : Prog) (fuel : Nat) (hp h1 h2 : Heap) (t : Tree Fn) (name : Name) (f : Name) (ty : Ty)
    (get set a : Nat) (want : Arg) (x : Actual) (v : Handle)
    (hf : (Scope.function t name).2 = .ok [getter f ty get, setter p.w.env f ty set])
    (hs : p.impl set = setBody p ty a) (hw : want.type = p.w.voidT)
    (hm : isConvertibleTo p.w.env x.arg ty.cref ≠ .none)
    (hx : p.toHandles hp [x] = .ok (h1, [v])) (hch : p.w.env.child v.arg.type ty = true)
    (he : h1.assignObj (p.size ty) a v.addr = .ok h2) :
    p.callGlobal (fuel + 1) hp t name want [x] = .ok (h2, none) := by
  obtain ⟨hsel, ht⟩ := select_setter p.w.env f ty get set want x.arg hw hm
  unfold Prog.callGlobal Prog.callOv
  rw [hf]
  simp only [List.map_cons, List.map_nil]
  rw [hsel]
  simp only [Prog.callFn, List.map_cons, List.map_nil]
  rw [if_neg ht]
  simp only [hx, run_setter p fuel h1 h2 f ty set a v hs hch he]
  unfold Prog.retCast
  rw [if_pos hw]

/-- C77. Writing to a global variable that is not const, from an lvalue or any `Value` of its type or of a
    derived class: the variable gets the contents of that object, which is never moved from, and nothing else
    changes. -/
theorem C77_write (p : Prog) (fuel : Nat) (hp : Heap) (t : Tree Fn) (name : Name) (ty : Ty) (a : Nat) (want : Arg)
    (x : Actual) (hv : Variable p t name ty a true) (hok : hp.Ok a (p.size ty)) (hw : want.type = p.w.voidT)
    (htv : ty ≠ p.w.valueT) (hx : ∀ arg b, x = .native arg b → arg.ref = .lvalue)
    (hxv : x.arg.type ≠ p.w.valueT) (hch : p.w.env.child x.arg.type ty = true)
    (hconv : p.w.env.conv x.arg.type ty = false) (hokx : hp.Ok x.handle.addr (p.size ty)) :
    ∃ hp', p.callGlobal (fuel + 1) hp t name want [x] = .ok (hp', none) ∧
      Assigned p hp hp' ty a x.handle.addr := by
  obtain ⟨f, get, set, hf, -, hs⟩ := hv.overloads
  obtain ⟨h2, e1, e2, e3, e4⟩ := assignObj_ok hp (p.size ty) a x.handle.addr hok hokx
  refine ⟨h2, call_setter p fuel hp hp h2 t name f ty get set a want x x.handle hf (hs rfl) hw
    (match_cref p ty x.arg htv hxv hch hconv) ?_ (by rw [← arg_handle]; exact hch) e1, e3,
    fun y _ hy => e4 y hy, by omega⟩
  rw [toHandles_simple p hp _ (by
    intro y hy arg b e
    simp only [List.mem_cons, List.not_mem_nil, or_false] at hy
    subst hy
    exact hx arg b e)]
  rfl

/-- C77. Writing a temporary to a global variable: the variable gets the contents the temporary had, and nothing
    else but the temporary changes. -/
theorem C77_write_temporary (p : Prog) (fuel : Nat) (hp : Heap) (t : Tree Fn) (name : Name) (ty : Ty) (a b : Nat)
    (want arg : Arg) (hv : Variable p t name ty a true) (hok : hp.Ok a (p.size ty)) (hw : want.type = p.w.voidT)
    (htv : ty ≠ p.w.valueT) (harg : arg.ref ≠ .lvalue)
    (hcap : (p.caps arg.type).copyConstructible = true ∨
      (arg.isConst = false ∧ (p.caps arg.type).moveConstructible = true))
    (hxv : arg.type ≠ p.w.valueT) (hch : p.w.env.child arg.type ty = true)
    (hconv : p.w.env.conv arg.type ty = false) (hokx : hp.Ok b (p.size arg.type))
    (hsize : p.size ty ≤ p.size arg.type) :
    ∃ hp', p.callGlobal (fuel + 1) hp t name want [.native arg b] = .ok (hp', none) ∧
      (∀ i < p.size ty, hp'.mem (a + i) = hp.mem (b + i)) ∧
      (∀ x < hp.next, x < a ∨ a + p.size ty ≤ x → x < b ∨ b + p.size arg.type ≤ x → hp'.mem x = hp.mem x) ∧
      hp.next ≤ hp'.next := by
  obtain ⟨f, get, set, hf, -, hs⟩ := hv.overloads
  obtain ⟨h1, v, hwr, hst, -⟩ := C67_temporary_stored p hp arg b harg hcap hokx
  have hl := hst.live
  have hg := hst.grow
  have hfr := hst.fresh
  obtain ⟨l1, l2⟩ := hl
  obtain ⟨o1, o2⟩ := hok
  obtain ⟨h2, e1, e2, e3, e4⟩ := assignObj_ok h1 (p.size ty) a v.addr ⟨o1, by omega⟩ ⟨l1, by omega⟩
  refine ⟨h2, call_setter p fuel hp h1 h2 t name f ty get set a want (.native arg b) v hf (hs rfl) hw
    (match_cref p ty arg htv hxv hch hconv) (by simp [Prog.toHandles, hwr])
    (by rw [hst.arg]; exact hch) e1, fun i hi => ?_, fun x hx h1 h2 => ?_, by omega⟩
  · rw [e3 i hi, hst.same i (by omega)]
  · rw [e4 x h1, hst.frame x hx h2]

/-- C77. What is written is what is read: after a write, a read obtains the contents of the object written. -/
theorem C77_write_then_read (p : Prog) (fuel fuel' : Nat) (hp : Heap) (t : Tree Fn) (name : Name) (ty : Ty)
    (a : Nat) (want : Arg) (x : Actual) (hv : Variable p t name ty a true) (hok : hp.Ok a (p.size ty))
    (hw : want.type = p.w.voidT) (hx : ∀ arg b, x = .native arg b → arg.ref = .lvalue)
    (hxv : x.arg.type ≠ p.w.valueT) (hch : p.w.env.child x.arg.type ty = true)
    (hconv : p.w.env.conv x.arg.type ty = false) (hokx : hp.Ok x.handle.addr (p.size ty))
    (hplain : PlainCopy p ty) (hself : p.w.env.conv ty ty = false) :
    ∃ hp' hp'' b, p.callGlobal (fuel + 1) hp t name want [x] = .ok (hp', none) ∧
      p.callGlobal (fuel' + 1) hp' t name ty.val [] = .ok (hp'', some (.obj b true)) ∧
      ∀ i < p.size ty, hp''.mem (b + i) = hp.mem (x.handle.addr + i) := by
  obtain ⟨hp', h1, h2⟩ := C77_write p fuel hp t name ty a want x hv hok hw hplain.notValue hx hxv hch hconv hokx
  obtain ⟨hp'', b, h3, h4⟩ := C77_read p fuel' hp' t name ty ty a true hv ⟨hok.1, Nat.le_trans hok.2 h2.grow⟩
    hplain.notVoid hplain.notValue hplain.movable hplain (child_refl p.w ty) hself (Nat.le_refl _)
  exact ⟨hp', hp'', b, h1, h3, fun i hi => by rw [h4.same i hi, h2.same i hi]⟩

theorem select_none (e : Env) (want : Arg) (args : List Arg) (o : Overloads)
    (h : ∀ g ∈ o, g.test e want args = .none) : Overloads.select e o want args = .error .err := by
  rw [C27_select]
  have : choose (fun f => f.test e want args) o = none := by
    unfold choose
    have h1 : (o.filter fun f => f.test e want args = .exact) = [] := by
      rw [List.filter_eq_nil_iff]; intro g hg; simp [h g hg]
    have h2 : (o.filter fun f => f.test e want args = .part) = [] := by
      rw [List.filter_eq_nil_iff]; intro g hg; simp [h g hg]
    rw [h1, h2]
  rw [this]

/-- C77. A const variable cannot be written, and no variable takes more than one argument: such calls raise,
    whatever the arguments are. -/
theorem C77_const_refused (p : Prog) (fuel : Nat) (hp : Heap) (t : Tree Fn) (name : Name) (ty : Ty) (a : Nat)
    (k : Bool) (want : Arg) (as : List Actual) (hv : Variable p t name ty a k) (has : as ≠ [])
    (h : k = false ∨ 2 ≤ as.length) :
    p.callGlobal fuel hp t name want as = .error .err := by
  obtain ⟨f, get, set, hf, -, -⟩ := hv.overloads
  unfold Prog.callGlobal Prog.callOv
  rw [hf]
  simp only
  rw [select_none]
  intro g hg
  rw [List.mem_cons] at hg
  rcases hg with rfl | hg
  · exact getter_test_none _ _ _ _ _ _ (by simpa using has)
  · rcases h with rfl | h
    · simp at hg
    · exact rest_none _ f ty set _ k _ (by simp only [List.length_map]; omega) g hg

/-- C77. An argument that is neither of the variable's type nor derived from it is refused: a write binds a
    reference, so that not even a conversion is made. -/
theorem C77_unrelated_refused (p : Prog) (fuel : Nat) (hp : Heap) (t : Tree Fn) (name : Name) (ty : Ty) (a : Nat)
    (k : Bool) (want : Arg) (x : Actual) (hv : Variable p t name ty a k) (htv : ty ≠ p.w.valueT)
    (hxv : x.arg.type ≠ p.w.valueT) (hne : x.arg.type ≠ ty)
    (hch : p.w.env.child x.arg.type ty = false ∨ p.w.env.conv x.arg.type ty = true) :
    p.callGlobal fuel hp t name want [x] = .error .err := by
  obtain ⟨f, get, set, hf, -, -⟩ := hv.overloads
  unfold Prog.callGlobal Prog.callOv
  rw [hf]
  simp only [List.map_cons, List.map_nil]
  rw [select_none]
  intro g hg
  rw [List.mem_cons] at hg
  rcases hg with rfl | hg
  · exact getter_test_none _ _ _ _ _ _ (by simp)
  cases k with
  | false => simp at hg
  | true =>
    simp only [if_true, List.mem_cons, List.not_mem_nil, or_false] at hg
    subst hg
    have hm : isConvertibleTo p.w.env x.arg ty.cref = .none := by
      generalize x.arg = xa at hxv hne hch
      obtain ⟨u, r, c⟩ := xa
      simp only at hxv hne hch
      unfold Ty.cref
      rw [convertible_static _ _ _ _ _ _ _ (not_dynamic _ u ty hxv htv _ _ _ _)]
      rw [if_neg (fun h => hne h.1)]
      rcases hch with hch | hch
      · simp [hch]
      · simp [hch]
    unfold Fn.test
    have : (setter p.w.env f ty set).args = [ty.cref] := rfl
    rw [this, testArguments_single, hm]
    generalize testReturn p.w.env want (setter p.w.env f ty set).ret = m
    cases m <;> rfl

/-- C77. No reference into a variable is handed out, const or not: asking for one raises. -/
theorem C77_no_reference (p : Prog) (fuel : Nat) (hp : Heap) (t : Tree Fn) (name : Name) (ty : Ty) (a : Nat)
    (k : Bool) (want : Arg) (hv : Variable p t name ty a k) (hty : ty ≠ p.w.voidT) (htv : ty ≠ p.w.valueT)
    (hr : want.ref = .lvalue) (hwo : want.type ≠ p.w.voidT) (hwv : want.type ≠ p.w.valueT) :
    p.callGlobal fuel hp t name want [] = .error .err := by
  obtain ⟨f, get, set, hf, -, -⟩ := hv.overloads
  unfold Prog.callGlobal Prog.callOv
  rw [hf]
  simp only [List.map_nil]
  rw [select_none]
  intro g hg
  rw [List.mem_cons] at hg
  rcases hg with rfl | hg
  · rw [getter_test]
    obtain ⟨w, r, c⟩ := want
    simp only at hr hwo hwv
    subst hr
    cases c with
    | true => exact C25_no_dangling_const_ref _ _ _ hwo rfl rfl (by simp [Ty.val])
    | false =>
      have hm : isConvertibleTo p.w.env ty.val ⟨w, .lvalue, false⟩ = .none := by
        unfold Ty.val
        rw [convertible_static _ _ _ _ _ _ _ (not_dynamic _ ty w htv hwv _ _ _ _)]
        simp
      unfold testReturn
      rw [if_neg (show ¬ ((⟨w, .lvalue, false⟩ : Arg).type = p.w.env.voidT) from hwo),
        if_neg (show ¬ (ty.val.type = p.w.env.voidT) from hty), hm]
      simp
  · exact rest_none _ f ty set _ k _ (by simp) g hg

/-- C77. A name that is not registered cannot be called. -/
theorem C77_unknown (p : Prog) (fuel : Nat) (hp : Heap) (t : Tree Fn) (ht : WF t) (cs : List Name) (f : Name)
    (hc : ProperPath (cs ++ [f])) (hn : qualified (cs ++ [f]) ∉ functionsAll t) (want : Arg) (as : List Actual) :
    p.callGlobal fuel hp t (qualified (cs ++ [f])) want as = .error .err := by
  rw [mem_functionsAll_qualified ht hc] at hn
  unfold Prog.callGlobal
  rw [function_eq t cs f hc]
  cases hf : findFn (fnsAt t cs) f with
  | none => rfl
  | some o => rw [hf] at hn; simp at hn

/-- C77. Calling a global function that was reflected under a new name is calling that function. -/
theorem C77_function_called (p : Prog) (fuel : Nat) (hp : Heap) (t : Tree Fn) (ht : WF t) (cs : List Name)
    (f : Name) (hc : ProperPath (cs ++ [f])) (hn : qualified (cs ++ [f]) ∉ functionsAll t) (ret : Arg)
    (args : List Arg) (body : Nat) (want : Arg) (as : List Actual) :
    p.callGlobal fuel hp (globalFn p.w.env t (qualified (cs ++ [f])) ret args body).1 (qualified (cs ++ [f])) want as =
      p.callFn fuel hp (Fn.make f ret args body) want as := by
  obtain ⟨h1, -, -⟩ := C77_function_declared p.w.env t ht cs f hc ret args body [] (.inr ⟨rfl, hn⟩)
  obtain ⟨-, h1⟩ := h1 (by simp)
  unfold Prog.callGlobal Prog.callOv
  rw [h1]
  simp only [List.nil_append]
  by_cases ht : (Fn.make f ret args body).test p.w.env want (as.map Actual.arg) = .none
  · rw [select_none p.w.env want _ _ (by simpa using ht), C68_refused p fuel hp _ want as ht]
  · have := select_sole p.w.env want (as.map Actual.arg) [] [] _ ht (by simp)
    simp only [List.nil_append] at this
    rw [this]

/-! ### the hypotheses are met -/

namespace GlobalsDemo
open ValueDemo

/-- the demo program with a global variable of type `T` at address 3: bodies 20 and 21 read and write it -/
def prog : Prog :=
  { ValueDemo.prog with
    impl := fun n => if n = 20 then getBody ValueDemo.prog 2 3 else if n = 21 then setBody ValueDemo.prog 2 3
      else ValueDemo.prog.impl n }

def path : List Name := ["ns".toList]
def var : Name := "x".toList

theorem proper : ProperPath (path ++ [var]) := by
  refine ⟨by simp, ?_⟩
  intro c hc
  simp only [path, var, List.cons_append, List.nil_append, List.mem_cons, List.not_mem_nil, or_false] at hc
  rcases hc with rfl | rfl
  · exact ⟨((head_ok (nm "ns") _ []).1 (by decide)).1, by decide⟩
  · exact ⟨((head_ok (nm "x") _ []).1 (by decide)).1, by decide⟩

theorem fresh : qualified (path ++ [var]) ∉ functionsAll (Tree.root : Tree Fn) := by
  simp [Tree.root, functionsAll, functionsAllKids]

def tree : Tree Fn := (globalVar prog.w.env Tree.root (qualified (path ++ [var])) 2 20 21).1

theorem isVar : Variable prog tree (qualified (path ++ [var])) 2 3 true :=
  (C77_declares prog Tree.root WF_root path var proper fresh 2 20 21 3 rfl rfl).1

theorem plainT : PlainCopy prog 2 := by
  refine (C32_plumbed prog 2 ⟨true, true, true, true, true⟩ [] (by decide) (by decide) (by decide)
    rfl rfl rfl (by decide) (by decide) (by simp) ?_ ?_).1
  · intro hp a m h; rfl
  · intro hp a m h; rfl

/-- `ns::x` is written from the object at 1 and read back -/
example : ∃ hp' hp'' b,
    prog.callGlobal 3 heap tree (qualified (path ++ [var])) prog.voidArg [.dyn obj] = .ok (hp', none) ∧
    prog.callGlobal 3 hp' tree (qualified (path ++ [var])) (Ty.val 2) [] = .ok (hp'', some (.obj b true)) ∧
    ∀ i < prog.size 2, hp''.mem (b + i) = heap.mem (obj.addr + i) :=
  C77_write_then_read prog 2 2 heap tree _ 2 3 prog.voidArg (.dyn obj) isVar (by decide) rfl
    (fun _ _ h => by cases h) (by decide) (by decide) (by decide) (by decide) plainT (by decide)

/-- a temporary of the derived class is written to it -/
example : ∃ hp', prog.callGlobal 3 heap tree (qualified (path ++ [var])) prog.voidArg
    [.native ⟨3, .rvalue, false⟩ 1] = .ok (hp', none) ∧ (∀ i < 2, hp'.mem (3 + i) = heap.mem (1 + i)) := by
  obtain ⟨hp', h1, h2, -⟩ := C77_write_temporary prog 2 heap tree _ 2 3 1 prog.voidArg ⟨3, .rvalue, false⟩ isVar
    (by decide) rfl (by decide) (by decide) (.inl rfl) (by decide) (by decide) (by decide) (by decide) (by decide)
  exact ⟨hp', h1, h2⟩

example : ∃ hp' v, prog.callGlobal 3 heap tree (qualified (path ++ [var])) prog.valueArg [] =
    .ok (hp', some (.val v)) ∧ v.arg = Ty.lref 2 := by
  obtain ⟨hp', v, h1, h2, -⟩ := C77_read_value prog 2 heap tree _ 2 3 true isVar (by decide) (by decide)
    (by decide) (by decide) rfl
  exact ⟨hp', v, h1, h2⟩

/-- an unrelated object, a reference and a second declaration are refused -/
example : prog.callGlobal 3 heap tree (qualified (path ++ [var])) prog.voidArg [.native ⟨4, .lvalue, false⟩ 1] =
      .error .err ∧
    prog.callGlobal 3 heap tree (qualified (path ++ [var])) (Ty.cref 2) [] = .error .err ∧
    (globalVar prog.w.env tree (qualified (path ++ [var])) 2 20 21).2 = .error .err := by
  refine ⟨C77_unrelated_refused prog 3 heap tree _ 2 3 true _ _ isVar (by decide) (by decide) (by decide)
      (.inl (by decide)),
    C77_no_reference prog 3 heap tree _ 2 3 true _ isVar (by decide) (by decide) rfl (by decide) (by decide), ?_⟩
  have hd := C77_declared prog.w.env Tree.root WF_root path var proper 2 20 21 [] (.inr ⟨rfl, fresh⟩) (by simp)
  have hw : WF tree := globalVar_WF _ _ WF_root proper 2 20 21
  exact (C77_taken prog.w.env tree hw path var proper 2 20 21 _ hd.2.1 ⟨_, List.mem_cons_self, rfl, rfl⟩).1

/-- a setter declared first: the variable is declared only half-way -/
example : (globalVar prog.w.env (addGlobal prog.w.env Tree.root (qualified (path ++ [var])) (Ty.val 0) [Ty.cref 2] 21).1
    (qualified (path ++ [var])) 2 20 21).2 = .error .err := by
  obtain ⟨-, h2, -⟩ := addGlobal_ok prog.w.env Tree.root WF_root proper (Ty.val 0) [Ty.cref 2] 21 []
    (.inr ⟨rfl, fresh⟩) (by simp)
  exact (C77_half_declared prog.w.env _ (addGlobal_WF prog.w.env Tree.root WF_root proper _ _ 21) path var proper
    2 20 21 _ h2 (by simp [Fn.make]) ⟨_, List.mem_cons_self, rfl, rfl⟩).1

end GlobalsDemo

end Reflect

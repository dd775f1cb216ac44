import Verif.Model.Value
import Verif.Props.TypeGraph
/-
  Helper lemmas about values and casts.
-/
namespace Reflect

/-! ### choosing a constructor for a value -/

theorem test_none_of_length (e : Env) (f : Fn) (ret : Arg) (args : List Arg)
    (h : f.args.length ≠ args.length) : f.test e ret args = .none := by
  unfold Fn.test testArguments
  rw [if_pos (fun hh => h hh.symm)]
  unfold combine; simp

/-- a function that returns an object, called for a `Value`, is graded by its only argument -/
theorem test_ctor (e : Env) (f : Fn) (u a : Arg) (hvv : e.valueT ≠ e.voidT)
    (hret : f.ret.type ≠ e.voidT) (hret' : f.ret.type ≠ e.valueT) (hargs : f.args = [u]) :
    f.test e ⟨e.valueT, .copy, false⟩ [a] = isConvertibleTo e a u := by
  have h2 : isConvertibleTo e f.ret ⟨e.valueT, .copy, false⟩ = .exact := by
    unfold isConvertibleTo
    by_cases h : f.ret = (⟨e.valueT, .copy, false⟩ : Arg)
    · rw [if_pos h]
    · rw [if_neg h, if_pos]; simp [hret']
  unfold Fn.test testReturn testArguments
  rw [hargs, if_neg (show ¬ ((⟨e.valueT, .copy, false⟩ : Arg).type = e.voidT) from hvv), if_neg hret, h2]
  cases hm : isConvertibleTo e a u <;> simp [testArgumentsLoop, hm, combine, Arg.isConstRef]

/-- an argument against `const t&` -/
theorem match_constref (e : Env) (u t : Ty) (r : RefType) (k : Bool) (hu : u ≠ e.valueT) (ht : t ≠ e.valueT)
    (hconv : e.conv u t = false) (hch : e.child u t = true) :
    isConvertibleTo e ⟨u, r, k⟩ ⟨t, .lvalue, true⟩ =
      if r = .lvalue ∧ k = true then .exact else .part := by
  by_cases he : (⟨u, r, k⟩ : Arg) = ⟨t, .lvalue, true⟩
  · have : r = .lvalue ∧ k = true := by simp at he; exact ⟨he.2.1, he.2.2⟩
    unfold isConvertibleTo
    rw [if_pos he, if_pos this]
  · unfold isConvertibleTo
    rw [if_neg he, if_neg (by simp [hu, ht]), hconv]
    cases r <;> cases k <;> simp [testConstConversion, hch]

/-- an argument against `t&&` -/
theorem match_rref (e : Env) (u t : Ty) (r : RefType) (k : Bool) (hu : u ≠ e.valueT) (ht : t ≠ e.valueT)
    (hconv : e.conv u t = false) (hch : e.child u t = true) :
    isConvertibleTo e ⟨u, r, k⟩ ⟨t, .rvalue, false⟩ =
      if r = .rvalue ∧ k = false then .exact else .none := by
  by_cases he : (⟨u, r, k⟩ : Arg) = ⟨t, .rvalue, false⟩
  · have : r = .rvalue ∧ k = false := by simp at he; exact ⟨he.2.1, he.2.2⟩
    unfold isConvertibleTo
    rw [if_pos he, if_pos this]
  · unfold isConvertibleTo
    rw [if_neg he, if_neg (by simp [hu, ht]), hconv]
    cases r <;> cases k <;> simp [testConstConversion, hch]

/-- the loop keeps what it has over functions that are not accepted -/
theorem selectLoop_skip (e : Env) (ret : Arg) (args : List Arg) (pre rest : Overloads)
    (best : Option Fn) (amb : Bool) (h : ∀ g ∈ pre, g.test e ret args = .none) :
    Overloads.selectLoop e ret args (pre ++ rest) best amb =
      Overloads.selectLoop e ret args rest best amb := by
  induction pre with
  | nil => rfl
  | cons g gs ih =>
    have hg := h g List.mem_cons_self
    rw [List.cons_append, Overloads.selectLoop]
    simp only [hg, if_true]
    exact ih fun g hg => h g (List.mem_cons_of_mem _ hg)

/-- the only accepted function is chosen -/
theorem select_sole (e : Env) (ret : Arg) (args : List Arg) (pre post : Overloads) (f : Fn)
    (hf : f.test e ret args ≠ .none) (h : ∀ g ∈ pre ++ post, g.test e ret args = .none) :
    Overloads.select e (pre ++ f :: post) ret args = .ok f := by
  unfold Overloads.select
  rw [selectLoop_skip e ret args pre _ none false fun g hg => h g (by simp [hg])]
  have h2 : ∀ best amb, Overloads.selectLoop e ret args post best amb = (best, amb) := by
    intro best amb
    have := selectLoop_skip e ret args post [] best amb fun g hg => h g (by simp [hg])
    rw [List.append_nil] at this
    rw [this]; rfl
  rw [Overloads.selectLoop]
  cases hm : f.test e ret args with
  | none => exact absurd hm hf
  | part => simp [h2]
  | exact => simp

/-- the only exact function is chosen -/
theorem select_exact (e : Env) (ret : Arg) (args : List Arg) (pre post : Overloads) (f : Fn)
    (hf : f.test e ret args = .exact) (h : ∀ g ∈ pre, g.test e ret args ≠ .exact) :
    Overloads.select e (pre ++ f :: post) ret args = .ok f := by
  unfold Overloads.select
  have : ∀ (pre : Overloads) best amb, (∀ g ∈ pre, g.test e ret args ≠ .exact) →
      Overloads.selectLoop e ret args (pre ++ f :: post) best amb = (some f, false) := by
    intro pre
    induction pre with
    | nil => intro best amb _; rw [List.nil_append, Overloads.selectLoop]; simp [hf]
    | cons g gs ih =>
      intro best amb hg
      have h1 := hg g List.mem_cons_self
      have ih' := fun best amb => ih best amb fun g hg' => hg g (List.mem_cons_of_mem _ hg')
      rw [List.cons_append, Overloads.selectLoop]
      simp only [h1, if_false]
      split
      · exact ih' _ _
      · split <;> exact ih' _ _
  rw [this pre none false h]

/-! ### memory -/

theorem copyObj_ok (hp : Heap) (n : Nat) (a : Nat) (h : hp.Ok a n) :
    ∃ hp', hp.copyObj n a = .ok (hp', hp.next) ∧ hp'.next = hp.next + n + 1 ∧
      (∀ i < n, hp'.mem (hp.next + i) = hp.mem (a + i)) ∧ (∀ x < hp.next, hp'.mem x = hp.mem x) := by
  refine ⟨_, by unfold Heap.copyObj; rw [if_pos h], rfl, ?_, ?_⟩
  · intro i hi
    simp only
    rw [if_pos ⟨by omega, by omega⟩]
    congr 1; omega
  · intro x hx
    simp only
    rw [if_neg (by omega)]

theorem moveObj_ok (hp : Heap) (m : Nat → Nat) (n : Nat) (a : Nat) (h : hp.Ok a n) :
    ∃ hp', hp.moveObj m n a = .ok (hp', hp.next) ∧ hp'.next = hp.next + n + 1 ∧
      (∀ i < n, hp'.mem (hp.next + i) = hp.mem (a + i)) ∧
      (∀ x < hp.next, x < a ∨ a + n ≤ x → hp'.mem x = hp.mem x) := by
  refine ⟨_, by unfold Heap.moveObj; rw [if_pos h], rfl, ?_, ?_⟩
  · intro i hi
    simp only
    rw [if_pos ⟨by omega, by omega⟩]
    congr 1; omega
  · intro x hx hx'
    simp only
    rw [if_neg (by omega), if_neg (by omega)]

theorem moveObj_source (hp : Heap) (m : Nat → Nat) (n : Nat) (a : Nat) (h : hp.Ok a n) :
    ∃ hp', hp.moveObj m n a = .ok (hp', hp.next) ∧ ∀ i < n, hp'.mem (a + i) = m (hp.mem (a + i)) := by
  refine ⟨_, by unfold Heap.moveObj; rw [if_pos h], ?_⟩
  intro i hi
  obtain ⟨h1, h2⟩ := h
  simp only
  rw [if_neg (by omega), if_pos ⟨by omega, by omega⟩]

/-- the object of `n` cells at `a'` in `hp'` is a fresh one with the contents of the one at `a` in
    `hp`, and nothing that existed in `hp` differs in `hp'` -/
structure FreshCopy (hp hp' : Heap) (n : Nat) (a a' : Nat) : Prop where
  fresh : hp.next ≤ a'
  ok : hp'.Ok a' n
  same : ∀ i < n, hp'.mem (a' + i) = hp.mem (a + i)
  frame : ∀ x < hp.next, hp'.mem x = hp.mem x
  grow : hp.next ≤ hp'.next

theorem copyObj_fresh (hp : Heap) (n : Nat) (a : Nat) (h : hp.Ok a n) :
    ∃ hp' a', hp.copyObj n a = .ok (hp', a') ∧ FreshCopy hp hp' n a a' := by
  obtain ⟨hp', h1, h2, h3, h4⟩ := copyObj_ok hp n a h
  obtain ⟨h5, h6⟩ := h
  exact ⟨hp', hp.next, h1, Nat.le_refl _, ⟨by omega, by omega⟩, h3, h4, by omega⟩

theorem FreshCopy.trans {h0 h1 h2 : Heap} {n : Nat} {a a1 a2 : Nat} (x : FreshCopy h0 h1 n a a1)
    (y : FreshCopy h1 h2 n a1 a2) : FreshCopy h0 h2 n a a2 := by
  refine ⟨Nat.le_trans x.grow y.fresh, y.ok, ?_, ?_, Nat.le_trans x.grow y.grow⟩
  · intro i hi; rw [y.same i hi, x.same i hi]
  · intro z hz; rw [y.frame z (Nat.lt_of_lt_of_le hz x.grow), x.frame z hz]

/-- moving out of an object made after `h0` does not disturb `h0` -/
theorem move_fresh {h0 h1 : Heap} {n : Nat} {a a1 : Nat} (m : Nat → Nat)
    (x : FreshCopy h0 h1 n a a1) :
    ∃ h2 a2, h1.moveObj m n a1 = .ok (h2, a2) ∧ FreshCopy h0 h2 n a a2 := by
  obtain ⟨h2, e1, e2, e3, e4⟩ := moveObj_ok h1 m n a1 x.ok
  obtain ⟨o1, o2⟩ := x.ok
  have := x.fresh
  have := x.grow
  refine ⟨h2, h1.next, e1, x.grow, ⟨by omega, by omega⟩, ?_, ?_, by omega⟩
  · intro i hi; rw [e3 i hi, x.same i hi]
  · intro z hz; rw [e4 z (by omega) (by omega), x.frame z hz]

/-! ### plain copies -/

/-- `f` is the copy constructor of `t`: it takes a `const t&`, returns a `t`, and copies -/
structure IsCopyCtor (p : Prog) (t : Ty) (f : Fn) : Prop where
  args : f.args = [⟨t, .lvalue, true⟩]
  ret : f.ret = ⟨t, .copy, false⟩
  body : ∀ hp a m, hp.Ok a (p.size t) → p.impl f.body hp [.obj a m] =
    (hp.copyObj (p.size t) a).map fun r => (r.1, .obj r.2)

/-- `f` is the move constructor of `t`: it takes a `t&&`, returns a `t`, and moves -/
structure IsMoveCtor (p : Prog) (t : Ty) (f : Fn) : Prop where
  args : f.args = [⟨t, .rvalue, false⟩]
  ret : f.ret = ⟨t, .copy, false⟩
  body : ∀ hp a m, hp.Ok a (p.size t) → p.impl f.body hp [.obj a m] =
    (hp.moveObj (p.moved t) (p.size t) a).map fun r => (r.1, .obj r.2)

/-- `f` cannot be given an object of type `t` or of a type derived from it, or only together with other
    arguments -/
def NotFor (p : Prog) (t : Ty) (f : Fn) : Prop :=
  f.args.length ≠ 1 ∨ ∀ a : Arg, p.w.env.child a.type t = true → f.test p.w.env p.valueArg [a] = .none

/-- `t` is copied by its copy constructor: the constructors of `t` are its copy constructor, perhaps a
    move constructor, and others that cannot be given a `t`; in any order. -/
structure PlainCopy (p : Prog) (t : Ty) : Prop where
  notVoid : t ≠ p.w.voidT
  notValue : t ≠ p.w.valueT
  distinct : p.w.valueT ≠ p.w.voidT
  copiable : p.w.isCopiable t = true
  copyable : (p.caps t).copyConstructible = true
  movable : (p.caps t).moveConstructible = true
  ctor : ∃ pre f post, p.w.functionF p.w.fuel t (p.w.ty t).id = .ok (pre ++ f :: post) ∧
    IsCopyCtor p t f ∧ ∀ g ∈ pre ++ post, IsMoveCtor p t g ∨ NotFor p t g

/-- `t` is moved by its move constructor: the constructors of `t` are its move constructor, perhaps a
    copy constructor, and others that cannot be given a `t`; in any order. -/
structure PlainMove (p : Prog) (t : Ty) : Prop where
  notVoid : t ≠ p.w.voidT
  notValue : t ≠ p.w.valueT
  distinct : p.w.valueT ≠ p.w.voidT
  isMovable : p.w.isMovable t = true
  movable : (p.caps t).moveConstructible = true
  ctor : ∃ pre f post, p.w.functionF p.w.fuel t (p.w.ty t).id = .ok (pre ++ f :: post) ∧
    IsMoveCtor p t f ∧ ∀ g ∈ pre ++ post, IsCopyCtor p t g ∨ NotFor p t g

/-- a value that a by-value parameter of type `t`, or `Value::copy`, copies: its type is `t` or derives
    from it, without a conversion operator to `t`, and it is not an `rvalue()` of a mutable object -/
structure Copied (p : Prog) (a : Arg) (t : Ty) : Prop where
  notValue : a.type ≠ p.w.valueT
  derives : p.w.env.child a.type t = true
  noConverter : p.w.env.conv a.type t = false
  notMoved : ¬ (a.ref = .rvalue ∧ a.isConst = false)

/-- a value that a by-value parameter of type `t` is moved from: an `rvalue()` of a mutable object -/
structure MovedFrom (p : Prog) (a : Arg) (t : Ty) : Prop where
  notValue : a.type ≠ p.w.valueT
  derives : p.w.env.child a.type t = true
  noConverter : p.w.env.conv a.type t = false
  isMoved : a.ref = .rvalue ∧ a.isConst = false

theorem child_refl (w : World) (t : Ty) : w.env.child t t = true := by
  simp [World.env, World.fuel, World.childF]

section
variable {p : Prog} {t : Ty}

theorem test_copyCtor {f : Fn} (hv : t ≠ p.w.voidT) (hd : t ≠ p.w.valueT) (hvd : p.w.valueT ≠ p.w.voidT)
    (hf : IsCopyCtor p t f) (a : Arg) (hav : a.type ≠ p.w.valueT) (hch : p.w.env.child a.type t = true)
    (hconv : p.w.env.conv a.type t = false) :
    f.test p.w.env p.valueArg [a] = if a.ref = .lvalue ∧ a.isConst = true then .exact else .part := by
  have h1 := test_ctor p.w.env f ⟨t, .lvalue, true⟩ a hvd (by rw [hf.ret]; exact hv) (by rw [hf.ret]; exact hd)
    hf.args
  obtain ⟨u, r, k⟩ := a
  rw [match_constref p.w.env u t r k hav hd hconv hch] at h1
  exact h1

theorem test_moveCtor {f : Fn} (hv : t ≠ p.w.voidT) (hd : t ≠ p.w.valueT) (hvd : p.w.valueT ≠ p.w.voidT)
    (hf : IsMoveCtor p t f) (a : Arg) (hav : a.type ≠ p.w.valueT) (hch : p.w.env.child a.type t = true)
    (hconv : p.w.env.conv a.type t = false) :
    f.test p.w.env p.valueArg [a] = if a.ref = .rvalue ∧ a.isConst = false then .exact else .none := by
  have h1 := test_ctor p.w.env f ⟨t, .rvalue, false⟩ a hvd (by rw [hf.ret]; exact hv) (by rw [hf.ret]; exact hd)
    hf.args
  obtain ⟨u, r, k⟩ := a
  rw [match_rref p.w.env u t r k hav hd hconv hch] at h1
  exact h1

theorem test_notFor {f : Fn} (hf : NotFor p t f) (a : Arg) (hch : p.w.env.child a.type t = true) :
    f.test p.w.env p.valueArg [a] = .none := by
  rcases hf with h | h
  · exact test_none_of_length _ _ _ _ (by simpa using h)
  · exact h a hch

/-- running the copy constructor on a value whose type derives from `t` -/
theorem run_copyCtor {f : Fn} (hmov : (p.caps t).moveConstructible = true) (hf : IsCopyCtor p t f)
    (hp : Heap) (v : Handle) (fuel : Nat) (hok : hp.Ok v.addr (p.size t))
    (hch : p.w.env.child v.arg.type t = true) :
    ∃ hp' a', p.run (fuel + 1) hp f [v] = .ok (hp', ⟨⟨t, .lvalue, false⟩, a', some a'⟩) ∧
      FreshCopy hp hp' (p.size t) v.addr a' := by
  obtain ⟨h1, a1, e1, x1⟩ := copyObj_fresh hp (p.size t) v.addr hok
  obtain ⟨h2, a2, e2, x2⟩ := move_fresh (p.moved t) x1
  refine ⟨h2, a2, ?_, x2⟩
  have hne : (⟨t, .lvalue, true⟩ : Arg) ≠ p.valueArg := by simp [Prog.valueArg]
  have hb : p.bind (p.run fuel) hp [v] f.args = .ok (hp, [.obj v.addr false]) := by
    rw [hf.args]
    simp only [Prog.bind, Prog.castTo, if_neg hne, Prog.castV, hch, Prog.castRet, Handle.as]
    simp [hch]
  simp only [Prog.run, hb, hf.body hp v.addr false hok, e1, Except.map, Prog.wrapRet, Prog.wrap, hf.ret,
    Prog.store, hmov]
  simp [e2]

/-- the object of `n` cells at `a'` in `hp'` is a fresh one with the contents of the one at `a` in `hp`, which
    is moved from; nothing else that existed in `hp` differs in `hp'` -/
structure FreshMove (m : Nat → Nat) (hp hp' : Heap) (n : Nat) (a a' : Nat) : Prop where
  fresh : hp.next ≤ a'
  ok : hp'.Ok a' n
  same : ∀ i < n, hp'.mem (a' + i) = hp.mem (a + i)
  moved : ∀ i < n, hp'.mem (a + i) = m (hp.mem (a + i))
  frame : ∀ x < hp.next, x < a ∨ a + n ≤ x → hp'.mem x = hp.mem x
  grow : hp.next ≤ hp'.next

theorem moveObj_fresh (hp : Heap) (m : Nat → Nat) (n : Nat) (a : Nat) (h : hp.Ok a n) :
    ∃ hp' a', hp.moveObj m n a = .ok (hp', a') ∧ FreshMove m hp hp' n a a' := by
  obtain ⟨hp', h1, h2, h3, h4⟩ := moveObj_ok hp m n a h
  obtain ⟨hp'', h5, h6⟩ := moveObj_source hp m n a h
  rw [h1] at h5
  simp only [Except.ok.injEq, Prod.mk.injEq, and_true] at h5
  subst h5
  obtain ⟨h7, h8⟩ := h
  exact ⟨hp', hp.next, h1, Nat.le_refl _, ⟨by omega, by omega⟩, h3, h6, h4, by omega⟩

/-- copying what was moved out -/
theorem FreshMove.copy {m : Nat → Nat} {h0 h1 h2 : Heap} {n a a1 a2 : Nat} (h : h0.Ok a n)
    (x : FreshMove m h0 h1 n a a1) (y : FreshCopy h1 h2 n a1 a2) : FreshMove m h0 h2 n a a2 := by
  have := h.2
  have g := x.grow
  refine ⟨Nat.le_trans x.grow y.fresh, y.ok, ?_, ?_, ?_, Nat.le_trans x.grow y.grow⟩
  · intro i hi; rw [y.same i hi, x.same i hi]
  · intro i hi; rw [y.frame _ (by omega), x.moved i hi]
  · intro z hz hz'; rw [y.frame z (by omega), x.frame z hz hz']

/-- moving again what was moved out -/
theorem FreshMove.again {m : Nat → Nat} {h0 h1 : Heap} {n a a1 : Nat} (h : h0.Ok a n) (m' : Nat → Nat)
    (x : FreshMove m h0 h1 n a a1) :
    ∃ h2 a2, h1.moveObj m' n a1 = .ok (h2, a2) ∧ FreshMove m h0 h2 n a a2 := by
  obtain ⟨h2, e1, e2, e3, e4⟩ := moveObj_ok h1 m' n a1 x.ok
  obtain ⟨o1, o2⟩ := x.ok
  have := x.fresh
  have := x.grow
  have := h.2
  refine ⟨h2, h1.next, e1, x.grow, ⟨by omega, by omega⟩, ?_, ?_, ?_, by omega⟩
  · intro i hi; rw [e3 i hi, x.same i hi]
  · intro i hi; rw [e4 _ (by omega) (by omega), x.moved i hi]
  · intro z hz hz'; rw [e4 z (by omega) (by omega), x.frame z hz hz']

/-- running the move constructor on a value whose type derives from `t` -/
theorem run_moveCtor {f : Fn} (hmov : (p.caps t).moveConstructible = true) (hmv : p.w.isMovable t = true)
    (hf : IsMoveCtor p t f) (hp : Heap) (v : Handle) (fuel : Nat) (hok : hp.Ok v.addr (p.size t))
    (hch : p.w.env.child v.arg.type t = true) :
    ∃ hp' a', p.run (fuel + 1) hp f [v] = .ok (hp', ⟨⟨t, .lvalue, false⟩, a', some a'⟩) ∧
      FreshMove (p.moved t) hp hp' (p.size t) v.addr a' := by
  obtain ⟨h1, a1, e1, x1⟩ := moveObj_fresh hp (p.moved t) (p.size t) v.addr hok
  obtain ⟨h2, a2, e2, x2⟩ := x1.again hok (p.moved t)
  obtain ⟨h3, a3, e3, x3⟩ := x2.again hok (p.moved t)
  refine ⟨h3, a3, ?_, x3⟩
  have hne : (⟨t, .rvalue, false⟩ : Arg) ≠ p.valueArg := by simp [Prog.valueArg]
  have hb : p.bind (p.run fuel) hp [v] f.args = .ok (h1, [.obj a1 true]) := by
    rw [hf.args]
    simp only [Prog.bind, Prog.castTo, if_neg hne, Prog.castV, hmv, hch, Prog.castRet, Handle.as, hmov, if_true,
      e1]
  simp only [Prog.run, hb, hf.body h1 a1 true x1.ok, e2, Except.map, Prog.wrapRet, Prog.wrap, hf.ret,
    Prog.store, hmov]
  simp [e3]

/-- a plainly copied type constructs a copy of a value that is not moved from -/
theorem construct_plain (hp : Heap) (v : Handle) (fuel : Nat)
    (h : PlainCopy p t) (hok : hp.Ok v.addr (p.size t)) (hc : Copied p v.arg t) :
    ∃ hp' a', p.construct (p.run (fuel + 1)) hp t v =
      .ok (hp', ⟨⟨t, .lvalue, false⟩, a', some a'⟩) ∧ FreshCopy hp hp' (p.size t) v.addr a' := by
  obtain ⟨pre, f, post, hf, hcopy, hother⟩ := h.ctor
  obtain ⟨hp', a', e, x⟩ := run_copyCtor h.movable hcopy hp v fuel hok hc.derives
  refine ⟨hp', a', ?_, x⟩
  unfold Prog.construct Prog.callDyn
  rw [hf]
  simp only
  rw [select_sole p.w.env p.valueArg [v.arg] pre post f]
  · exact e
  · rw [test_copyCtor h.notVoid h.notValue h.distinct hcopy v.arg hc.notValue hc.derives hc.noConverter]
    split <;> simp
  · intro g hg
    rcases hother g hg with hg | hg
    · rw [test_moveCtor h.notVoid h.notValue h.distinct hg v.arg hc.notValue hc.derives hc.noConverter,
        if_neg hc.notMoved]
    · exact test_notFor hg v.arg hc.derives

/-- a plainly moved type constructs by moving from a value that is an `rvalue()` -/
theorem construct_moved (hp : Heap) (v : Handle) (fuel : Nat)
    (h : PlainMove p t) (hok : hp.Ok v.addr (p.size t)) (hc : MovedFrom p v.arg t) :
    ∃ hp' a', p.construct (p.run (fuel + 1)) hp t v =
      .ok (hp', ⟨⟨t, .lvalue, false⟩, a', some a'⟩) ∧
      FreshMove (p.moved t) hp hp' (p.size t) v.addr a' := by
  obtain ⟨pre, f, post, hf, hmove, hother⟩ := h.ctor
  obtain ⟨hp', a', e, x⟩ := run_moveCtor h.movable h.isMovable hmove hp v fuel hok hc.derives
  refine ⟨hp', a', ?_, x⟩
  unfold Prog.construct Prog.callDyn
  rw [hf]
  simp only
  rw [select_exact p.w.env p.valueArg [v.arg] pre post f]
  · exact e
  · rw [test_moveCtor h.notVoid h.notValue h.distinct hmove v.arg hc.notValue hc.derives hc.noConverter,
      if_pos hc.isMoved]
  · intro g hg
    rcases hother g (by simp [hg]) with hg | hg
    · rw [test_copyCtor h.notVoid h.notValue h.distinct hg v.arg hc.notValue hc.derives hc.noConverter,
        if_neg (by rw [hc.isMoved.1]; simp)]
      simp
    · rw [test_notFor hg v.arg hc.derives]; simp

end

/-- with a plain copy constructor, a value of a derived type can be constructed from, whatever it is -/
theorem construct_any (p : Prog) (t : Ty) (hp : Heap) (v : Handle) (fuel : Nat) (h : PlainCopy p t)
    (hmv : p.w.isMovable t = true)
    (hok : hp.Ok v.addr (p.size t)) (hav : v.arg.type ≠ p.w.valueT) (hch : p.w.env.child v.arg.type t = true)
    (hconv : p.w.env.conv v.arg.type t = false) :
    ∃ hp' a', p.construct (p.run (fuel + 1)) hp t v = .ok (hp', ⟨⟨t, .lvalue, false⟩, a', some a'⟩) ∧
      hp'.Ok a' (p.size t) := by
  by_cases hm : v.arg.ref = .rvalue ∧ v.arg.isConst = false
  · obtain ⟨pre, f, post, hf, hcopy, hother⟩ := h.ctor
    unfold Prog.construct Prog.callDyn
    rw [hf]
    simp only
    have hpt : f.test p.w.env p.valueArg [v.arg] = .part := by
      rw [test_copyCtor h.notVoid h.notValue h.distinct hcopy v.arg hav hch hconv,
        if_neg (by rw [hm.1]; simp)]
    -- the first move constructor, if there is one
    by_cases hex : ∃ g ∈ pre ++ f :: post, IsMoveCtor p t g
    · have : ∃ pre' g post', pre ++ f :: post = pre' ++ g :: post' ∧ IsMoveCtor p t g ∧
          ∀ g' ∈ pre', ¬ IsMoveCtor p t g' := by
        generalize pre ++ f :: post = o at hex
        induction o with
        | nil => obtain ⟨g, hg, -⟩ := hex; cases hg
        | cons g gs ih =>
          by_cases hg : IsMoveCtor p t g
          · exact ⟨[], g, gs, rfl, hg, by simp⟩
          · obtain ⟨g', hg', hm'⟩ := hex
            rcases List.mem_cons.1 hg' with rfl | hg'
            · exact absurd hm' hg
            · obtain ⟨pre', g2, post', e1, e2, e3⟩ := ih ⟨g', hg', hm'⟩
              refine ⟨g :: pre', g2, post', by rw [e1]; rfl, e2, ?_⟩
              intro g3 hg3
              rcases List.mem_cons.1 hg3 with rfl | hg3
              · exact hg
              · exact e3 g3 hg3
      obtain ⟨pre', g, post', e1, e2, e3⟩ := this
      obtain ⟨hp', a', e, x⟩ := run_moveCtor h.movable hmv e2 hp v fuel hok hch
      refine ⟨hp', a', ?_, x.ok⟩
      rw [e1, select_exact p.w.env p.valueArg [v.arg] pre' post' g]
      · exact e
      · rw [test_moveCtor h.notVoid h.notValue h.distinct e2 v.arg hav hch hconv, if_pos hm]
      · intro g' hg'
        have : g' ∈ pre ++ f :: post := by rw [e1]; simp [hg']
        have : g' = f ∨ g' ∈ pre ++ post := by
          simp only [List.mem_append, List.mem_cons] at this ⊢
          rcases this with h | h | h
          · exact .inr (.inl h)
          · exact .inl h
          · exact .inr (.inr h)
        rcases this with rfl | h'
        · rw [hpt]; simp
        · rcases hother g' h' with h'' | h''
          · exact absurd h'' (e3 g' hg')
          · rw [test_notFor h'' v.arg hch]; simp
    · obtain ⟨hp', a', e, x⟩ := run_copyCtor h.movable hcopy hp v fuel hok hch
      refine ⟨hp', a', ?_, x.ok⟩
      rw [select_sole p.w.env p.valueArg [v.arg] pre post f (by rw [hpt]; simp)]
      · exact e
      intro g hg
      rcases hother g hg with h' | h'
      · exact absurd ⟨g, by
          simp only [List.mem_append, List.mem_cons] at hg ⊢
          rcases hg with h | h
          · exact .inl h
          · exact .inr (.inr h), h'⟩ hex
      · exact test_notFor h' v.arg hch
  · obtain ⟨hp', a', e, x⟩ := construct_plain hp v fuel h hok ⟨hav, hch, hconv, hm⟩
    exact ⟨hp', a', e, x.ok⟩

theorem castTo_copy_plain (p : Prog) (t : Arg) (hp : Heap) (v : Handle) (fuel : Nat)
    (href : t.ref = .copy) (h : PlainCopy p t.type) (hok : hp.Ok v.addr (p.size t.type))
    (hc : Copied p v.arg t.type) :
    ∃ hp' a', p.castTo (p.run (fuel + 1)) hp v t = .ok (hp', .obj a' true) ∧
      FreshCopy hp hp' (p.size t.type) v.addr a' := by
  obtain ⟨h1, a1, e1, x1⟩ := construct_plain hp v fuel h hok hc
  obtain ⟨h2, a2, e2, x2⟩ := copyObj_fresh h1 (p.size t.type) a1 x1.ok
  refine ⟨h2, a2, ?_, x1.trans x2⟩
  have hne : t ≠ p.valueArg := by
    intro hh; exact h.notValue (by rw [hh]; rfl)
  unfold Prog.castTo
  rw [if_neg hne]
  simp only [Prog.castV, href, h.copiable, hc.derives, if_true, e1, Prog.castRet, h.copyable, Handle.get,
    child_refl, e2]

end Reflect

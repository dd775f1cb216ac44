import Verif.Props.Value
/-
  Properties C67–C69: making values out of C++ objects, whole calls made from C++ code, and
  conversions through the converters a type declares.
-/
namespace Reflect
open World

/-! ### C67: making a value -/

/-- C67. `Value(x)` for an lvalue `x` refers to `x` itself, with its constness, owns nothing and has
    no effect. -/
theorem C67_lvalue_refers (p : Prog) (hp : Heap) (arg : Arg) (a : Nat) (h : arg.ref = .lvalue) :
    p.wrap hp arg a = .ok (hp, ⟨arg, a, none⟩) := by
  unfold Prog.wrap; rw [if_pos h]

/-- what `Value(std::move(x))` makes of the object of type `t` at `a` -/
structure Stored (p : Prog) (hp hp' : Heap) (t : Ty) (a : Nat) (v : Handle) : Prop where
  /-- a mutable value of the object's type -/
  arg : v.arg = ⟨t, .lvalue, false⟩
  /-- that owns a fresh object -/
  owner : v.owner = some v.addr
  fresh : hp.next ≤ v.addr
  live : hp'.Ok v.addr (p.size t)
  /-- with the contents `x` had -/
  same : ∀ i < p.size t, hp'.mem (v.addr + i) = hp.mem (a + i)
  /-- and no other object changes -/
  frame : ∀ x < hp.next, x < a ∨ a + p.size t ≤ x → hp'.mem x = hp.mem x
  grow : hp.next ≤ hp'.next

/-- C67. `Value(x)` for a temporary `x` of a type that can be copied or moved stores a fresh object
    with the contents of `x`; `x` is moved from exactly when it is not const and has a move
    constructor, and keeps its contents otherwise. -/
theorem C67_temporary_stored (p : Prog) (hp : Heap) (arg : Arg) (a : Nat) (h : arg.ref ≠ .lvalue)
    (hcap : (p.caps arg.type).copyConstructible = true ∨
      (arg.isConst = false ∧ (p.caps arg.type).moveConstructible = true))
    (hok : hp.Ok a (p.size arg.type)) :
    ∃ hp' v, p.wrap hp arg a = .ok (hp', v) ∧ Stored p hp hp' arg.type a v ∧
      ∀ i < p.size arg.type, hp'.mem (a + i) =
        if arg.isConst = false ∧ (p.caps arg.type).moveConstructible = true
        then p.moved arg.type (hp.mem (a + i)) else hp.mem (a + i) := by
  obtain ⟨hpos, hend⟩ := hok
  by_cases hm : arg.isConst = false ∧ (p.caps arg.type).moveConstructible = true
  · obtain ⟨hp', h1, h2, h3, h4⟩ := moveObj_ok hp (p.moved arg.type) (p.size arg.type) a ⟨hpos, hend⟩
    obtain ⟨hp'', h5, h6⟩ := moveObj_source hp (p.moved arg.type) (p.size arg.type) a ⟨hpos, hend⟩
    rw [h1] at h5
    simp only [Except.ok.injEq, Prod.mk.injEq, and_true] at h5
    subst h5
    refine ⟨hp', _, by
      unfold Prog.wrap Prog.store
      rw [if_neg h, if_pos (by simp [hm.1, hm.2]), h1], ?_, ?_⟩
    · exact ⟨rfl, rfl, Nat.le_refl _, ⟨by simp only; omega, by simp only; omega⟩, h3, h4, by omega⟩
    · intro i hi; rw [if_pos hm, h6 i hi]
  · have hc : (p.caps arg.type).copyConstructible = true := hcap.resolve_right hm
    obtain ⟨hp', h1, h2, h3, h4⟩ := copyObj_ok hp (p.size arg.type) a ⟨hpos, hend⟩
    refine ⟨hp', _, by
      unfold Prog.wrap Prog.store
      rw [if_neg h, if_neg (by simpa using hm), if_pos hc, h1], ?_, ?_⟩
    · exact ⟨rfl, rfl, Nat.le_refl _, ⟨by simp only; omega, by simp only; omega⟩, h3,
        fun x hx _ => h4 x hx, by omega⟩
    · intro i hi; rw [if_neg hm, h4 _ (by omega)]

/-- C67. A temporary that can neither be copied nor (being not const) moved is refused. -/
theorem C67_temporary_refused (p : Prog) (hp : Heap) (arg : Arg) (a : Nat) (h : arg.ref ≠ .lvalue)
    (hc : (p.caps arg.type).copyConstructible = false)
    (hm : arg.isConst = true ∨ (p.caps arg.type).moveConstructible = false) :
    p.wrap hp arg a = .error .err := by
  unfold Prog.wrap Prog.store
  rw [if_neg h, if_neg (by rcases hm with hm | hm <;> simp [hm]), if_neg (by simp [hc])]

/-- C67. `as<T>()` and `get<T>()` reach the object of the value exactly when its type is `T` or
    derives from it, `get` as a const reference; they raise otherwise. -/
theorem C67_access (p : Prog) (h : Handle) (t : Ty) :
    (p.w.env.child h.arg.type t = true →
      h.as p t = .ok (h.addr, true) ∧ h.get p t = .ok (h.addr, false)) ∧
    (p.w.env.child h.arg.type t = false →
      h.as p t = .error .err ∧ h.get p t = .error .err) := by
  constructor <;> intro hc <;> simp [Handle.as, Handle.get, hc]

/-- C67. No cast reads an object as a type it does not derive from: when the type of the value neither
    derives from the target type nor declares a converter to it, every cast raises. -/
theorem C67_unrelated_refused (p : Prog) (rec : Runner) (hp : Heap) (v : Handle) (t : Arg)
    (hne : t ≠ p.valueArg) (hch : p.w.env.child v.arg.type t.type = false)
    (hcv : p.w.env.conv v.arg.type t.type = false) : p.castTo rec hp v t = .error .err := by
  unfold Prog.castTo
  rw [if_neg hne]
  cases href : t.ref <;> simp [Prog.castV, href, hch, hcv]

/-! ### C68: whole calls -/

/-- C68. A call whose arguments or wanted result do not match the signature raises, whatever the body
    would do: no argument is copied, moved or converted and the body does not run. -/
theorem C68_refused (p : Prog) (fuel : Nat) (hp : Heap) (f : Fn) (want : Arg) (as : List Actual)
    (h : f.test p.w.env want (as.map Actual.arg) = .none) :
    p.callFn fuel hp f want as = .error .err := by
  unfold Prog.callFn; rw [if_pos h]

/-- the value `Value(x)` makes of an argument that needs no storing -/
def Actual.handle : Actual → Handle
  | .native arg a => ⟨arg, a, none⟩
  | .dyn h => h

/-- an argument and its parameter: an lvalue or a `Value`, for a reference, `Value` or plainly copied
    by-value parameter -/
def SimpleActual (p : Prog) (hp : Heap) (x : Actual) (t : Arg) : Prop :=
  (∀ arg a, x = .native arg a → arg.ref = .lvalue) ∧ SimpleParam p hp x.handle t

theorem toHandles_simple (p : Prog) (hp : Heap) (as : List Actual)
    (h : ∀ x ∈ as, ∀ arg a, x = Actual.native arg a → arg.ref = .lvalue) :
    p.toHandles hp as = .ok (hp, as.map Actual.handle) := by
  induction as with
  | nil => rfl
  | cons x xs ih =>
    have ih' := ih fun y hy => h y (List.mem_cons_of_mem _ hy)
    cases x with
    | dyn v => simp [Prog.toHandles, ih', Actual.handle]
    | native arg a =>
      have := h _ List.mem_cons_self arg a rfl
      simp [Prog.toHandles, C67_lvalue_refers p hp arg a this, ih', Actual.handle]

/-- C68. A call that succeeds, with lvalues and `Value`s as arguments: there were as many arguments as
    parameters; the body ran on a memory in which nothing that existed had changed; for each position,
    in order, it was handed the caller's own object (for a reference), the `Value` itself, or a fresh
    equal object; and the caller obtains the body's result: nothing when it wants nothing, and the
    object referred to when it wants a reference. -/
theorem C68_call (p : Prog) (fuel : Nat) (hp hp' : Heap) (f : Fn) (want : Arg) (as : List Actual)
    (out : Option BArg)
    (hs : ∀ x ∈ as.zip f.args, SimpleActual p hp x.1 x.2)
    (h : p.callFn (fuel + 2) hp f want as = .ok (hp', out)) :
    ∃ h1 bs h2 r, as.length = f.args.length ∧ bs.length = f.args.length ∧
      (∀ x < hp.next, h1.mem x = hp.mem x) ∧
      (∀ i (ha : i < as.length) (ht : i < f.args.length) (hb : i < bs.length),
        Sees p hp h1 as[i].handle f.args[i] bs[i]) ∧
      p.impl f.body h1 bs = .ok (h2, r) ∧
      (want.type = p.w.voidT ↔ out = none) ∧
      (∀ a, r = .obj a → f.ret.ref = .lvalue → want.type ≠ p.w.voidT → want.ref = .lvalue →
        hp' = h2 ∧ out = some (.obj a (!want.isConst))) ∧
      (∀ v, r = .val v → want = p.valueArg → want.type ≠ p.w.voidT →
        hp' = h2 ∧ out = some (.val v)) := by
  unfold Prog.callFn at h
  split at h
  · cases h
  rename_i htest
  have hlen : as.length = f.args.length := by
    refine Classical.byContradiction fun hh => htest ?_
    exact test_none_of_length _ _ _ _ (by simpa using fun e => hh e.symm)
  have hall : ∀ x ∈ as, ∀ arg a, x = Actual.native arg a → arg.ref = .lvalue := by
    intro x hx
    obtain ⟨i, hi, rfl⟩ := List.getElem_of_mem hx
    exact (hs (as[i], f.args[i]'(hlen ▸ hi)) (by
      rw [List.mem_iff_getElem]
      exact ⟨i, by rw [List.length_zip]; omega, by simp⟩)).1
  rw [toHandles_simple p hp as hall] at h
  simp only [Prog.run] at h
  split at h
  · cases h
  rename_i h3 v3 hrun
  split at hrun
  · cases hrun
  rename_i h1 bs hbind
  split at hrun
  · cases hrun
  rename_i h2 r himpl
  obtain ⟨c1, c2, c3⟩ := C32_call p fuel (as.map Actual.handle) f.args hp h1 bs (by simpa using hlen)
    (by
      intro x hx
      rw [List.zip_map_left, List.mem_map] at hx
      obtain ⟨y, hy, rfl⟩ := hx
      exact (hs y hy).2) hbind
  refine ⟨h1, bs, h2, r, hlen, c1, c2, ?_, himpl, ?_, ?_, ?_⟩
  · intro i ha ht hb
    have := c3 i (by simpa using ha) ht hb
    simpa using this
  · unfold Prog.retCast at h
    split at h
    · rename_i hv
      simp only [Except.ok.injEq, Prod.mk.injEq] at h
      simp [hv, h.2]
    · rename_i hv
      split at h
      · cases h
      · simp only [Except.ok.injEq, Prod.mk.injEq] at h
        simp [hv, ← h.2]
  · intro a hr hret hv href
    subst hr
    simp only [Prog.wrapRet, C67_lvalue_refers p h2 f.ret a hret, Except.ok.injEq,
      Prod.mk.injEq] at hrun
    obtain ⟨rfl, rfl⟩ := hrun
    unfold Prog.retCast at h
    rw [if_neg hv] at h
    split at h
    · cases h
    · rename_i h4 b hc
      obtain ⟨rfl, rfl⟩ := C32_reference p _ _ _ _ want b href hc
      simp only [Except.ok.injEq, Prod.mk.injEq] at h
      exact ⟨h.1.symm, h.2.symm⟩
  · intro v hr hw hv
    subst hr
    simp only [Prog.wrapRet, Except.ok.injEq, Prod.mk.injEq] at hrun
    obtain ⟨rfl, rfl⟩ := hrun
    unfold Prog.retCast at h
    rw [if_neg hv, hw, castTo_dyn] at h
    simp only [Except.ok.injEq, Prod.mk.injEq] at h
    exact ⟨h.1.symm, h.2.symm⟩

/-- C68. A body that returns an object by value: a caller that wants the object by value, for a
    plainly copied type, obtains a fresh object with the contents of the one returned, whatever the
    arguments are, and nothing that existed but the temporary returned changes. -/
theorem C68_result_by_value (p : Prog) (fuel : Nat) (hp h1 h2 : Heap) (f : Fn) (want : Arg)
    (as : List Actual) (vs : List Handle) (hv1 : Heap) (bs : List BArg) (a : Nat)
    (htest : f.test p.w.env want (as.map Actual.arg) ≠ .none)
    (hvs : p.toHandles hp as = .ok (hv1, vs))
    (hbind : p.bind (p.run fuel) hv1 vs f.args = .ok (h1, bs))
    (hbody : p.impl f.body h1 bs = .ok (h2, .obj a))
    (hret : f.ret.ref = .copy) (hwant : want.ref = .copy) (hplain : PlainCopy p want.type)
    (hchild : p.w.env.child f.ret.type want.type = true) (hsize : p.size want.type ≤ p.size f.ret.type)
    (hretv : f.ret.type ≠ p.w.valueT) (hretc : p.w.env.conv f.ret.type want.type = false)
    (hmv : f.ret.isConst = false ∧ (p.caps f.ret.type).moveConstructible = true)
    (hok : h2.Ok a (p.size f.ret.type)) :
    ∃ hp' b, p.callFn (fuel + 1) hp f want as = .ok (hp', some (.obj b true)) ∧ h2.next ≤ b ∧
      hp'.Ok b (p.size want.type) ∧
      (∀ i < p.size want.type, hp'.mem (b + i) = h2.mem (a + i)) ∧
      (∀ x < h2.next, x < a ∨ a + p.size f.ret.type ≤ x → hp'.mem x = h2.mem x) ∧ h2.next ≤ hp'.next := by
  obtain ⟨h3, v, hw, hst, -⟩ := C67_temporary_stored p h2 f.ret a (by simp [hret]) (.inr hmv) hok
  have hok3 : h3.Ok v.addr (p.size want.type) := by
    have h4 := hst.live.1
    have h5 := hst.live.2
    exact ⟨h4, by omega⟩
  obtain ⟨h4, b, hc, hfresh⟩ := castTo_copy_plain p want h3 v fuel hwant hplain hok3
    (by rw [hst.arg]; exact ⟨hretv, hchild, hretc, by simp⟩)
  refine ⟨h4, b, ?_, Nat.le_trans hst.grow hfresh.fresh, hfresh.ok, fun i hi => ?_, fun x hx hx' => ?_,
    Nat.le_trans hst.grow hfresh.grow⟩
  · unfold Prog.callFn
    rw [if_neg htest, hvs]
    have hrun : p.run (fuel + 1) hv1 f vs = .ok (h3, v) := by
      simp only [Prog.run, hbind, hbody, Prog.wrapRet, hw]
    simp only [hrun]
    unfold Prog.retCast
    rw [if_neg hplain.notVoid]
    rw [hc]
  · rw [hfresh.same i hi, hst.same i (by omega)]
  · have := hst.grow
    rw [hfresh.frame x (by omega), hst.frame x hx hx']

/-! ### C69: conversions -/

/-- C69. Which function converts: `converter` answers with the only overload of
    `operator Target()` declared by the closest ancestor-or-self of the source type that declares
    some; several overloads there are an error, and so is none at all. -/
theorem C69_which_converter (w : World) (hcl : w.Closed) (hac : w.Acyclic) (t target : Ty)
    (ht : t < w.n) :
    (∀ f, w.converter t target = .ok f ↔
      w.Nearest (fun d => d.fns.get (World.converterName (w.ty target).id)) t [f]) ∧
    (∀ f g o, w.Nearest (fun d => d.fns.get (World.converterName (w.ty target).id)) t (f :: g :: o) →
      w.converter t target = .error .err) ∧
    ((∀ k u, w.anc k t = some u → (w.ty u).fns.get (World.converterName (w.ty target).id) = none) →
      w.converter t target = .error .err) := by
  have hn := C17_function_nearest w hcl hac t ht (World.converterName (w.ty target).id) w.fuel
    (by unfold World.fuel; omega)
  refine ⟨fun f => ?_, fun f g o h => ?_, fun h => ?_⟩
  · rw [← hn.1]
    unfold World.converter
    constructor
    · intro h
      split at h
      · cases h
      · rename_i o ho
        split at h
        · cases h
        · rename_i hl
          split at h
          · rename_i f' r
            simp only [Except.ok.injEq] at h
            subst h
            rw [ho]
            cases r with
            | nil => rfl
            | cons g gs => simp at hl
          · cases h
    · intro h; rw [h]; simp
  · rw [← hn.1] at h
    unfold World.converter
    rw [h]; simp
  · unfold World.converter
    rw [hn.2.1.1 h]

/-- C69. The match test asks the same question: a converter is seen exactly when the source type or an
    ancestor of it declares one. -/
theorem C69_seen_iff_declared (w : World) (hcl : w.Closed) (hac : w.Acyclic) (t target : Ty)
    (ht : t < w.n) :
    w.env.conv t target = true ↔
      ∃ k u, w.anc k t = some u ∧
        (w.ty u).fns.get (World.converterName (w.ty target).id) ≠ none := by
  have hn := C17_function_nearest w hcl hac t ht (World.converterName (w.ty target).id) w.fuel
    (by unfold World.fuel; omega)
  have : (w.env.conv t target = true) ↔
      w.hasFunctionF w.fuel t (World.converterName (w.ty target).id) = .ok true := by
    simp [World.env]
  rw [this, hn.2.2.1]
  constructor
  · rintro ⟨o, ho⟩
    obtain ⟨k, u, h1, h2, -⟩ := (hn.1 o).1 ho
    exact ⟨k, u, h1, by simp [h2]⟩
  · rintro ⟨k, u, h1, h2⟩
    refine Classical.byContradiction fun hno => ?_
    cases hf : w.functionF w.fuel t (World.converterName (w.ty target).id) with
    | ok o => exact hno ⟨o, hf⟩
    | error x =>
      have hnd := nearestF_no_diverge (fun d => d.fns.get (converterName (w.ty target).id)) w.n t
        w.fuel (anc_ends hcl hac t ht) (by unfold World.fuel; omega)
      have h5 := nearestF_err _ _ _ _ hf (by rintro rfl; exact hnd hf)
      exact h2 (h5.2 k u h1)

/-- an argument that can be bound to an lvalue reference matches it -/
theorem match_lref (e : Env) (a : Arg) (src : Ty) (c : Bool) (ha : a.type ≠ e.valueT) (hs : src ≠ e.valueT)
    (hconv : e.conv a.type src = false) (hch : e.child a.type src = true)
    (hc : c = true ∨ (a.isConst = false ∧ a.ref = .lvalue)) :
    isConvertibleTo e a ⟨src, .lvalue, c⟩ ≠ .none := by
  obtain ⟨u, r, k⟩ := a
  simp only at ha hconv hch hc
  cases c with
  | true => rw [match_constref e u src r k ha hs hconv hch]; split <;> simp
  | false =>
    rcases hc with hc | ⟨rfl, rfl⟩
    · cases hc
    · unfold isConvertibleTo
      split
      · simp
      · rw [if_neg (by simp [ha, hs]), if_neg (by simp [hconv])]
        simp [testConstConversion, hch]

/-- C69. A function registered as a converter that does not take exactly one argument, or whose parameter does
    not take the value (a const value for a mutable reference, say), is never run: the cast is refused. -/
theorem C69_misfit_refused (p : Prog) (hcl : p.w.Closed) (hac : p.w.Acyclic) (fuel : Nat) (hp : Heap)
    (v : Handle) (t : Arg) (f : Fn)
    (hv : v.arg.type < p.w.n) (htd : t.type ≠ p.w.valueT)
    (hch : p.w.env.child v.arg.type t.type = false)
    (hconv : p.w.Nearest (fun d => d.fns.get (World.converterName (p.w.ty t.type).id)) v.arg.type [f])
    (hmis : f.args.length ≠ 1 ∨ ∃ q, f.args = [q] ∧ ¬ Spec.Matches p.w.env v.arg q) :
    p.castTo (p.run fuel) hp v t = .error .err := by
  have hne : t ≠ p.valueArg := fun hh => htd (by rw [hh]; rfl)
  have hcf : p.w.converter v.arg.type t.type = .ok f :=
    ((C69_which_converter p.w hcl hac _ _ hv).1 f).2 hconv
  have htest : f.test p.w.env p.valueArg [v.arg] = .none := by
    unfold Fn.test
    rw [combine_eq_none, C23_none_iff]
    rcases hmis with h | ⟨q, h1, h2⟩
    · exact .inr (.inl (by simpa using Ne.symm h))
    · refine .inr (.inr ⟨(v.arg, q), by simp [h1], ?_⟩)
      refine Classical.byContradiction fun h => h2 ?_
      exact (C22_matches_iff p.w.env v.arg q).1 h
  have hc : p.convert (p.run fuel) hp v t.type = .error .err := by
    unfold Prog.convert
    rw [hcf]
    simp only [if_pos htest]
  have hcast : p.castV (p.run fuel) hp v t = .error .err := by
    unfold Prog.castV
    simp only [hch, Bool.false_eq_true, if_false, false_and, hc]
    cases t.ref <;> simp
  unfold Prog.castTo
  rw [if_neg hne, hcast]

/-- C69. A cast to a type that is not a parent, but to which the source type declares a single
    converter, runs that converter on the very object of the value and hands over a fresh object with
    the contents of its result. It applies to by-value and rvalue-reference targets. -/
theorem C69_converted (p : Prog) (hcl : p.w.Closed) (hac : p.w.Acyclic) (fuel : Nat) (hp h2 : Heap)
    (v : Handle) (t : Arg) (f : Fn) (src : Ty) (c : Bool) (a : Nat)
    (hv : v.arg.type < p.w.n) (href : t.ref ≠ .lvalue)
    (hvd : p.w.valueT ≠ p.w.voidT) (htd : t.type ≠ p.w.valueT) (htv : t.type ≠ p.w.voidT)
    (hable : if t.ref = .copy then p.w.isCopiable t.type = true else p.w.isMovable t.type = true)
    (hch : p.w.env.child v.arg.type t.type = false)
    (hconv : p.w.Nearest (fun d => d.fns.get (World.converterName (p.w.ty t.type).id)) v.arg.type [f])
    (hargs : f.args = [⟨src, .lvalue, c⟩]) (hsrc : src ≠ p.w.valueT)
    (hret : f.ret = ⟨t.type, .copy, false⟩)
    (hself : p.w.env.child v.arg.type src = true)
    (hvt : v.arg.type ≠ p.w.valueT) (hsc : p.w.env.conv v.arg.type src = false)
    (hcv : c = true ∨ (v.arg.isConst = false ∧ v.arg.ref = .lvalue))
    (hbody : p.impl f.body hp [.obj v.addr (!c)] = .ok (h2, .obj a))
    (hmv : (p.caps t.type).moveConstructible = true) (hcp : (p.caps t.type).copyConstructible = true)
    (hok : h2.Ok a (p.size t.type)) :
    ∃ hp' b, p.castTo (p.run (fuel + 1)) hp v t = .ok (hp', .obj b true) ∧ h2.next ≤ b ∧
      hp'.Ok b (p.size t.type) ∧
      (∀ i < p.size t.type, hp'.mem (b + i) = h2.mem (a + i)) ∧
      ∀ x < h2.next, x < a ∨ a + p.size t.type ≤ x → hp'.mem x = h2.mem x := by
  have hne : t ≠ p.valueArg := fun hh => htd (by rw [hh]; rfl)
  have hseen : p.w.env.conv v.arg.type t.type = true := by
    obtain ⟨k, u, h1, h2, -⟩ := hconv
    exact (C69_seen_iff_declared p.w hcl hac _ _ hv).2 ⟨k, u, h1, by simp [h2]⟩
  have hcf : p.w.converter v.arg.type t.type = .ok f :=
    ((C69_which_converter p.w hcl hac _ _ hv).1 f).2 hconv
  have htest : f.test p.w.env p.valueArg [v.arg] ≠ .none := by
    have h1 := test_ctor p.w.env f ⟨src, .lvalue, c⟩ v.arg hvd (by rw [hret]; exact htv)
      (by rw [hret]; exact htd) hargs
    have h2 := match_lref p.w.env v.arg src c hvt hsrc hsc hself hcv
    rw [← h1] at h2
    exact h2
  have hnes : (⟨src, .lvalue, c⟩ : Arg) ≠ p.valueArg := by simp [Prog.valueArg]
  have hb : p.bind (p.run fuel) hp [v] f.args = .ok (hp, [.obj v.addr (!c)]) := by
    rw [hargs]
    have hcond : c = true ∨ v.arg.isConst = false ∧ v.arg.ref = .lvalue := hcv
    simp [Prog.bind, Prog.castTo, if_neg hnes, Prog.castV, hself, hcond, Prog.castRet, Handle.as]
  obtain ⟨h3, r, hw, hst, -⟩ := C67_temporary_stored p h2 ⟨t.type, .copy, false⟩ a (by simp)
    (.inl hcp) hok
  simp only at hst
  have hrun : p.run (fuel + 1) hp f [v] = .ok (h3, r) := by
    simp only [Prog.run, hb, hbody, Prog.wrapRet, hret, hw]
  have hcast : p.castV (p.run (fuel + 1)) hp v t = .ok (h3, r) := by
    have hc : p.convert (p.run (fuel + 1)) hp v t.type = .ok (h3, r) := by
      unfold Prog.convert
      rw [hcf]
      simp only [if_neg htest, hrun]
    unfold Prog.castV
    cases hr : t.ref with
    | lvalue => exact absurd hr href
    | copy =>
      rw [hr, if_pos rfl] at hable
      simp only [hable, if_true, hch, hseen, hc, Bool.false_eq_true, if_false]
    | rvalue =>
      rw [hr, if_neg (by simp)] at hable
      simp only [hable, if_true, hch, hseen, hc, Bool.false_eq_true, if_false]
  have hchr : p.w.env.child r.arg.type t.type = true := by rw [hst.arg]; exact child_refl _ _
  have hfr := hst.fresh
  have hgr := hst.grow
  obtain ⟨hlo, hhi⟩ := hok
  cases hr : t.ref with
  | lvalue => exact absurd hr href
  | copy =>
    obtain ⟨h4, e1, e2, e3, e4⟩ := copyObj_ok h3 (p.size t.type) r.addr hst.live
    refine ⟨h4, h3.next, ?_, hgr, ⟨by omega, by omega⟩, fun i hi => by rw [e3 i hi, hst.same i hi],
      fun x hx hx' => by rw [e4 x (by omega), hst.frame x hx hx']⟩
    unfold Prog.castTo
    rw [if_neg hne, hcast]
    simp [Prog.castRet, hr, hcp, Handle.get, hchr, e1]
  | rvalue =>
    obtain ⟨h4, e1, e2, e3, e4⟩ := moveObj_ok h3 (p.moved t.type) (p.size t.type) r.addr hst.live
    refine ⟨h4, h3.next, ?_, hgr, ⟨by omega, by omega⟩, fun i hi => by rw [e3 i hi, hst.same i hi],
      fun x hx hx' => by rw [e4 x (by omega) (by omega), hst.frame x hx hx']⟩
    unfold Prog.castTo
    rw [if_neg hne, hcast]
    simp [Prog.castRet, hr, hmv, Handle.as, hchr, e1]

/-! ### concrete cases -/

namespace CallsDemo
open ValueDemo

/-- type 2 declares `operator U()`; types 3 and 4 as in `ValueDemo` -/
def world : World :=
  { ValueDemo.world with
    ty := fun t => if t = 2 then
        { ValueDemo.world.ty 2 with
          fns := [(['T'], tCtors), (converterName ['U'],
            [Fn.make (converterName ['U']) ⟨4, .copy, false⟩ [⟨2, .lvalue, true⟩] 1])] }
      else if t = 4 then { TypeD.new ['U'] with
        fns := [(['U'], plumbedConstructors 4 ['U'] ⟨true, true, true, true, true⟩)] }
      else ValueDemo.world.ty t }

def prog : Prog := { ValueDemo.prog with w := world }

/-- an object of the child of `T` is converted to a `U` by the converter of `T` -/
example : (match prog.castTo (prog.run 3) heap obj ⟨4, .copy, false⟩ with
    | .ok (hp, .obj a m) => decide (5 ≤ a ∧ m = true ∧ hp.mem a = 7 ∧ hp.mem (a + 1) = 8 ∧
        hp.mem 1 = 7)
    | _ => false) = true := by decide

theorem edges (a b : Ty) (h : world.Edge a b) : a = 3 ∧ b = 2 := by
  have hp : ∀ a, (world.ty a).ptr = none := by
    intro a
    simp only [world, ValueDemo.world]
    split
    · rfl
    · split
      · rfl
      · split <;> rfl
  have hpar : ∀ a b, (world.ty a).parent = some b → a = 3 ∧ b = 2 := by
    intro a b
    simp only [world, ValueDemo.world]
    split
    · intro h; cases h
    · split
      · intro h; cases h
      · split <;> intro h <;> simp_all [TypeD.new]
  rcases h with h | ⟨k, h⟩
  · exact hpar a b h
  · rw [hp] at h; cases h

example : prog.w.Nearest (fun d => d.fns.get (converterName (prog.w.ty 4).id)) 3
    [Fn.make (converterName ['U']) ⟨4, .copy, false⟩ [⟨2, .lvalue, true⟩] 1] := by
  refine ⟨1, 2, by decide, by decide, ?_⟩
  intro j hj v hv
  have : j = 0 := by omega
  subst this
  simp only [World.anc, Option.some.injEq] at hv
  subst hv
  decide

example : prog.w.Closed ∧ prog.w.Acyclic := by
  have hr : ∀ a b, world.Reach a b → b < a := by
    intro a b h
    induction h with
    | edge h => obtain ⟨rfl, rfl⟩ := edges _ _ h; decide
    | step h _ ih => obtain ⟨rfl, rfl⟩ := edges _ _ h; exact Nat.lt_trans ih (by decide)
  refine ⟨?_, fun a h => Nat.lt_irrefl _ (hr a a h)⟩
  intro a b _ h
  obtain ⟨rfl, rfl⟩ := edges a b h
  decide

/-- the same converter, declared with a mutable `T&`: it takes no const object -/
def world' : World :=
  { world with
    ty := fun t => if t = 2 then
        { ValueDemo.world.ty 2 with
          fns := [(['T'], tCtors), (converterName ['U'],
            [Fn.make (converterName ['U']) ⟨4, .copy, false⟩ [⟨2, .lvalue, false⟩] 1])] }
      else world.ty t }
def prog' : Prog := { ValueDemo.prog with w := world' }
def cobj : Handle := ⟨⟨3, .lvalue, true⟩, 1, none⟩
example : (match prog'.castTo (prog'.run 3) heap obj ⟨4, .copy, false⟩ with | .ok _ => true | _ => false) = true ∧
    (match prog'.castTo (prog'.run 3) heap cobj ⟨4, .copy, false⟩ with | .error .err => true | _ => false) = true := by
  decide
example : prog'.w.converter cobj.arg.type 4 =
      .ok (Fn.make (converterName ['U']) ⟨4, .copy, false⟩ [⟨2, .lvalue, false⟩] 1) ∧
    prog'.w.env.child cobj.arg.type 4 = false ∧ ¬ Spec.Matches prog'.w.env cobj.arg ⟨2, .lvalue, false⟩ := by
  rw [← C22_matches_iff]; decide

/-- `f(T, const T&)` called with an lvalue and a `Value` -/
example : ∀ x ∈ [Actual.native ⟨3, .lvalue, false⟩ 1, .dyn obj].zip
      [⟨2, .copy, false⟩, ⟨2, .lvalue, true⟩], SimpleActual ValueDemo.prog heap x.1 x.2 := by
  intro x hx
  simp only [List.zip_cons_cons, List.zip_nil_right, List.mem_cons, List.not_mem_nil, or_false] at hx
  rcases hx with rfl | rfl
  · exact ⟨fun arg a h => by cases h; rfl, .byValue rfl plainT.1 (by decide) copiedObj⟩
  · exact ⟨fun arg a h => (by cases h), SimpleParam.ref rfl⟩

example : (ValueDemo.prog.callFn 2 heap
    (Fn.make ['f'] ⟨0, .copy, false⟩ [⟨2, .lvalue, true⟩] 9) ⟨0, .copy, false⟩
    [.native ⟨3, .lvalue, false⟩ 1]).toOption.isSome = true := by decide

/-- storing a temporary moves from it, storing a const one does not -/
example : (match ValueDemo.prog.wrap heap ⟨2, .rvalue, false⟩ 1 with
    | .ok (hp, v) => decide (v.addr = 5 ∧ v.owner = some 5 ∧ hp.mem 5 = 7 ∧ hp.mem 1 = 0)
    | _ => false) = true ∧
    (match ValueDemo.prog.wrap heap ⟨2, .rvalue, true⟩ 1 with
    | .ok (hp, v) => decide (v.addr = 5 ∧ v.owner = some 5 ∧ hp.mem 5 = 7 ∧ hp.mem 1 = 7)
    | _ => false) = true := by decide

end CallsDemo

end Reflect

s=open('Props/Value.lean').read()
def rep(a,b,n=1):
    global s
    assert s.count(a)>=1,(a[:80])
    s=s.replace(a,b)
rep("""/-- C32. Binding by value, for a type whose copy constructor comes first among its one-argument
    constructors, hands over a fresh object with the contents of the argument's, and changes no
    existing memory. -/""","""/-- C32. Binding by value, for a plainly copied type and a value that is not an `rvalue()` of a mutable
    object, hands over a fresh object with the contents of the argument's, and changes no existing
    memory. -/""")
rep("""    (href : t.ref = .copy) (hplain : PlainCopy p t.type) (hok : hp.Ok v.addr (p.size t.type))
    (hch : p.w.env.child v.arg.type t.type = true) :
    ∃ hp' a', p.castTo (p.run (fuel + 1)) hp v t = .ok (hp', .obj a' true) ∧
      hp.next ≤ a' ∧ (∀ i < p.size t.type, hp'.mem (a' + i) = hp.mem (v.addr + i)) ∧
      ∀ x < hp.next, hp'.mem x = hp.mem x := by
  obtain ⟨hp', a', h1, h2⟩ := castTo_copy_plain p t hp v fuel href hplain hok hch
  exact ⟨hp', a', h1, h2.fresh, h2.same, h2.frame⟩
""","""    (href : t.ref = .copy) (hplain : PlainCopy p t.type) (hok : hp.Ok v.addr (p.size t.type))
    (hc : Copied p v.arg t.type) :
    ∃ hp' a', p.castTo (p.run (fuel + 1)) hp v t = .ok (hp', .obj a' true) ∧
      hp.next ≤ a' ∧ (∀ i < p.size t.type, hp'.mem (a' + i) = hp.mem (v.addr + i)) ∧
      ∀ x < hp.next, hp'.mem x = hp.mem x := by
  obtain ⟨hp', a', h1, h2⟩ := castTo_copy_plain p t hp v fuel href hplain hok hc
  exact ⟨hp', a', h1, h2.fresh, h2.same, h2.frame⟩

/-- C32. Binding by value, for a plainly moved type and an `rvalue()` of a mutable object, hands over a
    fresh object with the contents of the argument's, moves from the argument's object and changes nothing
    else. -/
theorem C32_by_value_moved (p : Prog) (fuel : Nat) (hp : Heap) (v : Handle) (t : Arg)
    (href : t.ref = .copy) (hplain : PlainMove p t.type) (hcop : p.w.isCopiable t.type = true)
    (hcap : (p.caps t.type).copyConstructible = true)
    (hok : hp.Ok v.addr (p.size t.type)) (hc : MovedFrom p v.arg t.type) :
    ∃ hp' a', p.castTo (p.run (fuel + 1)) hp v t = .ok (hp', .obj a' true) ∧
      hp.next ≤ a' ∧ (∀ i < p.size t.type, hp'.mem (a' + i) = hp.mem (v.addr + i)) ∧
      (∀ i < p.size t.type, hp'.mem (v.addr + i) = p.moved t.type (hp.mem (v.addr + i))) ∧
      ∀ x < hp.next, x < v.addr ∨ v.addr + p.size t.type ≤ x → hp'.mem x = hp.mem x := by
  obtain ⟨h1, a1, e1, x1⟩ := construct_moved hp v fuel hplain hok hc
  obtain ⟨h2, a2, e2, x2⟩ := copyObj_fresh h1 (p.size t.type) a1 x1.ok
  have x3 := x1.copy hok x2
  refine ⟨h2, a2, ?_, x3.fresh, x3.same, x3.moved, x3.frame⟩
  have hne : t ≠ p.valueArg := by
    intro hh; exact hplain.notValue (by rw [hh]; rfl)
  unfold Prog.castTo
  rw [if_neg hne]
  simp only [Prog.castV, href, hcop, hc.derives, if_true, e1, Prog.castRet, hcap, Handle.get,
    child_refl, e2]
""")
rep("""/-- a parameter that is an lvalue reference, a `Value`, or a plainly copied object of a parent type -/""","""/-- a parameter that is an lvalue reference, a `Value`, or a plainly copied object of a parent type given
    a value that is not moved from -/""")
rep("""      p.w.env.child v.arg.type t.type = true → SimpleParam p hp v t""","""      Copied p v.arg t.type → SimpleParam p hp v t""")
i=s.index("/-- C32. The standard plumbing meets"); j=s.index("/-! ### C33 -/")
s=s[:i]+'''/-- C32. The standard plumbing meets the requirements: a plumbed class that can be copied and moved is
    plainly copied and plainly moved, whatever other constructors it is given, as long as none of them
    accepts one of its objects alone. -/
theorem C32_plumbed (p : Prog) (t : Ty) (c : Caps) (o : Overloads)
    (hv : t ≠ p.w.voidT) (hd : t ≠ p.w.valueT) (hvd : p.w.valueT ≠ p.w.voidT)
    (hcopy : c.copyConstructible = true) (hmove : c.moveConstructible = true)
    (hcaps : p.caps t = c)
    (hconv : p.w.env.conv t t = false)
    (hctors : p.w.functionF p.w.fuel t (p.w.ty t).id =
      .ok (plumbedConstructors t (p.w.ty t).id c ++ o))
    (ho : ∀ g ∈ o, NotFor p t g)
    (hbody : ∀ hp a m, hp.Ok a (p.size t) → p.impl 1 hp [.obj a m] =
      (hp.copyObj (p.size t) a).map fun r => (r.1, .obj r.2))
    (hbody' : ∀ hp a m, hp.Ok a (p.size t) → p.impl 3 hp [.obj a m] =
      (hp.moveObj (p.moved t) (p.size t) a).map fun r => (r.1, .obj r.2)) :
    PlainCopy p t ∧ PlainMove p t := by
  have hcop : p.w.isCopiable t = true := by
    unfold World.isCopiable World.constructibleFrom
    rw [hctors]
    have hmc := match_copy_constref p.w.env t hconv (child_refl p.w t)
    simp only [plumbedConstructors, hcopy, hmove, Overloads.test, List.any_append,
      Bool.and_self, if_true, List.any_cons, List.any_nil, Bool.or_false]
    have : Fn.test p.w.env (Fn.make (p.w.ty t).id ⟨t, .copy, false⟩ [⟨t, .lvalue, true⟩] 1)
        ⟨t, .copy, false⟩ [⟨t, .copy, false⟩] = .part := by
      simp [Fn.test, Fn.make, testReturn_self, testArguments, testArgumentsLoop, hmc, combine]
    simp [this]
  have hmov : p.w.isMovable t = true := by
    unfold World.isMovable World.constructibleFrom
    rw [hctors]
    have hmc := match_rvalue_constref p.w.env t hconv (child_refl p.w t)
    simp only [plumbedConstructors, hcopy, hmove, Overloads.test, List.any_append,
      Bool.and_self, if_true, List.any_cons, List.any_nil, Bool.or_false]
    have : Fn.test p.w.env (Fn.make (p.w.ty t).id ⟨t, .copy, false⟩ [⟨t, .lvalue, true⟩] 1)
        ⟨t, .copy, false⟩ [⟨t, .rvalue, false⟩] = .part := by
      simp [Fn.test, Fn.make, testReturn_self, testArguments, testArgumentsLoop, hmc, combine]
    simp [this]
  have hc1 : IsCopyCtor p t (Fn.make (p.w.ty t).id ⟨t, .copy, false⟩ [⟨t, .lvalue, true⟩] 1) :=
    ⟨rfl, rfl, hbody⟩
  have hm1 : IsMoveCtor p t (Fn.make (p.w.ty t).id ⟨t, .copy, false⟩ [⟨t, .rvalue, false⟩] 3) :=
    ⟨rfl, rfl, hbody'⟩
  have hdef : ∀ g ∈ (if c.defaultConstructible then [Fn.make (p.w.ty t).id (⟨t, .copy, false⟩ : Arg) [] 0]
      else []), NotFor p t g := by
    intro g hg
    split at hg
    · simp only [List.mem_singleton] at hg; subst hg; exact .inl (by simp [Fn.make])
    · cases hg
  have hmid : plumbedConstructors t (p.w.ty t).id c =
      (if c.defaultConstructible then [Fn.make (p.w.ty t).id ⟨t, .copy, false⟩ [] 0] else []) ++
      [Fn.make (p.w.ty t).id ⟨t, .copy, false⟩ [⟨t, .lvalue, true⟩] 1,
       Fn.make (p.w.ty t).id ⟨t, .copy, false⟩ [⟨t, .rvalue, false⟩] 3] := by
    simp only [plumbedConstructors, hcopy, hmove, Bool.and_true, if_true]
    simp
  rw [hmid] at hctors
  generalize (if c.defaultConstructible then
    [Fn.make (p.w.ty t).id (⟨t, .copy, false⟩ : Arg) [] 0] else []) = d at hdef hctors
  constructor
  · refine ⟨hv, hd, hvd, hcop, by rw [hcaps]; exact hcopy, by rw [hcaps]; exact hmove, d, _,
      Fn.make (p.w.ty t).id ⟨t, .copy, false⟩ [⟨t, .rvalue, false⟩] 3 :: o, ?_, hc1, ?_⟩
    · rw [hctors]; simp
    · intro g hg
      rcases List.mem_append.1 hg with hg | hg
      · exact .inr (hdef g hg)
      · rcases List.mem_cons.1 hg with rfl | hg
        · exact .inl hm1
        · exact .inr (ho g hg)
  · refine ⟨hv, hd, hvd, hmov, by rw [hcaps]; exact hmove,
      d ++ [Fn.make (p.w.ty t).id ⟨t, .copy, false⟩ [⟨t, .lvalue, true⟩] 1], _, o, ?_, hm1, ?_⟩
    · rw [hctors]; simp
    · intro g hg
      rcases List.mem_append.1 hg with hg | hg
      · rcases List.mem_append.1 hg with hg | hg
        · exact .inr (hdef g hg)
        · simp only [List.mem_singleton] at hg; subst hg; exact .inl hc1
      · exact .inr (ho g hg)

'''+s[j:]
# C33
i=s.index("/-- C33 is false of the code: casting to an rvalue reference never"); j=s.index("/-! ### C34 -/")
s=s[:i]+'''/-- C33 is false of the code: casting to an rvalue reference never looks at the constness of the
    handle. For every movable type the object of a const handle is moved from, even by a cast to
    `const T&&`. -/
theorem C33_const_moved_from (p : Prog) (rec : Runner) (hp : Heap) (v : Handle) (t : Ty) (k : Bool)
    (hmov : p.w.isMovable t = true) (hch : p.w.env.child v.arg.type t = true)
    (hcap : (p.caps t).moveConstructible = true) (hok : hp.Ok v.addr (p.size t)) :
    ∃ hp' a, p.castTo rec hp v.toConst ⟨t, .rvalue, k⟩ = .ok (hp', .obj a true) ∧
      ∀ i < p.size t, hp'.mem (v.addr + i) = p.moved t (hp.mem (v.addr + i)) := by
  have hne : (⟨t, .rvalue, k⟩ : Arg) ≠ p.valueArg := by simp [Prog.valueArg]
  obtain ⟨hp', h1, h2⟩ := moveObj_source hp (p.moved t) (p.size t) v.addr hok
  refine ⟨hp', hp.next, ?_, h2⟩
  unfold Prog.castTo
  rw [if_neg hne]
  have hch' : p.w.env.child v.toConst.arg.type t = true := hch
  simp only [Prog.castV, hmov, if_true, hch', Prog.castRet, hcap, Handle.as]
  have : v.toConst.addr = v.addr := rfl
  rw [this, h1]

theorem test_none_of_param (e : Env) (f : Fn) (want : Arg) (as : List Arg) (i : Nat) (hi : i < as.length)
    (hf : i < f.args.length) (h : isConvertibleTo e as[i] f.args[i] = .none) :
    f.test e want as = .none := by
  have : testArguments e as f.args = .none := by
    refine Classical.byContradiction fun hh => ?_
    have := (C23_arguments_iff e as f.args).1 hh
    exact this.2 i hi hf h
  unfold Fn.test
  rw [this]; unfold combine; simp

/-- C33 (3). A whole call never moves from the object of a const value through a `T&&` parameter: the
    call is refused before anything is copied, moved or run, unless the value's type declares a
    converter to `T` (which makes a new object). -/
theorem C33_call_refuses_const (p : Prog) (fuel : Nat) (hp : Heap) (f : Fn) (want : Arg)
    (as : List Actual) (i : Nat) (hi : i < as.length) (hf : i < f.args.length) (t : Ty)
    (ht : f.args[i] = ⟨t, .rvalue, false⟩) (hc : as[i].arg.isConst = true)
    (hv : as[i].arg.type ≠ p.w.valueT) (htv : t ≠ p.w.valueT)
    (hconv : p.w.env.conv as[i].arg.type t = false) :
    p.callFn fuel hp f want as = .error .err ∧
    ∀ o, p.callOv fuel hp o want as ≠ .error .err →
      ∃ g ∈ o, p.callOv fuel hp o want as = p.callFn fuel hp g want as ∧ g ≠ f := by
  have htest : f.test p.w.env want (as.map Actual.arg) = .none := by
    apply test_none_of_param p.w.env f want _ i (by simpa using hi) hf
    rw [ht, List.getElem_map]
    refine Classical.byContradiction fun hh => ?_
    have := (C21_rvalue_ref_safe p.w.env (child_refl p.w) as[i].arg ⟨t, .rvalue, false⟩ hv htv hconv
      rfl hh).2.1 hc
    cases this
  have h1 : p.callFn fuel hp f want as = .error .err := by
    unfold Prog.callFn; rw [if_pos htest]
  refine ⟨h1, ?_⟩
  intro o ho
  unfold Prog.callOv at ho ⊢
  cases hs : o.select p.w.env want (as.map Actual.arg) with
  | error x =>
    exfalso
    rw [hs] at ho
    have := select_error_err p.w.env want (as.map Actual.arg) o x hs
    subst this
    exact ho rfl
  | ok g =>
    rw [hs] at ho
    refine ⟨g, select_mem p.w.env want (as.map Actual.arg) o g hs, rfl, ?_⟩
    rintro rfl
    exact ho h1

/-- C33 is false of the code: a whole call of a function that takes `const T&&` accepts a const value of
    type `T` and moves from its object. -/
theorem C33_const_rvalue_parameter (p : Prog) (fuel : Nat) (hp : Heap) (f : Fn) (v : Handle)
    (hargs : f.args = [⟨v.arg.type, .rvalue, true⟩]) (hret : f.ret.type = p.w.voidT)
    (hmov : p.w.isMovable v.arg.type = true)
    (hcap : (p.caps v.arg.type).moveConstructible = true) (hok : hp.Ok v.addr (p.size v.arg.type)) :
    ∃ hp' a, (∀ i < p.size v.arg.type,
        hp'.mem (v.addr + i) = p.moved v.arg.type (hp.mem (v.addr + i))) ∧
      p.callFn (fuel + 1) hp f ⟨p.w.voidT, .copy, false⟩ [.dyn v.toConst] =
        match p.impl f.body hp' [.obj a true] with
        | .error x => .error x
        | .ok (h2, r) => (p.wrapRet h2 f.ret r).map fun r => (r.1, none) := by
  obtain ⟨hp', a, h1, h2⟩ := C33_const_moved_from p (p.run fuel) hp v v.arg.type true hmov
    (child_refl _ _) hcap hok
  refine ⟨hp', a, h2, ?_⟩
  have htest : f.test p.w.env ⟨p.w.voidT, .copy, false⟩ [v.toConst.arg] ≠ .none := by
    have : isConvertibleTo p.w.env v.toConst.arg ⟨v.arg.type, .rvalue, true⟩ = .exact := by
      unfold isConvertibleTo; rw [if_pos rfl]
    have hr : testReturn p.w.env ⟨p.w.voidT, .copy, false⟩ f.ret ≠ .none := by
      unfold testReturn; simp [World.env, hret]
    unfold Fn.test
    rw [hargs]
    cases hm : testReturn p.w.env ⟨p.w.voidT, .copy, false⟩ f.ret <;>
      simp_all [testArguments, testArgumentsLoop, combine]
  unfold Prog.callFn
  rw [if_neg (by simpa using htest)]
  simp only [Prog.toHandles, Prog.run, hargs, Prog.bind, h1]
  cases p.impl f.body hp' [.obj a true] with
  | error x => rfl
  | ok r =>
    obtain ⟨h3, r⟩ := r
    simp only
    cases p.wrapRet h3 f.ret r with
    | error x => rfl
    | ok r => simp [Prog.retCast, Except.map]

'''+s[j:]
# C34_copy
rep("""    (href : t.ref = .copy) (hplain : PlainCopy p t.type) (hv : v.arg.type ≠ p.w.valueT)
    (hok""","""    (href : t.ref = .copy) (hplain : PlainCopy p t.type) (hmv : p.w.isMovable t.type = true)
    (hv : v.arg.type ≠ p.w.valueT)
    (hok""")
rep("""      obtain ⟨hp', a', h, -⟩ := castTo_copy_plain p t hp v fuel href hplain hok hch
      exact ⟨_, h⟩
""","""      obtain ⟨h1, a1, e1, x1⟩ := construct_any p t.type hp v fuel hplain hmv hok hv hch hconv
      obtain ⟨h2, a2, e2, -⟩ := copyObj_fresh h1 (p.size t.type) a1 x1
      refine ⟨(h2, .obj a2 true), ?_⟩
      unfold Prog.castTo
      rw [if_neg hne]
      simp only [Prog.castV, href, hplain.copiable, hch, if_true, e1, Prog.castRet, hplain.copyable, Handle.get,
        child_refl, e2]
""")
i=s.index("/-! ### C60: which constructor copies -/"); j=s.index("/-! ### a concrete program -/")
s=s[:i]+s[j:]
i=s.index("/-- C60 is false of the code: with a constructor")
s=s[:i]+"end Reflect\n"
i=s.index("/-- the demo type `T` is plumbed"); j=s.index("/-- a call `f(T, const T&)`")
s=s[:i]+'''/-- the demo type `T` is plumbed, hence plainly copied and moved; its child is passed by value as a `T` -/
theorem plainT : PlainCopy prog 2 ∧ PlainMove prog 2 := by
  refine C32_plumbed prog 2 ⟨true, true, true, true, true⟩ [] (by decide) (by decide) (by decide)
    rfl rfl rfl (by decide) (by decide) (by simp) ?_ ?_
  · intro hp a m h; rfl
  · intro hp a m h; rfl

theorem copiedObj : Copied prog obj.arg 2 := ⟨by decide, by decide, by decide, by decide⟩

example : heap.Ok obj.addr (prog.size 2) ∧ prog.w.env.child obj.arg.type 2 = true ∧
    SimpleParam prog heap obj ⟨2, .copy, false⟩ ∧ SimpleParam prog heap obj ⟨2, .lvalue, true⟩ :=
  ⟨by decide, by decide, .byValue rfl plainT.1 (by decide) copiedObj, .ref rfl⟩

example : MovedFrom prog obj.rvalue.arg 2 ∧ Copied prog obj.toConst.arg 2 :=
  ⟨⟨by decide, by decide, by decide, by decide⟩, ⟨by decide, by decide, by decide, by decide⟩⟩

/-- passing `obj.rvalue()` by value empties it -/
example : (match prog.bind (prog.run 1) heap [obj.rvalue] [⟨2, .copy, false⟩] with
    | .ok (hp, [.obj a _]) => decide (hp.mem a = 7 ∧ hp.mem 1 = 0)
    | _ => false) = true := by decide

'''+s[j:]
i=s.index("/-- a const handle is moved from by a reflected call"); j=s.index("example : prog.w.isMovable 2")
s=s[:i]+'''/-- a const handle is refused by a reflected call of `f(T&&)`, and moved from by one of `f(const T&&)`:
    cell 1 changes from 7 to 0 -/
example : (prog.callOv 1 heap [Fn.make ['f'] ⟨0, .copy, false⟩ [⟨2, .rvalue, false⟩] 9]
      ⟨0, .copy, false⟩ [.dyn obj.toConst]).toOption.isSome = false ∧
    (match prog.callOv 1 heap [Fn.make ['f'] ⟨0, .copy, false⟩ [⟨2, .rvalue, true⟩] 9]
      ⟨0, .copy, false⟩ [.dyn obj.toConst] with
    | .ok (hp, _) => decide (hp.mem 1 = 0)
    | _ => false) = true := by decide

'''+s[j:]
open('Props/Value.lean','w').write(s)

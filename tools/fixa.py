import re
s=open('Props/Assign.lean').read()
def rep(a,b):
    global s
    assert a in s,a
    s=s.replace(a,b)
rep("""  derives : p.w.env.child s t = true
  ops""","""  derives : p.w.env.child s t = true
  noConverter : p.w.env.conv s t = false
  fromNotValue : s ≠ p.w.valueT
  ops""")
rep("(`C71_plumbed`).  `s` is `t` or inherits them. -/","(`C71_plumbed`).  `s` is `t`, or inherits them and has no conversion operator to `t`. -/")
i=s.index("/-- how a two-argument operator"); j=s.index("/-- binding the two parameters of an assignment -/")
s=s[:i]+'''/-- the receiver of `v.assign` matches `t&` exactly, if it is a mutable lvalue -/
theorem match_receiver (p : Prog) (va : Arg) (t : Ty) (copy move : Bool)
    (hA : Assignable p va.type t copy move) (hv : va.isConst = false ∧ va.ref = .lvalue) :
    isConvertibleTo p.w.env va ⟨t, .lvalue, false⟩ = .exact := by
  have h1 := hA.notValue
  have h2 := hA.fromNotValue
  have h3 := hA.noConverter
  have h4 := hA.derives
  obtain ⟨s, r, k⟩ := va
  obtain ⟨hk, hr⟩ := hv
  simp only at hk hr h2 h3 h4
  subst hk; subst hr
  unfold isConvertibleTo
  split
  · rfl
  · rw [if_neg (by simp [World.env, h1, h2]), if_neg (by simp [h3])]
    simp [testConstConversion, h4]

/-- how a two-argument operator with a `t&` first matches `v.assign(x)`: as its second parameter does -/
theorem test_assign (p : Prog) (f : Fn) (t : Ty) (u : Arg) (va a : Arg) {copy move : Bool}
    (hA : Assignable p va.type t copy move) (hv : va.isConst = false ∧ va.ref = .lvalue)
    (hargs : f.args = [⟨t, .lvalue, false⟩, u]) :
    f.test p.w.env p.voidArg [va, a] = isConvertibleTo p.w.env a u := by
  have h1 := match_receiver p va t copy move hA hv
  have h2 : testReturn p.w.env p.voidArg f.ret = .exact := by
    simp [testReturn, Prog.voidArg, World.env]
  unfold Fn.test testArguments
  rw [h2, hargs]
  simp only [List.length_cons, List.length_nil, ne_eq, not_true_eq_false, if_false, testArgumentsLoop, h1]
  cases isConvertibleTo p.w.env a u <;> simp [combine]

'''+s[j:]
s=s.replace("p.dynArg true","v.arg").replace("(p.actualArg x)","x.arg").replace("p.actualArg x","x.arg").replace(".dyn v true",".dyn v").replace(".map p.actualArg",".map Actual.arg")
s=re.sub(r"test_assign p (f[cm]) t _ (⟨u, \.rvalue, \w+⟩|x\.arg|arg) hA\.notValue (h[cm]a)", r"test_assign p \1 t _ v.arg \2 hA hv \3", s)
# C71_copy
i=s.index("/-- C71. Assigning an lvalue, or a `Value`, whose object"); j=s.index("  have hsel : Overloads.select p.w.env ((if (true : Bool) then [fc] else []) ++ (if move then [fm] else [])) p.voidArg [v.arg, x.arg] = .ok fc")
s=s[:i]+'''/-- C71. Assigning an lvalue, or a `Value` that is not an `rvalue()` of a mutable object, whose object is a
    `t` to a mutable value copies the contents of that object into the value's own object, and changes
    nothing else: not the source, and not which objects the two values refer to. -/
theorem C71_copy (p : Prog) (fuel : Nat) (hp : Heap) (v : Handle) (x : Actual) (t : Ty) (move : Bool)
    (hA : Assignable p v.arg.type t true move)
    (hv : v.arg.isConst = false ∧ v.arg.ref = .lvalue)
    (hok : hp.Ok v.addr (p.size t)) (hokx : hp.Ok x.handle.addr (p.size t))
    (hcp : Copied p x.arg t)
    (hx : ∀ arg a, x = .native arg a → arg.ref = .lvalue) :
    ∃ hp', p.assign (fuel + 1) hp v x = .ok hp' ∧ Assigned p hp hp' t v.addr x.handle.addr := by
  obtain ⟨fc, fm, hf, hca, hcr, hma, hmr, hcb, hmb⟩ := hA.ops
  have tc := test_assign p fc t _ v.arg x.arg hA hv hca
  have tm := test_assign p fm t _ v.arg x.arg hA hv hma
  obtain ⟨h2, e1, e2, e3, e4⟩ := assignObj_ok hp (p.size t) v.addr x.handle.addr hok hokx
  have hch : p.w.env.child x.handle.arg.type t = true := by
    rw [← arg_handle]; exact hcp.derives
  have hm : fc.test p.w.env p.voidArg [v.arg, x.arg] ≠ .none ∧
      (fc.test p.w.env p.voidArg [v.arg, x.arg] = .exact ∨
        fm.test p.w.env p.voidArg [v.arg, x.arg] = .none) := by
    rw [tc, tm, match_constref_arg p.w.env x.arg t hcp.notValue hA.notValue hcp.noConverter hcp.derives,
      match_rref_arg p.w.env x.arg t hcp.notValue hA.notValue hcp.noConverter hcp.derives,
      if_neg hcp.notMoved]
    split <;> simp
'''+s[j:]
rep("""      · exact (hx arg a e).1)]
    rfl
  have hne : (⟨t, .lvalue, true⟩""","""      · exact hx arg a e)]
    rfl
  have hne : (⟨t, .lvalue, true⟩""")
i=s.index("/-! ### C71 -/")
s=s[:i]+'''theorem arg_handle (x : Actual) : x.arg = x.handle.arg := by cases x <;> rfl

theorem match_constref_arg (e : Env) (a : Arg) (t : Ty) (hu : a.type ≠ e.valueT) (ht : t ≠ e.valueT)
    (hconv : e.conv a.type t = false) (hch : e.child a.type t = true) :
    isConvertibleTo e a ⟨t, .lvalue, true⟩ =
      if a.ref = .lvalue ∧ a.isConst = true then .exact else .part :=
  match_constref e a.type t a.ref a.isConst hu ht hconv hch

theorem match_rref_arg (e : Env) (a : Arg) (t : Ty) (hu : a.type ≠ e.valueT) (ht : t ≠ e.valueT)
    (hconv : e.conv a.type t = false) (hch : e.child a.type t = true) :
    isConvertibleTo e a ⟨t, .rvalue, false⟩ =
      if a.ref = .rvalue ∧ a.isConst = false then .exact else .none :=
  match_rref e a.type t a.ref a.isConst hu ht hconv hch

/-- the match with a class the argument's declares a converter to -/
theorem match_convertible (e : Env) (a u : Arg) (ha : a.type ≠ e.valueT) (hu : u.type ≠ e.valueT)
    (hne : a ≠ u) (hconv : e.conv a.type u.type = true) :
    isConvertibleTo e a u = if u.ref ≠ .lvalue then .part else .none := by
  unfold isConvertibleTo
  rw [if_neg hne, if_neg (by simp [ha, hu]), if_pos hconv]

'''+s[i:]
# move-only .. unrelated .. converted
i=s.index("/-- C71 is false of the code for types with a move assignment only"); j=s.index("/-- the assignment operators the plumbing registers for a class -/")
s=s[:i]+'''/-- the move assignment run on a `Value` -/
theorem assign_by_move (p : Prog) (fuel : Nat) (hp : Heap) (v w : Handle) (t : Ty) (copy : Bool)
    (hA : Assignable p v.arg.type t copy true)
    (hv : v.arg.isConst = false ∧ v.arg.ref = .lvalue)
    (hok : hp.Ok v.addr (p.size t)) (hokw : hp.Ok w.addr (p.size t))
    (hch : p.w.env.child w.arg.type t = true)
    (hmt : (p.caps t).moveConstructible = true) (hmov : p.w.isMovable t = true)
    (hm : isConvertibleTo p.w.env w.arg ⟨t, .rvalue, false⟩ ≠ .none)
    (hc : isConvertibleTo p.w.env w.arg ⟨t, .lvalue, true⟩ = .none ∨
      (isConvertibleTo p.w.env w.arg ⟨t, .rvalue, false⟩ = .exact ∧
        isConvertibleTo p.w.env w.arg ⟨t, .lvalue, true⟩ ≠ .exact))
    (hdis : w.addr + p.size t ≤ v.addr ∨ v.addr + p.size t ≤ w.addr) :
    ∃ hp', p.assign (fuel + 1) hp v (.dyn w) = .ok hp' ∧
      (∀ i < p.size t, hp'.mem (v.addr + i) = hp.mem (w.addr + i) ∧
        hp'.mem (w.addr + i) = p.moved t (hp.mem (w.addr + i))) ∧
      ∀ x < hp.next, x < v.addr ∨ v.addr + p.size t ≤ x → x < w.addr ∨ w.addr + p.size t ≤ x →
        hp'.mem x = hp.mem x := by
  obtain ⟨fc, fm, hf, hca, hcr, hma, hmr, hcb, hmb⟩ := hA.ops
  have tc := test_assign p fc t _ v.arg w.arg hA hv hca
  have tm := test_assign p fm t _ v.arg w.arg hA hv hma
  rw [← tm] at hm
  rw [← tm, ← tc] at hc
  have hsel := select_move p.w.env p.voidArg [v.arg, w.arg] fc fm copy hm (.inr hc)
  have hh : p.toHandles hp [.dyn v, .dyn w] = .ok (hp, [v, w]) := by
    simp [Prog.toHandles]
  obtain ⟨o1, o2⟩ := hok
  obtain ⟨a1, a2⟩ := hokw
  obtain ⟨h2, d1, d2, d3, d4⟩ := moveObj_ok hp (p.moved t) (p.size t) w.addr ⟨a1, a2⟩
  obtain ⟨h2', d5, d6⟩ := moveObj_source hp (p.moved t) (p.size t) w.addr ⟨a1, a2⟩
  rw [d1] at d5
  simp only [Except.ok.injEq, Prod.mk.injEq, and_true] at d5
  subst d5
  have hne : (⟨t, .rvalue, false⟩ : Arg) ≠ p.valueArg := by simp [Prog.valueArg]
  have hcast : p.castTo (p.run fuel) hp w ⟨t, .rvalue, false⟩ = .ok (h2, .obj hp.next true) := by
    simp [Prog.castTo, if_neg hne, Prog.castV, hmov, hch, Prog.castRet, hmt, Handle.as, d1]
  obtain ⟨h3, e1, e2, e3, e4⟩ := moveAssignObj_ok h2 (p.moved t) (p.size t) v.addr hp.next
    ⟨o1, by omega⟩ ⟨by omega, by omega⟩
  have hrun := run_assign p fuel hp h2 h3 fm v w t _ hp.next true hA.notValue hma hmr hv hA.derives
    hcast (by rw [hmb, e1]; rfl)
  refine ⟨h3, assign_of_select p _ hp v (.dyn w) _ fm hf hsel hm hp h3 _ _ hh hrun,
    fun i hi => ⟨?_, ?_⟩, ?_⟩
  · rw [e3 i hi, d3 i hi]
  · rw [e4 _ (by omega) (by omega), d6 i hi]
  · intro x hx hx1 hx2
    rw [e4 x hx1 (by omega), d4 x hx hx2]

/-- C71. Assigning an `rvalue()` of a mutable object, to a mutable value of a type with a move assignment:
    the value's object gets the contents of the source's object, which is moved from; nothing else
    changes. -/
theorem C71_move_value (p : Prog) (fuel : Nat) (hp : Heap) (v w : Handle) (t : Ty) (copy : Bool)
    (hA : Assignable p v.arg.type t copy true)
    (hv : v.arg.isConst = false ∧ v.arg.ref = .lvalue)
    (hok : hp.Ok v.addr (p.size t)) (hokw : hp.Ok w.addr (p.size t)) (hw : MovedFrom p w.arg t)
    (hmt : (p.caps t).moveConstructible = true) (hmov : p.w.isMovable t = true)
    (hdis : w.addr + p.size t ≤ v.addr ∨ v.addr + p.size t ≤ w.addr) :
    ∃ hp', p.assign (fuel + 1) hp v (.dyn w) = .ok hp' ∧
      (∀ i < p.size t, hp'.mem (v.addr + i) = hp.mem (w.addr + i) ∧
        hp'.mem (w.addr + i) = p.moved t (hp.mem (w.addr + i))) ∧
      ∀ x < hp.next, x < v.addr ∨ v.addr + p.size t ≤ x → x < w.addr ∨ w.addr + p.size t ≤ x →
        hp'.mem x = hp.mem x := by
  have h1 := match_rref_arg p.w.env w.arg t hw.notValue hA.notValue hw.noConverter hw.derives
  have h2 := match_constref_arg p.w.env w.arg t hw.notValue hA.notValue hw.noConverter hw.derives
  rw [if_pos hw.isMoved] at h1
  rw [if_neg (by rw [hw.isMoved.1]; simp)] at h2
  exact assign_by_move p fuel hp v w t copy hA hv hok hokw hw.derives hmt hmov (by rw [h1]; simp)
    (.inr ⟨h1, by rw [h2]; simp⟩) hdis

/-- C71. A type with a move assignment only refuses everything but temporaries and `rvalue()`s of mutable
    objects: an lvalue or a const object of the type is refused before anything happens. -/
theorem C71_move_only_refuses (p : Prog) (fuel : Nat) (hp : Heap) (v : Handle) (x : Actual) (t : Ty)
    (hA : Assignable p v.arg.type t false true)
    (hv : v.arg.isConst = false ∧ v.arg.ref = .lvalue) (hcp : Copied p x.arg t) :
    p.assign fuel hp v x = .error .err := by
  obtain ⟨fc, fm, hf, hca, hcr, hma, hmr, hcb, hmb⟩ := hA.ops
  have tm := test_assign p fm t _ v.arg x.arg hA hv hma
  rw [match_rref_arg p.w.env x.arg t hcp.notValue hA.notValue hcp.noConverter hcp.derives,
    if_neg hcp.notMoved] at tm
  have e : ([.dyn v, x] : List Actual).map Actual.arg = [v.arg, x.arg] := rfl
  have hs : Overloads.select p.w.env ((if (false : Bool) then [fc] else []) ++ (if (true : Bool) then [fm] else []))
      p.voidArg [v.arg, x.arg] = .error .err := by
    rw [select_assign]; simp [tm]
  unfold Prog.assign Prog.callMethod
  rw [hf]
  simp only [Prog.callOv]
  rw [e, hs]
  rfl

/-- C71 is false of the code: a `Value` whose class derives from the receiver's and also declares a conversion
    operator to it is moved from, even if it is const. -/
theorem C71_converting_child_emptied (p : Prog) (fuel : Nat) (hp : Heap) (v w : Handle) (t : Ty) (copy : Bool)
    (hA : Assignable p v.arg.type t copy true)
    (hv : v.arg.isConst = false ∧ v.arg.ref = .lvalue)
    (hok : hp.Ok v.addr (p.size t)) (hokw : hp.Ok w.addr (p.size t))
    (hwv : w.arg.type ≠ p.w.valueT) (hne : w.arg.type ≠ t) (hch : p.w.env.child w.arg.type t = true)
    (hconv : p.w.env.conv w.arg.type t = true)
    (hmt : (p.caps t).moveConstructible = true) (hmov : p.w.isMovable t = true)
    (hdis : w.addr + p.size t ≤ v.addr ∨ v.addr + p.size t ≤ w.addr) :
    ∃ hp', p.assign (fuel + 1) hp v (.dyn w) = .ok hp' ∧
      ∀ i < p.size t, hp'.mem (v.addr + i) = hp.mem (w.addr + i) ∧
        hp'.mem (w.addr + i) = p.moved t (hp.mem (w.addr + i)) := by
  have h1 := match_convertible p.w.env w.arg ⟨t, .rvalue, false⟩ hwv hA.notValue
    (by intro h; exact hne (by rw [h])) hconv
  have h2 := match_convertible p.w.env w.arg ⟨t, .lvalue, true⟩ hwv hA.notValue
    (by intro h; exact hne (by rw [h])) hconv
  obtain ⟨hp', e1, e2, -⟩ := assign_by_move p fuel hp v w t copy hA hv hok hokw hch hmt hmov
    (by rw [h1]; simp) (.inl (by rw [h2]; simp)) hdis
  exact ⟨hp', e1, e2⟩

/-- C71. A value that is const, or an `rvalue()`, cannot be assigned to: whatever the source, the assignment
    raises before anything is stored, moved or run. -/
theorem C71_readonly (p : Prog) (fuel : Nat) (hp : Heap) (v : Handle) (x : Actual) (t : Ty) (copy move : Bool)
    (hA : Assignable p v.arg.type t copy move)
    (hv : v.arg.isConst = true ∨ v.arg.ref ≠ .lvalue) : p.assign fuel hp v x = .error .err := by
  obtain ⟨fc, fm, hf, hca, hcr, hma, hmr, hcb, hmb⟩ := hA.ops
  have e : ([.dyn v, x] : List Actual).map Actual.arg = [v.arg, x.arg] := rfl
  have hno : isConvertibleTo p.w.env v.arg ⟨t, .lvalue, false⟩ = .none := by
    refine Classical.byContradiction fun hh => ?_
    obtain ⟨h1, h2, -⟩ := C21_mutable_ref_safe p.w.env (child_refl p.w) v.arg ⟨t, .lvalue, false⟩
      hA.fromNotValue hA.notValue rfl rfl hh
    rcases hv with h | h
    · rw [h2] at h; cases h
    · exact h h1
  have key : ∀ (f : Fn) (u : Arg), f.args = [⟨t, .lvalue, false⟩, u] →
      f.test p.w.env p.voidArg [v.arg, x.arg] = .none := by
    intro f u hu
    exact test_none_of_param p.w.env f p.voidArg [v.arg, x.arg] 0 (by simp) (by simp [hu])
      (by simpa [hu] using hno)
  unfold Prog.assign Prog.callMethod
  rw [hf]
  simp only [Prog.callOv]
  rw [e, select_neither _ _ _ _ _ _ _ (key fc _ hca) (key fm _ hma)]
  rfl

/-- C71. An object, or a `Value`, of a type that neither derives from the receiver's nor converts to it is
    refused. -/
theorem C71_unrelated (p : Prog) (fuel : Nat) (hp : Heap) (v : Handle) (x : Actual) (t : Ty)
    (copy move : Bool) (hA : Assignable p v.arg.type t copy move) (hu : x.arg.type ≠ p.w.valueT)
    (hch : p.w.env.child x.arg.type t = false) (hconv : p.w.env.conv x.arg.type t = false) :
    p.assign fuel hp v x = .error .err := by
  obtain ⟨fc, fm, hf, hca, hcr, hma, hmr, hcb, hmb⟩ := hA.ops
  have e : ([.dyn v, x] : List Actual).map Actual.arg = [v.arg, x.arg] := rfl
  have hna : ∀ u : Arg, u.type = t → isConvertibleTo p.w.env x.arg u = .none := by
    intro u hut
    generalize x.arg = arg at hu hch hconv ⊢
    have hne : arg ≠ u := by
      intro h; rw [h, hut, child_refl] at hch; cases hch
    have ht := hA.notValue
    unfold isConvertibleTo
    rw [if_neg hne, if_neg (by simp [World.env, hu, hut, ht])]
    simp only [hut, hconv, hch]
    repeat (first | rfl | split | (intros; contradiction))
    all_goals simp_all
  have key : ∀ (f : Fn) (u : Arg), u.type = t → f.args = [⟨t, .lvalue, false⟩, u] →
      f.test p.w.env p.voidArg [v.arg, x.arg] = .none := by
    intro f u hut hu
    exact test_none_of_param p.w.env f p.voidArg [v.arg, x.arg] 1 (by simp) (by simp [hu])
      (by simpa [hu] using hna u hut)
  unfold Prog.assign Prog.callMethod
  rw [hf]
  simp only [Prog.callOv]
  rw [e, select_neither _ _ _ _ _ _ _ (key fc _ rfl hca) (key fm _ rfl hma)]
  rfl

/-- C71. An object, or a `Value`, of a type that does not derive from the receiver's but declares one converter
    to it is converted, and the receiver gets the contents of the result.  (A converter always leads to the
    move assignment: it never binds `const t&`.) -/
theorem C71_converted (p : Prog) (hcl : p.w.Closed) (hac : p.w.Acyclic) (fuel : Nat) (hp h2 : Heap)
    (v : Handle) (x : Actual) (t : Ty) (copy : Bool)
    (hA : Assignable p v.arg.type t copy true)
    (hv : v.arg.isConst = false ∧ v.arg.ref = .lvalue)
    (hlv : ∀ arg a, x = .native arg a → arg.ref = .lvalue) (hun : x.handle.arg.type < p.w.n)
    (hu : x.handle.arg.type ≠ p.w.valueT)
    (hch : p.w.env.child x.handle.arg.type t = false) (f : Fn) (src : Ty) (b : Nat)
    (hconv : p.w.Nearest (fun d => d.fns.get (World.converterName (p.w.ty t).id)) x.handle.arg.type [f])
    (hargs : f.args = [⟨src, .lvalue, true⟩]) (hsrc : src ≠ p.w.valueT)
    (hret : f.ret = ⟨t, .copy, false⟩) (hself : p.w.env.child x.handle.arg.type src = true)
    (hsc : p.w.env.conv x.handle.arg.type src = false)
    (hmov : p.w.isMovable t = true)
    (hmt : (p.caps t).moveConstructible = true) (hct : (p.caps t).copyConstructible = true)
    (hbody : p.impl f.body hp [.obj x.handle.addr false] = .ok (h2, .obj b))
    (hok : h2.Ok v.addr (p.size t)) (hokb : h2.Ok b (p.size t)) :
    ∃ hp', p.assign (fuel + 2) hp v x = .ok hp' ∧
      (∀ i < p.size t, hp'.mem (v.addr + i) = h2.mem (b + i)) ∧
      ∀ y < h2.next, y < v.addr ∨ v.addr + p.size t ≤ y → y < b ∨ b + p.size t ≤ y →
        hp'.mem y = h2.mem y := by
  obtain ⟨fc, fm, hf, hca, hcr, hma, hmr, hcb, hmb⟩ := hA.ops
  have hseen : p.w.env.conv x.handle.arg.type t = true := by
    obtain ⟨k, u, h1, h2, -⟩ := hconv
    exact (C69_seen_iff_declared p.w hcl hac _ _ hun).2 ⟨k, u, h1, by simp [h2]⟩
  have ht := hA.notValue
  have hne : ∀ u : Arg, u.type = t → x.handle.arg ≠ u := by
    intro u hut h; rw [h, hut, child_refl] at hch; cases hch
  have tc := test_assign p fc t _ v.arg x.arg hA hv hca
  have tm := test_assign p fm t _ v.arg x.arg hA hv hma
  rw [arg_handle, match_convertible p.w.env _ _ hu hA.notValue (hne _ rfl) hseen] at tc tm
  rw [← arg_handle] at tc tm
  simp only [ne_eq, not_true_eq_false, if_false, reduceCtorEq, not_false_eq_true, if_true] at tc tm
  have hsel := select_move p.w.env p.voidArg [v.arg, x.arg] fc fm copy (by rw [tm]; simp)
    (.inr (.inl tc))
  have hh : p.toHandles hp [.dyn v, x] = .ok (hp, [v, x.handle]) := by
    rw [toHandles_simple p hp _ (by
      intro y hy arg a e
      simp only [List.mem_cons, List.not_mem_nil, or_false] at hy
      rcases hy with rfl | rfl
      · cases e
      · exact hlv arg a e)]
    rfl
  obtain ⟨h3, c, d1, d2, ⟨d3, d4⟩, d5, d6⟩ := C69_converted p hcl hac fuel hp h2 x.handle
    ⟨t, .rvalue, false⟩ f src true b hun (by simp) hA.distinct hA.notValue hA.notVoid (by simpa using hmov)
    hch hconv hargs hsrc hret hself hu hsc (.inl rfl) hbody hmt hct hokb
  simp only at d1 d2 d3 d4 d5 d6
  obtain ⟨o1, o2⟩ := hok
  obtain ⟨h4, e1, e2, e3, e4⟩ := moveAssignObj_ok h3 (p.moved t) (p.size t) v.addr c
    ⟨o1, by omega⟩ ⟨d3, d4⟩
  have hrun := run_assign p (fuel + 1) hp h3 h4 fm v x.handle t _ c true hA.notValue hma hmr hv
    hA.derives d1 (by rw [hmb, e1]; rfl)
  refine ⟨h4, assign_of_select p _ hp v x _ fm hf hsel (by rw [tm]; simp) hp h4 _ _ hh hrun, ?_, ?_⟩
  · intro i hi
    rw [e3 i hi, d5 i hi]
  · intro y hy hy1 hy2
    rw [e4 y hy1 (by omega), d6 y hy hy2]

'''+s[j:]
rep("(hvd : p.w.valueT ≠ p.w.voidT) (hch : p.w.env.child s t = true)\n","(hvd : p.w.valueT ≠ p.w.voidT) (hch : p.w.env.child s t = true)\n    (hnc : p.w.env.conv s t = false) (hs : s ≠ p.w.valueT)\n")
rep("⟨hv, hd, hvd, hch, _, _, hf, rfl","⟨hv, hd, hvd, hch, hnc, hs, _, _, hf, rfl")
rep("all (by decide) (by decide) (by decide) (by decide) rfl","all (by decide) (by decide) (by decide) (by decide) (by decide) (by decide) rfl")
rep("(by decide) (by decide) (by decide)\n    (by decide) rfl","(by decide) (by decide) (by decide)\n    (by decide) (by decide) (by decide) rfl")
i=s.index("/-- hypotheses of `C71_copy`"); j=s.index("/-- the remaining hypotheses of `C71_converted`")
s=s[:i]+'''/-- hypotheses of `C71_copy`, `C71_move`, `C71_const_temporary`, `C71_converted`, `C71_move_value` -/
example : heap.Ok tv.addr (prog.size 2) ∧ heap.Ok (Actual.dyn tw).handle.addr (prog.size 2) ∧
    prog.w.env.child tw.arg.type 2 = true ∧ prog.w.env.conv 2 2 = false ∧ prog.w.env.conv 3 2 = false ∧
    prog.w.isMovable 2 = true ∧ prog.w.isMovable 5 = true ∧ prog.w.env.child 4 2 = false ∧
    prog.w.env.conv 4 2 = true ∧ prog.w.env.conv 4 4 = false := by decide
example : Copied prog tw.arg 2 ∧ MovedFrom prog (Handle.rvalue ⟨⟨3, .lvalue, false⟩, 4, none⟩).arg 2 ∧
    Copied prog mw.arg 5 :=
  ⟨⟨by decide, by decide, by decide, by decide⟩, ⟨by decide, by decide, by decide, by decide⟩,
    ⟨by decide, by decide, by decide, by decide⟩⟩

/-- from a const value, the `rvalue()` of a const value, the `rvalue()` of a mutable one, an lvalue, a temporary,
    a const temporary, a convertible object, a convertible value; to a const value -/
example : cells (prog.assign 3 heap tv (.dyn tw)) = some [20, 21, 20, 21] := by decide
example : cells (prog.assign 3 heap tv (.dyn tw.rvalue)) = some [20, 21, 20, 21] := by decide
example : cells (prog.assign 3 heap tv (.dyn (Handle.rvalue ⟨⟨3, .lvalue, false⟩, 4, none⟩))) =
    some [20, 21, 0, 0] := by decide
example : cells (prog.assign 3 heap tv (.native ⟨3, .lvalue, false⟩ 4)) = some [20, 21, 20, 21] := by decide
example : cells (prog.assign 3 heap tv (.native ⟨3, .rvalue, false⟩ 4)) = some [20, 21, 0, 0] := by decide
example : cells (prog.assign 3 heap tv (.native ⟨2, .rvalue, true⟩ 4)) = some [20, 21, 20, 21] := by decide
example : cells (prog.assign 3 heap tv (.native ⟨4, .lvalue, true⟩ 4)) = some [20, 21, 20, 21] := by decide
example : cells (prog.assign 3 heap tv (.dyn ⟨⟨4, .lvalue, false⟩, 4, none⟩)) = some [20, 21, 20, 21] := by decide
example : cells (prog.assign 3 heap tw (.dyn tv)) = none := by decide
/-- a move-only object is refused unless it is an `rvalue()` of a mutable one -/
example : cells (prog.assign 3 heap mv (.dyn mw)) = none := by decide
example : cells (prog.assign 3 heap mv (.dyn mw.rvalue)) = none := by decide
example : cells (prog.assign 3 heap mv (.dyn (Handle.rvalue ⟨⟨5, .lvalue, false⟩, 4, none⟩))) =
    some [20, 21, 0, 0] := by decide

/-- the hypotheses of `C71_converting_child_emptied`: `C` given a converter to `T` -/
def convChild : TypeD :=
  { TypeD.new ['C'] with
    parent := some 2
    fns := [(World.converterName ['T'],
      [Fn.make (World.converterName ['T']) ⟨2, .copy, false⟩ [⟨3, .lvalue, true⟩] 5])] }

def progConv : Prog :=
  { prog with w := { world with ty := fun t => if t = 3 then convChild else world.ty t } }

example : progConv.w.env.child 3 2 = true ∧ progConv.w.env.conv 3 2 = true ∧ progConv.w.isMovable 2 = true ∧
    cells (progConv.assign 3 heap tv (.dyn ⟨⟨3, .lvalue, true⟩, 4, none⟩)) = some [20, 21, 0, 0] := by decide

'''+s[j:]
open('Props/Assign.lean','w').write(s)

import Verif.Model.Assign
import Verif.Props.Calls
/-
  Property C71: assigning through a value.
-/
namespace Reflect
open World

/-- The assignment operators `v.assign` finds for a value of type `s`: the copy assignment of `t`, if
    `copy`, then its move assignment, if `move` - what the standard plumbing of `t` registers
    (`C71_plumbed`).  `s` is `t`, or inherits them and has no conversion operator to `t`. -/
structure Assignable (p : Prog) (s t : Ty) (copy move : Bool) : Prop where
  notVoid : t ≠ p.w.voidT
  notValue : t ≠ p.w.valueT
  distinct : p.w.valueT ≠ p.w.voidT
  derives : p.w.env.child s t = true
  noConverter : p.w.env.conv s t = false
  fromNotValue : s ≠ p.w.valueT
  ops : ∃ fc fm : Fn,
    p.w.functionF p.w.fuel s "operator=".toList =
      .ok ((if copy then [fc] else []) ++ (if move then [fm] else [])) ∧
    fc.args = [⟨t, .lvalue, false⟩, ⟨t, .lvalue, true⟩] ∧ fc.ret = ⟨t, .lvalue, false⟩ ∧
    fm.args = [⟨t, .lvalue, false⟩, ⟨t, .rvalue, false⟩] ∧ fm.ret = ⟨t, .lvalue, false⟩ ∧
    (∀ hp a b k, p.impl fc.body hp [.obj a true, .obj b k] =
      (hp.assignObj (p.size t) a b).map fun h => (h, .obj a)) ∧
    (∀ hp a b k, p.impl fm.body hp [.obj a true, .obj b k] =
      (hp.moveAssignObj (p.moved t) (p.size t) a b).map fun h => (h, .obj a))

/-! ### which operator is chosen -/

/-- the receiver of `v.assign` matches `t&` exactly, if it is a mutable lvalue -/
theorem match_receiver (p : Prog) (va : Arg) (t : Ty) (copy move : Bool)
    (hA : Assignable p va.type t copy move) (hv : va.isConst = false ∧ va.ref = .lvalue) :
    isConvertibleTo p.w.env va ⟨t, .lvalue, false⟩ = .exact := by
  have h1 := hA.notValue
  have h2 := hA.fromNotValue
  have h3 := hA.noConverter
  have h4 := hA.derives
  obtain ⟨s, r, k⟩ := va
  obtain ⟨hk, hr⟩ := hv
  simp only at hk hr h2 h3 h4
  subst hk; subst hr
  unfold isConvertibleTo
  split
  · rfl
  · rw [if_neg (by simp [World.env, h1, h2]), if_neg (by simp [h3])]
    simp [testConstConversion, h4]

/-- how a two-argument operator with a `t&` first matches `v.assign(x)`: as its second parameter does -/
theorem test_assign (p : Prog) (f : Fn) (t : Ty) (u : Arg) (va a : Arg) {copy move : Bool}
    (hA : Assignable p va.type t copy move) (hv : va.isConst = false ∧ va.ref = .lvalue)
    (hargs : f.args = [⟨t, .lvalue, false⟩, u]) :
    f.test p.w.env p.voidArg [va, a] = isConvertibleTo p.w.env a u := by
  have h1 := match_receiver p va t copy move hA hv
  have h2 : testReturn p.w.env p.voidArg f.ret = .exact := by
    simp [testReturn, Prog.voidArg, World.env]
  unfold Fn.test testArguments
  rw [h2, hargs]
  simp only [List.length_cons, List.length_nil, ne_eq, not_true_eq_false, if_false, testArgumentsLoop, h1]
  cases isConvertibleTo p.w.env a u <;> simp [combine]

/-- binding the two parameters of an assignment -/
theorem run_assign (p : Prog) (fuel : Nat) (hp h1 h2 : Heap) (f : Fn) (v x : Handle) (t : Ty) (u : Arg)
    (b : Nat) (k : Bool) (ht : t ≠ p.w.valueT) (hargs : f.args = [⟨t, .lvalue, false⟩, u])
    (hret : f.ret = ⟨t, .lvalue, false⟩)
    (hv : v.arg.isConst = false ∧ v.arg.ref = .lvalue) (hch : p.w.env.child v.arg.type t = true)
    (hx : p.castTo (p.run fuel) hp x u = .ok (h1, .obj b k))
    (hbody : p.impl f.body h1 [.obj v.addr true, .obj b k] = .ok (h2, .obj v.addr)) :
    p.run (fuel + 1) hp f [v, x] = .ok (h2, ⟨⟨t, .lvalue, false⟩, v.addr, none⟩) := by
  have hne : (⟨t, .lvalue, false⟩ : Arg) ≠ p.valueArg := by simp [Prog.valueArg]
  have hb : p.bind (p.run fuel) hp [v, x] f.args = .ok (h1, [.obj v.addr true, .obj b k]) := by
    rw [hargs]
    have h3 : p.castTo (p.run fuel) hp v ⟨t, .lvalue, false⟩ = .ok (hp, .obj v.addr true) := by
      simp [Prog.castTo, if_neg hne, Prog.castV, hch, hv, Prog.castRet, Handle.as]
    simp only [Prog.bind, h3, hx]
  simp only [Prog.run, hb, hbody, Prog.wrapRet, hret, Prog.wrap, if_true]

/-- from the choice of an operator to the outcome of `assign` -/
theorem assign_of_select (p : Prog) (fuel : Nat) (hp : Heap) (v : Handle) (x : Actual) (o : Overloads) (f : Fn)
    (hf : p.w.functionF p.w.fuel v.arg.type "operator=".toList = .ok o)
    (hs : o.select p.w.env p.voidArg [v.arg, x.arg] = .ok f)
    (ht : f.test p.w.env p.voidArg [v.arg, x.arg] ≠ .none)
    (h1 h2 : Heap) (vs : List Handle) (r : Handle)
    (hh : p.toHandles hp [.dyn v, x] = .ok (h1, vs))
    (hr : p.run fuel h1 f vs = .ok (h2, r)) : p.assign fuel hp v x = .ok h2 := by
  have e : ([.dyn v, x] : List Actual).map Actual.arg = [v.arg, x.arg] := rfl
  unfold Prog.assign Prog.callMethod Prog.callOv
  rw [hf]
  simp only
  rw [e, hs]
  simp only [Prog.callFn]
  rw [e, if_neg ht]
  simp only [hh, hr]
  have hvoid : p.retCast (p.run fuel) h2 r p.voidArg = .ok (h2, none) := by
    unfold Prog.retCast; exact if_pos rfl
  rw [hvoid]; rfl

/-- the choice between the two assignment operators -/
theorem select_assign (e : Env) (want : Arg) (as : List Arg) (fc fm : Fn) (c m : Bool) :
    Overloads.select e ((if c then [fc] else []) ++ (if m then [fm] else [])) want as =
      if m = true ∧ fm.test e want as = .exact ∧ (c = true → fc.test e want as ≠ .exact) then .ok fm
      else if c = true ∧ fc.test e want as ≠ .none ∧
        (fc.test e want as = .exact ∨ m = false ∨ fm.test e want as = .none) then .ok fc
      else if m = true ∧ fm.test e want as ≠ .none ∧ (c = false ∨ fc.test e want as = .none) then .ok fm
      else .error .err := by
  cases c <;> cases m <;> cases h1 : fc.test e want as <;> cases h2 : fm.test e want as <;>
    simp [Overloads.select, Overloads.selectLoop, h1, h2]

theorem select_copy (e : Env) (want : Arg) (as : List Arg) (fc fm : Fn) (m : Bool)
    (h1 : fc.test e want as ≠ .none) (h2 : fc.test e want as = .exact ∨ fm.test e want as = .none) :
    Overloads.select e ((if (true : Bool) then [fc] else []) ++ (if m then [fm] else [])) want as = .ok fc := by
  rw [select_assign, if_neg, if_pos]
  · refine ⟨rfl, h1, ?_⟩
    rcases h2 with h2 | h2
    · exact .inl h2
    · exact .inr (.inr h2)
  · rintro ⟨-, h3, h4⟩
    rcases h2 with h2 | h2
    · exact h4 rfl h2
    · rw [h2] at h3; cases h3

theorem select_move (e : Env) (want : Arg) (as : List Arg) (fc fm : Fn) (c : Bool)
    (h1 : fm.test e want as ≠ .none) (h2 : c = false ∨ fc.test e want as = .none ∨
      (fm.test e want as = .exact ∧ fc.test e want as ≠ .exact)) :
    Overloads.select e ((if c then [fc] else []) ++ (if (true : Bool) then [fm] else [])) want as = .ok fm := by
  rw [select_assign]
  split
  · rfl
  · rename_i h3
    rw [if_neg, if_pos]
    · refine ⟨rfl, h1, ?_⟩
      rcases h2 with h2 | h2 | ⟨h2, h4⟩
      · exact .inl h2
      · exact .inr h2
      · exact absurd ⟨rfl, h2, fun _ => h4⟩ h3
    · rintro ⟨h4, h5, h6⟩
      rcases h2 with h2 | h2 | ⟨h2, h7⟩
      · rw [h4] at h2; cases h2
      · exact h5 h2
      · exact h3 ⟨rfl, h2, fun _ => h7⟩

theorem select_either (e : Env) (want : Arg) (as : List Arg) (fc fm : Fn) (c m : Bool) :
    Overloads.select e ((if c then [fc] else []) ++ (if m then [fm] else [])) want as = .error .err ∨
    Overloads.select e ((if c then [fc] else []) ++ (if m then [fm] else [])) want as = .ok fc ∨
    Overloads.select e ((if c then [fc] else []) ++ (if m then [fm] else [])) want as = .ok fm := by
  rw [select_assign]
  split
  · exact .inr (.inr rfl)
  split
  · exact .inr (.inl rfl)
  split
  · exact .inr (.inr rfl)
  · exact .inl rfl

theorem select_neither (e : Env) (want : Arg) (as : List Arg) (fc fm : Fn) (c m : Bool)
    (h1 : fc.test e want as = .none) (h2 : fm.test e want as = .none) :
    Overloads.select e ((if c then [fc] else []) ++ (if m then [fm] else [])) want as = .error .err := by
  rw [select_assign, if_neg (by simp [h2]), if_neg (by simp [h1]), if_neg (by simp [h2])]

theorem assignObj_ok (h : Heap) (n a b : Nat) (ha : h.Ok a n) (hb : h.Ok b n) :
    ∃ h', h.assignObj n a b = .ok h' ∧ h'.next = h.next ∧
      (∀ i < n, h'.mem (a + i) = h.mem (b + i)) ∧
      ∀ x, x < a ∨ a + n ≤ x → h'.mem x = h.mem x := by
  refine ⟨{ h with mem := fun x => if a ≤ x ∧ x < a + n then h.mem (b + (x - a)) else h.mem x },
    by unfold Heap.assignObj; exact if_pos ⟨ha, hb⟩, rfl, fun i hi => ?_, fun x hx => ?_⟩
  · simp only
    rw [if_pos (by omega)]
    congr 1; omega
  · simp only
    rw [if_neg (by omega)]

theorem moveAssignObj_ok (h : Heap) (m : Nat → Nat) (n a b : Nat) (ha : h.Ok a n) (hb : h.Ok b n) :
    ∃ h', h.moveAssignObj m n a b = .ok h' ∧ h'.next = h.next ∧
      (∀ i < n, h'.mem (a + i) = h.mem (b + i)) ∧
      ∀ x, x < a ∨ a + n ≤ x → x < b ∨ b + n ≤ x → h'.mem x = h.mem x := by
  refine ⟨{ h with mem := fun x => if a ≤ x ∧ x < a + n then h.mem (b + (x - a))
      else if b ≤ x ∧ x < b + n then m (h.mem x) else h.mem x },
    by unfold Heap.moveAssignObj; exact if_pos ⟨ha, hb⟩, rfl, fun i hi => ?_, fun x hx hy => ?_⟩
  · simp only
    rw [if_pos (by omega)]
    congr 1; omega
  · simp only
    rw [if_neg (by omega), if_neg (by omega)]

theorem arg_handle (x : Actual) : x.arg = x.handle.arg := by cases x <;> rfl

theorem match_constref_arg (e : Env) (a : Arg) (t : Ty) (hu : a.type ≠ e.valueT) (ht : t ≠ e.valueT)
    (hconv : e.conv a.type t = false) (hch : e.child a.type t = true) :
    isConvertibleTo e a ⟨t, .lvalue, true⟩ =
      if a.ref = .lvalue ∧ a.isConst = true then .exact else .part :=
  match_constref e a.type t a.ref a.isConst hu ht hconv hch

theorem match_rref_arg (e : Env) (a : Arg) (t : Ty) (hu : a.type ≠ e.valueT) (ht : t ≠ e.valueT)
    (hconv : e.conv a.type t = false) (hch : e.child a.type t = true) :
    isConvertibleTo e a ⟨t, .rvalue, false⟩ =
      if a.ref = .rvalue ∧ a.isConst = false then .exact else .none :=
  match_rref e a.type t a.ref a.isConst hu ht hconv hch

/-- the match with a class the argument's declares a converter to -/
theorem match_convertible (e : Env) (a u : Arg) (ha : a.type ≠ e.valueT) (hu : u.type ≠ e.valueT)
    (hne : a ≠ u) (hconv : e.conv a.type u.type = true) :
    isConvertibleTo e a u = if u.ref ≠ .lvalue then .part else .none := by
  unfold isConvertibleTo
  rw [if_neg hne, if_neg (by simp [ha, hu]), if_pos hconv]

/-! ### C71 -/

/-- the object of `t` at `a` was given the contents the one at `b` had, and nothing else that existed
    changed -/
structure Assigned (p : Prog) (hp hp' : Heap) (t : Ty) (a b : Nat) : Prop where
  same : ∀ i < p.size t, hp'.mem (a + i) = hp.mem (b + i)
  frame : ∀ x < hp.next, x < a ∨ a + p.size t ≤ x → hp'.mem x = hp.mem x
  grow : hp.next ≤ hp'.next

/-- C71. Assigning an lvalue, or a `Value` that is not an `rvalue()` of a mutable object, whose object is a
    `t` to a mutable value copies the contents of that object into the value's own object, and changes
    nothing else: not the source, and not which objects the two values refer to. -/
theorem C71_copy (p : Prog) (fuel : Nat) (hp : Heap) (v : Handle) (x : Actual) (t : Ty) (move : Bool)
    (hA : Assignable p v.arg.type t true move)
    (hv : v.arg.isConst = false ∧ v.arg.ref = .lvalue)
    (hok : hp.Ok v.addr (p.size t)) (hokx : hp.Ok x.handle.addr (p.size t))
    (hcp : Copied p x.arg t)
    (hx : ∀ arg a, x = .native arg a → arg.ref = .lvalue) :
    ∃ hp', p.assign (fuel + 1) hp v x = .ok hp' ∧ Assigned p hp hp' t v.addr x.handle.addr := by
  obtain ⟨fc, fm, hf, hca, hcr, hma, hmr, hcb, hmb⟩ := hA.ops
  have tc := test_assign p fc t _ v.arg x.arg hA hv hca
  have tm := test_assign p fm t _ v.arg x.arg hA hv hma
  obtain ⟨h2, e1, e2, e3, e4⟩ := assignObj_ok hp (p.size t) v.addr x.handle.addr hok hokx
  have hch : p.w.env.child x.handle.arg.type t = true := by
    rw [← arg_handle]; exact hcp.derives
  have hm : fc.test p.w.env p.voidArg [v.arg, x.arg] ≠ .none ∧
      (fc.test p.w.env p.voidArg [v.arg, x.arg] = .exact ∨
        fm.test p.w.env p.voidArg [v.arg, x.arg] = .none) := by
    rw [tc, tm, match_constref_arg p.w.env x.arg t hcp.notValue hA.notValue hcp.noConverter hcp.derives,
      match_rref_arg p.w.env x.arg t hcp.notValue hA.notValue hcp.noConverter hcp.derives,
      if_neg hcp.notMoved]
    split <;> simp
  have hsel : Overloads.select p.w.env ((if (true : Bool) then [fc] else []) ++ (if move then [fm] else [])) p.voidArg [v.arg, x.arg] = .ok fc ∧
      fc.test p.w.env p.voidArg [v.arg, x.arg] ≠ .none := by
    obtain ⟨h1, h2⟩ := hm
    exact ⟨select_copy _ _ _ fc fm move h1 h2, h1⟩
  have hh : p.toHandles hp [.dyn v, x] = .ok (hp, [v, x.handle]) := by
    rw [toHandles_simple p hp _ (by
      intro y hy arg a e
      simp only [List.mem_cons, List.not_mem_nil, or_false] at hy
      rcases hy with rfl | rfl
      · cases e
      · exact hx arg a e)]
    rfl
  have hne : (⟨t, .lvalue, true⟩ : Arg) ≠ p.valueArg := by simp [Prog.valueArg]
  have hcast : p.castTo (p.run fuel) hp x.handle ⟨t, .lvalue, true⟩ = .ok (hp, .obj x.handle.addr false) := by
    simp [Prog.castTo, if_neg hne, Prog.castV, hch, Prog.castRet, Handle.as]
  have hrun := run_assign p fuel hp hp h2 fc v x.handle t _ x.handle.addr false hA.notValue hca hcr hv
    hA.derives hcast (by rw [hcb, e1]; rfl)
  refine ⟨h2, assign_of_select p _ hp v x _ fc hf hsel.1 hsel.2 hp h2 _ _ hh hrun, e3,
    fun y _ hy => e4 y hy, by omega⟩

/-- C71. Assigning a temporary that is not const to a mutable value of a type with a move assignment:
    the value's object gets the contents the temporary had, and nothing else but the temporary
    changes; the temporary is left moved-from. -/
theorem C71_move (p : Prog) (fuel : Nat) (hp : Heap) (v : Handle) (u t : Ty) (a : Nat) (copy : Bool)
    (hA : Assignable p v.arg.type t copy true)
    (hv : v.arg.isConst = false ∧ v.arg.ref = .lvalue)
    (hok : hp.Ok v.addr (p.size t)) (hoka : hp.Ok a (p.size u)) (hsize : p.size t ≤ p.size u)
    (hu : u ≠ p.w.valueT) (hch : p.w.env.child u t = true) (hconv : p.w.env.conv u t = false)
    (hmu : (p.caps u).moveConstructible = true) (hmt : (p.caps t).moveConstructible = true)
    (hmov : p.w.isMovable t = true) :
    ∃ hp', p.assign (fuel + 1) hp v (.native ⟨u, .rvalue, false⟩ a) = .ok hp' ∧
      (∀ i < p.size t, hp'.mem (v.addr + i) = hp.mem (a + i)) ∧
      (∀ x < hp.next, x < v.addr ∨ v.addr + p.size t ≤ x → x < a ∨ a + p.size u ≤ x →
        hp'.mem x = hp.mem x) ∧
      (∀ i < p.size u, a + i < v.addr ∨ v.addr + p.size t ≤ a + i →
        hp'.mem (a + i) = p.moved u (hp.mem (a + i))) ∧ hp.next ≤ hp'.next := by
  obtain ⟨fc, fm, hf, hca, hcr, hma, hmr, hcb, hmb⟩ := hA.ops
  have tc := test_assign p fc t _ v.arg ⟨u, .rvalue, false⟩ hA hv hca
  have tm := test_assign p fm t _ v.arg ⟨u, .rvalue, false⟩ hA hv hma
  rw [match_constref p.w.env u t .rvalue false hu hA.notValue hconv hch] at tc
  rw [match_rref p.w.env u t .rvalue false hu hA.notValue hconv hch] at tm
  have hsel : Overloads.select p.w.env ((if copy then [fc] else []) ++ (if (true : Bool) then [fm] else [])) p.voidArg [v.arg, ⟨u, .rvalue, false⟩] = .ok fm ∧
      fm.test p.w.env p.voidArg [v.arg, ⟨u, .rvalue, false⟩] ≠ .none := by
    rw [select_assign p.w.env p.voidArg [v.arg, ⟨u, .rvalue, false⟩] fc fm copy true, tc, tm]
    simp
  obtain ⟨h1, w, hw, hst, hsrc⟩ := C67_temporary_stored p hp ⟨u, .rvalue, false⟩ a (by simp)
    (.inr ⟨rfl, hmu⟩) hoka
  simp only [hmu, and_self, if_true] at hsrc
  have hh : p.toHandles hp [.dyn v, .native ⟨u, .rvalue, false⟩ a] = .ok (h1, [v, w]) := by
    simp [Prog.toHandles, hw]
  have hlive := hst.live
  have hfr := hst.fresh
  have hgr := hst.grow
  simp only at hlive hfr hgr
  obtain ⟨l1, l2⟩ := hlive
  obtain ⟨o1, o2⟩ := hok
  obtain ⟨a1, a2⟩ := hoka
  obtain ⟨h2, d1, d2, d3, d4⟩ := moveObj_ok h1 (p.moved t) (p.size t) w.addr ⟨l1, by omega⟩
  have hne : (⟨t, .rvalue, false⟩ : Arg) ≠ p.valueArg := by simp [Prog.valueArg]
  have hwt : p.w.env.child w.arg.type t = true := by rw [hst.arg]; exact hch
  have hcast : p.castTo (p.run fuel) h1 w ⟨t, .rvalue, false⟩ = .ok (h2, .obj h1.next true) := by
    simp [Prog.castTo, if_neg hne, Prog.castV, hmov, hwt, Prog.castRet, hmt, Handle.as, d1]
  obtain ⟨h3, e1, e2, e3, e4⟩ := moveAssignObj_ok h2 (p.moved t) (p.size t) v.addr h1.next
    ⟨o1, by omega⟩ ⟨by omega, by omega⟩
  have hrun := run_assign p fuel h1 h2 h3 fm v w t _ h1.next true hA.notValue hma hmr hv hA.derives
    hcast (by rw [hmb, e1]; rfl)
  refine ⟨h3, assign_of_select p _ hp v (.native ⟨u, .rvalue, false⟩ a) _ fm hf hsel.1 hsel.2 h1 h3 _ _ hh hrun, ?_, ?_, ?_, by omega⟩
  · intro i hi
    rw [e3 i hi, d3 i hi, hst.same i (by simp only; omega)]
  · intro x hx hx1 hx2
    rw [e4 x hx1 (by omega), d4 x (by omega) (by omega), hst.frame x hx hx2]
  · intro i hi hx1
    rw [e4 _ hx1 (by omega), d4 _ (by omega) (by omega), hsrc i hi]

/-- C71. Assigning a const temporary copies it: a type with a copy assignment gets its contents, and
    the temporary keeps them. -/
theorem C71_const_temporary (p : Prog) (fuel : Nat) (hp : Heap) (v : Handle) (u t : Ty) (a : Nat) (move : Bool)
    (hA : Assignable p v.arg.type t true move)
    (hv : v.arg.isConst = false ∧ v.arg.ref = .lvalue)
    (hok : hp.Ok v.addr (p.size t)) (hoka : hp.Ok a (p.size u)) (hsize : p.size t ≤ p.size u)
    (hu : u ≠ p.w.valueT) (hch : p.w.env.child u t = true) (hconv : p.w.env.conv u t = false)
    (hcu : (p.caps u).copyConstructible = true) :
    ∃ hp', p.assign (fuel + 1) hp v (.native ⟨u, .rvalue, true⟩ a) = .ok hp' ∧
      Assigned p hp hp' t v.addr a := by
  obtain ⟨fc, fm, hf, hca, hcr, hma, hmr, hcb, hmb⟩ := hA.ops
  have tc := test_assign p fc t _ v.arg ⟨u, .rvalue, true⟩ hA hv hca
  have tm := test_assign p fm t _ v.arg ⟨u, .rvalue, true⟩ hA hv hma
  rw [match_constref p.w.env u t .rvalue true hu hA.notValue hconv hch] at tc
  rw [match_rref p.w.env u t .rvalue true hu hA.notValue hconv hch] at tm
  have hsel : Overloads.select p.w.env ((if (true : Bool) then [fc] else []) ++ (if move then [fm] else [])) p.voidArg [v.arg, ⟨u, .rvalue, true⟩] = .ok fc ∧
      fc.test p.w.env p.voidArg [v.arg, ⟨u, .rvalue, true⟩] ≠ .none := by
    rw [select_assign p.w.env p.voidArg [v.arg, ⟨u, .rvalue, true⟩] fc fm true move, tc, tm]
    simp
  obtain ⟨h1, w, hw, hst, hsrc⟩ := C67_temporary_stored p hp ⟨u, .rvalue, true⟩ a (by simp)
    (.inl hcu) hoka
  simp at hsrc
  have hh : p.toHandles hp [.dyn v, .native ⟨u, .rvalue, true⟩ a] = .ok (h1, [v, w]) := by
    simp [Prog.toHandles, hw]
  have hlive := hst.live
  have hfr := hst.fresh
  have hgr := hst.grow
  simp only at hlive hfr hgr
  obtain ⟨l1, l2⟩ := hlive
  obtain ⟨o1, o2⟩ := hok
  obtain ⟨a1, a2⟩ := hoka
  have hne : (⟨t, .lvalue, true⟩ : Arg) ≠ p.valueArg := by simp [Prog.valueArg]
  have hwt : p.w.env.child w.arg.type t = true := by rw [hst.arg]; exact hch
  have hcast : p.castTo (p.run fuel) h1 w ⟨t, .lvalue, true⟩ = .ok (h1, .obj w.addr false) := by
    simp [Prog.castTo, if_neg hne, Prog.castV, hwt, Prog.castRet, Handle.as]
  obtain ⟨h3, e1, e2, e3, e4⟩ := assignObj_ok h1 (p.size t) v.addr w.addr
    ⟨o1, by omega⟩ ⟨by omega, by omega⟩
  have hrun := run_assign p fuel h1 h1 h3 fc v w t _ w.addr false hA.notValue hca hcr hv hA.derives
    hcast (by rw [hcb, e1]; rfl)
  refine ⟨h3, assign_of_select p _ hp v (.native ⟨u, .rvalue, true⟩ a) _ fc hf hsel.1 hsel.2 h1 h3 _ _ hh hrun, ?_, ?_, by omega⟩
  · intro i hi
    rw [e3 i hi, hst.same i (by first | omega | (simp only; omega))]
  · intro x hx hx1
    rw [e4 x hx1]
    by_cases hxa : x < a ∨ a + p.size u ≤ x
    · exact hst.frame x hx hxa
    · have := hsrc (x - a) (by first | omega | (simp only; omega))
      rwa [show a + (x - a) = x by omega] at this

/-- the move assignment run on a `Value` -/
theorem assign_by_move (p : Prog) (fuel : Nat) (hp : Heap) (v w : Handle) (t : Ty) (copy : Bool)
    (hA : Assignable p v.arg.type t copy true)
    (hv : v.arg.isConst = false ∧ v.arg.ref = .lvalue)
    (hok : hp.Ok v.addr (p.size t)) (hokw : hp.Ok w.addr (p.size t))
    (hch : p.w.env.child w.arg.type t = true)
    (hmt : (p.caps t).moveConstructible = true) (hmov : p.w.isMovable t = true)
    (hm : isConvertibleTo p.w.env w.arg ⟨t, .rvalue, false⟩ ≠ .none)
    (hc : isConvertibleTo p.w.env w.arg ⟨t, .lvalue, true⟩ = .none ∨
      (isConvertibleTo p.w.env w.arg ⟨t, .rvalue, false⟩ = .exact ∧
        isConvertibleTo p.w.env w.arg ⟨t, .lvalue, true⟩ ≠ .exact))
    (hdis : w.addr + p.size t ≤ v.addr ∨ v.addr + p.size t ≤ w.addr) :
    ∃ hp', p.assign (fuel + 1) hp v (.dyn w) = .ok hp' ∧
      (∀ i < p.size t, hp'.mem (v.addr + i) = hp.mem (w.addr + i) ∧
        hp'.mem (w.addr + i) = p.moved t (hp.mem (w.addr + i))) ∧
      (∀ x < hp.next, x < v.addr ∨ v.addr + p.size t ≤ x → x < w.addr ∨ w.addr + p.size t ≤ x →
        hp'.mem x = hp.mem x) ∧ hp.next ≤ hp'.next := by
  obtain ⟨fc, fm, hf, hca, hcr, hma, hmr, hcb, hmb⟩ := hA.ops
  have tc := test_assign p fc t _ v.arg w.arg hA hv hca
  have tm := test_assign p fm t _ v.arg w.arg hA hv hma
  rw [← tm] at hm
  rw [← tm, ← tc] at hc
  have hsel := select_move p.w.env p.voidArg [v.arg, w.arg] fc fm copy hm (.inr hc)
  have hh : p.toHandles hp [.dyn v, .dyn w] = .ok (hp, [v, w]) := by
    simp [Prog.toHandles]
  obtain ⟨o1, o2⟩ := hok
  obtain ⟨a1, a2⟩ := hokw
  obtain ⟨h2, d1, d2, d3, d4⟩ := moveObj_ok hp (p.moved t) (p.size t) w.addr ⟨a1, a2⟩
  obtain ⟨h2', d5, d6⟩ := moveObj_source hp (p.moved t) (p.size t) w.addr ⟨a1, a2⟩
  rw [d1] at d5
  simp only [Except.ok.injEq, Prod.mk.injEq, and_true] at d5
  subst d5
  have hne : (⟨t, .rvalue, false⟩ : Arg) ≠ p.valueArg := by simp [Prog.valueArg]
  have hcast : p.castTo (p.run fuel) hp w ⟨t, .rvalue, false⟩ = .ok (h2, .obj hp.next true) := by
    simp [Prog.castTo, if_neg hne, Prog.castV, hmov, hch, Prog.castRet, hmt, Handle.as, d1]
  obtain ⟨h3, e1, e2, e3, e4⟩ := moveAssignObj_ok h2 (p.moved t) (p.size t) v.addr hp.next
    ⟨o1, by omega⟩ ⟨by omega, by omega⟩
  have hrun := run_assign p fuel hp h2 h3 fm v w t _ hp.next true hA.notValue hma hmr hv hA.derives
    hcast (by rw [hmb, e1]; rfl)
  refine ⟨h3, assign_of_select p _ hp v (.dyn w) _ fm hf hsel hm hp h3 _ _ hh hrun,
    fun i hi => ⟨?_, ?_⟩, ?_, by omega⟩
  · rw [e3 i hi, d3 i hi]
  · rw [e4 _ (by omega) (by omega), d6 i hi]
  · intro x hx hx1 hx2
    rw [e4 x hx1 (by omega), d4 x hx hx2]

/-- C71. Assigning an `rvalue()` of a mutable object, to a mutable value of a type with a move assignment:
    the value's object gets the contents of the source's object, which is moved from; nothing else
    changes. -/
theorem C71_move_value (p : Prog) (fuel : Nat) (hp : Heap) (v w : Handle) (t : Ty) (copy : Bool)
    (hA : Assignable p v.arg.type t copy true)
    (hv : v.arg.isConst = false ∧ v.arg.ref = .lvalue)
    (hok : hp.Ok v.addr (p.size t)) (hokw : hp.Ok w.addr (p.size t)) (hw : MovedFrom p w.arg t)
    (hmt : (p.caps t).moveConstructible = true) (hmov : p.w.isMovable t = true)
    (hdis : w.addr + p.size t ≤ v.addr ∨ v.addr + p.size t ≤ w.addr) :
    ∃ hp', p.assign (fuel + 1) hp v (.dyn w) = .ok hp' ∧
      (∀ i < p.size t, hp'.mem (v.addr + i) = hp.mem (w.addr + i) ∧
        hp'.mem (w.addr + i) = p.moved t (hp.mem (w.addr + i))) ∧
      (∀ x < hp.next, x < v.addr ∨ v.addr + p.size t ≤ x → x < w.addr ∨ w.addr + p.size t ≤ x →
        hp'.mem x = hp.mem x) ∧ hp.next ≤ hp'.next := by
  have h1 := match_rref_arg p.w.env w.arg t hw.notValue hA.notValue hw.noConverter hw.derives
  have h2 := match_constref_arg p.w.env w.arg t hw.notValue hA.notValue hw.noConverter hw.derives
  rw [if_pos hw.isMoved] at h1
  rw [if_neg (by rw [hw.isMoved.1]; simp)] at h2
  exact assign_by_move p fuel hp v w t copy hA hv hok hokw hw.derives hmt hmov (by rw [h1]; simp)
    (.inr ⟨h1, by rw [h2]; simp⟩) hdis

/-- C71. A type with a move assignment only refuses everything but temporaries and `rvalue()`s of mutable
    objects: an lvalue or a const object of the type is refused before anything happens. -/
theorem C71_move_only_refuses (p : Prog) (fuel : Nat) (hp : Heap) (v : Handle) (x : Actual) (t : Ty)
    (hA : Assignable p v.arg.type t false true)
    (hv : v.arg.isConst = false ∧ v.arg.ref = .lvalue) (hcp : Copied p x.arg t) :
    p.assign fuel hp v x = .error .err := by
  obtain ⟨fc, fm, hf, hca, hcr, hma, hmr, hcb, hmb⟩ := hA.ops
  have tm := test_assign p fm t _ v.arg x.arg hA hv hma
  rw [match_rref_arg p.w.env x.arg t hcp.notValue hA.notValue hcp.noConverter hcp.derives,
    if_neg hcp.notMoved] at tm
  have e : ([.dyn v, x] : List Actual).map Actual.arg = [v.arg, x.arg] := rfl
  have hs : Overloads.select p.w.env ((if (false : Bool) then [fc] else []) ++ (if (true : Bool) then [fm] else []))
      p.voidArg [v.arg, x.arg] = .error .err := by
    rw [select_assign]; simp [tm]
  generalize ((if (false : Bool) then [fc] else []) ++ (if (true : Bool) then [fm] else [])) = o at hf hs
  unfold Prog.assign Prog.callMethod
  rw [hf]
  simp only [Prog.callOv]
  rw [e, hs]
  rfl

/-- C71 is false of the code: a `Value` whose class derives from the receiver's and also declares a conversion
    operator to it is moved from, even if it is const. -/
theorem C71_converting_child_emptied (p : Prog) (fuel : Nat) (hp : Heap) (v w : Handle) (t : Ty) (copy : Bool)
    (hA : Assignable p v.arg.type t copy true)
    (hv : v.arg.isConst = false ∧ v.arg.ref = .lvalue)
    (hok : hp.Ok v.addr (p.size t)) (hokw : hp.Ok w.addr (p.size t))
    (hwv : w.arg.type ≠ p.w.valueT) (hne : w.arg.type ≠ t) (hch : p.w.env.child w.arg.type t = true)
    (hconv : p.w.env.conv w.arg.type t = true)
    (hmt : (p.caps t).moveConstructible = true) (hmov : p.w.isMovable t = true)
    (hdis : w.addr + p.size t ≤ v.addr ∨ v.addr + p.size t ≤ w.addr) :
    ∃ hp', p.assign (fuel + 1) hp v (.dyn w) = .ok hp' ∧
      ∀ i < p.size t, hp'.mem (v.addr + i) = hp.mem (w.addr + i) ∧
        hp'.mem (w.addr + i) = p.moved t (hp.mem (w.addr + i)) := by
  have h1 := match_convertible p.w.env w.arg ⟨t, .rvalue, false⟩ hwv hA.notValue
    (by intro h; exact hne (by rw [h])) hconv
  have h2 := match_convertible p.w.env w.arg ⟨t, .lvalue, true⟩ hwv hA.notValue
    (by intro h; exact hne (by rw [h])) hconv
  obtain ⟨hp', e1, e2, -⟩ := assign_by_move p fuel hp v w t copy hA hv hok hokw hch hmt hmov
    (by rw [h1]; simp) (.inl (by rw [h2]; simp)) hdis
  exact ⟨hp', e1, e2⟩

/-- C71. A value that is const, or an `rvalue()`, cannot be assigned to: whatever the source, the assignment
    raises before anything is stored, moved or run. -/
theorem C71_readonly (p : Prog) (fuel : Nat) (hp : Heap) (v : Handle) (x : Actual) (t : Ty) (copy move : Bool)
    (hA : Assignable p v.arg.type t copy move)
    (hv : v.arg.isConst = true ∨ v.arg.ref ≠ .lvalue) : p.assign fuel hp v x = .error .err := by
  obtain ⟨fc, fm, hf, hca, hcr, hma, hmr, hcb, hmb⟩ := hA.ops
  have e : ([.dyn v, x] : List Actual).map Actual.arg = [v.arg, x.arg] := rfl
  have hno : isConvertibleTo p.w.env v.arg ⟨t, .lvalue, false⟩ = .none := by
    refine Classical.byContradiction fun hh => ?_
    obtain ⟨h1, h2, -⟩ := C21_mutable_ref_safe p.w.env (child_refl p.w) v.arg ⟨t, .lvalue, false⟩
      hA.fromNotValue hA.notValue rfl rfl hh
    rcases hv with h | h
    · rw [h2] at h; cases h
    · exact h h1
  have key : ∀ (f : Fn) (u : Arg), f.args = [⟨t, .lvalue, false⟩, u] →
      f.test p.w.env p.voidArg [v.arg, x.arg] = .none := by
    intro f u hu
    exact test_none_of_param p.w.env f p.voidArg [v.arg, x.arg] 0 (by simp) (by simp [hu])
      (by simpa [hu] using hno)
  unfold Prog.assign Prog.callMethod
  rw [hf]
  simp only [Prog.callOv]
  rw [e, select_neither _ _ _ _ _ _ _ (key fc _ hca) (key fm _ hma)]
  rfl

/-- C71. An object, or a `Value`, of a type that neither derives from the receiver's nor converts to it is
    refused. -/
theorem C71_unrelated (p : Prog) (fuel : Nat) (hp : Heap) (v : Handle) (x : Actual) (t : Ty)
    (copy move : Bool) (hA : Assignable p v.arg.type t copy move) (hu : x.arg.type ≠ p.w.valueT)
    (hch : p.w.env.child x.arg.type t = false) (hconv : p.w.env.conv x.arg.type t = false) :
    p.assign fuel hp v x = .error .err := by
  obtain ⟨fc, fm, hf, hca, hcr, hma, hmr, hcb, hmb⟩ := hA.ops
  have e : ([.dyn v, x] : List Actual).map Actual.arg = [v.arg, x.arg] := rfl
  have hna : ∀ u : Arg, u.type = t → isConvertibleTo p.w.env x.arg u = .none := by
    intro u hut
    generalize x.arg = arg at hu hch hconv ⊢
    have hne : arg ≠ u := by
      intro h; rw [h, hut, child_refl] at hch; cases hch
    have ht := hA.notValue
    unfold isConvertibleTo
    rw [if_neg hne, if_neg (by simp [World.env, hu, hut, ht])]
    simp only [hut, hconv, hch]
    repeat (first | rfl | split | (intros; contradiction))
    all_goals simp_all
  have key : ∀ (f : Fn) (u : Arg), u.type = t → f.args = [⟨t, .lvalue, false⟩, u] →
      f.test p.w.env p.voidArg [v.arg, x.arg] = .none := by
    intro f u hut hu
    exact test_none_of_param p.w.env f p.voidArg [v.arg, x.arg] 1 (by simp) (by simp [hu])
      (by simpa [hu] using hna u hut)
  unfold Prog.assign Prog.callMethod
  rw [hf]
  simp only [Prog.callOv]
  rw [e, select_neither _ _ _ _ _ _ _ (key fc _ rfl hca) (key fm _ rfl hma)]
  rfl

/-- C71. An object, or a `Value`, of a type that does not derive from the receiver's but declares one converter
    to it is converted, and the receiver gets the contents of the result.  (A converter always leads to the
    move assignment: it never binds `const t&`.) -/
theorem C71_converted (p : Prog) (hcl : p.w.Closed) (hac : p.w.Acyclic) (fuel : Nat) (hp h2 : Heap)
    (v : Handle) (x : Actual) (t : Ty) (copy : Bool)
    (hA : Assignable p v.arg.type t copy true)
    (hv : v.arg.isConst = false ∧ v.arg.ref = .lvalue)
    (hlv : ∀ arg a, x = .native arg a → arg.ref = .lvalue) (hun : x.handle.arg.type < p.w.n)
    (hu : x.handle.arg.type ≠ p.w.valueT)
    (hch : p.w.env.child x.handle.arg.type t = false) (f : Fn) (src : Ty) (b : Nat)
    (hconv : p.w.Nearest (fun d => d.fns.get (World.converterName (p.w.ty t).id)) x.handle.arg.type [f])
    (hargs : f.args = [⟨src, .lvalue, true⟩]) (hsrc : src ≠ p.w.valueT)
    (hret : f.ret = ⟨t, .copy, false⟩) (hself : p.w.env.child x.handle.arg.type src = true)
    (hsc : p.w.env.conv x.handle.arg.type src = false)
    (hmov : p.w.isMovable t = true)
    (hmt : (p.caps t).moveConstructible = true) (hct : (p.caps t).copyConstructible = true)
    (hbody : p.impl f.body hp [.obj x.handle.addr false] = .ok (h2, .obj b))
    (hok : h2.Ok v.addr (p.size t)) (hokb : h2.Ok b (p.size t)) :
    ∃ hp', p.assign (fuel + 2) hp v x = .ok hp' ∧
      (∀ i < p.size t, hp'.mem (v.addr + i) = h2.mem (b + i)) ∧
      ∀ y < h2.next, y < v.addr ∨ v.addr + p.size t ≤ y → y < b ∨ b + p.size t ≤ y →
        hp'.mem y = h2.mem y := by
  obtain ⟨fc, fm, hf, hca, hcr, hma, hmr, hcb, hmb⟩ := hA.ops
  have hseen : p.w.env.conv x.handle.arg.type t = true := by
    obtain ⟨k, u, h1, h2, -⟩ := hconv
    exact (C69_seen_iff_declared p.w hcl hac _ _ hun).2 ⟨k, u, h1, by simp [h2]⟩
  have ht := hA.notValue
  have hne : ∀ u : Arg, u.type = t → x.handle.arg ≠ u := by
    intro u hut h; rw [h, hut, child_refl] at hch; cases hch
  have tc := test_assign p fc t _ v.arg x.arg hA hv hca
  have tm := test_assign p fm t _ v.arg x.arg hA hv hma
  rw [arg_handle, match_convertible p.w.env _ _ hu hA.notValue (hne _ rfl) hseen] at tc tm
  rw [← arg_handle] at tc tm
  simp only [ne_eq, not_true_eq_false, if_false, reduceCtorEq, not_false_eq_true, if_true] at tc tm
  have hsel := select_move p.w.env p.voidArg [v.arg, x.arg] fc fm copy (by rw [tm]; simp)
    (.inr (.inl tc))
  have hh : p.toHandles hp [.dyn v, x] = .ok (hp, [v, x.handle]) := by
    rw [toHandles_simple p hp _ (by
      intro y hy arg a e
      simp only [List.mem_cons, List.not_mem_nil, or_false] at hy
      rcases hy with rfl | rfl
      · cases e
      · exact hlv arg a e)]
    rfl
  obtain ⟨h3, c, d1, d2, ⟨d3, d4⟩, d5, d6⟩ := C69_converted p hcl hac fuel hp h2 x.handle
    ⟨t, .rvalue, false⟩ f src true b hun (by simp) hA.distinct hA.notValue hA.notVoid (by simpa using hmov)
    hch hconv hargs hsrc hret hself hu hsc (.inl rfl) hbody hmt hct hokb
  simp only at d1 d2 d3 d4 d5 d6
  obtain ⟨o1, o2⟩ := hok
  obtain ⟨h4, e1, e2, e3, e4⟩ := moveAssignObj_ok h3 (p.moved t) (p.size t) v.addr c
    ⟨o1, by omega⟩ ⟨d3, d4⟩
  have hrun := run_assign p (fuel + 1) hp h3 h4 fm v x.handle t _ c true hA.notValue hma hmr hv
    hA.derives d1 (by rw [hmb, e1]; rfl)
  refine ⟨h4, assign_of_select p _ hp v x _ fm hf hsel (by rw [tm]; simp) hp h4 _ _ hh hrun, ?_, ?_⟩
  · intro i hi
    rw [e3 i hi, d5 i hi]
  · intro y hy hy1 hy2
    rw [e4 y hy1 (by omega), d6 y hy hy2]

/-- the assignment operators the plumbing registers for a class -/
def plumbedAssigns (t : Ty) (c : Caps) : Overloads :=
  (if c.copyAssignable then
    [Fn.make "operator=".toList ⟨t, .lvalue, false⟩ [⟨t, .lvalue, false⟩, ⟨t, .lvalue, true⟩] 2] else []) ++
  (if c.moveAssignable then
    [Fn.make "operator=".toList ⟨t, .lvalue, false⟩ [⟨t, .lvalue, false⟩, ⟨t, .rvalue, false⟩] 4] else [])

/-- C71. The standard plumbing of a new type registers exactly the assignment operators the class has,
    the copy assignment first. -/
theorem C71_plumbed (e : Env) (t : Ty) (id : Name) (c : Caps) (hid : id ≠ "operator=".toList)
    (hconv : e.conv t t = false) :
    (((TypeD.new id).runAll e (plumbingOps t id c)).1.fns.get "operator=".toList).getD [] =
      plumbedAssigns t c := by
  obtain ⟨c1, c2, c3, c4, c5⟩ := c
  have hm := match_mutref_rref e t hconv
  simp only [plumbingOps, plumbedAssigns]
  generalize "operator=".toList = op at hid ⊢
  have hid' := Ne.symm hid
  cases c1 <;> cases c2 <;> cases c3 <;> cases c4 <;> cases c5 <;>
    simp [TypeD.runAll, TypeD.step, TypeD.addFunction, TypeD.new,
      Overloads.add, Fn.testFn, Fn.make, testArguments, testArgumentsLoop, convertible_same, hm,
      combine, Assoc.get_set, hid, hid']

/-- C71. A plumbed type can be assigned to as the class can: what `plumbingOps` registers meets
    `Assignable` once the bodies are the class's assignment operators. -/
theorem C71_plumbed_assignable (p : Prog) (s t : Ty) (c : Caps) (hv : t ≠ p.w.voidT) (hd : t ≠ p.w.valueT)
    (hvd : p.w.valueT ≠ p.w.voidT) (hch : p.w.env.child s t = true)
    (hnc : p.w.env.conv s t = false) (hs : s ≠ p.w.valueT)
    (hf : p.w.functionF p.w.fuel s "operator=".toList = .ok (plumbedAssigns t c))
    (h2 : ∀ hp a b k, p.impl 2 hp [.obj a true, .obj b k] =
      (hp.assignObj (p.size t) a b).map fun h => (h, .obj a))
    (h4 : ∀ hp a b k, p.impl 4 hp [.obj a true, .obj b k] =
      (hp.moveAssignObj (p.moved t) (p.size t) a b).map fun h => (h, .obj a)) :
    Assignable p s t c.copyAssignable c.moveAssignable :=
  ⟨hv, hd, hvd, hch, hnc, hs, _, _, hf, rfl, rfl, rfl, rfl, h2, h4⟩

/-! ### concrete cases -/

namespace AssignDemo

/-- the demo program of `Props/Value.lean` with assignment operators -/
def impl (size : Nat) : Nat → Heap → List BArg → Res (Heap × BRet)
  | 1, hp, [.obj a _] => (hp.copyObj size a).map fun r => (r.1, .obj r.2)
  | 3, hp, [.obj a _] => (hp.moveObj (fun _ => 0) size a).map fun r => (r.1, .obj r.2)
  | 2, hp, [.obj a true, .obj b _] => (hp.assignObj size a b).map fun h => (h, .obj a)
  | 4, hp, [.obj a true, .obj b _] => (hp.moveAssignObj (fun _ => 0) size a b).map fun h => (h, .obj a)
  | 5, hp, [.obj a _] => (hp.copyObj size a).map fun r => (r.1, .obj r.2)
  | _, _, _ => .error .ub

def all : Caps := ⟨true, true, true, true, true⟩

/-- 0 void, 1 Value, 2 T, 3 a child of T, 4 U with a converter to T, 5 M, a move-only class -/
def world : World :=
  { n := 6, voidT := 0, valueT := 1
    ty := fun t => match t with
      | 0 => TypeD.new ['v']
      | 1 => TypeD.new ['V']
      | 2 => { TypeD.new ['T'] with
          fns := [(['T'], plumbedConstructors 2 ['T'] all), ("operator=".toList, plumbedAssigns 2 all)] }
      | 3 => { TypeD.new ['C'] with parent := some 2 }
      | 4 => { TypeD.new ['U'] with
          fns := [(World.converterName ['T'],
            [Fn.make (World.converterName ['T']) ⟨2, .copy, false⟩ [⟨4, .lvalue, true⟩] 5])] }
      | _ => { TypeD.new ['M'] with
          fns := [(['M'], plumbedConstructors 5 ['M'] ⟨true, false, true, false, true⟩),
            ("operator=".toList, plumbedAssigns 5 ⟨true, false, true, false, true⟩)] } }

def prog : Prog :=
  { w := world, size := fun _ => 2
    caps := fun t => if t = 5 then ⟨true, false, true, false, true⟩ else all
    moved := fun _ _ => 0, junk := .copy, impl := impl 2 }

/-- two objects, at 1 and at 4 -/
def heap : Heap :=
  { mem := fun a => if a = 1 then 7 else if a = 2 then 8 else if a = 4 then 20 else if a = 5 then 21 else 0
    next := 7 }

theorem assignableT : Assignable prog 2 2 true true :=
  C71_plumbed_assignable prog 2 2 all (by decide) (by decide) (by decide) (by decide) (by decide) (by decide) rfl
    (fun _ _ _ _ => rfl) (fun _ _ _ _ => rfl)
/-- a child of `T` inherits its operators -/
theorem assignableC : Assignable prog 3 2 true true :=
  C71_plumbed_assignable prog 3 2 all (by decide) (by decide) (by decide) (by decide) (by decide) (by decide) rfl
    (fun _ _ _ _ => rfl) (fun _ _ _ _ => rfl)
theorem assignableM : Assignable prog 5 5 false true :=
  C71_plumbed_assignable prog 5 5 ⟨true, false, true, false, true⟩ (by decide) (by decide) (by decide)
    (by decide) (by decide) (by decide) rfl (fun _ _ _ _ => rfl) (fun _ _ _ _ => rfl)

def tv : Handle := ⟨⟨2, .lvalue, false⟩, 1, none⟩
def tw : Handle := ⟨⟨2, .lvalue, true⟩, 4, none⟩
def mv : Handle := ⟨⟨5, .lvalue, false⟩, 1, none⟩
def mw : Handle := ⟨⟨5, .lvalue, true⟩, 4, none⟩

def cells (r : Res Heap) : Option (List Nat) := match r with
  | .ok h => some [h.mem 1, h.mem 2, h.mem 4, h.mem 5]
  | .error _ => none

/-- hypotheses of `C71_copy`, `C71_move`, `C71_const_temporary`, `C71_converted`, `C71_move_value` -/
example : heap.Ok tv.addr (prog.size 2) ∧ heap.Ok (Actual.dyn tw).handle.addr (prog.size 2) ∧
    prog.w.env.child tw.arg.type 2 = true ∧ prog.w.env.conv 2 2 = false ∧ prog.w.env.conv 3 2 = false ∧
    prog.w.isMovable 2 = true ∧ prog.w.isMovable 5 = true ∧ prog.w.env.child 4 2 = false ∧
    prog.w.env.conv 4 2 = true ∧ prog.w.env.conv 4 4 = false := by decide
example : Copied prog tw.arg 2 ∧ MovedFrom prog (Handle.rvalue ⟨⟨3, .lvalue, false⟩, 4, none⟩).arg 2 ∧
    Copied prog mw.arg 5 :=
  ⟨⟨by decide, by decide, by decide, by decide⟩, ⟨by decide, by decide, by decide, by decide⟩,
    ⟨by decide, by decide, by decide, by decide⟩⟩

/-- from a const value, the `rvalue()` of a const value, the `rvalue()` of a mutable one, an lvalue, a temporary,
    a const temporary, a convertible object, a convertible value; to a const value -/
example : cells (prog.assign 3 heap tv (.dyn tw)) = some [20, 21, 20, 21] := by decide
example : cells (prog.assign 3 heap tv (.dyn tw.rvalue)) = some [20, 21, 20, 21] := by decide
example : cells (prog.assign 3 heap tv (.dyn (Handle.rvalue ⟨⟨3, .lvalue, false⟩, 4, none⟩))) =
    some [20, 21, 0, 0] := by decide
example : cells (prog.assign 3 heap tv (.native ⟨3, .lvalue, false⟩ 4)) = some [20, 21, 20, 21] := by decide
example : cells (prog.assign 3 heap tv (.native ⟨3, .rvalue, false⟩ 4)) = some [20, 21, 0, 0] := by decide
example : cells (prog.assign 3 heap tv (.native ⟨2, .rvalue, true⟩ 4)) = some [20, 21, 20, 21] := by decide
example : cells (prog.assign 3 heap tv (.native ⟨4, .lvalue, true⟩ 4)) = some [20, 21, 20, 21] := by decide
example : cells (prog.assign 3 heap tv (.dyn ⟨⟨4, .lvalue, false⟩, 4, none⟩)) = some [20, 21, 20, 21] := by decide
example : cells (prog.assign 3 heap tw (.dyn tv)) = none := by decide
/-- a move-only object is refused unless it is an `rvalue()` of a mutable one -/
example : cells (prog.assign 3 heap mv (.dyn mw)) = none := by decide
example : cells (prog.assign 3 heap mv (.dyn mw.rvalue)) = none := by decide
example : cells (prog.assign 3 heap mv (.dyn (Handle.rvalue ⟨⟨5, .lvalue, false⟩, 4, none⟩))) =
    some [20, 21, 0, 0] := by decide

/-- the hypotheses of `C71_converting_child_emptied`: `C` given a converter to `T` -/
def convChild : TypeD :=
  { TypeD.new ['C'] with
    parent := some 2
    fns := [(World.converterName ['T'],
      [Fn.make (World.converterName ['T']) ⟨2, .copy, false⟩ [⟨3, .lvalue, true⟩] 5])] }

def progConv : Prog :=
  { prog with w := { world with ty := fun t => if t = 3 then convChild else world.ty t } }

example : progConv.w.env.child 3 2 = true ∧ progConv.w.env.conv 3 2 = true ∧ progConv.w.isMovable 2 = true ∧
    cells (progConv.assign 3 heap tv (.dyn ⟨⟨3, .lvalue, true⟩, 4, none⟩)) = some [20, 21, 0, 0] := by decide

/-- the remaining hypotheses of `C71_converted`: the one edge is from `C` to `T`, and `U` declares its converter
    itself -/
theorem edges (a b : Ty) (h : world.Edge a b) : a = 3 ∧ b = 2 := by
  have hp : ∀ a, (world.ty a).ptr = none := by
    intro a; simp only [world]; split <;> rfl
  have hpar : ∀ a b, (world.ty a).parent = some b → a = 3 ∧ b = 2 := by
    intro a b
    simp only [world]
    split <;> intro h <;> simp_all [TypeD.new]
  rcases h with h | ⟨k, h⟩
  · exact hpar a b h
  · rw [hp] at h; cases h

example : prog.w.Nearest (fun d => d.fns.get (converterName (prog.w.ty 2).id)) 4
    [Fn.make (converterName ['T']) ⟨2, .copy, false⟩ [⟨4, .lvalue, true⟩] 5] :=
  ⟨0, 4, by decide, by decide, by intro j hj; omega⟩

example : prog.w.Closed ∧ prog.w.Acyclic := by
  have hr : ∀ a b, world.Reach a b → b < a := by
    intro a b h
    induction h with
    | edge h => obtain ⟨rfl, rfl⟩ := edges _ _ h; decide
    | step h _ ih => obtain ⟨rfl, rfl⟩ := edges _ _ h; exact Nat.lt_trans ih (by decide)
  refine ⟨?_, fun a h => Nat.lt_irrefl _ (hr a a h)⟩
  intro a b _ h
  obtain ⟨rfl, rfl⟩ := edges a b h
  decide

end AssignDemo

end Reflect

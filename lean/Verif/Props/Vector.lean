import Verif.Lemmas.Vector
import Verif.Props.ValueOps
import Verif.Props.Temporaries
import Verif.Props.StdUse
import Verif.Props.Alloc
import Verif.Props.Assign
/-
  C85 A reflected vector is a sequence.
-/
namespace Reflect
open World

/-- The functions of a reflected vector `t` with elements `elem`, as objects of type `s` answer to them: `s` is `t`, or
derives from it and has no functions of these names. -/
structure ReflectedVector (p : Prog) (s t elem sizeT : Ty) (grow init : Nat → Nat) : Prop where
  distinct : p.w.valueT ≠ p.w.voidT
  notValue : s ≠ p.w.valueT ∧ t ≠ p.w.valueT ∧ elem ≠ p.w.valueT
  derives : p.w.env.child s t = true
  noConverter : p.w.env.conv s t = false
  /-- `size_t` -/
  index : PlainCopy p sizeT
  cell : p.size sizeT = 1
  noSizeConverter : p.w.env.conv sizeT sizeT = false
  grows : ∀ k, k ≤ grow k
  size : ∃ f : Fn, p.w.functionF p.w.fuel s "size".toList = .ok [f] ∧ f.args = [t.cref] ∧ f.ret = sizeT.val ∧
    ∀ hp v k, p.impl f.body hp [.obj v k] = vecSize hp v
  clear : ∃ f : Fn, p.w.functionF p.w.fuel s "clear".toList = .ok [f] ∧ f.args = [t.lref] ∧
    ∀ hp v k, p.impl f.body hp [.obj v k] = vecClear hp v
  resize : ∃ f : Fn, p.w.functionF p.w.fuel s "resize".toList = .ok [f] ∧ f.args = [t.lref, sizeT.val] ∧
    ∀ hp v i k k', p.impl f.body hp [.obj v k, .obj i k'] = vecResize (p.size elem) grow init hp v i
  push : ∃ f g : Fn, p.w.functionF p.w.fuel s "push_back".toList = .ok [f, g] ∧
    f.args = [t.lref, elem.cref] ∧ g.args = [t.lref, elem.rref] ∧
    (∀ hp v x k k', p.impl f.body hp [.obj v k, .obj x k'] = vecPush (p.size elem) grow id hp v x) ∧
    (∀ hp v x k k', p.impl g.body hp [.obj v k, .obj x k'] = vecPush (p.size elem) grow (p.moved elem) hp v x)
  sub : ∃ f : Fn, p.w.functionF p.w.fuel s "operator[]".toList = .ok [f] ∧ f.args = [t.lref, sizeT.val] ∧ f.ret = elem.lref ∧
    ∀ hp v i k k', p.impl f.body hp [.obj v k, .obj i k'] = vecIndex (p.size elem) hp v i
  «at» : ∃ f : Fn, p.w.functionF p.w.fuel s "at".toList = .ok [f] ∧ f.args = [t.cref, sizeT.val] ∧ f.ret = elem.cref ∧
    ∀ hp v i k k', p.impl f.body hp [.obj v k, .obj i k'] = vecAt (p.size elem) hp v i

/-- the caller hands over the number `k`: a variable of type `size_t` (or of a type derived from it), a `Value` of one,
or a temporary -/
inductive Hands (p : Prog) (hp : Heap) (sizeT : Ty) : Actual → Nat → Prop
  | kept (x : Actual) : (∀ arg a, x = .native arg a → arg.ref = .lvalue) → Copied p x.arg sizeT → hp.Ok x.handle.addr 1 →
      Hands p hp sizeT x (hp.mem x.handle.addr)
  | temporary (a : Nat) : hp.Ok a 1 → Hands p hp sizeT (.native ⟨sizeT, .rvalue, false⟩ a) (hp.mem a)

/-- the cell of the temporary handed over, if it is one -/
def Actual.Own (x : Actual) (y : Nat) : Prop := ∃ arg, arg.ref ≠ .lvalue ∧ x = .native arg y

theorem hands_arg {p : Prog} {hp : Heap} {sizeT : Ty} {x : Actual} {k : Nat} (h : Hands p hp sizeT x k) (hi : PlainCopy p sizeT)
    (hc : p.size sizeT = 1) (hnc : p.w.env.conv sizeT sizeT = false) (fuel : Nat) :
    isConvertibleTo p.w.env x.arg sizeT.val ≠ .none ∧
    ∃ h0 u h1 a, (∀ y : Handle, p.toHandles hp [.dyn y, x] = .ok (h0, [y, u])) ∧
      p.castTo (p.run (fuel + 1)) h0 u sizeT.val = .ok (h1, .obj a true) ∧ hp.next ≤ a ∧ h1.Ok a 1 ∧ h1.mem a = k ∧
      (∀ y < hp.next, ¬ x.Own y → h1.mem y = hp.mem y) ∧ hp.next ≤ h1.next := by
  have conv : ∀ u : Arg, u.type ≠ p.w.valueT → p.w.env.child u.type sizeT = true → p.w.env.conv u.type sizeT = false →
      isConvertibleTo p.w.env u sizeT.val ≠ .none := by
    rintro ⟨u, r, c⟩ g1 g2 g3
    simp only at g1 g2 g3
    rw [Ty.val, convertible_static p.w.env _ _ _ _ _ _ (not_dynamic p.w.env _ _ g1 hi.notValue _ _ _ _), g3, g2]
    cases r <;> cases c <;> simp <;> split <;> simp
  cases h with
  | kept _ h1 h2 h3 =>
    refine ⟨conv _ h2.notValue h2.derives h2.noConverter, hp, x.handle, ?_⟩
    have harg : x.handle.arg = x.arg := by cases x <;> rfl
    obtain ⟨g, a, e1, e2⟩ := castTo_copy_plain p sizeT.val hp x.handle fuel rfl hi (by rw [show sizeT.val.type = sizeT from rfl, hc]; exact h3)
      (by rw [harg]; exact h2)
    refine ⟨g, a, ?_, e1, e2.fresh, ?_, ?_, fun y hy _ => e2.frame y hy, e2.grow⟩
    · intro y
      exact toHandles_simple p hp [.dyn y, x] (by
        intro z hz arg a e
        simp only [List.mem_cons, List.not_mem_nil, or_false] at hz
        rcases hz with rfl | rfl
        · cases e
        · exact h1 arg a e)
    · have := e2.ok
      rwa [show sizeT.val.type = sizeT from rfl, hc] at this
    · have := e2.same 0 (by rw [show sizeT.val.type = sizeT from rfl, hc]; omega)
      simpa using this
  | temporary a h1 =>
    refine ⟨conv _ hi.notValue (child_refl _ _) hnc, ?_⟩
    obtain ⟨g0, e1, e2, e3, e4⟩ := moveObj_ok hp (p.moved sizeT) 1 a h1
    have hw : p.wrap hp ⟨sizeT, .rvalue, false⟩ a = .ok (g0, ⟨⟨sizeT, .lvalue, false⟩, hp.next, some hp.next⟩) := by
      unfold Prog.wrap
      rw [if_neg (by simp)]
      simp only [Prog.store, hi.movable, hc, Bool.not_false, Bool.and_self, if_true, e1]
    obtain ⟨o1, o2⟩ := h1
    have hok : g0.Ok hp.next 1 := ⟨by omega, by omega⟩
    obtain ⟨g, b, f1, f2⟩ := castTo_copy_plain p sizeT.val g0 ⟨⟨sizeT, .lvalue, false⟩, hp.next, some hp.next⟩ fuel rfl hi
      (by rw [show sizeT.val.type = sizeT from rfl, hc]; exact hok)
      ⟨hi.notValue, child_refl _ _, hnc, by simp⟩
    have hg := f2.grow
    have hf := f2.fresh
    refine ⟨g0, _, g, b, ?_, f1, by omega, ?_, ?_, ?_, by omega⟩
    · intro y
      simp only [Prog.toHandles, hw]
    · have := f2.ok
      rwa [show sizeT.val.type = sizeT from rfl, hc] at this
    · have := f2.same 0 (by rw [show sizeT.val.type = sizeT from rfl, hc]; omega)
      simp only [Nat.add_zero] at this
      rw [this]
      have := e3 0 (by omega)
      simpa using this
    · intro y hy hown
      have hne : y ≠ a := fun e => hown ⟨⟨sizeT, .rvalue, false⟩, by simp, by rw [e]⟩
      rw [f2.frame y (by omega), e4 y (by omega) (by omega)]

theorem run_succ (p : Prog) (fuel : Nat) (hp : Heap) (f : Fn) (vs : List Handle) :
    p.run (fuel + 1) hp f vs = match p.bind (p.run fuel) hp vs f.args with
      | .error x => .error x
      | .ok (hp', bs) => match p.impl f.body hp' bs with
        | .error x => .error x
        | .ok (hp'', r) => p.wrapRet hp'' f.ret r := rfl

/-- A call with a number as its argument: the body is handed the object and a fresh `size_t` with the number. -/
theorem call_number {p : Prog} {sizeT t : Ty} (hi : PlainCopy p sizeT) (hc : p.size sizeT = 1) (hnc : p.w.env.conv sizeT sizeT = false)
    (fuel : Nat) (hp : Heap) (o : Handle) (name : Name) (want : Arg) (f : Fn) (c : Bool) (x : Actual) (k : Nat)
    (hlook : p.w.functionF p.w.fuel o.arg.type name = .ok [f]) (hargs : f.args = [⟨t, .lvalue, c⟩, sizeT.val])
    (ho : RefFits p (.dyn o) ⟨t, .lvalue, c⟩) (hx : Hands p hp sizeT x k) (hret : testReturn p.w.env want f.ret ≠ .none) :
    ∃ h1 a, hp.next ≤ a ∧ h1.Ok a 1 ∧ h1.mem a = k ∧ (∀ y < hp.next, ¬ x.Own y → h1.mem y = hp.mem y) ∧ hp.next ≤ h1.next ∧
      p.callMethod (fuel + 2) hp o name want [x] =
        match p.impl f.body h1 [.obj o.addr (!c), .obj a true] with
        | .error e => .error e
        | .ok (h2, r) => match p.wrapRet h2 f.ret r with
          | .error e => .error e
          | .ok (h3, u) => p.retCast (p.run (fuel + 2)) h3 u want := by
  obtain ⟨g1, h0, u, h1, a, g2, g3, g4, g5, g6, g7, g8⟩ := hands_arg hx hi hc hnc fuel
  refine ⟨h1, a, g4, g5, g6, g7, g8, ?_⟩
  have ht : f.test p.w.env want [o.arg, x.arg] ≠ .none := by
    unfold Fn.test
    rw [hargs, testArguments_pair]
    exact combine_ne_none hret (combine_ne_none ho.matches g1)
  unfold Prog.callMethod
  rw [hlook]
  dsimp only
  unfold Prog.callOv
  simp only [List.map_cons, List.map_nil, show (Actual.dyn o).arg = o.arg from rfl]
  rw [select_single, if_neg ht]
  dsimp only
  unfold Prog.callFn
  simp only [List.map_cons, List.map_nil, show (Actual.dyn o).arg = o.arg from rfl]
  rw [if_neg ht, g2 o]
  dsimp only
  have hcast := castTo_ref p (p.run (fuel + 1)) h0 (.dyn o) ⟨t, .lvalue, c⟩ ho
  have hrun : p.run (fuel + 2) h0 f [o, u] =
      match p.impl f.body h1 [.obj o.addr (!c), .obj a true] with
      | .error e => .error e
      | .ok (h2, r) => p.wrapRet h2 f.ret r := by
    rw [run_succ p (fuel + 1), hargs]
    simp only [Prog.bind]
    rw [show (o : Handle) = (Actual.dyn o).handle from rfl, hcast]
    dsimp only
    rw [g3]
  rw [hrun]
  generalize p.impl f.body h1 _ = q
  cases q with
  | error e => rfl
  | ok q => rfl

/-- the value can be used as a mutable vector -/
def Handle.Mutable (o : Handle) : Prop := o.arg.isConst = false ∧ o.arg.ref = .lvalue

section
variable {p : Prog} {s t elem sizeT : Ty} {grow init : Nat → Nat}

theorem ReflectedVector.fits (V : ReflectedVector p s t elem sizeT grow init) (o : Handle) (ho : o.arg.type = s) (c : Bool)
    (hc : c = true ∨ o.Mutable) : RefFits p (.dyn o) ⟨t, .lvalue, c⟩ := by
  refine ⟨rfl, ⟨?_, V.notValue.2.1⟩, ?_, ?_, hc, by rintro _ _ ⟨⟩⟩
  · show o.arg.type ≠ _; rw [ho]; exact V.notValue.1
  · show p.w.env.child o.arg.type t = true; rw [ho]; exact V.derives
  · show p.w.env.conv o.arg.type t = false; rw [ho]; exact V.noConverter

theorem void_ret (p : Prog) (ret : Arg) : testReturn p.w.env p.voidArg ret ≠ .none := by
  rw [C25_void_accepts (e := p.w.env) p.voidArg ret rfl]; simp

theorem retCast_void (p : Prog) (rec : Runner) (hp : Heap) (u : Handle) : p.retCast rec hp u p.voidArg = .ok (hp, none) := by
  unfold Prog.retCast; rw [if_pos (show p.voidArg.type = p.w.voidT from rfl)]

theorem retCast_value (p : Prog) (hd : p.w.valueT ≠ p.w.voidT) (rec : Runner) (hp : Heap) (u : Handle) :
    p.retCast rec hp u p.valueArg = .ok (hp, some (.val u)) := by
  unfold Prog.retCast; rw [if_neg (show ¬ p.valueArg.type = p.w.voidT from hd), castTo_dyn]

/-- the vector is not touched by handing over a number -/
theorem handed_vec {hp h1 : Heap} {n v : Nat} {x : Actual} (hv : hp.IsVec n v) (hap : ∀ y, x.Own y → ¬ hp.InVec n v y)
    (h7 : ∀ y < hp.next, ¬ x.Own y → h1.mem y = hp.mem y) (h8 : hp.next ≤ h1.next) :
    h1.IsVec n v ∧ h1.elems n v = hp.elems n v ∧ ∀ y, h1.InVec n v y ↔ hp.InVec n v y :=
  vec_kept hv h8 fun y hy hi => h7 y hy fun ho => hap y ho hi

/-- C85. `at(i)` gives the element at `i`, to be read; past the end it raises. Const and temporary vectors have it too. -/
theorem C85_at (V : ReflectedVector p s t elem sizeT grow init) (fuel : Nat) (hp : Heap) (o : Handle) (ho : o.arg.type = s)
    (x : Actual) (i : Nat) (hx : Hands p hp sizeT x i) (hv : hp.IsVec (p.size elem) o.addr)
    (hap : ∀ y, x.Own y → ¬ hp.InVec (p.size elem) o.addr y) :
    match (hp.elems (p.size elem) o.addr)[i]? with
    | none => p.callMethod (fuel + 2) hp o "at".toList p.valueArg [x] = .error .err
    | some e => ∃ hp' r, p.callMethod (fuel + 2) hp o "at".toList p.valueArg [x] = .ok (hp', some (.val r)) ∧
        r.arg = elem.cref ∧ hp'.cells r.addr (p.size elem) = e ∧
        hp'.IsVec (p.size elem) o.addr ∧ hp'.elems (p.size elem) o.addr = hp.elems (p.size elem) o.addr ∧
        (∀ y < hp.next, ¬ x.Own y → hp'.mem y = hp.mem y) ∧ hp.next ≤ hp'.next ∧ r.addr = hp.mem o.addr + p.size elem * i := by
  obtain ⟨f, g1, g2, g3, g4⟩ := V.at
  obtain ⟨h1, a, k1, k2, k3, k4, k5, k6⟩ := call_number V.index V.cell V.noSizeConverter fuel hp o "at".toList p.valueArg f true x i
    (by rw [ho]; exact g1) g2 (V.fits o ho true (Or.inl rfl)) hx
    (by rw [testReturn_value p V.distinct _ (by rw [g3]; exact V.notValue.2.2)]; simp)
  obtain ⟨v1, v2, v3⟩ := handed_vec hv hap k4 k5
  rw [k6, g4, vecAt, if_pos ⟨v1.obj, k2⟩, k3, ← v2]
  by_cases hi : i < h1.mem (o.addr + 1)
  · rw [elems_get hi, if_neg (by omega)]
    simp only [Prog.wrapRet]
    rw [C67_lvalue_refers _ _ _ _ (by rw [g3]; rfl)]
    simp only
    rw [retCast_value p V.distinct]
    have hobj := hv.obj
    refine ⟨h1, _, rfl, g3, rfl, v1, v2 ▸ rfl, k4, k5, ?_⟩
    show h1.mem o.addr + _ = _
    rw [k4 o.addr (by have := hobj.2; omega) fun c => hap _ c (Or.inl ⟨Nat.le_refl _, by omega⟩)]
  · rw [List.getElem?_eq_none (by rw [elems_length]; omega), if_pos (by omega)]

/-- C85. `v[i]` gives the element itself: whatever is written to it is then the element at `i`, and no other changes. -/
theorem C85_index (V : ReflectedVector p s t elem sizeT grow init) (fuel : Nat) (hp : Heap) (o : Handle) (ho : o.arg.type = s)
    (hm : o.Mutable) (x : Actual) (i : Nat) (hx : Hands p hp sizeT x i) (hv : hp.IsVec (p.size elem) o.addr)
    (hap : ∀ y, x.Own y → ¬ hp.InVec (p.size elem) o.addr y) (e : List Nat) (hi : (hp.elems (p.size elem) o.addr)[i]? = some e) :
    ∃ hp' r, p.callMethod (fuel + 2) hp o "operator[]".toList p.valueArg [x] = .ok (hp', some (.val r)) ∧
      r.arg = elem.lref ∧ hp'.cells r.addr (p.size elem) = e ∧ hp'.IsVec (p.size elem) o.addr ∧
      hp'.elems (p.size elem) o.addr = hp.elems (p.size elem) o.addr ∧ (∀ y < hp.next, ¬ x.Own y → hp'.mem y = hp.mem y) ∧ hp.next ≤ hp'.next ∧
      r.addr = hp.mem o.addr + p.size elem * i ∧
      ∀ h2 : Heap, hp'.next ≤ h2.next → (∀ y < hp'.next, y < r.addr ∨ r.addr + p.size elem ≤ y → h2.mem y = hp'.mem y) →
        h2.IsVec (p.size elem) o.addr ∧
        h2.elems (p.size elem) o.addr = (hp.elems (p.size elem) o.addr).set i (h2.cells r.addr (p.size elem)) := by
  obtain ⟨f, g1, g2, g3, g4⟩ := V.sub
  obtain ⟨h1, a, k1, k2, k3, k4, k5, k6⟩ := call_number V.index V.cell V.noSizeConverter fuel hp o "operator[]".toList p.valueArg f false x i
    (by rw [ho]; exact g1) g2 (V.fits o ho false (Or.inr hm)) hx
    (by rw [testReturn_value p V.distinct _ (by rw [g3]; exact V.notValue.2.2)]; simp)
  obtain ⟨v1, v2, v3⟩ := handed_vec hv hap k4 k5
  have hlt : i < h1.mem (o.addr + 1) := by
    rw [← elems_length h1 (p.size elem) o.addr, v2]
    exact (List.getElem?_eq_some_iff.mp hi).1
  rw [k6, g4, vecIndex, if_pos ⟨v1.obj, k2, by rw [k3]; exact hlt⟩, k3]
  simp only [Prog.wrapRet]
  rw [C67_lvalue_refers _ _ _ _ (by rw [g3]; rfl)]
  simp only
  rw [retCast_value p V.distinct]
  refine ⟨h1, _, rfl, g3, ?_, v1, v2, k4, k5, ?_, ?_⟩
  rotate_left
  · show h1.mem o.addr + _ = _
    have hobj := hv.obj
    rw [k4 o.addr (by have := hobj.2; omega) fun c => hap _ c (Or.inl ⟨Nat.le_refl _, by omega⟩)]
  rotate_left
  · have := elems_get (n := p.size elem) hlt
    rw [v2, hi] at this
    exact (Option.some.inj this).symm
  · intro h2 q1 q2
    obtain ⟨w1, w2⟩ := set_spec v1 hlt q1 q2
    exact ⟨w1, by rw [w2, v2]⟩

/-- C85. `size()` is the number of elements. -/
theorem C85_size (V : ReflectedVector p s t elem sizeT grow init) (fuel : Nat) (hp : Heap) (o : Handle) (ho : o.arg.type = s)
    (hv : hp.IsVec (p.size elem) o.addr) :
    ∃ hp' a, p.callMethod (fuel + 1) hp o "size".toList sizeT.val [] = .ok (hp', some (.obj a true)) ∧
      hp'.mem a = (hp.elems (p.size elem) o.addr).length ∧ hp'.IsVec (p.size elem) o.addr ∧
      hp'.elems (p.size elem) o.addr = hp.elems (p.size elem) o.addr ∧ (∀ y < hp.next, hp'.mem y = hp.mem y) ∧ hp.next ≤ hp'.next := by
  obtain ⟨f, g1, g2, g3, g4⟩ := V.size
  have hr : testReturn p.w.env sizeT.val f.ret ≠ .none := by
    rw [g3]
    unfold testReturn
    rw [if_neg (show ¬ sizeT.val.type = p.w.env.voidT from V.index.notVoid), if_neg (show ¬ sizeT.val.type = p.w.env.voidT from V.index.notVoid)]
    have : isConvertibleTo p.w.env sizeT.val sizeT.val = .exact := by unfold isConvertibleTo; rw [if_pos rfl]
    rw [this]; simp [Arg.isConstRef, Ty.val]
  rw [callMethod_refs p fuel hp o _ f sizeT.val [] (by rw [ho]; exact g1) (by rw [g2]; exact .cons (V.fits o ho true (Or.inl rfl)) .nil) hr]
  rw [show ownObjects [Actual.dyn o] f.args = [.obj o.addr (!true)] by rw [g2]; rfl, g4, vecSize, if_pos hv.obj]
  have hobj := hv.obj
  obtain ⟨o1, o2⟩ := hobj
  generalize hq : hp.newObj (fun _ => hp.mem (o.addr + 1)) 1 = q
  have q1 : q.2 = hp.next := by rw [← hq]; rfl
  have q2 : q.1.next = hp.next + 1 + 1 := by rw [← hq]; rfl
  have q3 : q.1.mem hp.next = hp.mem (o.addr + 1) := by
    rw [← hq]; exact newObj_new hp (fun _ => hp.mem (o.addr + 1)) 1 0 (by omega)
  have q4 : ∀ y < hp.next, q.1.mem y = hp.mem y := by
    intro y hy; rw [← hq]; exact newObj_old hp _ 1 y hy
  simp only [Prog.wrapRet]
  obtain ⟨h3, u, w1, w2, w3⟩ := C67_temporary_stored p q.1 f.ret q.2 (by rw [g3]; simp [Ty.val]) (by rw [g3]; exact Or.inl V.index.copyable)
    (by rw [g3, show sizeT.val.type = sizeT from rfl, V.cell, q1]; exact ⟨by omega, by omega⟩)
  rw [w1]
  simp only
  have hsz : p.size f.ret.type = 1 := by rw [g3]; exact V.cell
  have wl := w2.live
  rw [hsz] at wl
  obtain ⟨h4, a, c1, c2⟩ := castTo_copy_plain p sizeT.val h3 u fuel rfl V.index (by rw [show sizeT.val.type = sizeT from rfl, V.cell]; exact wl)
    (by rw [w2.arg, g3]; exact ⟨V.index.notValue, child_refl _ _, V.noSizeConverter, by simp⟩)
  have hgr := w2.grow
  have hgr2 := c2.grow
  have fr : ∀ y < hp.next, h4.mem y = hp.mem y := by
    intro y hy
    rw [c2.frame y (by omega), w2.frame y (by omega) (by omega), q4 y hy]
  obtain ⟨v1, v2, v3⟩ := vec_kept hv (h' := h4) (by omega) fun y hy _ => fr y hy
  refine ⟨h4, a, ?_, ?_, v1, v2, fr, by omega⟩
  · unfold Prog.retCast
    rw [if_neg (show ¬ sizeT.val.type = p.w.voidT from V.index.notVoid), c1]
  · have e1 := c2.same 0 (by rw [show sizeT.val.type = sizeT from rfl, V.cell]; omega)
    have e2 := w2.same 0 (by rw [hsz]; omega)
    simp only [Nat.add_zero] at e1 e2
    rw [e1, e2, q1, q3, elems_length]

/-- C85. `clear()` leaves no element. -/
theorem C85_clear (V : ReflectedVector p s t elem sizeT grow init) (fuel : Nat) (hp : Heap) (o : Handle) (ho : o.arg.type = s)
    (hm : o.Mutable) (hv : hp.IsVec (p.size elem) o.addr) :
    ∃ hp', p.callMethod (fuel + 1) hp o "clear".toList p.voidArg [] = .ok (hp', none) ∧ hp'.IsVec (p.size elem) o.addr ∧
      hp'.elems (p.size elem) o.addr = [] ∧ Elsewhere hp hp' (p.size elem) o.addr := by
  obtain ⟨f, g1, g2, g4⟩ := V.clear
  obtain ⟨hp', c1, c2, c3, c4⟩ := clear_spec hv
  rw [callMethod_refs p fuel hp o _ f p.voidArg [] (by rw [ho]; exact g1) (by rw [g2]; exact .cons (V.fits o ho false (Or.inr hm)) .nil)
    (void_ret p _)]
  rw [show ownObjects [Actual.dyn o] f.args = [.obj o.addr (!false)] by rw [g2]; rfl, g4, c1]
  simp only [Prog.wrapRet, retCast_void]
  exact ⟨hp', rfl, c2, c3, c4⟩

/-- what differs at most is the vector, what is new, and the temporary handed over -/
structure Elsewhere' (hp hp' : Heap) (n v : Nat) (x : Actual) : Prop where
  same : ∀ y < hp.next, ¬ hp.InVec n v y → ¬ x.Own y → hp'.mem y = hp.mem y
  grow : hp.next ≤ hp'.next
  mine : ∀ y < hp.next, hp'.InVec n v y → hp.InVec n v y

/-- C85. `resize(k)` drops the elements from `k` on, or adds value-initialised ones until there are `k`. -/
theorem C85_resize (V : ReflectedVector p s t elem sizeT grow init) (fuel : Nat) (hp : Heap) (o : Handle) (ho : o.arg.type = s)
    (hm : o.Mutable) (x : Actual) (k : Nat) (hx : Hands p hp sizeT x k) (hv : hp.IsVec (p.size elem) o.addr)
    (hap : ∀ y, x.Own y → ¬ hp.InVec (p.size elem) o.addr y) :
    ∃ hp', p.callMethod (fuel + 2) hp o "resize".toList p.voidArg [x] = .ok (hp', none) ∧ hp'.IsVec (p.size elem) o.addr ∧
      hp'.elems (p.size elem) o.addr = (hp.elems (p.size elem) o.addr).take k ++
        List.replicate (k - (hp.elems (p.size elem) o.addr).length) ((List.range (p.size elem)).map init) ∧
      Elsewhere' hp hp' (p.size elem) o.addr x := by
  obtain ⟨f, g1, g2, g4⟩ := V.resize
  obtain ⟨h1, a, k1, k2, k3, k4, k5, k6⟩ := call_number V.index V.cell V.noSizeConverter fuel hp o "resize".toList p.voidArg f false x k
    (by rw [ho]; exact g1) g2 (V.fits o ho false (Or.inr hm)) hx (void_ret p _)
  obtain ⟨v1, v2, v3⟩ := handed_vec hv hap k4 k5
  obtain ⟨hp', c1, c2, c3, c4⟩ := resize_spec (init := init) v1 k2 V.grows
  rw [k6, g4, c1]
  simp only [Prog.wrapRet, retCast_void]
  refine ⟨hp', rfl, c2, by rw [c3, v2, k3], ⟨fun y hy h h' => ?_, Nat.le_trans k5 c4.grow, fun y hy h => ?_⟩⟩
  · rw [c4.same y (by omega) (by rw [v3]; exact h), k4 y hy h']
  · exact (v3 y).1 (c4.mine y (by omega) h)

/-- C85. `push_back(x)` adds a copy of `x` at the back, if `x` is not a temporary: even if `x` is itself an element of
the vector. -/
theorem C85_push_back (V : ReflectedVector p s t elem sizeT grow init) (fuel : Nat) (hp : Heap) (o : Handle) (ho : o.arg.type = s)
    (hm : o.Mutable) (x : Actual) (hkept : ∀ arg a, x = .native arg a → arg.ref = .lvalue) (hx : Copied p x.arg elem)
    (hok : hp.Ok x.handle.addr (p.size elem)) (hv : hp.IsVec (p.size elem) o.addr) :
    ∃ hp', p.callMethod (fuel + 1) hp o "push_back".toList p.voidArg [x] = .ok (hp', none) ∧ hp'.IsVec (p.size elem) o.addr ∧
      hp'.elems (p.size elem) o.addr = hp.elems (p.size elem) o.addr ++ [hp.cells x.handle.addr (p.size elem)] ∧
      Elsewhere hp hp' (p.size elem) o.addr := by
  obtain ⟨f, g, g1, g2, g3, g4, g5⟩ := V.push
  have hfo := V.fits o ho false (Or.inr hm)
  have hfx : RefFits p x elem.cref := ⟨rfl, ⟨hx.notValue, V.notValue.2.2⟩, hx.derives, hx.noConverter, Or.inl rfl, hkept⟩
  have hfit : RefsFit p [.dyn o, x] f.args := by rw [g2]; exact .cons hfo (.cons hfx .nil)
  have tf : f.test p.w.env p.voidArg [o.arg, x.arg] ≠ .none := by
    rw [test_void p.w.env f p.voidArg _ rfl]
    exact hfit.args
  have tg : g.test p.w.env p.voidArg [o.arg, x.arg] = .none := by
    rw [test_void p.w.env g p.voidArg _ rfl, g3, testArguments_pair, Ty.rref,
      match_rref_arg p.w.env x.arg elem hx.notValue V.notValue.2.2 hx.noConverter hx.derives, if_neg hx.notMoved]
    cases isConvertibleTo p.w.env o.arg t.lref <;> rfl
  have hsel : Overloads.select p.w.env [f, g] p.voidArg [o.arg, x.arg] = .ok f := by
    rw [select_pair, tg]
    cases hh : f.test p.w.env p.voidArg [o.arg, x.arg] with
    | none => exact absurd hh tf
    | part => rfl
    | exact => rfl
  obtain ⟨hp', c1, c2, c3, c4, c5, c6⟩ := push_spec (mark := id) hv hok V.grows (Or.inl fun _ => rfl)
  refine ⟨hp', ?_, c2, c3, ⟨fun y hy h => ?_, c4, c5⟩⟩
  · unfold Prog.callMethod
    rw [ho, g1]
    dsimp only
    unfold Prog.callOv
    simp only [List.map_cons, List.map_nil, show (Actual.dyn o).arg = o.arg from rfl]
    rw [hsel]
    dsimp only
    unfold Prog.callFn
    simp only [List.map_cons, List.map_nil, show (Actual.dyn o).arg = o.arg from rfl]
    rw [if_neg tf, toHandles_refs p hp hfit]
    dsimp only
    rw [run_succ, bind_refs p (p.run fuel) hp hfit]
    dsimp only
    rw [show ownObjects [.dyn o, x] f.args = [.obj o.addr (!false), .obj x.handle.addr (!true)] by rw [g2]; rfl, g4, c1]
    simp only [Prog.wrapRet, retCast_void]
  · rw [c6 y hy h]; split <;> rfl

/-- C85. `push_back(x.rvalue())` moves `x` in, if it is not of the vector itself: it becomes the last element, and `x` is
left moved-from. This is how `json::parse` fills a list. -/
theorem C85_push_back_moved (V : ReflectedVector p s t elem sizeT grow init) (fuel : Nat) (hp : Heap) (o : Handle) (ho : o.arg.type = s)
    (hm : o.Mutable) (x : Handle) (hx : MovedFrom p x.arg elem) (hmt : (p.caps elem).moveConstructible = true) (hmov : p.w.isMovable elem = true)
    (hok : hp.Ok x.addr (p.size elem)) (hv : hp.IsVec (p.size elem) o.addr) (hap : ∀ j < p.size elem, ¬ hp.InVec (p.size elem) o.addr (x.addr + j)) :
    ∃ hp', p.callMethod (fuel + 1) hp o "push_back".toList p.voidArg [.dyn x] = .ok (hp', none) ∧ hp'.IsVec (p.size elem) o.addr ∧
      hp'.elems (p.size elem) o.addr = hp.elems (p.size elem) o.addr ++ [hp.cells x.addr (p.size elem)] ∧ hp.next ≤ hp'.next ∧
      (∀ y < hp.next, hp'.InVec (p.size elem) o.addr y → hp.InVec (p.size elem) o.addr y) ∧
      ∀ y < hp.next, ¬ hp.InVec (p.size elem) o.addr y →
        hp'.mem y = if x.addr ≤ y ∧ y < x.addr + p.size elem then p.moved elem (hp.mem y) else hp.mem y := by
  obtain ⟨f, g, g1, g2, g3, g4, g5⟩ := V.push
  have hfo := V.fits o ho false (Or.inr hm)
  have eo : isConvertibleTo p.w.env o.arg t.lref = .exact := by
    have h1 := hfo.notValue.1
    have h2 := hfo.derives
    have h3 := hfo.noConverter
    obtain ⟨h4, h5⟩ := hm
    obtain ⟨⟨ty, r, c⟩, a, w⟩ := o
    simp only [Actual.arg] at h1 h2 h3 h4 h5
    subst h4 h5
    rw [Ty.lref, convertible_static p.w.env _ _ _ _ _ _ (not_dynamic p.w.env _ _ h1 V.notValue.2.1 _ _ _ _), h3, h2]
    simp
  have tg : g.test p.w.env p.voidArg [o.arg, x.arg] = .exact := by
    rw [test_void p.w.env g p.voidArg _ rfl, g3, testArguments_pair, eo, Ty.rref,
      match_rref_arg p.w.env x.arg elem hx.notValue V.notValue.2.2 hx.noConverter hx.derives, if_pos hx.isMoved]
    rfl
  have tf : f.test p.w.env p.voidArg [o.arg, x.arg] = .part := by
    rw [test_void p.w.env f p.voidArg _ rfl, g2, testArguments_pair, eo, Ty.cref,
      match_constref_arg p.w.env x.arg elem hx.notValue V.notValue.2.2 hx.noConverter hx.derives, if_neg (by simp [hx.isMoved])]
    rfl
  have hsel : Overloads.select p.w.env [f, g] p.voidArg [o.arg, x.arg] = .ok g := by
    rw [select_pair, tg, tf]
  have hne : elem.rref ≠ p.valueArg := by simp [Prog.valueArg, Ty.rref]
  obtain ⟨o1, o2⟩ := hok
  obtain ⟨h1, d1, d2, d3, d4⟩ := moveObj_ok hp (p.moved elem) (p.size elem) x.addr ⟨o1, o2⟩
  obtain ⟨h1', d1', d5⟩ := moveObj_source hp (p.moved elem) (p.size elem) x.addr ⟨o1, o2⟩
  rw [d1] at d1'
  cases d1'
  have hcast : p.castTo (p.run fuel) hp x elem.rref = .ok (h1, .obj hp.next true) := by
    simp [Prog.castTo, if_neg hne, Prog.castV, hx.derives, Prog.castRet, Handle.as, Ty.rref, Prog.valueArg, hmov, hmt, d1]
  obtain ⟨v1, v2, v3⟩ := vec_kept hv (h' := h1) (by omega) fun y hy hi => by
    refine d4 y hy ?_
    have : ¬ (x.addr ≤ y ∧ y < x.addr + p.size elem) := fun c => hap (y - x.addr) (by omega) (by
      rw [show x.addr + (y - x.addr) = y by omega]; exact hi)
    omega
  have vlt : ∀ y, hp.InVec (p.size elem) o.addr y → y < hp.next := by
    intro y hy
    obtain ⟨⟨b1, b2⟩, _, b3, _⟩ := hv
    rcases hy with hy | hy
    · omega
    · rcases b3 with b3 | b3
      · omega
      · rw [b3] at hy; omega
  obtain ⟨hp', c1, c2, c3, c4, c5, c6⟩ := push_spec (x := hp.next) (mark := p.moved elem) v1 ⟨by omega, by omega⟩ V.grows
    (Or.inr fun j _ hi => by
      have := vlt _ ((v3 _).1 hi); omega)
  have hce : h1.cells hp.next (p.size elem) = hp.cells x.addr (p.size elem) := cells_congr d3
  refine ⟨hp', ?_, c2, by rw [c3, v2, hce], by omega, fun y hy h => (v3 y).1 (c5 y (by omega) h), fun y hy h => ?_⟩
  · unfold Prog.callMethod
    rw [ho, g1]
    dsimp only
    unfold Prog.callOv
    simp only [List.map_cons, List.map_nil, show (Actual.dyn o).arg = o.arg from rfl, show (Actual.dyn x).arg = x.arg from rfl]
    rw [hsel]
    dsimp only
    unfold Prog.callFn
    simp only [List.map_cons, List.map_nil, show (Actual.dyn o).arg = o.arg from rfl, show (Actual.dyn x).arg = x.arg from rfl]
    rw [if_neg (by rw [tg]; simp)]
    simp only [Prog.toHandles]
    rw [run_succ, g3]
    simp only [Prog.bind]
    have hc0 : p.castTo (p.run fuel) hp o t.lref = .ok (hp, .obj o.addr true) :=
      castTo_ref p (p.run fuel) hp (.dyn o) ⟨t, .lvalue, false⟩ hfo
    rw [hc0]
    simp only
    rw [hcast]
    simp only
    rw [g5, c1]
    simp only [Prog.wrapRet, retCast_void]
  · rw [c6 y (by omega) (by rw [v3]; exact h), if_neg (by omega)]
    split
    · rename_i c
      have := d5 (y - x.addr) (by omega)
      rw [show x.addr + (y - x.addr) = y by omega] at this
      exact this
    · rename_i c
      exact d4 y hy (by omega)


/-- C85. A const vector, or one that is held as a temporary, cannot be changed through these functions, nor can
references to change its elements be had. -/
theorem C85_const_refused (V : ReflectedVector p s t elem sizeT grow init) (fuel : Nat) (hp : Heap) (o : Handle) (ho : o.arg.type = s)
    (hm : o.arg.isConst = true ∨ o.arg.ref ≠ .lvalue) (want : Arg) (xs : List Actual) :
    p.callMethod fuel hp o "push_back".toList want xs = .error .err ∧ p.callMethod fuel hp o "clear".toList want xs = .error .err ∧
    p.callMethod fuel hp o "resize".toList want xs = .error .err ∧ p.callMethod fuel hp o "operator[]".toList want xs = .error .err := by
  have hc : isConvertibleTo p.w.env o.arg t.lref = .none := by
    obtain ⟨⟨ty, r, c⟩, a, w⟩ := o
    simp only at ho hm
    subst ho
    rw [Ty.lref, convertible_static p.w.env _ _ _ _ _ _ (not_dynamic p.w.env _ _ V.notValue.1 V.notValue.2.1 _ _ _ _), V.noConverter, V.derives]
    cases r <;> cases c <;> simp_all
  have hnone : ∀ f : Fn, f.args.head? = some t.lref → f.test p.w.env want (o.arg :: xs.map Actual.arg) = .none := by
    intro f hf
    cases hfa : f.args with
    | nil => rw [hfa] at hf; cases hf
    | cons a as =>
      rw [hfa] at hf
      cases hf
      exact test_none_of_param p.w.env f want _ 0 (by simp) (by simp [hfa]) (by simpa [hfa] using hc)
  have single : ∀ name f, p.w.functionF p.w.fuel s name = .ok [f] → f.args.head? = some t.lref →
      p.callMethod fuel hp o name want xs = .error .err := by
    intro name f h1 h2
    unfold Prog.callMethod Prog.callOv
    rw [ho, h1]
    simp only [List.map_cons, show (Actual.dyn o).arg = o.arg from rfl]
    rw [select_single, if_pos (hnone f h2)]
  refine ⟨?_, ?_, ?_, ?_⟩
  · obtain ⟨f, g, g1, g2, g3, -⟩ := V.push
    unfold Prog.callMethod Prog.callOv
    rw [ho, g1]
    simp only [List.map_cons, show (Actual.dyn o).arg = o.arg from rfl]
    rw [select_pair, hnone f (by rw [g2]; rfl), hnone g (by rw [g3]; rfl)]
  · obtain ⟨f, g1, g2, -⟩ := V.clear
    exact single _ f g1 (by rw [g2]; rfl)
  · obtain ⟨f, g1, g2, -⟩ := V.resize
    exact single _ f g1 (by rw [g2]; rfl)
  · obtain ⟨f, g1, g2, -⟩ := V.sub
    exact single _ f g1 (by rw [g2]; rfl)

/-- C85. Unlike `at`, `v[i]` does not check: past the end the behaviour is undefined. -/
theorem C85_index_unchecked (V : ReflectedVector p s t elem sizeT grow init) (fuel : Nat) (hp : Heap) (o : Handle) (ho : o.arg.type = s)
    (hm : o.Mutable) (x : Actual) (i : Nat) (hx : Hands p hp sizeT x i) (hv : hp.IsVec (p.size elem) o.addr)
    (hap : ∀ y, x.Own y → ¬ hp.InVec (p.size elem) o.addr y) (hi : (hp.elems (p.size elem) o.addr)[i]? = none) :
    p.callMethod (fuel + 2) hp o "operator[]".toList p.valueArg [x] = .error .ub := by
  obtain ⟨f, g1, g2, g3, g4⟩ := V.sub
  obtain ⟨h1, a, k1, k2, k3, k4, k5, k6⟩ := call_number V.index V.cell V.noSizeConverter fuel hp o "operator[]".toList p.valueArg f false x i
    (by rw [ho]; exact g1) g2 (V.fits o ho false (Or.inr hm)) hx
    (by rw [testReturn_value p V.distinct _ (by rw [g3]; exact V.notValue.2.2)]; simp)
  obtain ⟨v1, v2, v3⟩ := handed_vec hv hap k4 k5
  have hge : ¬ i < h1.mem (o.addr + 1) := by
    rw [← elems_length h1 (p.size elem) o.addr, v2, Nat.not_lt]
    exact List.getElem?_eq_none_iff.1 hi
  rw [k6, g4, vecIndex, if_neg (by rw [k3]; exact fun h => hge h.2.2)]

/-! ### any number of calls -/

theorem foldl_same {α β : Type} (f g : α → β → α) : ∀ (bs : List β), (∀ b ∈ bs, ∀ a, f a b = g a b) → ∀ a, bs.foldl f a = bs.foldl g a
  | [], _, _ => rfl
  | b :: bs, h, a => by
    rw [List.foldl_cons, List.foldl_cons, h b (by simp), foldl_same f g bs fun b' hb => h b' (by simp [hb])]

/-- C85. `v[i].assign(x)` makes the element at `i` a copy of `x`, even if `x` is itself an element, and changes nothing
else. -/
theorem C85_set (V : ReflectedVector p s t elem sizeT grow init) (fuel : Nat) (hp : Heap) (o : Handle) (ho : o.arg.type = s)
    (hm : o.Mutable) (x : Actual) (i : Nat) (hx : Hands p hp sizeT x i) (hv : hp.IsVec (p.size elem) o.addr)
    (hap : ∀ y, x.Own y → ¬ hp.InVec (p.size elem) o.addr y) (hi : i < (hp.elems (p.size elem) o.addr).length)
    (move : Bool) (hA : Assignable p elem elem true move) (e : Handle) (he : Copied p e.arg elem) (hok : hp.Ok e.addr (p.size elem))
    (hown : ∀ j < p.size elem, ¬ x.Own (e.addr + j)) :
    ∃ h1 r hp', p.callMethod (fuel + 2) hp o "operator[]".toList p.valueArg [x] = .ok (h1, some (.val r)) ∧
      p.assign (fuel + 2) h1 r (.dyn e) = .ok hp' ∧ hp'.IsVec (p.size elem) o.addr ∧
      hp'.elems (p.size elem) o.addr = (hp.elems (p.size elem) o.addr).set i (hp.cells e.addr (p.size elem)) ∧
      Elsewhere' hp hp' (p.size elem) o.addr x := by
  obtain ⟨h1, r, k1, k2, -, k4, k5, k6, k7, k8, k9⟩ := C85_index V fuel hp o ho hm x i hx hv hap _ (List.getElem?_eq_getElem hi)
  obtain ⟨v1, v2, v3⟩ := handed_vec hv hap k6 k7
  obtain ⟨⟨o1, o2⟩, b2, b3, b4⟩ := id hv
  have hlen := elems_length hp (p.size elem) o.addr
  have hl : p.size elem * i + p.size elem ≤ p.size elem * hp.mem (o.addr + 2) := by
    have := Nat.mul_le_mul_left (p.size elem) (show i + 1 ≤ hp.mem (o.addr + 2) by omega)
    rw [Nat.mul_succ] at this; exact this
  have b3' : 0 < hp.mem o.addr ∧ hp.mem o.addr + p.size elem * hp.mem (o.addr + 2) ≤ hp.next := by omega
  have b4' : o.addr + 3 ≤ hp.mem o.addr ∨ hp.mem o.addr + p.size elem * hp.mem (o.addr + 2) ≤ o.addr := by omega
  obtain ⟨e1, e2⟩ := hok
  obtain ⟨hp', c1, c2⟩ := C71_copy p (fuel + 1) h1 r (.dyn e) elem move (by rw [k2]; exact hA) (by rw [k2]; exact ⟨rfl, rfl⟩)
    ⟨by omega, by omega⟩ ⟨e1, by show e.addr + p.size elem ≤ h1.next; omega⟩ he (by rintro _ _ ⟨⟩)
  obtain ⟨w1, w2⟩ := k9 hp' c2.grow c2.frame
  have hc : hp'.cells r.addr (p.size elem) = hp.cells e.addr (p.size elem) := cells_congr fun j hj => by
    rw [c2.same j hj]
    exact k6 _ (by show e.addr + j < _; omega) (hown j hj)
  have hg := c2.grow
  refine ⟨h1, r, hp', k1, c1, w1, by rw [w2, hc], ⟨fun y hy hy1 hy2 => ?_, by omega, fun y hy hy1 => ?_⟩⟩
  · rw [c2.frame y (by omega) ?_, k6 y hy hy2]
    refine Classical.byContradiction fun c => hy1 (Or.inr ?_)
    omega
  · have q0 : hp'.mem o.addr = h1.mem o.addr := c2.frame _ (by omega) (by omega)
    have q2 : hp'.mem (o.addr + 2) = h1.mem (o.addr + 2) := c2.frame _ (by omega) (by omega)
    refine (v3 y).1 ?_
    unfold Heap.InVec at hy1 ⊢
    rwa [q0, q2] at hy1

/-- `h` is what became of `h0` after a history that leads from its vector and what is outside to `st` -/
structure Tracks (h0 h : Heap) (n v : Nat) (st : VecState) : Prop where
  vec : h.IsVec n v
  elems : h.elems n v = st.2
  grow : h0.next ≤ h.next
  mine : ∀ y < h0.next, h.InVec n v y → h0.InVec n v y
  same : ∀ y < h0.next, ¬ h0.InVec n v y → h.mem y = st.1 y

theorem Tracks.elsewhere {h0 h h' : Heap} {n v : Nat} {st : VecState} {xs : List (List Nat)} (T : Tracks h0 h n v st) (h1 : h'.IsVec n v)
    (h2 : h'.elems n v = xs) (h3 : Elsewhere h h' n v) : Tracks h0 h' n v (st.1, xs) := by
  have := T.grow
  have := h3.grow
  refine ⟨h1, h2, by omega, fun y hy g => T.mine y hy (h3.mine y (by omega) g), fun y hy g => ?_⟩
  rw [h3.same y (by omega) fun c => g (T.mine y hy c), T.same y hy g]

theorem Tracks.element {h0 h : Heap} {v : Nat} {st : VecState} (T : Tracks h0 h (p.size elem) v st) {x : Handle}
    (hx : VecCall.Element p h0 elem v x) : VecCall.Element p h elem v x ∧
      h.cells x.addr (p.size elem) = (List.range (p.size elem)).map fun j => st.1 (x.addr + j) := by
  obtain ⟨⟨e1, e2⟩, e3⟩ := hx
  have := T.grow
  refine ⟨⟨⟨e1, by omega⟩, fun j hj c => e3 j hj (T.mine _ (by omega) c)⟩, ?_⟩
  unfold Heap.cells
  refine List.map_congr_left fun j hj => ?_
  have hj := List.mem_range.1 hj
  exact T.same _ (by omega) (e3 j hj)

theorem Tracks.number {h0 h : Heap} {v : Nat} {st : VecState} (T : Tracks h0 h (p.size elem) v st) {k : Handle}
    (hx : VecCall.Number p h0 elem sizeT v k) : Hands p h sizeT (.dyn k) (st.1 k.addr) := by
  obtain ⟨e0, ⟨e1, e2⟩, e3⟩ := hx
  have := T.grow
  have hh := Hands.kept (hp := h) (.dyn k) (by rintro _ _ ⟨⟩) e0
    (show h.Ok k.addr 1 from ⟨e1, by omega⟩)
  rwa [show h.mem (Actual.dyn k).handle.addr = st.1 k.addr from T.same k.addr (by omega) e3] at hh

theorem not_own (k : Handle) (y : Nat) : ¬ (Actual.dyn k).Own y := by rintro ⟨arg, _, ⟨⟩⟩

theorem Elsewhere'.plain {hp hp' : Heap} {n v : Nat} {k : Handle} (h : Elsewhere' hp hp' n v (.dyn k)) : Elsewhere hp hp' n v :=
  ⟨fun y hy g => h.same y hy g (not_own k y), h.grow, h.mine⟩

theorem VecCall.step_spec (V : ReflectedVector p s t elem sizeT grow init) (fuel : Nat) (h0 hp : Heap) (o : Handle) (ho : o.arg.type = s)
    (hm : o.Mutable) (st : VecState) (T : Tracks h0 hp (p.size elem) o.addr st) (c : VecCall) (hc : c.Ready p h0 elem sizeT o.addr)
    (hk : c.Can p elem (∃ move, Assignable p elem elem true move)) :
    match c.effect (p.size elem) init (p.moved elem) st with
    | none => c.call p (fuel + 2) hp o = .error .ub
    | some st' => ∃ hp', c.call p (fuel + 2) hp o = .ok hp' ∧ Tracks h0 hp' (p.size elem) o.addr st' := by
  obtain ⟨f, xs⟩ := st
  cases c with
  | push x =>
    obtain ⟨h1, h2⟩ := hc
    obtain ⟨h3, h4⟩ := T.element h2
    obtain ⟨hp', a1, a2, a3, a4⟩ := C85_push_back V (fuel + 1) hp o ho hm (.dyn x) (by rintro _ _ ⟨⟩) h1 h3.1 T.vec
    exact ⟨hp', by simp only [VecCall.call, a1]; rfl, T.elsewhere a2 (by rw [a3, T.elems, ← h4]; rfl) a4⟩
  | pushMoved x =>
    obtain ⟨h1, h2⟩ := hc
    obtain ⟨h3, h4⟩ := T.element h2
    obtain ⟨hp', a1, a2, a3, a4, a5, a6⟩ := C85_push_back_moved V (fuel + 1) hp o ho hm x.rvalue h1 hk.1 hk.2 h3.1 T.vec h3.2
    have := T.grow
    refine ⟨hp', by simp only [VecCall.call, a1]; rfl, ⟨a2, by rw [a3, T.elems, ← h4]; rfl, by omega,
      fun y hy g => T.mine y hy (a5 y (by omega) g), fun y hy g => ?_⟩⟩
    rw [a6 y (by omega) fun c => g (T.mine y hy c), T.same y hy g]
    rfl
  | set i x =>
    obtain ⟨h1, h2, h3⟩ := hc
    obtain ⟨h4, h5⟩ := T.element h3
    have hn := T.number h1
    have hl := T.elems
    simp only at hn hl
    simp only [VecCall.effect]
    by_cases hi : f i.addr < xs.length
    · rw [if_pos hi]
      obtain ⟨move, hA⟩ := hk
      obtain ⟨g1, r, hp', a1, a2, a3, a4, a5⟩ := C85_set V fuel hp o ho hm (.dyn i) _ hn T.vec (fun y hy => absurd hy (not_own i y))
        (by rw [hl]; exact hi) move hA x h2 h4.1 (fun j _ => not_own i _)
      exact ⟨hp', by simp only [VecCall.call, a1, a2], T.elsewhere a3 (by rw [a4, hl, h5]) a5.plain⟩
    · rw [if_neg hi]
      simp only [VecCall.call]
      rw [C85_index_unchecked V fuel hp o ho hm (.dyn i) _ hn T.vec (fun y hy => absurd hy (not_own i y))
        (by rw [hl]; exact List.getElem?_eq_none_iff.2 (by omega))]
  | clear =>
    obtain ⟨hp', a1, a2, a3, a4⟩ := C85_clear V (fuel + 1) hp o ho hm T.vec
    exact ⟨hp', by simp only [VecCall.call, a1]; rfl, T.elsewhere a2 a3 a4⟩
  | resize k =>
    obtain ⟨hp', a1, a2, a3, a4⟩ := C85_resize V fuel hp o ho hm (.dyn k) _ (T.number hc) T.vec (fun y hy => absurd hy (not_own k y))
    exact ⟨hp', by simp only [VecCall.call, a1]; rfl, T.elsewhere a2 (by rw [a3, T.elems]) a4.plain⟩

/-- C85. After any history of `push_back`, `push_back` of an `rvalue()`, `v[i].assign`, `clear` and `resize`, the vector
has the elements that the sequence has after the same history, and what is outside of it has changed only where
`push_back` took it; unless a `v[i]` is past the end: then the behaviour is undefined. The arguments lie outside of the
vector. -/
theorem C85_history (V : ReflectedVector p s t elem sizeT grow init) (fuel : Nat) (cs : List VecCall) (o : Handle) (ho : o.arg.type = s)
    (hm : o.Mutable) (hp : Heap) (hv : hp.IsVec (p.size elem) o.addr) (hr : ∀ c ∈ cs, c.Ready p hp elem sizeT o.addr)
    (hk : ∀ c ∈ cs, c.Can p elem (∃ move, Assignable p elem elem true move)) :
    match cs.foldlM (fun st c => c.effect (p.size elem) init (p.moved elem) st) (hp.mem, hp.elems (p.size elem) o.addr) with
    | none => VecCall.all p (fuel + 2) o hp cs = .error .ub
    | some (f, xs) => ∃ hp', VecCall.all p (fuel + 2) o hp cs = .ok hp' ∧ hp'.IsVec (p.size elem) o.addr ∧
        hp'.elems (p.size elem) o.addr = xs ∧ hp.next ≤ hp'.next ∧
        (∀ y < hp.next, ¬ hp.InVec (p.size elem) o.addr y → hp'.mem y = f y ∧ ¬ hp'.InVec (p.size elem) o.addr y) := by
  have main : ∀ (cs : List VecCall) (h : Heap) (st : VecState), Tracks hp h (p.size elem) o.addr st →
      (∀ c ∈ cs, c.Ready p hp elem sizeT o.addr) → (∀ c ∈ cs, c.Can p elem (∃ move, Assignable p elem elem true move)) →
      match cs.foldlM (fun st c => c.effect (p.size elem) init (p.moved elem) st) st with
      | none => VecCall.all p (fuel + 2) o h cs = .error .ub
      | some st' => ∃ hp', VecCall.all p (fuel + 2) o h cs = .ok hp' ∧ Tracks hp hp' (p.size elem) o.addr st' := by
    intro cs
    induction cs with
    | nil => exact fun h st T _ _ => ⟨h, rfl, T⟩
    | cons c cs ih =>
      intro h st T h1 h2
      have hs := VecCall.step_spec V fuel hp h o ho hm st T c (h1 c (by simp)) (h2 c (by simp))
      rw [List.foldlM_cons]
      cases he : c.effect (p.size elem) init (p.moved elem) st with
      | none =>
        rw [he] at hs
        simp only at hs
        simp only [VecCall.all, hs]
        trivial
      | some st' =>
        rw [he] at hs
        obtain ⟨h', a1, a2⟩ := hs
        have := ih h' st' a2 (fun d hd => h1 d (by simp [hd])) (fun d hd => h2 d (by simp [hd]))
        simp only [VecCall.all, a1]
        exact this
  have := main cs hp (hp.mem, hp.elems (p.size elem) o.addr) ⟨hv, rfl, Nat.le_refl _, fun _ _ h => h, fun _ _ _ => rfl⟩ hr hk
  revert this
  cases cs.foldlM (fun st c => c.effect (p.size elem) init (p.moved elem) st) (hp.mem, hp.elems (p.size elem) o.addr) with
  | none => exact id
  | some st =>
    rintro ⟨hp', a1, a2⟩
    exact ⟨hp', a1, a2.vec, a2.elems, a2.grow, fun y hy g => ⟨a2.same y hy g, fun c => g (a2.mine y hy c)⟩⟩

/-- C85. The library's description of `std::vector`, with the standard's vector behind it, makes a reflected vector. -/
theorem C85_described (l : Lib) (hd : p.w.valueT ≠ p.w.voidT)
    (hnv : s ≠ p.w.valueT ∧ t ≠ p.w.valueT ∧ elem ≠ p.w.valueT) (hch : p.w.env.child s t = true) (hcv : p.w.env.conv s t = false)
    (hi : PlainCopy p l.sizeT) (hcell : p.size l.sizeT = 1) (hcs : p.w.env.conv l.sizeT l.sizeT = false) (hg : ∀ k, k ≤ grow k)
    (c : Caps) (id : Name)
    (hf : ∀ n ∈ (Spec.vectorTable l t elem).map Prod.fst, p.w.functionF p.w.fuel s n.toList =
      .ok (((fnsOf ((vectorDesc l t elem c id).drop (plumbing l t id c).length)).filter fun f => f.1 = n.toList).map Prod.snd))
    (h5 : ∀ hp v k, p.impl 5 hp [.obj v k] = vecSize hp v) (h6 : ∀ hp v k, p.impl 6 hp [.obj v k] = vecClear hp v)
    (h7 : ∀ hp v i k k', p.impl 7 hp [.obj v k, .obj i k'] = vecResize (p.size elem) grow init hp v i)
    (h8 : ∀ hp v x k k', p.impl 8 hp [.obj v k, .obj x k'] = vecPush (p.size elem) grow (fun c => c) hp v x)
    (h9 : ∀ hp v x k k', p.impl 9 hp [.obj v k, .obj x k'] = vecPush (p.size elem) grow (p.moved elem) hp v x)
    (h10 : ∀ hp v i k k', p.impl 10 hp [.obj v k, .obj i k'] = vecIndex (p.size elem) hp v i)
    (h11 : ∀ hp v i k k', p.impl 11 hp [.obj v k, .obj i k'] = vecAt (p.size elem) hp v i) :
    ReflectedVector p s t elem l.sizeT grow init := by
  rw [vectorDesc, List.drop_left] at hf
  simp only [flag, tag, defFn, fnsOf] at hf
  exact
  { distinct := hd, notValue := hnv, derives := hch, noConverter := hcv, index := hi, cell := hcell, noSizeConverter := hcs, grows := hg
    size := ⟨Fn.make "size".toList l.sizeT.val [t.cref] 5, (hf "size" (by simp [Spec.vectorTable])).trans (by simp), rfl, rfl, h5⟩
    clear := ⟨Fn.make "clear".toList l.voidT.val [t.lref] 6, (hf "clear" (by simp [Spec.vectorTable])).trans (by simp), rfl, h6⟩
    resize := ⟨Fn.make "resize".toList l.voidT.val [t.lref, l.sizeT.val] 7, (hf "resize" (by simp [Spec.vectorTable])).trans (by simp), rfl, h7⟩
    push := ⟨Fn.make "push_back".toList l.voidT.val [t.lref, elem.cref] 8,
      Fn.make "push_back".toList l.voidT.val [t.lref, elem.rref] 9, (hf "push_back" (by simp [Spec.vectorTable])).trans (by simp), rfl, rfl, h8, h9⟩
    sub := ⟨Fn.make "operator[]".toList elem.lref [t.lref, l.sizeT.val] 10, (hf "operator[]" (by simp [Spec.vectorTable])).trans (by simp), rfl, rfl, h10⟩
    «at» := ⟨Fn.make "at".toList elem.cref [t.cref, l.sizeT.val] 11, (hf "at" (by simp [Spec.vectorTable])).trans (by simp), rfl, rfl, h11⟩ }

end

/-! ### a concrete case -/

namespace VecDemo

def all : Caps := ⟨true, true, true, true, true⟩
def lib : Lib := ⟨6, 4, 0, ⟨Ty.val 0, 0, none⟩, fun t n => ⟨Ty.lref 4, t, some n.length⟩⟩
def e0 : Env := ⟨0, 1, fun a b => a = b, fun _ _ => false⟩

def impl : Nat → Heap → List BArg → Res (Heap × BRet)
  | 1, hp, [.obj a _] => (hp.copyObj 1 a).map fun r => (r.1, .obj r.2)
  | 3, hp, [.obj a _] => (hp.moveObj (fun _ => 0) 1 a).map fun r => (r.1, .obj r.2)
  | 2, hp, [.obj a true, .obj b _] => (hp.assignObj 2 a b).map fun h => (h, .obj a)
  | 4, hp, [.obj a true, .obj b _] => (hp.moveAssignObj (fun _ => 0) 2 a b).map fun h => (h, .obj a)
  | 5, hp, [.obj v _] => vecSize hp v
  | 6, hp, [.obj v _] => vecClear hp v
  | 7, hp, [.obj v _, .obj i _] => vecResize 2 (2 * ·) (fun _ => 0) hp v i
  | 8, hp, [.obj v _, .obj x _] => vecPush 2 (2 * ·) (fun c => c) hp v x
  | 9, hp, [.obj v _, .obj x _] => vecPush 2 (2 * ·) (fun _ => 0) hp v x
  | 10, hp, [.obj v _, .obj i _] => vecIndex 2 hp v i
  | 11, hp, [.obj v _, .obj i _] => vecAt 2 hp v i
  | _, _, _ => .error .ub

/-- 0 void, 1 Value, 2 vector<E>, 3 E (two cells), 4 size_t, 5 a class derived from the vector -/
def world : World :=
  { n := 7, voidT := 0, valueT := 1
    ty := fun t => match t with
      | 0 => TypeD.new ['v']
      | 1 => TypeD.new ['V']
      | 2 => ((Noted.new ['L']).runAll e0 lib.void (vectorDesc lib 2 3 all ['L'])).1.d
      | 3 => ((TypeD.new ['E']).runAll e0 (plumbingOps 3 ['E'] all)).1
      | 4 => { TypeD.new ['S'] with fns := [(['S'], plumbedConstructors 4 ['S'] all)] }
      | 5 => { TypeD.new ['C'] with parent := some 2 }
      | _ => TypeD.new ['b'] }

def prog : Prog :=
  { w := world, size := fun t => if t = 3 then 2 else if t = 4 then 1 else 3, caps := fun _ => all
    moved := fun _ _ => 0, junk := .copy, impl := impl }

theorem plainSize : PlainCopy prog 4 := by
  refine (C32_plumbed prog 4 all [] (by decide) (by decide) (by decide) rfl rfl rfl (by decide) (by decide) (by simp) ?_ ?_).1
  · intro hp a m h; rfl
  · intro hp a m h; rfl

theorem vec (s : Ty) (hs : s = 2 ∨ s = 5) : ReflectedVector prog s 2 3 4 (2 * ·) (fun _ => 0) := by
  refine C85_described lib (by decide) ?_ ?_ ?_ plainSize (by decide) (by decide +kernel) (by intro k; omega) all ['L'] ?_
    (fun _ _ _ => rfl) (fun _ _ _ => rfl) (fun _ _ _ _ _ => rfl) (fun _ _ _ _ _ => rfl) (fun _ _ _ _ _ => rfl) (fun _ _ _ _ _ => rfl)
    (fun _ _ _ _ _ => rfl)
  · rcases hs with rfl | rfl <;> decide
  · rcases hs with rfl | rfl <;> decide +kernel
  · rcases hs with rfl | rfl <;> decide +kernel
  · rcases hs with rfl | rfl <;> decide +kernel

/-- a vector at 1 with one element, (7, 8), at 5 and room for another; an element (5, 6) at 10; the number 3 at 13 -/
def heap : Heap :=
  { mem := fun a => match a with
      | 1 => 5 | 2 => 1 | 3 => 2 | 5 => 7 | 6 => 8 | 10 => 5 | 11 => 6 | 13 => 3 | _ => 0
    next := 15 }

def v : Handle := ⟨Ty.lref 5, 1, none⟩
def e : Handle := ⟨Ty.lref 3, 10, none⟩
def k : Handle := ⟨Ty.cref 4, 13, none⟩

theorem isVec : heap.IsVec (prog.size 3) v.addr := ⟨by decide, by decide, by decide, by decide⟩
theorem elemsOf : heap.elems 2 1 = [[7, 8]] := by decide
theorem copiedE : Copied prog e.arg 3 := ⟨by decide, by decide +kernel, by decide +kernel, by decide⟩
theorem copiedK : Copied prog k.arg 4 := ⟨by decide, by decide +kernel, by decide +kernel, by decide⟩
theorem outside (y : Nat) (hy : 9 ≤ y) : ¬ heap.InVec (prog.size 3) v.addr y := by
  simp only [Heap.InVec, heap, v, prog]
  simp; omega

/-- the number 0 -/
def z : Handle := ⟨Ty.lref 4, 14, none⟩

theorem assignE : Assignable prog 3 3 true true :=
  C71_plumbed_assignable prog 3 3 all (by decide) (by decide) (by decide) (by decide +kernel) (by decide +kernel) (by decide) (by rfl)
    (fun _ _ _ _ => rfl) (fun _ _ _ _ => rfl)

theorem readyPush : VecCall.Ready prog heap 3 4 v.addr (.push e) :=
  ⟨copiedE, by decide, fun j _ => outside _ (Nat.le_trans (by decide) (Nat.le_add_right e.addr j))⟩
theorem readyMoved : VecCall.Ready prog heap 3 4 v.addr (.pushMoved e) :=
  ⟨⟨by decide, by decide +kernel, by decide +kernel, by decide⟩, readyPush.2⟩
theorem readySet : VecCall.Ready prog heap 3 4 v.addr (.set z e) :=
  ⟨⟨⟨by decide, by decide +kernel, by decide +kernel, by decide⟩, by decide, outside _ (by decide)⟩, readyPush⟩
theorem readyResize : VecCall.Ready prog heap 3 4 v.addr (.resize k) := ⟨copiedK, by decide, outside _ (by decide)⟩
theorem can (c : VecCall) : c.Can prog 3 (∃ move, Assignable prog 3 3 true move) := by
  cases c with
  | pushMoved x => exact ⟨rfl, by decide +kernel⟩
  | set i x => exact ⟨true, assignE⟩
  | _ => trivial

/-- a history that is defined, and one that is not -/
def good : List VecCall := [.push e, .set z e, .resize k, .pushMoved e, .push e]
def bad : List VecCall := [.clear, .set z e]
theorem readyGood : ∀ c ∈ good, c.Ready prog heap 3 4 v.addr := by
  intro c hc
  simp only [good, List.mem_cons, List.not_mem_nil, or_false] at hc
  rcases hc with rfl | rfl | rfl | rfl | rfl
  · exact readyPush
  · exact readySet
  · exact readyResize
  · exact readyMoved
  · exact readyPush
theorem readyBad : ∀ c ∈ bad, c.Ready prog heap 3 4 v.addr := by
  intro c hc
  simp only [bad, List.mem_cons, List.not_mem_nil, or_false] at hc
  rcases hc with rfl | rfl
  · trivial
  · exact readySet

/-- the elements after the calls -/
def after (cs : List VecCall) : Option (List (List Nat)) := match VecCall.all prog 2 v heap cs with
  | .ok h => some (h.elems 2 1)
  | .error _ => none

example : ∃ hp', VecCall.all prog 2 v heap good = .ok hp' ∧
    hp'.elems 2 1 = [[5, 6], [5, 6], [0, 0], [5, 6], [0, 0]] ∧ hp'.mem 10 = 0 := by
  obtain ⟨hp', h1, -, h3, -, h5⟩ := C85_history (vec 5 (by decide)) 0 good v rfl ⟨rfl, rfl⟩ heap isVec readyGood (fun c _ => can c)
  exact ⟨hp', h1, h3.trans (by decide), (h5 10 (by decide) (outside _ (by decide))).1.trans (by decide)⟩
example : VecCall.all prog 2 v heap bad = .error .ub :=
  C85_history (vec 5 (by decide)) 0 bad v rfl ⟨rfl, rfl⟩ heap isVec readyBad (fun c _ => can c)
example : after good = some [[5, 6], [5, 6], [0, 0], [5, 6], [0, 0]] := by decide +kernel
/-- an element assigned to another: `v[0].assign(v[1])` -/
example : after [.push e, .set z ⟨Ty.lref 3, 7, none⟩] = some [[5, 6], [5, 6]] := by decide +kernel
example : after [.push e, .push e] = some [[7, 8], [5, 6], [5, 6]] := by decide +kernel
example : after [.push e, .push e, .resize k] = some [[7, 8], [5, 6], [5, 6]] := by decide +kernel
example : after [.push e, .resize k] = some [[7, 8], [5, 6], [0, 0]] := by decide +kernel
example : after [.clear, .push e, .push e, .push e, .push e, .resize k] = some [[5, 6], [5, 6], [5, 6]] := by decide +kernel

/-- the only element pushed again, with and without room -/
example : after [.push ⟨Ty.cref 3, 5, none⟩] = some [[7, 8], [7, 8]] := by decide +kernel
example : after [.push e, .push ⟨Ty.cref 3, 5, none⟩] = some [[7, 8], [5, 6], [7, 8]] := by decide +kernel

/-- what a call returns refers to, of two cells; and the elements after it -/
def seen (r : Res (Heap × Option BArg)) : Option (Arg × List Nat × List (List Nat) × List Nat) := match r with
  | .ok (h, some (.val u)) => some (u.arg, h.cells u.addr 2, h.elems 2 1, h.cells 10 2)
  | .ok (h, _) => some (Ty.val 0, [], h.elems 2 1, h.cells 10 2)
  | _ => none

/-- `at(0)` with a temporary; `at(3)`; `v[0]` -/
example : Hands prog heap 4 (.native ⟨4, .rvalue, false⟩ 14) 0 := .temporary 14 (by decide)
example : Hands prog heap 4 (.dyn k) 3 := .kept (.dyn k) (by rintro _ _ ⟨⟩) copiedK (by decide)
example : seen (prog.callMethod 2 heap v "at".toList prog.valueArg [.native ⟨4, .rvalue, false⟩ 14]) =
    some (Ty.cref 3, [7, 8], [[7, 8]], [5, 6]) := by decide +kernel
example : prog.callMethod 2 heap v "at".toList prog.valueArg [.dyn k] = .error .err :=
  C85_at (vec 5 (by decide)) 0 heap v rfl (.dyn k) 3 (.kept (.dyn k) (by rintro _ _ ⟨⟩) copiedK (by decide)) isVec (by rintro y ⟨arg, _, ⟨⟩⟩)
example : prog.callMethod 2 heap v "operator[]".toList prog.valueArg [.dyn k] = .error .ub :=
  C85_index_unchecked (vec 5 (by decide)) 0 heap v rfl ⟨rfl, rfl⟩ (.dyn k) 3 (.kept (.dyn k) (by rintro _ _ ⟨⟩) copiedK (by decide)) isVec
    (by rintro y ⟨arg, _, ⟨⟩⟩) (by decide)
example : seen (prog.callMethod 2 heap v "operator[]".toList prog.valueArg [.native ⟨4, .rvalue, false⟩ 14]) =
    some (Ty.lref 3, [7, 8], [[7, 8]], [5, 6]) := by decide +kernel
/-- `push_back(e.rvalue())` -/
example : seen (prog.callMethod 2 heap v "push_back".toList prog.voidArg [.dyn e.rvalue]) =
    some (Ty.val 0, [], [[7, 8], [5, 6]], [0, 0]) := by decide +kernel
example : MovedFrom prog e.rvalue.arg 3 ∧ prog.w.isMovable 3 = true :=
  ⟨⟨by decide, by decide +kernel, by decide +kernel, by decide⟩, by decide +kernel⟩
example : prog.callMethod 2 heap v.toConst "clear".toList prog.voidArg [] = .error .err :=
  (C85_const_refused (vec 5 (by decide)) 2 heap v.toConst rfl (Or.inl rfl) prog.voidArg []).2.1
example : ∃ hp' a, prog.callMethod 1 heap v.toConst "size".toList (Ty.val 4) [] = .ok (hp', some (.obj a true)) ∧ hp'.mem a = 1 := by
  obtain ⟨hp', a, h1, h2, -⟩ := C85_size (vec 5 (by decide)) 0 heap v.toConst rfl isVec
  exact ⟨hp', a, h1, h2⟩

end VecDemo

end Reflect

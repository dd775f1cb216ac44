import Verif.Lemmas.SmartPtr
import Verif.Props.MapFns
/-
  C87 Reflected smart pointers point and own.
-/
namespace Reflect
open World

/-! ### calls of one of several overloads -/

/-- As `callMethod_refs`, where the overload was chosen among others. -/
theorem callMethod_refs_sel (p : Prog) (fuel : Nat) (hp : Heap) (v : Handle) (op : Name) (o : Overloads) (f : Fn) (want : Arg)
    (as : List Actual) (hlook : p.w.functionF p.w.fuel v.arg.type op = .ok o)
    (hsel : o.select p.w.env want ((Actual.dyn v :: as).map Actual.arg) = .ok f)
    (hfit : RefsFit p (.dyn v :: as) f.args) (hret : testReturn p.w.env want f.ret ≠ .none) :
    p.callMethod (fuel + 1) hp v op want as =
      match p.impl f.body hp (ownObjects (.dyn v :: as) f.args) with
      | .error x => .error x
      | .ok (h2, r) => match p.wrapRet h2 f.ret r with
        | .error x => .error x
        | .ok (h3, u) => p.retCast (p.run (fuel + 1)) h3 u want := by
  have ht : f.test p.w.env want ((Actual.dyn v :: as).map Actual.arg) ≠ .none :=
    combine_ne_none hret hfit.args
  unfold Prog.callMethod
  rw [hlook]
  dsimp only
  unfold Prog.callOv
  rw [hsel]
  dsimp only
  unfold Prog.callFn
  rw [if_neg ht, toHandles_refs p hp hfit]
  dsimp only
  have hrun : p.run (fuel + 1) hp f ((Actual.dyn v :: as).map Actual.handle) =
      match p.impl f.body hp (ownObjects (.dyn v :: as) f.args) with
      | .error x => .error x
      | .ok (h2, r) => p.wrapRet h2 f.ret r := by
    rw [run_succ, bind_refs p (p.run fuel) hp hfit]
    dsimp only
    generalize p.impl f.body hp _ = q
    cases q <;> rfl
  rw [hrun]
  generalize p.impl f.body hp _ = q
  cases q with
  | error x => rfl
  | ok q => rfl

/-- As `call_number`, where the overload was chosen among others. -/
theorem call_number_sel {p : Prog} {sizeT t : Ty} (hi : PlainCopy p sizeT) (hc : p.size sizeT = 1) (hnc : p.w.env.conv sizeT sizeT = false)
    (fuel : Nat) (hp : Heap) (o : Handle) (name : Name) (want : Arg) (os : Overloads) (f : Fn) (c : Bool) (x : Actual) (k : Nat)
    (hlook : p.w.functionF p.w.fuel o.arg.type name = .ok os) (hargs : f.args = [⟨t, .lvalue, c⟩, sizeT.val])
    (hsel : f.test p.w.env want [o.arg, x.arg] ≠ .none → os.select p.w.env want [o.arg, x.arg] = .ok f)
    (ho : RefFits p (.dyn o) ⟨t, .lvalue, c⟩) (hx : Hands p hp sizeT x k) (hret : testReturn p.w.env want f.ret ≠ .none) :
    ∃ h1 a, hp.next ≤ a ∧ h1.Ok a 1 ∧ h1.mem a = k ∧ (∀ y < hp.next, ¬ x.Own y → h1.mem y = hp.mem y) ∧ hp.next ≤ h1.next ∧
      p.callMethod (fuel + 2) hp o name want [x] =
        match p.impl f.body h1 [.obj o.addr (!c), .obj a true] with
        | .error e => .error e
        | .ok (h2, r) => match p.wrapRet h2 f.ret r with
          | .error e => .error e
          | .ok (h3, u) => p.retCast (p.run (fuel + 2)) h3 u want := by
  obtain ⟨g1, h0, u, h1, a, g2, g3, g4, g5, g6, g7, g8⟩ := hands_arg hx hi hc hnc fuel
  refine ⟨h1, a, g4, g5, g6, g7, g8, ?_⟩
  have ht : f.test p.w.env want [o.arg, x.arg] ≠ .none := by
    unfold Fn.test
    rw [hargs, testArguments_pair]
    exact combine_ne_none hret (combine_ne_none ho.matches g1)
  unfold Prog.callMethod
  rw [hlook]
  dsimp only
  unfold Prog.callOv
  simp only [List.map_cons, List.map_nil, show (Actual.dyn o).arg = o.arg from rfl]
  rw [hsel ht]
  dsimp only
  unfold Prog.callFn
  simp only [List.map_cons, List.map_nil, show (Actual.dyn o).arg = o.arg from rfl]
  rw [if_neg ht, g2 o]
  dsimp only
  have hcast := castTo_ref p (p.run (fuel + 1)) h0 (.dyn o) ⟨t, .lvalue, c⟩ ho
  have hrun : p.run (fuel + 2) h0 f [o, u] =
      match p.impl f.body h1 [.obj o.addr (!c), .obj a true] with
      | .error e => .error e
      | .ok (h2, r) => p.wrapRet h2 f.ret r := by
    rw [run_succ p (fuel + 1), hargs]
    simp only [Prog.bind]
    rw [show (o : Handle) = (Actual.dyn o).handle from rfl, hcast]
    dsimp only
    rw [g3]
    dsimp only
    generalize p.impl f.body h1 _ = q
    cases q <;> rfl
  rw [hrun]
  generalize p.impl f.body h1 _ = q
  cases q with
  | error e => rfl
  | ok q => rfl

/-- of two overloads, the one that fits -/
theorem select_two {e : Env} {f g : Fn} {want : Arg} {args : List Arg} {o : Overloads} (ho : o = [f, g] ∨ o = [g, f])
    (hf : f.test e want args ≠ .none) (hg : g.test e want args = .none) : o.select e want args = .ok f := by
  rcases ho with rfl | rfl <;> rw [select_pair, hg]
  · revert hf; cases f.test e want args <;> simp
  · revert hf; cases f.test e want args <;> simp

/-! ### the reflected pointers -/

/-- The functions that the reflected smart pointers `t` to `inner` have in common, as objects of type `s` answer to them:
`s` is `t`, or derives from it and has no functions of these names. `raw` is `inner*`. -/
structure ReflectedPtr (p : Prog) (s t inner raw boolT : Ty) (innerConst : Bool) (n : Nat) : Prop where
  distinct : p.w.valueT ≠ p.w.voidT
  notValue : s ≠ p.w.valueT ∧ t ≠ p.w.valueT ∧ inner ≠ p.w.valueT
  derives : p.w.env.child s t = true
  noConverter : p.w.env.conv s t = false
  /-- plain pointers and `bool` are copied -/
  rawPlain : PlainCopy p raw ∧ p.size raw = 1 ∧ p.w.env.conv raw raw = false
  boolPlain : PlainCopy p boolT ∧ p.size boolT = 1 ∧ p.w.env.conv boolT boolT = false
  size : p.size t = n
  get : ∃ f : Fn, p.w.functionF p.w.fuel s "get".toList = .ok [f] ∧ f.args = [t.cref] ∧ f.ret = raw.val ∧
    ∀ hp u k, p.impl f.body hp [.obj u k] = ptrGet n hp u
  toBool : ∃ f : Fn, p.w.functionF p.w.fuel s "operator bool()".toList = .ok [f] ∧ f.args = [t.cref] ∧ f.ret = boolT.val ∧
    ∀ hp u k, p.impl f.body hp [.obj u k] = ptrBool n hp u
  deref : ∃ f : Fn, p.w.functionF p.w.fuel s "operator*".toList = .ok [f] ∧ f.args = [t.cref] ∧ f.ret = ⟨inner, .lvalue, innerConst⟩ ∧
    ∀ hp u k, p.impl f.body hp [.obj u k] = ptrDeref n hp u
  eq : ∃ f : Fn, p.w.functionF p.w.fuel s "operator==".toList = .ok [f] ∧ f.args = [t.cref, t.cref] ∧ f.ret = boolT.val ∧
    ∀ hp u w k k', p.impl f.body hp [.obj u k, .obj w k'] = ptrEq n hp u w
  /-- the constructor from a plain pointer, among the others -/
  makes : ∃ pre f post, p.w.functionF p.w.fuel t (p.w.ty t).id = .ok (pre ++ f :: post) ∧ f.args = [raw.val] ∧ f.ret = t.val ∧
    (∀ hp x k, p.impl f.body hp [.obj x k] = if n = 1 then uniMake hp x else shMake hp x) ∧ ∀ g ∈ pre ++ post, NotFor p raw g
  notVoid : t ≠ p.w.voidT
  /-- moving leaves nothing -/
  moves : p.w.isMovable t = true ∧ (p.caps t).moveConstructible = true ∧ ∀ x, p.moved t x = 0

/-- a reflected `std::unique_ptr` -/
structure ReflectedUnique (p : Prog) (s t inner raw boolT : Ty) (innerConst : Bool) : Prop
    extends ReflectedPtr p s t inner raw boolT innerConst 1 where
  release : ∃ f : Fn, p.w.functionF p.w.fuel s "release".toList = .ok [f] ∧ f.args = [t.lref] ∧ f.ret = raw.val ∧
    ∀ hp u k, p.impl f.body hp [.obj u k] = uniRelease hp u
  reset : ∃ (f g : Fn) (o : Overloads), p.w.functionF p.w.fuel s "reset".toList = .ok o ∧ (o = [f, g] ∨ o = [g, f]) ∧
    f.args = [t.lref] ∧ g.args = [t.lref, raw.val] ∧
    (∀ hp u k, p.impl f.body hp [.obj u k] = uniReset hp u) ∧
    ∀ hp u x k k', p.impl g.body hp [.obj u k, .obj x k'] = uniResetTo hp u x
  assign : ∃ f : Fn, p.w.functionF p.w.fuel s "operator=".toList = .ok [f] ∧ f.args = [t.lref, t.rref] ∧ f.ret = t.lref ∧
    ∀ hp u w k k', p.impl f.body hp [.obj u k, .obj w k'] = uniMoveAssign hp u w

/-- a reflected `std::shared_ptr` -/
structure ReflectedShared (p : Prog) (s t inner raw boolT : Ty) (innerConst : Bool) : Prop
    extends ReflectedPtr p s t inner raw boolT innerConst 2 where
  reset : ∃ (f g : Fn) (o : Overloads), p.w.functionF p.w.fuel s "reset".toList = .ok o ∧ (o = [f, g] ∨ o = [g, f]) ∧
    f.args = [t.lref] ∧ g.args = [t.lref, raw.val] ∧
    (∀ hp u k, p.impl f.body hp [.obj u k] = shReset hp u) ∧
    ∀ hp u x k k', p.impl g.body hp [.obj u k, .obj x k'] = shResetTo hp u x
  assign : ∃ f g : Fn, p.w.functionF p.w.fuel s "operator=".toList = .ok [f, g] ∧ f.args = [t.lref, t.cref] ∧ f.ret = t.lref ∧
    g.args = [t.lref, t.rref] ∧ g.ret = t.lref ∧
    (∀ hp u w k k', p.impl f.body hp [.obj u k, .obj w k'] = shAssign hp u w) ∧
    ∀ hp u w k k', p.impl g.body hp [.obj u k, .obj w k'] = shMoveAssign hp u w
  /-- the copy constructor, among the others -/
  copies : p.w.isCopiable t = true ∧
    ∃ pre f post, p.w.functionF p.w.fuel t (p.w.ty t).id = .ok (pre ++ f :: post) ∧ f.args = [t.cref] ∧ f.ret = t.val ∧
      (∀ hp w k, p.impl f.body hp [.obj w k] = shCopy hp w) ∧ ∀ g ∈ pre ++ post, IsMoveCtor p t g ∨ NotFor p t g

section
variable {p : Prog} {s t inner raw boolT : Ty} {innerConst : Bool} {n : Nat}

theorem ReflectedPtr.fits (V : ReflectedPtr p s t inner raw boolT innerConst n) (o : Handle) (ho : o.arg.type = s) (c : Bool)
    (hc : c = true ∨ o.Mutable) : RefFits p (.dyn o) ⟨t, .lvalue, c⟩ := by
  refine ⟨rfl, ⟨?_, V.notValue.2.1⟩, ?_, ?_, hc, by rintro _ _ ⟨⟩⟩
  · show o.arg.type ≠ _; rw [ho]; exact V.notValue.1
  · show p.w.env.child o.arg.type t = true; rw [ho]; exact V.derives
  · show p.w.env.conv o.arg.type t = false; rw [ho]; exact V.noConverter

/-- a function that makes a number of the pointers it is handed -/
theorem call_makes {p : Prog} {boolT : Ty} (hb : PlainCopy p boolT ∧ p.size boolT = 1 ∧ p.w.env.conv boolT boolT = false)
    (fuel : Nat) (hp : Heap) (o : Handle) (name : Name) (f : Fn) (as : List Actual) (x : Nat)
    (hlook : p.w.functionF p.w.fuel o.arg.type name = .ok [f]) (hfit : RefsFit p (.dyn o :: as) f.args) (hret : f.ret = boolT.val)
    (hbody : p.impl f.body hp (ownObjects (.dyn o :: as) f.args) = .ok ((hp.newObj (fun _ => x) 1).1, .obj (hp.newObj (fun _ => x) 1).2))
    (hpos : 0 < hp.next) :
    ∃ hp' a, p.callMethod (fuel + 1) hp o name boolT.val as = .ok (hp', some (.obj a true)) ∧ hp'.mem a = x ∧ Ext hp hp' := by
  obtain ⟨b1, b2, b3⟩ := hb
  rw [callMethod_refs p fuel hp o _ f boolT.val as hlook hfit (by rw [hret]; exact size_ret b1), hbody]
  generalize hq : hp.newObj (fun _ => x) 1 = q
  have q1 : q.2 = hp.next := by rw [← hq]; rfl
  have q2 : q.1.next = hp.next + 1 + 1 := by rw [← hq]; rfl
  have q3 : q.1.mem hp.next = x := by rw [← hq]; exact newObj_new hp (fun _ => x) 1 0 (by omega)
  have q4 : ∀ y < hp.next, q.1.mem y = hp.mem y := fun y hy => by rw [← hq]; exact newObj_old hp _ 1 y hy
  obtain ⟨h4, b, w1, w2, w3, w4⟩ := ret_number b1 b2 b3 fuel q.1 q.2 (by rw [q1]; exact ⟨by omega, by omega⟩)
  simp only [hret]
  exact ⟨h4, b, w1, by rw [w2, q1, q3], ⟨fun y hy => by rw [w3 y (by omega) (by omega), q4 y hy], by omega⟩⟩

/-- C87. `get()` gives the address of the object pointed to, null if there is none; nothing changes. -/
theorem C87_get (V : ReflectedPtr p s t inner raw boolT innerConst n) (fuel : Nat) (hp : Heap) (o : Handle) (ho : o.arg.type = s)
    (hok : hp.Ok o.addr n) :
    ∃ hp' a, p.callMethod (fuel + 1) hp o "get".toList raw.val [] = .ok (hp', some (.obj a true)) ∧ hp'.mem a = hp.mem o.addr ∧ Ext hp hp' := by
  obtain ⟨f, g1, g2, g3, g4⟩ := V.get
  refine call_makes V.rawPlain fuel hp o _ f [] _ (by rw [ho]; exact g1) (by rw [g2]; exact .cons (V.fits o ho true (Or.inl rfl)) .nil) g3 ?_
    (by have := hok.1; have := hok.2; omega)
  rw [show ownObjects [Actual.dyn o] f.args = [.obj o.addr (!true)] by rw [g2]; rfl, g4, ptrGet, if_pos hok]
  rfl

/-- C87. `operator bool()` tells whether there is an object; nothing changes. -/
theorem C87_bool (V : ReflectedPtr p s t inner raw boolT innerConst n) (fuel : Nat) (hp : Heap) (o : Handle) (ho : o.arg.type = s)
    (hok : hp.Ok o.addr n) :
    ∃ hp' a, p.callMethod (fuel + 1) hp o "operator bool()".toList boolT.val [] = .ok (hp', some (.obj a true)) ∧
      hp'.mem a = (if hp.mem o.addr = 0 then 0 else 1) ∧ Ext hp hp' := by
  obtain ⟨f, g1, g2, g3, g4⟩ := V.toBool
  refine call_makes V.boolPlain fuel hp o _ f [] _ (by rw [ho]; exact g1) (by rw [g2]; exact .cons (V.fits o ho true (Or.inl rfl)) .nil) g3 ?_
    (by have := hok.1; have := hok.2; omega)
  rw [show ownObjects [Actual.dyn o] f.args = [.obj o.addr (!true)] by rw [g2]; rfl, g4, ptrBool, if_pos hok]

/-- C87. `operator==` tells whether two pointers point to the same object (or both to none); nothing changes. -/
theorem C87_eq (V : ReflectedPtr p s t inner raw boolT innerConst n) (fuel : Nat) (hp : Heap) (o w : Handle) (ho : o.arg.type = s)
    (hw : w.arg.type = s) (hok : hp.Ok o.addr n) (hokw : hp.Ok w.addr n) :
    ∃ hp' a, p.callMethod (fuel + 1) hp o "operator==".toList boolT.val [.dyn w] = .ok (hp', some (.obj a true)) ∧
      hp'.mem a = (if hp.mem o.addr = hp.mem w.addr then 1 else 0) ∧ Ext hp hp' := by
  obtain ⟨f, g1, g2, g3, g4⟩ := V.eq
  refine call_makes V.boolPlain fuel hp o _ f [.dyn w] _ (by rw [ho]; exact g1)
    (by rw [g2]; exact .cons (V.fits o ho true (Or.inl rfl)) (.cons (V.fits w hw true (Or.inl rfl)) .nil)) g3 ?_
    (by have := hok.1; have := hok.2; omega)
  rw [show ownObjects [Actual.dyn o, .dyn w] f.args = [.obj o.addr (!true), .obj w.addr (!true)] by rw [g2]; rfl, g4, ptrEq, if_pos ⟨hok, hokw⟩]

/-- C87. `operator*` gives the object pointed to itself, mutable whether or not the pointer is; nothing changes. -/
theorem C87_deref (V : ReflectedPtr p s t inner raw boolT innerConst n) (fuel : Nat) (hp : Heap) (o : Handle) (ho : o.arg.type = s)
    (hok : hp.Ok o.addr n) (hn : hp.mem o.addr ≠ 0) :
    p.callMethod (fuel + 1) hp o "operator*".toList p.valueArg [] =
      .ok (hp, some (.val ⟨⟨inner, .lvalue, innerConst⟩, hp.mem o.addr, none⟩)) := by
  obtain ⟨f, g1, g2, g3, g4⟩ := V.deref
  rw [callMethod_refs p fuel hp o _ f p.valueArg [] (by rw [ho]; exact g1) (by rw [g2]; exact .cons (V.fits o ho true (Or.inl rfl)) .nil)
    (by rw [g3, testReturn_value p V.distinct _ V.notValue.2.2]; simp)]
  rw [show ownObjects [Actual.dyn o] f.args = [.obj o.addr (!true)] by rw [g2]; rfl, g4, ptrDeref, if_pos ⟨hok, hn⟩]
  simp only [Prog.wrapRet, g3, Prog.wrap, if_true]
  exact retCast_value p V.distinct _ hp _

/-- C87. `operator*` of an empty pointer is undefined behaviour: it is not checked. -/
theorem C87_null_deref (V : ReflectedPtr p s t inner raw boolT innerConst n) (fuel : Nat) (hp : Heap) (o : Handle) (ho : o.arg.type = s)
    (hn : hp.mem o.addr = 0) :
    p.callMethod (fuel + 1) hp o "operator*".toList p.valueArg [] = .error .ub := by
  obtain ⟨f, g1, g2, g3, g4⟩ := V.deref
  rw [callMethod_refs p fuel hp o _ f p.valueArg [] (by rw [ho]; exact g1) (by rw [g2]; exact .cons (V.fits o ho true (Or.inl rfl)) .nil)
    (by rw [g3, testReturn_value p V.distinct _ V.notValue.2.2]; simp)]
  rw [show ownObjects [Actual.dyn o] f.args = [.obj o.addr (!true)] by rw [g2]; rfl, g4, ptrDeref, if_neg (fun h => h.2 hn)]

/-! ### one call on a pool -/

/-- a mutable lvalue of type `s` matches `t&` exactly -/
theorem receiver_exact (V : ReflectedPtr p s t inner raw boolT innerConst n) : isConvertibleTo p.w.env s.lref t.lref = .exact := by
  rw [Ty.lref, Ty.lref, convertible_static p.w.env _ _ _ _ _ _ (not_dynamic p.w.env _ _ V.notValue.1 V.notValue.2.1 _ _ _ _),
    V.noConverter, V.derives]
  simp

theorem test_second (V : ReflectedPtr p s t inner raw boolT innerConst n) (f : Fn) (a u : Arg) (hf : f.args = [t.lref, u]) :
    f.test p.w.env p.voidArg [s.lref, a] = isConvertibleTo p.w.env a u := by
  rw [test_void p.w.env f _ _ rfl, hf, testArguments_pair, receiver_exact V]
  cases isConvertibleTo p.w.env a u <;> simp [combine]

/-- the call `c` does to the pool what the specification says -/
structure Does (hp hp' : Heap) (n : Nat) (P A : List Nat) (c : PtrCall) : Prop where
  holds : ∀ q ∈ P, hp'.mem q = c.effect hp hp.holds q
  deletes : ∀ b ∈ A, hp'.deleted b = hp.deleted b + c.deletes hp P hp.holds b
  elsewhere : ElsewhereP hp hp' n P A

theorem Moves.does {hp hp' : Heap} {P A : List Nat} {c : PtrCall} (h : Moves hp hp' n P A (c.effect hp hp.holds) c.isRelease) :
    Does hp hp' n P A c := ⟨h.holds, h.gone, h.elsewhere⟩

theorem newObj_ext (h : Heap) (f : Nat → Nat) (k : Nat) : Ext h (h.newObj f k).1 :=
  ⟨fun y hy => newObj_old h f k y hy, by simp only [Heap.newObj]; omega⟩

/-- the overload of `reset` without an argument -/
theorem reset_plain (V : ReflectedPtr p s t inner raw boolT innerConst n) (fuel : Nat) (hp h' : Heap) (q : Handle) (hq : q.arg = s.lref)
    (f g : Fn) (o : Overloads) (hlook : p.w.functionF p.w.fuel s "reset".toList = .ok o) (ho : o = [f, g] ∨ o = [g, f])
    (hf : f.args = [t.lref]) (hg : g.args = [t.lref, raw.val]) (hbody : p.impl f.body hp [.obj q.addr true] = .ok (h', .void)) :
    p.callMethod (fuel + 1) hp q "reset".toList p.voidArg [] = .ok (h', none) := by
  have hqs : q.arg.type = s := by rw [hq]; rfl
  have hm : q.Mutable := by unfold Handle.Mutable; rw [hq]; exact ⟨rfl, rfl⟩
  have hfit : RefsFit p [.dyn q] f.args := by rw [hf]; exact .cons (V.fits q hqs false (Or.inr hm)) .nil
  rw [callMethod_refs_sel p fuel hp q _ o f p.voidArg [] (by rw [hqs]; exact hlook)
    (select_two ho (combine_ne_none (void_ret p _) hfit.args) (test_none_of_length _ _ _ _ (by rw [hg]; simp))) hfit (void_ret p _)]
  rw [show ownObjects [Actual.dyn q] f.args = [.obj q.addr (!false)] by rw [hf]; rfl, Bool.not_false, hbody]
  simp only [Prog.wrapRet]
  exact retCast_void p _ _ _

/-- the overload of `reset` with an argument: the body is handed a copy of the plain pointer -/
theorem reset_to (V : ReflectedPtr p s t inner raw boolT innerConst n) (fuel : Nat) (hp : Heap) (q x : Handle) (hq : q.arg = s.lref)
    (f g : Fn) (o : Overloads) (hlook : p.w.functionF p.w.fuel s "reset".toList = .ok o) (ho : o = [f, g] ∨ o = [g, f])
    (hf : f.args = [t.lref]) (hg : g.args = [t.lref, raw.val]) (hx : Copied p x.arg raw) (hokx : hp.Ok x.addr 1) :
    ∃ h1 a, Ext hp h1 ∧ h1.Ok a 1 ∧ h1.mem a = hp.mem x.addr ∧ ∀ h2, p.impl g.body h1 [.obj q.addr true, .obj a true] = .ok (h2, .void) →
      p.callMethod (fuel + 2) hp q "reset".toList p.voidArg [.dyn x] = .ok (h2, none) := by
  have hqs : q.arg.type = s := by rw [hq]; rfl
  have hm : q.Mutable := by unfold Handle.Mutable; rw [hq]; exact ⟨rfl, rfl⟩
  obtain ⟨h1, a, k1, k2, k3, k4, k5, k6⟩ := call_number_sel V.rawPlain.1 V.rawPlain.2.1 V.rawPlain.2.2 fuel hp q "reset".toList p.voidArg o g false (.dyn x)
    (hp.mem x.addr) (by rw [hqs]; exact hlook) hg
    (fun hne => select_two ho.symm hne (test_none_of_length _ _ _ _ (by rw [hf]; simp)))
    (V.fits q hqs false (Or.inr hm)) (Hands.kept (.dyn x) (by rintro _ _ ⟨⟩) hx hokx) (void_ret p _)
  refine ⟨h1, a, ⟨fun y hy => k4 y hy (by rintro ⟨_, _, ⟨⟩⟩), k5⟩, k2, k3, fun h2 hb => ?_⟩
  rw [k6, Bool.not_false, hb]
  simp only [Prog.wrapRet]
  exact retCast_void p _ _ _

/-- `q.assign(r.rvalue())`: what `r` had is moved into a temporary, which the operator is handed -/
theorem assign_moved (V : ReflectedPtr p s t inner raw boolT innerConst n) (fuel : Nat) (hp : Heap) (q r : Handle) (hq : q.arg = s.lref)
    (hr : r.arg = s.lref) (hokr : hp.Ok r.addr n)
    (g : Fn) (o : Overloads) (hlook : p.w.functionF p.w.fuel s "operator=".toList = .ok o) (hg : g.args = [t.lref, t.rref]) (hgr : g.ret = t.lref)
    (hsel : g.test p.w.env p.voidArg [s.lref, ⟨s, .rvalue, false⟩] = .exact → o.select p.w.env p.voidArg [s.lref, ⟨s, .rvalue, false⟩] = .ok g) :
    ∃ h1, hp.next < h1.next ∧ h1.Ok hp.next n ∧ (∀ i < n, h1.mem (hp.next + i) = hp.mem (r.addr + i)) ∧
      (∀ i < n, h1.mem (r.addr + i) = 0) ∧ (∀ y < hp.next, y < r.addr ∨ r.addr + n ≤ y → h1.mem y = hp.mem y) ∧
      ∀ h2, p.impl g.body h1 [.obj q.addr true, .obj hp.next true] = .ok (h2, .obj q.addr) →
        p.assign (fuel + 1) hp q (.dyn r.rvalue) = .ok h2 := by
  have e0 := hokr.1
  have e00 := hokr.2
  obtain ⟨h1, d1, d2, d3, d4⟩ := moveObj_ok hp (p.moved t) n r.addr hokr
  obtain ⟨h1', d5, d6⟩ := moveObj_source hp (p.moved t) n r.addr hokr
  rw [d1] at d5
  simp only [Except.ok.injEq, Prod.mk.injEq, and_true] at d5
  subst d5
  have hqs : q.arg.type = s := by rw [hq]; rfl
  have hra : r.rvalue.arg = ⟨s, .rvalue, false⟩ := by unfold Handle.rvalue; rw [hr]; rfl
  refine ⟨h1, by omega, ⟨by omega, by omega⟩, d3, fun i hi => by rw [d6 i hi]; exact V.moves.2.2 _, d4, fun h2 hb => ?_⟩
  have tg := test_second V g ⟨s, .rvalue, false⟩ t.rref hg
  rw [Ty.rref, match_rref p.w.env s t .rvalue false V.notValue.1 V.notValue.2.1 V.noConverter V.derives, if_pos ⟨rfl, rfl⟩] at tg
  have hne : (⟨t, .rvalue, false⟩ : Arg) ≠ p.valueArg := by simp [Prog.valueArg]
  have hch : p.w.env.child r.rvalue.arg.type t = true := by rw [hra]; exact V.derives
  have hcast : p.castTo (p.run fuel) hp r.rvalue ⟨t, .rvalue, false⟩ = .ok (h1, .obj hp.next true) := by
    have hs : p.size t = n := V.size
    simp [Prog.castTo, if_neg hne, Prog.castV, V.moves.1, hch, Prog.castRet, V.moves.2.1, Handle.as, hs,
      show r.rvalue.addr = r.addr from rfl, d1]
  have hrun := run_assign p fuel hp h1 h2 g q r.rvalue t _ hp.next true V.notValue.2.1 hg hgr (by rw [hq]; exact ⟨rfl, rfl⟩)
    (by rw [hqs]; exact V.derives) hcast hb
  refine assign_of_select p _ hp q (.dyn r.rvalue) o g (by rw [hqs]; exact hlook) ?_ ?_ hp h2 [q, r.rvalue] _ (by simp [Prog.toHandles]) hrun
  · rw [hq, show (Actual.dyn r.rvalue).arg = _ from hra]; exact hsel tg
  · rw [hq, show (Actual.dyn r.rvalue).arg = _ from hra, tg]; simp

/-- moving the source into a temporary and emptying that -/
theorem moved_ext {hp h1 : Heap} {n r : Nat} (hn : n = 1 ∨ n = 2) (hlt : hp.next < h1.next) (hz : ∀ i < n, h1.mem (r + i) = 0)
    (hfr : ∀ y < hp.next, y < r ∨ r + n ≤ y → h1.mem y = hp.mem y) :
    Ext (if n = 1 then hp.poke r 0 else (hp.poke r 0).poke (r + 1) 0)
      (if n = 1 then h1.poke hp.next 0 else (h1.poke hp.next 0).poke (hp.next + 1) 0) := by
  rcases hn with rfl | rfl
  · refine ⟨fun y hy => ?_, ?_⟩
    · simp only [if_true] at hy ⊢
      have hy : y < hp.next := hy
      rw [poke_ne _ _ _ _ (by omega)]
      by_cases e : y = r
      · subst e; rw [poke_at]; exact hz 0 (by omega)
      · rw [poke_ne _ _ _ _ e]; exact hfr y hy (by omega)
    · simp only [if_true]; show hp.next ≤ h1.next; omega
  · refine ⟨fun y hy => ?_, ?_⟩
    · simp only [show ¬ (2 = 1) by omega, if_false] at hy ⊢
      have hy : y < hp.next := hy
      rw [poke_ne _ _ _ _ (by omega), poke_ne _ _ _ _ (by omega)]
      by_cases e1 : y = r + 1
      · subst e1; rw [poke_at]; exact hz 1 (by omega)
      · rw [poke_ne _ _ _ _ e1]
        by_cases e : y = r
        · subst e; rw [poke_at]; exact hz 0 (by omega)
        · rw [poke_ne _ _ _ _ e]; exact hfr y hy (by omega)
    · simp only [show ¬ (2 = 1) by omega, if_false]; show hp.next ≤ h1.next; omega

variable {P A : List Nat}

/-- C87. `reset()` of a `std::unique_ptr` deletes what it held, once, and it holds nothing; no other pointer changes. -/
theorem C87_unique_reset (V : ReflectedUnique p s t inner raw boolT innerConst) (fuel : Nat) (hp : Heap) (hu : Uniques hp P A) (q : Handle)
    (hc : (PtrCall.reset q).Ready p hp s raw 1 P A) :
    ∃ hp', p.callMethod (fuel + 1) hp q "reset".toList p.voidArg [] = .ok (hp', none) ∧ Uniques hp' P A ∧ Does hp hp' 1 P A (.reset q) := by
  obtain ⟨hq, hqP⟩ := hc
  obtain ⟨f, g, o, k1, k2, k3, k4, k5, k6⟩ := V.reset
  obtain ⟨m1, m2⟩ := uniSet_moves (a := 0) hu hqP (Or.inl rfl)
  exact ⟨_, reset_plain V.toReflectedPtr fuel hp _ q hq f g o k1 k2 k3 k4 (by rw [k5, uniReset, if_pos (hu.ptrs _ hqP)]), m1, Moves.does m2⟩

/-- C87. `reset(x)` of a `std::unique_ptr` deletes what it held, once, and it holds the object `x` points to. -/
theorem C87_unique_take (V : ReflectedUnique p s t inner raw boolT innerConst) (fuel : Nat) (hp : Heap) (hu : Uniques hp P A) (q x : Handle)
    (hc : (PtrCall.take q x).Ready p hp s raw 1 P A) (hfree : ¬ Held P hp.holds (hp.mem x.addr)) :
    ∃ hp', p.callMethod (fuel + 2) hp q "reset".toList p.voidArg [.dyn x] = .ok (hp', none) ∧ Uniques hp' P A ∧
      Does hp hp' 1 P A (.take q x) := by
  obtain ⟨⟨hq, hqP⟩, hx, hokx, -, hxA⟩ := hc
  obtain ⟨f, g, o, k1, k2, k3, k4, k5, k6⟩ := V.reset
  obtain ⟨h1, a, e1, e2, e3, e4⟩ := reset_to V.toReflectedPtr fuel hp q x hq f g o k1 k2 k3 k4 hx hokx
  have u1 := hu.ext e1
  have own : ∀ y ∈ P, h1.holds y = hp.holds y := fun y hy => e1.same y (by have := (hu.ptrs y hy).2; omega)
  obtain ⟨m1, m2⟩ := uniSet_moves (a := hp.mem x.addr) u1 hqP (Or.inr ⟨hxA, fun c => hfree ((held_congr own _).1 c)⟩)
  refine ⟨_, e4 _ (by rw [k6, uniResetTo, if_pos ⟨u1.ptrs _ hqP, e2⟩, e3]), m1, Moves.does (c := .take q x) ?_⟩
  have m3 := Moves.after_ext hu.placed e1 m2
  refine m3.congr fun y hy => ?_
  show give h1.holds _ _ y = give hp.holds _ _ y
  unfold give; split
  · rfl
  · exact own y hy

/-- C87. Moving one `std::unique_ptr` into another: it holds what the other held, the other holds nothing, and what it held
before is deleted, once. A pointer moved into itself keeps what it holds. -/
theorem C87_unique_move (V : ReflectedUnique p s t inner raw boolT innerConst) (fuel : Nat) (hp : Heap) (hu : Uniques hp P A) (q r : Handle)
    (hc : (PtrCall.move q r).Ready p hp s raw 1 P A) :
    ∃ hp', p.assign (fuel + 1) hp q (.dyn r.rvalue) = .ok hp' ∧ Uniques hp' P A ∧ Does hp hp' 1 P A (.move q r) := by
  obtain ⟨⟨hq, hqP⟩, hr, hrP⟩ := hc
  obtain ⟨f, k1, k2, k3, k4⟩ := V.assign
  obtain ⟨h1, d1, d2, d3, d4, d5, d6⟩ := assign_moved V.toReflectedPtr fuel hp q r hq hr (hu.ptrs _ hrP) f [f] k1 k2 k3
    (fun he => by rw [select_single, if_neg (by rw [he]; simp)])
  obtain ⟨m1, m2⟩ := uniMove_moves (h1 := h1.poke hp.next 0) hu hqP hrP (by simpa using moved_ext (n := 1) (Or.inl rfl) d1 d4 d5)
  have hok : h1.Ok q.addr 1 := ⟨(hu.ptrs _ hqP).1, by have := (hu.ptrs _ hqP).2; omega⟩
  have e0 := d3 0 (by omega)
  simp only [Nat.add_zero] at e0
  exact ⟨_, d6 _ (by rw [k4, uniMoveAssign, if_pos ⟨hok, d2⟩, e0]), m1, Moves.does (c := .move q r) m2⟩

/-- C87. `release()` of a `std::unique_ptr` returns the address of what it held, which is not deleted; it holds nothing. -/
theorem C87_unique_release (V : ReflectedUnique p s t inner raw boolT innerConst) (fuel : Nat) (hp : Heap) (hu : Uniques hp P A) (q : Handle)
    (hc : (PtrCall.release q).Ready p hp s raw 1 P A) :
    ∃ hp' u, p.callMethod (fuel + 1) hp q "release".toList p.valueArg [] = .ok (hp', some (.val u)) ∧ u.arg = raw.lref ∧
      hp.next ≤ u.addr ∧ hp'.Ok u.addr 1 ∧ hp'.mem u.addr = hp.mem q.addr ∧ Uniques hp' P A ∧ Does hp hp' 1 P A (.release q) := by
  obtain ⟨-, hq, hqP⟩ := hc
  have hqs : q.arg.type = s := by rw [hq]; rfl
  have hm : q.Mutable := by unfold Handle.Mutable; rw [hq]; exact ⟨rfl, rfl⟩
  have hokq := hu.ptrs _ hqP
  obtain ⟨f, k1, k2, k3, k4⟩ := V.release
  obtain ⟨r1, r2, r3⟩ := V.rawPlain
  obtain ⟨m1, m2⟩ := uniRelease_moves hu hqP
  rw [callMethod_refs p fuel hp q _ f p.valueArg [] (by rw [hqs]; exact k1) (by rw [k2]; exact .cons (V.fits q hqs false (Or.inr hm)) .nil)
    (by rw [k3, testReturn_value p V.distinct _ r1.notValue]; simp)]
  rw [show ownObjects [Actual.dyn q] f.args = [.obj q.addr (!false)] by rw [k2]; rfl, k4, uniRelease, if_pos hokq]
  have x1 := newObj_ext (hp.poke q.addr 0) (fun _ => hp.mem q.addr) 1
  simp only [Heap.pointTo]
  generalize hg : (hp.poke q.addr 0).newObj (fun _ => hp.mem q.addr) 1 = g at x1
  have g1 : g.2 = hp.next := by rw [← hg]; rfl
  have g2 : g.1.next = hp.next + 1 + 1 := by rw [← hg]; rfl
  have g3 : g.1.mem hp.next = hp.mem q.addr := by rw [← hg]; exact newObj_new (hp.poke q.addr 0) (fun _ => hp.mem q.addr) 1 0 (by omega)
  simp only [k3, Prog.wrapRet]
  obtain ⟨h3, u, w1, w2, w3⟩ := C67_temporary_stored p g.1 raw.val g.2 (by simp [Ty.val]) (Or.inl r1.copyable)
    (by rw [show raw.val.type = raw from rfl, r2, g1]; have := hokq.1; have := hokq.2; exact ⟨by omega, by omega⟩)
  have hsz : p.size raw.val.type = 1 := r2
  rw [w1]
  simp only
  rw [retCast_value p V.distinct]
  have wf := w2.fresh
  have wg := w2.grow
  have wl := w2.live
  have ws := w2.same 0 (by rw [hsz]; omega)
  rw [hsz] at wl
  simp only [Nat.add_zero, g1, g3] at ws
  have ex : Ext (hp.poke q.addr 0) h3 := by
    refine ⟨fun y hy => ?_, ?_⟩
    · have hy' : y < hp.next := hy
      rw [w2.frame y (by omega) (by rw [g1]; omega)]
      exact x1.same y hy
    · show hp.next ≤ h3.next; omega
  exact ⟨h3, u, rfl, w2.arg, by omega, wl, ws, m1.ext ex, Moves.does (c := .release q) (Moves.before_ext m1.placed m2 ex)⟩

/-- C87. A `std::unique_ptr` is not copied: `assign` from an lvalue raises. -/
theorem C87_unique_copy_refused (V : ReflectedUnique p s t inner raw boolT innerConst) (fuel : Nat) (hp : Heap) (q r : Handle)
    (hq : q.arg.type = s) (hr : r.arg.type = s) (hrl : r.arg.ref = .lvalue) : p.assign fuel hp q (.dyn r) = .error .err := by
  obtain ⟨f, k1, k2, k3, k4⟩ := V.assign
  have ht : f.test p.w.env p.voidArg [q.arg, r.arg] = .none := by
    rw [test_void p.w.env f _ _ rfl, k2, testArguments_pair, Ty.rref,
      match_rref_arg p.w.env r.arg t (by rw [hr]; exact V.notValue.1) V.notValue.2.1 (by rw [hr]; exact V.noConverter) (by rw [hr]; exact V.derives),
      if_neg (by rw [hrl]; simp)]
    cases isConvertibleTo p.w.env q.arg t.lref <;> rfl
  unfold Prog.assign Prog.callMethod Prog.callOv
  rw [hq, k1]
  simp only [List.map_cons, List.map_nil]
  rw [select_single, if_pos (show f.test p.w.env p.voidArg [(Actual.dyn q).arg, (Actual.dyn r).arg] = .none from ht)]
  rfl

/-- C87. `reset()` of a `std::shared_ptr`: it holds nothing, and what it held is deleted, once, if no other holds it. -/
theorem C87_shared_reset (V : ReflectedShared p s t inner raw boolT innerConst) (fuel : Nat) (hp : Heap) (hu : Shareds hp P A) (q : Handle)
    (hc : (PtrCall.reset q).Ready p hp s raw 2 P A) :
    ∃ hp', p.callMethod (fuel + 1) hp q "reset".toList p.voidArg [] = .ok (hp', none) ∧ Shareds hp' P A ∧ Does hp hp' 2 P A (.reset q) := by
  obtain ⟨hq, hqP⟩ := hc
  obtain ⟨f, g, o, k1, k2, k3, k4, k5, k6⟩ := V.reset
  obtain ⟨m1, m2⟩ := shReset_moves hu hqP
  exact ⟨_, reset_plain V.toReflectedPtr fuel hp _ q hq f g o k1 k2 k3 k4 (by rw [k5, shReset, if_pos (hu.ptrs _ hqP)]), m1, Moves.does m2⟩

/-- C87. `reset(x)` of a `std::shared_ptr`: it holds the object `x` points to, and what it held is deleted, once, if no other
holds it. -/
theorem C87_shared_take (V : ReflectedShared p s t inner raw boolT innerConst) (fuel : Nat) (hp : Heap) (hu : Shareds hp P A) (q x : Handle)
    (hc : (PtrCall.take q x).Ready p hp s raw 2 P A) (hfree : ¬ Held P hp.holds (hp.mem x.addr)) :
    ∃ hp', p.callMethod (fuel + 2) hp q "reset".toList p.voidArg [.dyn x] = .ok (hp', none) ∧ Shareds hp' P A ∧
      Does hp hp' 2 P A (.take q x) := by
  obtain ⟨⟨hq, hqP⟩, hx, hokx, -, hxA⟩ := hc
  obtain ⟨f, g, o, k1, k2, k3, k4, k5, k6⟩ := V.reset
  obtain ⟨h1, a, e1, e2, e3, e4⟩ := reset_to V.toReflectedPtr fuel hp q x hq f g o k1 k2 k3 k4 hx hokx
  have u1 : Shareds h1 P A := SharedWith.ext hu e1
  have own : ∀ y ∈ P, h1.holds y = hp.holds y := fun y hy => e1.same y (by have := (hu.ptrs y hy).2; omega)
  obtain ⟨m1, m2⟩ := shResetTo_moves (a := hp.mem x.addr) u1 hqP hxA (fun c => hfree ((held_congr own _).1 c))
  refine ⟨_, e4 _ (by rw [k6, shResetTo, if_pos ⟨u1.ptrs _ hqP, e2⟩, e3]; rfl), m1, Moves.does (c := .take q x) ?_⟩
  have m3 := Moves.after_ext (SharedWith.placed hu) e1 m2
  refine m3.congr fun y hy => ?_
  show give h1.holds _ _ y = give hp.holds _ _ y
  unfold give; split
  · rfl
  · exact own y hy

/-- C87. Assigning one `std::shared_ptr` to another: both hold what the second held, and what the first held is deleted, once, if
no other holds it. A pointer assigned to itself keeps what it holds. -/
theorem C87_shared_copy (V : ReflectedShared p s t inner raw boolT innerConst) (fuel : Nat) (hp : Heap) (hu : Shareds hp P A) (q r : Handle)
    (hc : (PtrCall.copy q r).Ready p hp s raw 2 P A) :
    ∃ hp', p.assign (fuel + 1) hp q (.dyn r) = .ok hp' ∧ Shareds hp' P A ∧ Does hp hp' 2 P A (.copy q r) := by
  obtain ⟨-, ⟨hq, hqP⟩, hrs, hrl, hrP⟩ := hc
  have hqs : q.arg.type = s := by rw [hq]; rfl
  obtain ⟨f, g, k1, k2, k3, k4, k5, k6, k7⟩ := V.assign
  obtain ⟨m1, m2⟩ := shAssign_moves hu hqP hrP
  have hv : r.arg.type ≠ p.w.env.valueT := by rw [hrs]; exact V.notValue.1
  have hcv : p.w.env.conv r.arg.type t = false := by rw [hrs]; exact V.noConverter
  have hch : p.w.env.child r.arg.type t = true := by rw [hrs]; exact V.derives
  have tf : f.test p.w.env p.voidArg [s.lref, r.arg] ≠ .none := by
    rw [test_second V.toReflectedPtr f r.arg t.cref k2, Ty.cref, match_constref_arg p.w.env r.arg t hv V.notValue.2.1 hcv hch]
    split <;> simp
  have tg : g.test p.w.env p.voidArg [s.lref, r.arg] = .none := by
    rw [test_second V.toReflectedPtr g r.arg t.rref k4, Ty.rref, match_rref_arg p.w.env r.arg t hv V.notValue.2.1 hcv hch,
      if_neg (by rw [hrl]; simp)]
  have hcast := castTo_ref p (p.run fuel) hp (.dyn r) t.cref (V.fits r hrs true (Or.inl rfl))
  have hrun := run_assign p fuel hp hp _ f q r t _ r.addr _ V.notValue.2.1 k2 k3 (by rw [hq]; exact ⟨rfl, rfl⟩)
    (by rw [hqs]; exact V.derives) hcast (by rw [k6, shAssign, if_pos ⟨hu.ptrs _ hqP, hu.ptrs _ hrP⟩])
  refine ⟨_, assign_of_select p _ hp q (.dyn r) [f, g] f (by rw [hqs]; exact k1) ?_ ?_ hp _ [q, r] _ (by simp [Prog.toHandles]) hrun, m1,
    Moves.does (c := .copy q r) m2⟩
  · rw [hq]; exact select_two (Or.inl rfl) tf tg
  · rw [hq]; exact tf

/-- C87. Moving one `std::shared_ptr` into another: it holds what the other held, the other holds nothing, and what it held before
is deleted, once, if no other holds it. -/
theorem C87_shared_move (V : ReflectedShared p s t inner raw boolT innerConst) (fuel : Nat) (hp : Heap) (hu : Shareds hp P A) (q r : Handle)
    (hc : (PtrCall.move q r).Ready p hp s raw 2 P A) :
    ∃ hp', p.assign (fuel + 1) hp q (.dyn r.rvalue) = .ok hp' ∧ Shareds hp' P A ∧ Does hp hp' 2 P A (.move q r) := by
  obtain ⟨⟨hq, hqP⟩, hr, hrP⟩ := hc
  obtain ⟨f, g, k1, k2, k3, k4, k5, k6, k7⟩ := V.assign
  have tf : f.test p.w.env p.voidArg [s.lref, ⟨s, .rvalue, false⟩] = .part := by
    rw [test_second V.toReflectedPtr f _ t.cref k2, Ty.cref,
      match_constref p.w.env s t .rvalue false V.notValue.1 V.notValue.2.1 V.noConverter V.derives, if_neg (by simp)]
  obtain ⟨h1, d1, d2, d3, d4, d5, d6⟩ := assign_moved V.toReflectedPtr fuel hp q r hq hr (hu.ptrs _ hrP) g [f, g] k1 k4 k5
    (fun he => select_move p.w.env _ _ f g true (by rw [he]; simp) (Or.inr (Or.inr ⟨he, by rw [tf]; simp⟩)))
  obtain ⟨m1, m2⟩ := shMove_moves (h1 := (h1.poke hp.next 0).poke (hp.next + 1) 0) hu hqP hrP
    (by simpa using moved_ext (n := 2) (Or.inr rfl) d1 d4 d5)
  have hok : h1.Ok q.addr 2 := ⟨(hu.ptrs _ hqP).1, by have := (hu.ptrs _ hqP).2; omega⟩
  have e0 := d3 0 (by omega)
  have e1 := d3 1 (by omega)
  simp only [Nat.add_zero] at e0
  exact ⟨_, d6 _ (by rw [k7, shMoveAssign, if_pos ⟨hok, d2⟩, e0, e1]), m1, Moves.does (c := .move q r) m2⟩

/-! ### histories -/

theorem effect_congr {hp h1 : Heap} {c : PtrCall} {own own' : Nat → Nat} (hr : c.Ready p hp s raw n P A)
    (hx : ∀ q x, c = .take q x → h1.mem x.addr = hp.mem x.addr) (ho : ∀ q ∈ P, own q = own' q) :
    ∀ q ∈ P, c.effect h1 own q = c.effect hp own' q := by
  have g : ∀ u a, ∀ q ∈ P, give own u a q = give own' u a q := fun u a q hq => by
    unfold give; split
    · rfl
    · exact ho q hq
  intro q hq
  cases c with
  | reset u => exact g _ _ q hq
  | release u => exact g _ _ q hq
  | take u x => simp only [PtrCall.effect, hx u x rfl]; exact g _ _ q hq
  | copy u r => simp only [PtrCall.effect, ho r.addr hr.2.2.2.2]; exact g _ _ q hq
  | move u r =>
    simp only [PtrCall.effect, ho r.addr hr.2.2]
    unfold give; split
    · rfl
    · split
      · rfl
      · exact ho q hq

theorem Ready.reads {hp h1 : Heap} {c : PtrCall} (hr : c.Ready p hp s raw n P A) (he : ElsewhereP hp h1 n P A) :
    c.Ready p h1 s raw n P A ∧ ∀ q x, c = .take q x → h1.mem x.addr = hp.mem x.addr := by
  cases c with
  | take q x =>
    obtain ⟨r1, r2, r3, r4, r5⟩ := hr
    have e := he.same x.addr (by have := r3.2; omega) r4
    refine ⟨⟨r1, r2, ⟨r3.1, by have := r3.2; have := he.grow; omega⟩, fun k => r4 (he.mine _ (by have := r3.2; omega) k), by rw [e]; exact r5⟩, ?_⟩
    rintro _ _ ⟨⟩; exact e
  | reset q => exact ⟨hr, by rintro _ _ ⟨⟩⟩
  | copy q r => exact ⟨hr, by rintro _ _ ⟨⟩⟩
  | move q r => exact ⟨hr, by rintro _ _ ⟨⟩⟩
  | release q => exact ⟨hr, by rintro _ _ ⟨⟩⟩

/-- What a history does depends on what the pointers of the pool hold and where the plain pointers point. -/
theorem history_congr {hp h1 : Heap} : ∀ (cs : List PtrCall) (own own' : Nat → Nat), (∀ c ∈ cs, c.Ready p hp s raw n P A) →
    (∀ c ∈ cs, ∀ q x, c = PtrCall.take q x → h1.mem x.addr = hp.mem x.addr) → (∀ q ∈ P, own q = own' q) →
    (∀ q ∈ P, PtrCall.after h1 cs own q = PtrCall.after hp cs own' q) ∧
    (∀ b, PtrCall.total h1 P cs own b = PtrCall.total hp P cs own' b) ∧ (PtrCall.Legal h1 P cs own ↔ PtrCall.Legal hp P cs own')
  | [], _, _, _, _, ho => ⟨ho, fun _ => rfl, Iff.rfl⟩
  | c :: cs, own, own', hr, hx, ho => by
    have e := effect_congr (hr c (by simp)) (hx c (by simp)) ho
    obtain ⟨i1, i2, i3⟩ := history_congr cs _ _ (fun d hd => hr d (by simp [hd])) (fun d hd => hx d (by simp [hd])) e
    refine ⟨i1, fun b => ?_, and_congr ?_ i3⟩
    · rw [PtrCall.total, PtrCall.total, i2 b]
      congr 1
      unfold PtrCall.deletes PtrCall.LetsGo
      exact ite_iff (and_congr_left fun _ => and_congr (held_congr ho b) (not_congr (held_congr e b))) 1 0
    · cases c with
      | take q x => simp only [hx _ (by simp) q x rfl]; exact not_congr (held_congr ho _)
      | _ => exact Iff.rfl

theorem ElsewhereP.trans {h h1 h2 : Heap} (a : ElsewhereP h h1 n P A) (b : ElsewhereP h1 h2 n P A) : ElsewhereP h h2 n P A := by
  have g := a.grow
  refine ⟨fun y hy hn => ?_, Nat.le_trans g b.grow, fun y hy k => a.mine y hy (b.mine y (by omega) k)⟩
  rw [b.same y (by omega) (fun k => hn (a.mine y hy k)), a.same y hy hn]

theorem ElsewhereP.refl (h : Heap) : ElsewhereP h h n P A := ⟨fun _ _ _ => rfl, Nat.le_refl _, fun _ _ k => k⟩

/-- a history does to the pool what the specification says -/
structure DoesAll (hp hp' : Heap) (n : Nat) (P A : List Nat) (cs : List PtrCall) : Prop where
  holds : ∀ q ∈ P, hp'.mem q = PtrCall.after hp cs hp.holds q
  deletes : ∀ b ∈ A, hp'.deleted b = hp.deleted b + PtrCall.total hp P cs hp.holds b
  elsewhere : ElsewhereP hp hp' n P A

theorem history_of_step (I : Heap → Prop) (fuel : Nat)
    (step : ∀ hp c, I hp → PtrCall.Ready p hp s raw n P A c → (∀ q x, c = .take q x → ¬ Held P hp.holds (hp.mem x.addr)) →
      ∃ hp', c.call p fuel hp = .ok hp' ∧ I hp' ∧ Does hp hp' n P A c) :
    ∀ (cs : List PtrCall) (hp : Heap), I hp → (∀ c ∈ cs, c.Ready p hp s raw n P A) → PtrCall.Legal hp P cs hp.holds →
    ∃ hp', PtrCall.all p fuel hp cs = .ok hp' ∧ I hp' ∧ DoesAll hp hp' n P A cs
  | [], hp, hi, _, _ => ⟨hp, rfl, hi, fun _ _ => rfl, fun _ _ => rfl, .refl hp⟩
  | c :: cs, hp, hi, hr, hl => by
    obtain ⟨h1, c1, c2, c3⟩ := step hp c hi (hr c (by simp)) (by rintro q x rfl; exact hl.1)
    have rd : ∀ d ∈ cs, d.Ready p h1 s raw n P A ∧ ∀ q x, d = .take q x → h1.mem x.addr = hp.mem x.addr := fun d hd =>
      Ready.reads (hr d (by simp [hd])) c3.elsewhere
    obtain ⟨g1, g2, g3⟩ := history_congr cs h1.holds (c.effect hp hp.holds) (fun d hd => hr d (by simp [hd])) (fun d hd => (rd d hd).2) c3.holds
    obtain ⟨h2, d1, d2, d3⟩ := history_of_step I fuel step cs h1 c2 (fun d hd => (rd d hd).1) (g3.2 hl.2)
    refine ⟨h2, by simp only [PtrCall.all, c1, d1], d2, fun q hq => ?_, fun b hb => ?_, c3.elsewhere.trans d3.elsewhere⟩
    · rw [d3.holds q hq, g1 q hq]; rfl
    · rw [d3.deletes b hb, g2 b, c3.deletes b hb, PtrCall.total]; omega

theorem map_ok {hp' : Heap} {o : Option BArg} {r : Res (Heap × Option BArg)} (h : r = .ok (hp', o)) : r.map (·.1) = .ok hp' := by
  rw [h]; rfl

/-- C87. Every history of calls that reset, move and release the `std::unique_ptr`s of a pool succeeds, leaves each holding what the
specification says, and deletes each object as often as the specification says; nothing else changes. -/
theorem C87_unique_history (V : ReflectedUnique p s t inner raw boolT innerConst) (fuel : Nat) (hp : Heap) (hu : Uniques hp P A)
    (cs : List PtrCall) (hr : ∀ c ∈ cs, c.Ready p hp s raw 1 P A) (hl : PtrCall.Legal hp P cs hp.holds) :
    ∃ hp', PtrCall.all p (fuel + 2) hp cs = .ok hp' ∧ Uniques hp' P A ∧ DoesAll hp hp' 1 P A cs := by
  refine history_of_step (fun h => Uniques h P A) (fuel + 2) (fun h c hi hc hf => ?_) cs hp hu hr hl
  cases c with
  | reset q =>
    obtain ⟨h', k1, k2, k3⟩ := C87_unique_reset V (fuel + 1) h hi q hc
    exact ⟨h', map_ok k1, k2, k3⟩
  | take q x =>
    obtain ⟨h', k1, k2, k3⟩ := C87_unique_take V fuel h hi q x hc (hf q x rfl)
    exact ⟨h', map_ok k1, k2, k3⟩
  | copy q r => exact absurd hc.1 (by omega)
  | move q r => exact C87_unique_move V (fuel + 1) h hi q r hc
  | release q =>
    obtain ⟨h', u, k1, -, -, -, -, k2, k3⟩ := C87_unique_release V (fuel + 1) h hi q hc
    exact ⟨h', map_ok k1, k2, k3⟩

/-- C87. Every history of calls that reset, assign and move the `std::shared_ptr`s of a pool succeeds, leaves each holding what the
specification says, and deletes each object as often as the specification says; nothing else changes. -/
theorem C87_shared_history (V : ReflectedShared p s t inner raw boolT innerConst) (fuel : Nat) (hp : Heap) (hu : Shareds hp P A)
    (cs : List PtrCall) (hr : ∀ c ∈ cs, c.Ready p hp s raw 2 P A) (hl : PtrCall.Legal hp P cs hp.holds) :
    ∃ hp', PtrCall.all p (fuel + 2) hp cs = .ok hp' ∧ Shareds hp' P A ∧ DoesAll hp hp' 2 P A cs := by
  refine history_of_step (fun h => Shareds h P A) (fuel + 2) (fun h c hi hc hf => ?_) cs hp hu hr hl
  cases c with
  | reset q =>
    obtain ⟨h', k1, k2, k3⟩ := C87_shared_reset V (fuel + 1) h hi q hc
    exact ⟨h', map_ok k1, k2, k3⟩
  | take q x =>
    obtain ⟨h', k1, k2, k3⟩ := C87_shared_take V fuel h hi q x hc (hf q x rfl)
    exact ⟨h', map_ok k1, k2, k3⟩
  | copy q r => exact C87_shared_copy V (fuel + 1) h hi q r hc
  | move q r => exact C87_shared_move V (fuel + 1) h hi q r hc
  | release q => exact absurd hc.1 (by omega)

theorem Ready.within {hp : Heap} {c : PtrCall} (hr : c.Ready p hp s raw n P A) : c.Within P := by
  cases c with
  | reset q => exact hr.2
  | take q x => exact hr.1.2
  | copy q r => exact ⟨hr.2.1.2, hr.2.2.2.2⟩
  | move q r => exact ⟨hr.1.2, hr.2.2⟩
  | release q => exact hr.2.2

/-- what becomes of the objects in a history that hands each to a pointer at most once, and none that a pointer held before -/
structure DeletedOnce (hp hp' : Heap) (P A : List Nat) (cs : List PtrCall) : Prop where
  /-- none is deleted twice -/
  atMost : ∀ b ∈ A, hp'.deleted b = hp.deleted b ∨ hp'.deleted b = hp.deleted b + 1
  /-- what a pointer had is deleted when no pointer has it, unless it was released; nothing else is -/
  iff : ∀ b ∈ A, hp'.deleted b = hp.deleted b + 1 ↔
    (Held P hp.holds b ∨ b ∈ PtrCall.taken hp cs) ∧ ¬ Held P hp'.holds b ∧ ¬ PtrCall.Released hp P cs hp.holds b

theorem DoesAll.once {hp hp' : Heap} {cs : List PtrCall} (hd : DoesAll hp hp' n P A cs) (hw : ∀ c ∈ cs, c.Within P)
    (hn : (PtrCall.taken hp cs).Nodup) (ht : ∀ b ∈ PtrCall.taken hp cs, b ≠ 0 ∧ ¬ Held P hp.holds b) (hA : ∀ b ∈ A, b ≠ 0) :
    DeletedOnce hp hp' P A cs := by
  refine ⟨fun b hb => ?_, fun b hb => ?_⟩ <;> obtain ⟨k1, k2⟩ := total_once (hA b hb) cs hp.holds hw hn ht <;> rw [hd.deletes b hb]
  · omega
  · rw [held_congr (f := hp'.holds) (g := PtrCall.after hp cs hp.holds) (fun q hq => hd.holds q hq), ← k2]
    omega

/-- C87. In every history of calls on `std::unique_ptr`s, an object that a pointer had is deleted exactly once when no pointer has it
any more, unless it was released; an object that a pointer has is not deleted. -/
theorem C87_unique_once (V : ReflectedUnique p s t inner raw boolT innerConst) (fuel : Nat) (hp : Heap) (hu : Uniques hp P A)
    (cs : List PtrCall) (hr : ∀ c ∈ cs, c.Ready p hp s raw 1 P A) (hn : (PtrCall.taken hp cs).Nodup)
    (ht : ∀ b ∈ PtrCall.taken hp cs, b ≠ 0 ∧ ¬ Held P hp.holds b) :
    ∃ hp', PtrCall.all p (fuel + 2) hp cs = .ok hp' ∧ DeletedOnce hp hp' P A cs := by
  have hw : ∀ c ∈ cs, c.Within P := fun c hc => Ready.within (hr c hc)
  obtain ⟨hp', k1, -, k3⟩ := C87_unique_history V fuel hp hu cs hr (legal_of_taken cs _ hw hn ht)
  exact ⟨hp', k1, k3.once hw hn ht fun b hb => by have := (hu.objs b hb).1; omega⟩

theorem not_released {hp : Heap} {b : Nat} : ∀ (cs : List PtrCall) (own : Nat → Nat), (∀ c ∈ cs, c.Ready p hp s raw 2 P A) →
    ¬ PtrCall.Released hp P cs own b
  | [], _, _ => fun h => h
  | c :: cs, own, hr => by
    rintro (⟨-, h⟩ | h)
    · cases c with
      | release q => exact absurd (hr _ List.mem_cons_self).1 (by omega)
      | _ => cases h
    · exact not_released cs _ (fun d hd => hr d (by simp [hd])) h

/-- C87. In every history of calls on `std::shared_ptr`s, an object that a pointer had is deleted exactly once when no pointer has it
any more; an object that a pointer has is not deleted. -/
theorem C87_shared_once (V : ReflectedShared p s t inner raw boolT innerConst) (fuel : Nat) (hp : Heap) (hu : Shareds hp P A)
    (cs : List PtrCall) (hr : ∀ c ∈ cs, c.Ready p hp s raw 2 P A) (hn : (PtrCall.taken hp cs).Nodup)
    (ht : ∀ b ∈ PtrCall.taken hp cs, b ≠ 0 ∧ ¬ Held P hp.holds b) :
    ∃ hp', PtrCall.all p (fuel + 2) hp cs = .ok hp' ∧ (∀ b ∈ A, hp'.deleted b = hp.deleted b ∨ hp'.deleted b = hp.deleted b + 1) ∧
      ∀ b ∈ A, hp'.deleted b = hp.deleted b + 1 ↔ (Held P hp.holds b ∨ b ∈ PtrCall.taken hp cs) ∧ ¬ Held P hp'.holds b := by
  have hw : ∀ c ∈ cs, c.Within P := fun c hc => Ready.within (hr c hc)
  obtain ⟨hp', k1, -, k3⟩ := C87_shared_history V fuel hp hu cs hr (legal_of_taken cs _ hw hn ht)
  have k4 := k3.once hw hn ht fun b hb => by have := (hu.objs b hb).1; omega
  refine ⟨hp', k1, k4.atMost, fun b hb => (k4.iff b hb).trans ?_⟩
  rw [← and_assoc]
  exact ⟨And.left, fun h => ⟨h, not_released cs _ hr⟩⟩

/-- C87. `Value::copy` of a `std::shared_ptr` makes another that shares what it holds: it joins the pool, nothing is deleted and no
pointer changes. -/
theorem C87_shared_copied (V : ReflectedShared p s t inner raw boolT innerConst) (fuel : Nat) (hp : Heap) (hu : Shareds hp P A) (r : Handle)
    (hr : r.arg.type = t) (hrl : r.arg.ref = .lvalue) (hrP : r.addr ∈ P) (hcv : p.w.env.conv t t = false) :
    ∃ hp' a, p.copy (fuel + 1) hp r = .ok (hp', ⟨t.lref, a, some a⟩) ∧ hp.next ≤ a ∧ Shareds hp' (a :: P) A ∧ hp'.mem a = hp.mem r.addr ∧
      (∀ q ∈ P, hp'.mem q = hp.mem q) ∧ (∀ b ∈ A, hp'.deleted b = hp.deleted b) ∧
      ∀ y < hp.next, ¬ hp.InPool 2 P A y → hp'.mem y = hp.mem y := by
  obtain ⟨c1, pre, f, post, c3, c4, c5, c6, c7⟩ := V.copies
  have c2 := V.notVoid
  obtain ⟨f1, f2, f3, f4⟩ := bump_pool hu hrP
  have hokr := hu.ptrs _ hrP
  have hch : p.w.env.child t t = true := child_refl p.w t
  have hfit : RefFits p (.dyn r) t.cref := by
    refine ⟨rfl, ⟨?_, V.notValue.2.1⟩, ?_, ?_, Or.inl rfl, by rintro _ _ ⟨⟩⟩
    · show r.arg.type ≠ _; rw [hr]; exact V.notValue.2.1
    · show p.w.env.child r.arg.type t = true; rw [hr]; exact hch
    · show p.w.env.conv r.arg.type t = false; rw [hr]; exact hcv
  have hcast := castTo_ref p (p.run fuel) hp (.dyn r) t.cref hfit
  -- the copy, in a temporary
  generalize hb : hp.bump (hp.mem (r.addr + 1)) = hb1 at f1 f2 f3 f4
  have x1 := newObj_ext hb1 (fun j => hp.mem (r.addr + j)) 2
  have xo : ∀ i < 2, (hb1.newObj (fun j => hp.mem (r.addr + j)) 2).1.mem (hb1.next + i) = hp.mem (r.addr + i) := fun i hi =>
    newObj_new hb1 (fun j => hp.mem (r.addr + j)) 2 i hi
  have hbody : p.impl f.body hp [.obj r.addr false] =
      .ok ((hb1.newObj (fun j => hp.mem (r.addr + j)) 2).1, .obj (hb1.newObj (fun j => hp.mem (r.addr + j)) 2).2) := by
    rw [c6, shCopy, if_pos hokr, hb]
  generalize hg : hb1.newObj (fun j => hp.mem (r.addr + j)) 2 = g at x1 xo hbody
  have g1 : g.2 = hp.next := by rw [← hg, ← f3]; rfl
  have g2 : g.1.next = hp.next + 2 + 1 := by rw [← hg, ← f3]; rfl
  -- which the value takes over
  have hsz : p.size t.val.type = 2 := V.size
  obtain ⟨h3, u, w1, w2, w3⟩ := C67_temporary_stored p g.1 t.val g.2 (by simp [Ty.val]) (Or.inr ⟨rfl, V.moves.2.1⟩)
    (by rw [hsz, g1]; have := hokr.1; have := hokr.2; exact ⟨by omega, by omega⟩)
  have wf := w2.fresh
  have wg := w2.grow
  have wl := w2.live
  have ws := w2.same
  have wfr := w2.frame
  rw [hsz] at wl ws wfr
  have hu' : u = ⟨t.lref, u.addr, some u.addr⟩ := by
    have h1 := w2.arg; have h2 := w2.owner
    obtain ⟨ua, uad, uo⟩ := u
    simp only at h1 h2
    rw [h1, h2]; rfl
  have hrun : p.run (fuel + 1) hp f [r] = .ok (h3, u) := by
    rw [run_succ, c4]
    simp only [Prog.bind]
    rw [show (r : Handle) = (Actual.dyn r).handle from rfl, hcast]
    simp only [show (!t.cref.isConst) = false from rfl, show (Actual.dyn r).handle.addr = r.addr from rfl]
    rw [hbody]
    simp only [Prog.wrapRet, c5]
    exact w1
  have hx : Ext hb1 h3 := by
    refine ⟨fun y hy => ?_, by omega⟩
    rw [wfr y (by omega) (by omega)]
    exact x1.same y hy
  have hslot : h3.slot u.addr = hp.slot r.addr := by
    have s0 := ws 0 (by omega)
    have s1 := ws 1 (by omega)
    have o0 := xo 0 (by omega)
    have o1 := xo 1 (by omega)
    simp only [Nat.add_zero, g1, ← f3] at s0 s1 o0 o1
    unfold Heap.slot
    rw [s0, s1, o0, o1]
  have hcount : hp.mem (r.addr + 1) = 0 ∨ hp.InPool 2 P A (hp.mem (r.addr + 1)) := by
    by_cases k : hp.mem (r.addr + 1) = 0
    · exact Or.inl k
    · exact Or.inr (Or.inr (Or.inr ⟨rfl, r.addr, hrP, k, rfl⟩))
  refine ⟨h3, u.addr, ?_, by omega, ?_, congrArg Prod.fst hslot, fun q hq => ?_, fun b hb => ?_, fun y hy hn => ?_⟩
  · unfold Prog.copy
    rw [hr, if_pos c1]
    unfold Prog.construct Prog.callDyn
    rw [c3]
    simp only
    rw [select_sole p.w.env p.valueArg [r.arg] pre post f, ← hu']
    · exact hrun
    · have h1 := test_ctor p.w.env f t.cref r.arg V.distinct (by rw [c5]; exact c2) (by rw [c5]; exact V.notValue.2.1) c4
      rw [show f.test p.w.env p.valueArg [r.arg] = _ from h1, Ty.cref, match_constref_arg p.w.env r.arg t (by rw [hr]; exact V.notValue.2.1) V.notValue.2.1 (by rw [hr]; exact hcv) (by rw [hr]; exact hch)]
      split <;> simp
    · intro g hg
      rcases c7 g hg with k | k
      · rw [test_moveCtor c2 V.notValue.2.1 V.distinct k r.arg (by rw [hr]; exact V.notValue.2.1) (by rw [hr]; exact hch) (by rw [hr]; exact hcv),
          if_neg (by rw [hrl]; simp)]
      · exact test_notFor k r.arg (by rw [hr]; exact hch)
  · exact SharedWith.join (h := hb1) (by rw [hslot]; exact f1) hx (by omega) wl
  · have := (hu.ptrs q hq).2
    rw [hx.same q (by omega)]
    exact congrArg Prod.fst (f2 q hq)
  · obtain ⟨b1, b2, b3⟩ := hu.objs b hb
    show h3.mem (b - 1) = hp.mem (b - 1)
    rw [hx.same _ (by omega)]
    refine f4 _ ?_
    rcases hu.counted (hp.slot r.addr) (List.mem_cons_of_mem _ (List.mem_map.2 ⟨r.addr, hrP, rfl⟩)) with k | ⟨-, -, -, -, k, -⟩
    · exact Or.inl (congrArg Prod.snd k)
    · exact Or.inr (fun c => k b hb c.symm)
  · rw [hx.same _ (by omega)]
    refine f4 _ (hcount.imp id fun k c => hn (c ▸ k))

/-! ### const pointers -/

theorem const_param (V : ReflectedPtr p s t inner raw boolT innerConst n) (o : Handle) (ho : o.arg.type = s)
    (hm : o.arg.isConst = true ∨ o.arg.ref ≠ .lvalue) (want : Arg) (xs : List Arg) (f : Fn) (hf : f.args.head? = some t.lref) :
    f.test p.w.env want (o.arg :: xs) = .none := by
  have hc : isConvertibleTo p.w.env o.arg t.lref = .none := by
    obtain ⟨⟨ty, r, c⟩, a, w⟩ := o
    simp only at ho hm
    subst ho
    rw [Ty.lref, convertible_static p.w.env _ _ _ _ _ _ (not_dynamic p.w.env _ _ V.notValue.1 V.notValue.2.1 _ _ _ _), V.noConverter, V.derives]
    cases r <;> cases c <;> simp_all
  cases hfa : f.args with
  | nil => rw [hfa] at hf; cases hf
  | cons a as =>
    rw [hfa] at hf
    cases hf
    exact test_none_of_param p.w.env f want _ 0 (by simp) (by simp [hfa]) (by simpa [hfa] using hc)

theorem refused_of_none (V : ReflectedPtr p s t inner raw boolT innerConst n) (fuel : Nat) (hp : Heap) (o : Handle) (ho : o.arg.type = s)
    (hm : o.arg.isConst = true ∨ o.arg.ref ≠ .lvalue) (name : Name) (want : Arg) (xs : List Actual) (os : Overloads)
    (hlook : p.w.functionF p.w.fuel s name = .ok os) (hos : (∃ f, os = [f] ∧ f.args.head? = some t.lref) ∨
      ∃ f g, os = [f, g] ∧ f.args.head? = some t.lref ∧ g.args.head? = some t.lref) :
    p.callMethod fuel hp o name want xs = .error .err := by
  unfold Prog.callMethod Prog.callOv
  rw [ho, hlook]
  simp only [List.map_cons, show (Actual.dyn o).arg = o.arg from rfl]
  rcases hos with ⟨f, rfl, h1⟩ | ⟨f, g, rfl, h1, h2⟩
  · rw [select_single, if_pos (const_param V o ho hm want _ f h1)]
  · rw [select_pair, const_param V o ho hm want _ f h1, const_param V o ho hm want _ g h2]

/-- C87. What a const `std::unique_ptr`, or one that is held as a temporary, holds cannot be changed. -/
theorem C87_unique_const_refused (V : ReflectedUnique p s t inner raw boolT innerConst) (fuel : Nat) (hp : Heap) (o : Handle)
    (ho : o.arg.type = s) (hm : o.arg.isConst = true ∨ o.arg.ref ≠ .lvalue) (want : Arg) (xs : List Actual) :
    p.callMethod fuel hp o "reset".toList want xs = .error .err ∧ p.callMethod fuel hp o "release".toList want xs = .error .err ∧
    p.callMethod fuel hp o "operator=".toList want xs = .error .err := by
  obtain ⟨f, k1, k2, -⟩ := V.release
  obtain ⟨f', j1, j2, -⟩ := V.assign
  obtain ⟨f1, f2, os, i1, i2, i3, i4, -⟩ := V.reset
  refine ⟨refused_of_none V.toReflectedPtr fuel hp o ho hm _ want xs os i1 (Or.inr ?_),
    refused_of_none V.toReflectedPtr fuel hp o ho hm _ want xs _ k1 (Or.inl ⟨f, rfl, by rw [k2]; rfl⟩),
    refused_of_none V.toReflectedPtr fuel hp o ho hm _ want xs _ j1 (Or.inl ⟨f', rfl, by rw [j2]; rfl⟩)⟩
  rcases i2 with i2 | i2
  · exact ⟨f1, f2, i2, by rw [i3]; rfl, by rw [i4]; rfl⟩
  · exact ⟨f2, f1, i2, by rw [i4]; rfl, by rw [i3]; rfl⟩

/-- C87. What a const `std::shared_ptr`, or one that is held as a temporary, holds cannot be changed. -/
theorem C87_shared_const_refused (V : ReflectedShared p s t inner raw boolT innerConst) (fuel : Nat) (hp : Heap) (o : Handle)
    (ho : o.arg.type = s) (hm : o.arg.isConst = true ∨ o.arg.ref ≠ .lvalue) (want : Arg) (xs : List Actual) :
    p.callMethod fuel hp o "reset".toList want xs = .error .err ∧ p.callMethod fuel hp o "operator=".toList want xs = .error .err := by
  obtain ⟨f, g, k1, k2, -, k3, -⟩ := V.assign
  obtain ⟨f1, f2, os, i1, i2, i3, i4, -⟩ := V.reset
  refine ⟨refused_of_none V.toReflectedPtr fuel hp o ho hm _ want xs os i1 (Or.inr ?_),
    refused_of_none V.toReflectedPtr fuel hp o ho hm _ want xs _ k1 (Or.inr ⟨f, g, rfl, by rw [k2]; rfl, by rw [k3]; rfl⟩)⟩
  rcases i2 with i2 | i2
  · exact ⟨f1, f2, i2, by rw [i3]; rfl, by rw [i4]; rfl⟩
  · exact ⟨f2, f1, i2, by rw [i4]; rfl, by rw [i3]; rfl⟩

/-! ### new pointers -/

/-- `type->construct(x)` of a smart pointer from a plain one -/
theorem construct_from (V : ReflectedPtr p s t inner raw boolT innerConst n) (fuel : Nat) (hp : Heap) (x : Handle) (hx : Copied p x.arg raw)
    (hokx : hp.Ok x.addr 1) :
    ∃ h1 b, Ext hp h1 ∧ h1.Ok b 1 ∧ h1.mem b = hp.mem x.addr ∧
      ∀ h2 a, (if n = 1 then uniMake h1 b else shMake h1 b) = .ok (h2, .obj a) → h2.Ok a n → h1.next ≤ a → Ext h1 h2 →
        ∃ h3 a', p.construct (p.run (fuel + 2)) hp t x = .ok (h3, ⟨t.lref, a', some a'⟩) ∧ h2.next ≤ a' ∧ h3.Ok a' n ∧
          (∀ i < n, h3.mem (a' + i) = h2.mem (a + i)) ∧ (∀ y < h2.next, y < a ∨ a + n ≤ y → h3.mem y = h2.mem y) ∧ h2.next ≤ h3.next := by
  obtain ⟨pre, f, post, c3, c4, c5, c6, c7⟩ := V.makes
  obtain ⟨r1, r2, r3⟩ := V.rawPlain
  obtain ⟨h1, b, k1, k2⟩ := castTo_copy_plain p raw.val hp x fuel rfl r1 (by rw [show raw.val.type = raw from rfl, r2]; exact hokx) hx
  have hsz' : p.size raw.val.type = 1 := r2
  have ko := k2.ok
  have ks := k2.same 0 (by rw [hsz']; omega)
  rw [hsz'] at ko
  refine ⟨h1, b, ⟨k2.frame, k2.grow⟩, ko, ks, fun h2 a hb hok hfr he => ?_⟩
  have hsz : p.size t.val.type = n := V.size
  obtain ⟨h3, u, w1, w2, w3⟩ := C67_temporary_stored p h2 t.val a (by simp [Ty.val]) (Or.inr ⟨rfl, V.moves.2.1⟩) (by rw [hsz]; exact hok)
  have wl := w2.live
  have ws := w2.same
  have wfr := w2.frame
  rw [hsz] at wl ws wfr
  have hu' : u = ⟨t.lref, u.addr, some u.addr⟩ := by
    have g1 := w2.arg; have g2 := w2.owner
    obtain ⟨ua, uad, uo⟩ := u
    simp only at g1 g2
    rw [g1, g2]; rfl
  have hrun : p.run (fuel + 2) hp f [x] = .ok (h3, u) := by
    rw [run_succ p (fuel + 1), c4]
    simp only [Prog.bind]
    rw [k1]
    simp only
    rw [c6, hb]
    simp only [Prog.wrapRet, c5]
    exact w1
  refine ⟨h3, u.addr, ?_, w2.fresh, wl, ws, wfr, w2.grow⟩
  unfold Prog.construct Prog.callDyn
  rw [c3]
  simp only
  rw [select_sole p.w.env p.valueArg [x.arg] pre post f, ← hu']
  · exact hrun
  · have g := test_ctor p.w.env f raw.val x.arg V.distinct (by rw [c5]; exact V.notVoid) (by rw [c5]; exact V.notValue.2.1) c4
    rw [show f.test p.w.env p.valueArg [x.arg] = _ from g]
    obtain ⟨⟨ty, rf, cn⟩, ad, ow⟩ := x
    rw [Ty.val, convertible_static p.w.env _ _ _ _ _ _ (not_dynamic p.w.env _ _ hx.notValue r1.notValue _ _ _ _), hx.noConverter, hx.derives]
    split
    · simp
    · simp only [Bool.false_eq_true, if_false, Bool.true_eq_false]
      split <;> simp
  · exact fun g hg => test_notFor (c7 g hg) x.arg hx.derives

/-- C87. A `std::unique_ptr` constructed from a plain pointer holds the object that points to; it joins the pool, and nothing else
changes. -/
theorem C87_unique_made (V : ReflectedUnique p s t inner raw boolT innerConst) (fuel : Nat) (hp : Heap) (hu : Uniques hp P A) (x : Handle)
    (hx : Copied p x.arg raw) (hokx : hp.Ok x.addr 1) (hxA : hp.mem x.addr ∈ A) (hfree : ¬ Held P hp.holds (hp.mem x.addr)) :
    ∃ hp' a, p.construct (p.run (fuel + 2)) hp t x = .ok (hp', ⟨t.lref, a, some a⟩) ∧ hp.next ≤ a ∧ Uniques hp' (a :: P) A ∧
      hp'.mem a = hp.mem x.addr ∧ ∀ y < hp.next, hp'.mem y = hp.mem y := by
  obtain ⟨h1, b, e1, e2, e3, e4⟩ := construct_from V.toReflectedPtr fuel hp x hx hokx
  have g := e1.grow
  have x2 := newObj_ext h1 (fun _ => h1.mem b) 1
  have q3 : (h1.newObj (fun _ => h1.mem b) 1).1.mem h1.next = h1.mem b := newObj_new h1 (fun _ => h1.mem b) 1 0 (by omega)
  have q2 : (h1.newObj (fun _ => h1.mem b) 1).1.next = h1.next + 1 + 1 := rfl
  obtain ⟨h3, a', d1, d2, d3, d4, d5, d6⟩ := e4 (h1.newObj (fun _ => h1.mem b) 1).1 h1.next
    (by rw [if_pos rfl, uniMake, if_pos e2]; rfl) ⟨by have := hokx.1; have := hokx.2; omega, by rw [q2]; omega⟩ (Nat.le_refl _) x2
  have q4 : h3.mem a' = hp.mem x.addr := by
    have := d4 0 (by omega)
    simp only [Nat.add_zero] at this
    rw [this, q3, e3]
  have fr : ∀ y < hp.next, h3.mem y = hp.mem y := fun y hy => by
    rw [d5 y (by omega) (by omega), x2.same y (by omega), e1.same y hy]
  refine ⟨h3, a', d1, by omega, Uniques.join (hu.ext ⟨fr, by omega⟩) d3 (fun c hc => ?_) ⟨by rw [q4]; exact hxA, fun q hq c => ?_⟩, q4, fr⟩
  · have := (hu.objs c hc).2.1; omega
  · rw [q4, fr q (by have := (hu.ptrs q hq).2; omega)] at c
    exact hfree ⟨q, hq, c⟩

/-- C87. A `std::shared_ptr` constructed from a plain pointer holds the object that points to; it joins the pool, and nothing else
changes. -/
theorem C87_shared_made (V : ReflectedShared p s t inner raw boolT innerConst) (fuel : Nat) (hp : Heap) (hu : Shareds hp P A) (x : Handle)
    (hx : Copied p x.arg raw) (hokx : hp.Ok x.addr 1) (hxA : hp.mem x.addr ∈ A) (hfree : ¬ Held P hp.holds (hp.mem x.addr)) :
    ∃ hp' a, p.construct (p.run (fuel + 2)) hp t x = .ok (hp', ⟨t.lref, a, some a⟩) ∧ hp.next ≤ a ∧ Shareds hp' (a :: P) A ∧
      hp'.mem a = hp.mem x.addr ∧ ∀ y < hp.next, hp'.mem y = hp.mem y := by
  obtain ⟨h1, b, e1, e2, e3, e4⟩ := construct_from V.toReflectedPtr fuel hp x hx hokx
  have g := e1.grow
  have hpos : 0 < hp.next := by have := hokx.1; have := hokx.2; omega
  have u1 : Shareds h1 P A := SharedWith.ext hu e1
  have own : ∀ y ∈ P, h1.holds y = hp.holds y := fun y hy => e1.same y (by have := (hu.ptrs y hy).2; omega)
  obtain ⟨s1, s2⟩ := fresh_pool (a := hp.mem x.addr) u1 hxA (fun c => hfree ((held_congr own _).1 c)) (by omega)
  have x1 := newObj_ext h1 (fun _ => 1) 1
  generalize hc : (h1.newObj (fun _ => 1) 1).1 = c at s1 s2 x1
  have c1 : c.next = h1.next + 1 + 1 := by rw [← hc]; rfl
  have x2 := newObj_ext c (fun j => if j = 0 then h1.mem b else h1.next) 2
  have q3 : ∀ i < 2, (c.newObj (fun j => if j = 0 then h1.mem b else h1.next) 2).1.mem (c.next + i) = if i = 0 then h1.mem b else h1.next :=
    fun i hi => newObj_new c (fun j => if j = 0 then h1.mem b else h1.next) 2 i hi
  have q2 : (c.newObj (fun j => if j = 0 then h1.mem b else h1.next) 2).1.next = c.next + 2 + 1 := rfl
  obtain ⟨h3, a', d1, d2, d3, d4, d5, d6⟩ := e4 (c.newObj (fun j => if j = 0 then h1.mem b else h1.next) 2).1 c.next
    (by rw [if_neg (by omega), shMake, if_pos e2, ← hc]; rfl) ⟨by omega, by rw [q2]; omega⟩ (by omega)
    ⟨fun y hy => by rw [x2.same y (by omega), x1.same y hy], by rw [q2]; omega⟩
  have hslot : h3.slot a' = (hp.mem x.addr, h1.next) := by
    have s0 := d4 0 (by omega)
    have s1 := d4 1 (by omega)
    have o0 := q3 0 (by omega)
    have o1 := q3 1 (by omega)
    simp only [Nat.add_zero] at s0 o0
    unfold Heap.slot
    rw [s0, s1, o0, o1]
    simp [e3]
  have xc : Ext c h3 := ⟨fun y hy => by rw [d5 y (by omega) (by omega), x2.same y hy], by omega⟩
  refine ⟨h3, a', d1, by omega, SharedWith.join (h := c) (by rw [hslot]; exact s1) xc (by omega) d3, congrArg Prod.fst hslot, fun y hy => ?_⟩
  rw [xc.same y (by omega), x1.same y (by omega), e1.same y hy]

/-! ### the library's descriptions -/

theorem notFor_one (f : Fn) (u : Arg) (v : Ty) (hd : p.w.valueT ≠ p.w.voidT) (hf : f.args = [u]) (hr : f.ret = t.val)
    (hv : t ≠ p.w.voidT ∧ t ≠ p.w.valueT) (huv : u.type ≠ p.w.valueT)
    (hno : ∀ a, p.w.env.child a v = true → a ≠ p.w.valueT ∧ p.w.env.conv a u.type = false ∧ p.w.env.child a u.type = false) : NotFor p v f := by
  refine Or.inr fun a ha => ?_
  have g := test_ctor p.w.env f u a hd (by rw [hr]; exact hv.1) (by rw [hr]; exact hv.2) hf
  rw [show f.test p.w.env p.valueArg [a] = _ from g]
  obtain ⟨ty, rf, cn⟩ := a
  obtain ⟨ut, ur, uc⟩ := u
  obtain ⟨n1, n2, n3⟩ := hno ty ha
  rw [convertible_static p.w.env _ _ _ _ _ _ (not_dynamic p.w.env _ _ n1 huv _ _ _ _), n2, n3, if_neg]
  · simp
  · rintro ⟨e, -⟩
    simp only at n3 e
    rw [← e, child_refl] at n3
    cases n3

/-- A pointer class that can be moved says so. -/
theorem movable_of (hd : t ≠ p.w.valueT) (hcv : p.w.env.conv t t = false) (o : Overloads) (f : Fn) (hf : f ∈ o)
    (hlook : p.w.functionF p.w.fuel t (p.w.ty t).id = .ok o) (ha : f.args = [t.rref]) (hr : f.ret = t.val) :
    p.w.isMovable t = true := by
  unfold World.isMovable World.constructibleFrom
  rw [hlook]
  have hm := match_rref p.w.env t t .rvalue false hd hd hcv (child_refl p.w t)
  have ht : f.test p.w.env t.val [t.rref] = .exact := by
    unfold Fn.test
    rw [ha, hr, show testReturn p.w.env t.val t.val = .exact from testReturn_self _ _]
    simp [testArguments, testArgumentsLoop, Ty.rref, hm, combine]
  show Overloads.test p.w.env o t.val [t.rref] = true
  unfold Overloads.test
  rw [List.any_eq_true]
  exact ⟨f, hf, by rw [ht]; rfl⟩

/-- what a smart pointer class needs besides its functions: plain pointers and `bool` are copied; nothing that is a plain pointer is
a smart pointer, or converts to one, nor the other way round -/
structure PtrWorld (p : Prog) (s t inner raw boolT : Ty) (n : Nat) : Prop where
  distinct : p.w.valueT ≠ p.w.voidT
  notValue : s ≠ p.w.valueT ∧ t ≠ p.w.valueT ∧ inner ≠ p.w.valueT
  notVoid : t ≠ p.w.voidT
  derives : p.w.env.child s t = true
  noConverter : p.w.env.conv s t = false ∧ p.w.env.conv t t = false
  rawPlain : PlainCopy p raw ∧ p.size raw = 1 ∧ p.w.env.conv raw raw = false
  boolPlain : PlainCopy p boolT ∧ p.size boolT = 1 ∧ p.w.env.conv boolT boolT = false
  size : p.size t = n
  moves : (p.caps t).moveConstructible = true ∧ ∀ x, p.moved t x = 0
  notPlain : ∀ a, p.w.env.child a t = true → a ≠ p.w.valueT ∧ p.w.env.conv a raw = false ∧ p.w.env.child a raw = false
  notSmart : ∀ a, p.w.env.child a raw = true → a ≠ p.w.valueT ∧ p.w.env.conv a t = false ∧ p.w.env.child a t = false

/-- C87. The library's description of `std::shared_ptr`, with the standard's class behind it, makes a reflected one. -/
theorem C87_shared_described (l : Lib) (W : PtrWorld p s t inner raw l.boolT 2) (id : Name) (hid : (p.w.ty t).id = id)
    (hf : ∀ n ∈ (Spec.sharedTable l t inner raw innerConst).map Prod.fst, p.w.functionF p.w.fuel s n.toList =
      .ok (((fnsOf ((sharedDesc l t inner raw innerConst id).drop ((plumbing l t id regular).length + 2))).filter fun f => f.1 = n.toList).map Prod.snd))
    (hassign : p.w.functionF p.w.fuel s "operator=".toList = .ok (plumbedAssigns t regular))
    (hctor : p.w.functionF p.w.fuel t id = .ok (plumbedConstructors t id regular ++ [Fn.make id t.val [raw.val] 5]))
    (h1 : ∀ hp w k, p.impl 1 hp [.obj w k] = shCopy hp w)
    (h2 : ∀ hp u w k k', p.impl 2 hp [.obj u k, .obj w k'] = shAssign hp u w)
    (h3 : ∀ hp a m, hp.Ok a 2 → p.impl 3 hp [.obj a m] = (hp.moveObj (p.moved t) 2 a).map fun r => (r.1, .obj r.2))
    (h4 : ∀ hp u w k k', p.impl 4 hp [.obj u k, .obj w k'] = shMoveAssign hp u w)
    (h5 : ∀ hp x k, p.impl 5 hp [.obj x k] = shMake hp x)
    (h6 : ∀ hp u k, p.impl 6 hp [.obj u k] = ptrGet 2 hp u)
    (h7 : ∀ hp u k, p.impl 7 hp [.obj u k] = ptrBool 2 hp u)
    (h8 : ∀ hp u k, p.impl 8 hp [.obj u k] = ptrDeref 2 hp u)
    (h9 : ∀ hp u w k k', p.impl 9 hp [.obj u k, .obj w k'] = ptrEq 2 hp u w)
    (h10 : ∀ hp u k, p.impl 10 hp [.obj u k] = shReset hp u)
    (h11 : ∀ hp u x k k', p.impl 11 hp [.obj u k, .obj x k'] = shResetTo hp u x) :
    ReflectedShared p s t inner raw l.boolT innerConst := by
  subst hid
  generalize hi : (p.w.ty t).id = id at *
  have hdrop : (sharedDesc l t inner raw innerConst id).drop ((plumbing l t id regular).length + 2) =
      [flag l "smartPtr", defFn "get".toList raw.val [t.cref] 6, defFn "operator bool()".toList l.boolT.val [t.cref] 7,
       defFn "operator*".toList ⟨inner, .lvalue, innerConst⟩ [t.cref] 8, defFn "operator==".toList l.boolT.val [t.cref, t.cref] 9,
       defFn "reset".toList l.voidT.val [t.lref] 10, defFn "reset".toList l.voidT.val [t.lref, raw.val] 11] := by
    unfold sharedDesc smartDesc
    rw [List.cons_append, List.drop_succ_cons, List.append_assoc, ← List.drop_drop, List.drop_left]
    rfl
  rw [hdrop] at hf
  simp only [flag, defFn, fnsOf] at hf
  have hmove : IsMoveCtor p t (Fn.make id ⟨t, .copy, false⟩ [⟨t, .rvalue, false⟩] 3) :=
    ⟨rfl, rfl, by rw [W.size]; exact h3⟩
  have hraw : NotFor p t (Fn.make id t.val [raw.val] 5) :=
    notFor_one (t := t) _ raw.val t W.distinct rfl rfl ⟨W.notVoid, W.notValue.2.1⟩ W.rawPlain.1.notValue W.notPlain
  have hcs : plumbedConstructors t id regular ++ [Fn.make id t.val [raw.val] 5] =
      [Fn.make id t.val [] 0, Fn.make id t.val [t.cref] 1, Fn.make id t.val [t.rref] 3, Fn.make id t.val [raw.val] 5] := rfl
  rw [hcs] at hctor
  have hin : Fn.make id t.val [t.rref] 3 ∈ [Fn.make id t.val [] 0, Fn.make id t.val [t.cref] 1, Fn.make id t.val [t.rref] 3,
    Fn.make id t.val [raw.val] 5] := by simp
  have hcop : p.w.isCopiable t = true := by
    unfold World.isCopiable World.constructibleFrom
    rw [hi, hctor]
    have hmc := match_copy_constref p.w.env t W.noConverter.2 (child_refl p.w t)
    have ht : Fn.test p.w.env (Fn.make id t.val [t.cref] 1) t.val [t.val] = .part := by
      simp [Fn.test, Fn.make, testReturn_self, testArguments, testArgumentsLoop, Ty.cref, Ty.val, hmc, combine]
    show Overloads.test p.w.env _ t.val [t.val] = true
    unfold Overloads.test
    rw [List.any_eq_true]
    refine ⟨Fn.make id t.val [t.cref] 1, by simp, ?_⟩
    rw [ht]; rfl
  exact
  { distinct := W.distinct, notValue := W.notValue, derives := W.derives, noConverter := W.noConverter.1
    rawPlain := W.rawPlain, boolPlain := W.boolPlain, size := W.size, notVoid := W.notVoid
    get := ⟨Fn.make "get".toList raw.val [t.cref] 6, (hf "get" (by simp [Spec.sharedTable, Spec.smartTable])).trans (by simp), rfl, rfl, h6⟩
    toBool := ⟨Fn.make "operator bool()".toList l.boolT.val [t.cref] 7, (hf "operator bool()" (by simp [Spec.sharedTable, Spec.smartTable])).trans (by simp), rfl, rfl, h7⟩
    deref := ⟨Fn.make "operator*".toList ⟨inner, .lvalue, innerConst⟩ [t.cref] 8, (hf "operator*" (by simp [Spec.sharedTable, Spec.smartTable])).trans (by simp), rfl, rfl, h8⟩
    eq := ⟨Fn.make "operator==".toList l.boolT.val [t.cref, t.cref] 9, (hf "operator==" (by simp [Spec.sharedTable, Spec.smartTable])).trans (by simp), rfl, rfl, h9⟩
    makes := ⟨[Fn.make id t.val [] 0, Fn.make id t.val [t.cref] 1, Fn.make id t.val [t.rref] 3], Fn.make id t.val [raw.val] 5, [],
      by rw [hi]; exact hctor, rfl, rfl, fun hp x k => by rw [if_neg (by omega)]; exact h5 hp x k, by
        intro g hg
        simp only [List.mem_append, List.mem_cons, List.not_mem_nil, or_false] at hg
        rcases hg with rfl | rfl | rfl
        · exact Or.inl (by simp [Fn.make])
        · exact notFor_one (t := t) _ t.cref raw W.distinct rfl rfl ⟨W.notVoid, W.notValue.2.1⟩ W.notValue.2.1 W.notSmart
        · exact notFor_one (t := t) _ t.rref raw W.distinct rfl rfl ⟨W.notVoid, W.notValue.2.1⟩ W.notValue.2.1 W.notSmart⟩
    moves := ⟨movable_of W.notValue.2.1 W.noConverter.2 _ (Fn.make id t.val [t.rref] 3) hin (by rw [hi]; exact hctor) rfl rfl,
      W.moves.1, W.moves.2⟩
    reset := ⟨Fn.make "reset".toList l.voidT.val [t.lref] 10, Fn.make "reset".toList l.voidT.val [t.lref, raw.val] 11, _,
      (hf "reset" (by simp [Spec.sharedTable])).trans (by simp), Or.inl rfl, rfl, rfl, h10, h11⟩
    assign := ⟨Fn.make "operator=".toList t.lref [t.lref, t.cref] 2, Fn.make "operator=".toList t.lref [t.lref, t.rref] 4, hassign, rfl, rfl,
      rfl, rfl, h2, h4⟩
    copies := ⟨hcop, [Fn.make id t.val [] 0], Fn.make id t.val [t.cref] 1, [Fn.make id t.val [t.rref] 3, Fn.make id t.val [raw.val] 5],
      by rw [hi]; exact hctor, rfl, rfl, h1, by
        intro g hg
        simp only [List.mem_append, List.mem_cons, List.not_mem_nil, or_false] at hg
        rcases hg with rfl | rfl | rfl
        · exact Or.inr (Or.inl (by simp [Fn.make]))
        · exact Or.inl hmove
        · exact Or.inr hraw⟩ }

/-- C87. The library's description of `std::unique_ptr`, with the standard's class behind it, makes a reflected one. -/
theorem C87_unique_described (l : Lib) (W : PtrWorld p s t inner raw l.boolT 1) (id : Name) (hid : (p.w.ty t).id = id)
    (hf : ∀ n ∈ (Spec.uniqueTable l t inner raw innerConst).map Prod.fst, p.w.functionF p.w.fuel s n.toList =
      .ok (((fnsOf ((uniqueDesc l t inner raw innerConst id).drop ((plumbing l t id moveOnly).length + 2))).filter fun f => f.1 = n.toList).map Prod.snd))
    (hassign : p.w.functionF p.w.fuel s "operator=".toList = .ok (plumbedAssigns t moveOnly))
    (hctor : p.w.functionF p.w.fuel t id = .ok (plumbedConstructors t id moveOnly ++ [Fn.make id t.val [raw.val] 5]))
    (h4 : ∀ hp u w k k', p.impl 4 hp [.obj u k, .obj w k'] = uniMoveAssign hp u w)
    (h5 : ∀ hp x k, p.impl 5 hp [.obj x k] = uniMake hp x)
    (h6 : ∀ hp u k, p.impl 6 hp [.obj u k] = ptrGet 1 hp u)
    (h7 : ∀ hp u k, p.impl 7 hp [.obj u k] = ptrBool 1 hp u)
    (h8 : ∀ hp u k, p.impl 8 hp [.obj u k] = ptrDeref 1 hp u)
    (h9 : ∀ hp u w k k', p.impl 9 hp [.obj u k, .obj w k'] = ptrEq 1 hp u w)
    (h10 : ∀ hp u k, p.impl 10 hp [.obj u k] = uniRelease hp u)
    (h11 : ∀ hp u x k k', p.impl 11 hp [.obj u k, .obj x k'] = uniResetTo hp u x)
    (h12 : ∀ hp u k, p.impl 12 hp [.obj u k] = uniReset hp u) :
    ReflectedUnique p s t inner raw l.boolT innerConst := by
  subst hid
  generalize hi : (p.w.ty t).id = id at *
  have hdrop : (uniqueDesc l t inner raw innerConst id).drop ((plumbing l t id moveOnly).length + 2) =
      [flag l "smartPtr", defFn "get".toList raw.val [t.cref] 6, defFn "operator bool()".toList l.boolT.val [t.cref] 7,
       defFn "operator*".toList ⟨inner, .lvalue, innerConst⟩ [t.cref] 8, defFn "operator==".toList l.boolT.val [t.cref, t.cref] 9,
       defFn "release".toList raw.val [t.lref] 10, defFn "reset".toList l.voidT.val [t.lref, raw.val] 11,
       defFn "reset".toList l.voidT.val [t.lref] 12] := by
    unfold uniqueDesc smartDesc
    rw [List.cons_append, List.drop_succ_cons, List.append_assoc, ← List.drop_drop, List.drop_left]
    rfl
  rw [hdrop] at hf
  simp only [flag, defFn, fnsOf] at hf
  have hcs : plumbedConstructors t id moveOnly ++ [Fn.make id t.val [raw.val] 5] =
      [Fn.make id t.val [] 0, Fn.make id t.val [t.rref] 3, Fn.make id t.val [raw.val] 5] := rfl
  rw [hcs] at hctor
  have hin : Fn.make id t.val [t.rref] 3 ∈ [Fn.make id t.val [] 0, Fn.make id t.val [t.rref] 3, Fn.make id t.val [raw.val] 5] := by simp
  exact
  { distinct := W.distinct, notValue := W.notValue, derives := W.derives, noConverter := W.noConverter.1
    rawPlain := W.rawPlain, boolPlain := W.boolPlain, size := W.size, notVoid := W.notVoid
    get := ⟨Fn.make "get".toList raw.val [t.cref] 6, (hf "get" (by simp [Spec.uniqueTable, Spec.smartTable])).trans (by simp), rfl, rfl, h6⟩
    toBool := ⟨Fn.make "operator bool()".toList l.boolT.val [t.cref] 7, (hf "operator bool()" (by simp [Spec.uniqueTable, Spec.smartTable])).trans (by simp), rfl, rfl, h7⟩
    deref := ⟨Fn.make "operator*".toList ⟨inner, .lvalue, innerConst⟩ [t.cref] 8, (hf "operator*" (by simp [Spec.uniqueTable, Spec.smartTable])).trans (by simp), rfl, rfl, h8⟩
    eq := ⟨Fn.make "operator==".toList l.boolT.val [t.cref, t.cref] 9, (hf "operator==" (by simp [Spec.uniqueTable, Spec.smartTable])).trans (by simp), rfl, rfl, h9⟩
    makes := ⟨[Fn.make id t.val [] 0, Fn.make id t.val [t.rref] 3], Fn.make id t.val [raw.val] 5, [],
      by rw [hi]; exact hctor, rfl, rfl, fun hp x k => by rw [if_pos rfl]; exact h5 hp x k, by
        intro g hg
        simp only [List.mem_append, List.mem_cons, List.not_mem_nil, or_false] at hg
        rcases hg with rfl | rfl
        · exact Or.inl (by simp [Fn.make])
        · exact notFor_one (t := t) _ t.rref raw W.distinct rfl rfl ⟨W.notVoid, W.notValue.2.1⟩ W.notValue.2.1 W.notSmart⟩
    moves := ⟨movable_of W.notValue.2.1 W.noConverter.2 _ (Fn.make id t.val [t.rref] 3) hin (by rw [hi]; exact hctor) rfl rfl,
      W.moves.1, W.moves.2⟩
    release := ⟨Fn.make "release".toList raw.val [t.lref] 10, (hf "release" (by simp [Spec.uniqueTable])).trans (by simp), rfl, rfl, h10⟩
    reset := ⟨Fn.make "reset".toList l.voidT.val [t.lref] 12, Fn.make "reset".toList l.voidT.val [t.lref, raw.val] 11, _,
      (hf "reset" (by simp [Spec.uniqueTable])).trans (by simp), Or.inr rfl, rfl, rfl, h12, h11⟩
    assign := ⟨Fn.make "operator=".toList t.lref [t.lref, t.rref] 4, hassign, rfl, rfl, h4⟩ }

end

/-! ### a concrete case -/

namespace PtrDemo

def lib : Lib := ⟨4, 7, 0, ⟨Ty.val 0, 0, none⟩, fun t n => ⟨Ty.lref 4, t, some n.length⟩⟩
def e0 : Env := ⟨0, 1, fun a b => a = b, fun _ _ => false⟩

/-- plain pointers and `bool` have bodies of their own -/
def plain (t : Ty) (id : Name) : TypeD :=
  { TypeD.new id with fns := [(id, [Fn.make id t.val [t.cref] 21, Fn.make id t.val [t.rref] 23])] }

/-- `std::shared_ptr` (`n` = 2) or `std::unique_ptr` (`n` = 1) -/
def impl (n : Nat) : Nat → Heap → List BArg → Res (Heap × BRet)
  | 1, hp, [.obj w _] => shCopy hp w
  | 2, hp, [.obj u _, .obj w _] => shAssign hp u w
  | 3, hp, [.obj a _] => (hp.moveObj (fun _ => 0) n a).map fun r => (r.1, .obj r.2)
  | 4, hp, [.obj u _, .obj w _] => if n = 1 then uniMoveAssign hp u w else shMoveAssign hp u w
  | 5, hp, [.obj x _] => if n = 1 then uniMake hp x else shMake hp x
  | 6, hp, [.obj u _] => ptrGet n hp u
  | 7, hp, [.obj u _] => ptrBool n hp u
  | 8, hp, [.obj u _] => ptrDeref n hp u
  | 9, hp, [.obj u _, .obj w _] => ptrEq n hp u w
  | 10, hp, [.obj u _] => if n = 1 then uniRelease hp u else shReset hp u
  | 11, hp, [.obj u _, .obj x _] => if n = 1 then uniResetTo hp u x else shResetTo hp u x
  | 12, hp, [.obj u _] => uniReset hp u
  | 21, hp, [.obj a _] => (hp.copyObj 1 a).map fun r => (r.1, .obj r.2)
  | 23, hp, [.obj a _] => (hp.moveObj (fun _ => 0) 1 a).map fun r => (r.1, .obj r.2)
  | _, _, _ => .error .ub

/-- 0 void, 1 Value, 2 the smart pointer, 3 T, 4 bool, 5 T* -/
def world (n : Nat) : World :=
  { n := 7, voidT := 0, valueT := 1
    ty := fun t => match t with
      | 0 => TypeD.new ['v']
      | 1 => TypeD.new ['V']
      | 2 => ((Noted.new ['P']).runAll e0 lib.void (if n = 1 then uniqueDesc lib 2 3 5 false ['P'] else sharedDesc lib 2 3 5 false ['P'])).1.d
      | 3 => TypeD.new ['T']
      | 4 => plain 4 ['b']
      | 5 => plain 5 ['r']
      | _ => TypeD.new ['o'] }

def prog (n : Nat) : Prog :=
  { w := world n, size := fun t => if t = 2 then n else 1, caps := fun t => if t = 2 ∧ n = 1 then moveOnly else regular
    moved := fun _ _ => 0, junk := .copy, impl := impl n }

theorem plainCopy (n : Nat) (hn : n = 1 ∨ n = 2) (t : Ty) (ht : t = 4 ∨ t = 5) :
    PlainCopy (prog n) t ∧ (prog n).size t = 1 ∧ (prog n).w.env.conv t t = false := by
  have hb : ∀ hp a m, hp.Ok a ((prog n).size t) → (prog n).impl 21 hp [.obj a m] = (hp.copyObj ((prog n).size t) a).map fun r => (r.1, .obj r.2) := by
    intro hp a m _
    have : (prog n).size t = 1 := by rcases ht with rfl | rfl <;> rfl
    rw [this]; rfl
  have hb' : ∀ hp a m, hp.Ok a ((prog n).size t) →
      (prog n).impl 23 hp [.obj a m] = (hp.moveObj ((prog n).moved t) ((prog n).size t) a).map fun r => (r.1, .obj r.2) := by
    intro hp a m _
    have : (prog n).size t = 1 := by rcases ht with rfl | rfl <;> rfl
    rw [this]; rfl
  refine ⟨⟨?_, ?_, ?_, ?_, ?_, ?_, [], Fn.make ((prog n).w.ty t).id t.val [t.cref] 21, [Fn.make ((prog n).w.ty t).id t.val [t.rref] 23], ?_,
    ⟨rfl, rfl, hb⟩, ?_⟩, ?_, ?_⟩
  · rcases hn with rfl | rfl <;> rcases ht with rfl | rfl <;> decide
  · rcases hn with rfl | rfl <;> rcases ht with rfl | rfl <;> decide
  · rcases hn with rfl | rfl <;> decide
  · rcases hn with rfl | rfl <;> rcases ht with rfl | rfl <;> decide +kernel
  · rcases hn with rfl | rfl <;> rcases ht with rfl | rfl <;> decide
  · rcases hn with rfl | rfl <;> rcases ht with rfl | rfl <;> decide
  · rcases hn with rfl | rfl <;> rcases ht with rfl | rfl <;> decide +kernel
  · intro g hg
    simp only [List.nil_append, List.mem_singleton] at hg
    subst hg
    exact Or.inl ⟨rfl, rfl, hb'⟩
  · rcases hn with rfl | rfl <;> rcases ht with rfl | rfl <;> decide
  · rcases hn with rfl | rfl <;> rcases ht with rfl | rfl <;> decide +kernel

/-- no class derives from another here -/
theorem child_only (n : Nat) (hn : n = 1 ∨ n = 2) (a b : Ty) (h : (prog n).w.env.child a b = true) : a = b := by
  have hp : ∀ t, ((world n).ty t).parent = none := by
    intro t
    rcases hn with rfl | rfl <;> match t with
      | 0 | 1 | 3 | 4 | 5 => rfl
      | 2 => decide +kernel
      | k + 6 => rfl
  have hq : ∀ t, t ≠ 2 → ((world n).ty t).ptr = none := by
    intro t ht
    rcases hn with rfl | rfl <;> match t with
      | 0 | 1 | 3 | 4 | 5 => rfl
      | 2 => exact absurd rfl ht
      | k + 6 => rfl
  have h' : (world n).childF ((world n).fuel) a b = .ok true := by
    have h2 : (prog n).w.childF (prog n).w.fuel a b = .ok true := by simpa [World.env] using h
    exact h2
  rw [show (world n).fuel = ((world n).fuel - 1) + 1 from rfl, World.childF] at h'
  by_cases hab : a = b
  · exact hab
  · rw [if_neg hab, hp a] at h'
    by_cases ha : a = 2
    · rw [hq b (fun c => hab (ha.trans c.symm))] at h'
      generalize ((world n).ty a).ptr = r at h'
      rcases r with _ | r <;> cases h'
    · rw [hq a ha] at h'
      cases h'

theorem ptrWorld (n : Nat) (hn : n = 1 ∨ n = 2) : PtrWorld (prog n) 2 2 3 5 lib.boolT n := by
  refine ⟨?_, ?_, ?_, ?_, ?_, plainCopy n hn 5 (Or.inr rfl), plainCopy n hn 4 (Or.inl rfl), rfl, ?_, fun a ha => ?_, fun a ha => ?_⟩
  · rcases hn with rfl | rfl <;> decide
  · rcases hn with rfl | rfl <;> decide
  · rcases hn with rfl | rfl <;> decide
  · rcases hn with rfl | rfl <;> decide +kernel
  · rcases hn with rfl | rfl <;> decide +kernel
  · exact ⟨by rcases hn with rfl | rfl <;> rfl, fun _ => rfl⟩
  · have := child_only n hn a 2 ha
    subst this
    rcases hn with rfl | rfl <;> decide +kernel
  · have := child_only n hn a 5 ha
    subst this
    rcases hn with rfl | rfl <;> decide +kernel

theorem shared : ReflectedShared (prog 2) 2 2 3 5 4 false :=
  C87_shared_described lib (ptrWorld 2 (Or.inr rfl)) ['P'] (by decide +kernel) (by decide +kernel) (by decide +kernel) (by decide +kernel)
    (fun _ _ _ => rfl) (fun _ _ _ _ _ => rfl) (fun _ _ _ _ => rfl) (fun _ _ _ _ _ => rfl) (fun _ _ _ => rfl) (fun _ _ _ => rfl)
    (fun _ _ _ => rfl) (fun _ _ _ => rfl) (fun _ _ _ _ _ => rfl) (fun _ _ _ => rfl) (fun _ _ _ _ _ => rfl)

theorem unique : ReflectedUnique (prog 1) 2 2 3 5 4 false :=
  C87_unique_described lib (ptrWorld 1 (Or.inl rfl)) ['P'] (by decide +kernel) (by decide +kernel) (by decide +kernel) (by decide +kernel)
    (fun _ _ _ _ _ => rfl) (fun _ _ _ => rfl) (fun _ _ _ => rfl) (fun _ _ _ => rfl) (fun _ _ _ => rfl) (fun _ _ _ _ _ => rfl) (fun _ _ _ => rfl)
    (fun _ _ _ _ _ => rfl) (fun _ _ _ => rfl)

/-- pointers at 10 and 13 that share the object at 21, with the count at 29; an empty one at 16; a plain pointer to the object at
    24 at 31 -/
def heap : Heap := { mem := fun a => match a with | 10 => 21 | 11 => 29 | 13 => 21 | 14 => 29 | 29 => 2 | 31 => 24 | _ => 0, next := 33 }

def q (a : Nat) : Handle := ⟨Ty.lref 2, a, none⟩
def x : Handle := ⟨Ty.lref 5, 31, none⟩

theorem pool : Shareds heap [10, 13, 16] [21, 24] := by
  refine ⟨by decide, by decide, by decide, by decide, ?_, by decide⟩
  unfold Heap.Counted; decide

theorem outside : ¬ heap.InPool 2 [10, 13, 16] [21, 24] 31 := by unfold Heap.InPool; decide

theorem copiedX (n : Nat) (hn : n = 1 ∨ n = 2) : Copied (prog n) x.arg 5 := by
  rcases hn with rfl | rfl <;> exact ⟨by decide, by decide +kernel, by decide +kernel, by decide⟩

def calls : List PtrCall := [.copy (q 16) (q 10), .take (q 10) x, .reset (q 13), .move (q 13) (q 10), .reset (q 16)]

theorem ready : ∀ c ∈ calls, c.Ready (prog 2) heap 2 5 2 [10, 13, 16] [21, 24] := by
  intro c hc
  simp only [calls, List.mem_cons, List.not_mem_nil, or_false] at hc
  rcases hc with rfl | rfl | rfl | rfl | rfl
  · exact ⟨rfl, ⟨rfl, by decide⟩, rfl, rfl, by decide⟩
  · exact ⟨⟨rfl, by decide⟩, copiedX 2 (Or.inr rfl), by decide, outside, by decide⟩
  · exact ⟨rfl, by decide⟩
  · exact ⟨⟨rfl, by decide⟩, rfl, by decide⟩
  · exact ⟨rfl, by decide⟩

example : ∃ hp', PtrCall.all (prog 2) 2 heap calls = .ok hp' ∧ hp'.mem 13 = 24 ∧ hp'.mem 10 = 0 ∧ hp'.mem 16 = 0 ∧
    hp'.deleted 21 = 1 ∧ hp'.deleted 24 = 0 := by
  obtain ⟨hp', h1, -, h3⟩ := C87_shared_history shared 0 heap pool calls ready (by
    refine ⟨trivial, ?_, trivial, trivial, trivial, trivial⟩
    decide)
  exact ⟨hp', h1, (h3.holds 13 (by decide)).trans (by decide), (h3.holds 10 (by decide)).trans (by decide),
    (h3.holds 16 (by decide)).trans (by decide), (h3.deletes 21 (by decide)).trans (by decide), (h3.deletes 24 (by decide)).trans (by decide)⟩
example : ∃ hp', PtrCall.all (prog 2) 2 heap calls = .ok hp' ∧
    (hp'.deleted 21 = heap.deleted 21 + 1 ↔ (Held [10, 13, 16] heap.holds 21 ∨ 21 ∈ PtrCall.taken heap calls) ∧ ¬ Held [10, 13, 16] hp'.holds 21) := by
  obtain ⟨hp', h1, -, h3⟩ := C87_shared_once shared 0 heap pool calls ready (by decide) (by decide)
  exact ⟨hp', h1, h3 21 (by decide)⟩
/-- what the calls do, computed -/
def after (n : Nat) (h : Heap) (cs : List PtrCall) (ys : List Nat) : Option (List Nat) := match PtrCall.all (prog n) 2 h cs with
  | .ok h => some (ys.map h.mem)
  | .error _ => none
example : after 2 heap calls [10, 13, 16, 20, 23, 29] = some [0, 24, 0, 1, 0, 0] := by decide +kernel
example : after 2 heap [.reset (q 10)] [10, 13, 20, 29] = some [0, 21, 0, 1] := by decide +kernel
/-- assigned to and moved into itself -/
example : after 2 heap [.copy (q 10) (q 10), .move (q 13) (q 13)] [10, 13, 20, 29] = some [21, 21, 0, 2] := by decide +kernel

example : ∃ hp' a, (prog 2).copy 1 heap (q 10) = .ok (hp', ⟨Ty.lref 2, a, some a⟩) ∧ Shareds hp' [a, 10, 13, 16] [21, 24] ∧ hp'.mem a = 21 := by
  obtain ⟨hp', a, h1, -, h2, h3, -⟩ := C87_shared_copied shared 0 heap pool (q 10) rfl rfl (by decide) (by decide +kernel)
  exact ⟨hp', a, h1, h2, h3⟩
example : ∃ hp' a, (prog 2).construct ((prog 2).run 2) heap 2 x = .ok (hp', ⟨Ty.lref 2, a, some a⟩) ∧ Shareds hp' [a, 10, 13, 16] [21, 24] := by
  obtain ⟨hp', a, h1, -, h2, -⟩ := C87_shared_made shared 0 heap pool x (copiedX 2 (Or.inr rfl)) (by decide) (by decide) (by decide)
  exact ⟨hp', a, h1, h2⟩
example : ∃ hp' a, (prog 2).callMethod 1 heap (q 10).toConst "get".toList (Ty.val 5) [] = .ok (hp', some (.obj a true)) ∧ hp'.mem a = 21 := by
  obtain ⟨hp', a, h1, h2, -⟩ := C87_get shared.toReflectedPtr 0 heap (q 10).toConst rfl (by decide)
  exact ⟨hp', a, h1, h2⟩
example : ∃ hp' a, (prog 2).callMethod 1 heap (q 16) "operator bool()".toList (Ty.val 4) [] = .ok (hp', some (.obj a true)) ∧ hp'.mem a = 0 := by
  obtain ⟨hp', a, h1, h2, -⟩ := C87_bool shared.toReflectedPtr 0 heap (q 16) rfl (by decide)
  exact ⟨hp', a, h1, h2⟩
example : ∃ hp' a, (prog 2).callMethod 1 heap (q 10) "operator==".toList (Ty.val 4) [.dyn (q 13)] = .ok (hp', some (.obj a true)) ∧ hp'.mem a = 1 := by
  obtain ⟨hp', a, h1, h2, -⟩ := C87_eq shared.toReflectedPtr 0 heap (q 10) (q 13) rfl rfl (by decide) (by decide)
  exact ⟨hp', a, h1, h2⟩
example : (prog 2).callMethod 1 heap (q 10).toConst "operator*".toList (prog 2).valueArg [] = .ok (heap, some (.val ⟨Ty.lref 3, 21, none⟩)) :=
  C87_deref shared.toReflectedPtr 0 heap (q 10).toConst rfl (by decide) (by decide)
example : (prog 2).callMethod 1 heap (q 16) "operator*".toList (prog 2).valueArg [] = .error .ub :=
  C87_null_deref shared.toReflectedPtr 0 heap (q 16) rfl rfl
example : (prog 2).callMethod 1 heap (q 10).toConst "reset".toList (prog 2).voidArg [] = .error .err :=
  (C87_shared_const_refused shared 1 heap (q 10).toConst rfl (Or.inl rfl) _ _).1

/-- pointers at 10 and 12, the first to the object at 21; a plain pointer to the object at 24 at 31 -/
def heap1 : Heap := { mem := fun a => match a with | 10 => 21 | 31 => 24 | _ => 0, next := 33 }
theorem pool1 : Uniques heap1 [10, 12] [21, 24] := ⟨by decide, by decide, by decide, by decide⟩
theorem outside1 : ¬ heap1.InPool 1 [10, 12] [21, 24] 31 := by unfold Heap.InPool; decide
def calls1 : List PtrCall := [.move (q 12) (q 10), .take (q 10) x, .move (q 12) (q 10), .release (q 12), .reset (q 10)]
theorem ready1 : ∀ c ∈ calls1, c.Ready (prog 1) heap1 2 5 1 [10, 12] [21, 24] := by
  intro c hc
  simp only [calls1, List.mem_cons, List.not_mem_nil, or_false] at hc
  rcases hc with rfl | rfl | rfl | rfl | rfl
  · exact ⟨⟨rfl, by decide⟩, rfl, by decide⟩
  · exact ⟨⟨rfl, by decide⟩, copiedX 1 (Or.inl rfl), by decide, outside1, by decide⟩
  · exact ⟨⟨rfl, by decide⟩, rfl, by decide⟩
  · exact ⟨rfl, rfl, by decide⟩
  · exact ⟨rfl, by decide⟩

example : ∃ hp', PtrCall.all (prog 1) 2 heap1 calls1 = .ok hp' ∧ hp'.mem 10 = 0 ∧ hp'.mem 12 = 0 ∧ hp'.deleted 21 = 1 ∧ hp'.deleted 24 = 0 := by
  obtain ⟨hp', h1, -, h3⟩ := C87_unique_history unique 0 heap1 pool1 calls1 ready1 (by
    refine ⟨trivial, ?_, trivial, trivial, trivial, trivial⟩
    decide)
  exact ⟨hp', h1, (h3.holds 10 (by decide)).trans (by decide), (h3.holds 12 (by decide)).trans (by decide),
    (h3.deletes 21 (by decide)).trans (by decide), (h3.deletes 24 (by decide)).trans (by decide)⟩
example : ∃ hp', PtrCall.all (prog 1) 2 heap1 calls1 = .ok hp' ∧ DeletedOnce heap1 hp' [10, 12] [21, 24] calls1 :=
  C87_unique_once unique 0 heap1 pool1 calls1 ready1 (by decide) (by decide)
example : after 1 heap1 calls1 [10, 12, 20, 23] = some [0, 0, 1, 0] := by decide +kernel
example : after 1 heap1 [.move (q 10) (q 10), .reset (q 12)] [10, 12, 20] = some [21, 0, 0] := by decide +kernel
example : (prog 1).assign 1 heap1 (q 12) (.dyn (q 10)) = .error .err :=
  C87_unique_copy_refused unique 1 heap1 (q 12) (q 10) rfl rfl rfl
example : ∃ hp' a, (prog 1).construct ((prog 1).run 2) heap1 2 x = .ok (hp', ⟨Ty.lref 2, a, some a⟩) ∧ Uniques hp' [a, 10, 12] [21, 24] := by
  obtain ⟨hp', a, h1, -, h2, -⟩ := C87_unique_made unique 0 heap1 pool1 x (copiedX 1 (Or.inl rfl)) (by decide) (by decide) (by decide)
  exact ⟨hp', a, h1, h2⟩
example : (prog 1).callMethod 1 heap1 (q 10).toConst "release".toList (prog 1).valueArg [] = .error .err :=
  (C87_unique_const_refused unique 1 heap1 (q 10).toConst rfl (Or.inl rfl) _ _).2.1

end PtrDemo

end Reflect

import Verif.Props.Calls
import Verif.Props.Operators
import Verif.Model.ValueOps
/-
  Property C74: the operators of `Value` act on the value's object as the operators of its class do.
-/
namespace Reflect
open World

/-- the argument is an object that can be bound to the lvalue-reference parameter `t`: it is of the class
    or of a child (without a conversion operator to it), and mutable unless the reference is to const -/
structure RefFits (p : Prog) (x : Actual) (t : Arg) : Prop where
  isRef : t.ref = .lvalue
  notValue : x.arg.type ≠ p.w.valueT ∧ t.type ≠ p.w.valueT
  derives : p.w.env.child x.arg.type t.type = true
  noConverter : p.w.env.conv x.arg.type t.type = false
  mutable : t.isConst = true ∨ (x.arg.isConst = false ∧ x.arg.ref = .lvalue)
  /-- not a C++ temporary, which would be stored first -/
  stays : ∀ arg a, x = .native arg a → arg.ref = .lvalue

/-- the arguments fit the parameters, one by one -/
inductive RefsFit (p : Prog) : List Actual → List Arg → Prop
  | nil : RefsFit p [] []
  | cons {x t xs ts} : RefFits p x t → RefsFit p xs ts → RefsFit p (x :: xs) (t :: ts)

/-- what the body is handed for them: the caller's own objects -/
def ownObjects (as : List Actual) (ts : List Arg) : List BArg :=
  List.zipWith (fun x t => .obj x.handle.addr (!t.isConst)) as ts

theorem RefFits.matches {p : Prog} {x : Actual} {t : Arg} (h : RefFits p x t) :
    isConvertibleTo p.w.env x.arg t ≠ .none := by
  obtain ⟨u, r, c⟩ := t
  have hr : r = .lvalue := h.isRef
  subst hr
  exact match_lref p.w.env x.arg u c h.notValue.1 h.notValue.2 h.noConverter h.derives h.mutable

theorem combine_ne_none {a b : Match} (ha : a ≠ .none) (hb : b ≠ .none) : combine a b ≠ .none := by
  cases a <;> cases b <;> simp_all [combine]

theorem RefsFit.args {p : Prog} {as : List Actual} {ts : List Arg} (h : RefsFit p as ts) :
    testArguments p.w.env (as.map Actual.arg) ts ≠ .none := by
  have hlen : as.length = ts.length := by
    induction h with
    | nil => rfl
    | cons _ _ ih => simp [ih]
  unfold testArguments
  rw [if_neg (by simp [hlen])]
  have : ∀ m, m ≠ Match.none → testArgumentsLoop p.w.env m (as.map Actual.arg) ts ≠ .none := by
    clear hlen
    induction h with
    | nil => intro m hm; simpa [testArgumentsLoop] using hm
    | cons hx _ ih =>
      intro m hm
      simp only [List.map_cons, testArgumentsLoop]
      have := combine_ne_none hm hx.matches
      rw [if_neg this]
      exact ih _ this
  exact this _ (by simp)

theorem castTo_ref (p : Prog) (rec : Runner) (hp : Heap) (x : Actual) (t : Arg) (h : RefFits p x t) :
    p.castTo rec hp x.handle t = .ok (hp, .obj x.handle.addr (!t.isConst)) := by
  have harg : x.handle.arg = x.arg := by cases x <;> rfl
  unfold Prog.castTo
  have hne : t ≠ p.valueArg := by
    intro hh; exact h.notValue.2 (by rw [hh]; rfl)
  rw [if_neg hne]
  simp only [Prog.castV, h.isRef, harg, h.derives, h.mutable, and_self, if_true, Prog.castRet,
    Handle.as, Bool.true_and]

theorem bind_refs (p : Prog) (rec : Runner) (hp : Heap) {as : List Actual} {ts : List Arg}
    (h : RefsFit p as ts) :
    p.bind rec hp (as.map Actual.handle) ts = .ok (hp, ownObjects as ts) := by
  induction h with
  | nil => rfl
  | cons hx _ ih =>
    simp only [List.map_cons, Prog.bind, castTo_ref p rec hp _ _ hx, ih]
    rfl

theorem toHandles_refs (p : Prog) (hp : Heap) {as : List Actual} {ts : List Arg} (h : RefsFit p as ts) :
    p.toHandles hp as = .ok (hp, as.map Actual.handle) := by
  refine toHandles_simple p hp as ?_
  induction h with
  | nil => intro x hx; cases hx
  | cons hx _ ih =>
    intro x hm
    rcases List.mem_cons.1 hm with rfl | hm
    · exact hx.stays
    · exact ih x hm

theorem select_single (e : Env) (f : Fn) (ret : Arg) (args : List Arg) :
    Overloads.select e [f] ret args = if f.test e ret args = .none then .error .err else .ok f := by
  unfold Overloads.select
  simp only [Overloads.selectLoop]
  by_cases h : f.test e ret args = .none
  · simp [h]
  · by_cases h2 : f.test e ret args = .exact
    · simp [h2]
    · simp [h, h2]

theorem testReturn_value (p : Prog) (hvd : p.w.valueT ≠ p.w.voidT) (ret : Arg) (hr : ret.type ≠ p.w.valueT) :
    testReturn p.w.env p.valueArg ret = .exact := by
  have h1 : p.valueArg.type = p.w.valueT := rfl
  have h2 : p.w.env.voidT = p.w.voidT := rfl
  have h3 : p.w.env.valueT = p.w.valueT := rfl
  unfold testReturn
  rw [h1, h2, h3, if_neg hvd]
  by_cases hv : ret.type = p.w.voidT
  · rw [if_pos hv, if_neg (by simp), if_neg (by simp [Prog.valueArg])]
  · rw [if_neg hv, convertible_dynamic p.w.env ret p.valueArg (Or.inr ⟨hr, rfl⟩), if_neg (by simp),
      if_neg (by simp [Arg.isConstRef, Prog.valueArg])]

/-- A call of a member whose parameters are all lvalue references, with arguments that can be bound to
    them: the body runs once, on the caller's own objects and the caller's memory. -/
theorem callMethod_refs (p : Prog) (fuel : Nat) (hp : Heap) (v : Handle) (op : Name) (f : Fn) (want : Arg)
    (as : List Actual) (hlook : p.w.functionF p.w.fuel v.arg.type op = .ok [f])
    (hfit : RefsFit p (.dyn v :: as) f.args) (hret : testReturn p.w.env want f.ret ≠ .none) :
    p.callMethod (fuel + 1) hp v op want as =
      match p.impl f.body hp (ownObjects (.dyn v :: as) f.args) with
      | .error x => .error x
      | .ok (h2, r) => match p.wrapRet h2 f.ret r with
        | .error x => .error x
        | .ok (h3, u) => p.retCast (p.run (fuel + 1)) h3 u want := by
  have ht : f.test p.w.env want ((Actual.dyn v :: as).map Actual.arg) ≠ .none :=
    combine_ne_none hret hfit.args
  unfold Prog.callMethod
  rw [hlook]
  dsimp only
  unfold Prog.callOv
  rw [select_single, if_neg ht]
  dsimp only
  unfold Prog.callFn
  rw [if_neg ht, toHandles_refs p hp hfit]
  dsimp only
  have hrun : p.run (fuel + 1) hp f ((Actual.dyn v :: as).map Actual.handle) =
      match p.impl f.body hp (ownObjects (.dyn v :: as) f.args) with
      | .error x => .error x
      | .ok (h2, r) => p.wrapRet h2 f.ret r := by
    generalize hq : (Actual.dyn v :: as).map Actual.handle = hs
    simp only [Prog.run]
    rw [← hq, bind_refs p (p.run fuel) hp hfit]
    dsimp only
    generalize p.impl f.body hp _ = q
    cases q <;> rfl
  rw [hrun]
  generalize p.impl f.body hp _ = q
  cases q with
  | error x => rfl
  | ok q => rfl

/-! ### operators that give back a value -/

/-- C74. `v op x…` runs the one operator of that name its class declares (or inherits), on the object of
    `v` and on the caller's own objects, in the memory as it is; the value handed back refers to the
    object the operator's result refers to, owns a fresh object with the contents of the object it
    returned, or is empty when it returns nothing. For operators whose parameters are lvalue references
    and arguments that fit them. -/
theorem C74_operator (p : Prog) (hcl : p.w.Closed) (hac : p.w.Acyclic) (fuel : Nat) (hp : Heap) (v : Handle)
    (hv : v.arg.type < p.w.n) (op : Name) (m : Member) (as : List Actual)
    (hlook : p.w.Nearest (fun d => d.fns.get op) v.arg.type [m.fn op])
    (hfit : RefsFit p (.dyn v :: as) m.params)
    (hvd : p.w.valueT ≠ p.w.voidT) (hret : m.ret.type ≠ p.w.valueT) :
    p.valueOp (fuel + 1) hp v op as =
      match p.impl m.body hp (.obj v.addr (!m.isConst) :: ownObjects as m.args) with
      | .error x => .error x
      | .ok (h2, r) => match p.wrapRet h2 m.ret r with
        | .error x => .error x
        | .ok (h3, u) => .ok (h3, some (.val u)) := by
  have hn := (C17_function_nearest p.w hcl hac v.arg.type hv op p.w.fuel (by unfold World.fuel; omega)).1
    [m.fn op]
  unfold Prog.valueOp
  rw [callMethod_refs p fuel hp v op (m.fn op) p.valueArg as (hn.2 hlook) hfit
    (by
      have : (m.fn op).ret = m.ret := rfl
      rw [this, testReturn_value p hvd m.ret hret]; simp)]
  have h1 : (m.fn op).body = m.body := rfl
  have h2 : (m.fn op).ret = m.ret := rfl
  have h3 : ownObjects (.dyn v :: as) (m.fn op).args =
      .obj v.addr (!m.isConst) :: ownObjects as m.args := rfl
  rw [h1, h2, h3]
  generalize p.impl m.body hp _ = q
  cases q with
  | error x => rfl
  | ok q =>
    dsimp only
    generalize p.wrapRet q.1 m.ret q.2 = s
    cases s with
    | error x => rfl
    | ok s =>
      dsimp only
      unfold Prog.retCast
      rw [if_neg (by exact hvd), castTo_dyn]

/-- C74. What the value handed back is: for an operator that returns a reference, such as `+=`, it is
    that very object, and nothing else happens. -/
theorem C74_reference_result (p : Prog) (h2 : Heap) (ret : Arg) (a : Nat) (hr : ret.ref = .lvalue) :
    p.wrapRet h2 ret (.obj a) = .ok (h2, ⟨ret, a, none⟩) := C67_lvalue_refers p h2 ret a hr

/-- C74. For an operator that returns an object, such as `+`, the value owns a fresh object with the
    contents of that object. -/
theorem C74_object_result (p : Prog) (h2 : Heap) (ret : Arg) (a : Nat) (hr : ret.ref ≠ .lvalue)
    (hcap : (p.caps ret.type).copyConstructible = true ∨
      (ret.isConst = false ∧ (p.caps ret.type).moveConstructible = true))
    (hok : h2.Ok a (p.size ret.type)) :
    ∃ h3 u, p.wrapRet h2 ret (.obj a) = .ok (h3, u) ∧ Stored p h2 h3 ret.type a u := by
  obtain ⟨h3, u, h4, h5, -⟩ := C67_temporary_stored p h2 ret a hr hcap hok
  exact ⟨h3, u, h4, h5⟩

/-- C74. An operator that is not declared const is refused to a const value and to an `rvalue()`, and the
    object is not touched: the call raises before anything runs. -/
theorem C74_const_refused (p : Prog) (hcl : p.w.Closed) (hac : p.w.Acyclic) (fuel : Nat) (hp : Heap)
    (v : Handle) (hv : v.arg.type < p.w.n) (op : Name) (m : Member) (as : List Actual) (want : Arg)
    (hlook : p.w.Nearest (fun d => d.fns.get op) v.arg.type [m.fn op])
    (hvt : v.arg.type ≠ p.w.valueT) (hmt : m.obj ≠ p.w.valueT)
    (hm : m.isConst = false) (hc : v.arg.isConst = true ∨ v.arg.ref ≠ .lvalue) :
    p.callMethod fuel hp v op want as = .error .err := by
  have hn := (C17_function_nearest p.w hcl hac v.arg.type hv op p.w.fuel (by unfold World.fuel; omega)).1
    [m.fn op]
  have ht : (m.fn op).test p.w.env want ((Actual.dyn v :: as).map Actual.arg) = .none := by
    refine Classical.byContradiction fun h => ?_
    have := (C73_receiver p.w.env (child_refl p.w) op m want v.arg (as.map Actual.arg) hvt hmt h).2.1 hm
    rcases hc with hc | hc
    · rw [this.2] at hc; cases hc
    · exact hc this.1
  unfold Prog.callMethod
  rw [hn.2 hlook]
  dsimp only
  unfold Prog.callOv
  rw [select_single, if_pos ht]

/-- C74. An operator the class neither declares nor inherits, or that was left out because it is
    overloaded, raises. -/
theorem C74_absent (p : Prog) (hcl : p.w.Closed) (hac : p.w.Acyclic) (fuel : Nat) (hp : Heap) (v : Handle)
    (hv : v.arg.type < p.w.n) (op : Name) (as : List Actual) (want : Arg)
    (h : ∀ k u, p.w.anc k v.arg.type = some u → (p.w.ty u).fns.get op = none) :
    p.callMethod fuel hp v op want as = .error .err := by
  have hn := (C17_function_nearest p.w hcl hac v.arg.type hv op p.w.fuel (by unfold World.fuel; omega)).2.1
  unfold Prog.callMethod
  rw [hn.1 h]

/-! ### operators that give back a bool -/

/-- C74. `v == x` and the other operators that answer with a `bool`, `(bool) v` among them: the one
    operator of that name runs on the object of `v` and the caller's own objects, and the answer is the
    `bool` it returned; nothing else of the memory it left changes. -/
theorem C74_bool (p : Prog) (hcl : p.w.Closed) (hac : p.w.Acyclic) (fuel : Nat) (hp : Heap) (v : Handle)
    (hv : v.arg.type < p.w.n) (op : Name) (m : Member) (boolT : Ty) (as : List Actual)
    (hlook : p.w.Nearest (fun d => d.fns.get op) v.arg.type [m.fn op])
    (hfit : RefsFit p (.dyn v :: as) m.params)
    (hret : m.ret = ⟨boolT, .copy, false⟩) (hplain : PlainCopy p boolT)
    (hconv : p.w.env.conv boolT boolT = false) (hsize : 0 < p.size boolT)
    (h2 : Heap) (a : Nat)
    (hbody : p.impl m.body hp (.obj v.addr (!m.isConst) :: ownObjects as m.args) = .ok (h2, .obj a))
    (hok : h2.Ok a (p.size boolT)) :
    ∃ h3, p.callBool boolT (fuel + 1) hp v op as = .ok (h3, h2.mem a ≠ 0) ∧
      ∀ x < h2.next, x < a ∨ a + p.size boolT ≤ x → h3.mem x = h2.mem x := by
  have hn := (C17_function_nearest p.w hcl hac v.arg.type hv op p.w.fuel (by unfold World.fuel; omega)).1
    [m.fn op]
  have hbv : boolT ≠ p.w.valueT := hplain.notValue
  obtain ⟨h3, u, hw, hst, -⟩ := C67_temporary_stored p h2 ⟨boolT, .copy, false⟩ a (by simp)
    (.inr ⟨rfl, hplain.movable⟩) hok
  obtain ⟨h4, b, hc, hfresh⟩ := castTo_copy_plain p ⟨boolT, .copy, false⟩ h3 u fuel rfl hplain hst.live
    (by rw [hst.arg]; exact ⟨hbv, child_refl p.w boolT, hconv, by simp⟩)
  refine ⟨h4, ?_, fun x hx hxa => ?_⟩
  · unfold Prog.callBool
    rw [callMethod_refs p fuel hp v op (m.fn op) ⟨boolT, .copy, false⟩ as (hn.2 hlook) hfit (by
      have : (m.fn op).ret = ⟨boolT, .copy, false⟩ := hret
      rw [this]
      unfold testReturn
      have hnv : boolT ≠ p.w.env.voidT := hplain.notVoid
      dsimp only
      rw [if_neg hnv, if_neg hnv, convertible_same, if_neg (by simp),
        if_neg (by simp [Arg.isConstRef])]
      simp)]
    have h1 : (m.fn op).body = m.body := rfl
    have h2' : (m.fn op).ret = m.ret := rfl
    have h3' : ownObjects (.dyn v :: as) (m.fn op).args =
        .obj v.addr (!m.isConst) :: ownObjects as m.args := rfl
    rw [h1, h2', h3', hbody, hret]
    dsimp only
    have hw' : p.wrapRet h2 ⟨boolT, .copy, false⟩ (.obj a) = .ok (h3, u) := hw
    rw [hw']
    dsimp only
    unfold Prog.retCast
    rw [if_neg hplain.notVoid, hc]
    have e1 := hfresh.same 0 hsize
    have e2 := hst.same 0 hsize
    simp only [Nat.add_zero] at e1 e2
    simp [e1, e2]
  · rw [hfresh.frame x (Nat.lt_of_lt_of_le hx hst.grow), hst.frame x hx hxa]

/-- C74. `!v` is what the class's own `operator!` says when it declares or inherits one, … -/
theorem C74_not_own (p : Prog) (hcl : p.w.Closed) (hac : p.w.Acyclic) (fuel : Nat) (hp : Heap) (v : Handle)
    (hv : v.arg.type < p.w.n) (boolT : Ty)
    (hown : ∃ k u, p.w.anc k v.arg.type = some u ∧ (p.w.ty u).fns.get (Spec.opName "!") ≠ none) :
    p.notOp boolT fuel hp v = p.callBool boolT fuel hp v (Spec.opName "!") [] := by
  have hs : Spec.opName "!" = "operator!".toList := by decide
  rw [hs] at hown ⊢
  generalize hop : "operator!".toList = op at hown ⊢
  have hn := C17_function_nearest p.w hcl hac v.arg.type hv op p.w.fuel (by unfold World.fuel; omega)
  have hh : p.w.hasFunctionF p.w.fuel v.arg.type op = .ok true := by
    rw [hn.2.2.1]
    cases hf : p.w.functionF p.w.fuel v.arg.type op with
    | ok o => exact ⟨o, rfl⟩
    | error x =>
      exfalso
      have hnd := nearestF_no_diverge (fun d => d.fns.get op) p.w.n v.arg.type
        p.w.fuel (anc_ends hcl hac v.arg.type hv) (by unfold World.fuel; omega)
      have h5 := nearestF_err _ _ _ _ hf (by rintro rfl; exact hnd hf)
      obtain ⟨k, u, h1, h2⟩ := hown
      exact h2 (h5.2 k u h1)
  unfold Prog.notOp
  rw [hop, hh]

/-- … and otherwise the negation of its conversion to `bool`; a class with neither has no `!`. -/
theorem C74_not_converted (p : Prog) (hcl : p.w.Closed) (hac : p.w.Acyclic) (fuel : Nat) (hp : Heap) (v : Handle)
    (hv : v.arg.type < p.w.n) (boolT : Ty)
    (hown : ∀ k u, p.w.anc k v.arg.type = some u → (p.w.ty u).fns.get (Spec.opName "!") = none) :
    (∀ h' b, p.asBool boolT fuel hp v = .ok (h', b) → p.notOp boolT fuel hp v = .ok (h', !b)) ∧
    (∀ x, p.asBool boolT fuel hp v = .error x → p.notOp boolT fuel hp v = .error x) ∧
    ((∀ k u, p.w.anc k v.arg.type = some u → (p.w.ty u).fns.get "operator bool()".toList = none) →
      p.notOp boolT fuel hp v = .error .err) := by
  have hs : Spec.opName "!" = "operator!".toList := by decide
  rw [hs] at hown
  generalize hop : "operator!".toList = op at hown
  have hn := C17_function_nearest p.w hcl hac v.arg.type hv op p.w.fuel (by unfold World.fuel; omega)
  have hh : p.w.hasFunctionF p.w.fuel v.arg.type op = .ok false := by
    rw [hn.2.2.2, ← hn.2.1]; exact hown
  have h0 : p.notOp boolT fuel hp v = match p.asBool boolT fuel hp v with
      | .error x => .error x
      | .ok (hp', b) => .ok (hp', !b) := by
    unfold Prog.notOp
    rw [hop, hh]
    dsimp only
    generalize p.asBool boolT fuel hp v = q
    cases q <;> rfl
  refine ⟨fun h' b h => by rw [h0, h], fun x h => by rw [h0, h], fun h => ?_⟩
  have : p.asBool boolT fuel hp v = .error .err := by
    unfold Prog.asBool Prog.callBool
    rw [C74_absent p hcl hac fuel hp v hv _ [] _ h]
  rw [h0, this]

/-! ### a concrete case -/

namespace OpsDemo

/-- `Num& operator+=(const Num&)`, `bool operator==(const Num&) const`, `operator bool() const` -/
def plusAssign : Member := ⟨2, ⟨2, .lvalue, false⟩, false, [⟨2, .lvalue, true⟩], 10⟩
def equal : Member := ⟨2, ⟨4, .copy, false⟩, true, [⟨2, .lvalue, true⟩], 11⟩
def toBool : Member := ⟨2, ⟨4, .copy, false⟩, true, [], 12⟩

def impl : Nat → Heap → List BArg → Res (Heap × BRet)
  | 1, hp, [.obj a _] => (hp.copyObj 1 a).map fun r => (r.1, .obj r.2)
  | 3, hp, [.obj a _] => (hp.moveObj (fun x => x) 1 a).map fun r => (r.1, .obj r.2)
  | 10, hp, [.obj a true, .obj b _] => .ok
    ({ hp with mem := fun x => if x = a then hp.mem a + hp.mem b else hp.mem x }, .obj a)
  | 11, hp, [.obj a _, .obj b _] => .ok
    ({ mem := fun x => if x = hp.next then (if hp.mem a = hp.mem b then 1 else 0) else hp.mem x, next := hp.next + 2 },
      .obj hp.next)
  | 12, hp, [.obj a _] => .ok
    ({ mem := fun x => if x = hp.next then (if hp.mem a = 0 then 0 else 1) else hp.mem x, next := hp.next + 2 },
      .obj hp.next)
  | _, _, _ => .error .ub

/-- 0 void, 1 Value, 2 Num, 3 a child of Num, 4 bool -/
def world : World :=
  { n := 5, voidT := 0, valueT := 1
    ty := fun t => match t with
      | 0 => TypeD.new "void".toList
      | 1 => TypeD.new "Value".toList
      | 2 => { TypeD.new "Num".toList with
          fns := [(Spec.opName "+=", [plusAssign.fn (Spec.opName "+=")]),
            (Spec.opName "==", [equal.fn (Spec.opName "==")]),
            ("operator bool()".toList, [toBool.fn "operator bool()".toList])] }
      | 3 => { TypeD.new "Sub".toList with parent := some 2 }
      | _ => { TypeD.new "bool".toList with
          fns := [("bool".toList, plumbedConstructors 4 "bool".toList ⟨true, true, true, true, true⟩)] } }

def prog : Prog :=
  { w := world, size := fun _ => 1, caps := fun _ => ⟨true, true, true, true, true⟩
    moved := fun _ x => x, junk := .copy, impl := impl }

/-- an object of the child at 1, a `Num` at 2 -/
def heap : Heap := { mem := fun a => if a = 1 then 7 else if a = 2 then 8 else 0, next := 5 }
def sub : Handle := ⟨⟨3, .lvalue, false⟩, 1, none⟩
def num : Handle := ⟨⟨2, .lvalue, true⟩, 2, none⟩

theorem fits : RefsFit prog [.dyn sub, .dyn num] plusAssign.params :=
  .cons ⟨rfl, by decide, by decide, by decide, by decide, by intro _ _ h; cases h⟩
    (.cons ⟨rfl, by decide, by decide, by decide, by decide, by intro _ _ h; cases h⟩ .nil)

theorem looks : prog.w.Nearest (fun d => d.fns.get (Spec.opName "+=")) sub.arg.type
    [plusAssign.fn (Spec.opName "+=")] := by
  refine ⟨1, 2, by decide, by decide, ?_⟩
  intro j hj v hv
  have : j = 0 := by omega
  subst this
  simp only [World.anc, Option.some.injEq] at hv
  subst hv
  decide

/-- `sub += num` adds 8 to the object of `sub` and gives back a value that refers to it -/
example : (match prog.valueOp 1 heap sub (Spec.opName "+=") [.dyn num] with
    | .ok (hp, some (.val u)) => decide (hp.mem 1 = 15 ∧ u.addr = 1 ∧ u.arg = ⟨2, .lvalue, false⟩)
    | _ => false) = true := by decide +kernel
/-- `sub == num` is false, `sub == sub` true, `!num` false -/
example : (match prog.boolOp 4 2 heap sub (Spec.opName "==") (.dyn num),
      prog.boolOp 4 2 heap sub (Spec.opName "==") (.dyn sub), prog.notOp 4 2 heap num with
    | .ok (_, a), .ok (_, b), .ok (_, c) => !a && b && !c
    | _, _, _ => false) = true := by decide +kernel
/-- `num += sub` is refused: `num` is const -/
example : (match prog.valueOp 2 heap num (Spec.opName "+=") [.dyn sub] with
    | .error .err => true
    | _ => false) = true := by decide +kernel

/-- `bool` is plumbed, hence plainly copied -/
theorem plainBool : PlainCopy prog 4 := by
  refine (C32_plumbed prog 4 ⟨true, true, true, true, true⟩ [] (by decide) (by decide) (by decide)
    rfl rfl rfl (by decide) (by decide) (by simp) ?_ ?_).1
  · intro hp a m h; rfl
  · intro hp a m h; rfl

end OpsDemo

end Reflect

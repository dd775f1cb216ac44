import Verif.Props.ValueOps
import Verif.Props.Temporaries
/-
  Property C74, for operators with parameters of every kind: references, `Value`s and parameters by value.
-/
namespace Reflect
open World

/-- `v.call<want>(op, args...)`, where the class of `v` has the one function `m` of that name -/
theorem member_call (p : Prog) (hcl : p.w.Closed) (hac : p.w.Acyclic) (fuel : Nat) (hp hp' : Heap) (v : Handle)
    (hv : v.arg.type < p.w.n) (op : Name) (m : Member) (as : List Actual) (out : Option BArg) (want : Arg)
    (hlook : p.w.Nearest (fun d => d.fns.get op) v.arg.type [m.fn op])
    (hst : Storable p hp as) (hap : Apart p as) (hs : ∀ x ∈ as.zip m.args, AnyActual p hp x.1 x.2)
    (h : p.callMethod (fuel + 2) hp v op want as = .ok (hp', out)) :
    ∃ (hv : Heap) (vs : List Handle) (h1 : Heap) (bs : List BArg) (h2 : Heap) (r : BRet) (h3 : Heap) (u : Handle),
      as.length = m.args.length ∧ vs.length = as.length ∧ bs.length = m.args.length ∧
      (∀ i (ha : i < as.length) (hb : i < vs.length), Handed p hp hv as[i] vs[i]) ∧
      hp.next ≤ hv.next ∧
      (∀ x < hp.next, (∀ y ∈ as, ∀ arg a, y.IsTemp arg a → x < a ∨ a + p.size arg.type ≤ x) →
        h1.mem x = hp.mem x) ∧
      (∀ x < hv.next, h1.mem x = hv.mem x) ∧
      (∀ i (ha : i < vs.length) (ht : i < m.args.length) (hb : i < bs.length),
        Sees p hv h1 vs[i] m.args[i] bs[i]) ∧
      p.impl m.body h1 (.obj v.addr (!m.isConst) :: bs) = .ok (h2, r) ∧
      p.wrapRet h2 m.ret r = .ok (h3, u) ∧ p.retCast (p.run (fuel + 2)) h3 u want = .ok (hp', out) := by
  have hn := (C17_function_nearest p.w hcl hac v.arg.type hv op p.w.fuel (by unfold World.fuel; omega)).1
    [m.fn op]
  unfold Prog.callMethod at h
  rw [hn.2 hlook] at h
  dsimp only at h
  unfold Prog.callOv at h
  rw [select_single] at h
  split at h
  · cases h
  rename_i f hsel
  split at hsel
  · cases hsel
  injection hsel with hsel
  subst hsel
  have notemp : ∀ arg a, ¬ (Actual.dyn v).IsTemp arg a := by rintro arg a ⟨h1, _⟩; cases h1
  have hargs : (m.fn op).args = ⟨m.obj, .lvalue, m.isConst⟩ :: m.args := rfl
  obtain ⟨hw, vs, h1, bs, h2, r, e1, e2, e3, e4, e5, e6, e7, e8, e9, h3, u, e10, e11⟩ :=
    C68_call_temporaries p fuel hp hp' (m.fn op) want (.dyn v :: as) out
      (by
        intro x hx arg a ht
        rcases List.mem_cons.mp hx with rfl | hx
        · exact absurd ht (notemp _ _)
        · exact hst x hx arg a ht)
      (List.pairwise_cons.mpr ⟨fun y _ arg a arg' a' ht => absurd ht (notemp _ _), hap⟩)
      (by
        intro x hx
        rw [hargs, List.zip_cons_cons] at hx
        rcases List.mem_cons.mp hx with rfl | hx
        · exact .ref _ _ rfl
        · exact hs x hx) h
  rw [hargs, List.length_cons, List.length_cons, Nat.add_right_cancel_iff] at e1
  rw [hargs, List.length_cons] at e3
  obtain ⟨v', vs, rfl⟩ : ∃ v' vs', vs = v' :: vs' := by
    cases vs with
    | nil => cases e2
    | cons x l => exact ⟨x, l, rfl⟩
  obtain ⟨b, bs, rfl⟩ : ∃ b bs', bs = b :: bs' := by
    cases bs with
    | nil => cases e3
    | cons x l => exact ⟨x, l, rfl⟩
  have hv' : v' = v := by
    have := e4 0 (by simp) (by simp)
    simp only [List.getElem_cons_zero] at this
    cases this; rfl
  subst hv'
  have hb : b = .obj v'.addr (!m.isConst) := by
    have := e8 0 (by simp) (by rw [hargs]; simp) (by simp)
    simpa [Sees, hargs] using this
  subst hb
  refine ⟨hw, vs, h1, bs, h2, r, h3, u, e1, by simpa using e2, by simpa using e3, ?_, e5, ?_, e7, ?_, e9, e10, e11⟩
  · intro i ha hb
    have := e4 (i + 1) (by simpa using ha) (by simpa using hb)
    simpa using this
  · intro x hx hz
    refine e6 x hx fun y hy arg a ht => ?_
    rcases List.mem_cons.mp hy with rfl | hy
    · exact absurd ht (notemp _ _)
    · exact hz y hy arg a ht
  · intro i ha ht hb
    have := e8 (i + 1) (by simpa using ha) (by rw [hargs]; simpa using ht) (by simpa using hb)
    simpa [hargs] using this

/-- C74. `v op x`, whatever the parameters of the operator - references, `Value`s, plainly copied objects by value - and
    whatever mix of `Value`s, lvalues and temporaries they are given: when it succeeds, the operator of that name its
    class declares, or inherits from the closest ancestor, has run once, on the very object of `v` - const when the
    operator is - and on the arguments in order, each handed over as in C68; nothing that existed had changed by then
    but the temporaries moved from; and the value handed back is the one made of what the operator returned. -/
theorem C74_any_arguments (p : Prog) (hcl : p.w.Closed) (hac : p.w.Acyclic) (fuel : Nat) (hp hp' : Heap) (v : Handle)
    (hv : v.arg.type < p.w.n) (op : Name) (m : Member) (as : List Actual) (out : Option BArg)
    (hlook : p.w.Nearest (fun d => d.fns.get op) v.arg.type [m.fn op])
    (hst : Storable p hp as) (hap : Apart p as) (hs : ∀ x ∈ as.zip m.args, AnyActual p hp x.1 x.2)
    (hvd : p.w.valueT ≠ p.w.voidT)
    (h : p.valueOp (fuel + 2) hp v op as = .ok (hp', out)) :
    ∃ (hv : Heap) (vs : List Handle) (h1 : Heap) (bs : List BArg) (h2 : Heap) (r : BRet) (u : Handle),
      as.length = m.args.length ∧ vs.length = as.length ∧ bs.length = m.args.length ∧
      (∀ i (ha : i < as.length) (hb : i < vs.length), Handed p hp hv as[i] vs[i]) ∧
      hp.next ≤ hv.next ∧
      (∀ x < hp.next, (∀ y ∈ as, ∀ arg a, y.IsTemp arg a → x < a ∨ a + p.size arg.type ≤ x) →
        h1.mem x = hp.mem x) ∧
      (∀ x < hv.next, h1.mem x = hv.mem x) ∧
      (∀ i (ha : i < vs.length) (ht : i < m.args.length) (hb : i < bs.length),
        Sees p hv h1 vs[i] m.args[i] bs[i]) ∧
      p.impl m.body h1 (.obj v.addr (!m.isConst) :: bs) = .ok (h2, r) ∧
      p.wrapRet h2 m.ret r = .ok (hp', u) ∧ out = some (.val u) := by
  obtain ⟨hw, vs, h1, bs, h2, r, h3, u, e1, e2, e3, e4, e5, e6, e7, e8, e9, e10, e11⟩ :=
    member_call p hcl hac fuel hp hp' v hv op m as out p.valueArg hlook hst hap hs h
  unfold Prog.retCast at e11
  rw [if_neg (by exact hvd), castTo_dyn] at e11
  simp only [Except.ok.injEq, Prod.mk.injEq] at e11
  obtain ⟨rfl, rfl⟩ := e11
  exact ⟨hw, vs, h1, bs, h2, r, u, e1, e2, e3, e4, e5, e6, e7, e8, e9, e10, rfl⟩

/-- C74. Likewise for `v == x` and the other operators that answer with a `bool`: the answer is the `bool` the operator
    returned. -/
theorem C74_any_bool (p : Prog) (hcl : p.w.Closed) (hac : p.w.Acyclic) (fuel : Nat) (hp hp' : Heap) (v : Handle)
    (hv : v.arg.type < p.w.n) (op : Name) (m : Member) (boolT : Ty) (as : List Actual) (answer : Bool)
    (hlook : p.w.Nearest (fun d => d.fns.get op) v.arg.type [m.fn op])
    (hst : Storable p hp as) (hap : Apart p as) (hs : ∀ x ∈ as.zip m.args, AnyActual p hp x.1 x.2)
    (hret : m.ret = ⟨boolT, .copy, false⟩) (hplain : PlainCopy p boolT)
    (hconv : p.w.env.conv boolT boolT = false) (hsize : 0 < p.size boolT)
    (h : p.callBool boolT (fuel + 2) hp v op as = .ok (hp', answer)) :
    ∃ (hv : Heap) (vs : List Handle) (h1 : Heap) (bs : List BArg) (h2 : Heap) (r : BRet),
      as.length = m.args.length ∧ vs.length = as.length ∧ bs.length = m.args.length ∧
      (∀ i (ha : i < as.length) (hb : i < vs.length), Handed p hp hv as[i] vs[i]) ∧
      hp.next ≤ hv.next ∧
      (∀ x < hp.next, (∀ y ∈ as, ∀ arg a, y.IsTemp arg a → x < a ∨ a + p.size arg.type ≤ x) →
        h1.mem x = hp.mem x) ∧
      (∀ x < hv.next, h1.mem x = hv.mem x) ∧
      (∀ i (ha : i < vs.length) (ht : i < m.args.length) (hb : i < bs.length),
        Sees p hv h1 vs[i] m.args[i] bs[i]) ∧
      p.impl m.body h1 (.obj v.addr (!m.isConst) :: bs) = .ok (h2, r) ∧
      ∀ a, r = .obj a → h2.Ok a (p.size boolT) → answer = (h2.mem a ≠ 0) ∧
        ∀ x < h2.next, x < a ∨ a + p.size boolT ≤ x → hp'.mem x = h2.mem x := by
  have hbv : boolT ≠ p.w.valueT := hplain.notValue
  unfold Prog.callBool at h
  split at h
  · cases h
  case h_3 => cases h
  rename_i h4 b c hc
  simp only [Except.ok.injEq, Prod.mk.injEq] at h
  obtain ⟨rfl, rfl⟩ := h
  obtain ⟨hw, vs, h1, bs, h2, r, h3, u, e1, e2, e3, e4, e5, e6, e7, e8, e9, e10, e11⟩ :=
    member_call p hcl hac fuel hp h4 v hv op m as (some (.obj b c)) ⟨boolT, .copy, false⟩ hlook hst hap hs hc
  refine ⟨hw, vs, h1, bs, h2, r, e1, e2, e3, e4, e5, e6, e7, e8, e9, ?_⟩
  intro a hr hok
  subst hr
  obtain ⟨h3', u', w1, w2, -⟩ := C67_temporary_stored p h2 ⟨boolT, .copy, false⟩ a (by simp)
    (.inr ⟨rfl, hplain.movable⟩) hok
  have : p.wrapRet h2 m.ret (.obj a) = .ok (h3', u') := by rw [hret]; exact w1
  rw [this] at e10
  simp only [Except.ok.injEq, Prod.mk.injEq] at e10
  obtain ⟨rfl, rfl⟩ := e10
  obtain ⟨h5, b', k1, k2⟩ := castTo_copy_plain p ⟨boolT, .copy, false⟩ h3' u' (fuel + 1) rfl hplain w2.live
    (by rw [w2.arg]; exact ⟨hbv, child_refl p.w boolT, hconv, by simp⟩)
  unfold Prog.retCast at e11
  rw [if_neg hplain.notVoid, k1] at e11
  simp only [Except.ok.injEq, Prod.mk.injEq, Option.some.injEq, BArg.obj.injEq] at e11
  obtain ⟨rfl, rfl, rfl⟩ := e11
  constructor
  · have e1 := k2.same 0 hsize
    have e2 := w2.same 0 hsize
    simp only [Nat.add_zero] at e1 e2
    simp [e1, e2]
  · intro x hx hxa
    rw [k2.frame x (Nat.lt_of_lt_of_le hx w2.grow), w2.frame x hx hxa]

/-! ### a concrete case -/

namespace OpArgsDemo

/-- `Num& operator<<=(bool)`: the parameter is a copy -/
def shift : Member := ⟨2, ⟨2, .lvalue, false⟩, false, [⟨4, .copy, false⟩], 13⟩

def impl : Nat → Heap → List BArg → Res (Heap × BRet)
  | 1, hp, [.obj a _] => (hp.copyObj 1 a).map fun r => (r.1, .obj r.2)
  | 3, hp, [.obj a _] => (hp.moveObj (fun x => x) 1 a).map fun r => (r.1, .obj r.2)
  | 13, hp, [.obj a true, .obj b true] => .ok
    ({ hp with mem := fun x => if x = a then hp.mem a * 2 + hp.mem b else if x = b then 9 else hp.mem x }, .obj a)
  | _, _, _ => .error .ub

/-- 0 void, 1 Value, 2 Num, 3 a child of Num, 4 bool -/
def world : World :=
  { n := 5, voidT := 0, valueT := 1
    ty := fun t => match t with
      | 0 => TypeD.new "void".toList
      | 1 => TypeD.new "Value".toList
      | 2 => { TypeD.new "Num".toList with fns := [(Spec.opName "<<=", [shift.fn (Spec.opName "<<=")])] }
      | 3 => { TypeD.new "Sub".toList with parent := some 2 }
      | _ => { TypeD.new "bool".toList with
          fns := [("bool".toList, plumbedConstructors 4 "bool".toList ⟨true, true, true, true, true⟩)] } }

def prog : Prog :=
  { w := world, size := fun _ => 1, caps := fun _ => ⟨true, true, true, true, true⟩
    moved := fun _ x => x, junk := .copy, impl := impl }

/-- an object of the child at 1, a `bool` at 3 -/
def heap : Heap := { mem := fun a => if a = 1 then 7 else if a = 3 then 1 else 0, next := 5 }
def sub : Handle := ⟨⟨3, .lvalue, false⟩, 1, none⟩
def bit : Actual := .native ⟨4, .lvalue, true⟩ 3

theorem plainBool : PlainCopy prog 4 := by
  refine (C32_plumbed prog 4 ⟨true, true, true, true, true⟩ [] (by decide) (by decide) (by decide)
    rfl rfl rfl (by decide) (by decide) (by simp) ?_ ?_).1
  · intro hp a m h; rfl
  · intro hp a m h; rfl

theorem edges (a b : Ty) (h : prog.w.Edge a b) : a = 3 ∧ b = 2 := by
  have hpar : ∀ a b, (world.ty a).parent = some b → a = 3 ∧ b = 2 := by
    intro a b
    unfold world
    dsimp only
    split <;> intro h <;> simp_all [TypeD.new]
  have hp : ∀ a, (world.ty a).ptr = none := by
    intro a
    unfold world
    dsimp only
    split <;> simp_all [TypeD.new]
  rcases h with h | ⟨k, h⟩
  · exact hpar a b h
  · have h : (world.ty a).ptr = some (k, b) := h
    rw [hp a] at h; cases h

theorem closed : prog.w.Closed ∧ prog.w.Acyclic := by
  have hr : ∀ a b, prog.w.Reach a b → b < a := by
    intro a b h
    induction h with
    | edge h => obtain ⟨rfl, rfl⟩ := edges _ _ h; decide
    | step h _ ih => obtain ⟨rfl, rfl⟩ := edges _ _ h; exact Nat.lt_trans ih (by decide)
  refine ⟨?_, fun a h => Nat.lt_irrefl _ (hr a a h)⟩
  intro a b _ h
  obtain ⟨rfl, rfl⟩ := edges a b h
  decide

theorem looks : prog.w.Nearest (fun d => d.fns.get (Spec.opName "<<=")) sub.arg.type [shift.fn (Spec.opName "<<=")] := by
  refine ⟨1, 2, by decide, by decide, fun j hj v hv => ?_⟩
  obtain rfl : j = 0 := by omega
  simp only [World.anc, Option.some.injEq] at hv
  subst hv
  decide

/-- the hypotheses of `C74_any_arguments` -/
theorem given : Storable prog heap [bit] ∧ Apart prog [bit] ∧
    (∀ x ∈ [bit].zip shift.args, AnyActual prog heap x.1 x.2) ∧ prog.w.valueT ≠ prog.w.voidT := by
  have notemp : ∀ arg a, ¬ bit.IsTemp arg a := by
    rintro arg a ⟨h1, h2⟩; cases h1; exact h2 rfl
  refine ⟨fun x hx arg a h => ?_, by simp [Apart], fun x hx => ?_, by decide⟩
  · rw [List.mem_singleton] at hx; subst hx; exact absurd h (notemp arg a)
  · simp only [shift, List.zip_cons_cons, List.zip_nil_left, List.mem_singleton] at hx
    subst hx
    exact .byValue _ _ rfl plainBool (by decide) notemp ⟨by decide, by decide, by decide, by decide⟩

/-- `sub <<= bit` changes the object of `sub` and no caller's `bool`, although the body overwrites its parameter -/
example : (match prog.valueOp 2 heap sub (Spec.opName "<<=") [bit] with
    | .ok (hp, some (.val u)) => decide (hp.mem 1 = 15 ∧ hp.mem 3 = 1 ∧ u.addr = 1 ∧ u.arg = ⟨2, .lvalue, false⟩)
    | _ => false) = true := by decide +kernel

end OpArgsDemo

end Reflect

import Verif.Props.OperatorArgs
import Verif.Props.Overloads
import Verif.Props.Callable
/-
  Property C68, for `Value::call<Ret>(name, args...)`: look-up, choice of the overload and call together; likewise
  for `Type::call` and, property C80, `Type::construct`.
-/
namespace Reflect
open World

theorem choose_mem (g : Fn → Match) (o : Overloads) (f : Fn) (h : Spec.choose g o = some f) : f ∈ o := by
  unfold Spec.choose at h
  split at h
  · rename_i f' l hl
    cases h
    exact (List.mem_filter.mp (by rw [hl]; simp : f ∈ o.filter _)).1
  · split at h
    · rename_i f' hl
      cases h
      exact (List.mem_filter.mp (by rw [hl]; simp : f ∈ o.filter _)).1
    · cases h

/-- C68. `v.call<Ret>(name, args...)`, when it succeeds: the overloads of that name are those of the class of `v` or of
    the closest ancestor that has any; one of them is the one the rules of C27 choose for the arguments, `v` itself
    first; and the call of that one went as C68 says. -/
theorem C68_method (p : Prog) (hcl : p.w.Closed) (hac : p.w.Acyclic) (fuel : Nat) (hp hp' : Heap) (v : Handle)
    (hv : v.arg.type < p.w.n) (name : Name) (want : Arg) (as : List Actual) (out : Option BArg)
    (hst : Storable p hp as) (hap : Apart p as)
    (hs : ∀ o f, p.w.Nearest (fun d => d.fns.get name) v.arg.type o →
      Spec.choose (fun f => f.test p.w.env want (v.arg :: as.map Actual.arg)) o = some f →
      ∀ x ∈ (.dyn v :: as).zip f.args, AnyActual p hp x.1 x.2)
    (h : p.callMethod (fuel + 2) hp v name want as = .ok (hp', out)) :
    ∃ o f, p.w.Nearest (fun d => d.fns.get name) v.arg.type o ∧
      Spec.choose (fun f => f.test p.w.env want (v.arg :: as.map Actual.arg)) o = some f ∧
    ∃ (hv : Heap) (vs : List Handle) (h1 : Heap) (bs : List BArg) (h2 : Heap) (r : BRet),
      as.length + 1 = f.args.length ∧ vs.length = as.length ∧ bs.length = f.args.length ∧
      (∀ i (ha : i < as.length) (hb : i < vs.length), Handed p hp hv as[i] vs[i]) ∧
      hp.next ≤ hv.next ∧
      (∀ x < hp.next, (∀ y ∈ as, ∀ arg a, y.IsTemp arg a → x < a ∨ a + p.size arg.type ≤ x) →
        h1.mem x = hp.mem x) ∧
      (∀ x < hv.next, h1.mem x = hv.mem x) ∧
      (∀ i (ha : i < (v :: vs).length) (ht : i < f.args.length) (hb : i < bs.length),
        Sees p hv h1 (v :: vs)[i] f.args[i] bs[i]) ∧
      p.impl f.body h1 bs = .ok (h2, r) ∧
      ∃ h3 u, p.wrapRet h2 f.ret r = .ok (h3, u) ∧
        p.retCast (p.run (fuel + 2)) h3 u want = .ok (hp', out) := by
  have hn := (C17_function_nearest p.w hcl hac v.arg.type hv name p.w.fuel (by unfold World.fuel; omega)).1
  unfold Prog.callMethod at h
  split at h
  · cases h
  rename_i o hlook
  have hnear := (hn o).1 hlook
  unfold Prog.callOv at h
  split at h
  · cases h
  rename_i f hsel
  rw [C27_select] at hsel
  have hmap : (Actual.dyn v :: as).map Actual.arg = v.arg :: as.map Actual.arg := rfl
  rw [hmap] at hsel
  have hchosen : Spec.choose (fun f => f.test p.w.env want (v.arg :: as.map Actual.arg)) o = some f := by
    cases hc : Spec.choose (fun f => f.test p.w.env want (v.arg :: as.map Actual.arg)) o with
    | none => rw [hc] at hsel; cases hsel
    | some g => rw [hc] at hsel; simp only [Except.ok.injEq] at hsel; rw [hsel]
  refine ⟨o, f, hnear, hchosen, ?_⟩
  have notemp : ∀ arg a, ¬ (Actual.dyn v).IsTemp arg a := by rintro arg a ⟨h1, _⟩; cases h1
  obtain ⟨hw, vs, h1, bs, h2, r, e1, e2, e3, e4, e5, e6, e7, e8, e9, h3, u, e10, e11⟩ :=
    C68_call_temporaries p fuel hp hp' f want (.dyn v :: as) out
      (by
        intro x hx arg a ht
        rcases List.mem_cons.mp hx with rfl | hx
        · exact absurd ht (notemp _ _)
        · exact hst x hx arg a ht)
      (List.pairwise_cons.mpr ⟨fun y _ arg a arg' a' ht => absurd ht (notemp _ _), hap⟩)
      (hs o f hnear hchosen) h
  obtain ⟨v', vs, rfl⟩ : ∃ v' vs', vs = v' :: vs' := by
    cases vs with
    | nil => cases e2
    | cons x l => exact ⟨x, l, rfl⟩
  have hv' : v' = v := by
    have := e4 0 (by simp) (by simp)
    simp only [List.getElem_cons_zero] at this
    cases this; rfl
  subst hv'
  refine ⟨hw, vs, h1, bs, h2, r, e1, by simpa using e2, e3, ?_, e5, ?_, e7, e8, e9, h3, u, e10, e11⟩
  · intro i ha hb
    have := e4 (i + 1) (by simpa using ha) (by simpa using hb)
    simpa using this
  · intro x hx hz
    refine e6 x hx fun y hy arg a ht => ?_
    rcases List.mem_cons.mp hy with rfl | hy
    · exact absurd ht (notemp _ _)
    · exact hz y hy arg a ht

/-- C68. And it raises, before anything is stored or runs, when neither the class nor an ancestor has a function of that
    name, or when the rules choose none. -/
theorem C68_method_refused (p : Prog) (hcl : p.w.Closed) (hac : p.w.Acyclic) (fuel : Nat) (hp : Heap) (v : Handle)
    (hv : v.arg.type < p.w.n) (name : Name) (want : Arg) (as : List Actual)
    (h : ∀ o, p.w.Nearest (fun d => d.fns.get name) v.arg.type o →
      Spec.choose (fun f => f.test p.w.env want (v.arg :: as.map Actual.arg)) o = none) :
    p.callMethod fuel hp v name want as = .error .err := by
  have hn := C17_function_nearest p.w hcl hac v.arg.type hv name p.w.fuel (by unfold World.fuel; omega)
  unfold Prog.callMethod
  cases hl : p.w.functionF p.w.fuel v.arg.type name with
  | error x =>
    have hnd := nearestF_no_diverge (fun d => d.fns.get name) p.w.n v.arg.type p.w.fuel (anc_ends hcl hac v.arg.type hv)
      (by unfold World.fuel; omega)
    rw [(nearestF_err _ _ _ _ hl (by rintro rfl; exact hnd hl)).1]
  | ok o =>
    dsimp only
    unfold Prog.callOv
    have hmap : (Actual.dyn v :: as).map Actual.arg = v.arg :: as.map Actual.arg := rfl
    rw [C27_select, hmap, h o ((hn.1 o).1 hl)]

/-- C68. `type->call<Ret>(name, args...)`, when it succeeds: as C68_method, without an object. -/
theorem C68_type_call (p : Prog) (hcl : p.w.Closed) (hac : p.w.Acyclic) (fuel : Nat) (hp hp' : Heap) (t : Ty)
    (ht : t < p.w.n) (name : Name) (want : Arg) (as : List Actual) (out : Option BArg)
    (hst : Storable p hp as) (hap : Apart p as)
    (hs : ∀ o f, p.w.Nearest (fun d => d.fns.get name) t o →
      Spec.choose (fun f => f.test p.w.env want (as.map Actual.arg)) o = some f → ∀ x ∈ as.zip f.args, AnyActual p hp x.1 x.2)
    (h : p.typeCall (fuel + 2) hp t name want as = .ok (hp', out)) :
    ∃ o f, p.w.Nearest (fun d => d.fns.get name) t o ∧
      Spec.choose (fun f => f.test p.w.env want (as.map Actual.arg)) o = some f ∧
    ∃ (hv : Heap) (vs : List Handle) (h1 : Heap) (bs : List BArg) (h2 : Heap) (r : BRet),
      as.length = f.args.length ∧ vs.length = as.length ∧ bs.length = f.args.length ∧
      (∀ i (ha : i < as.length) (hb : i < vs.length), Handed p hp hv as[i] vs[i]) ∧
      hp.next ≤ hv.next ∧
      (∀ x < hp.next, (∀ y ∈ as, ∀ arg a, y.IsTemp arg a → x < a ∨ a + p.size arg.type ≤ x) →
        h1.mem x = hp.mem x) ∧
      (∀ x < hv.next, h1.mem x = hv.mem x) ∧
      (∀ i (ha : i < vs.length) (ht : i < f.args.length) (hb : i < bs.length),
        Sees p hv h1 vs[i] f.args[i] bs[i]) ∧
      p.impl f.body h1 bs = .ok (h2, r) ∧
      ∃ h3 u, p.wrapRet h2 f.ret r = .ok (h3, u) ∧
        p.retCast (p.run (fuel + 2)) h3 u want = .ok (hp', out) := by
  have hn := (C17_function_nearest p.w hcl hac t ht name p.w.fuel (by unfold World.fuel; omega)).1
  unfold Prog.typeCall at h
  split at h
  · cases h
  rename_i o hlook
  have hnear := (hn o).1 hlook
  unfold Prog.callOv at h
  split at h
  · cases h
  rename_i f hsel
  rw [C27_select] at hsel
  have hchosen : Spec.choose (fun f => f.test p.w.env want (as.map Actual.arg)) o = some f := by
    cases hc : Spec.choose (fun f => f.test p.w.env want (as.map Actual.arg)) o with
    | none => rw [hc] at hsel; cases hsel
    | some g => rw [hc] at hsel; simp only [Except.ok.injEq] at hsel; rw [hsel]
  refine ⟨o, f, hnear, hchosen, ?_⟩
  exact C68_call_temporaries p fuel hp hp' f want as out hst hap (hs o f hnear hchosen) h

/-- C80. `type->construct(args...)`, when it succeeds: the constructors are the functions named like the type, on it or
    the closest ancestor that has any; the one the rules of C27 choose has run on the arguments, in order and each handed
    over as in C68; and the value returned is made of what it returned. If that is an object, by value and of a type that
    can be copied or moved, the value owns a fresh object with its contents. -/
theorem C80_constructed (p : Prog) (hcl : p.w.Closed) (hac : p.w.Acyclic) (fuel : Nat) (hp hp' : Heap) (t : Ty)
    (ht : t < p.w.n) (as : List Actual) (out : Option BArg) (hd : p.w.valueT ≠ p.w.voidT)
    (hst : Storable p hp as) (hap : Apart p as)
    (hs : ∀ o f, p.w.Nearest (fun d => d.fns.get (p.w.ty t).id) t o →
      Spec.choose (fun f => f.test p.w.env p.valueArg (as.map Actual.arg)) o = some f → ∀ x ∈ as.zip f.args, AnyActual p hp x.1 x.2)
    (h : p.constructWith (fuel + 2) hp t as = .ok (hp', out)) :
    ∃ o f, p.w.Nearest (fun d => d.fns.get (p.w.ty t).id) t o ∧
      Spec.choose (fun f => f.test p.w.env p.valueArg (as.map Actual.arg)) o = some f ∧
    ∃ (hv : Heap) (vs : List Handle) (h1 : Heap) (bs : List BArg) (h2 : Heap) (r : BRet) (u : Handle),
      as.length = f.args.length ∧ vs.length = as.length ∧ bs.length = f.args.length ∧
      (∀ i (ha : i < as.length) (hb : i < vs.length), Handed p hp hv as[i] vs[i]) ∧
      (∀ x < hp.next, (∀ y ∈ as, ∀ arg a, y.IsTemp arg a → x < a ∨ a + p.size arg.type ≤ x) →
        h1.mem x = hp.mem x) ∧
      (∀ x < hv.next, h1.mem x = hv.mem x) ∧
      (∀ i (ha : i < vs.length) (ht : i < f.args.length) (hb : i < bs.length),
        Sees p hv h1 vs[i] f.args[i] bs[i]) ∧
      p.impl f.body h1 bs = .ok (h2, r) ∧ p.wrapRet h2 f.ret r = .ok (hp', u) ∧ out = some (.val u) ∧
      ∀ a, r = .obj a → f.ret.ref ≠ .lvalue → h2.Ok a (p.size f.ret.type) →
        ((p.caps f.ret.type).copyConstructible = true ∨
          (f.ret.isConst = false ∧ (p.caps f.ret.type).moveConstructible = true)) →
        Stored p h2 hp' f.ret.type a u := by
  obtain ⟨o, f, w1, w2, hv, vs, h1, bs, h2, r, e1, e2, e3, e4, e5, e6, e7, e8, e9, h3, u, e10, e11⟩ :=
    C68_type_call p hcl hac fuel hp hp' t ht (p.w.ty t).id p.valueArg as out hst hap hs h
  unfold Prog.retCast at e11
  rw [if_neg (by exact hd), castTo_dyn] at e11
  simp only [Except.ok.injEq, Prod.mk.injEq] at e11
  obtain ⟨rfl, rfl⟩ := e11
  refine ⟨o, f, w1, w2, hv, vs, h1, bs, h2, r, u, e1, e2, e3, e4, e6, e7, e8, e9, e10, rfl, ?_⟩
  intro a hr href hok hcap
  subst hr
  obtain ⟨h4, u', k1, k2, -⟩ := C67_temporary_stored p h2 f.ret a href hcap.symm.symm hok
  have e : p.wrapRet h2 f.ret (.obj a) = .ok (h4, u') := k1
  rw [e] at e10
  simp only [Except.ok.injEq, Prod.mk.injEq] at e10
  obtain ⟨rfl, rfl⟩ := e10
  exact k2

/-- `type->construct(bit)` for the `bool` of Props/OperatorArgs, from its object at 3: a new one with its contents -/
example : (match OpArgsDemo.prog.constructWith 2 OpArgsDemo.heap 4 [OpArgsDemo.bit] with
    | .ok (hp, some (.val u)) => decide (5 ≤ u.addr ∧ hp.mem u.addr = 1 ∧ u.owner = some u.addr ∧ hp.mem 3 = 1)
    | _ => false) = true := by decide +kernel

/-- non-vacuity: `sub <<= bit` of Props/OperatorArgs, called by name for nothing -/
example : (match OpArgsDemo.prog.callMethod 2 OpArgsDemo.heap OpArgsDemo.sub (Spec.opName "<<=") OpArgsDemo.prog.voidArg [OpArgsDemo.bit] with
    | .ok (hp, none) => decide (hp.mem 1 = 15 ∧ hp.mem 3 = 1)
    | _ => false) = true := by decide +kernel

/-- and the hypotheses of `C68_method` for it -/
example : ∀ o f, OpArgsDemo.prog.w.Nearest (fun d => d.fns.get (Spec.opName "<<=")) OpArgsDemo.sub.arg.type o →
    Spec.choose (fun f => f.test OpArgsDemo.prog.w.env OpArgsDemo.prog.voidArg
      (OpArgsDemo.sub.arg :: [OpArgsDemo.bit].map Actual.arg)) o = some f →
    ∀ x ∈ (.dyn OpArgsDemo.sub :: [OpArgsDemo.bit]).zip f.args, AnyActual OpArgsDemo.prog OpArgsDemo.heap x.1 x.2 := by
  intro o f ho hf x hx
  have : o = [OpArgsDemo.shift.fn (Spec.opName "<<=")] := nearest_unique _ _ _ _ ho OpArgsDemo.looks
  subst this
  have hf := List.mem_singleton.mp (choose_mem _ _ _ hf)
  subst hf
  have hargs : (OpArgsDemo.shift.fn (Spec.opName "<<=")).args = ⟨2, .lvalue, false⟩ :: OpArgsDemo.shift.args := rfl
  rw [hargs, List.zip_cons_cons] at hx
  rcases List.mem_cons.mp hx with rfl | hx
  · exact .ref _ _ rfl
  · exact OpArgsDemo.given.2.2.1 x hx

/-- the hypotheses of `C80_constructed` for the `bool` -/
example : ∀ o f, OpArgsDemo.prog.w.Nearest (fun d => d.fns.get (OpArgsDemo.prog.w.ty 4).id) 4 o →
    Spec.choose (fun f => f.test OpArgsDemo.prog.w.env OpArgsDemo.prog.valueArg ([OpArgsDemo.bit].map Actual.arg)) o = some f →
    ∀ x ∈ [OpArgsDemo.bit].zip f.args, AnyActual OpArgsDemo.prog OpArgsDemo.heap x.1 x.2 := by
  intro o f ho hf x hx
  have h1 : OpArgsDemo.prog.w.Nearest (fun d => d.fns.get (OpArgsDemo.prog.w.ty 4).id) 4
      (plumbedConstructors 4 "bool".toList ⟨true, true, true, true, true⟩) :=
    ⟨0, 4, rfl, by decide, fun j hj => absurd hj (Nat.not_lt_zero j)⟩
  have : o = plumbedConstructors 4 "bool".toList ⟨true, true, true, true, true⟩ := nearest_unique _ _ _ _ ho h1
  subst this
  have h2 : (Spec.choose (fun f => f.test OpArgsDemo.prog.w.env OpArgsDemo.prog.valueArg ([OpArgsDemo.bit].map Actual.arg))
      (plumbedConstructors 4 "bool".toList ⟨true, true, true, true, true⟩)).map (·.args) = some [⟨4, .lvalue, true⟩] := by
    decide +kernel
  rw [hf] at h2
  simp only [Option.map_some, Option.some.injEq] at h2
  rw [h2] at hx
  simp only [List.zip_cons_cons, List.zip_nil_left, List.mem_singleton] at hx
  subst hx
  exact .ref _ _ rfl

end Reflect

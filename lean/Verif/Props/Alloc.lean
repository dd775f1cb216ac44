import Verif.Model.Alloc
import Verif.Props.Assign
import Verif.Props.StdUse
/-
  Property C79: making objects with `new`.
-/
namespace Reflect
open World
open Spec (signatures rows)

/-! ### what the descriptions declare -/

/-- the overloads of `new` a class has: those its constructors allow, in the order of the plumbing -/
def allocators (t raw : Ty) (c : Caps) : Overloads :=
  (if c.defaultConstructible then [Fn.make "new".toList raw.val [] 12] else []) ++
  (if c.copyConstructible then [Fn.make "new".toList raw.val [t.cref] 13] else []) ++
  (if c.moveConstructible then [Fn.make "new".toList raw.val [t.rref] 14] else [])

theorem rref_from_cref (e : Env) (f g : Fn) (t : Ty) (hf : f.args = [t.rref]) (hg : g.args = [t.cref]) :
    f.testFn e g ≠ .exact :=
  not_exact_of_arg e f g (t.cref, t.rref) (by rw [hf, hg]; simp) (cref_rref e t)

theorem other_arity (e : Env) (f g : Fn) (h : g.args.length ≠ f.args.length) : f.testFn e g ≠ .exact := by
  unfold Fn.testFn
  rw [Ne, combine_eq_exact]
  rintro ⟨-, h2⟩
  unfold testArguments at h2
  rw [if_pos h] at h2; cases h2

/-- C79. On any type that has nothing called `new`, the allocation plumbing is accepted; it gives the type one
    `new` for each of the default, copy and move constructors the class has, in that order, and changes
    nothing else. -/
theorem C79_described (e : Env) (t raw : Ty) (c : Caps) (d : TypeD)
    (hfield : d.fields.get "new".toList = none) (hfn : d.fns.get "new".toList = none) :
    ∃ d', d.runAll e (allocOps t raw c) = (d', .ok ()) ∧
      (d'.fns.get "new".toList).getD [] = allocators t raw c ∧
      (∀ n, n ≠ "new".toList → d'.fns.get n = d.fns.get n) ∧
      d'.fields = d.fields ∧ d'.parent = d.parent ∧ d'.ptr = d.ptr ∧ d'.id = d.id := by
  obtain ⟨c1, c2, c3, c4, c5⟩ := c
  simp only [allocOps, allocators]
  generalize "new".toList = new at hfield hfn ⊢
  have e1 : ∀ b, (Fn.make new raw.val [t.rref] 14).testFn e (Fn.make new raw.val [t.cref] b) ≠ .exact :=
    fun b => rref_from_cref e _ _ t rfl rfl
  have e2 : ∀ (a : Arg) b b', (Fn.make new raw.val [a] b).testFn e (Fn.make new raw.val [] b') ≠ .exact :=
    fun a b b' => other_arity e _ _ (by simp [Fn.make])
  cases c1 <;> cases c2 <;> cases c3 <;>
    simp [TypeD.runAll, TypeD.step, TypeD.addFunction, hfield, hfn, Overloads.add, e1, e2, Assoc.get_set] <;>
    intro n hn <;> simp [hn, Ne.symm hn]

/-- C79. `reflectAlloc` gives the type the one `new` without arguments. -/
theorem C79_described_default (e : Env) (raw : Ty) (d : TypeD)
    (hfield : d.fields.get "new".toList = none) (hfn : d.fns.get "new".toList = none) :
    ∃ d', d.runAll e (allocatorOps raw) = (d', .ok ()) ∧
      (d'.fns.get "new".toList).getD [] = [Fn.make "new".toList raw.val [] 12] ∧
      (∀ n, n ≠ "new".toList → d'.fns.get n = d.fns.get n) ∧
      d'.fields = d.fields ∧ d'.parent = d.parent ∧ d'.ptr = d.ptr ∧ d'.id = d.id := by
  simp only [allocatorOps]
  generalize "new".toList = new at hfield hfn ⊢
  simp [TypeD.runAll, TypeD.step, TypeD.addFunction, hfield, hfn, Overloads.add, Assoc.get_set]
  intro n hn; simp [hn, Ne.symm hn]

/-- C79. The two cannot be combined: a type that has a `new` without arguments refuses another one, whichever
    of the two macros declares it. -/
theorem C79_twice (e : Env) (t raw : Ty) (c : Caps) (d : TypeD) (hc : c.defaultConstructible = true)
    (hfield : d.fields.get "new".toList = none) (o : Overloads) (hfn : d.fns.get "new".toList = some o)
    (f : Fn) (hf : f ∈ o) (hargs : f.args = []) (hret : f.ret = raw.val) :
    (d.runAll e (allocOps t raw c)).2 = .error .err ∧ (d.runAll e (allocatorOps raw)).2 = .error .err := by
  have h : ∀ (n : Name) b, (Fn.make n raw.val [] b).testFn e f = .exact := by
    intro n b
    unfold Fn.testFn
    rw [hargs, hret]
    have : testReturn e raw.val raw.val = .exact := by
      unfold testReturn
      by_cases h : raw = e.voidT
      · simp [Ty.val, h]
      · simp [Ty.val, h, convertible_same, Arg.isConstRef, Arg.isTemporary]
    simp [Fn.make, this, testArguments, testArgumentsLoop, combine]
  obtain ⟨c1, c2, c3, c4, c5⟩ := c
  simp only at hc
  subst hc
  simp only [allocOps, allocatorOps]
  generalize "new".toList = new at hfield hfn ⊢
  have hany : ∀ b, (o.any fun other => (Fn.make new raw.val [] b).testFn e other = .exact) = true := by
    intro b
    rw [List.any_eq_true]
    exact ⟨f, hf, by simpa using h new b⟩
  constructor <;>
    simp only [TypeD.runAll, TypeD.step, TypeD.addFunction, hfield, hfn, Option.getD_some, Overloads.add, hany,
      if_true, List.cons_append, List.nil_append]

/-! ### the objects made -/

/-- The `new` a type `s` answers to: those of `t`, as `reflectAllocPlumbing` (or `reflectAlloc`: `copy` and `move`
    false) of `t` declares them; `s` is `t`, or derives from it and has no `new` of its own. `raw` is `t*`. -/
structure Allocates (p : Prog) (s t raw : Ty) (init : Nat → Nat) (dflt copy move : Bool) : Prop where
  notVoid : raw ≠ p.w.voidT
  rawNotValue : raw ≠ p.w.valueT
  notValue : t ≠ p.w.valueT
  distinct : p.w.valueT ≠ p.w.voidT
  cell : p.size raw = 1
  pointerCaps : (p.caps raw).copyConstructible = true
  ops : ∃ fd fc fm : Fn,
    p.w.functionF p.w.fuel s "new".toList =
      .ok ((if dflt then [fd] else []) ++ ((if copy then [fc] else []) ++ (if move then [fm] else []))) ∧
    fd.args = [] ∧ fd.ret = raw.val ∧
    fc.args = [t.cref] ∧ fc.ret = raw.val ∧
    fm.args = [t.rref] ∧ fm.ret = raw.val ∧
    (∀ hp, p.impl fd.body hp [] = .ok (newBody init (p.size t) hp)) ∧
    (∀ hp a k, p.impl fc.body hp [.obj a k] = newCopyBody (p.size t) hp a) ∧
    (∀ hp a k, p.impl fm.body hp [.obj a k] = newMoveBody (p.moved t) (p.size t) hp a)

/-- `v` is a mutable value that owns a fresh pointer to a fresh object of `t` with these contents -/
structure Made (p : Prog) (hp hp' : Heap) (t raw : Ty) (v : Handle) (contents : Nat → Nat) : Prop where
  arg : v.arg = ⟨raw, .lvalue, false⟩
  owner : v.owner = some v.addr
  fresh : hp.next ≤ v.addr
  live : hp'.Ok v.addr 1
  /-- what the pointer points to -/
  objFresh : hp.next ≤ hp'.mem v.addr
  objLive : hp'.Ok (hp'.mem v.addr) (p.size t)
  apart : v.addr < hp'.mem v.addr ∨ hp'.mem v.addr + p.size t ≤ v.addr
  /-- nor is the pointer the cell in front of the object, where deletions are counted -/
  mark : v.addr + 1 ≠ hp'.mem v.addr
  contents : ∀ i < p.size t, hp'.mem (hp'.mem v.addr + i) = contents i
  grow : hp.next ≤ hp'.next

/-- a function that returns a pointer to a fresh object, once its body has run -/
theorem made_of_body (p : Prog) (hp h1 : Heap) (t raw : Ty) (a : Nat) (contents : Nat → Nat)
    (hcell : p.size raw = 1) (hcaps : (p.caps raw).copyConstructible = true)
    (hpos : 0 < hp.next) (hfr : hp.next ≤ a) (hlive : a + p.size t ≤ h1.next)
    (hc : ∀ i < p.size t, h1.mem (a + i) = contents i) :
    ∃ hp' v, p.wrapRet (h1.pointTo a).1 raw.val (h1.pointTo a).2 = .ok (hp', v) ∧
      Made p hp hp' t raw v contents ∧ ∀ x < hp.next, hp'.mem x = h1.mem x := by
  have e1 : (h1.pointTo a).2 = .obj h1.next := rfl
  have e2 : (h1.pointTo a).1.next = h1.next + 2 := rfl
  have e3 : (h1.pointTo a).1.mem h1.next = a := by simp [Heap.pointTo, Heap.newObj]
  have e4 : ∀ x < h1.next, (h1.pointTo a).1.mem x = h1.mem x := by
    intro x hx
    simp only [Heap.pointTo, Heap.newObj]
    rw [if_neg (by omega)]
  rw [e1]
  generalize (h1.pointTo a).1 = h2 at e2 e3 e4 ⊢
  obtain ⟨hp', v, w1, w2, -⟩ := C67_temporary_stored p h2 raw.val h1.next (by simp [Ty.val]) (.inl hcaps)
    ⟨by omega, by show h1.next + p.size raw ≤ _; omega⟩
  have hs : p.size raw.val.type = 1 := hcell
  have g1 := w2.fresh
  have g2 := w2.live
  have g3 := w2.grow
  have g4 := w2.frame
  have g5 := w2.same
  rw [hs] at g2 g4 g5
  obtain ⟨l1, l2⟩ := g2
  have hmem : hp'.mem v.addr = a := by
    have := g5 0 (by omega)
    simpa [e3] using this
  refine ⟨hp', v, w1, ⟨w2.arg, w2.owner, by omega, ⟨l1, l2⟩, by omega, ⟨by omega, by omega⟩, by omega, by omega, ?_,
    by omega⟩, ?_⟩
  · intro i hi
    rw [hmem, g4 _ (by omega) (by omega), e4 _ (by omega), hc i hi]
  · intro x hx
    rw [g4 _ (by omega) (by omega), e4 _ (by omega)]

/-- a caller that takes a `Value` is given the pointer -/
theorem ret_value (p : Prog) (raw : Ty) (h1 : raw ≠ p.w.voidT) (h2 : raw ≠ p.w.valueT)
    (h3 : p.w.valueT ≠ p.w.voidT) : testReturn p.w.env p.valueArg raw.val = .exact := by
  have hc : isConvertibleTo p.w.env raw.val p.valueArg = .exact :=
    convertible_dynamic _ _ _ (.inr ⟨h2, rfl⟩)
  unfold testReturn
  rw [if_neg (show ¬ p.valueArg.type = p.w.env.voidT from h3), if_neg (show ¬ raw.val.type = p.w.env.voidT from h1), hc]
  simp [Prog.valueArg, Arg.isConstRef]

theorem typeCall_of_select (p : Prog) (fuel : Nat) (hp : Heap) (s : Ty) (name : Name) (as : List Actual)
    (o : Overloads) (f : Fn) (hf : p.w.functionF p.w.fuel s name = .ok o) (hd : p.w.valueT ≠ p.w.voidT)
    (hs : o.select p.w.env p.valueArg (as.map Actual.arg) = .ok f)
    (ht : f.test p.w.env p.valueArg (as.map Actual.arg) ≠ .none) (h1 h2 : Heap) (vs : List Handle) (r : Handle)
    (hh : p.toHandles hp as = .ok (h1, vs)) (hr : p.run fuel h1 f vs = .ok (h2, r)) :
    p.typeCall fuel hp s name p.valueArg as = .ok (h2, some (.val r)) := by
  unfold Prog.typeCall Prog.callOv
  rw [hf]
  simp only
  rw [hs]
  simp only [Prog.callFn]
  rw [if_neg ht, hh]
  simp only [hr]
  unfold Prog.retCast
  rw [if_neg (show ¬ p.valueArg.type = p.w.voidT from hd)]
  simp [Prog.castTo]

/-- the overload without parameters is out of the question for a call with one argument -/
theorem select_skip (e : Env) (want : Arg) (as : List Arg) (fd : Fn) (d : Bool) (rest : Overloads)
    (h : fd.test e want as = .none) :
    Overloads.select e ((if d then [fd] else []) ++ rest) want as = Overloads.select e rest want as := by
  cases d
  · rfl
  · simp [C27_select, Spec.choose, List.filter_cons, h]

theorem test_arity (e : Env) (f : Fn) (want : Arg) (as : List Arg) (h : as.length ≠ f.args.length) :
    f.test e want as = .none := by
  unfold Fn.test testArguments
  rw [if_pos h]
  cases testReturn e want f.ret <;> rfl

/-- C79. `type->alloc()` makes a default constructed object, and a pointer to it, both of them new and apart from
    each other, and changes nothing that existed. The value returned owns the pointer, not the object. -/
theorem C79_alloc (p : Prog) (fuel : Nat) (hp : Heap) (s t raw : Ty) (init : Nat → Nat) (copy move : Bool)
    (hA : Allocates p s t raw init true copy move) (hpos : 0 < hp.next) :
    ∃ hp' v, p.alloc (fuel + 1) hp s = .ok (hp', some (.val v)) ∧ Made p hp hp' t raw v init ∧
      ∀ x < hp.next, hp'.mem x = hp.mem x := by
  obtain ⟨fd, fc, fm, hf, hda, hdr, hca, hcr, hma, hmr, hdb, hcb, hmb⟩ := hA.ops
  have hret := ret_value p raw hA.notVoid hA.rawNotValue hA.distinct
  have ht : fd.test p.w.env p.valueArg [] = .exact := by
    unfold Fn.test
    rw [hdr, hret, hda]; rfl
  have hcn : fc.test p.w.env p.valueArg [] = .none := test_arity _ _ _ _ (by simp [hca])
  have hmn : fm.test p.w.env p.valueArg [] = .none := test_arity _ _ _ _ (by simp [hma])
  have hsel : Overloads.select p.w.env
      ((if (true : Bool) then [fd] else []) ++ ((if copy then [fc] else []) ++ (if move then [fm] else [])))
      p.valueArg [] = .ok fd := by
    rw [C27_select]
    cases copy <;> cases move <;> simp [Spec.choose, List.filter_cons, ht, hcn, hmn]
  have g1 : ∀ i < p.size t, (hp.newObj init (p.size t)).1.mem (hp.next + i) = init i := by
    intro i hi
    simp only [Heap.newObj]
    rw [if_pos (by omega)]
    congr 1; omega
  obtain ⟨hp', v, w1, w2, w3⟩ := made_of_body p hp (hp.newObj init (p.size t)).1 t raw hp.next init hA.cell
    hA.pointerCaps hpos (Nat.le_refl _) (by simp only [Heap.newObj]; omega) g1
  refine ⟨hp', v, ?_, w2, ?_⟩
  · refine typeCall_of_select p _ hp s _ [] _ fd hf hA.distinct hsel (by simp [ht]) hp hp' [] v rfl ?_
    simp only [Prog.run, hda, Prog.bind, hdb, newBody, hdr]
    exact w1
  · intro x hx
    rw [w3 x hx]
    simp only [Heap.newObj]
    rw [if_neg (by omega)]

/-- C79. Two objects made one after the other are different ones, and the second leaves the first, and the pointer
    to it, as they were. -/
theorem C79_alloc_apart (p : Prog) (fuel : Nat) (hp h1 h2 : Heap) (s s' t t' raw raw' : Ty) (init init' : Nat → Nat)
    (c m c' m' : Bool) (v v' : Handle) (hA : Allocates p s t raw init true c m)
    (hA' : Allocates p s' t' raw' init' true c' m') (hpos : 0 < hp.next)
    (e1 : p.alloc (fuel + 1) hp s = .ok (h1, some (.val v)))
    (e2 : p.alloc (fuel + 1) h1 s' = .ok (h2, some (.val v'))) :
    Made p hp h2 t raw v init ∧ h2.mem v.addr = h1.mem v.addr ∧
      h2.mem v.addr + p.size t ≤ h2.mem v'.addr ∧ v.addr < v'.addr := by
  obtain ⟨g1, w, a1, a2, a3⟩ := C79_alloc p fuel hp s t raw init c m hA hpos
  rw [e1] at a1
  cases a1
  have hgrow := a2.grow
  obtain ⟨g2, w', b1, b2, b3⟩ := C79_alloc p fuel h1 s' t' raw' init' c' m' hA' (by omega)
  rw [e2] at b1
  cases b1
  obtain ⟨l1, l2⟩ := a2.live
  obtain ⟨o1, o2⟩ := a2.objLive
  have f1 := b2.fresh
  have f2 := b2.objFresh
  have f3 := b2.grow
  have hm : h2.mem v.addr = h1.mem v.addr := b3 _ (by omega)
  refine ⟨⟨a2.arg, a2.owner, a2.fresh, ⟨l1, by omega⟩, by rw [hm]; exact a2.objFresh,
    ⟨by omega, by omega⟩, by rw [hm]; exact a2.apart, by rw [hm]; exact a2.mark, ?_, by omega⟩, hm, by omega, by omega⟩
  intro i hi
  rw [hm, b3 _ (by omega), a2.contents i hi]

theorem Made.later {p : Prog} {hp h1 h2 : Heap} {t raw : Ty} {v : Handle} {c : Nat → Nat} (h : Made p hp h1 t raw v c)
    (hg : h1.next ≤ h2.next) (hm : ∀ x < h1.next, h2.mem x = h1.mem x) : Made p hp h2 t raw v c := by
  obtain ⟨l1, l2⟩ := h.live
  obtain ⟨o1, o2⟩ := h.objLive
  have e : h2.mem v.addr = h1.mem v.addr := hm _ (by omega)
  have g := h.grow
  refine ⟨h.arg, h.owner, h.fresh, ⟨l1, by omega⟩, by rw [e]; exact h.objFresh, ⟨by omega, by omega⟩,
    by rw [e]; exact h.apart, by rw [e]; exact h.mark, ?_, by omega⟩
  intro i hi
  rw [e, hm _ (by omega), h.contents i hi]

theorem Made.earlier {p : Prog} {h0 hp h1 : Heap} {t raw : Ty} {v : Handle} {c : Nat → Nat} (h : Made p hp h1 t raw v c)
    (hg : h0.next ≤ hp.next) : Made p h0 h1 t raw v c :=
  ⟨h.arg, h.owner, Nat.le_trans hg h.fresh, h.live, Nat.le_trans hg h.objFresh, h.objLive, h.apart, h.mark, h.contents,
    Nat.le_trans hg h.grow⟩

/-- C79. Any number of objects made one after the other, of any types that can be allocated: each is made as `C79_alloc` says and
    stays so, everything made later (pointer and object) lies behind everything made earlier, and nothing that existed changes. -/
theorem C79_allocs (p : Prog) (fuel : Nat) (obj raw : Ty → Ty) (init : Ty → Nat → Nat) :
    ∀ (ss : List Ty) (hp : Heap), 0 < hp.next →
      (∀ s ∈ ss, ∃ copy move, Allocates p s (obj s) (raw s) (init s) true copy move) →
      ∃ hp' vs, p.allocs (fuel + 1) hp ss = .ok (hp', vs) ∧ vs.length = ss.length ∧
        (∀ i (hi : i < ss.length) (hv : i < vs.length),
          Made p hp hp' (obj ss[i]) (raw ss[i]) vs[i] (init ss[i])) ∧
        (∀ i j (hi : i < ss.length) (hvi : i < vs.length) (hvj : j < vs.length), i < j →
          vs[i].addr < vs[j].addr ∧ vs[i].addr < hp'.mem vs[j].addr ∧
          hp'.mem vs[i].addr + p.size (obj ss[i]) ≤ vs[j].addr ∧
          hp'.mem vs[i].addr + p.size (obj ss[i]) ≤ hp'.mem vs[j].addr) ∧
        (∀ x < hp.next, hp'.mem x = hp.mem x) ∧ hp.next ≤ hp'.next := by
  intro ss
  induction ss with
  | nil =>
    intro hp _ _
    exact ⟨hp, [], rfl, rfl, fun i hi => absurd hi (by simp), fun i j hi => absurd hi (by simp), fun _ _ => rfl, Nat.le_refl _⟩
  | cons s ss ih =>
    intro hp hpos hA
    obtain ⟨c, m, hs⟩ := hA s (by simp)
    obtain ⟨h1, v, a1, a2, a3⟩ := C79_alloc p fuel hp s (obj s) (raw s) (init s) c m hs hpos
    have hg := a2.grow
    obtain ⟨h2, vs, b1, b2, b3, b4, b5, b6⟩ := ih h1 (by omega) (fun t ht => hA t (by simp [ht]))
    have a2' := a2.later b6 b5
    refine ⟨h2, v :: vs, ?_, by simp [b2], ?_, ?_, fun x hx => by rw [b5 x (by omega), a3 x hx], by omega⟩
    · rw [Prog.allocs, a1]; dsimp only; rw [b1]
    · intro i hi hv
      cases i with
      | zero => exact a2'
      | succ i => exact (b3 i (by simpa using hi) (by simpa using hv)).earlier hg
    · intro i j hi hvi hvj hij
      cases j with
      | zero => omega
      | succ j =>
        cases i with
        | succ i => exact b4 i j (by simpa using hi) (by simpa using hvi) (by simpa using hvj) (by omega)
        | zero =>
          have hj : j < vs.length := by simpa using hvj
          have hM := b3 j (by omega) hj
          have q1 := hM.fresh
          have q2 := hM.objFresh
          obtain ⟨l1, l2⟩ := a2.live
          obtain ⟨o1, o2⟩ := a2.objLive
          have e : h2.mem v.addr = h1.mem v.addr := b5 _ (by omega)
          simp only [List.getElem_cons_zero, List.getElem_cons_succ]
          rw [e]
          omega

/-- the run of a `new` with one argument -/
theorem run_new (p : Prog) (fuel : Nat) (hp h1 h2 : Heap) (f : Fn) (x : Handle) (u : Arg) (raw : Ty) (b : Nat)
    (k : Bool) (r : BRet) (hargs : f.args = [u]) (hret : f.ret = raw.val)
    (hx : p.castTo (p.run fuel) hp x u = .ok (h1, .obj b k)) (hbody : p.impl f.body h1 [.obj b k] = .ok (h2, r)) :
    p.run (fuel + 1) hp f [x] = p.wrapRet h2 raw.val r := by
  simp only [Prog.run, hargs, Prog.bind, hx, hbody, hret]

theorem test_new (p : Prog) (f : Fn) (raw : Ty) (a u : Arg) (h1 : raw ≠ p.w.voidT) (h2 : raw ≠ p.w.valueT)
    (h3 : p.w.valueT ≠ p.w.voidT) (hargs : f.args = [u]) (hret : f.ret = raw.val) :
    f.test p.w.env p.valueArg [a] = isConvertibleTo p.w.env a u := by
  unfold Fn.test
  rw [hret, ret_value p raw h1 h2 h3, hargs, testArguments_single]
  cases isConvertibleTo p.w.env a u <;> rfl

/-- C79. `type->call<Value>("new", x)` with an lvalue, or a `Value` that is not an `rvalue()` of a mutable object,
    makes a copy of the object, and a pointer to it, and changes nothing that existed: not `x` either. -/
theorem C79_new_copy (p : Prog) (fuel : Nat) (hp : Heap) (s t raw : Ty) (init : Nat → Nat) (dflt move : Bool)
    (x : Actual) (hA : Allocates p s t raw init dflt true move)
    (hokx : hp.Ok x.handle.addr (p.size t)) (hcp : Copied p x.arg t)
    (hx : ∀ arg a, x = .native arg a → arg.ref = .lvalue) :
    ∃ hp' v, p.typeCall (fuel + 1) hp s "new".toList p.valueArg [x] = .ok (hp', some (.val v)) ∧
      Made p hp hp' t raw v (fun i => hp.mem (x.handle.addr + i)) ∧ ∀ y < hp.next, hp'.mem y = hp.mem y := by
  obtain ⟨fd, fc, fm, hf, hda, hdr, hca, hcr, hma, hmr, hdb, hcb, hmb⟩ := hA.ops
  have hdn : fd.test p.w.env p.valueArg [x.arg] = .none := test_arity _ _ _ _ (by simp [hda])
  have tc := test_new p fc raw x.arg _ hA.notVoid hA.rawNotValue hA.distinct hca hcr
  have tm := test_new p fm raw x.arg _ hA.notVoid hA.rawNotValue hA.distinct hma hmr
  rw [Ty.cref, match_constref_arg p.w.env x.arg t hcp.notValue hA.notValue hcp.noConverter hcp.derives] at tc
  rw [Ty.rref, match_rref_arg p.w.env x.arg t hcp.notValue hA.notValue hcp.noConverter hcp.derives,
    if_neg hcp.notMoved] at tm
  have hcn : fc.test p.w.env p.valueArg [x.arg] ≠ .none := by rw [tc]; split <;> simp
  have hsel := select_copy p.w.env p.valueArg [x.arg] fc fm move hcn (.inr tm)
  rw [← select_skip p.w.env p.valueArg [x.arg] fd dflt _ hdn] at hsel
  have hh : p.toHandles hp [x] = .ok (hp, [x.handle]) := by
    rw [toHandles_simple p hp _ (by
      intro y hy arg a e
      simp only [List.mem_cons, List.not_mem_nil, or_false] at hy
      subst hy
      exact hx arg a e)]
    rfl
  have hch : p.w.env.child x.handle.arg.type t = true := by
    rw [← arg_handle]; exact hcp.derives
  have hne : t.cref ≠ p.valueArg := by simp [Prog.valueArg, Ty.cref]
  have hcast : p.castTo (p.run fuel) hp x.handle t.cref = .ok (hp, .obj x.handle.addr false) := by
    simp [Prog.castTo, if_neg hne, Prog.castV, hch, Prog.castRet, Handle.as, Ty.cref, Prog.valueArg]
  obtain ⟨h2, e1, e2, e3, e4⟩ := copyObj_ok hp (p.size t) x.handle.addr hokx
  have hb := hcb hp x.handle.addr false
  simp only [newCopyBody, e1, Except.map] at hb
  have hrun : _ = p.wrapRet (h2.pointTo hp.next).1 raw.val (h2.pointTo hp.next).2 :=
    run_new p fuel hp hp _ fc x.handle _ raw x.handle.addr false _ hca hcr hcast hb
  obtain ⟨o1, o2⟩ := hokx
  obtain ⟨hp', v, w1, w2, w3⟩ := made_of_body p hp h2 t raw hp.next (fun i => hp.mem (x.handle.addr + i)) hA.cell
    hA.pointerCaps (by omega) (Nat.le_refl _) (by omega) e3
  rw [w1] at hrun
  exact ⟨hp', v, typeCall_of_select p _ hp s _ [x] _ fc hf hA.distinct hsel hcn hp hp' _ v hh hrun, w2,
    fun y hy => by rw [w3 y hy, e4 y hy]⟩

/-- C79. `new` with an `rvalue()` of a mutable object moves the object into a new one: the new one has the contents
    the object had, the object is left moved-from, and nothing else changes. -/
theorem C79_new_move (p : Prog) (fuel : Nat) (hp : Heap) (s t raw : Ty) (init : Nat → Nat) (dflt copy : Bool)
    (x : Handle) (hA : Allocates p s t raw init dflt copy true)
    (hokx : hp.Ok x.addr (p.size t)) (hmf : MovedFrom p x.arg t)
    (hmt : (p.caps t).moveConstructible = true) (hmov : p.w.isMovable t = true) :
    ∃ hp' v, p.typeCall (fuel + 1) hp s "new".toList p.valueArg [.dyn x] = .ok (hp', some (.val v)) ∧
      Made p hp hp' t raw v (fun i => hp.mem (x.addr + i)) ∧
      (∀ i < p.size t, hp'.mem (x.addr + i) = p.moved t (hp.mem (x.addr + i))) ∧
      ∀ y < hp.next, y < x.addr ∨ x.addr + p.size t ≤ y → hp'.mem y = hp.mem y := by
  obtain ⟨fd, fc, fm, hf, hda, hdr, hca, hcr, hma, hmr, hdb, hcb, hmb⟩ := hA.ops
  have hdn : fd.test p.w.env p.valueArg [x.arg] = .none := test_arity _ _ _ _ (by simp [hda])
  have tc := test_new p fc raw x.arg _ hA.notVoid hA.rawNotValue hA.distinct hca hcr
  have tm := test_new p fm raw x.arg _ hA.notVoid hA.rawNotValue hA.distinct hma hmr
  rw [Ty.cref, match_constref_arg p.w.env x.arg t hmf.notValue hA.notValue hmf.noConverter hmf.derives,
    if_neg (by simp [hmf.isMoved])] at tc
  rw [Ty.rref, match_rref_arg p.w.env x.arg t hmf.notValue hA.notValue hmf.noConverter hmf.derives,
    if_pos hmf.isMoved] at tm
  have hsel := select_move p.w.env p.valueArg [x.arg] fc fm copy (by rw [tm]; simp) (.inr (.inr ⟨tm, by rw [tc]; simp⟩))
  rw [← select_skip p.w.env p.valueArg [x.arg] fd dflt _ hdn] at hsel
  have hne : t.rref ≠ p.valueArg := by simp [Prog.valueArg, Ty.rref]
  obtain ⟨o1, o2⟩ := hokx
  obtain ⟨h1, d1, d2, d3, d4⟩ := moveObj_ok hp (p.moved t) (p.size t) x.addr ⟨o1, o2⟩
  obtain ⟨h1', d1', d5⟩ := moveObj_source hp (p.moved t) (p.size t) x.addr ⟨o1, o2⟩
  rw [d1] at d1'
  cases d1'
  have hcast : p.castTo (p.run fuel) hp x t.rref = .ok (h1, .obj hp.next true) := by
    simp [Prog.castTo, if_neg hne, Prog.castV, hmf.derives, Prog.castRet, Handle.as, Ty.rref, Prog.valueArg, hmov, hmt,
      d1]
  obtain ⟨h2, e1, e2, e3, e4⟩ := moveObj_ok h1 (p.moved t) (p.size t) hp.next ⟨by omega, by omega⟩
  have hb := hmb h1 hp.next true
  simp only [newMoveBody, e1, Except.map] at hb
  have hrun : _ = p.wrapRet (h2.pointTo h1.next).1 raw.val (h2.pointTo h1.next).2 :=
    run_new p fuel hp h1 _ fm x _ raw hp.next true _ hma hmr hcast hb
  obtain ⟨hp', v, w1, w2, w3⟩ := made_of_body p hp h2 t raw h1.next (fun i => hp.mem (x.addr + i)) hA.cell
    hA.pointerCaps (by omega) (by omega) (by omega) (fun i hi => by rw [e3 i hi, d3 i hi])
  rw [w1] at hrun
  refine ⟨hp', v, typeCall_of_select p _ hp s _ [.dyn x] _ fm hf hA.distinct hsel (by
    show fm.test p.w.env p.valueArg [x.arg] ≠ .none
    rw [tm]; simp) hp hp' _ v rfl hrun, w2, ?_, ?_⟩
  · intro i hi
    rw [w3 _ (by omega), e4 _ (by omega) (by omega), d5 i hi]
  · intro y hy hy'
    rw [w3 y hy, e4 _ (by omega) (by omega), d4 y hy hy']

/-- C79. `new` with a temporary that is not const moves it into the new object; nothing but the temporary, which is
    left moved-from, changes. -/
theorem C79_new_temporary (p : Prog) (fuel : Nat) (hp : Heap) (s t raw u : Ty) (init : Nat → Nat) (dflt copy : Bool)
    (a : Nat) (hA : Allocates p s t raw init dflt copy true) (hoka : hp.Ok a (p.size u)) (hsize : p.size t ≤ p.size u)
    (hu : u ≠ p.w.valueT) (hch : p.w.env.child u t = true) (hconv : p.w.env.conv u t = false)
    (hmu : (p.caps u).moveConstructible = true) (hmt : (p.caps t).moveConstructible = true)
    (hmov : p.w.isMovable t = true) :
    ∃ hp' v, p.typeCall (fuel + 1) hp s "new".toList p.valueArg [.native ⟨u, .rvalue, false⟩ a] =
        .ok (hp', some (.val v)) ∧
      Made p hp hp' t raw v (fun i => hp.mem (a + i)) ∧
      (∀ i < p.size u, hp'.mem (a + i) = p.moved u (hp.mem (a + i))) ∧
      ∀ y < hp.next, y < a ∨ a + p.size u ≤ y → hp'.mem y = hp.mem y := by
  obtain ⟨fd, fc, fm, hf, hda, hdr, hca, hcr, hma, hmr, hdb, hcb, hmb⟩ := hA.ops
  have hdn : fd.test p.w.env p.valueArg [⟨u, .rvalue, false⟩] = .none := test_arity _ _ _ _ (by simp [hda])
  have tc := test_new p fc raw ⟨u, .rvalue, false⟩ _ hA.notVoid hA.rawNotValue hA.distinct hca hcr
  have tm := test_new p fm raw ⟨u, .rvalue, false⟩ _ hA.notVoid hA.rawNotValue hA.distinct hma hmr
  rw [Ty.cref, match_constref p.w.env u t .rvalue false hu hA.notValue hconv hch] at tc
  rw [Ty.rref, match_rref p.w.env u t .rvalue false hu hA.notValue hconv hch] at tm
  simp only [reduceCtorEq, false_and, if_false, and_self, if_true] at tc tm
  have hsel := select_move p.w.env p.valueArg [⟨u, .rvalue, false⟩] fc fm copy (by rw [tm]; simp)
    (.inr (.inr ⟨tm, by rw [tc]; simp⟩))
  rw [← select_skip p.w.env p.valueArg [⟨u, .rvalue, false⟩] fd dflt _ hdn] at hsel
  obtain ⟨h0, w, hw, hst, hsrc⟩ := C67_temporary_stored p hp ⟨u, .rvalue, false⟩ a (by simp)
    (.inr ⟨rfl, hmu⟩) hoka
  simp only [hmu, and_self, if_true] at hsrc
  have hh : p.toHandles hp [.native ⟨u, .rvalue, false⟩ a] = .ok (h0, [w]) := by
    simp [Prog.toHandles, hw]
  have hlive := hst.live
  have hfr := hst.fresh
  have hgr := hst.grow
  have hsame := hst.same
  have hframe := hst.frame
  simp only at hlive hfr hgr hsame hframe
  obtain ⟨l1, l2⟩ := hlive
  obtain ⟨a1, a2⟩ := hoka
  obtain ⟨h1, d1, d2, d3, d4⟩ := moveObj_ok h0 (p.moved t) (p.size t) w.addr ⟨l1, by omega⟩
  have hwt : p.w.env.child w.arg.type t = true := by rw [hst.arg]; exact hch
  have hcast : p.castTo (p.run fuel) h0 w t.rref = .ok (h1, .obj h0.next true) := by
    simp [Prog.castTo, Prog.castV, hwt, Prog.castRet, Handle.as, Ty.rref, Prog.valueArg, hmov, hmt, d1]
  obtain ⟨h2, e1, e2, e3, e4⟩ := moveObj_ok h1 (p.moved t) (p.size t) h0.next ⟨by omega, by omega⟩
  have hb := hmb h1 h0.next true
  simp only [newMoveBody, e1, Except.map] at hb
  have hrun : _ = p.wrapRet (h2.pointTo h1.next).1 raw.val (h2.pointTo h1.next).2 :=
    run_new p fuel h0 h1 _ fm w _ raw h0.next true _ hma hmr hcast hb
  obtain ⟨hp', v, w1, w2, w3⟩ := made_of_body p hp h2 t raw h1.next (fun i => hp.mem (a + i)) hA.cell
    hA.pointerCaps (by omega) (by omega) (by omega)
    (fun i hi => by rw [e3 i hi, d3 i hi, hsame i (by omega)])
  rw [w1] at hrun
  refine ⟨hp', v, typeCall_of_select p _ hp s _ [.native ⟨u, .rvalue, false⟩ a] _ fm hf hA.distinct hsel (by
    show fm.test p.w.env p.valueArg [⟨u, .rvalue, false⟩] ≠ .none
    rw [tm]; simp) h0 hp' _ v hh hrun, w2, ?_, ?_⟩
  · intro i hi
    rw [w3 _ (by omega), e4 _ (by omega) (by omega), d4 _ (by omega) (by omega), hsrc i hi]
  · intro y hy hy'
    rw [w3 y hy, e4 _ (by omega) (by omega), d4 y (by omega) (by omega), hframe y hy hy']

/-- C79. A class described with the allocation plumbing allocates as its constructors allow, once the bodies are
    `new` with the class's constructors. -/
theorem C79_plumbed (p : Prog) (s t raw : Ty) (c : Caps) (init : Nat → Nat) (h1 : raw ≠ p.w.voidT)
    (h2 : raw ≠ p.w.valueT) (h3 : t ≠ p.w.valueT) (h4 : p.w.valueT ≠ p.w.voidT) (h5 : p.size raw = 1)
    (h6 : (p.caps raw).copyConstructible = true)
    (hf : p.w.functionF p.w.fuel s "new".toList = .ok (allocators t raw c))
    (h12 : ∀ hp, p.impl 12 hp [] = .ok (newBody init (p.size t) hp))
    (h13 : ∀ hp a k, p.impl 13 hp [.obj a k] = newCopyBody (p.size t) hp a)
    (h14 : ∀ hp a k, p.impl 14 hp [.obj a k] = newMoveBody (p.moved t) (p.size t) hp a) :
    Allocates p s t raw init c.defaultConstructible c.copyConstructible c.moveConstructible :=
  ⟨h1, h2, h3, h4, h5, h6, _, _, _, by rw [hf, allocators, List.append_assoc], rfl, rfl, rfl, rfl, rfl, rfl,
    h12, h13, h14⟩

/-- C79. `new` with an object of an unrelated type, or of a class without the constructor for it, raises. -/
theorem C79_new_refused (p : Prog) (fuel : Nat) (hp : Heap) (s t raw : Ty) (init : Nat → Nat)
    (dflt copy move : Bool) (x : Actual) (hA : Allocates p s t raw init dflt copy move)
    (hc : copy = true → isConvertibleTo p.w.env x.arg t.cref = .none)
    (hm : move = true → isConvertibleTo p.w.env x.arg t.rref = .none) :
    p.typeCall fuel hp s "new".toList p.valueArg [x] = .error .err := by
  obtain ⟨fd, fc, fm, hf, hda, hdr, hca, hcr, hma, hmr, hdb, hcb, hmb⟩ := hA.ops
  have hdn : fd.test p.w.env p.valueArg [x.arg] = .none := test_arity _ _ _ _ (by simp [hda])
  have tc := test_new p fc raw x.arg _ hA.notVoid hA.rawNotValue hA.distinct hca hcr
  have tm := test_new p fm raw x.arg _ hA.notVoid hA.rawNotValue hA.distinct hma hmr
  unfold Prog.typeCall Prog.callOv
  rw [hf]
  simp only [List.map_cons, List.map_nil]
  rw [select_skip p.w.env p.valueArg [x.arg] fd dflt _ hdn, select_assign, tc, tm, if_neg, if_neg, if_neg]
  · rintro ⟨h1, h2, -⟩; exact h2 (hm h1)
  · rintro ⟨h1, h2, -⟩; exact h2 (hc h1)
  · rintro ⟨h1, h2, -⟩; rw [hm h1] at h2; cases h2

/-- C79. `alloc` on a type without a `new` without arguments raises: there may be no `new` at all, on the type or on
    its ancestors, ... -/
theorem C79_alloc_missing (p : Prog) (hcl : p.w.Closed) (hac : p.w.Acyclic) (fuel : Nat) (hp : Heap) (s : Ty)
    (hs : s < p.w.n) (h : ∀ k u, p.w.anc k s = some u → (p.w.ty u).fns.get "new".toList = none) :
    p.alloc fuel hp s = .error .err := by
  have := ((C17_function_nearest p.w hcl hac s hs "new".toList p.w.fuel (by simp [World.fuel])).2.1).1 h
  unfold Prog.alloc Prog.typeCall
  rw [this]

/-- C79. ... or the class is not default constructible. -/
theorem C79_alloc_no_default (p : Prog) (fuel : Nat) (hp : Heap) (s t raw : Ty) (init : Nat → Nat) (copy move : Bool)
    (hA : Allocates p s t raw init false copy move) : p.alloc fuel hp s = .error .err := by
  obtain ⟨fd, fc, fm, hf, hda, hdr, hca, hcr, hma, hmr, hdb, hcb, hmb⟩ := hA.ops
  unfold Prog.alloc Prog.typeCall Prog.callOv
  rw [hf]
  have h1 : fc.test p.w.env p.valueArg [] = .none := test_arity _ _ _ _ (by simp [hca])
  have h2 : fm.test p.w.env p.valueArg [] = .none := test_arity _ _ _ _ (by simp [hma])
  have h3 := select_neither p.w.env p.valueArg [] fc fm copy move h1 h2
  simp only [List.map_nil]
  simp [h3]

/-- C79. A type that does not declare `new` itself answers with the one of the closest ancestor that does: `alloc`
    then makes an object of the ancestor, not of the type asked. -/
theorem C79_alloc_inherited (p : Prog) (hcl : p.w.Closed) (hac : p.w.Acyclic) (fuel : Nat) (hp : Heap) (s u : Ty)
    (hs : s < p.w.n) (hu : u < p.w.n) (k : Nat) (hanc : p.w.anc k s = some u)
    (hown : ((p.w.ty u).fns.get "new".toList).isSome = true)
    (hnone : ∀ j < k, ∀ y, p.w.anc j s = some y → (p.w.ty y).fns.get "new".toList = none) :
    p.alloc fuel hp s = p.alloc fuel hp u := by
  obtain ⟨o, ho⟩ := Option.isSome_iff_exists.1 hown
  have h1 : p.w.Nearest (fun d => d.fns.get "new".toList) s o := ⟨k, u, hanc, ho, hnone⟩
  have h2 : p.w.Nearest (fun d => d.fns.get "new".toList) u o := ⟨0, u, rfl, ho, by intro j hj; omega⟩
  have e1 := ((C17_function_nearest p.w hcl hac s hs "new".toList p.w.fuel (by simp [World.fuel])).1 o).2 h1
  have e2 := ((C17_function_nearest p.w hcl hac u hu "new".toList p.w.fuel (by simp [World.fuel])).1 o).2 h2
  unfold Prog.alloc Prog.typeCall
  rw [e1, e2]

/-! ### following the pointer -/

/-- C79. `*p` on a value that is a mutable pointer, as the one `alloc` returns, refers to the object pointed to:
    a mutable value of that very object, which owns nothing; nothing changes. `k`: the pointer is to const
    objects. -/
theorem C79_deref (p : Prog) (fuel : Nat) (hp : Heap) (l : Lib) (t raw : Ty) (k : Bool) (v : Handle) (o : Overloads)
    (ho : p.w.functionF p.w.fuel raw "operator*".toList = .ok o)
    (htab : o.map (fun f => (f.ret, f.args)) = rows (Spec.pointerTable l raw t k) "operator*".toList)
    (hbody : ∀ f ∈ o, ∀ hp a m, p.impl f.body hp [.obj a m] = derefBody hp a)
    (hself : p.w.env.conv raw raw = false) (htv : t ≠ p.w.voidT) (htd : t ≠ p.w.valueT)
    (hrv : raw ≠ p.w.valueT) (hvv : p.w.valueT ≠ p.w.voidT)
    (harg : v.arg.type = raw) (hlive : hp.Ok v.addr 1) :
    ∃ r, p.callMethod (fuel + 1) hp v "operator*".toList p.valueArg [] = .ok (hp, some (.val r)) ∧
      r.addr = hp.mem v.addr ∧ r.owner = none ∧
      r.arg = ⟨t, .lvalue, if v.arg.isConst = true ∨ v.arg.ref ≠ .lvalue then true else k⟩ := by
  have hr : rows (Spec.pointerTable l raw t k) "operator*".toList =
      [(⟨t, .lvalue, k⟩, [raw.lref]), (t.cref, [raw.cref])] := by
    simp [rows, Spec.pointerTable, List.filter_cons]
  obtain ⟨f, hsel, hret⟩ := C76_deref p.w.env l raw t k o p.valueArg v.arg htab (.inr rfl) harg hself
    (child_refl p.w raw) htv htd hvv
  obtain ⟨hmem, htest⟩ := select_mem _ hsel
  refine ⟨⟨f.ret, hp.mem v.addr, none⟩, ?_, rfl, rfl, hret⟩
  rw [hr] at htab
  obtain ⟨f1, f2, rfl, hf1, hf2⟩ := pair_of_map htab
  have hchild : p.w.env.child v.arg.type raw = true := by rw [harg]; exact child_refl p.w raw
  have hargs : f.args = [raw.lref] ∨ f.args = [raw.cref] := by
    simp only [List.mem_cons, List.not_mem_nil, or_false] at hmem
    rcases hmem with rfl | rfl
    · exact .inl (congrArg Prod.snd hf1)
    · exact .inr (congrArg Prod.snd hf2)
  have hlref : f.ret.ref = .lvalue := by rw [hret]
  have hcast : ∃ u m, f.args = [u] ∧ p.castTo (p.run fuel) hp v u = .ok (hp, .obj v.addr m) := by
    rcases hargs with h | h
    · have hm : isConvertibleTo p.w.env v.arg raw.lref ≠ .none := by
        intro hn
        apply htest
        exact test_none_of_param p.w.env f p.valueArg [v.arg] 0 (by simp) (by simp [h]) (by simpa [h] using hn)
      obtain ⟨h1, h2, -⟩ := C21_mutable_ref_safe p.w.env (child_refl p.w) v.arg ⟨raw, .lvalue, false⟩
        (by rw [harg]; exact hrv) hrv rfl rfl hm
      refine ⟨_, true, h, ?_⟩
      simp [Prog.castTo, Prog.castV, hchild, Prog.castRet, Handle.as, Ty.lref, Prog.valueArg, h1, h2]
    · refine ⟨_, false, h, ?_⟩
      simp [Prog.castTo, Prog.castV, hchild, Prog.castRet, Handle.as, Ty.cref, Prog.valueArg]
  obtain ⟨u, m, hu, hcast⟩ := hcast
  have hb := hbody f hmem hp v.addr m
  rw [derefBody, if_pos hlive] at hb
  have hrun : p.run (fuel + 1) hp f [v] = .ok (hp, ⟨f.ret, hp.mem v.addr, none⟩) := by
    simp only [Prog.run, hu, Prog.bind, hcast, hb, Prog.wrapRet, Prog.wrap, hlref, if_true]
  unfold Prog.callMethod
  rw [harg, ho]
  have := typeCall_of_select p (fuel + 1) hp raw "operator*".toList [.dyn v] _ f ho hvv hsel htest hp hp [v] _ rfl hrun
  unfold Prog.typeCall at this
  rw [ho] at this
  exact this

/-! ### a concrete case -/

namespace AllocDemo

def impl : Nat → Heap → List BArg → Res (Heap × BRet)
  | 6, hp, [.obj a _] => derefBody hp a
  | 7, hp, [.obj a _] => derefBody hp a
  | 12, hp, [] => .ok (newBody (fun i => 40 + i) 2 hp)
  | 13, hp, [.obj a _] => newCopyBody 2 hp a
  | 14, hp, [.obj a _] => newMoveBody (fun _ => 0) 2 hp a
  | _, _, _ => .error .ub

def all : Caps := ⟨true, true, true, true, true⟩
def moveOnlyNoDefault : Caps := ⟨false, false, true, false, true⟩

def lib : Lib := ⟨6, 7, 0, ⟨Ty.val 0, 0, none⟩, fun t n => ⟨Ty.lref 7, t, some n.length⟩⟩

/-- what the plumbing and the allocation plumbing make of a new type -/
def described (t raw : Ty) (id : Name) (c : Caps) : TypeD :=
  ((TypeD.new id).runAll ⟨0, 1, fun a b => a = b, fun _ _ => false⟩ (plumbingOps t id c ++ allocOps t raw c)).1

/-- 0 void, 1 Value, 2 T, 3 a child of T without a `new`, 4 T*, 5 M, 6 bool, 7 M* -/
def world : World :=
  { n := 8, voidT := 0, valueT := 1
    ty := fun t => match t with
      | 0 => TypeD.new ['v']
      | 1 => TypeD.new ['V']
      | 2 => described 2 4 ['T'] all
      | 3 => { TypeD.new ['C'] with parent := some 2 }
      | 4 => { TypeD.new ['T', '*'] with
          ptr := some ("*".toList, 2)
          fns := [("operator*".toList, [Fn.make "operator*".toList (Ty.lref 2) [Ty.lref 4] 6,
            Fn.make "operator*".toList (Ty.cref 2) [Ty.cref 4] 7])] }
      | 5 => described 5 7 ['M'] moveOnlyNoDefault
      | _ => TypeD.new ['b'] }

def prog : Prog :=
  { w := world, size := fun t => if t = 4 ∨ t = 7 then 1 else 2, caps := fun _ => all
    moved := fun _ _ => 0, junk := .copy, impl := impl }

/-- an object at 1, and a null pointer at 4 -/
def heap : Heap := { mem := fun a => if a = 1 then 7 else if a = 2 then 8 else 0, next := 6 }

theorem allocT : Allocates prog 2 2 4 (fun i => 40 + i) true true true :=
  C79_plumbed prog 2 2 4 all _ (by decide) (by decide) (by decide) (by decide) (by decide) (by decide)
    (by decide +kernel) (fun _ => rfl) (fun _ _ _ => rfl) (fun _ _ _ => rfl)
theorem allocC : Allocates prog 3 2 4 (fun i => 40 + i) true true true :=
  C79_plumbed prog 3 2 4 all _ (by decide) (by decide) (by decide) (by decide) (by decide) (by decide)
    (by decide +kernel) (fun _ => rfl) (fun _ _ _ => rfl) (fun _ _ _ => rfl)
theorem allocM : Allocates prog 5 5 7 (fun i => 40 + i) false false true :=
  C79_plumbed prog 5 5 7 moveOnlyNoDefault _ (by decide) (by decide) (by decide) (by decide) (by decide) (by decide)
    (by decide +kernel) (fun _ => rfl) (fun _ _ _ => rfl) (fun _ _ _ => rfl)

/-- the value returned, and the object it points to -/
def seen (r : Res (Heap × Option BArg)) : Option (Arg × Nat × Nat × List Nat) := match r with
  | .ok (h, some (.val v)) => some (v.arg, v.addr, h.mem v.addr, [h.mem (h.mem v.addr), h.mem (h.mem v.addr + 1), h.mem 1, h.mem 2])
  | _ => none

def tv : Handle := ⟨⟨2, .lvalue, false⟩, 1, none⟩

example : ∃ hp' v, prog.alloc 1 heap 2 = .ok (hp', some (.val v)) ∧ Made prog heap hp' 2 4 v (fun i => 40 + i) ∧
    ∀ x < heap.next, hp'.mem x = heap.mem x := C79_alloc prog 0 heap 2 2 4 _ true true allocT (by decide)
example : seen (prog.alloc 1 heap 2) = some (Ty.lref 4, 11, 6, [40, 41, 7, 8]) := by decide +kernel
/-- a child has objects of its parent made -/
example : seen (prog.alloc 1 heap 3) = some (Ty.lref 4, 11, 6, [40, 41, 7, 8]) := by decide +kernel
/-- three objects, one of them asked of the child; the addresses of the pointers and of the objects -/
example : ∃ hp' vs, prog.allocs 1 heap [2, 3, 2] = .ok (hp', vs) ∧ vs.length = 3 := by
  obtain ⟨hp', vs, h, hl, _⟩ := C79_allocs prog 0 (fun _ => 2) (fun _ => 4) (fun _ i => 40 + i) [2, 3, 2] heap (by decide) (by
    intro s hs
    simp only [List.mem_cons, List.not_mem_nil, or_false] at hs
    rcases hs with rfl | rfl | rfl
    · exact ⟨_, _, allocT⟩
    · exact ⟨_, _, allocC⟩
    · exact ⟨_, _, allocT⟩)
  exact ⟨hp', vs, h, hl⟩
/-- copied, moved from an `rvalue()`, and from a temporary -/
example : seen (prog.typeCall 1 heap 2 "new".toList prog.valueArg [.dyn tv]) =
    some (Ty.lref 4, 11, 6, [7, 8, 7, 8]) := by decide +kernel
example : seen (prog.typeCall 1 heap 2 "new".toList prog.valueArg [.dyn tv.rvalue]) =
    some (Ty.lref 4, 14, 9, [7, 8, 0, 0]) := by decide +kernel
example : seen (prog.typeCall 1 heap 2 "new".toList prog.valueArg [.native ⟨3, .rvalue, false⟩ 1]) =
    some (Ty.lref 4, 17, 12, [7, 8, 0, 0]) := by decide +kernel
/-- a move-only class without a default constructor -/
example : prog.alloc 1 heap 5 = .error .err := C79_alloc_no_default prog 1 heap 5 5 7 _ false true allocM
example : prog.typeCall 1 heap 5 "new".toList prog.valueArg [.dyn ⟨⟨5, .lvalue, false⟩, 1, none⟩] = .error .err :=
  C79_new_refused prog 1 heap 5 5 7 _ false false true _ allocM (by decide) (by decide +kernel)
example : heap.Ok tv.addr (prog.size 2) ∧ prog.w.isMovable 2 = true ∧ prog.w.env.child 3 2 = true ∧
    prog.w.env.conv 3 2 = false ∧ prog.w.anc 1 3 = some 2 ∧ (prog.w.ty 3).fns.get "new".toList = none ∧
    ((prog.w.ty 2).fns.get "new".toList).isSome = true := by decide +kernel
example : Copied prog tv.arg 2 ∧ MovedFrom prog tv.rvalue.arg 2 :=
  ⟨⟨by decide, by decide, by decide +kernel, by decide⟩, ⟨by decide, by decide, by decide +kernel, by decide⟩⟩

/-- `*p` for the pointer at 4, after the object at 1 was put into it -/
example : ∃ r, prog.callMethod 1 { heap with mem := fun a => if a = 4 then 1 else heap.mem a } ⟨Ty.lref 4, 4, none⟩
      "operator*".toList prog.valueArg [] =
      .ok ({ heap with mem := fun a => if a = 4 then 1 else heap.mem a }, some (.val r)) ∧
    r.addr = 1 ∧ r.owner = none ∧ r.arg = Ty.lref 2 := by
  have := C79_deref prog 0 { heap with mem := fun a => if a = 4 then 1 else heap.mem a } lib 2 4 false
    ⟨Ty.lref 4, 4, none⟩ _ rfl (by decide +kernel) (by
      intro f hf hp a m
      simp only [List.mem_cons, List.not_mem_nil, or_false] at hf
      rcases hf with rfl | rfl <;> rfl)
    (by decide +kernel) (by decide) (by decide) (by decide) (by decide) rfl (by decide)
  simpa [Ty.lref] using this

/-- the hypotheses of `C79_described` and `C79_twice` -/
example : (TypeD.new ['T']).fns.get "new".toList = none ∧ (TypeD.new ['T']).fields.get "new".toList = none := by decide
example : ((described 2 4 ['T'] all).runAll ⟨0, 1, fun a b => a = b, fun _ _ => false⟩ (allocatorOps 4)).2 = .error .err :=
  (C79_twice _ 2 4 all _ rfl (by decide +kernel) (allocators 2 4 all) (by decide +kernel)
    (Fn.make "new".toList (Ty.val 4) [] 12) (by decide +kernel) rfl rfl).2

end AllocDemo

end Reflect

import Verif.Props.Calls
/-
  Properties C67 and C68 for every argument list: a call made from C++ code may mix `Value`s, lvalues
  and temporaries. Each temporary is stored in an object of its own before the function runs.
-/
namespace Reflect
open World

/-- an argument the caller's C++ code passes as a temporary: the object of type `arg.type` at `a` -/
def Actual.IsTemp (x : Actual) (arg : Arg) (a : Nat) : Prop := x = .native arg a ∧ arg.ref ≠ .lvalue

/-- every temporary is a live object of a type that can be copied or (not being const) moved -/
def Storable (p : Prog) (hp : Heap) (as : List Actual) : Prop :=
  ∀ x ∈ as, ∀ arg a, x.IsTemp arg a → hp.Ok a (p.size arg.type) ∧
    ((p.caps arg.type).copyConstructible = true ∨
      (arg.isConst = false ∧ (p.caps arg.type).moveConstructible = true))

/-- no object is passed twice as a temporary, nor overlaps another that is -/
def Apart (p : Prog) (as : List Actual) : Prop :=
  as.Pairwise fun x y => ∀ arg a arg' a', x.IsTemp arg a → y.IsTemp arg' a' →
    a + p.size arg.type ≤ a' ∨ a' + p.size arg'.type ≤ a

/-- the value `v`, in the memory `hv`, the function is handed for the argument `x` of the memory `hp` -/
inductive Handed (p : Prog) (hp hv : Heap) : Actual → Handle → Prop
  /-- a `Value` is handed over as it is -/
  | dyn (h : Handle) : Handed p hp hv (.dyn h) h
  /-- an lvalue is referred to, with its constness -/
  | lvalue (arg : Arg) (a : Nat) : arg.ref = .lvalue → Handed p hp hv (.native arg a) ⟨arg, a, none⟩
  /-- a temporary is stored in a new object the value owns, with its contents, and is moved from only
      if it is not const and can be moved -/
  | temporary (arg : Arg) (a b : Nat) : arg.ref ≠ .lvalue → hp.next ≤ b → hv.Ok b (p.size arg.type) →
      (∀ i < p.size arg.type, hv.mem (b + i) = hp.mem (a + i)) →
      (∀ i < p.size arg.type, hv.mem (a + i) =
        if arg.isConst = false ∧ (p.caps arg.type).moveConstructible = true
        then p.moved arg.type (hp.mem (a + i)) else hp.mem (a + i)) →
      Handed p hp hv (.native arg a) ⟨⟨arg.type, .lvalue, false⟩, b, some b⟩

/-- C67. The arguments of a call: each position is handed over in order as a `Value`, each temporary in
    an object of its own; nothing that existed changes but the temporaries that are moved from. -/
theorem C67_arguments (p : Prog) (as : List Actual) (hp : Heap) (hst : Storable p hp as)
    (hap : Apart p as) :
    ∃ hv vs, p.toHandles hp as = .ok (hv, vs) ∧ vs.length = as.length ∧ hp.next ≤ hv.next ∧
      (∀ i (ha : i < as.length) (hb : i < vs.length), Handed p hp hv as[i] vs[i]) ∧
      (∀ i j (hi : i < as.length) (hj : j < as.length) (hi' : i < vs.length) (hj' : j < vs.length), i < j →
        ∀ arg a arg' a', as[i].IsTemp arg a → as[j].IsTemp arg' a' →
          vs[i].addr + p.size arg.type ≤ vs[j].addr) ∧
      (∀ x < hp.next, (∀ y ∈ as, ∀ arg a, y.IsTemp arg a → x < a ∨ a + p.size arg.type ≤ x) →
        hv.mem x = hp.mem x) := by
  induction as generalizing hp with
  | nil => exact ⟨hp, [], rfl, rfl, Nat.le_refl _, fun i ha => absurd ha (by simp),
      fun i j hi => absurd hi (by simp), fun _ _ _ => rfl⟩
  | cons y as ih =>
    obtain ⟨hap1, hap2⟩ := List.pairwise_cons.1 hap
    have hst' : Storable p hp as := fun z hz => hst z (List.mem_cons_of_mem _ hz)
    -- an argument that is not a temporary
    have plain : ∀ h : Handle, (∀ arg a, ¬ y.IsTemp arg a) → (∀ hv, Handed p hp hv y h) →
        (∀ hv vs, p.toHandles hp as = .ok (hv, vs) → p.toHandles hp (y :: as) = .ok (hv, h :: vs)) →
        ∃ hv vs, p.toHandles hp (y :: as) = .ok (hv, vs) ∧ vs.length = (y :: as).length ∧
          hp.next ≤ hv.next ∧
          (∀ i (ha : i < (y :: as).length) (hb : i < vs.length), Handed p hp hv (y :: as)[i] vs[i]) ∧
          (∀ i j (hi : i < (y :: as).length) (hj : j < (y :: as).length) (hi' : i < vs.length)
            (hj' : j < vs.length), i < j →
            ∀ arg a arg' a', (y :: as)[i].IsTemp arg a → (y :: as)[j].IsTemp arg' a' →
              vs[i].addr + p.size arg.type ≤ vs[j].addr) ∧
          (∀ x < hp.next, (∀ z ∈ y :: as, ∀ arg a, z.IsTemp arg a →
            x < a ∨ a + p.size arg.type ≤ x) → hv.mem x = hp.mem x) := by
      intro h hno hh heq
      obtain ⟨hv, vs, e1, e2, e3, e4, e5, e6⟩ := ih hp hst' hap2
      refine ⟨hv, h :: vs, heq hv vs e1, by simp [e2], e3, ?_, ?_, ?_⟩
      · intro i ha hb
        cases i with
        | zero => exact hh hv
        | succ i => exact e4 i (by simpa using ha) (by simpa using hb)
      · intro i j hi hj hi' hj' hij arg a arg' a' t1 t2
        cases i with
        | zero => exact absurd t1 (hno arg a)
        | succ i =>
          cases j with
          | zero => omega
          | succ j =>
            exact e5 i j (by simpa using hi) (by simpa using hj) (by simpa using hi')
              (by simpa using hj') (by omega) arg a arg' a' t1 t2
      · intro x hx hz
        exact e6 x hx fun z hz' => hz z (List.mem_cons_of_mem _ hz')
    cases y with
    | dyn h =>
      refine plain h (fun arg a t => by cases t.1) (fun hv => .dyn h) (fun hv vs e => ?_)
      simp [Prog.toHandles, e]
    | native arg a =>
      by_cases hl : arg.ref = .lvalue
      · refine plain ⟨arg, a, none⟩ (fun arg' a' t => ?_) (fun hv => .lvalue arg a hl) (fun hv vs e => ?_)
        · cases t.1; exact t.2 hl
        · simp [Prog.toHandles, C67_lvalue_refers p hp arg a hl, e]
      · obtain ⟨hok, hcap⟩ := hst _ List.mem_cons_self arg a ⟨rfl, hl⟩
        obtain ⟨h1, v, w1, w2, w3⟩ := C67_temporary_stored p hp arg a hl hcap hok
        obtain ⟨hlo, hhi⟩ := hok
        obtain ⟨l1, l2⟩ := w2.live
        have hgrow := w2.grow
        have hfresh := w2.fresh
        have hst1 : Storable p h1 as := fun z hz arg' a' t =>
          ⟨⟨(hst' z hz arg' a' t).1.1, Nat.le_trans (hst' z hz arg' a' t).1.2 w2.grow⟩,
            (hst' z hz arg' a' t).2⟩
        obtain ⟨hv, vs, e1, e2, e3, e4, e5, e6⟩ := ih h1 hst1 hap2
        -- the other temporaries are elsewhere
        have hsep : ∀ z ∈ as, ∀ arg' a', z.IsTemp arg' a' →
            a + p.size arg.type ≤ a' ∨ a' + p.size arg'.type ≤ a := fun z hz arg' a' t =>
          hap1 z hz arg a arg' a' ⟨rfl, hl⟩ t
        have hold : ∀ z ∈ as, ∀ arg' a', z.IsTemp arg' a' →
            a' + p.size arg'.type ≤ hp.next := fun z hz arg' a' t => (hst' z hz arg' a' t).1.2
        refine ⟨hv, v :: vs, by simp [Prog.toHandles, w1, e1], by simp [e2], by omega, ?_, ?_, ?_⟩
        · intro i ha hb
          cases i with
          | zero =>
            obtain ⟨va, vb, vo⟩ := v
            obtain rfl : va = ⟨arg.type, .lvalue, false⟩ := w2.arg
            obtain rfl : vo = some vb := w2.owner
            simp only [List.getElem_cons_zero] at *
            refine .temporary arg a vb hl w2.fresh ⟨l1, Nat.le_trans l2 e3⟩ (fun i hi => ?_) (fun i hi => ?_)
            · rw [← w2.same i hi]
              refine e6 _ (by omega) fun z hz arg' a' t => ?_
              have := hold z hz arg' a' t
              omega
            · rw [← w3 i hi]
              refine e6 _ (by omega) fun z hz arg' a' t => ?_
              have := hsep z hz arg' a' t
              omega
          | succ i =>
            have hi : i < as.length := by simpa using ha
            have hm : as[i] ∈ as := List.getElem_mem hi
            have h4 := e4 i hi (by simpa using hb)
            have hvi : i < vs.length := by simpa using hb
            have hgoal : Handed p hp hv as[i] vs[i] := by
              generalize as[i] = z at h4 hm
              generalize vs[i] = u at h4
              cases h4 with
              | dyn _ => exact .dyn _
              | lvalue arg' a' h => exact .lvalue arg' a' h
              | temporary arg' a' b hl' f1 f2 f3 f4 =>
                have h5 := hsep _ hm arg' a' ⟨rfl, hl'⟩
                have h6 := hold _ hm arg' a' ⟨rfl, hl'⟩
                refine .temporary arg' a' b hl' (by omega) f2 (fun i hi => ?_) (fun i hi => ?_)
                · rw [f3 i hi, w2.frame _ (by omega) (by omega)]
                · rw [f4 i hi, w2.frame _ (by omega) (by omega)]
            exact hgoal
        · intro i j hi hj hi' hj' hij arg1 a1 arg' a' t1 t2
          cases j with
          | zero => omega
          | succ j =>
            have hj0 : j < as.length := by simpa using hj
            have hj1 : j < vs.length := by simpa using hj'
            cases i with
            | zero =>
              simp only [List.getElem_cons_zero, List.getElem_cons_succ] at *
              cases t1.1
              have h4 := e4 j hj0 hj1
              generalize as[j] = z at h4 t2
              generalize vs[j] = u at h4
              cases h4 with
              | dyn h => cases t2.1
              | lvalue arg' a' h => cases t2.1; exact absurd h t2.2
              | temporary arg2 a2 b hl' f1 f2 f3 f4 => simp only; omega
            | succ i =>
              exact e5 i j (by simpa using hi) hj0 (by simpa using hi') hj1 (by omega)
                arg1 a1 arg' a' t1 t2
        · intro x hx hz
          rw [e6 x (by omega) fun z hz' => hz z (List.mem_cons_of_mem _ hz'),
            w2.frame x hx (hz _ List.mem_cons_self arg a ⟨rfl, hl⟩)]

/-- C67. When a temporary can be neither copied nor moved the call raises and the function does not run,
    whatever the other arguments are. -/
theorem C67_arguments_refused (p : Prog) (pre post : List Actual) (arg : Arg) (a : Nat) (hp : Heap)
    (hst : Storable p hp pre) (hap : Apart p pre) (h : arg.ref ≠ .lvalue)
    (hc : (p.caps arg.type).copyConstructible = false)
    (hm : arg.isConst = true ∨ (p.caps arg.type).moveConstructible = false) :
    p.toHandles hp (pre ++ .native arg a :: post) = .error .err ∧
    ∀ fuel f want, p.callFn fuel hp f want (pre ++ .native arg a :: post) = .error .err := by
  have key : ∀ (pre : List Actual) (hp : Heap), Storable p hp pre → Apart p pre →
      p.toHandles hp (pre ++ .native arg a :: post) = .error .err := by
    intro pre
    induction pre with
    | nil =>
      intro hp _ _
      simp [Prog.toHandles, C67_temporary_refused p hp arg a h hc hm]
    | cons y pre ih =>
      intro hp hst hap
      have hst' : Storable p hp pre := fun z hz => hst z (List.mem_cons_of_mem _ hz)
      obtain ⟨-, hap2⟩ := List.pairwise_cons.1 hap
      cases y with
      | dyn v => simp [Prog.toHandles, ih hp hst' hap2]
      | native arg' a' =>
        by_cases hl : arg'.ref = .lvalue
        · simp [Prog.toHandles, C67_lvalue_refers p hp arg' a' hl, ih hp hst' hap2]
        · obtain ⟨hok, hcap⟩ := hst _ List.mem_cons_self arg' a' ⟨rfl, hl⟩
          obtain ⟨h1, v, w1, w2, -⟩ := C67_temporary_stored p hp arg' a' hl hcap hok
          have hst1 : Storable p h1 pre := fun z hz arg2 a2 t =>
            ⟨⟨(hst' z hz arg2 a2 t).1.1, Nat.le_trans (hst' z hz arg2 a2 t).1.2 w2.grow⟩,
              (hst' z hz arg2 a2 t).2⟩
          simp [Prog.toHandles, w1, ih h1 hst1 hap2]
  refine ⟨key pre hp hst hap, fun fuel f want => ?_⟩
  unfold Prog.callFn
  split
  · rfl
  · rw [key pre hp hst hap]

/-- an argument of any kind and its parameter: a reference, a `Value`, or a plainly copied by-value
    parameter whose object is live -/
inductive AnyActual (p : Prog) (hp : Heap) : Actual → Arg → Prop
  | ref (x : Actual) (t : Arg) : t.ref = .lvalue → AnyActual p hp x t
  | dyn (x : Actual) (t : Arg) : t = p.valueArg → AnyActual p hp x t
  | byValue (x : Actual) (t : Arg) : t.ref = .copy → PlainCopy p t.type →
      hp.Ok x.handle.addr (p.size t.type) → (∀ arg a, ¬ x.IsTemp arg a) →
      Copied p x.handle.arg t.type → AnyActual p hp x t
  | tempByValue (x : Actual) (t arg : Arg) (a : Nat) : x.IsTemp arg a → t.ref = .copy →
      PlainCopy p t.type → p.size t.type ≤ p.size arg.type →
      Copied p ⟨arg.type, .lvalue, false⟩ t.type → AnyActual p hp x t

/-- C68. A call that succeeds, with any mix of `Value`s, lvalues and temporaries: there were as many
    arguments as parameters; each argument was handed over, in order, as `Handed` says; the body ran on a
    memory in which nothing that existed had changed but the temporaries moved from; a reference
    parameter got the very object of the caller, or the object stored for a temporary; a by-value
    parameter a fresh equal object; a `Value` parameter the value. -/
theorem C68_call_temporaries (p : Prog) (fuel : Nat) (hp hp' : Heap) (f : Fn) (want : Arg)
    (as : List Actual) (out : Option BArg) (hst : Storable p hp as) (hap : Apart p as)
    (hs : ∀ x ∈ as.zip f.args, AnyActual p hp x.1 x.2)
    (h : p.callFn (fuel + 2) hp f want as = .ok (hp', out)) :
    ∃ (hv : Heap) (vs : List Handle) (h1 : Heap) (bs : List BArg) (h2 : Heap) (r : BRet),
      as.length = f.args.length ∧ vs.length = as.length ∧ bs.length = f.args.length ∧
      (∀ i (ha : i < as.length) (hb : i < vs.length), Handed p hp hv as[i] vs[i]) ∧
      hp.next ≤ hv.next ∧
      (∀ x < hp.next, (∀ y ∈ as, ∀ arg a, y.IsTemp arg a → x < a ∨ a + p.size arg.type ≤ x) →
        h1.mem x = hp.mem x) ∧
      (∀ x < hv.next, h1.mem x = hv.mem x) ∧
      (∀ i (ha : i < vs.length) (ht : i < f.args.length) (hb : i < bs.length),
        Sees p hv h1 vs[i] f.args[i] bs[i]) ∧
      p.impl f.body h1 bs = .ok (h2, r) ∧
      ∃ h3 v, p.wrapRet h2 f.ret r = .ok (h3, v) ∧
        p.retCast (p.run (fuel + 2)) h3 v want = .ok (hp', out) := by
  obtain ⟨hv, vs, e1, e2, e3, e4, -, e6⟩ := C67_arguments p as hp hst hap
  unfold Prog.callFn at h
  split at h
  · cases h
  rename_i htest
  have hlen : as.length = f.args.length := by
    refine Classical.byContradiction fun hh => htest ?_
    exact test_none_of_length _ _ _ _ (by simpa using fun e => hh e.symm)
  rw [e1] at h
  simp only [Prog.run] at h
  split at h
  · cases h
  rename_i h3 v3 hrun
  split at hrun
  · cases hrun
  rename_i h1 bs hbind
  split at hrun
  · cases hrun
  rename_i h2 r himpl
  obtain ⟨c1, c2, c3⟩ := C32_call p fuel vs f.args hv h1 bs (by omega)
    (by
      intro x hx
      obtain ⟨i, hi, rfl⟩ := List.getElem_of_mem hx
      have hi1 : i < vs.length := by rw [List.length_zip] at hi; omega
      have hi2 : i < f.args.length := by rw [List.length_zip] at hi; omega
      have hi3 : i < as.length := by omega
      have hany := hs (as[i], f.args[i]) (by
        rw [List.mem_iff_getElem]
        exact ⟨i, by rw [List.length_zip]; omega, by simp⟩)
      have hh := e4 i hi3 hi1
      simp only [List.getElem_zip]
      simp only at hany
      generalize as[i] = z at hany hh
      generalize f.args[i] = t at hany
      generalize vs[i] = u at hh
      cases hany with
      | ref hr => exact .ref ‹_›
      | dyn hr => exact .dyn ‹_›
      | byValue hr hpl hok hno hcp =>
        have hu : u = z.handle := by
          cases hh with
          | dyn h => rfl
          | lvalue arg a h => rfl
          | temporary arg a b hl => exact absurd ⟨rfl, hl⟩ (hno arg a)
        subst hu
        exact .byValue hr hpl ⟨hok.1, Nat.le_trans hok.2 e3⟩ hcp
      | tempByValue arg a ht hr hpl hsz hcp =>
        cases hh with
        | dyn h => cases ht.1
        | lvalue arg' a' h => cases ht.1; exact absurd h ht.2
        | temporary arg' a' b hl f1 f2 =>
          cases ht.1
          exact .byValue hr hpl ⟨f2.1, Nat.le_trans (Nat.add_le_add_left hsz _) f2.2⟩ hcp) hbind
  refine ⟨hv, vs, h1, bs, h2, r, hlen, e2, c1, e4, e3, fun x hx hz => ?_, c2, c3, himpl, h3, v3, hrun, h⟩
  rw [c2 x (by omega), e6 x hx hz]

/-! ### concrete cases -/

namespace TempDemo
open ValueDemo

/-- the demo program with a function of three parameters -/
def prog3 : Prog := { prog with impl := fun
  | 10, hp, _ => .ok (hp, .void)
  | n, hp, bs => ValueDemo.impl 2 n hp bs }

theorem plainT3 : PlainCopy prog3 2 := by
  refine (C32_plumbed prog3 2 ⟨true, true, true, true, true⟩ [] (by decide) (by decide) (by decide)
    rfl rfl rfl (by decide) (by decide) (by simp) ?_ ?_).1
  · intro hp a m h; rfl
  · intro hp a m h; rfl

/-- `f(const T&, T, const T&)` called with a temporary, another one and a `Value` -/
def two : Heap := { heap with next := 5 }
def actuals : List Actual := [.native ⟨2, .rvalue, false⟩ 1, .native ⟨2, .rvalue, true⟩ 3, .dyn obj]
def fn3 : Fn := Fn.make ['f'] ⟨0, .copy, false⟩
  [⟨2, .lvalue, true⟩, ⟨2, .copy, false⟩, ⟨2, .lvalue, true⟩] 10

example : Apart prog3 actuals := by
  unfold Apart actuals
  simp only [List.pairwise_cons, List.mem_cons, List.not_mem_nil, or_false, Actual.IsTemp]
  refine ⟨?_, ?_, fun _ h => h.elim, .nil⟩
  · rintro y (rfl | rfl) arg a arg' a' ⟨h1, -⟩ ⟨h2, -⟩
    · cases h1; cases h2; decide
    · cases h2
  · rintro y rfl arg a arg' a' _ ⟨h2, -⟩
    cases h2

example : Storable prog3 two actuals := by
  intro x hx arg a ⟨h1, _⟩
  subst h1
  simp only [actuals, List.mem_cons, List.not_mem_nil, or_false, reduceCtorEq,
    Actual.native.injEq] at hx
  rcases hx with ⟨rfl, rfl⟩ | ⟨rfl, rfl⟩ <;> decide

example : ∀ x ∈ actuals.zip fn3.args, AnyActual prog3 two x.1 x.2 := by
  intro x hx
  simp only [actuals, fn3, Fn.make, List.zip_cons_cons, List.zip_nil_right, List.mem_cons,
    List.not_mem_nil, or_false] at hx
  rcases hx with rfl | rfl | rfl
  · exact .ref _ _ rfl
  · refine .tempByValue _ _ _ _ ⟨rfl, by decide⟩ rfl plainT3 (by decide) ⟨by decide, by decide, by decide, by decide⟩
  · exact .ref _ _ rfl

example : (prog3.callFn 3 two fn3 ⟨0, .copy, false⟩ actuals).toOption.isSome = true := by decide

end TempDemo

end Reflect

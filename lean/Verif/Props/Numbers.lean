import Verif.Lemmas.Numbers
import Verif.Props.Vector
import Verif.Props.MapFns
/-
  C91 Adding reflected numbers.
-/
namespace Reflect
open World

/-- The type `t` is a reflected number `k`; `sumT` is the C++ type of a sum of two of them. -/
structure ReflectedNumber (p : Prog) (t sumT : Ty) (k : NumT) : Prop where
  distinct : p.w.valueT ≠ p.w.voidT
  plain : PlainCopy p t ∧ p.size t = 1 ∧ p.w.env.conv t t = false
  sumPlain : PlainCopy p sumT ∧ p.size sumT = 1 ∧ p.w.env.conv sumT sumT = false
  plus : ∃ f : Fn, p.w.functionF p.w.fuel t "operator+".toList = .ok [f] ∧ f.args = [t.cref, t.val] ∧ f.ret = sumT.val ∧
    ∀ hp a b c c', p.impl f.body hp [.obj a c, .obj b c'] = numPlus k hp a b

/-- `r` is a value of type `t` that owns a new object of one cell with the contents `c`; besides that, the call changed at most the
temporary it was handed. -/
structure Gives (hp hp' : Heap) (t : Ty) (x : Actual) (r : Handle) (c : Nat) : Prop where
  arg : r.arg = t.lref
  owner : r.owner = some r.addr
  fresh : hp.next ≤ r.addr
  live : hp'.Ok r.addr 1
  cell : hp'.mem r.addr = c
  same : ∀ y < hp.next, ¬ x.Own y → hp'.mem y = hp.mem y
  grow : hp.next ≤ hp'.next

section
variable {p : Prog} {t sumT : Ty} {k : NumT}

theorem ReflectedNumber.fits (V : ReflectedNumber p t sumT k) (o : Handle) (ho : o.arg.type = t) : RefFits p (.dyn o) ⟨t, .lvalue, true⟩ := by
  refine ⟨rfl, ⟨?_, V.plain.1.notValue⟩, ?_, ?_, Or.inl rfl, by rintro _ _ ⟨⟩⟩
  · show o.arg.type ≠ _; rw [ho]; exact V.plain.1.notValue
  · show p.w.env.child o.arg.type t = true; rw [ho]; exact child_refl _ _
  · show p.w.env.conv o.arg.type t = false; rw [ho]; exact V.plain.2.2

/-- what `operator+` does to the bits -/
theorem plus_spec (V : ReflectedNumber p t sumT k) (fuel : Nat) (hp : Heap) (o : Handle) (ho : o.arg.type = t) (hok : hp.Ok o.addr 1)
    (x : Actual) (d : Nat) (hx : Hands p hp t x d) (hap : ¬ x.Own o.addr) :
    (∀ e, k.sum (hp.mem o.addr) d = .error e → p.callMethod (fuel + 2) hp o "operator+".toList p.valueArg [x] = .error e) ∧
    ∀ c, k.sum (hp.mem o.addr) d = .ok c →
      ∃ hp' r, p.callMethod (fuel + 2) hp o "operator+".toList p.valueArg [x] = .ok (hp', some (.val r)) ∧ Gives hp hp' sumT x r c := by
  obtain ⟨f, g1, g2, g3, g4⟩ := V.plus
  obtain ⟨h1, a, k1, k2, k3, k4, k5, k6⟩ := call_number V.plain.1 V.plain.2.1 V.plain.2.2 fuel hp o "operator+".toList p.valueArg f true x d
    (by rw [ho]; exact g1) g2 (V.fits o ho) hx
    (by rw [testReturn_value p V.distinct _ (by rw [g3]; exact V.sumPlain.1.notValue)]; simp)
  have e0 : h1.mem o.addr = hp.mem o.addr := k4 _ (by have := hok.2; omega) hap
  have hok1 : h1.Ok o.addr 1 := ⟨hok.1, by have := hok.2; omega⟩
  rw [k6, g4, numPlus, if_pos ⟨hok1, k2⟩, e0, k3]
  constructor
  · intro e he
    rw [he]
  · intro c hc
    rw [hc]
    have q1 : (h1.newObj (fun _ => c) 1).1.next = h1.next + 1 + 1 := rfl
    have q2 : (h1.newObj (fun _ => c) 1).2 = h1.next := rfl
    have hpos := hok1.1
    have hnx := hok1.2
    obtain ⟨h3, u, w1, w2, -⟩ := C67_temporary_stored p (h1.newObj (fun _ => c) 1).1 f.ret h1.next (by rw [g3]; simp [Ty.val])
      (by rw [g3]; exact Or.inl V.sumPlain.1.copyable)
      (by rw [g3, show sumT.val.type = sumT from rfl, V.sumPlain.2.1]; exact ⟨by omega, by omega⟩)
    simp only [Prog.wrapRet, q2]
    rw [w1]
    simp only
    rw [retCast_value p V.distinct]
    have ft : f.ret.type = sumT := by rw [g3]; rfl
    rw [ft] at w2
    have hs := w2.same 0 (by rw [V.sumPlain.2.1]; omega)
    have hf := w2.fresh
    have hfr := w2.frame
    have hg := w2.grow
    have hl := w2.live
    rw [V.sumPlain.2.1] at hfr hl
    refine ⟨h3, u, rfl, w2.arg, w2.owner, by omega, hl, ?_, ?_, by omega⟩
    · rw [Nat.add_zero, Nat.add_zero] at hs
      rw [hs]
      exact newObj_new h1 (fun _ => c) 1 0 (by omega)
    · intro y hy hn
      rw [hfr y (by omega) (by omega), newObj_old _ _ _ _ (by omega), k4 y hy hn]

/-- C91. The sum of two numbers of a type narrower than `int` - `bool`, `char`, `short` - is an `int`, and exact: it always fits. -/
theorem C91_narrow {w : Nat} {s : Bool} (V : ReflectedNumber p t sumT (.int w s)) (hw : 0 < w) (hn : w + 1 < intWidth) (fuel : Nat) (hp : Heap) (o : Handle)
    (ho : o.arg.type = t) (hok : hp.Ok o.addr 1) (v : Int) (hv : IntCell w s (hp.mem o.addr) v)
    (x : Actual) (d : Nat) (hx : Hands p hp t x d) (hap : ¬ x.Own o.addr) (u : Int) (hu : IntCell w s d u) :
    ∃ hp' r c, p.callMethod (fuel + 2) hp o "operator+".toList p.valueArg [x] = .ok (hp', some (.val r)) ∧ Gives hp hp' sumT x r c ∧
      IntCell intWidth true c (v + u) := by
  have hf := narrow_fits hw hn hv.1 hu.1
  have hc := cell_bits (by decide) hf
  have hs : (NumT.int w s).sum (hp.mem o.addr) d = .ok (NumT.bits intWidth (v + u)) := by
    have hpr : (NumT.int w s).promoted = .int intWidth true := by unfold NumT.promoted; exact if_pos (by omega)
    unfold NumT.sum
    rw [hpr]
    simp only [cell_value hw hv, cell_value hw hu]
    unfold HasInt at hf
    rw [if_pos rfl] at hf
    rw [if_neg (by rintro ⟨-, q⟩; omega)]
  obtain ⟨hp', r, h1, h2⟩ := (plus_spec V fuel hp o ho hok x d hx hap).2 _ hs
  exact ⟨hp', r, _, h1, h2, hc⟩

/-- C91. The sum of two numbers of `int` or a wider signed type is of that type, and exact if it fits; if it does not, the call is undefined. -/
theorem C91_signed {w : Nat} (V : ReflectedNumber p t sumT (.int w true)) (hn : intWidth ≤ w) (fuel : Nat) (hp : Heap) (o : Handle)
    (ho : o.arg.type = t) (hok : hp.Ok o.addr 1) (v : Int) (hv : IntCell w true (hp.mem o.addr) v)
    (x : Actual) (d : Nat) (hx : Hands p hp t x d) (hap : ¬ x.Own o.addr) (u : Int) (hu : IntCell w true d u) :
    (HasInt w true (v + u) →
      ∃ hp' r c, p.callMethod (fuel + 2) hp o "operator+".toList p.valueArg [x] = .ok (hp', some (.val r)) ∧ Gives hp hp' sumT x r c ∧
        IntCell w true c (v + u)) ∧
    (¬ HasInt w true (v + u) → p.callMethod (fuel + 2) hp o "operator+".toList p.valueArg [x] = .error .ub) := by
  have hw : 0 < w := by unfold intWidth at hn; omega
  have hs : (NumT.int w true).sum (hp.mem o.addr) d =
      if v + u < -2 ^ (w - 1) ∨ 2 ^ (w - 1) ≤ v + u then .error .ub else .ok (NumT.bits w (v + u)) := by
    have hpr : (NumT.int w true).promoted = .int w true := by unfold NumT.promoted; exact if_neg (by omega)
    unfold NumT.sum
    rw [hpr]
    simp only [cell_value hw hv, cell_value hw hu, true_and]
  constructor
  · intro hf
    have hc := cell_bits hw hf
    unfold HasInt at hf
    rw [if_pos rfl] at hf
    rw [if_neg (by omega)] at hs
    obtain ⟨hp', r, h1, h2⟩ := (plus_spec V fuel hp o ho hok x d hx hap).2 _ hs
    exact ⟨hp', r, _, h1, h2, hc⟩
  · intro hf
    unfold HasInt at hf
    rw [if_pos rfl] at hf
    rw [if_pos (by omega)] at hs
    exact (plus_spec V fuel hp o ho hok x d hx hap).1 _ hs

/-- C91. The sum of two numbers of `unsigned int` or a wider unsigned type is of that type; it is the sum, less 2 ^ w if that is too much. -/
theorem C91_unsigned {w : Nat} (V : ReflectedNumber p t sumT (.int w false)) (hn : intWidth ≤ w) (fuel : Nat) (hp : Heap) (o : Handle)
    (ho : o.arg.type = t) (hok : hp.Ok o.addr 1) (v : Int) (hv : IntCell w false (hp.mem o.addr) v)
    (x : Actual) (d : Nat) (hx : Hands p hp t x d) (hap : ¬ x.Own o.addr) (u : Int) (hu : IntCell w false d u) :
    ∃ hp' r c, p.callMethod (fuel + 2) hp o "operator+".toList p.valueArg [x] = .ok (hp', some (.val r)) ∧ Gives hp hp' sumT x r c ∧
      IntCell w false c (if v + u < 2 ^ w then v + u else v + u - 2 ^ w) := by
  have hw : 0 < w := by unfold intWidth at hn; omega
  have hs : (NumT.int w false).sum (hp.mem o.addr) d = .ok (NumT.bits w (v + u)) := by
    have hpr : (NumT.int w false).promoted = .int w false := by unfold NumT.promoted; exact if_neg (by omega)
    unfold NumT.sum
    rw [hpr]
    simp only [cell_value hw hv, cell_value hw hu, Bool.false_eq_true, false_and, if_false]
  obtain ⟨hp', r, h1, h2⟩ := (plus_spec V fuel hp o ho hok x d hx hap).2 _ hs
  have hm : (v + u) % 2 ^ w = if v + u < 2 ^ w then v + u else v + u - 2 ^ w := by
    have hv' := hv.1
    have hu' := hu.1
    unfold HasInt at hv' hu'
    rw [if_neg (by simp)] at hv' hu'
    generalize (2 : Int) ^ w = a at *
    split
    · exact Int.emod_eq_of_lt (by omega) (by omega)
    · rw [← Int.sub_emod_right, Int.emod_eq_of_lt (by omega) (by omega)]
  refine ⟨hp', r, _, h1, h2, ?_⟩
  rw [← hm, ← bits_emod]
  exact cell_bits hw (has_emod w _)

/-- C91. The sum of two floating point numbers is what the machine makes of them. -/
theorem C91_float {add : Nat → Nat → Nat} (V : ReflectedNumber p t sumT (.float add)) (fuel : Nat) (hp : Heap) (o : Handle)
    (ho : o.arg.type = t) (hok : hp.Ok o.addr 1) (x : Actual) (d : Nat) (hx : Hands p hp t x d) (hap : ¬ x.Own o.addr) :
    ∃ hp' r, p.callMethod (fuel + 2) hp o "operator+".toList p.valueArg [x] = .ok (hp', some (.val r)) ∧ Gives hp hp' sumT x r (add (hp.mem o.addr) d) :=
  (plus_spec V fuel hp o ho hok x d hx hap).2 _ rfl

/-- C91. The type of the sum has to be asked for: `call<T>("operator+", x)` of a number of a type `T` whose sums have another type, such as
`short`, is refused, whatever is handed over, and nothing runs. -/
theorem C91_refused (V : ReflectedNumber p t sumT k) (hc : p.w.env.child sumT t = false) (hnc : p.w.env.conv sumT t = false) (fuel : Nat)
    (hp : Heap) (o : Handle) (ho : o.arg.type = t) (as : List Actual) :
    p.callMethod fuel hp o "operator+".toList t.val as = .error .err := by
  obtain ⟨f, g1, g2, g3, g4⟩ := V.plus
  have hr : testReturn p.w.env t.val f.ret = .none := by
    rw [g3]
    unfold testReturn
    rw [if_neg (show ¬ t.val.type = p.w.env.voidT from V.plain.1.notVoid), if_neg (show ¬ sumT.val.type = p.w.env.voidT from V.sumPlain.1.notVoid)]
    have : isConvertibleTo p.w.env sumT.val t.val = .none := by
      rw [Ty.val, Ty.val, convertible_static p.w.env _ _ _ _ _ _ (not_dynamic p.w.env _ _ V.sumPlain.1.notValue V.plain.1.notValue _ _ _ _), hnc, hc]
      have hne : sumT ≠ t := fun h => by rw [h, child_refl] at hc; cases hc
      simp [hne]
    rw [this]; simp
  have ht : f.test p.w.env t.val ((Actual.dyn o :: as).map Actual.arg) = .none := by
    unfold Fn.test
    rw [hr]
    cases testArguments p.w.env ((Actual.dyn o :: as).map Actual.arg) f.args <;> rfl
  unfold Prog.callMethod
  rw [ho, g1]
  dsimp only
  unfold Prog.callOv
  rw [select_single, if_pos ht]

/-- C91. `call<sumT>("operator+", x)` is what `call<Value>` gives, as a number: a new object with the same bits, or the same error. -/
theorem C91_number (V : ReflectedNumber p t sumT k) (fuel : Nat) (hp : Heap) (o : Handle) (ho : o.arg.type = t) (hok : hp.Ok o.addr 1)
    (x : Actual) (d : Nat) (hx : Hands p hp t x d) (hap : ¬ x.Own o.addr) :
    (∀ e, p.callMethod (fuel + 2) hp o "operator+".toList p.valueArg [x] = .error e →
      p.callMethod (fuel + 2) hp o "operator+".toList sumT.val [x] = .error e) ∧
    ∀ hp' r c, p.callMethod (fuel + 2) hp o "operator+".toList p.valueArg [x] = .ok (hp', some (.val r)) → Gives hp hp' sumT x r c →
      ∃ h4 a, p.callMethod (fuel + 2) hp o "operator+".toList sumT.val [x] = .ok (h4, some (.obj a true)) ∧ h4.mem a = c ∧
        (∀ y < hp.next, ¬ x.Own y → h4.mem y = hp.mem y) ∧ hp.next ≤ h4.next := by
  obtain ⟨f, g1, g2, g3, g4⟩ := V.plus
  obtain ⟨h1, a, k1, k2, k3, k4, k5, k6⟩ := call_number V.plain.1 V.plain.2.1 V.plain.2.2 fuel hp o "operator+".toList sumT.val f true x d
    (by rw [ho]; exact g1) g2 (V.fits o ho) hx (by rw [g3]; exact size_ret V.sumPlain.1)
  have e0 : h1.mem o.addr = hp.mem o.addr := k4 _ (by have := hok.2; omega) hap
  have hok1 : h1.Ok o.addr 1 := ⟨hok.1, by have := hok.2; omega⟩
  obtain ⟨s1, s2⟩ := plus_spec V fuel hp o ho hok x d hx hap
  rw [k6, g4, numPlus, if_pos ⟨hok1, k2⟩, e0, k3]
  cases hq : k.sum (hp.mem o.addr) d with
  | error e =>
    refine ⟨?_, ?_⟩
    · intro e' he
      rw [s1 e hq] at he
      cases he
      rfl
    · intro hp' r c he
      rw [s1 e hq] at he
      cases he
  | ok c =>
    obtain ⟨hp0, r0, t1, t2⟩ := s2 c hq
    refine ⟨?_, ?_⟩
    · intro e' he
      rw [t1] at he
      cases he
    · intro hp' r c' he hg
      rw [t1] at he
      cases he
      have hcc : c' = c := by rw [← hg.cell, t2.cell]
      subst hcc
      have q1 : (h1.newObj (fun _ => c') 1).1.next = h1.next + 1 + 1 := rfl
      have q2 : (h1.newObj (fun _ => c') 1).2 = h1.next := rfl
      have hpos := hok1.1
      have hnx := hok1.2
      obtain ⟨h4, b, w1, w2, w3, w4⟩ := ret_number V.sumPlain.1 V.sumPlain.2.1 V.sumPlain.2.2 (fuel + 1) (h1.newObj (fun _ => c') 1).1 h1.next
        ⟨by omega, by omega⟩
      refine ⟨h4, b, ?_, ?_, ?_, by omega⟩
      · rw [g3]
        exact w1
      · rw [w2]
        exact newObj_new h1 (fun _ => c') 1 0 (by omega)
      · intro y hy hn
        rw [w3 y (by omega) (by omega), newObj_old _ _ _ _ (by omega), k4 y hy hn]

/-- the argument is a kept object - not a temporary - of the integer type, and holds the number `v` -/
structure Summand (p : Prog) (t : Ty) (w : Nat) (s : Bool) (hp : Heap) (x : Actual) (v : Int) : Prop where
  kept : ∀ arg a, x = .native arg a → arg.ref = .lvalue
  copied : Copied p x.arg t
  live : hp.Ok x.handle.addr 1
  holds : IntCell w s (hp.mem x.handle.addr) v

theorem Summand.hands {w : Nat} {s : Bool} {hp : Heap} {x : Actual} {v : Int} (h : Summand p t w s hp x v) :
    Hands p hp t x (hp.mem x.handle.addr) := .kept x h.kept h.copied h.live

theorem Summand.notOwn {w : Nat} {s : Bool} {hp : Heap} {x : Actual} {v : Int} (h : Summand p t w s hp x v) (y : Nat) : ¬ x.Own y := by
  rintro ⟨arg, h1, h2⟩
  exact h1 (h.kept arg y h2)

theorem Summand.later {w : Nat} {s : Bool} {hp hp' : Heap} {x : Actual} {v : Int} (h : Summand p t w s hp x v)
    (hs : ∀ y < hp.next, hp'.mem y = hp.mem y) (hg : hp.next ≤ hp'.next) : Summand p t w s hp' x v := by
  have hl := h.live
  refine ⟨h.kept, h.copied, ⟨hl.1, by have := hl.2; omega⟩, ?_⟩
  rw [hs _ (by have := hl.2; omega)]
  exact h.holds

/-- C91. Adding one number after the other, in `unsigned int` or a wider unsigned type: the result is the total modulo 2 ^ w, however many there
are and in whatever order they come. Nothing that existed before is changed. -/
theorem C91_total_unsigned {w : Nat} (V : ReflectedNumber p t t (.int w false)) (hn : intWidth ≤ w) (fuel : Nat) (xs : List (Actual × Int)) :
    ∀ (hp : Heap) (o : Handle) (v : Int), o.arg.type = t → hp.Ok o.addr 1 → IntCell w false (hp.mem o.addr) v →
    (∀ q ∈ xs, Summand p t w false hp q.1 q.2) →
    ∃ hp' r, p.addAll (fuel + 2) hp o (xs.map Prod.fst) = .ok (hp', r) ∧ r.arg.type = t ∧ hp'.Ok r.addr 1 ∧
      IntCell w false (hp'.mem r.addr) ((v + (xs.map Prod.snd).sum) % 2 ^ w) ∧ (∀ y < hp.next, hp'.mem y = hp.mem y) ∧ hp.next ≤ hp'.next := by
  induction xs with
  | nil =>
    intro hp o v ho hok hv _
    refine ⟨hp, o, rfl, ho, hok, ?_, fun _ _ => rfl, Nat.le_refl _⟩
    have h1 := hv.1
    unfold HasInt at h1
    rw [if_neg (by simp)] at h1
    simp only [List.map_nil, List.sum_nil, Int.add_zero]
    rw [Int.emod_eq_of_lt h1.1 h1.2]
    exact hv
  | cons q xs ih =>
    intro hp o v ho hok hv hall
    have hq := hall q List.mem_cons_self
    obtain ⟨hp1, r1, c, h1, h2, h3⟩ := C91_unsigned V hn fuel hp o ho hok v hv q.1 _ hq.hands (hq.notOwn _) q.2 hq.holds
    have hs : ∀ y < hp.next, hp1.mem y = hp.mem y := fun y hy => h2.same y hy (hq.notOwn y)
    rw [← h2.cell] at h3
    obtain ⟨hp', r, e1, e2, e3, e4, e5, e6⟩ := ih hp1 r1 _ (by rw [h2.arg]; rfl) h2.live h3
      fun q' hq' => (hall q' (List.mem_cons_of_mem _ hq')).later hs h2.grow
    have hg := h2.grow
    refine ⟨hp', r, ?_, e2, e3, ?_, fun y hy => by rw [e5 y (by omega), hs y hy], by omega⟩
    · simp only [List.map_cons, Prog.addAll]
      rw [h1]
      exact e1
    · simp only [List.map_cons, List.sum_cons]
      rw [← Int.add_assoc]
      generalize (xs.map Prod.snd).sum = z at *
      split at e4
      · exact e4
      · have : (v + q.2 - 2 ^ w + z) % 2 ^ w = (v + q.2 + z) % 2 ^ w := by
          rw [show v + q.2 - 2 ^ w + z = v + q.2 + z - 2 ^ w by omega, Int.sub_emod_right]
        rw [this] at e4
        exact e4

/-- C91. Adding one number after the other, in `int` or a wider signed type: the result is the exact total if every sum on the way fits; if one
does not, the program is undefined - even where the total would fit. -/
theorem C91_total_signed {w : Nat} (V : ReflectedNumber p t t (.int w true)) (hn : intWidth ≤ w) (fuel : Nat) (xs : List (Actual × Int)) :
    ∀ (hp : Heap) (o : Handle) (v : Int), o.arg.type = t → hp.Ok o.addr 1 → IntCell w true (hp.mem o.addr) v →
    (∀ q ∈ xs, Summand p t w true hp q.1 q.2) →
    ((∀ u ∈ runningSums v (xs.map Prod.snd), HasInt w true u) →
      ∃ hp' r, p.addAll (fuel + 2) hp o (xs.map Prod.fst) = .ok (hp', r) ∧ r.arg.type = t ∧ hp'.Ok r.addr 1 ∧
        IntCell w true (hp'.mem r.addr) (v + (xs.map Prod.snd).sum) ∧ (∀ y < hp.next, hp'.mem y = hp.mem y) ∧ hp.next ≤ hp'.next) ∧
    ((∃ u ∈ runningSums v (xs.map Prod.snd), ¬ HasInt w true u) → p.addAll (fuel + 2) hp o (xs.map Prod.fst) = .error .ub) := by
  induction xs with
  | nil =>
    intro hp o v ho hok hv _
    refine ⟨fun _ => ⟨hp, o, rfl, ho, hok, by simpa using hv, fun _ _ => rfl, Nat.le_refl _⟩, ?_⟩
    rintro ⟨u, hu, -⟩
    cases hu
  | cons q xs ih =>
    intro hp o v ho hok hv hall
    have hq := hall q List.mem_cons_self
    obtain ⟨f1, f2⟩ := C91_signed V hn fuel hp o ho hok v hv q.1 _ hq.hands (hq.notOwn _) q.2 hq.holds
    by_cases hf : HasInt w true (v + q.2)
    · obtain ⟨hp1, r1, c, h1, h2, h3⟩ := f1 hf
      have hs : ∀ y < hp.next, hp1.mem y = hp.mem y := fun y hy => h2.same y hy (hq.notOwn y)
      rw [← h2.cell] at h3
      have hg := h2.grow
      obtain ⟨i1, i2⟩ := ih hp1 r1 _ (by rw [h2.arg]; rfl) h2.live h3
        fun q' hq' => (hall q' (List.mem_cons_of_mem _ hq')).later hs h2.grow
      have hstep : p.addAll (fuel + 2) hp o ((q :: xs).map Prod.fst) = p.addAll (fuel + 2) hp1 r1 (xs.map Prod.fst) := by
        simp only [List.map_cons, Prog.addAll]
        rw [h1]
      rw [hstep]
      simp only [List.map_cons, runningSums, List.sum_cons]
      refine ⟨?_, ?_⟩
      · intro hu
        obtain ⟨hp', r, e1, e2, e3, e4, e5, e6⟩ := i1 fun u h => hu u (List.mem_cons_of_mem _ h)
        exact ⟨hp', r, e1, e2, e3, by rw [← Int.add_assoc]; exact e4, fun y hy => by rw [e5 y (by omega), hs y hy], by omega⟩
      · rintro ⟨u, hu, hnu⟩
        simp only [List.mem_cons] at hu
        rcases hu with rfl | hu
        · exact absurd hf hnu
        · exact i2 ⟨u, hu, hnu⟩
    · refine ⟨fun hu => absurd (hu _ (by simp [runningSums])) hf, fun _ => ?_⟩
      simp only [List.map_cons, Prog.addAll]
      rw [f2 hf]

end

/-! A program with `short`, `int`, `unsigned` and a floating point type, and objects of them. -/
namespace NumberDemo

def ops (t : Ty) (id : Name) (sum : Ty) (b : Nat) : List (Name × List Fn) :=
  [(id, [Fn.make id t.val [] 20, Fn.make id t.val [t.cref] 21, Fn.make id t.val [t.rref] 23]),
   ("operator+".toList, [Fn.make "operator+".toList sum.val [t.cref, t.val] b])]

def world : World :=
  { n := 6, voidT := 0, valueT := 1
    ty := fun t => match t with
      | 0 => TypeD.new "void".toList
      | 1 => TypeD.new "reflect::Value".toList
      | 2 => { TypeD.new "short".toList with fns := ops 2 "short".toList 3 30 }
      | 3 => { TypeD.new "int".toList with fns := ops 3 "int".toList 3 31 }
      | 4 => { TypeD.new "unsigned".toList with fns := ops 4 "unsigned".toList 4 32 }
      | 5 => { TypeD.new "float".toList with fns := ops 5 "float".toList 5 33 }
      | _ => TypeD.new ['o'] }

/-- some addition of floating point numbers -/
def addF (a b : Nat) : Nat := max a b

def impl (b : Nat) (hp : Heap) (as : List BArg) : Res (Heap × BRet) :=
  match b, as with
  | 20, [] => let r := hp.newObj (fun _ => 0) 1; .ok (r.1, .obj r.2)
  | 21, [.obj a _] => (hp.copyObj 1 a).map fun r => (r.1, .obj r.2)
  | 23, [.obj a _] => (hp.moveObj id 1 a).map fun r => (r.1, .obj r.2)
  | 30, [.obj a _, .obj c _] => numPlus (.int 16 true) hp a c
  | 31, [.obj a _, .obj c _] => numPlus (.int 32 true) hp a c
  | 32, [.obj a _, .obj c _] => numPlus (.int 32 false) hp a c
  | 33, [.obj a _, .obj c _] => numPlus (.float addF) hp a c
  | _, _ => .error .ub

def prog : Prog :=
  { w := world, size := fun _ => 1, caps := fun _ => regular, moved := fun _ => id, junk := .copy, impl := impl }

theorem plain (t : Ty) (id : Name) (ht : (t = 2 ∧ id = "short".toList) ∨ (t = 3 ∧ id = "int".toList) ∨ (t = 4 ∧ id = "unsigned".toList) ∨ (t = 5 ∧ id = "float".toList)) :
    PlainCopy prog t ∧ prog.size t = 1 ∧ prog.w.env.conv t t = false := by
  refine ⟨⟨?_, ?_, by decide, ?_, rfl, rfl, [Fn.make id t.val [] 20], Fn.make id t.val [t.cref] 21, [Fn.make id t.val [t.rref] 23], ?_,
    ⟨rfl, rfl, fun _ _ _ _ => rfl⟩, ?_⟩, rfl, ?_⟩
  · rcases ht with ⟨rfl, -⟩ | ⟨rfl, -⟩ | ⟨rfl, -⟩ | ⟨rfl, -⟩ <;> decide
  · rcases ht with ⟨rfl, -⟩ | ⟨rfl, -⟩ | ⟨rfl, -⟩ | ⟨rfl, -⟩ <;> decide
  · rcases ht with ⟨rfl, -⟩ | ⟨rfl, -⟩ | ⟨rfl, -⟩ | ⟨rfl, -⟩ <;> decide +kernel
  · rcases ht with ⟨rfl, rfl⟩ | ⟨rfl, rfl⟩ | ⟨rfl, rfl⟩ | ⟨rfl, rfl⟩ <;> decide +kernel
  · intro g hg
    simp only [List.cons_append, List.nil_append, List.mem_cons, List.not_mem_nil, or_false] at hg
    rcases hg with rfl | rfl
    · exact Or.inr (Or.inl (by simp [Fn.make]))
    · exact Or.inl ⟨rfl, rfl, fun _ _ _ _ => rfl⟩
  · rcases ht with ⟨rfl, -⟩ | ⟨rfl, -⟩ | ⟨rfl, -⟩ | ⟨rfl, -⟩ <;> decide +kernel

theorem shortT : ReflectedNumber prog 2 3 (.int 16 true) :=
  ⟨by decide, plain 2 "short".toList (by simp), plain 3 "int".toList (by simp),
    Fn.make "operator+".toList (Ty.val 3) [Ty.cref 2, Ty.val 2] 30, by decide +kernel, rfl, rfl, fun _ _ _ _ _ => rfl⟩

theorem intT : ReflectedNumber prog 3 3 (.int 32 true) :=
  ⟨by decide, plain 3 "int".toList (by simp), plain 3 "int".toList (by simp),
    Fn.make "operator+".toList (Ty.val 3) [Ty.cref 3, Ty.val 3] 31, by decide +kernel, rfl, rfl, fun _ _ _ _ _ => rfl⟩

theorem unsignedT : ReflectedNumber prog 4 4 (.int 32 false) :=
  ⟨by decide, plain 4 "unsigned".toList (by simp), plain 4 "unsigned".toList (by simp),
    Fn.make "operator+".toList (Ty.val 4) [Ty.cref 4, Ty.val 4] 32, by decide +kernel, rfl, rfl, fun _ _ _ _ _ => rfl⟩

theorem floatT : ReflectedNumber prog 5 5 (.float addF) :=
  ⟨by decide, plain 5 "float".toList (by simp), plain 5 "float".toList (by simp),
    Fn.make "operator+".toList (Ty.val 5) [Ty.cref 5, Ty.val 5] 33, by decide +kernel, rfl, rfl, fun _ _ _ _ _ => rfl⟩

/-- at 1 the short -3, at 2 the short 7, at 3 the int 2 ^ 31 - 1, at 4 the int -1, at 5 the unsigned 2 ^ 32 - 1, at 6 the unsigned 9 -/
def heap : Heap := ⟨fun y => [0, 2 ^ 16 - 3, 7, 2 ^ 31 - 1, 2 ^ 32 - 1, 2 ^ 32 - 1, 9].getD y 0, 7⟩

def obj (t : Ty) (a : Nat) : Handle := ⟨t.lref, a, none⟩

theorem summand (t : Ty) (w : Nat) (s : Bool) (a : Nat) (v : Int) (ht : t = 2 ∨ t = 3 ∨ t = 4) (ha : 0 < a ∧ a < 7) (hv : IntCell w s (heap.mem a) v) :
    Summand prog t w s heap (.dyn (obj t a)) v := by
  refine ⟨by rintro _ _ ⟨⟩, ⟨?_, child_refl _ _, ?_, by simp [obj, Ty.lref, Actual.arg]⟩, ⟨ha.1, by show a + 1 ≤ 7; omega⟩, hv⟩
  · show t ≠ (1 : Ty)
    rcases ht with rfl | rfl | rfl <;> decide
  · show prog.w.env.conv t t = false
    rcases ht with rfl | rfl | rfl <;> decide +kernel

/-- -3 + 7, two shorts: the int 4 -/
example : ∃ hp' r c, prog.callMethod 5 heap (obj 2 1) "operator+".toList prog.valueArg [.dyn (obj 2 2)] = .ok (hp', some (.val r)) ∧
    Gives heap hp' 3 (.dyn (obj 2 2)) r c ∧ IntCell 32 true c (-3 + 7) :=
  have s := summand 2 16 true 2 7 (by simp) (by decide) (by unfold IntCell; decide)
  C91_narrow shortT (by decide) (by decide) 3 heap (obj 2 1) rfl (by decide) (-3) (by unfold IntCell; decide) _ _ s.hands (s.notOwn _) 7 s.holds

/-- the same, asked for as a short, is refused -/
example : prog.callMethod 5 heap (obj 2 1) "operator+".toList (Ty.val 2) [.dyn (obj 2 2)] = .error .err :=
  C91_refused shortT (by decide +kernel) (by decide +kernel) 5 heap (obj 2 1) rfl _

/-- 2 ^ 31 - 1 + -1 + -1 is fine -/
example : ∃ hp' r, prog.addAll 5 heap (obj 3 3) [.dyn (obj 3 4), .dyn (obj 3 4)] = .ok (hp', r) ∧ IntCell 32 true (hp'.mem r.addr) (2 ^ 31 - 3) := by
  have s := summand 3 32 true 4 (-1) (by simp) (by decide) (by unfold IntCell; decide)
  obtain ⟨hp', r, h1, -, -, h2, -⟩ := (C91_total_signed intT (by decide) 3 [(.dyn (obj 3 4), -1), (.dyn (obj 3 4), -1)] heap (obj 3 3) (2 ^ 31 - 1) rfl
    (by decide) (by unfold IntCell; decide) (by intro q hq; simp only [List.mem_cons, List.not_mem_nil, or_false, or_self] at hq; subst hq; exact s)).1 (by decide)
  exact ⟨hp', r, h1, h2⟩

/-- -1 + (2 ^ 31 - 1) + (2 ^ 31 - 1) is undefined -/
example : prog.addAll 5 heap (obj 3 4) [.dyn (obj 3 3), .dyn (obj 3 3)] = .error .ub := by
  have s := summand 3 32 true 3 (2 ^ 31 - 1) (by simp) (by decide) (by unfold IntCell; decide)
  exact (C91_total_signed intT (by decide) 3 [(.dyn (obj 3 3), 2 ^ 31 - 1), (.dyn (obj 3 3), 2 ^ 31 - 1)] heap (obj 3 4) (-1) rfl
    (by decide) (by unfold IntCell; decide) (by intro q hq; simp only [List.mem_cons, List.not_mem_nil, or_false, or_self] at hq; subst hq; exact s)).2 (by decide)

/-- 2 ^ 32 - 1 + 9 wraps to 8 -/
example : ∃ hp' r, prog.addAll 5 heap (obj 4 5) [.dyn (obj 4 6)] = .ok (hp', r) ∧ IntCell 32 false (hp'.mem r.addr) 8 := by
  have s := summand 4 32 false 6 9 (by simp) (by decide) (by unfold IntCell; decide)
  obtain ⟨hp', r, h1, -, -, h2, -⟩ := C91_total_unsigned unsignedT (by decide) 3 [(.dyn (obj 4 6), 9)] heap (obj 4 5) (2 ^ 32 - 1) rfl
    (by decide) (by unfold IntCell; decide) (by intro q hq; simp only [List.mem_cons, List.not_mem_nil, or_false] at hq; subst hq; exact s)
  exact ⟨hp', r, h1, by simpa using h2⟩

end NumberDemo

end Reflect

import Verif.Model.Limits
import Verif.Props.Numbers
import Verif.Props.Traits
/-
  C92 The limits of reflected integers.
-/
namespace Reflect
open World

/-- later on the memory is as it was, apart from what was made since -/
def Heap.Left (h later : Heap) : Prop := (∀ y < h.next, later.mem y = h.mem y) ∧ h.next ≤ later.next

theorem Heap.Left.refl (h : Heap) : h.Left h := ⟨fun _ _ => rfl, Nat.le_refl _⟩

theorem Heap.Left.trans {a b c : Heap} (h1 : a.Left b) (h2 : b.Left c) : a.Left c :=
  ⟨fun y hy => by rw [h2.1 y (by have := h1.2; omega), h1.1 y hy], Nat.le_trans h1.2 h2.2⟩

section
variable {p : Prog} {t : Ty}

theorem min_cell {w : Nat} (s : Bool) (hw : 0 < w) : IntCell w s (NumT.minBits w s) (if s then -2 ^ (w - 1) else 0) := by
  unfold NumT.minBits
  have := pow_pos' (w - 1)
  have := pow_pos' w
  cases s
  · refine ⟨⟨by simp, by simpa using pow_pos' w⟩, by simp⟩
  · refine cell_bits hw ?_
    unfold HasInt
    simp only [if_true]
    omega

theorem max_cell {w : Nat} (s : Bool) (hw : 0 < w) : IntCell w s (NumT.maxBits w s) (if s then 2 ^ (w - 1) - 1 else 2 ^ w - 1) := by
  unfold NumT.maxBits
  refine cell_bits hw ?_
  have := pow_pos' (w - 1)
  have := pow_pos' w
  unfold HasInt
  cases s
  · simp only [Bool.false_eq_true, if_false]; omega
  · simp only [if_true]; omega

theorem addLimit_spec (ht : PlainCopy p t) (h1 : p.size t = 1) (hp : Heap) (m : Traits) (name : Name) (c : Nat)
    (hpos : 0 < hp.next) (hm : m.get name = none) :
    ∃ hp' v, p.addLimit hp m t name c = .ok (hp', Assoc.set m name v) ∧ v.arg = t.lref ∧ hp.next ≤ v.addr ∧ hp'.Ok v.addr 1 ∧ hp'.mem v.addr = c ∧
      hp.Left hp' := by
  have q1 : (hp.newObj (fun _ => c) 1).1.next = hp.next + 1 + 1 := rfl
  have q2 : (hp.newObj (fun _ => c) 1).2 = hp.next := rfl
  obtain ⟨h3, u, w1, w2, -⟩ := C67_temporary_stored p (hp.newObj (fun _ => c) 1).1 t.rref hp.next (by simp [Ty.rref]) (Or.inl ht.copyable)
    (by rw [show t.rref.type = t from rfl, h1]; exact ⟨hpos, by omega⟩)
  rw [show t.rref.type = t from rfl] at w2
  have hs := w2.same 0 (by rw [h1]; omega)
  rw [Nat.add_zero, Nat.add_zero] at hs
  have hf := w2.fresh
  have hl := w2.live
  have hfr := w2.frame
  have hg := w2.grow
  rw [h1] at hl hfr
  refine ⟨h3, u, ?_, w2.arg, by omega, hl, ?_, ?_, by omega⟩
  · unfold Prog.addLimit Prog.addTraitOf
    rw [q2, w1]
    simp only [Traits.addTrait, hm]
  · rw [hs]
    exact newObj_new hp (fun _ => c) 1 0 (by omega)
  · intro y hy
    rw [hfr y (by omega) (by omega), newObj_old _ _ _ _ hy]

/-- the traits give the bits at any time -/
theorem limits_read (ht : PlainCopy p t) (h1 : p.size t = 1) (hnc : p.w.env.conv t t = false) (lo hi : Nat)
    (hp : Heap) (hpos : 0 < hp.next) (m : Traits) (hmin : m.get "min".toList = none) (hmax : m.get "max".toList = none) :
    ∃ hp' m', p.addLimitsOf hp m t lo hi = .ok (hp', m') ∧ hp.Left hp' ∧ (∀ n, n ≠ "min".toList → n ≠ "max".toList → m'.get n = m.get n) ∧
      ∀ later fuel, hp'.Left later →
        (∃ l a, p.getTrait (fuel + 1) later m' "min".toList t.val = .ok (l, some (.obj a true)) ∧ l.mem a = lo ∧ ∀ y < later.next, l.mem y = later.mem y) ∧
        ∃ l a, p.getTrait (fuel + 1) later m' "max".toList t.val = .ok (l, some (.obj a true)) ∧ l.mem a = hi ∧ ∀ y < later.next, l.mem y = later.mem y := by
  obtain ⟨ha, v, a1, a2, a3, a4, a5, a6⟩ := addLimit_spec ht h1 hp m "min".toList lo hpos hmin
  have hmax' : Assoc.get (Assoc.set m "min".toList v) "max".toList = none := by
    rw [Assoc.get_set, if_neg (by decide)]; exact hmax
  obtain ⟨hb, u, b1, b2, b3, b4, b5, b6⟩ := addLimit_spec ht h1 ha (Assoc.set m "min".toList v) "max".toList hi
    (by have := a6.2; omega) hmax'
  refine ⟨hb, Assoc.set (Assoc.set m "min".toList v) "max".toList u, ?_, a6.trans b6, ?_, ?_⟩
  · unfold Prog.addLimitsOf
    rw [a1]
    exact b1
  · intro n n1 n2
    rw [Assoc.get_set, if_neg (Ne.symm n2), Assoc.get_set, if_neg (Ne.symm n1)]
  · intro later fuel hl
    have copied : ∀ z : Handle, z.arg = t.lref → Copied p z.arg t.val.type := by
      intro z hz
      rw [hz]
      exact ⟨ht.notValue, child_refl _ _, hnc, by simp [Ty.lref]⟩
    have hs : p.size t.val.type = 1 := h1
    have va : later.Ok v.addr 1 := ⟨a4.1, by have := a4.2; have := b6.2; have := hl.2; omega⟩
    have ua : later.Ok u.addr 1 := ⟨b4.1, by have := b4.2; have := hl.2; omega⟩
    have vm : later.mem v.addr = lo := by
      rw [(b6.trans hl).1 _ (by have := a4.2; omega), a5]
    have um : later.mem u.addr = hi := by
      rw [hl.1 _ (by have := b4.2; omega), b5]
    constructor
    · obtain ⟨l, b, e1, e2, e3, e4⟩ := C72_read_by_value p fuel later (Assoc.set (Assoc.set m "min".toList v) "max".toList u) "min".toList v t.val
        (by rw [Assoc.get_set, if_neg (by decide), Assoc.get_set, if_pos rfl]) rfl ht (by rw [hs]; exact va) (copied v a2)
      refine ⟨l, b, e1, ?_, e4⟩
      have := e3 0 (by rw [hs]; omega)
      rw [Nat.add_zero, Nat.add_zero] at this
      rw [this, vm]
    · obtain ⟨l, b, e1, e2, e3, e4⟩ := C72_read_by_value p fuel later (Assoc.set (Assoc.set m "min".toList v) "max".toList u) "max".toList u t.val
        (by rw [Assoc.get_set, if_pos rfl]) rfl ht (by rw [hs]; exact ua) (copied u b2)
      refine ⟨l, b, e1, ?_, e4⟩
      have := e3 0 (by rw [hs]; omega)
      rw [Nat.add_zero, Nat.add_zero] at this
      rw [this, um]

/-- C92. A reflected integer type has the traits "min" and "max": whenever they are read, as numbers of the type, they are the least and the greatest
number it has - all numbers in between, and no others, are numbers of the type. Adding them leaves all other memory and traits alone. -/
theorem C92_limits (ht : PlainCopy p t) (h1 : p.size t = 1) (hnc : p.w.env.conv t t = false) (w : Nat) (s : Bool) (hw : 0 < w)
    (hp : Heap) (hpos : 0 < hp.next) (m : Traits) (hmin : m.get "min".toList = none) (hmax : m.get "max".toList = none) :
    ∃ hp' m', p.addLimits hp m t w s = .ok (hp', m') ∧ hp.Left hp' ∧ (∀ n, n ≠ "min".toList → n ≠ "max".toList → m'.get n = m.get n) ∧
      ∃ lo hi : Int, (∀ v, HasInt w s v ↔ lo ≤ v ∧ v ≤ hi) ∧
      ∀ later fuel, hp'.Left later →
        (∃ l a, p.getTrait (fuel + 1) later m' "min".toList t.val = .ok (l, some (.obj a true)) ∧ IntCell w s (l.mem a) lo ∧ ∀ y < later.next, l.mem y = later.mem y) ∧
        ∃ l a, p.getTrait (fuel + 1) later m' "max".toList t.val = .ok (l, some (.obj a true)) ∧ IntCell w s (l.mem a) hi ∧ ∀ y < later.next, l.mem y = later.mem y := by
  obtain ⟨hp', m', e1, e2, e3, e4⟩ := limits_read ht h1 hnc (NumT.minBits w s) (NumT.maxBits w s) hp hpos m hmin hmax
  refine ⟨hp', m', e1, e2, e3, if s then -2 ^ (w - 1) else 0, if s then 2 ^ (w - 1) - 1 else 2 ^ w - 1, ?_, ?_⟩
  · intro x
    unfold HasInt
    cases s
    · simp only [Bool.false_eq_true, if_false]; omega
    · simp only [if_true]; omega
  · intro later fuel hl
    obtain ⟨⟨l, a, f1, f2, f3⟩, l', a', g1, g2, g3⟩ := e4 later fuel hl
    exact ⟨⟨l, a, f1, by rw [f2]; exact min_cell s hw, f3⟩, l', a', g1, by rw [g2]; exact max_cell s hw, g3⟩

/-- C92. The limits cannot be given twice: a trait "min" or "max" that is there already makes the description of the type raise. -/
theorem C92_once (ht : PlainCopy p t) (h1 : p.size t = 1) (w : Nat) (s : Bool) (hp : Heap) (hpos : 0 < hp.next) (m : Traits)
    (h : m.get "min".toList ≠ none ∨ m.get "max".toList ≠ none) : p.addLimits hp m t w s = .error .err := by
  have refused : ∀ (g : Heap) (n : Name) (m : Traits) (c : Nat), 0 < g.next → m.get n ≠ none → p.addLimit g m t n c = .error .err := by
    intro g n m c hg hn
    obtain ⟨h3, u, w1, -⟩ := C67_temporary_stored p (g.newObj (fun _ => c) 1).1 t.rref g.next (by simp [Ty.rref]) (Or.inl ht.copyable)
      (by rw [show t.rref.type = t from rfl, h1]; exact ⟨hg, by show g.next + 1 ≤ g.next + 1 + 1; omega⟩)
    unfold Prog.addLimit Prog.addTraitOf
    rw [show (g.newObj (fun _ => c) 1).2 = g.next from rfl, w1]
    unfold Traits.addTrait
    cases hq : m.get n with
    | none => exact absurd hq hn
    | some z => rfl
  unfold Prog.addLimits Prog.addLimitsOf
  by_cases hmin : m.get "min".toList = none
  · obtain ⟨ha, v, a1, -, -, -, -, a6⟩ := addLimit_spec ht h1 hp m "min".toList (NumT.minBits w s) hpos hmin
    rw [a1]
    refine refused ha _ _ _ (by have := a6.2; omega) ?_
    rw [Assoc.get_set, if_neg (by decide)]
    rcases h with h | h
    · exact absurd hmin h
    · exact h
  · rw [refused hp _ m _ hpos hmin]

/-- C92, a hazard: the traits are not protected. Read as `T&`, "max" is the object that the type keeps, and what is written there is what everyone
reads as "max" from then on. -/
theorem C92_writable (ht : PlainCopy p t) (h1 : p.size t = 1) (hnc : p.w.env.conv t t = false) (w : Nat) (s : Bool)
    (hp : Heap) (hpos : 0 < hp.next) (m : Traits) (hmin : m.get "min".toList = none) (hmax : m.get "max".toList = none) (fuel : Nat) :
    ∃ hp' m' a, p.addLimits hp m t w s = .ok (hp', m') ∧ p.getTrait fuel hp' m' "max".toList t.lref = .ok (hp', some (.obj a true)) ∧
      ∀ later fuel, hp'.next ≤ later.next →
        ∃ l b, p.getTrait (fuel + 1) later m' "max".toList t.val = .ok (l, some (.obj b true)) ∧ l.mem b = later.mem a := by
  obtain ⟨ha, v, a1, a2, a3, a4, a5, a6⟩ := addLimit_spec ht h1 hp m "min".toList (NumT.minBits w s) hpos hmin
  have hmax' : Assoc.get (Assoc.set m "min".toList v) "max".toList = none := by
    rw [Assoc.get_set, if_neg (by decide)]; exact hmax
  obtain ⟨hb, u, b1, b2, b3, b4, b5, b6⟩ := addLimit_spec ht h1 ha (Assoc.set m "min".toList v) "max".toList (NumT.maxBits w s)
    (by have := a6.2; omega) hmax'
  have hget : Assoc.get (Assoc.set (Assoc.set m "min".toList v) "max".toList u) "max".toList = some u := by rw [Assoc.get_set, if_pos rfl]
  refine ⟨hb, Assoc.set (Assoc.set m "min".toList v) "max".toList u, u.addr, by unfold Prog.addLimits Prog.addLimitsOf; rw [a1]; exact b1, ?_, ?_⟩
  · unfold Prog.getTrait Prog.retCast
    rw [hget]
    simp only
    have hf : RefFits p (.dyn u) t.lref := by
      refine ⟨rfl, ⟨?_, ht.notValue⟩, ?_, ?_, Or.inr ?_, by rintro _ _ ⟨⟩⟩
      · show u.arg.type ≠ _; rw [b2]; exact ht.notValue
      · show p.w.env.child u.arg.type t = true; rw [b2]; exact child_refl _ _
      · show p.w.env.conv u.arg.type t = false; rw [b2]; exact hnc
      · show u.arg.isConst = false ∧ u.arg.ref = .lvalue; rw [b2]; exact ⟨rfl, rfl⟩
    have hcast := castTo_ref p (p.run fuel) hb (.dyn u) t.lref hf
    rw [show (Actual.dyn u).handle = u from rfl] at hcast
    rw [if_neg (show ¬ t.lref.type = p.w.voidT from ht.notVoid), hcast]
    rfl
  · intro later fuel hg
    have hs : p.size t.val.type = 1 := h1
    obtain ⟨l, b, e1, e2, e3, e4⟩ := C72_read_by_value p fuel later _ "max".toList u t.val hget rfl ht
      (by rw [hs]; exact ⟨b4.1, by have := b4.2; omega⟩) (by rw [b2]; exact ⟨ht.notValue, child_refl _ _, hnc, by simp [Ty.lref]⟩)
    refine ⟨l, b, e1, ?_⟩
    have := e3 0 (by rw [hs]; omega)
    rwa [Nat.add_zero, Nat.add_zero] at this

end

/-- the limits of `short`, in the program of C91 -/
example : ∃ hp' m', NumberDemo.prog.addLimits NumberDemo.heap [] 2 16 true = .ok (hp', m') ∧
    (∃ l a, NumberDemo.prog.getTrait 3 hp' m' "min".toList (Ty.val 2) = .ok (l, some (.obj a true)) ∧ IntCell 16 true (l.mem a) (-32768)) ∧
    ∃ l a, NumberDemo.prog.getTrait 3 hp' m' "max".toList (Ty.val 2) = .ok (l, some (.obj a true)) ∧ IntCell 16 true (l.mem a) 32767 := by
  have hpl := NumberDemo.plain 2 "short".toList (by simp)
  obtain ⟨hp', m', h1, -, -, lo, hi, h2, h3⟩ := C92_limits hpl.1 hpl.2.1 hpl.2.2 16 true (by decide) NumberDemo.heap (by decide) [] rfl rfl
  obtain ⟨⟨l, a, e1, e2, -⟩, l', a', f1, f2, -⟩ := h3 hp' 2 (.refl _)
  have k1 := (h2 (-32768)).1 (by decide)
  have k2 := (h2 32767).1 (by decide)
  have k3 : lo = -32768 := by have := e2.1; unfold HasInt at this; simp at this; omega
  have k4 : hi = 32767 := by have := f2.1; unfold HasInt at this; simp at this; omega
  subst k3
  subst k4
  exact ⟨hp', m', h1, ⟨l, a, e1, e2⟩, l', a', f1, f2⟩

end Reflect

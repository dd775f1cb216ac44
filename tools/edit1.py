import re
f='/verif/lean/Verif/Props/JsonPlaceCalls.lean'
s=open(f).read()
s=s.replace("""L ty = .map t K ∧ Element p N L env t ∧ Moves p t ∧
    ∃ keysT""","""L ty = .map t K ∧ Element p N L env t ∧
    (Moves p t ∨ ∃ e n raw, Points p N L env smart t e n raw ∧ ∀ j, K.init j = 0) ∧ ∃ keysT""")
new='''/-! ### Moving a value into the place of another -/

/-- the cells about the object that the smart pointer at `q` lets go of -/
def LetsGo (L : Layout) (h : Heap) (t : Ty) (q y : Nat) : Prop :=
  ∃ e n, L t = .ptr e n ∧ (h.mem q ≠ 0 ∨ (n = 2 ∧ h.mem (q + 1) ≠ 0)) ∧ Heap.Keeps h n q y

theorem delete_other {h : Heap} {a y : Nat} (hy : a = 0 ∨ y + 1 ≠ a) : (h.delete a).mem y = h.mem y := by
  unfold Heap.delete
  split
  · rfl
  · show (if y = a - 1 then _ else _) = _
    rw [if_neg (by omega)]

theorem delete_next {h : Heap} {a : Nat} : (h.delete a).next = h.next := by
  unfold Heap.delete; split <;> rfl

theorem drop_other {h : Heap} {a c y : Nat} (hy : c = 0 ∨ (y ≠ c ∧ (a = 0 ∨ y + 1 ≠ a))) : (h.drop a c).mem y = h.mem y := by
  unfold Heap.drop
  split
  · rfl
  · rcases hy with hy | ⟨hy, hy'⟩
    · contradiction
    · split
      · rw [delete_other hy']
        show (if y = c then _ else _) = _
        rw [if_neg hy]
      · show (if y = c then _ else _) = _
        rw [if_neg hy]

theorem drop_next {h : Heap} {a c : Nat} : (h.drop a c).next = h.next := by
  unfold Heap.drop
  split
  · rfl
  · split
    · rw [delete_next]; rfl
    · rfl

theorem poke_other {h : Heap} {a x y : Nat} (hy : y ≠ a) : (h.poke a x).mem y = h.mem y := by
  show (if y = a then _ else _) = _
  rw [if_neg hy]

theorem poke_at {h : Heap} {a x : Nat} : (h.poke a x).mem a = x := by
  show (if a = a then _ else _) = _
  rw [if_pos rfl]

/-- moving a smart pointer into another -/
theorem pointer_moved (hL : L.Sound p N) {smart : Ty → Bool} {t e : Ty} {n : Nat} {raw : Ty} (hP : Points p N L env smart t e n raw) (fuel : Nat) (h : Heap)
    (q r : Handle) (hq : q.arg = t.lref) (hr : r.arg = t.lref) (hokq : h.Ok q.addr (p.size t)) (hokr : h.Ok r.addr (p.size t))
    (hap : r.addr + p.size t ≤ q.addr ∨ q.addr + p.size t ≤ r.addr) (hG : ∀ y, LetsGo L h t q.addr y → ¬ OwnCell p t q.addr y) :
    ∃ h', p.assign (fuel + 1) h q (.dyn r.rvalue) = .ok h' ∧ (∀ i < p.size t, h'.mem (q.addr + i) = h.mem (r.addr + i)) ∧
      (∀ y < h.next, ¬ OwnCell p t q.addr y → ¬ OwnCell p t r.addr y → ¬ LetsGo L h t q.addr y → h'.mem y = h.mem y) ∧ h.next ≤ h'.next := by
  obtain ⟨s1, s2⟩ := hL.ptr t e n hP.form
  rw [s1] at hokq hokr hap ⊢
  unfold OwnCell at hG ⊢
  rw [s1] at hG ⊢
  have hlg : ∀ y, LetsGo L h t q.addr y ↔ (h.mem q.addr ≠ 0 ∨ (n = 2 ∧ h.mem (q.addr + 1) ≠ 0)) ∧ Heap.Keeps h n q.addr y := by
    intro y
    constructor
    · rintro ⟨e', n', z1, z2⟩
      rw [hP.form] at z1; cases z1
      exact z2
    · intro z
      exact ⟨e, n, hP.form, z⟩
  simp only [hlg] at hG ⊢
  have o1 := hokq.1; have o2 := hokq.2; have o3 := hokr.1; have o4 := hokr.2
  rcases hP.kind with ⟨rfl, V⟩ | ⟨rfl, V⟩
  · obtain ⟨f, k1, k2, k3, k4⟩ := V.assign
    obtain ⟨h1, d1, d2, d3, d4, d5, d6⟩ := assign_moved V.toReflectedPtr fuel h q r hq hr hokr f [f] k1 k2 k3
      (fun he => by rw [select_single, if_neg (by rw [he]; simp)])
    have hok : h1.Ok q.addr 1 := ⟨o1, by omega⟩
    have e0 := d3 0 (by omega)
    simp only [Nat.add_zero] at e0
    have e1 := d5 q.addr (by omega) (by omega)
    have hne : q.addr ≠ h.next := by omega
    have e2 : (h1.poke h.next 0).mem q.addr = h.mem q.addr := by rw [poke_other hne, e1]
    refine ⟨_, d6 _ (by rw [k4, uniMoveAssign, if_pos ⟨hok, d2⟩, e0]), ?_, ?_, ?_⟩
    · intro i hi
      have : i = 0 := by omega
      subst this
      simp only [Heap.uniSet, e2, Nat.add_zero]
      rw [delete_other, poke_at]
      by_cases c : h.mem q.addr = 0
      · exact Or.inl c
      · right
        intro z
        exact hG q.addr ⟨Or.inl c, Or.inl z⟩ (by omega)
    · intro y hy q1 q2 q3
      simp only [Heap.uniSet, e2]
      rw [delete_other, poke_other (by omega), poke_other (by omega), d5 y hy (by omega)]
      by_cases c : h.mem q.addr = 0
      · exact Or.inl c
      · exact Or.inr fun z => q3 ⟨Or.inl c, Or.inl z⟩
    · simp only [Heap.uniSet, delete_next]
      exact Nat.le_of_lt d1
  · obtain ⟨f, g, k1, k2, k3, k4, k5, k6, k7⟩ := V.assign
    have tf : f.test p.w.env p.voidArg [t.lref, ⟨t, .rvalue, false⟩] = .part := by
      rw [test_second V.toReflectedPtr f _ t.cref k2, Ty.cref,
        match_constref p.w.env t t .rvalue false V.notValue.1 V.notValue.2.1 V.noConverter V.derives, if_neg (by simp)]
    obtain ⟨h1, d1, d2, d3, d4, d5, d6⟩ := assign_moved V.toReflectedPtr fuel h q r hq hr hokr g [f, g] k1 k4 k5
      (fun he => select_move p.w.env _ _ f g true (by rw [he]; simp) (Or.inr (Or.inr ⟨he, by rw [tf]; simp⟩)))
    have hok : h1.Ok q.addr 2 := ⟨o1, by omega⟩
    have e0 := d3 0 (by omega)
    have e1 := d3 1 (by omega)
    simp only [Nat.add_zero] at e0
    have u0 : ((h1.poke h.next 0).poke (h.next + 1) 0).mem q.addr = h.mem q.addr := by
      rw [poke_other (by omega), poke_other (by omega), d5 q.addr (by omega) (by omega)]
    have u1 : ((h1.poke h.next 0).poke (h.next + 1) 0).mem (q.addr + 1) = h.mem (q.addr + 1) := by
      rw [poke_other (by omega), poke_other (by omega), d5 (q.addr + 1) (by omega) (by omega)]
    have hoth : ∀ y, ¬ ((h.mem q.addr ≠ 0 ∨ (2 = 2 ∧ h.mem (q.addr + 1) ≠ 0)) ∧ Heap.Keeps h 2 q.addr y) →
        h.mem (q.addr + 1) = 0 ∨ (y ≠ h.mem (q.addr + 1) ∧ (h.mem q.addr = 0 ∨ y + 1 ≠ h.mem q.addr)) := by
      intro y hy
      by_cases c : h.mem (q.addr + 1) = 0
      · exact Or.inl c
      · exact Or.inr ⟨fun z => hy ⟨Or.inr ⟨rfl, c⟩, Or.inr ⟨rfl, z⟩⟩, Or.inr fun z => hy ⟨Or.inr ⟨rfl, c⟩, Or.inl z⟩⟩
    refine ⟨_, d6 _ (by rw [k7, shMoveAssign, if_pos ⟨hok, d2⟩, e0, e1]), ?_, ?_, ?_⟩
    · intro i hi
      simp only [Heap.shSwap, u0, u1]
      rw [drop_other (hoth _ (fun z => hG _ z (by omega)))]
      rcases (show i = 0 ∨ i = 1 by omega) with rfl | rfl
      · rw [Nat.add_zero, Nat.add_zero, poke_other (by omega), poke_at]
      · rw [poke_at]
    · intro y hy q1 q2 q3
      simp only [Heap.shSwap, u0, u1]
      rw [drop_other (hoth _ q3), poke_other (by omega), poke_other (by omega), poke_other (by omega), poke_other (by omega), d5 y hy (by omega)]
    · simp only [Heap.shSwap, drop_next]
      exact Nat.le_of_lt d1

/-- moving a value of a type that can be the value of a map -/
theorem value_moved (hL : L.Sound p N) {smart : Ty → Bool} {t : Ty} (hm : Movable p t) (hP : Moves p t ∨ ∃ e n raw, Points p N L env smart t e n raw)
    (fuel : Nat) (h : Heap)
    (q r : Handle) (hq : q.arg = t.lref) (hr : r.arg = t.lref) (hokq : h.Ok q.addr (p.size t)) (hokr : h.Ok r.addr (p.size t))
    (hap : r.addr + p.size t ≤ q.addr ∨ q.addr + p.size t ≤ r.addr) (hG : ∀ y, LetsGo L h t q.addr y → ¬ OwnCell p t q.addr y) :
    ∃ h', p.assign (fuel + 1) h q (.dyn r.rvalue) = .ok h' ∧ (∀ i < p.size t, h'.mem (q.addr + i) = h.mem (r.addr + i)) ∧
      (∀ y < h.next, ¬ OwnCell p t q.addr y → ¬ OwnCell p t r.addr y → ¬ LetsGo L h t q.addr y → h'.mem y = h.mem y) ∧ h.next ≤ h'.next := by
  rcases hP with lm | ⟨e, n, raw, hP⟩
  · obtain ⟨copy, hA⟩ := lm.assign
    obtain ⟨h4, d1, d2, d3, d4⟩ := C71_move_value p fuel h q r.rvalue t copy (by rw [hq]; exact hA) (by rw [hq]; exact ⟨rfl, rfl⟩) hokq hokr
      ⟨by rw [show r.rvalue.arg.type = r.arg.type from rfl, hr]; exact hA.notValue,
        by rw [show r.rvalue.arg.type = r.arg.type from rfl, hr]; exact hA.derives,
        by rw [show r.rvalue.arg.type = r.arg.type from rfl, hr]; exact hA.noConverter,
        rfl, by show r.arg.isConst = false; rw [hr]; rfl⟩ hm.caps hm.movable hap
    refine ⟨h4, d1, fun i hi => (d2 i hi).1, fun y z1 z2 z3 _ => d3 y z1 (by unfold OwnCell at z2; omega) (by
      show y < r.addr ∨ r.addr + p.size t ≤ y
      unfold OwnCell at z3; omega), d4⟩
  · exact pointer_moved hL hP fuel h q r hq hr hokq hokr hap hG

'''
i=s.index("/-- a function of a type that no overload without parameters answers -/")
s=s[:i]+new+s[i:]
open(f,'w').write(s)
f='/verif/lean/Verif/Lemmas/Json/Place.lean'
s=open(f).read()
a=s.index("theorem map_set"); b=s.index("/-! ### from one value to another")
t=s[a:b]
t=t.replace("{O Ox : Nat → Prop} (hl","{O Ox G : Nat → Prop} (hl")
t=t.replace("""    (hlk : ∀ k', k'""","""    (hlk0 : h1.lookup K a (keyCells p N k) = some ((h.lookup K a (keyCells p N k)).getD ((List.range K.val).map K.init)))
    (hlk : ∀ k', k'""")
t=t.replace("¬ OwnCell p e b y → h2.mem y = h1.mem y) (hn2","¬ OwnCell p e b y → ¬ G y → h2.mem y = h1.mem y)\n    (hG : ∀ y, G y → ∃ e' n, L e = .ptr e' n ∧ (∀ j, K.init j = 0) ∧ (h1.mem r ≠ 0 ∨ (n = 2 ∧ h1.mem (r + 1) ≠ 0)) ∧ Heap.Keeps h1 n r y) (hn2")
s=s[:a]+t+s[b:]
open(f,'w').write(s)

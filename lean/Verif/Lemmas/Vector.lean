import Verif.Spec.Vector
/-
  What the functions of a vector do to the sequence it stands for.
-/
namespace Reflect
open Heap

theorem slot_lt {n i j len : Nat} (hi : i < len) (hj : j < n) : n * i + j < n * len := by
  have : n * (i + 1) ≤ n * len := Nat.mul_le_mul_left n hi
  rw [Nat.mul_succ] at this
  omega

theorem slot_le {n a b : Nat} (h : a ≤ b) : n * a ≤ n * b := Nat.mul_le_mul_left n h

theorem cells_congr {h h' : Heap} {a a' n : Nat} (hh : ∀ j < n, h'.mem (a' + j) = h.mem (a + j)) : h'.cells a' n = h.cells a n := by
  unfold Heap.cells
  apply List.map_congr_left
  intro j hj
  exact hh j (List.mem_range.1 hj)

theorem elems_length (h : Heap) (n v : Nat) : (h.elems n v).length = h.mem (v + 1) := by simp [Heap.elems]

theorem elems_get {h : Heap} {n v i : Nat} (hi : i < h.mem (v + 1)) : (h.elems n v)[i]? = some (h.cells (h.mem v + n * i) n) := by
  simp [Heap.elems, hi]

theorem newObj_next (h : Heap) (f : Nat → Nat) (n : Nat) : (h.newObj f n).2 = h.next ∧ (h.newObj f n).1.next = h.next + n + 1 := ⟨rfl, rfl⟩

theorem newObj_old (h : Heap) (f : Nat → Nat) (n y : Nat) (hy : y < h.next) : (h.newObj f n).1.mem y = h.mem y := by
  simp only [newObj]
  rw [if_neg (by omega)]

theorem newObj_new (h : Heap) (f : Nat → Nat) (n j : Nat) (hj : j < n) : (h.newObj f n).1.mem (h.next + j) = f j := by
  simp only [newObj]
  rw [if_pos (by omega)]
  congr 1
  omega

theorem put_in (h : Heap) (a : Nat) (f : Nat → Nat) (n j : Nat) (hj : j < n) : (h.put a f n).mem (a + j) = f j := by
  simp only [put]
  rw [if_pos (by omega)]
  congr 1
  omega

theorem put_out (h : Heap) (a : Nat) (f : Nat → Nat) (n y : Nat) (hy : y < a ∨ a + n ≤ y) : (h.put a f n).mem y = h.mem y := by
  simp only [put]
  rw [if_neg (by omega)]

theorem poke_at (h : Heap) (a x : Nat) : (h.poke a x).mem a = x := by simp [poke]
theorem poke_ne (h : Heap) (a x y : Nat) (hy : y ≠ a) : (h.poke a x).mem y = h.mem y := by simp [poke, hy]
theorem poke_next (h : Heap) (a x : Nat) : (h.poke a x).next = h.next := rfl
theorem put_next (h : Heap) (a : Nat) (f : Nat → Nat) (n : Nat) : (h.put a f n).next = h.next := rfl

/-- the place of the elements, where there is an element -/
theorem IsVec.place {h : Heap} {n v : Nat} (hv : h.IsVec n v) (hl : 0 < h.mem (v + 2)) :
    0 < h.mem v ∧ h.mem v + n * h.mem (v + 2) ≤ h.next ∧ (v + 3 ≤ h.mem v ∨ h.mem v + n * h.mem (v + 2) ≤ v) := by
  have h1 := hv.buf
  have h2 := hv.apart
  omega

/-- A vector whose three cells and elements are the same is the same vector. -/
theorem vec_kept {h h' : Heap} {n v : Nat} (hv : h.IsVec n v) (hn : h.next ≤ h'.next) (hs : ∀ y < h.next, h.InVec n v y → h'.mem y = h.mem y) :
    h'.IsVec n v ∧ h'.elems n v = h.elems n v ∧ ∀ y, h'.InVec n v y ↔ h.InVec n v y := by
  obtain ⟨⟨o1, o2⟩, h2, h3, h4⟩ := hv
  have e0 : h'.mem v = h.mem v := hs v (by omega) (Or.inl (by omega))
  have e1 : h'.mem (v + 1) = h.mem (v + 1) := hs (v + 1) (by omega) (Or.inl (by omega))
  have e2 : h'.mem (v + 2) = h.mem (v + 2) := hs (v + 2) (by omega) (Or.inl (by omega))
  refine ⟨⟨⟨o1, by omega⟩, by omega, ?_, ?_⟩, ?_, ?_⟩
  · rw [e0, e2]; omega
  · rw [e0, e2]; omega
  · unfold Heap.elems
    rw [e0, e1]
    apply List.map_congr_left
    intro i hi
    rw [List.mem_range] at hi
    apply cells_congr
    intro j hj
    have hl : n * i + j < n * h.mem (v + 2) := slot_lt (by omega) hj
    rw [Nat.add_assoc]
    apply hs _ (by omega) (Or.inr ⟨by omega, by omega⟩)
  · intro y; unfold InVec; rw [e0, e2]

/-- pushing at the back -/
theorem push_spec {hp : Heap} {n v x : Nat} {grow mark : Nat → Nat} (hv : hp.IsVec n v) (hx : hp.Ok x n) (hg : ∀ k, k ≤ grow k)
    (hm : (∀ c, mark c = c) ∨ ∀ j < n, ¬ hp.InVec n v (x + j)) :
    ∃ hp', vecPush n grow mark hp v x = .ok (hp', .void) ∧ hp'.IsVec n v ∧ hp'.elems n v = hp.elems n v ++ [hp.cells x n] ∧
      hp.next ≤ hp'.next ∧ (∀ y < hp.next, hp'.InVec n v y → hp.InVec n v y) ∧
      ∀ y < hp.next, ¬ hp.InVec n v y → hp'.mem y = if x ≤ y ∧ y < x + n then mark (hp.mem y) else hp.mem y := by
  obtain ⟨⟨o1, o2⟩, h2, h3, h4⟩ := id hv
  -- marking x leaves the vector alone
  have hmm : ∀ y < hp.next, (hp.put x (fun j => mark (hp.mem (x + j))) n).mem y = if x ≤ y ∧ y < x + n then mark (hp.mem y) else hp.mem y := by
    intro y hy
    by_cases c : x ≤ y ∧ y < x + n
    · rw [if_pos c]
      have := put_in hp x (fun j => mark (hp.mem (x + j))) n (y - x) (by omega)
      rw [show x + (y - x) = y by omega] at this
      exact this
    · rw [if_neg c, put_out _ _ _ _ _ (by omega)]
  have hmv : ∀ y < hp.next, hp.InVec n v y → (hp.put x (fun j => mark (hp.mem (x + j))) n).mem y = hp.mem y := by
    intro y hy hi
    rw [hmm y hy]
    split
    · rename_i c
      rcases hm with hm | hm
      · exact hm _
      · exfalso
        exact hm (y - x) (by omega) (by rw [show x + (y - x) = y by omega]; exact hi)
    · rfl
  generalize hhm : hp.put x (fun j => mark (hp.mem (x + j))) n = m at hmm hmv
  have hnext : m.next = hp.next := by rw [← hhm]; rfl
  unfold vecPush
  rw [if_pos ⟨⟨o1, o2⟩, hx⟩]
  simp only [hhm]
  generalize hlen : hp.mem (v + 1) = len at *
  generalize hcap : hp.mem (v + 2) = cap at *
  generalize hbuf : hp.mem v = buf at *
  have m0 : m.mem v = buf := by rw [hmv v (by omega) (Or.inl (by omega)), hbuf]
  have m1 : m.mem (v + 1) = len := by rw [hmv (v + 1) (by omega) (Or.inl (by omega)), hlen]
  have m2 : m.mem (v + 2) = cap := by rw [hmv (v + 2) (by omega) (Or.inl (by omega)), hcap]
  have old : ∀ q, q < n * len → m.mem (buf + q) = hp.mem (buf + q) := by
    intro q hq
    have := slot_le (n := n) h2
    have : cap = 0 → n * cap = 0 := fun h => by rw [h, Nat.mul_zero]
    refine hmv _ (by omega) (Or.inr ⟨by omega, ?_⟩)
    rw [hbuf, hcap]; omega
  have goal_elems : ∀ h' : Heap, h'.mem (v + 1) = len + 1 → (∀ q, q < n * len → h'.mem (h'.mem v + q) = hp.mem (buf + q)) →
      (∀ j < n, h'.mem (h'.mem v + n * len + j) = hp.mem (x + j)) → h'.elems n v = hp.elems n v ++ [hp.cells x n] := by
    intro h' a1 a2 a3
    unfold Heap.elems
    rw [a1, hlen, hbuf, List.range_succ, List.map_append]
    congr 1
    · apply List.map_congr_left
      intro i hi
      rw [List.mem_range] at hi
      apply cells_congr
      intro j hj
      rw [Nat.add_assoc, Nat.add_assoc]
      exact a2 _ (slot_lt hi hj)
    · simp only [List.map_cons, List.map_nil]
      rw [cells_congr (h := hp) (a := x) a3]
  by_cases hroom : len < cap
  · rw [if_pos hroom]
    have hl : n * len + n ≤ n * cap := by
      have := slot_le (n := n) (show len + 1 ≤ cap from hroom)
      rw [Nat.mul_succ] at this; exact this
    have hpl := IsVec.place hv (by omega)
    rw [hbuf, hcap] at hpl
    have other : ∀ y, y ≠ v + 1 → (y < buf + n * len ∨ buf + n * len + n ≤ y) →
        ((m.put (buf + n * len) (fun j => hp.mem (x + j)) n).poke (v + 1) (len + 1)).mem y = m.mem y := by
      intro y hy hy'
      rw [poke_ne _ _ _ _ hy, put_out _ _ _ _ _ hy']
    have e0 : ((m.put (buf + n * len) (fun j => hp.mem (x + j)) n).poke (v + 1) (len + 1)).mem v = buf := by
      rw [other v (by omega) (by omega), m0]
    have e1 : ((m.put (buf + n * len) (fun j => hp.mem (x + j)) n).poke (v + 1) (len + 1)).mem (v + 1) = len + 1 := poke_at _ _ _
    have e2 : ((m.put (buf + n * len) (fun j => hp.mem (x + j)) n).poke (v + 1) (len + 1)).mem (v + 2) = cap := by
      rw [other (v + 2) (by omega) (by omega), m2]
    refine ⟨_, rfl, ⟨⟨o1, by rw [poke_next, put_next, hnext]; exact o2⟩, ?_, ?_, ?_⟩, goal_elems _ e1 ?_ ?_, ?_, ?_, ?_⟩
    · rw [e1, e2]; omega
    · rw [e0, e2, poke_next, put_next, hnext]; omega
    · rw [e0, e2]; omega
    · intro q hq
      rw [e0, other _ (by omega) (by omega), old q hq]
    · intro j hj
      rw [e0, poke_ne _ _ _ _ (by omega), put_in _ _ _ _ _ hj]
    · rw [poke_next, put_next, hnext]; exact Nat.le_refl _
    · intro y hy hi
      unfold InVec at hi ⊢
      rw [e0, e2] at hi
      rw [hbuf, hcap]; exact hi
    · intro y hy hn
      have : ¬ (v ≤ y ∧ y < v + 3) ∧ ¬ (buf ≤ y ∧ y < buf + n * cap) := by
        refine ⟨fun h => hn (Or.inl h), fun h => hn (Or.inr ?_)⟩
        rw [hbuf, hcap]; exact h
      rw [other y (by omega) (by omega), hmm y hy]
  · rw [if_neg hroom]
    have hgl : len + 1 ≤ grow (len + 1) := hg _
    generalize grow (len + 1) = cap' at hgl
    have hl : n * len + n ≤ n * cap' := by
      have := slot_le (n := n) hgl
      rw [Nat.mul_succ] at this; exact this
    generalize hF : (fun j => if j < n * len then m.mem (buf + j) else hp.mem (x + (j - n * len))) = F
    have e00 : (m.newObj F (n * cap')).2 = hp.next := hnext
    rw [e00]
    have nx : (m.newObj F (n * cap')).1.next = hp.next + n * cap' + 1 := by rw [(newObj_next _ _ _).2, hnext]
    have nnew : ∀ j < n * cap', (m.newObj F (n * cap')).1.mem (hp.next + j) = F j := by
      intro j hj; rw [← hnext]; exact newObj_new m F _ j hj
    have nold : ∀ y < hp.next, (m.newObj F (n * cap')).1.mem y = m.mem y := fun y hy => newObj_old m F _ y (by omega)
    generalize (m.newObj F (n * cap')).1 = w at nx nnew nold
    have e0 : (((w.poke v hp.next).poke (v + 1) (len + 1)).poke (v + 2) cap').mem v = hp.next := by
      rw [poke_ne _ _ _ _ (by omega), poke_ne _ _ _ _ (by omega), poke_at]
    have e1 : (((w.poke v hp.next).poke (v + 1) (len + 1)).poke (v + 2) cap').mem (v + 1) = len + 1 := by
      rw [poke_ne _ _ _ _ (by omega), poke_at]
    have e2 : (((w.poke v hp.next).poke (v + 1) (len + 1)).poke (v + 2) cap').mem (v + 2) = cap' := poke_at _ _ _
    have other : ∀ y, (y < v ∨ v + 3 ≤ y) → (((w.poke v hp.next).poke (v + 1) (len + 1)).poke (v + 2) cap').mem y = w.mem y := by
      intro y hy
      rw [poke_ne _ _ _ _ (by omega), poke_ne _ _ _ _ (by omega), poke_ne _ _ _ _ (by omega)]
    refine ⟨_, rfl, ⟨⟨o1, by simp only [poke_next]; omega⟩, ?_, ?_, ?_⟩, goal_elems _ e1 ?_ ?_, ?_, ?_, ?_⟩
    · rw [e1, e2]; exact hgl
    · rw [e0, e2]; simp only [poke_next]; omega
    · rw [e0, e2]; omega
    · intro q hq
      rw [e0, other _ (by omega), nnew q (by omega), ← hF]
      simp only [if_pos hq, old q hq]
    · intro j hj
      rw [e0, other _ (by omega), Nat.add_assoc, nnew _ (by omega), ← hF]
      simp only
      rw [if_neg (by omega)]
      congr 1; omega
    · simp only [poke_next]; omega
    · intro y hy hi
      unfold InVec at hi ⊢
      rw [e0, e2] at hi
      rcases hi with hi | hi
      · exact Or.inl hi
      · omega
    · intro y hy hn
      have : ¬ (v ≤ y ∧ y < v + 3) := fun h => hn (Or.inl h)
      rw [other y (by omega), nold y hy, hmm y hy]

/-- a vector that has only lost elements at the back -/
theorem cut_spec {hp : Heap} {n v k : Nat} (hv : hp.IsVec n v) (hk : k ≤ hp.mem (v + 1)) :
    (hp.poke (v + 1) k).IsVec n v ∧ (hp.poke (v + 1) k).elems n v = (hp.elems n v).take k ∧
      (∀ y, (hp.poke (v + 1) k).InVec n v y ↔ hp.InVec n v y) ∧ ∀ y, ¬ hp.InVec n v y → (hp.poke (v + 1) k).mem y = hp.mem y := by
  obtain ⟨⟨o1, o2⟩, h2, h3, h4⟩ := id hv
  have e0 : (hp.poke (v + 1) k).mem v = hp.mem v := poke_ne _ _ _ _ (by omega)
  have e1 : (hp.poke (v + 1) k).mem (v + 1) = k := poke_at _ _ _
  have e2 : (hp.poke (v + 1) k).mem (v + 2) = hp.mem (v + 2) := poke_ne _ _ _ _ (by omega)
  refine ⟨⟨⟨o1, o2⟩, by omega, ?_, ?_⟩, ?_, ?_, ?_⟩
  · rw [e0, e2, poke_next]; omega
  · rw [e0, e2]; omega
  · unfold Heap.elems
    rw [e0, e1, ← List.map_take, List.take_range, Nat.min_eq_left hk]
    apply List.map_congr_left
    intro i hi
    rw [List.mem_range] at hi
    apply cells_congr
    intro j hj
    have hl : n * i + j < n * hp.mem (v + 2) := slot_lt (by omega) hj
    have : hp.mem (v + 2) = 0 → n * hp.mem (v + 2) = 0 := fun h => by rw [h, Nat.mul_zero]
    exact poke_ne _ _ _ _ (by omega)
  · intro y; unfold InVec; rw [e0, e2]
  · intro y hy
    refine poke_ne _ _ _ _ fun e => hy (Or.inl (by omega))

theorem clear_spec {hp : Heap} {n v : Nat} (hv : hp.IsVec n v) :
    ∃ hp', vecClear hp v = .ok (hp', .void) ∧ hp'.IsVec n v ∧ hp'.elems n v = [] ∧ Elsewhere hp hp' n v := by
  obtain ⟨h1, h2, h3, h4⟩ := cut_spec hv (Nat.zero_le _)
  refine ⟨_, by unfold vecClear; rw [if_pos hv.obj], h1, ?_, ⟨fun y _ hy => h4 y hy, Nat.le_refl _, fun y _ => (h3 y).1⟩⟩
  rw [h2, List.take_zero]

theorem resize_spec {hp : Heap} {n v a : Nat} {grow init : Nat → Nat} (hv : hp.IsVec n v) (ha : hp.Ok a 1) (hg : ∀ k, k ≤ grow k) :
    ∃ hp', vecResize n grow init hp v a = .ok (hp', .void) ∧ hp'.IsVec n v ∧
      hp'.elems n v = (hp.elems n v).take (hp.mem a) ++ List.replicate (hp.mem a - (hp.elems n v).length) ((List.range n).map init) ∧
      Elsewhere hp hp' n v := by
  obtain ⟨⟨o1, o2⟩, h2, h3, h4⟩ := id hv
  unfold vecResize
  rw [if_pos ⟨⟨o1, o2⟩, ha⟩, elems_length]
  simp only
  generalize hp.mem a = k
  by_cases hk : k ≤ hp.mem (v + 1)
  · rw [if_pos hk]
    obtain ⟨g1, g2, g3, g4⟩ := cut_spec hv hk
    refine ⟨_, rfl, g1, ?_, ⟨fun y _ hy => g4 y hy, Nat.le_refl _, fun y _ => (g3 y).1⟩⟩
    rw [g2, Nat.sub_eq_zero_of_le hk, List.replicate_zero, List.append_nil]
  rw [if_neg hk]
  have goal_elems : ∀ h' : Heap, h'.mem (v + 1) = k → (∀ q, q < n * hp.mem (v + 1) → h'.mem (h'.mem v + q) = hp.mem (hp.mem v + q)) →
      (∀ q < n * (k - hp.mem (v + 1)), h'.mem (h'.mem v + n * hp.mem (v + 1) + q) = init (q % n)) →
      h'.elems n v = (hp.elems n v).take k ++ List.replicate (k - hp.mem (v + 1)) ((List.range n).map init) := by
    intro h' a1 a2 a3
    rw [List.take_of_length_le (by rw [elems_length]; omega)]
    unfold Heap.elems
    rw [a1]
    have hr : List.range k = List.range (hp.mem (v + 1)) ++ (List.range (k - hp.mem (v + 1))).map (hp.mem (v + 1) + ·) := by
      rw [← List.range_add]; congr 1; omega
    rw [hr, List.map_append]
    congr 1
    · apply List.map_congr_left
      intro i hi
      rw [List.mem_range] at hi
      apply cells_congr
      intro j hj
      rw [Nat.add_assoc, Nat.add_assoc]
      exact a2 _ (slot_lt hi hj)
    · rw [List.eq_replicate_iff]
      refine ⟨by simp, ?_⟩
      intro b hb
      simp only [List.mem_map, List.mem_range] at hb
      obtain ⟨_, ⟨i, hi, rfl⟩, rfl⟩ := hb
      unfold Heap.cells
      apply List.map_congr_left
      intro j hj
      rw [List.mem_range] at hj
      have := a3 (n * i + j) (slot_lt hi hj)
      rw [Nat.mul_add_mod, Nat.mod_eq_of_lt hj] at this
      rw [← this, Nat.mul_add]
      congr 1; omega
  generalize hlen : hp.mem (v + 1) = len at *
  generalize hcap : hp.mem (v + 2) = cap at *
  generalize hbuf : hp.mem v = buf at *
  have hsum : n * len + n * (k - len) = n * k := by rw [← Nat.mul_add]; congr 1; omega
  by_cases hroom : k ≤ cap
  · rw [if_pos hroom]
    have hl := slot_le (n := n) hroom
    have hpl := IsVec.place hv (by omega)
    rw [hbuf, hcap] at hpl
    generalize hF : (fun j => init (j % n)) = F
    have other : ∀ y, y ≠ v + 1 → (y < buf + n * len ∨ buf + n * k ≤ y) →
        ((hp.put (buf + n * len) F (n * (k - len))).poke (v + 1) k).mem y = hp.mem y := by
      intro y hy hy'
      rw [poke_ne _ _ _ _ hy, put_out _ _ _ _ _ (by omega)]
    have e0 : ((hp.put (buf + n * len) F (n * (k - len))).poke (v + 1) k).mem v = buf := by
      rw [other v (by omega) (by omega), hbuf]
    have e1 : ((hp.put (buf + n * len) F (n * (k - len))).poke (v + 1) k).mem (v + 1) = k := poke_at _ _ _
    have e2 : ((hp.put (buf + n * len) F (n * (k - len))).poke (v + 1) k).mem (v + 2) = cap := by
      rw [other (v + 2) (by omega) (by omega), hcap]
    refine ⟨_, rfl, ⟨⟨o1, o2⟩, ?_, ?_, ?_⟩, goal_elems _ e1 ?_ ?_, ⟨?_, Nat.le_refl _, ?_⟩⟩
    · rw [e1, e2]; exact hroom
    · rw [e0, e2, poke_next, put_next]; omega
    · rw [e0, e2]; omega
    · intro q hq
      rw [e0, other _ (by omega) (by omega)]
    · intro q hq
      rw [e0, poke_ne _ _ _ _ (by omega), put_in _ _ _ _ _ hq, ← hF]
    · intro y hy hn
      have : ¬ (v ≤ y ∧ y < v + 3) ∧ ¬ (buf ≤ y ∧ y < buf + n * cap) := by
        refine ⟨fun h => hn (Or.inl h), fun h => hn (Or.inr ?_)⟩
        rw [hbuf, hcap]; exact h
      exact other y (by omega) (by omega)
    · intro y hy hi
      unfold InVec at hi ⊢
      rw [e0, e2] at hi
      rw [hbuf, hcap]; exact hi
  · rw [if_neg hroom]
    have hgl : k ≤ grow k := hg _
    generalize grow k = cap' at hgl
    have hl := slot_le (n := n) hgl
    generalize hF : (fun j => if j < n * len then hp.mem (buf + j) else init ((j - n * len) % n)) = F
    have e00 : (hp.newObj F (n * cap')).2 = hp.next := rfl
    rw [e00]
    have nx : (hp.newObj F (n * cap')).1.next = hp.next + n * cap' + 1 := rfl
    have nnew : ∀ j < n * cap', (hp.newObj F (n * cap')).1.mem (hp.next + j) = F j := fun j hj => newObj_new hp F _ j hj
    have nold : ∀ y < hp.next, (hp.newObj F (n * cap')).1.mem y = hp.mem y := fun y hy => newObj_old hp F _ y hy
    generalize (hp.newObj F (n * cap')).1 = w at nx nnew nold
    have e0 : (((w.poke v hp.next).poke (v + 1) k).poke (v + 2) cap').mem v = hp.next := by
      rw [poke_ne _ _ _ _ (by omega), poke_ne _ _ _ _ (by omega), poke_at]
    have e1 : (((w.poke v hp.next).poke (v + 1) k).poke (v + 2) cap').mem (v + 1) = k := by
      rw [poke_ne _ _ _ _ (by omega), poke_at]
    have e2 : (((w.poke v hp.next).poke (v + 1) k).poke (v + 2) cap').mem (v + 2) = cap' := poke_at _ _ _
    have other : ∀ y, (y < v ∨ v + 3 ≤ y) → (((w.poke v hp.next).poke (v + 1) k).poke (v + 2) cap').mem y = w.mem y := by
      intro y hy
      rw [poke_ne _ _ _ _ (by omega), poke_ne _ _ _ _ (by omega), poke_ne _ _ _ _ (by omega)]
    refine ⟨_, rfl, ⟨⟨o1, by simp only [poke_next]; omega⟩, ?_, ?_, ?_⟩, goal_elems _ e1 ?_ ?_, ⟨?_, ?_, ?_⟩⟩
    · rw [e1, e2]; exact hgl
    · rw [e0, e2]; simp only [poke_next]; omega
    · rw [e0, e2]; omega
    · intro q hq
      rw [e0, other _ (by omega), nnew q (by omega), ← hF]
      simp only [if_pos hq]
    · intro q hq
      rw [e0, other _ (by omega), Nat.add_assoc, nnew _ (by omega), ← hF]
      simp only
      rw [if_neg (by omega)]
      congr 2; omega
    · intro y hy hn
      have : ¬ (v ≤ y ∧ y < v + 3) := fun h => hn (Or.inl h)
      rw [other y (by omega), nold y hy]
    · simp only [poke_next]; omega
    · intro y hy hi
      unfold InVec at hi ⊢
      rw [e0, e2] at hi
      rcases hi with hi | hi
      · exact Or.inl hi
      · omega

/-- an element overwritten -/
theorem set_spec {h h' : Heap} {n v i : Nat} (hv : h.IsVec n v) (hi : i < h.mem (v + 1)) (hn : h.next ≤ h'.next)
    (hs : ∀ y < h.next, (y < h.mem v + n * i ∨ h.mem v + n * i + n ≤ y) → h'.mem y = h.mem y) :
    h'.IsVec n v ∧ h'.elems n v = (h.elems n v).set i (h'.cells (h.mem v + n * i) n) := by
  obtain ⟨⟨o1, o2⟩, h2, h3, h4⟩ := id hv
  have hpl := IsVec.place hv (by omega)
  have hl : n * i + n ≤ n * h.mem (v + 2) := by
    have := slot_le (n := n) (show i + 1 ≤ h.mem (v + 2) by omega)
    rw [Nat.mul_succ] at this; exact this
  have e0 : h'.mem v = h.mem v := hs v (by omega) (by omega)
  have e1 : h'.mem (v + 1) = h.mem (v + 1) := hs (v + 1) (by omega) (by omega)
  have e2 : h'.mem (v + 2) = h.mem (v + 2) := hs (v + 2) (by omega) (by omega)
  refine ⟨⟨⟨o1, by omega⟩, by omega, ?_, ?_⟩, ?_⟩
  · rw [e0, e2]; omega
  · rw [e0, e2]; omega
  · apply List.ext_getElem?
    intro k
    by_cases hk : k < h.mem (v + 1)
    · rw [elems_get (by rw [e1]; exact hk), e0]
      by_cases hki : k = i
      · subst hki
        rw [List.getElem?_set_self (by rw [elems_length]; exact hk)]
      · rw [List.getElem?_set_ne (Ne.symm hki), elems_get hk]
        congr 1
        apply cells_congr
        intro j hj
        have h5 : n * k + j < n * h.mem (v + 2) := slot_lt (by omega) hj
        have h6 : n * k + n ≤ n * i ∨ n * i + n ≤ n * k := by
          rcases Nat.lt_or_gt_of_ne hki with c | c
          · left; rw [← Nat.mul_succ]; exact slot_le c
          · right; rw [← Nat.mul_succ]; exact slot_le c
        exact hs _ (by omega) (by omega)
    · rw [List.getElem?_eq_none (by rw [elems_length]; omega), List.getElem?_eq_none (by rw [List.length_set, elems_length]; omega)]

end Reflect

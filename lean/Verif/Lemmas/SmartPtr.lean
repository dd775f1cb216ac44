import Verif.Spec.SmartPtr
import Verif.Lemmas.Vector
/-
  What the functions of the smart pointers do to a pool of pointers.
-/
namespace Reflect
open Heap

/-! ### the specification -/

theorem give_at (own : Nat → Nat) (q a : Nat) : give own q a q = a := by simp [give]
theorem give_ne (own : Nat → Nat) (q a y : Nat) (h : y ≠ q) : give own q a y = own y := by simp [give, h]

/-- the pointers a call names -/
def PtrCall.Within (P : List Nat) : PtrCall → Prop
  | .reset q => q.addr ∈ P
  | .take q _ => q.addr ∈ P
  | .copy q r => q.addr ∈ P ∧ r.addr ∈ P
  | .move q r => q.addr ∈ P ∧ r.addr ∈ P
  | .release q => q.addr ∈ P

theorem held_give {P : List Nat} {own : Nat → Nat} {q b a : Nat} (h : Held P (give own q b) a) : Held P own a ∨ a = b := by
  obtain ⟨y, h1, h2⟩ := h
  by_cases hy : y = q
  · subst hy; rw [give_at] at h2; exact Or.inr h2.symm
  · rw [give_ne _ _ _ _ hy] at h2; exact Or.inl ⟨y, h1, h2⟩

/-- A call makes no pointer hold what none held, but what it hands over. -/
theorem held_effect {hp : Heap} {P : List Nat} {own : Nat → Nat} {a : Nat} {c : PtrCall} (ha : a ≠ 0) (hw : c.Within P)
    (h : Held P (c.effect hp own) a) : Held P own a ∨ ∃ q x, c = .take q x ∧ hp.mem x.addr = a := by
  cases c with
  | reset q => rcases held_give h with h | h; exact Or.inl h; exact absurd h ha
  | release q => rcases held_give h with h | h; exact Or.inl h; exact absurd h ha
  | take q x => rcases held_give h with h | h; exact Or.inl h; exact Or.inr ⟨q, x, rfl, h.symm⟩
  | copy q r => rcases held_give h with h | h; exact Or.inl h; exact Or.inl ⟨r.addr, hw.2, h.symm⟩
  | move q r =>
    rcases held_give h with h | h
    · rcases held_give h with h | h
      · exact Or.inl h
      · exact absurd h ha
    · exact Or.inl ⟨r.addr, hw.2, h.symm⟩

theorem taken_cons (hp : Heap) (c : PtrCall) (cs : List PtrCall) :
    PtrCall.taken hp (c :: cs) = (match c with | .take _ x => [hp.mem x.addr] | _ => []) ++ PtrCall.taken hp cs := by
  cases c <;> rfl

/-- What no pointer holds and none is handed is neither deleted nor released nor held later. -/
theorem unheld {hp : Heap} {P : List Nat} {a : Nat} (ha : a ≠ 0) : ∀ (cs : List PtrCall) (own : Nat → Nat), (∀ c ∈ cs, c.Within P) →
    ¬ Held P own a → a ∉ PtrCall.taken hp cs →
    PtrCall.total hp P cs own a = 0 ∧ ¬ PtrCall.Released hp P cs own a ∧ ¬ Held P (PtrCall.after hp cs own) a
  | [], _, _, hn, _ => ⟨rfl, fun h => h, hn⟩
  | c :: cs, own, hw, hn, ht => by
    rw [taken_cons] at ht
    have hn' : ¬ Held P (c.effect hp own) a := by
      intro h
      rcases held_effect ha (hw c (by simp)) h with h | ⟨q, x, rfl, hx⟩
      · exact hn h
      · exact ht (by simp [hx])
    obtain ⟨h1, h2, h3⟩ := unheld ha cs (c.effect hp own) (fun d hd => hw d (by simp [hd])) hn' fun h => ht (List.mem_append.2 (Or.inr h))
    refine ⟨?_, ?_, h3⟩
    · rw [PtrCall.total, h1, PtrCall.deletes, if_neg (fun h => hn h.1.1)]
    · rintro (⟨⟨h, -⟩, -⟩ | h)
      · exact hn h
      · exact h2 h

theorem legal_of_taken {hp : Heap} {P : List Nat} : ∀ (cs : List PtrCall) (own : Nat → Nat), (∀ c ∈ cs, c.Within P) →
    (PtrCall.taken hp cs).Nodup → (∀ a ∈ PtrCall.taken hp cs, a ≠ 0 ∧ ¬ Held P own a) → PtrCall.Legal hp P cs own
  | [], _, _, _, _ => trivial
  | c :: cs, own, hw, hn, ht => by
    rw [taken_cons] at hn ht
    refine ⟨?_, legal_of_taken cs _ (fun d hd => hw d (by simp [hd])) (List.nodup_append.1 hn).2.1 fun a ha => ?_⟩
    · cases c with
      | take q x => exact (ht _ (by simp)).2
      | _ => trivial
    · refine ⟨(ht a (by simp [ha])).1, fun h => ?_⟩
      rcases held_effect (ht a (by simp [ha])).1 (hw c (by simp)) h with h | ⟨q, x, rfl, hx⟩
      · exact (ht a (by simp [ha])).2 h
      · exact (List.nodup_append.1 hn).2.2 (hp.mem x.addr) (by simp) a ha hx

/-- If each object is handed over once: it is deleted once if it was held, is held no more and was not released; else never. -/
theorem total_once {hp : Heap} {P : List Nat} {a : Nat} (ha : a ≠ 0) : ∀ (cs : List PtrCall) (own : Nat → Nat), (∀ c ∈ cs, c.Within P) →
    (PtrCall.taken hp cs).Nodup → (∀ b ∈ PtrCall.taken hp cs, b ≠ 0 ∧ ¬ Held P own b) →
    (PtrCall.total hp P cs own a = 0 ∨ PtrCall.total hp P cs own a = 1) ∧
    (PtrCall.total hp P cs own a = 1 ↔ (Held P own a ∨ a ∈ PtrCall.taken hp cs) ∧ ¬ Held P (PtrCall.after hp cs own) a ∧
      ¬ PtrCall.Released hp P cs own a)
  | [], own, _, _, _ => by
    simp only [PtrCall.total, PtrCall.taken, PtrCall.after, PtrCall.Released]
    simp
  | c :: cs, own, hw, hn, ht => by
    have hw' : ∀ d ∈ cs, d.Within P := fun d hd => hw d (by simp [hd])
    have hn' : (PtrCall.taken hp cs).Nodup := by rw [taken_cons] at hn; exact (List.nodup_append.1 hn).2.1
    have ht' : ∀ b ∈ PtrCall.taken hp cs, b ≠ 0 ∧ ¬ Held P (c.effect hp own) b := by
      rw [taken_cons] at hn ht
      intro b hb
      refine ⟨(ht b (by simp [hb])).1, fun h => ?_⟩
      rcases held_effect (ht b (by simp [hb])).1 (hw c (by simp)) h with h | ⟨q, x, rfl, hx⟩
      · exact (ht b (by simp [hb])).2 h
      · exact (List.nodup_append.1 hn).2.2 (hp.mem x.addr) (by simp) b hb hx
    obtain ⟨i1, i2⟩ := total_once ha cs (c.effect hp own) hw' hn' ht'
    by_cases hg : c.LetsGo hp P own a
    · have hnt : a ∉ PtrCall.taken hp cs := fun h => (ht a (by rw [taken_cons]; simp [h])).2 hg.1
      obtain ⟨u1, u2, u3⟩ := unheld ha cs _ hw' hg.2 hnt
      cases hr : c.isRelease with
      | true =>
        have hd : PtrCall.total hp P (c :: cs) own a = 0 := by
          rw [PtrCall.total, u1, PtrCall.deletes, if_neg (fun h => by rw [hr] at h; simp at h)]
        refine ⟨Or.inl hd, ?_⟩
        rw [hd]
        constructor
        · intro h; cases h
        · rintro ⟨-, -, h⟩; exact absurd (Or.inl ⟨hg, hr⟩) h
      | false =>
        have hd : PtrCall.total hp P (c :: cs) own a = 1 := by
          rw [PtrCall.total, u1, PtrCall.deletes, if_pos ⟨hg, hr⟩]
        refine ⟨Or.inr hd, ?_⟩
        rw [hd]
        refine ⟨fun _ => ⟨Or.inl hg.1, u3, ?_⟩, fun _ => rfl⟩
        rintro (⟨-, h⟩ | h)
        · rw [hr] at h; cases h
        · exact u2 h
    · have hd : PtrCall.total hp P (c :: cs) own a = PtrCall.total hp P cs (c.effect hp own) a := by
        rw [PtrCall.total, PtrCall.deletes, if_neg (fun h => hg h.1), Nat.zero_add]
      rw [hd]
      refine ⟨i1, i2.trans ?_⟩
      have hr : PtrCall.Released hp P (c :: cs) own a ↔ PtrCall.Released hp P cs (c.effect hp own) a := by
        rw [PtrCall.Released]
        exact ⟨fun h => h.resolve_left fun h => hg h.1, Or.inr⟩
      rw [hr]
      have hh : (Held P (c.effect hp own) a ∨ a ∈ PtrCall.taken hp cs) ↔ (Held P own a ∨ a ∈ PtrCall.taken hp (c :: cs)) := by
        rw [taken_cons, List.mem_append]
        constructor
        · rintro (h | h)
          · rcases held_effect ha (hw c (by simp)) h with h | ⟨q, x, rfl, hx⟩
            · exact Or.inl h
            · exact Or.inr (Or.inl (by simp [hx]))
          · exact Or.inr (Or.inr h)
        · rintro (h | h | h)
          · by_cases h' : Held P (c.effect hp own) a
            · exact Or.inl h'
            · exact absurd ⟨h, h'⟩ hg
          · cases c with
            | take q x =>
              simp only [List.mem_singleton] at h
              exact Or.inl ⟨q.addr, hw (.take q x) (by simp), by rw [PtrCall.effect, give_at, h]⟩
            | _ => simp at h
          · exact Or.inr h
      rw [hh]
      rfl

/-! ### `std::unique_ptr` -/

theorem delete_next (h : Heap) (a : Nat) : (h.delete a).next = h.next := by unfold Heap.delete; split <;> rfl

theorem delete_mem (h : Heap) (a y : Nat) : (h.delete a).mem y = h.mem y + (if a ≠ 0 ∧ y = a - 1 then 1 else 0) := by
  unfold Heap.delete
  split
  · rename_i e; simp [e]
  · rename_i e
    by_cases hy : y = a - 1
    · subst hy; rw [poke_at, if_pos ⟨e, rfl⟩]
    · rw [poke_ne _ _ _ _ hy, if_neg (fun c => hy c.2)]; rfl

theorem inPool_one {h : Heap} {P A : List Nat} {y : Nat} : h.InPool 1 P A y ↔ y ∈ P ∨ ∃ a ∈ A, y + 1 = a := by
  unfold Heap.InPool
  constructor
  · rintro (⟨q, h1, h2⟩ | h1 | h1)
    · have : y = q := by omega
      subst this; exact Or.inl h1
    · exact Or.inr h1
    · exact absurd h1.1 (by omega)
  · rintro (h1 | h1)
    · exact Or.inl ⟨y, h1, by omega⟩
    · exact Or.inr (Or.inl h1)

/-- The pool is not touched. -/
theorem uniques_kept {h h' : Heap} {P A : List Nat} (hu : Uniques h P A) (hn : h.next ≤ h'.next)
    (hs : ∀ y < h.next, h.InPool 1 P A y → h'.mem y = h.mem y) :
    Uniques h' P A ∧ (∀ q ∈ P, h'.mem q = h.mem q) ∧ ∀ a ∈ A, h'.deleted a = h.deleted a := by
  have e1 : ∀ q ∈ P, h'.mem q = h.mem q := fun q hq => hs q (by have := (hu.ptrs q hq).2; omega) (inPool_one.2 (Or.inl hq))
  refine ⟨⟨fun q hq => ?_, fun a ha => ?_, fun q hq => ?_, fun q hq q' hq' => ?_⟩, e1, fun a ha => ?_⟩
  · have := hu.ptrs q hq; exact ⟨this.1, by have := this.2; omega⟩
  · obtain ⟨h1, h2, h3⟩ := hu.objs a ha; exact ⟨h1, by omega, h3⟩
  · rw [e1 q hq]; exact hu.held q hq
  · rw [e1 q hq, e1 q' hq']; exact hu.alone q hq q' hq'
  · obtain ⟨h1, h2, h3⟩ := hu.objs a ha
    exact hs (a - 1) h2 (inPool_one.2 (Or.inr ⟨a, ha, by omega⟩))

/-- A pointer of the pool is given an object that none holds, or nothing. -/
theorem uniSet_pool {h : Heap} {P A : List Nat} {u a : Nat} (hu : Uniques h P A) (hq : u ∈ P)
    (ha : a = 0 ∨ (a ∈ A ∧ ∀ q ∈ P, h.mem q ≠ a)) :
    Uniques (h.uniSet u a) P A ∧ (∀ q ∈ P, (h.uniSet u a).mem q = give h.holds u a q) ∧
      (∀ b ∈ A, (h.uniSet u a).deleted b = h.deleted b + if b = h.mem u then 1 else 0) ∧
      (h.uniSet u a).next = h.next ∧ ∀ y, ¬ h.InPool 1 P A y → (h.uniSet u a).mem y = h.mem y := by
  have nx : (h.uniSet u a).next = h.next := by unfold Heap.uniSet; rw [delete_next]; rfl
  have hd : ∀ q ∈ P, (h.uniSet u a).mem q = give h.holds u a q := by
    intro q hq'
    unfold Heap.uniSet
    rw [delete_mem, if_neg]
    · by_cases e : q = u
      · subst e; rw [poke_at, give_at]; rfl
      · rw [poke_ne _ _ _ _ e, give_ne _ _ _ _ e]; rfl
    · rintro ⟨c1, c2⟩
      have := (hu.held u hq).resolve_left c1
      exact (hu.objs _ this).2.2 (c2 ▸ hq')
  refine ⟨⟨fun q hq' => ?_, fun b hb => ?_, fun q hq' => ?_, fun q hq1 q' hq2 => ?_⟩, hd, fun b hb => ?_, nx, fun y hy => ?_⟩
  · have := hu.ptrs q hq'; exact ⟨this.1, by rw [nx]; exact this.2⟩
  · rw [nx]; exact hu.objs b hb
  · rw [hd q hq']
    by_cases e : q = u
    · subst e; rw [give_at]; exact ha.imp id And.left
    · rw [give_ne _ _ _ _ e]; exact hu.held q hq'
  · rw [hd q hq1, hd q' hq2]
    by_cases e : q = u
    · subst e
      by_cases e' : q' = q
      · exact fun _ _ => e'.symm
      · rw [give_at, give_ne _ _ _ _ e']
        intro c1 c2
        rcases ha with ha | ha
        · exact absurd ha c2
        · exact absurd c1.symm (ha.2 q' hq2)
    · rw [give_ne _ _ _ _ e]
      by_cases e' : q' = u
      · subst e'
        rw [give_at]
        intro c1 c2
        rcases ha with ha | ha
        · exact absurd (c1.trans ha) c2
        · exact absurd c1 (ha.2 q hq1)
      · rw [give_ne _ _ _ _ e']; exact hu.alone q hq1 q' hq2
  · obtain ⟨h1, h2, h3⟩ := hu.objs b hb
    unfold Heap.deleted Heap.uniSet
    rw [delete_mem, poke_ne _ _ _ _ (fun (c : b - 1 = u) => h3 (c ▸ hq))]
    congr 1
    by_cases e : b = h.mem u
    · rw [if_pos e, if_pos ⟨by omega, by rw [e]⟩]
    · rw [if_neg e, if_neg]
      rintro ⟨c1, c2⟩
      have := (hu.objs _ ((hu.held u hq).resolve_left c1)).1
      omega
  · rw [inPool_one] at hy
    unfold Heap.uniSet
    rw [delete_mem, if_neg, poke_ne _ _ _ _ (fun (c : y = u) => hy (Or.inl (c ▸ hq)))]
    · rfl
    · rintro ⟨c1, c2⟩
      have h4 := (hu.held u hq).resolve_left c1
      have := (hu.objs _ h4).1
      exact hy (Or.inr ⟨_, h4, by omega⟩)

/-- Where every object has one holder, giving a pointer something else lets go of what it had. -/
theorem letsGo_give {P : List Nat} {own : Nat → Nat} {u a b : Nat} (hal : ∀ q ∈ P, ∀ q' ∈ P, own q = own q' → own q ≠ 0 → q = q')
    (hq : u ∈ P) (ha : a = 0 ∨ ¬ Held P own a) (hb : b ≠ 0) :
    (Held P own b ∧ ¬ Held P (give own u a) b) ↔ b = own u := by
  constructor
  · rintro ⟨⟨q, h1, h2⟩, h3⟩
    by_cases e : q = u
    · rw [← e, h2]
    · exact absurd ⟨q, h1, by rw [give_ne _ _ _ _ e, h2]⟩ h3
  · rintro rfl
    refine ⟨⟨u, hq, rfl⟩, ?_⟩
    rintro ⟨q, h1, h2⟩
    by_cases e : q = u
    · subst e
      rw [give_at] at h2
      rcases ha with ha | ha
      · exact hb (h2.symm.trans ha)
      · exact ha ⟨q, hq, h2.symm⟩
    · rw [give_ne _ _ _ _ e] at h2
      exact e (hal q h1 u hq h2 (by rw [h2]; exact hb))

theorem letsGo_move {P : List Nat} {own : Nat → Nat} {u r b : Nat} (hal : ∀ q ∈ P, ∀ q' ∈ P, own q = own q' → own q ≠ 0 → q = q')
    (hq : u ∈ P) (hr : r ∈ P) (hb : b ≠ 0) :
    (Held P own b ∧ ¬ Held P (give (give own r 0) u (own r)) b) ↔ b = give own r 0 u := by
  constructor
  · rintro ⟨⟨q, h1, h2⟩, h3⟩
    have hru : ¬ own r = b := fun c => h3 ⟨u, hq, by rw [give_at, c]⟩
    have e1 : q ≠ r := fun c => hru (c ▸ h2)
    by_cases e : q = u
    · subst e; rw [give_ne _ _ _ _ e1, h2]
    · exact absurd ⟨q, h1, by rw [give_ne _ _ _ _ e, give_ne _ _ _ _ e1, h2]⟩ h3
  · intro h
    have e1 : u ≠ r := by rintro rfl; rw [give_at] at h; exact hb h
    rw [give_ne _ _ _ _ e1] at h
    subst h
    refine ⟨⟨u, hq, rfl⟩, ?_⟩
    rintro ⟨q, h1, h2⟩
    by_cases e : q = u
    · subst e
      rw [give_at] at h2
      exact e1 (hal r hr q hq h2 (by rw [h2]; exact hb)).symm
    · rw [give_ne _ _ _ _ e] at h2
      by_cases e2 : q = r
      · subst e2; rw [give_at] at h2; exact hb h2.symm
      · rw [give_ne _ _ _ _ e2] at h2
        exact e (hal q h1 u hq h2 (by rw [h2]; exact hb))

/-! ### `std::shared_ptr` -/

/-- one entry changed, and what was there put in front -/
theorem perm_give {α : Type} (f : Nat → α) (t : α) (u : Nat) : ∀ (P : List Nat), P.Nodup → u ∈ P →
    (t :: P.map f).Perm (f u :: P.map fun q => if q = u then t else f q)
  | [], _, h => by simp at h
  | q :: P, hn, h => by
    rw [List.nodup_cons] at hn
    by_cases e : q = u
    · subst e
      have : P.map (fun y => if y = q then t else f y) = P.map f := by
        apply List.map_congr_left
        intro y hy
        exact if_neg (fun (c : y = q) => hn.1 (c ▸ hy))
      rw [List.map_cons, List.map_cons, this, if_pos rfl]
      exact List.Perm.swap _ _ _
    · have h' : u ∈ P := by
        rcases List.mem_cons.1 h with h | h
        · exact absurd h.symm e
        · exact h
      have ih := perm_give f t u P hn.2 h'
      rw [List.map_cons, List.map_cons, if_neg e]
      exact (List.Perm.swap _ _ _).trans ((ih.cons (f q)).trans (List.Perm.swap _ _ _))

theorem slots_congr {h h' : Heap} {P : List Nat} (hs : ∀ q ∈ P, h'.slot q = h.slot q) : P.map h'.slot = P.map h.slot :=
  List.map_congr_left hs

theorem Heap.Counted.congr {h h' : Heap} {P A : List Nat} {L L' : List (Nat × Nat)} {x : Nat × Nat} (hc : h.Counted P A L x)
    (hn : h.next ≤ h'.next) (hm : x ≠ (0, 0) → h'.mem x.2 = h.mem x.2) (hL : L.Perm L') : h'.Counted P A L' x := by
  rcases hc with hc | ⟨h1, h2, h3, h4, h5, h6⟩
  · exact Or.inl hc
  · by_cases hx : x = (0, 0)
    · exact Or.inl hx
    · exact Or.inr ⟨h1, h2, by omega, h4, h5, by rw [hm hx, h6, hL.countP_eq]⟩

/-- The pool is not touched. -/
theorem shared_kept {h h' : Heap} {P A : List Nat} {t : Nat × Nat} (hu : SharedWith h P A t) (hn : h.next ≤ h'.next)
    (hs : ∀ q ∈ P, h'.slot q = h.slot q)
    (hc : ∀ x ∈ t :: P.map h.slot, x ≠ (0, 0) → h'.mem x.2 = h.mem x.2) : SharedWith h' P A t := by
  have es := slots_congr hs
  refine ⟨fun q hq => ?_, hu.nodup, hu.apart, fun a ha => ?_, fun x hx => ?_, ?_⟩
  · have := hu.ptrs q hq; exact ⟨this.1, by have := this.2; omega⟩
  · obtain ⟨h1, h2, h3⟩ := hu.objs a ha; exact ⟨h1, by omega, h3⟩
  · rw [es] at hx ⊢
    exact (hu.counted x hx).congr hn (hc x hx) (List.Perm.refl _)
  · rw [es]; exact hu.group

/-- the pointer at `u` and the temporary exchanged -/
theorem swap_pool {h : Heap} {P A : List Nat} {t : Nat × Nat} {u : Nat} (hu : SharedWith h P A t) (hq : u ∈ P) :
    SharedWith ((h.poke u t.1).poke (u + 1) t.2) P A (h.slot u) ∧
      (∀ q ∈ P, ((h.poke u t.1).poke (u + 1) t.2).slot q = if q = u then t else h.slot q) ∧
      ∀ y, y ≠ u → y ≠ u + 1 → ((h.poke u t.1).poke (u + 1) t.2).mem y = h.mem y := by
  generalize hh : (h.poke u t.1).poke (u + 1) t.2 = h'
  have nx : h'.next = h.next := by rw [← hh]; rfl
  have m0 : ∀ y, y ≠ u → y ≠ u + 1 → h'.mem y = h.mem y := by
    intro y h1 h2; rw [← hh, poke_ne _ _ _ _ h2, poke_ne _ _ _ _ h1]
  have sl : ∀ q ∈ P, h'.slot q = if q = u then t else h.slot q := by
    intro q hq'
    by_cases e : q = u
    · subst e
      rw [if_pos rfl, ← hh]
      unfold Heap.slot
      rw [poke_at, poke_ne _ _ _ _ (by omega), poke_at]
    · rw [if_neg e]
      have := hu.apart q hq' u hq e
      unfold Heap.slot
      rw [m0 q (by omega) (by omega), m0 (q + 1) (by omega) (by omega)]
  have es : P.map h'.slot = P.map fun q => if q = u then t else h.slot q := List.map_congr_left sl
  have pm : (t :: P.map h.slot).Perm (h.slot u :: P.map h'.slot) := by rw [es]; exact perm_give h.slot t u P hu.nodup hq
  refine ⟨⟨fun q hq => ?_, hu.nodup, hu.apart, fun a ha => ?_, fun x hx => ?_, fun x hx y hy => ?_⟩, sl, m0⟩
  · have := hu.ptrs q hq; exact ⟨this.1, by rw [nx]; exact this.2⟩
  · rw [nx]; exact hu.objs a ha
  · have hc := hu.counted x (pm.mem_iff.2 hx)
    refine hc.congr (by omega) (fun hne => ?_) pm
    rcases hc with hc | ⟨-, -, -, h4, -⟩
    · exact absurd hc hne
    · have := h4 u hq
      exact m0 _ (by omega) (by omega)
  · exact hu.group x (pm.mem_iff.2 hx) y (pm.mem_iff.2 hy)

/-- The temporary goes. -/
theorem drop_pool {h : Heap} {P A : List Nat} {t : Nat × Nat} (hu : SharedWith h P A t) :
    Shareds (h.drop t.1 t.2) P A ∧ (∀ q ∈ P, (h.drop t.1 t.2).slot q = h.slot q) ∧
      (∀ b ∈ A, (h.drop t.1 t.2).deleted b = h.deleted b + if b = t.1 ∧ ¬ Held P h.holds b then 1 else 0) ∧
      (h.drop t.1 t.2).next = h.next ∧
      ∀ y, (t.2 = 0 ∨ y ≠ t.2) → (∀ a ∈ A, y + 1 ≠ a) → (h.drop t.1 t.2).mem y = h.mem y := by
  obtain ⟨a, c⟩ := t
  simp only at *
  by_cases hc0 : c = 0
  · -- nothing to give up
    have ht : (a, c) = (0, 0) := by
      rcases hu.counted (a, c) (by simp) with e | e
      · exact e
      · have := e.2.1; simp only at this; omega
    have ha : a = 0 := congrArg Prod.fst ht
    subst ha; subst hc0
    rw [Heap.drop, if_pos rfl]
    refine ⟨hu, fun _ _ => rfl, fun b hb => ?_, rfl, fun _ _ _ => rfl⟩
    have := (hu.objs b hb).1
    rw [if_neg (by omega), Nat.add_zero]
  · obtain ⟨h1, h2, h3, h4, h5, h6⟩ := (hu.counted (a, c) (by simp)).resolve_left (fun e => hc0 (congrArg Prod.snd e))
    simp only at h1 h2 h3 h4 h5 h6
    rw [List.countP_cons, if_pos (by simp)] at h6
    -- the others that have the count
    generalize hN : (P.map h.slot).countP (fun y => y.2 == c) = N at h6
    have ha1 := hu.objs a h1
    have hold : Held P h.holds a ↔ N ≠ 0 := by
      have hgr : ∀ q ∈ P, h.mem q = a ↔ h.mem (q + 1) = c := by
        intro q hq
        have := hu.group (a, c) (by simp) (h.slot q) (by simp only [List.mem_cons, List.mem_map]; exact Or.inr ⟨q, hq, rfl⟩) (by simp only; omega)
        simp only [Heap.slot] at this
        exact ⟨fun e => (this.1 e.symm).symm, fun e => (this.2 e.symm).symm⟩
      rw [← hN, ← Nat.pos_iff_ne_zero, List.countP_pos_iff]
      constructor
      · rintro ⟨q, hq, e⟩
        exact ⟨h.slot q, List.mem_map.2 ⟨q, hq, rfl⟩, by simpa [Heap.slot] using (hgr q hq).1 e⟩
      · rintro ⟨x, hx, e⟩
        obtain ⟨q, hq, rfl⟩ := List.mem_map.1 hx
        exact ⟨q, hq, (hgr q hq).2 (by simpa [Heap.slot] using e)⟩
    -- the memory afterwards
    have nx : (h.drop a c).next = h.next := by
      unfold Heap.drop; rw [if_neg hc0]; split
      · rw [delete_next]; rfl
      · rfl
    have mm : ∀ y, (h.drop a c).mem y = if y = c then N else h.mem y + if y + 1 = a ∧ N = 0 then 1 else 0 := by
      intro y
      unfold Heap.drop
      rw [if_neg hc0]
      split
      · rename_i e
        have hN0 : N = 0 := by omega
        rw [delete_mem]
        by_cases hy : y = c
        · subst hy
          rw [poke_at, if_pos rfl, if_neg (by have := h5 a h1; omega)]
          omega
        · rw [poke_ne _ _ _ _ hy, if_neg hy]
          congr 1
          by_cases hya : y + 1 = a
          · rw [if_pos (show a ≠ 0 ∧ y = a - 1 by omega), if_pos ⟨hya, hN0⟩]
          · rw [if_neg (show ¬ (a ≠ 0 ∧ y = a - 1) by omega), if_neg (fun k => hya k.1)]
      · rename_i e
        by_cases hy : y = c
        · subst hy; rw [poke_at, if_pos rfl]; omega
        · rw [poke_ne _ _ _ _ hy, if_neg hy, if_neg (by omega)]; rfl
    have keep : ∀ y, y ≠ c → (∀ a ∈ A, y + 1 ≠ a) → (h.drop a c).mem y = h.mem y := by
      intro y k1 k2
      rw [mm, if_neg k1, if_neg (fun k => k2 a h1 k.1), Nat.add_zero]
    have sl : ∀ q ∈ P, (h.drop a c).slot q = h.slot q := by
      intro q hq
      have hcq := h4 q hq
      unfold Heap.slot
      have o : ∀ i < 2, ∀ b ∈ A, q + i + 1 ≠ b := by
        intro i hi b hb k
        have := (hu.objs b hb).2.2 q hq
        omega
      rw [keep q (by omega) (o 0 (by omega)), keep (q + 1) (by omega) (o 1 (by omega))]
    refine ⟨?_, sl, fun b hb => ?_, nx, fun y k1 k2 => keep y (k1.resolve_left hc0) k2⟩
    · have es := slots_congr sl
      refine ⟨fun q hq => ?_, hu.nodup, hu.apart, fun a ha => ?_, fun x hx => ?_, fun x hx y hy => ?_⟩
      · have := hu.ptrs q hq; exact ⟨this.1, by rw [nx]; exact this.2⟩
      · rw [nx]; exact hu.objs a ha
      · rw [es] at hx ⊢
        rcases List.mem_cons.1 hx with hx | hx
        · exact Or.inl hx
        · rcases hu.counted x (List.mem_cons_of_mem _ hx) with k | ⟨k1, k2, k3, k4, k5, k6⟩
          · exact Or.inl k
          · refine Or.inr ⟨k1, k2, by omega, k4, k5, ?_⟩
            rw [List.countP_cons, if_neg (by simp; omega)]
            by_cases e : x.2 = c
            · rw [e, mm, if_pos rfl, hN]; rfl
            · rw [List.countP_cons, if_neg (by simpa using fun k => e k.symm)] at k6
              rw [keep _ e (fun b hb => by have := k5 b hb; have := (hu.objs b hb).1; omega), k6]
      · rw [es] at hx hy
        intro hx0
        rcases List.mem_cons.1 hx with rfl | hx
        · exact absurd rfl hx0
        · have gx := hu.counted x (List.mem_cons_of_mem _ hx)
          rcases List.mem_cons.1 hy with rfl | hy
          · refine ⟨fun k => absurd k hx0, fun k => ?_⟩
            rcases gx with gx | ⟨-, gx, -⟩
            · exact absurd (congrArg Prod.fst gx) hx0
            · simp only at k; omega
          · exact hu.group x (List.mem_cons_of_mem _ hx) y (List.mem_cons_of_mem _ hy) hx0
    · have hb1 := (hu.objs b hb).1
      have := h5 b hb
      unfold Heap.deleted
      rw [mm, if_neg (by omega)]
      congr 1
      by_cases e : b = a
      · subst e
        by_cases hN0 : N = 0
        · rw [if_pos ⟨by omega, hN0⟩, if_pos ⟨rfl, fun k => (hold.1 k) hN0⟩]
        · rw [if_neg (fun k => hN0 k.2), if_neg (fun k => k.2 (hold.2 hN0))]
      · rw [if_neg (by omega), if_neg (fun k => e k.1)]

/-- a temporary made from a pointer of the pool -/
theorem bump_pool {h : Heap} {P A : List Nat} {r : Nat} (hu : Shareds h P A) (hr : r ∈ P) :
    SharedWith (h.bump (h.mem (r + 1))) P A (h.slot r) ∧ (∀ q ∈ P, (h.bump (h.mem (r + 1))).slot q = h.slot q) ∧
      (h.bump (h.mem (r + 1))).next = h.next ∧
      ∀ y, (h.mem (r + 1) = 0 ∨ y ≠ h.mem (r + 1)) → (h.bump (h.mem (r + 1))).mem y = h.mem y := by
  have hmem : h.slot r ∈ (0, 0) :: P.map h.slot := List.mem_cons_of_mem _ (List.mem_map.2 ⟨r, hr, rfl⟩)
  generalize hc : h.mem (r + 1) = c
  have hsl : (h.slot r).2 = c := hc
  by_cases hc0 : c = 0
  · have ht : h.slot r = (0, 0) := by
      rcases hu.counted _ hmem with e | e
      · exact e
      · have := e.2.1; omega
    rw [Heap.bump, if_pos hc0, ht]
    exact ⟨hu, fun _ _ => rfl, rfl, fun _ _ => rfl⟩
  · obtain ⟨h1, h2, h3, h4, h5, h6⟩ := (hu.counted _ hmem).resolve_left (fun e => hc0 (by rw [← hsl, e]))
    rw [hsl] at h2 h3 h4 h5 h6
    rw [Heap.bump, if_neg hc0]
    have keep : ∀ y, y ≠ c → (h.poke c (h.mem c + 1)).mem y = h.mem y := fun y hy => poke_ne _ _ _ _ hy
    have sl : ∀ q ∈ P, (h.poke c (h.mem c + 1)).slot q = h.slot q := by
      intro q hq
      have := h4 q hq
      unfold Heap.slot
      rw [keep q (by omega), keep (q + 1) (by omega)]
    have es := slots_congr sl
    have old : ∀ x, x ∈ h.slot r :: P.map h.slot → x ∈ (0, 0) :: P.map h.slot := by
      intro x hx
      rcases List.mem_cons.1 hx with rfl | hx
      · exact hmem
      · exact List.mem_cons_of_mem _ hx
    refine ⟨⟨fun q hq => hu.ptrs q hq, hu.nodup, hu.apart, fun a ha => hu.objs a ha, fun x hx => ?_, fun x hx y hy => ?_⟩, sl, rfl,
      fun y k => keep y (k.resolve_left hc0)⟩
    · rw [es] at hx ⊢
      rcases hu.counted x (old x hx) with k | ⟨k1, k2, k3, k4, k5, k6⟩
      · exact Or.inl k
      · refine Or.inr ⟨k1, k2, k3, k4, k5, ?_⟩
        rw [List.countP_cons, if_neg (by simp; omega)] at k6
        by_cases e : x.2 = c
        · rw [List.countP_cons, if_pos (by simp [e, hsl]), e, poke_at, ← e, k6]
        · rw [List.countP_cons, if_neg (by simpa [hsl] using fun k => e k.symm), keep _ e, k6]
    · rw [es] at hx hy
      exact hu.group x (old x hx) y (old y hy)

/-- a temporary made for an object that no pointer holds -/
theorem fresh_pool {h : Heap} {P A : List Nat} {a : Nat} (hu : Shareds h P A) (ha : a ∈ A) (hn : ¬ Held P h.holds a) (hpos : 0 < h.next) :
    SharedWith (h.newObj (fun _ => 1) 1).1 P A (a, h.next) ∧ (∀ q ∈ P, (h.newObj (fun _ => 1) 1).1.slot q = h.slot q) := by
  have keep : ∀ y < h.next, (h.newObj (fun _ => 1) 1).1.mem y = h.mem y := fun y hy => newObj_old h _ 1 y hy
  have sl : ∀ q ∈ P, (h.newObj (fun _ => 1) 1).1.slot q = h.slot q := by
    intro q hq
    have := (hu.ptrs q hq).2
    unfold Heap.slot
    rw [keep q (by omega), keep (q + 1) (by omega)]
  have es := slots_congr sl
  have small : ∀ x ∈ P.map h.slot, x.2 < h.next := by
    intro x hx
    rcases hu.counted x (List.mem_cons_of_mem _ hx) with k | k
    · rw [k]; exact hpos
    · exact k.2.2.1
  have nx : (h.newObj (fun _ => 1) 1).1.next = h.next + 1 + 1 := rfl
  refine ⟨⟨fun q hq => ?_, hu.nodup, hu.apart, fun b hb => ?_, fun x hx => ?_, fun x hx y hy => ?_⟩, sl⟩
  · have := hu.ptrs q hq; exact ⟨this.1, by have := this.2; omega⟩
  · obtain ⟨h1, h2, h3⟩ := hu.objs b hb; exact ⟨h1, by omega, h3⟩
  · rw [es] at hx ⊢
    rcases List.mem_cons.1 hx with rfl | hx
    · refine Or.inr ⟨ha, hpos, by omega, fun q hq => ?_, fun b hb => ?_, ?_⟩
      · have := (hu.ptrs q hq).2; simp only; omega
      · have := (hu.objs b hb).2.1; simp only; omega
      · rw [List.countP_cons, if_pos (by simp), List.countP_eq_zero.2]
        · exact newObj_new h (fun _ => 1) 1 0 (by omega)
        · intro y hy; have := small y hy; simp only [beq_iff_eq]; omega
    · have hx2 := small x hx
      rcases hu.counted x (List.mem_cons_of_mem _ hx) with k | ⟨k1, k2, k3, k4, k5, k6⟩
      · exact Or.inl k
      · refine Or.inr ⟨k1, k2, by omega, k4, k5, ?_⟩
        rw [List.countP_cons, if_neg (by simp; omega)] at k6
        rw [List.countP_cons, if_neg (by simp only [beq_iff_eq]; omega), keep _ hx2, k6]
  · rw [es] at hx hy
    have other : ∀ z ∈ P.map h.slot, z.1 ≠ a := by
      intro z hz e
      obtain ⟨q, hq, rfl⟩ := List.mem_map.1 hz
      exact hn ⟨q, hq, e⟩
    intro hx0
    rcases List.mem_cons.1 hx with rfl | hx
    · rcases List.mem_cons.1 hy with rfl | hy
      · simp
      · have := small y hy
        have h2 := other y hy
        simp only
        exact ⟨fun k => absurd k.symm h2, fun k => by omega⟩
    · rcases List.mem_cons.1 hy with rfl | hy
      · have := small x hx
        have h2 := other x hx
        simp only
        exact ⟨fun k => absurd k h2, fun k => by omega⟩
      · exact hu.group x (List.mem_cons_of_mem _ hx) y (List.mem_cons_of_mem _ hy) hx0

/-! ### steps -/

/-- What existed is as it was. -/
structure Ext (h h' : Heap) : Prop where
  same : ∀ y < h.next, h'.mem y = h.mem y
  grow : h.next ≤ h'.next

theorem Ext.refl (h : Heap) : Ext h h := ⟨fun _ _ => rfl, Nat.le_refl _⟩

theorem Ext.trans {h h1 h2 : Heap} (a : Ext h h1) (b : Ext h1 h2) : Ext h h2 :=
  ⟨fun y hy => by rw [b.same y (by have := a.grow; omega), a.same y hy], Nat.le_trans a.grow b.grow⟩

/-- The pointers of a pool hold `own'` afterwards; what they let go of is deleted, unless it was released. -/
structure Moves (h h' : Heap) (n : Nat) (P A : List Nat) (own' : Nat → Nat) (released : Bool) : Prop where
  holds : ∀ q ∈ P, h'.mem q = own' q
  gone : ∀ b ∈ A, h'.deleted b = h.deleted b + if (Held P h.holds b ∧ ¬ Held P own' b) ∧ released = false then 1 else 0
  elsewhere : ElsewhereP h h' n P A

/-- The pool lies in the memory there is. -/
structure Placed (h : Heap) (n : Nat) (P A : List Nat) : Prop where
  cells : n = 1 ∨ n = 2
  ptrs : ∀ q ∈ P, h.Ok q n
  objs : ∀ a ∈ A, 1 < a ∧ a - 1 < h.next
  counts : n = 2 → ∀ q ∈ P, h.mem (q + 1) < h.next

theorem Uniques.placed {h : Heap} {P A : List Nat} (hu : Uniques h P A) : Placed h 1 P A :=
  ⟨Or.inl rfl, hu.ptrs, fun a ha => ⟨(hu.objs a ha).1, (hu.objs a ha).2.1⟩, fun h => absurd h (by omega)⟩

theorem SharedWith.placed {h : Heap} {P A : List Nat} {t : Nat × Nat} (hu : SharedWith h P A t) : Placed h 2 P A := by
  refine ⟨Or.inr rfl, hu.ptrs, fun a ha => ⟨(hu.objs a ha).1, (hu.objs a ha).2.1⟩, fun _ q hq => ?_⟩
  have h1 := hu.ptrs q hq
  rcases hu.counted (h.slot q) (List.mem_cons_of_mem _ (List.mem_map.2 ⟨q, hq, rfl⟩)) with k | k
  · have : h.mem (q + 1) = 0 := congrArg Prod.snd k
    have := h1.1; have := h1.2; omega
  · exact k.2.2.1

/-- the pool in a memory that was extended -/
theorem inPool_ext {h h1 : Heap} {n : Nat} {P A : List Nat} (he : ∀ q ∈ P, ∀ i < n, h1.mem (q + i) = h.mem (q + i))
    (y : Nat) : h1.InPool n P A y ↔ h.InPool n P A y := by
  unfold Heap.InPool
  refine or_congr Iff.rfl (or_congr Iff.rfl (and_congr_right fun hn => ⟨?_, ?_⟩))
  · rintro ⟨q, hq, c1, c2⟩
    have e := he q hq 1 (by omega)
    exact ⟨q, hq, by rw [← e]; exact c1, by rw [← e]; exact c2⟩
  · rintro ⟨q, hq, c1, c2⟩
    have e := he q hq 1 (by omega)
    exact ⟨q, hq, by rw [e]; exact c1, by rw [e]; exact c2⟩

theorem held_congr {P : List Nat} {f g : Nat → Nat} (h : ∀ q ∈ P, f q = g q) (a : Nat) : Held P f a ↔ Held P g a :=
  ⟨fun ⟨q, h1, h2⟩ => ⟨q, h1, by rw [← h q h1]; exact h2⟩, fun ⟨q, h1, h2⟩ => ⟨q, h1, by rw [h q h1]; exact h2⟩⟩

theorem ite_iff {P Q : Prop} [Decidable P] [Decidable Q] (h : P ↔ Q) {α : Type} (a b : α) : (if P then a else b) = if Q then a else b := by
  by_cases hp : P
  · rw [if_pos hp, if_pos (h.1 hp)]
  · rw [if_neg hp, if_neg (fun q => hp (h.2 q))]

/-- the arguments of a call are made, then it is run -/
theorem Moves.after_ext {h h1 h' : Heap} {n : Nat} {P A : List Nat} {own' : Nat → Nat} {r : Bool} (hp : Placed h n P A) (he : Ext h h1)
    (hm : Moves h1 h' n P A own' r) : Moves h h' n P A own' r := by
  have hc := hp.cells
  have pc : ∀ q ∈ P, ∀ i < n, h1.mem (q + i) = h.mem (q + i) := fun q hq i hi => he.same _ (by have := (hp.ptrs q hq).2; omega)
  have ip := inPool_ext (A := A) pc
  refine ⟨hm.holds, fun b hb => ?_, ⟨fun y hy hn => ?_, Nat.le_trans he.grow hm.elsewhere.grow, fun y hy hn => ?_⟩⟩
  · rw [hm.gone b hb, show h1.deleted b = h.deleted b from he.same _ (hp.objs b hb).2]
    congr 1
    refine ite_iff (and_congr_left fun _ => and_congr_left fun _ => held_congr (fun q hq => ?_) b) 1 0
    exact pc q hq 0 (by omega)
  · rw [hm.elsewhere.same y (by have := he.grow; omega) (fun k => hn ((ip y).1 k)), he.same y hy]
  · exact (ip y).1 (hm.elsewhere.mine y (by have := he.grow; omega) hn)

/-- the result of a call is wrapped -/
theorem Moves.before_ext {h h1 h' : Heap} {n : Nat} {P A : List Nat} {own' : Nat → Nat} {r : Bool} (hp : Placed h1 n P A)
    (hm : Moves h h1 n P A own' r) (he : Ext h1 h') : Moves h h' n P A own' r := by
  have hc := hp.cells
  have pc : ∀ q ∈ P, ∀ i < n, h'.mem (q + i) = h1.mem (q + i) := fun q hq i hi => he.same _ (by have := (hp.ptrs q hq).2; omega)
  have ip := inPool_ext (A := A) pc
  refine ⟨fun q hq => ?_, fun b hb => ?_, ⟨fun y hy hn => ?_, Nat.le_trans hm.elsewhere.grow he.grow, fun y hy hn => ?_⟩⟩
  · rw [show h'.mem q = h1.mem q from pc q hq 0 (by omega)]; exact hm.holds q hq
  · rw [show h'.deleted b = h1.deleted b from he.same _ (hp.objs b hb).2]; exact hm.gone b hb
  · rw [he.same y (by have := hm.elsewhere.grow; omega), hm.elsewhere.same y hy hn]
  · exact hm.elsewhere.mine y hy ((ip y).1 hn)

theorem Moves.congr {h h' : Heap} {n : Nat} {P A : List Nat} {own own' : Nat → Nat} {r : Bool} (hm : Moves h h' n P A own r)
    (he : ∀ q ∈ P, own q = own' q) : Moves h h' n P A own' r := by
  refine ⟨fun q hq => (hm.holds q hq).trans (he q hq), fun b hb => ?_, hm.elsewhere⟩
  rw [hm.gone b hb]
  congr 1
  exact ite_iff (and_congr_left fun _ => and_congr_right fun _ => not_congr (held_congr he b)) 1 0

theorem Uniques.ext {h h' : Heap} {P A : List Nat} (hu : Uniques h P A) (he : Ext h h') : Uniques h' P A :=
  (uniques_kept hu he.grow fun y hy _ => he.same y hy).1

theorem SharedWith.ext {h h' : Heap} {P A : List Nat} {t : Nat × Nat} (hu : SharedWith h P A t) (he : Ext h h') : SharedWith h' P A t := by
  refine shared_kept hu he.grow (fun q hq => ?_) fun x hx hne => ?_
  · have := (hu.ptrs q hq).2
    unfold Heap.slot
    rw [he.same q (by omega), he.same (q + 1) (by omega)]
  · exact he.same _ ((hu.counted x hx).resolve_left hne).2.2.1

/-- `uniSet` on a pool -/
theorem uniSet_moves {h : Heap} {P A : List Nat} {u a : Nat} (hu : Uniques h P A) (hq : u ∈ P)
    (ha : a = 0 ∨ (a ∈ A ∧ ¬ Held P h.holds a)) :
    Uniques (h.uniSet u a) P A ∧ Moves h (h.uniSet u a) 1 P A (give h.holds u a) false := by
  obtain ⟨s1, s2, s3, s4, s5⟩ := uniSet_pool hu hq (ha.imp id fun k => ⟨k.1, fun q hq e => k.2 ⟨q, hq, e⟩⟩)
  refine ⟨s1, s2, fun b hb => ?_, ⟨fun y _ hn => s5 y hn, by rw [s4]; exact Nat.le_refl _, fun y _ k => inPool_one.2 (inPool_one.1 k)⟩⟩
  rw [s3 b hb]
  congr 1
  refine ite_iff ?_ 1 0
  rw [letsGo_give (own := h.holds) hu.alone hq (ha.imp id And.right) (by have := (hu.objs b hb).1; omega)]
  simp [Heap.holds]

/-- `release` on a pool -/
theorem uniRelease_moves {h : Heap} {P A : List Nat} {u : Nat} (hu : Uniques h P A) (hq : u ∈ P) :
    Uniques (h.poke u 0) P A ∧ Moves h (h.poke u 0) 1 P A (give h.holds u 0) true := by
  have hd : ∀ q ∈ P, (h.poke u 0).mem q = give h.holds u 0 q := by
    intro q _
    by_cases e : q = u
    · subst e; rw [poke_at, give_at]
    · rw [poke_ne _ _ _ _ e, give_ne _ _ _ _ e]; rfl
  refine ⟨⟨hu.ptrs, hu.objs, fun q hq' => ?_, fun q h1 q' h2 => ?_⟩, hd, fun b hb => ?_, ⟨fun y _ hn => ?_, Nat.le_refl _, fun y _ k => inPool_one.2 (inPool_one.1 k)⟩⟩
  · rw [hd q hq']
    by_cases e : q = u
    · subst e; rw [give_at]; exact Or.inl rfl
    · rw [give_ne _ _ _ _ e]; exact hu.held q hq'
  · rw [hd q h1, hd q' h2]
    by_cases e : q = u
    · subst e; rw [give_at]; exact fun _ k => absurd rfl k
    · rw [give_ne _ _ _ _ e]
      by_cases e' : q' = u
      · subst e'; rw [give_at]; exact fun k k' => absurd k k'
      · rw [give_ne _ _ _ _ e']; exact hu.alone q h1 q' h2
  · obtain ⟨k1, k2, k3⟩ := hu.objs b hb
    simp only [Heap.deleted]
    rw [poke_ne _ _ _ _ (fun (c : b - 1 = u) => k3 (c ▸ hq))]
    simp
  · rw [inPool_one] at hn
    exact poke_ne _ _ _ _ (fun (c : y = u) => hn (Or.inl (c ▸ hq)))

/-- `u` is given what `r` held: `r` was emptied into `a` first (`h1`). -/
theorem uniMove_moves {h h1 : Heap} {P A : List Nat} {u r : Nat} (hu : Uniques h P A) (hq : u ∈ P) (hr : r ∈ P)
    (he : Ext (h.poke r 0) h1) :
    Uniques (h1.uniSet u (h.mem r)) P A ∧ Moves h (h1.uniSet u (h.mem r)) 1 P A (give (give h.holds r 0) u (h.mem r)) false := by
  obtain ⟨r1, r2⟩ := uniRelease_moves hu hr
  have k1 := r1.ext he
  have e1 : ∀ q ∈ P, h1.mem q = give h.holds r 0 q := fun q hq => by
    rw [he.same q (by have := (r1.ptrs q hq).2; omega)]; exact r2.holds q hq
  have free : h.mem r = 0 ∨ (h.mem r ∈ A ∧ ¬ Held P h1.holds (h.mem r)) := by
    rcases hu.held r hr with k | k
    · exact Or.inl k
    · refine Or.inr ⟨k, ?_⟩
      have hne := (hu.objs _ k).1
      rintro ⟨q, c1, c2⟩
      have c2 : h1.mem q = h.mem r := c2
      rw [e1 q c1] at c2
      by_cases e : q = r
      · subst e; rw [give_at] at c2; omega
      · rw [give_ne _ _ _ _ e] at c2
        exact e (hu.alone q c1 r hr c2 (by rw [show h.mem q = h.mem r from c2]; omega))
  obtain ⟨s1, s2, s3, s4, s5⟩ := uniSet_pool k1 hq (free.imp id fun k => ⟨k.1, fun q hq e => k.2 ⟨q, hq, e⟩⟩)
  have eu := e1 u hq
  have nx : h.next ≤ h1.next := he.grow
  refine ⟨s1, fun q hq' => ?_, fun b hb => ?_, ⟨fun y hy hn => ?_, by rw [s4]; exact nx, fun y _ k => inPool_one.2 (inPool_one.1 k)⟩⟩
  · rw [s2 q hq']
    by_cases e : q = u
    · subst e; rw [give_at, give_at]
    · rw [give_ne _ _ _ _ e, give_ne _ _ _ _ e]; exact e1 q hq'
  · have hb1 := hu.objs b hb
    rw [s3 b hb, show h1.deleted b = (h.poke r 0).deleted b from he.same _ hb1.2.1, r2.gone b hb]
    simp only [Bool.true_eq_false, and_false, if_false, Nat.add_zero, and_true]
    congr 1
    refine ite_iff ?_ 1 0
    rw [eu]
    exact (letsGo_move (own := h.holds) hu.alone hq hr (by omega)).symm
  · rw [s5 y (fun k => hn (inPool_one.2 (inPool_one.1 k))), he.same y hy, r2.elsewhere.same y hy hn]

/-- `shSwap` on a pool with a temporary: `h` is the memory before the temporary was made. -/
theorem shSwap_moves {h h1 : Heap} {P A : List Nat} {u : Nat} {t : Nat × Nat} (own : Nat → Nat) (hu : SharedWith h1 P A t) (hq : u ∈ P)
    (hown : ∀ q ∈ P, h1.mem q = own q)
    (hdel : ∀ b ∈ A, h1.deleted b = h.deleted b) (hfr : ∀ y < h.next, ¬ h.InPool 2 P A y → h1.mem y = h.mem y) (hgr : h.next ≤ h1.next)
    (hmine : ∀ q ∈ P, h1.mem (q + 1) = 0 ∨ h.next ≤ h1.mem (q + 1) ∨ h.InPool 2 P A (h1.mem (q + 1)))
    (ht : t.2 = 0 ∨ h.next ≤ t.2 ∨ h.InPool 2 P A t.2)
    (hgone : ∀ b ∈ A, (Held P h.holds b ∧ ¬ Held P (give own u t.1) b) ↔ (b = own u ∧ ¬ Held P (give own u t.1) b)) :
    Shareds (h1.shSwap u t.1 t.2) P A ∧ Moves h (h1.shSwap u t.1 t.2) 2 P A (give own u t.1) false := by
  obtain ⟨s1, s2, s3⟩ := swap_pool hu hq
  obtain ⟨d1, d2, d3, d4, d5⟩ := drop_pool s1
  have e : h1.shSwap u t.1 t.2 = ((h1.poke u t.1).poke (u + 1) t.2).drop (h1.slot u).1 (h1.slot u).2 := rfl
  rw [e]
  generalize hg : ((h1.poke u t.1).poke (u + 1) t.2) = g at s1 s2 s3 d1 d2 d3 d4 d5
  generalize hw : g.drop (h1.slot u).1 (h1.slot u).2 = w at d1 d2 d3 d4 d5
  have hh : ∀ q ∈ P, w.mem q = give own u t.1 q := by
    intro q hq'
    have e1 : (w.slot q).1 = (g.slot q).1 := by rw [d2 q hq']
    have e2 : (g.slot q).1 = give own u t.1 q := by
      rw [s2 q hq']
      by_cases k : q = u
      · subst k; rw [if_pos rfl, give_at]
      · rw [if_neg k, give_ne _ _ _ _ k]; exact hown q hq'
    exact e1.trans e2
  have hgh : ∀ q ∈ P, g.holds q = give own u t.1 q := by
    intro q hq'
    have e1 : (w.slot q).1 = (g.slot q).1 := by rw [d2 q hq']
    exact e1.symm.trans (hh q hq')
  have gn : g.next = h1.next := by rw [← hg]; rfl
  refine ⟨d1, hh, fun b hb => ?_, ⟨fun y hy hn => ?_, by rw [d4, gn]; exact hgr, fun y hy k => ?_⟩⟩
  · have hbo := (hu.objs b hb).2.2 u hq
    rw [d3 b hb, show g.deleted b = h1.deleted b from s3 _ (by omega) (by omega), hdel b hb]
    congr 1
    refine ite_iff ?_ 1 0
    rw [hgone b hb, held_congr hgh b, show (h1.slot u).1 = own u from hown u hq]
    simp
  · have nq : ∀ q ∈ P, y < q ∨ q + 2 ≤ y := by
      intro q hq'
      by_cases k : y < q ∨ q + 2 ≤ y
      · exact k
      · exact absurd (Or.inl ⟨q, hq', by omega⟩) hn
    rw [d5 y ?_ (fun a ha k => hn (Or.inr (Or.inl ⟨a, ha, k⟩))), s3 y (by have := nq u hq; omega) (by have := nq u hq; omega), hfr y hy hn]
    show h1.mem (u + 1) = 0 ∨ y ≠ h1.mem (u + 1)
    rcases hmine u hq with k | k | k
    · exact Or.inl k
    · exact Or.inr (by omega)
    · exact Or.inr (fun c => hn (c ▸ k))
  · rcases k with k | k | ⟨-, q, hq', k1, k2⟩
    · exact Or.inl k
    · exact Or.inr (Or.inl k)
    · have e1 : (w.slot q).2 = (g.slot q).2 := by rw [d2 q hq']
      have e2 : w.mem (q + 1) = (g.slot q).2 := e1
      rw [e2, s2 q hq'] at k1 k2
      by_cases c : q = u
      · rw [if_pos c] at k1 k2
        rcases ht with j | j | j
        · exact absurd j k1
        · omega
        · rw [k2]; exact j
      · rw [if_neg c] at k1 k2
        rcases hmine q hq' with j | j | j
        · exact absurd j k1
        · have : y = h1.mem (q + 1) := k2
          omega
        · rw [k2]; exact j

theorem gone_give {P : List Nat} {own : Nat → Nat} {u a : Nat} (hq : u ∈ P) (b : Nat) :
    (Held P own b ∧ ¬ Held P (give own u a) b) ↔ (b = own u ∧ ¬ Held P (give own u a) b) := by
  refine and_congr_left fun hn => ⟨?_, fun e => ⟨u, hq, e.symm⟩⟩
  rintro ⟨q, h1, h2⟩
  by_cases e : q = u
  · rw [← e, h2]
  · exact absurd ⟨q, h1, by rw [give_ne _ _ _ _ e, h2]⟩ hn

theorem gone_move {P : List Nat} {own : Nat → Nat} {u r : Nat} (hq : u ∈ P) (b : Nat) (hb : b ≠ 0) :
    (Held P own b ∧ ¬ Held P (give (give own r 0) u (own r)) b) ↔ (b = give own r 0 u ∧ ¬ Held P (give (give own r 0) u (own r)) b) := by
  refine and_congr_left fun hn => ⟨?_, fun e => ?_⟩
  · rintro ⟨q, h1, h2⟩
    have hru : ¬ own r = b := fun c => hn ⟨u, hq, by rw [give_at, c]⟩
    have e1 : q ≠ r := fun c => hru (c ▸ h2)
    by_cases e : q = u
    · subst e; rw [give_ne _ _ _ _ e1, h2]
    · exact absurd ⟨q, h1, by rw [give_ne _ _ _ _ e, give_ne _ _ _ _ e1, h2]⟩ hn
  · by_cases c : u = r
    · subst c; rw [give_at] at e; exact absurd e hb
    · rw [give_ne _ _ _ _ c] at e; exact ⟨u, hq, e.symm⟩

theorem count_inPool {h : Heap} {P A : List Nat} (q : Nat) (hq : q ∈ P) : h.mem (q + 1) = 0 ∨ h.next ≤ h.mem (q + 1) ∨ h.InPool 2 P A (h.mem (q + 1)) := by
  by_cases k : h.mem (q + 1) = 0
  · exact Or.inl k
  · exact Or.inr (Or.inr (Or.inr (Or.inr ⟨rfl, q, hq, k, rfl⟩)))

/-- `reset()` on a pool -/
theorem shReset_moves {h : Heap} {P A : List Nat} {u : Nat} (hu : Shareds h P A) (hq : u ∈ P) :
    Shareds (h.shSwap u 0 0) P A ∧ Moves h (h.shSwap u 0 0) 2 P A (give h.holds u 0) false :=
  shSwap_moves (t := (0, 0)) h.holds hu hq (fun _ _ => rfl) (fun _ _ => rfl) (fun _ _ _ => rfl) (Nat.le_refl _)
    (fun q hq => count_inPool q hq) (Or.inl rfl) (fun b _ => gone_give hq b)

/-- `reset(x)` on a pool -/
theorem shResetTo_moves {h : Heap} {P A : List Nat} {u a : Nat} (hu : Shareds h P A) (hq : u ∈ P) (ha : a ∈ A) (hn : ¬ Held P h.holds a) :
    Shareds ((h.newObj (fun _ => 1) 1).1.shSwap u a h.next) P A ∧
      Moves h ((h.newObj (fun _ => 1) 1).1.shSwap u a h.next) 2 P A (give h.holds u a) false := by
  have hpos : 0 < h.next := by have := (hu.ptrs u hq).1; have := (hu.ptrs u hq).2; omega
  obtain ⟨f1, f2⟩ := fresh_pool hu ha hn hpos
  have keep : ∀ y < h.next, (h.newObj (fun _ => 1) 1).1.mem y = h.mem y := fun y hy => newObj_old h _ 1 y hy
  refine shSwap_moves (t := (a, h.next)) h.holds f1 hq (fun q hq => ?_) (fun b hb => ?_) (fun y hy _ => keep y hy) (by simp only [newObj]; omega)
    (fun q hq => ?_) (Or.inr (Or.inl (Nat.le_refl _))) (fun b _ => gone_give hq b)
  · exact congrArg Prod.fst (f2 q hq)
  · exact keep _ (hu.objs b hb).2.1
  · rw [show (h.newObj (fun _ => 1) 1).1.mem (q + 1) = h.mem (q + 1) from congrArg Prod.snd (f2 q hq)]
    exact count_inPool q hq

/-- copy assignment on a pool -/
theorem shAssign_moves {h : Heap} {P A : List Nat} {u r : Nat} (hu : Shareds h P A) (hq : u ∈ P) (hr : r ∈ P) :
    Shareds ((h.bump (h.mem (r + 1))).shSwap u (h.mem r) (h.mem (r + 1))) P A ∧
      Moves h ((h.bump (h.mem (r + 1))).shSwap u (h.mem r) (h.mem (r + 1))) 2 P A (give h.holds u (h.mem r)) false := by
  obtain ⟨f1, f2, f3, f4⟩ := bump_pool hu hr
  have hmem : h.slot r ∈ (0, 0) :: P.map h.slot := List.mem_cons_of_mem _ (List.mem_map.2 ⟨r, hr, rfl⟩)
  refine shSwap_moves (t := h.slot r) h.holds f1 hq (fun q hq => ?_) (fun b hb => ?_) (fun y hy hn => ?_) (by rw [f3]; exact Nat.le_refl _)
    (fun q hq => ?_) (count_inPool r hr) (fun b _ => gone_give hq b)
  · exact congrArg Prod.fst (f2 q hq)
  · refine f4 _ ?_
    rcases hu.counted _ hmem with k | ⟨-, -, -, -, k, -⟩
    · exact Or.inl (congrArg Prod.snd k)
    · exact Or.inr (fun c => k b hb c.symm)
  · refine f4 y ?_
    rcases count_inPool (h := h) (A := A) r hr with k | k | k
    · exact Or.inl k
    · exact Or.inr (by omega)
    · exact Or.inr (fun c => hn (c ▸ k))
  · rw [show (h.bump (h.mem (r + 1))).mem (q + 1) = h.mem (q + 1) from congrArg Prod.snd (f2 q hq)]
    exact count_inPool q hq

/-- `u` is given what `r` held: `r` was emptied first (`h1`). -/
theorem shMove_moves {h h1 : Heap} {P A : List Nat} {u r : Nat} (hu : Shareds h P A) (hq : u ∈ P) (hr : r ∈ P)
    (he : Ext ((h.poke r 0).poke (r + 1) 0) h1) :
    Shareds (h1.shSwap u (h.mem r) (h.mem (r + 1))) P A ∧
      Moves h (h1.shSwap u (h.mem r) (h.mem (r + 1))) 2 P A (give (give h.holds r 0) u (h.mem r)) false := by
  obtain ⟨s1, s2, s3⟩ := swap_pool (t := (0, 0)) hu hr
  simp only at s1 s2 s3
  have k1 := s1.ext he
  have sl : ∀ q ∈ P, h1.slot q = if q = r then (0, 0) else h.slot q := by
    intro q hq'
    rw [← s2 q hq']
    have := (hu.ptrs q hq').2
    unfold Heap.slot
    rw [he.same q (by show q < h.next; omega), he.same (q + 1) (by show q + 1 < h.next; omega)]
  have nx : h.next ≤ h1.next := he.grow
  have hrr := hu.ptrs r hr
  refine shSwap_moves (t := h.slot r) (give h.holds r 0) k1 hq (fun q hq' => ?_) (fun b hb => ?_) (fun y hy hn => ?_) nx
    (fun q hq' => ?_) (count_inPool r hr) (fun b hb => gone_move (own := h.holds) hq b (by have := (hu.objs b hb).1; omega))
  · have := congrArg Prod.fst (sl q hq')
    by_cases e : q = r
    · subst e; rw [if_pos rfl] at this; rw [give_at]; exact this
    · rw [if_neg e] at this; rw [give_ne _ _ _ _ e]; exact this
  · have hb1 := hu.objs b hb
    have := hb1.2.2 r hr
    have e1 : h1.mem (b - 1) = ((h.poke r 0).poke (r + 1) 0).mem (b - 1) := he.same _ hb1.2.1
    exact e1.trans (s3 _ (by omega) (by omega))
  · have nr : y < r ∨ r + 2 ≤ y := by
      by_cases k : y < r ∨ r + 2 ≤ y
      · exact k
      · exact absurd (Or.inl ⟨r, hr, by omega⟩) hn
    rw [he.same y hy, s3 y (by omega) (by omega)]
  · have := congrArg Prod.snd (sl q hq')
    rw [show h1.mem (q + 1) = (h1.slot q).2 from rfl, this]
    by_cases e : q = r
    · rw [if_pos e]; exact Or.inl rfl
    · rw [if_neg e]; exact count_inPool q hq'

/-- A temporary pointer that comes to lie in memory joins the pool. -/
theorem SharedWith.join {h h' : Heap} {P A : List Nat} {a : Nat} (hu : SharedWith h P A (h'.slot a)) (he : Ext h h') (hfr : h.next ≤ a)
    (hok : h'.Ok a 2) : Shareds h' (a :: P) A := by
  have hu' := hu.ext he
  have hP : ∀ q ∈ P, q + 2 ≤ h.next := fun q hq => (hu.ptrs q hq).2
  have cnt : ∀ x ∈ h'.slot a :: P.map h'.slot, x ≠ (0, 0) → x.2 < h.next := by
    intro x hx hne
    rw [slots_congr (fun q hq => ?_)] at hx
    · exact ((hu.counted x hx).resolve_left hne).2.2.1
    · have := hP q hq
      unfold Heap.slot
      rw [he.same q (by omega), he.same (q + 1) (by omega)]
  refine ⟨fun q hq => ?_, ?_, fun q hq q' hq' hne => ?_, fun b hb => ?_, fun x hx => ?_, fun x hx y hy hne => ?_⟩
  · rcases List.mem_cons.1 hq with e | hq
    · subst e; exact hok
    · exact hu'.ptrs q hq
  · exact List.nodup_cons.2 ⟨fun c => by have := hP a c; omega, hu.nodup⟩
  · rcases List.mem_cons.1 hq with e | hq <;> rcases List.mem_cons.1 hq' with e' | hq'
    · exact absurd (e.trans e'.symm) hne
    · have := hP q' hq'; omega
    · have := hP q hq; omega
    · exact hu.apart q hq q' hq' hne
  · obtain ⟨h1, h2, h3⟩ := hu.objs b hb
    refine ⟨h1, by have := he.grow; omega, fun q hq => ?_⟩
    rcases List.mem_cons.1 hq with e | hq
    · omega
    · exact h3 q hq
  · rw [List.map_cons] at hx ⊢
    rcases List.mem_cons.1 hx with e | hx
    · exact Or.inl e
    · by_cases hne : x = (0, 0)
      · exact Or.inl hne
      · obtain ⟨c1, c2, c3, c4, c5, c6⟩ := (hu'.counted x hx).resolve_left hne
        refine Or.inr ⟨c1, c2, c3, fun q hq => ?_, c5, ?_⟩
        · rcases List.mem_cons.1 hq with e | hq
          · have := cnt x hx hne; omega
          · exact c4 q hq
        · rw [c6, List.countP_cons (a := ((0, 0) : Nat × Nat)), if_neg]
          · rfl
          · simp only [beq_iff_eq]; omega
  · rw [List.map_cons] at hx hy
    rcases List.mem_cons.1 hx with e | hx
    · subst e; exact absurd rfl hne
    · rcases List.mem_cons.1 hy with e | hy
      · subst e
        by_cases hz : x = (0, 0)
        · subst hz; exact absurd rfl hne
        · have := ((hu'.counted x hx).resolve_left hz).2.1
          exact ⟨fun c => absurd c hne, fun c => absurd c (by simp only; omega)⟩
      · exact hu'.group x hx y hy hne

/-- A new pointer to what no pointer of the pool holds joins it. -/
theorem Uniques.join {h : Heap} {P A : List Nat} {a : Nat} (hu : Uniques h P A) (hok : h.Ok a 1) (hA : ∀ b ∈ A, b - 1 ≠ a)
    (hh : h.mem a ∈ A ∧ ∀ q ∈ P, h.mem q ≠ h.mem a) : Uniques h (a :: P) A := by
  refine ⟨fun q hq => ?_, fun b hb => ?_, fun q hq => ?_, fun q hq q' hq' e hne => ?_⟩
  · rcases List.mem_cons.1 hq with k | hq
    · subst k; exact hok
    · exact hu.ptrs q hq
  · obtain ⟨h1, h2, h3⟩ := hu.objs b hb
    refine ⟨h1, h2, fun c => ?_⟩
    rcases List.mem_cons.1 c with k | k
    · exact hA b hb k
    · exact h3 k
  · rcases List.mem_cons.1 hq with k | hq
    · subst k; exact Or.inr hh.1
    · exact hu.held q hq
  · rcases List.mem_cons.1 hq with k | j <;> rcases List.mem_cons.1 hq' with k' | j'
    · exact k.trans k'.symm
    · subst k; exact absurd e.symm (hh.2 q' j')
    · subst k'; exact absurd e (hh.2 q j)
    · exact hu.alone q j q' j' e hne

end Reflect

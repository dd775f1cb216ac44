import Verif.Lemmas.Json.Place
import Verif.Lemmas.SmartPtr
/- Smart pointers among the values in memory. -/
namespace Reflect.Json

variable {p : Prog} {N : Native} {L : Layout}

/-- new memory changes nothing -/
theorem Become.ext (hL : L.Sound p N) {h h' : Heap} {t : Ty} {a : Nat} {v : JV} {O : Nat → Prop} (hr : Rep p N L h t a v O) (he : Ext h h') :
    Become p N L h h' t a O v O :=
  ⟨hr.kept hL he.grow fun y hy _ => he.same y hy, fun y hy _ _ => he.same y hy, fun _ _ h => h, he.grow⟩

/-- a single `std::shared_ptr` that holds nothing -/
theorem shareds_empty {h : Heap} {a : Nat} {A : List Nat} (hok : h.Ok a 2) (h0 : h.mem a = 0) (h1 : h.mem (a + 1) = 0)
    (hA : ∀ b ∈ A, 1 < b ∧ b - 1 < h.next ∧ (b - 1 < a ∨ a + 2 ≤ b - 1)) : Shareds h [a] A := by
  have hs : h.slot a = (0, 0) := by unfold Heap.slot; rw [h0, h1]
  refine ⟨?_, by simp, ?_, ?_, ?_, ?_⟩
  · intro q hq
    simp only [List.mem_singleton] at hq
    subst hq; exact hok
  · intro q hq q' hq' hne
    simp only [List.mem_singleton] at hq hq'
    exact absurd (hq.trans hq'.symm) hne
  · intro b hb
    obtain ⟨q1, q2, q3⟩ := hA b hb
    refine ⟨q1, q2, ?_⟩
    intro q hq
    simp only [List.mem_singleton] at hq
    subst hq; exact q3
  · intro x hx
    simp only [List.map_cons, List.map_nil, hs, List.mem_cons, List.not_mem_nil, or_false, or_self] at hx
    exact Or.inl hx
  · intro x hx y hy hne
    simp only [List.map_cons, List.map_nil, hs, List.mem_cons, List.not_mem_nil, or_false, or_self] at hx
    subst hx
    exact absurd rfl hne

/-- a single `std::shared_ptr` that is the only one to hold an object -/
theorem shareds_one {h : Heap} {a b c : Nat} (hok : h.Ok a 2) (h0 : h.mem a = b) (h1 : h.mem (a + 1) = c)
    (hb : 1 < b ∧ b - 1 < h.next ∧ (b - 1 < a ∨ a + 2 ≤ b - 1)) (hc : 0 < c ∧ c < h.next ∧ (c < a ∨ a + 2 ≤ c) ∧ c ≠ b - 1)
    (hm : h.mem c = 1) : Shareds h [a] [b] := by
  have hs : h.slot a = (b, c) := by unfold Heap.slot; rw [h0, h1]
  obtain ⟨c1, c2, c3, c4⟩ := hc
  refine ⟨?_, by simp, ?_, ?_, ?_, ?_⟩
  · intro q hq
    simp only [List.mem_singleton] at hq
    subst hq; exact hok
  · intro q hq q' hq' hne
    simp only [List.mem_singleton] at hq hq'
    exact absurd (hq.trans hq'.symm) hne
  · intro b' hb'
    simp only [List.mem_singleton] at hb'
    subst hb'
    refine ⟨hb.1, hb.2.1, ?_⟩
    intro q hq
    simp only [List.mem_singleton] at hq
    subst hq; exact hb.2.2
  · intro x hx
    simp only [List.map_cons, List.map_nil, hs, List.mem_cons, List.not_mem_nil, or_false] at hx
    rcases hx with rfl | rfl
    · exact Or.inl rfl
    · refine Or.inr ⟨by simp, c1, c2, ?_, ?_, ?_⟩
      · intro q hq
        simp only [List.mem_singleton] at hq
        subst hq; exact c3
      · intro q hq
        simp only [List.mem_singleton] at hq
        subst hq; exact c4
      · have : (0 == c) = false := by simp; omega
        simp [hs, hm, List.countP_cons, this]
  · intro x hx y hy hne
    simp only [List.map_cons, List.map_nil, hs, List.mem_cons, List.not_mem_nil, or_false] at hx hy
    rcases hx with rfl | rfl
    · exact absurd rfl hne
    · rcases hy with rfl | rfl
      · exact ⟨fun z => by simp only at z; omega, fun z => by simp only at z; omega⟩
      · exact ⟨fun _ => rfl, fun _ => rfl⟩

/-- a single `std::unique_ptr` -/
theorem uniques_one {h : Heap} {a : Nat} {A : List Nat} (hok : h.Ok a 1) (h0 : h.mem a = 0 ∨ h.mem a ∈ A)
    (hA : ∀ b ∈ A, 1 < b ∧ b - 1 < h.next ∧ b - 1 ≠ a) : Uniques h [a] A := by
  refine ⟨?_, ?_, ?_, ?_⟩
  · intro q hq
    simp only [List.mem_singleton] at hq
    subst hq; exact hok
  · intro b hb
    obtain ⟨q1, q2, q3⟩ := hA b hb
    exact ⟨q1, q2, by simpa using q3⟩
  · intro q hq
    simp only [List.mem_singleton] at hq
    subst hq; exact h0
  · intro q hq q' hq' _ _
    simp only [List.mem_singleton] at hq hq'
    exact hq.trans hq'.symm

/-- what is in the pool of a single pointer -/
theorem inPool_one {h : Heap} {n a : Nat} {A : List Nat} {y : Nat} (hy : h.InPool n [a] A y) :
    (a ≤ y ∧ y < a + n) ∨ (∃ b ∈ A, y + 1 = b) ∨ (n = 2 ∧ h.mem (a + 1) ≠ 0 ∧ y = h.mem (a + 1)) := by
  rcases hy with ⟨q, hq, z⟩ | z | ⟨z1, q, hq, z⟩
  · simp only [List.mem_singleton] at hq
    subst hq; exact Or.inl z
  · exact Or.inr (Or.inl z)
  · simp only [List.mem_singleton] at hq
    subst hq; exact Or.inr (Or.inr ⟨z1, z⟩)

/-- A smart pointer in memory is a pool of its own, with what it holds. -/
theorem rep_pool (hL : L.Sound p N) {h : Heap} {t e : Ty} {n a : Nat} {v : JV} {O : Nat → Prop} (hl : L t = .ptr e n) (hr : Rep p N L h t a v O) :
    ∃ A, (∀ b ∈ A, 1 < b) ∧ (n = 1 → Uniques h [a] A) ∧ (n = 2 → Shareds h [a] A) ∧ ∀ y, h.InPool n [a] A y → OwnCell p t a y ∨ O y := by
  obtain ⟨s1, s2⟩ := hL.ptr t e n hl
  cases hr with
  | scalar _ _ _ cells cs _ h1 => rw [hl] at h1; cases h1
  | list _ _ _ _ _ _ h1 => rw [hl] at h1; cases h1
  | map _ _ _ _ _ _ _ _ h1 => rw [hl] at h1; cases h1
  | obj _ _ _ _ _ _ h1 => rw [hl] at h1; cases h1
  | null _ _ e' n' _ h1 h2 h3 h4 h5 =>
    rw [hl] at h1; cases h1
    rw [s1] at h2
    refine ⟨[], by simp, fun hn => ?_, fun hn => ?_, fun y hy => ?_⟩
    · subst hn; exact uniques_one h2 (Or.inl h3) (by simp)
    · subst hn; exact shareds_empty h2 h3 (h4 rfl) (by simp)
    · rcases inPool_one hy with z | ⟨b, z, -⟩ | ⟨z1, z2, -⟩
      · exact Or.inl ⟨z.1, by rw [s1]; exact z.2⟩
      · cases z
      · exact absurd (h4 z1) z2
  | ptr _ _ e' n' w Oe _ h1 h2 h3 h4 h5 h6 h7 h8 =>
    rw [hl] at h1; cases h1
    rw [s1] at h2
    have hb := (h5.own hL).1.2
    have hmark := (h6 (h.mem a - 1) (Or.inl (by omega))).1
    unfold OwnCell at hmark
    refine ⟨[h.mem a], by simpa using h3, fun hn => ?_, fun hn => ?_, fun y hy => ?_⟩
    · subst hn
      refine uniques_one h2 (Or.inr (by simp)) ?_
      intro b hb'
      simp only [List.mem_singleton] at hb'
      subst hb'
      exact ⟨h3, by omega, by omega⟩
    · subst hn
      obtain ⟨q1, q2, q3, q4⟩ := h4 rfl
      have hcount := (h6 (h.mem (a + 1)) (Or.inr ⟨rfl, rfl⟩)).1
      unfold OwnCell at hcount
      exact shareds_one h2 rfl rfl ⟨h3, by omega, by omega⟩ ⟨q1, q2, by omega, by omega⟩ q3
    · rcases inPool_one hy with z | ⟨b, z, z2⟩ | ⟨z1, z2, z3⟩
      · exact Or.inl ⟨z.1, by rw [s1]; exact z.2⟩
      · simp only [List.mem_singleton] at z
        subst z
        exact Or.inr ((h8 y).2 (Or.inl (Or.inl z2)))
      · exact Or.inr ((h8 y).2 (Or.inl (Or.inr ⟨z1, z3⟩)))

/-- the pointer was emptied -/
theorem null_of_step (hL : L.Sound p N) {h h' : Heap} {t e : Ty} {n a : Nat} {v : JV} {O : Nat → Prop} {A : List Nat} (hl : L t = .ptr e n)
    (hr : Rep p N L h t a v O) (hA : ∀ b ∈ A, 1 < b) (hO : ∀ y, h.InPool n [a] A y → OwnCell p t a y ∨ O y) (hz : h'.mem a = 0)
    (E : ElsewhereP h h' n [a] A) (S : n = 2 → Shareds h' [a] A) : Become p N L h h' t a O .null fun _ => False := by
  have hok := (hr.own hL).1
  refine ⟨.null t a e n _ hl ⟨hok.1, Nat.le_trans hok.2 E.grow⟩ hz (fun hn => ?_) (fun _ h => h), fun y hy q1 q2 => ?_, fun _ _ h => h.elim, E.grow⟩
  · have := (S hn).counted (h'.slot a) (by simp)
    rcases this with z | ⟨z, -⟩
    · exact congrArg Prod.snd z
    · have := hA _ z
      simp only [Heap.slot] at this
      omega
  · exact E.same y hy fun z => (hO y z).elim q1 q2

/-- an empty pointer is ready for any object -/
theorem null_pool (hL : L.Sound p N) {h : Heap} {t e : Ty} {n a b : Nat} {O : Nat → Prop} (hl : L t = .ptr e n) (hr : Rep p N L h t a .null O)
    (hb : 1 < b ∧ b - 1 < h.next) (hm : ¬ OwnCell p t a (b - 1)) :
    (n = 1 → Uniques h [a] [b]) ∧ (n = 2 → Shareds h [a] [b]) ∧ h.mem a = 0 ∧ (n = 2 → h.mem (a + 1) = 0) := by
  obtain ⟨s1, s2⟩ := hL.ptr t e n hl
  unfold OwnCell at hm
  cases hr with
  | scalar _ _ _ cells cs _ h1 => rw [hl] at h1; cases h1
  | null _ _ e' n' _ h1 h2 h3 h4 h5 =>
    rw [hl] at h1; cases h1
    rw [s1] at h2
    refine ⟨fun hn => ?_, fun hn => ?_, h3, h4⟩
    · subst hn
      refine uniques_one h2 (Or.inl h3) ?_
      intro b' hb'
      simp only [List.mem_singleton] at hb'
      subst hb'
      exact ⟨hb.1, hb.2, by omega⟩
    · subst hn
      refine shareds_empty h2 h3 (h4 rfl) ?_
      intro b' hb'
      simp only [List.mem_singleton] at hb'
      subst hb'
      exact ⟨hb.1, hb.2, by omega⟩

/-- the empty pointer was given an object -/
theorem ptr_of_step (hL : L.Sound p N) {h h' : Heap} {t e : Ty} {n a b : Nat} {x : JV} {O Ox : Nat → Prop} (hl : L t = .ptr e n)
    (hr : Rep p N L h t a .null O) (hx : Rep p N L h e b x Ox) (hb : 1 < b)
    (hm : ¬ OwnCell p t a (b - 1) ∧ ¬ Ox (b - 1)) (hd : ∀ y, OwnCell p e b y ∨ Ox y → ¬ OwnCell p t a y)
    (E : ElsewhereP h h' n [a] [b]) (hz : h'.mem a = b) (S : n = 2 → Shareds h' [a] [b]) :
    ∃ O', Rep p N L h' t a (.ptr x) O' ∧ (∀ y < h.next, O' y → y + 1 = b ∨ OwnCell p e b y ∨ Ox y) ∧
      ∀ y < h.next, ¬ OwnCell p t a y → y + 1 ≠ b → h'.mem y = h.mem y := by
  obtain ⟨s1, s2⟩ := hL.ptr t e n hl
  obtain ⟨x1, x2⟩ := hx.own hL
  have hok := (hr.own hL).1
  have hbn : b - 1 < h.next := by have := x1.2; omega
  obtain ⟨-, -, z0, z1⟩ := null_pool hL hl hr ⟨hb, hbn⟩ hm.1
  have hsame : ∀ y < h.next, ¬ OwnCell p t a y → y + 1 ≠ b → h'.mem y = h.mem y := by
    intro y hy q1 q2
    refine E.same y hy fun z => ?_
    rcases inPool_one z with z | ⟨b', z, z'⟩ | ⟨w1, w2, -⟩
    · exact q1 ⟨z.1, by rw [s1]; exact z.2⟩
    · simp only [List.mem_singleton] at z
      subst z; exact q2 z'
    · exact w2 (z1 w1)
  have hcount : n = 2 → 0 < h'.mem (a + 1) ∧ h.next ≤ h'.mem (a + 1) ∧ h'.mem (a + 1) < h'.next ∧ h'.mem (h'.mem (a + 1)) = 1 ∧
      (h'.mem (a + 1) < a ∨ a + 2 ≤ h'.mem (a + 1)) ∧ h'.mem (a + 1) ≠ b - 1 := by
    intro hn
    have := (S hn).counted (h'.slot a) (by simp)
    rcases this with z | ⟨-, c1, c2, c3, c4, c5⟩
    · have := congrArg Prod.fst z
      simp only [Heap.slot] at this
      omega
    · simp only [Heap.slot] at c1 c2 c3 c4 c5
      have c3' := c3 a (by simp)
      have c4' := c4 b (by simp)
      have hnew : h.next ≤ h'.mem (a + 1) := by
        refine Classical.byContradiction fun hc => ?_
        have := E.mine (h'.mem (a + 1)) (by omega) (Or.inr (Or.inr ⟨hn, a, by simp, by omega, rfl⟩))
        rcases inPool_one this with z | ⟨b', z, z'⟩ | ⟨w1, w2, -⟩
        · omega
        · simp only [List.mem_singleton] at z
          omega
        · exact w2 (z1 w1)
      refine ⟨c1, hnew, c2, ?_, c3', c4'⟩
      have h0 : (0 == h'.mem (a + 1)) = false := by simp; omega
      rw [c5]
      simp [Heap.slot, List.countP_cons, h0]
  have hkeeps : ∀ y, Heap.Keeps h' n a y → y + 1 = b ∨ h.next ≤ y := by
    rintro y (q | ⟨q1, q2⟩)
    · exact Or.inl (by omega)
    · exact Or.inr (by have := (hcount q1).2.1; omega)
  refine ⟨fun y => Heap.Keeps h' n a y ∨ OwnCell p e (h'.mem a) y ∨ Ox y,
    .ptr t a e n x Ox _ hl ⟨hok.1, Nat.le_trans hok.2 E.grow⟩ (by omega) (fun hn => ?_) ?_ (fun y hy => ?_) (fun y hy => ?_) (fun _ => Iff.rfl), ?_, hsame⟩
  · obtain ⟨c1, c2, c3, c4, c5, c6⟩ := hcount hn
    exact ⟨c1, c3, c4, by omega⟩
  · rw [hz]
    refine hx.kept hL E.grow fun y hy hy' => hsame y hy (hd y hy') ?_
    intro q
    have hyb : y = b - 1 := by omega
    rcases hy' with hy' | hy'
    · have := hy'.1; omega
    · rw [hyb] at hy'; exact hm.2 hy'
  · rw [hz]
    rcases hkeeps y hy with q | q
    · have hyb : y = b - 1 := by omega
      rw [hyb]
      exact ⟨hm.1, fun c => by have := c.1; omega, hm.2⟩
    · refine ⟨fun c => ?_, fun c => ?_, fun c => ?_⟩
      · have := c.2; have := hok.2; omega
      · have := c.2; have := x1.2; omega
      · have := (x2 y c).1; omega
  · rw [hz] at hy
    exact hd y hy
  · rintro y hy (q | q | q)
    · rcases hkeeps y q with q | q
      · exact Or.inl q
      · omega
    · rw [hz] at q
      exact Or.inr (Or.inl q)
    · exact Or.inr (Or.inr q)

/-- what a pointer points to, and the pointer when that has changed -/
theorem ptr_set (hL : L.Sound p N) {h : Heap} {t e : Ty} {n a : Nat} {w : JV} {O : Nat → Prop} (hl : L t = .ptr e n)
    (hr : Rep p N L h t a (.ptr w) O) :
    1 < h.mem a ∧ ∃ Oe, Rep p N L h e (h.mem a) w Oe ∧
      ∀ h' x' Oe', Become p N L h h' e (h.mem a) Oe x' Oe' → ∃ O', Become p N L h h' t a O (.ptr x') O' := by
  obtain ⟨s1, s2⟩ := hL.ptr t e n hl
  obtain ⟨r1, r2⟩ := hr.own hL
  cases hr with
  | scalar _ _ _ cells cs _ h1 => rw [hl] at h1; cases h1
  | ptr _ _ e' n' _ Oe _ h1 h2 h3 h4 h5 h6 h7 h8 =>
  rw [hl] at h1; cases h1
  obtain ⟨x1, x2⟩ := h5.own hL
  refine ⟨h3, Oe, h5, fun h' x' Oe' hb => ?_⟩
  have hown : ∀ y, OwnCell p t a y → h'.mem y = h.mem y := by
    intro y hy
    exact hb.same y (by have := hy.2; have := h2.2; omega) (fun c => h7 y (Or.inl c) hy) (fun c => h7 y (Or.inr c) hy)
  have c0 : h'.mem a = h.mem a := hown a ⟨Nat.le_refl _, by omega⟩
  have c1 : n = 2 → h'.mem (a + 1) = h.mem (a + 1) := fun hn => hown (a + 1) ⟨by omega, by omega⟩
  have hk : ∀ y, Heap.Keeps h' n a y ↔ Heap.Keeps h n a y := by
    intro y
    unfold Heap.Keeps
    rw [c0]
    constructor
    · rintro (q | ⟨q1, q2⟩)
      · exact Or.inl q
      · exact Or.inr ⟨q1, by rw [← c1 q1]; exact q2⟩
    · rintro (q | ⟨q1, q2⟩)
      · exact Or.inl q
      · exact Or.inr ⟨q1, by rw [c1 q1]; exact q2⟩
  have hkl : ∀ y, Heap.Keeps h n a y → y < h.next := fun y hy => (r2 y ((h8 y).2 (Or.inl hy))).1
  have hnew : ∀ y, Oe' y → h.next ≤ y ∨ Oe y := by
    intro y hy
    rcases Nat.lt_or_ge y h.next with c | c
    · exact Or.inr (hb.mine y c hy)
    · exact Or.inl c
  refine ⟨fun y => Heap.Keeps h' n a y ∨ OwnCell p e (h'.mem a) y ∨ Oe' y,
    .ptr t a e n x' Oe' _ hl ⟨h2.1, Nat.le_trans h2.2 hb.grow⟩ (by omega) (fun hn => ?_) (by rw [c0]; exact hb.rep) (fun y hy => ?_) (fun y hy => ?_)
      (fun _ => Iff.rfl), fun y hy q1 q2 => ?_, fun y hy q => ?_, hb.grow⟩
  · obtain ⟨q1, q2, q3, q4⟩ := h4 hn
    have hkc : Heap.Keeps h n a (h.mem (a + 1)) := Or.inr ⟨hn, rfl⟩
    rw [c1 hn, c0, hb.same _ q2 (h6 _ hkc).2.1 (h6 _ hkc).2.2]
    exact ⟨q1, Nat.lt_of_lt_of_le q2 hb.grow, q3, q4⟩
  · have hy := (hk y).1 hy
    rw [c0]
    refine ⟨(h6 y hy).1, (h6 y hy).2.1, fun c => ?_⟩
    rcases hnew y c with q | q
    · have := hkl y hy; omega
    · exact (h6 y hy).2.2 q
  · rw [c0] at hy
    rcases hy with hy | hy
    · exact h7 y (Or.inl hy)
    · rcases hnew y hy with q | q
      · intro c
        have := c.2; have := h2.2; omega
      · exact h7 y (Or.inr q)
  · exact hb.same y hy (fun c => q2 ((h8 y).2 (Or.inr (Or.inl c)))) (fun c => q2 ((h8 y).2 (Or.inr (Or.inr c))))
  · rcases q with q | q | q
    · exact (h8 y).2 (Or.inl ((hk y).1 q))
    · rw [c0] at q
      exact (h8 y).2 (Or.inr (Or.inl q))
    · exact (h8 y).2 (Or.inr (Or.inr (hb.mine y hy q)))

end Reflect.Json

import Verif.Spec.MapFns
import Verif.Lemmas.Vector
/-
  What the functions of a map do to the finite map it stands for.
-/
namespace Reflect
open Heap

theorem cells_eq_iff {h h' : Heap} {a b n : Nat} : h.cells a n = h'.cells b n ↔ ∀ j < n, h.mem (a + j) = h'.mem (b + j) := by
  constructor
  · intro he j hj
    have := congrArg (fun l => l[j]?) he
    simpa [Heap.cells, hj] using this
  · exact fun hh => cells_congr hh

theorem sameCells_iff (h : Heap) (a b n : Nat) : h.sameCells a b n = true ↔ h.cells a n = h.cells b n := by
  rw [cells_eq_iff]
  simp [sameCells]

theorem nodes_length (h : Heap) (m : Nat) : (h.nodes m).length = h.mem (m + 1) := by simp [nodes]

theorem nodes_get {h : Heap} {m i : Nat} (hi : i < h.mem (m + 1)) : (h.nodes m)[i]? = some (h.mem (h.mem m + i)) := by
  simp [nodes, hi]

theorem find_some {h : Heap} {K : MapKind} {m k a : Nat} (hf : h.mapFind K m k = some a) : a ∈ h.nodes m ∧ h.cells a K.key = h.cells k K.key := by
  unfold mapFind at hf
  have := List.find?_some hf
  exact ⟨List.mem_of_find?_eq_some hf, (sameCells_iff _ _ _ _).1 this⟩

theorem find_none {h : Heap} {K : MapKind} {m k : Nat} (hf : h.mapFind K m k = none) : ∀ a ∈ h.nodes m, h.cells a K.key ≠ h.cells k K.key := by
  unfold mapFind at hf
  intro a ha he
  rw [List.find?_eq_none] at hf
  exact hf a ha ((sameCells_iff _ _ _ _).2 he)

theorem lookup_find {α β γ : Type} [BEq β] [LawfulBEq β] (f : α → β) (g : α → γ) (k : β) (xs : List α) :
    (xs.map fun a => (f a, g a)).lookup k = (xs.find? fun a => f a == k).map g := by
  induction xs with
  | nil => rfl
  | cons a xs ih =>
    rw [List.map_cons, List.lookup_cons, List.find?_cons]
    by_cases h : f a = k
    · subst h; simp
    · have h1 : (k == f a) = false := by simpa using fun h' => h h'.symm
      have h2 : (f a == k) = false := by simpa using h
      rw [h1, h2]
      exact ih

theorem lookup_none_iff (h : Heap) (K : MapKind) (m : Nat) (k : List Nat) :
    h.lookup K m k = none ↔ ∀ a ∈ h.nodes m, h.cells a K.key ≠ k := by
  unfold Heap.lookup Heap.entries
  rw [lookup_find]
  simp

theorem nodup_unique {α β : Type} (f : α → β) : ∀ (xs : List α), (xs.map f).Nodup → ∀ a ∈ xs, ∀ b ∈ xs, f a = f b → a = b
  | [], _, _, ha, _, _, _ => by cases ha
  | x :: xs, hn, a, ha, b, hb, he => by
    rw [List.map_cons, List.nodup_cons] at hn
    obtain ⟨h1, h2⟩ := hn
    rcases List.mem_cons.1 ha with e1 | ha' <;> rcases List.mem_cons.1 hb with e2 | hb'
    · rw [e1, e2]
    · exact absurd (List.mem_map.2 ⟨b, hb', by rw [← he, e1]⟩) h1
    · exact absurd (List.mem_map.2 ⟨a, ha', by rw [he, e2]⟩) h1
    · exact nodup_unique f xs h2 a ha' b hb' he

theorem lookup_valueAt {h : Heap} {K : MapKind} {m : Nat} (hk : ((h.nodes m).map fun a => h.cells a K.key).Nodup) {k : List Nat} {a : Nat}
    (hv : h.ValueAt K m k a) : h.lookup K m k = some (h.cells a K.val) := by
  obtain ⟨b, hb, rfl, rfl⟩ := hv
  unfold Heap.lookup Heap.entries
  rw [lookup_find]
  cases hf : (h.nodes m).find? fun a => h.cells a K.key == h.cells b K.key with
  | none =>
    rw [List.find?_eq_none] at hf
    exact absurd (by simp) (hf b hb)
  | some c =>
    have h1 := List.mem_of_find?_eq_some hf
    have h2 := List.find?_some hf
    rw [nodup_unique _ _ hk c h1 b hb (by simpa using h2)]
    rfl

theorem valueAt_of_lookup {h : Heap} {K : MapKind} {m : Nat} {k v : List Nat} (hl : h.lookup K m k = some v) :
    ∃ a, h.ValueAt K m k a ∧ h.cells a K.val = v := by
  unfold Heap.lookup Heap.entries at hl
  rw [lookup_find] at hl
  cases hf : (h.nodes m).find? fun a => h.cells a K.key == k with
  | none => rw [hf] at hl; cases hl
  | some c =>
    rw [hf] at hl
    exact ⟨c + K.key, ⟨c, List.mem_of_find?_eq_some hf, rfl, by simpa using List.find?_some hf⟩, Option.some.inj hl⟩

/-- the key at `k` is found where its value is -/
theorem find_of_valueAt {h : Heap} {K : MapKind} {m k : Nat} :
    (∃ a, h.mapFind K m k = some a ∧ h.ValueAt K m (h.cells k K.key) (a + K.key)) ∨
    (h.mapFind K m k = none ∧ h.lookup K m (h.cells k K.key) = none) := by
  cases hf : h.mapFind K m k with
  | some a => obtain ⟨h1, h2⟩ := find_some hf; exact Or.inl ⟨a, rfl, a, h1, rfl, h2⟩
  | none => exact Or.inr ⟨rfl, (lookup_none_iff _ _ _ _).2 (find_none hf)⟩

/-- A map whose cells, index and nodes are the same is the same map. -/
theorem map_kept {h h' : Heap} {K : MapKind} {m : Nat} (hm : h.IsMap K m) (hn : h.next ≤ h'.next)
    (hs : ∀ y < h.next, h.InMap K m y → h'.mem y = h.mem y) :
    h'.IsMap K m ∧ h'.nodes m = h.nodes m ∧ h'.entries K m = h.entries K m ∧ (∀ y, h'.InMap K m y ↔ h.InMap K m y) ∧
      ∀ k a, h'.ValueAt K m k a ↔ h.ValueAt K m k a := by
  obtain ⟨⟨o1, o2⟩, h2, h3, h4, h5, h6, h7⟩ := hm
  have e0 : h'.mem m = h.mem m := hs m (by omega) (Or.inl (by omega))
  have e1 : h'.mem (m + 1) = h.mem (m + 1) := hs (m + 1) (by omega) (Or.inl (by omega))
  have en : h'.nodes m = h.nodes m := by
    unfold nodes
    rw [e0, e1]
    apply List.map_congr_left
    intro i hi
    rw [List.mem_range] at hi
    exact hs _ (by omega) (Or.inr (Or.inl (by omega)))
  have ec : ∀ a ∈ h.nodes m, ∀ q < K.key + K.val, h'.mem (a + q) = h.mem (a + q) := by
    intro a ha q hq
    obtain ⟨⟨-, g⟩, -⟩ := h4 a ha
    exact hs _ (by omega) (Or.inr (Or.inr ⟨a, ha, by omega, by omega⟩))
  have ek : ∀ a ∈ h.nodes m, h'.cells a K.key = h.cells a K.key := fun a ha => cells_congr fun j hj => ec a ha j (by omega)
  have ev : ∀ a ∈ h.nodes m, h'.cells (a + K.key) K.val = h.cells (a + K.key) K.val := fun a ha => cells_congr fun j hj => by
    rw [Nat.add_assoc]; exact ec a ha _ (by omega)
  refine ⟨⟨⟨o1, by omega⟩, by rw [e0, e1]; omega, by rw [e0, e1]; omega, ?_, by rw [en]; exact h5, ?_, ?_⟩, en, ?_, ?_, ?_⟩
  · rw [en, e0, e1]
    intro a ha
    obtain ⟨⟨g1, g2⟩, g3⟩ := h4 a ha
    exact ⟨⟨g1, by omega⟩, g3⟩
  · rw [en, List.map_congr_left ek]; exact h6
  · rw [en, List.map_congr_left ek]; exact h7
  · unfold entries
    rw [en]
    apply List.map_congr_left
    intro a ha
    rw [ek a ha, ev a ha]
  · intro y; unfold InMap; rw [en, e0, e1]
  · intro k a
    unfold ValueAt
    rw [en]
    constructor
    · rintro ⟨b, hb, rfl, hk⟩; exact ⟨b, hb, rfl, by rw [← ek b hb]; exact hk⟩
    · rintro ⟨b, hb, rfl, hk⟩; exact ⟨b, hb, rfl, by rw [ek b hb]; exact hk⟩

theorem perm_place {h : Heap} {K : MapKind} (ha : ∀ h ns, (K.arrange h ns).Perm ns) (n : Nat) (ns : List Nat) : (h.place K n ns).Perm (n :: ns) := by
  unfold place
  split
  · exact ha _ _
  · refine List.perm_middle.trans (List.Perm.cons _ ?_)
    rw [List.takeWhile_append_dropWhile]

/-- a new key among ascending ones -/
theorem sorted_place {h : Heap} {K : MapKind} (hl : ∀ l, K.less = some l → TotalOrder l) (l : List Nat → List Nat → Bool) (hk : K.less = some l)
    (n : Nat) : ∀ ns : List Nat, (ns.map (h.keyOf K)).Pairwise (fun a b => l a b = true) → h.keyOf K n ∉ ns.map (h.keyOf K) →
    ((h.place K n ns).map (h.keyOf K)).Pairwise fun a b => l a b = true := by
  have hT := hl l hk
  unfold place
  rw [hk]
  simp only
  intro ns
  induction ns with
  | nil => intro _ _; simp
  | cons a ns ih =>
    intro hp hn
    rw [List.map_cons, List.pairwise_cons] at hp
    rw [List.map_cons, List.mem_cons] at hn
    cases hc : l (h.keyOf K a) (h.keyOf K n) with
    | true =>
      rw [List.takeWhile_cons_of_pos (p := fun a => l (h.keyOf K a) (h.keyOf K n)) hc,
        List.dropWhile_cons_of_pos (p := fun a => l (h.keyOf K a) (h.keyOf K n)) hc, List.cons_append, List.map_cons, List.pairwise_cons]
      refine ⟨?_, ih hp.2 fun h => hn (Or.inr h)⟩
      intro b hb
      rw [List.map_append, List.mem_append, List.map_cons, List.mem_cons] at hb
      rcases hb with hb | rfl | hb
      · obtain ⟨c, hc1, rfl⟩ := List.mem_map.1 hb
        exact hp.1 _ (List.mem_map_of_mem ((List.takeWhile_sublist _).subset hc1))
      · exact hc
      · obtain ⟨c, hc1, rfl⟩ := List.mem_map.1 hb
        exact hp.1 _ (List.mem_map_of_mem ((List.dropWhile_sublist _).subset hc1))
    | false =>
      rw [List.takeWhile_cons_of_neg (p := fun a => l (h.keyOf K a) (h.keyOf K n)) (by simp [hc]),
        List.dropWhile_cons_of_neg (p := fun a => l (h.keyOf K a) (h.keyOf K n)) (by simp [hc]), List.nil_append, List.map_cons, List.map_cons, List.pairwise_cons]
      have hna : l (h.keyOf K n) (h.keyOf K a) = true := by
        rcases hT.total _ _ (fun e => hn (Or.inl e)) with g | g
        · exact g
        · rw [hc] at g; cases g
      refine ⟨?_, List.pairwise_cons.2 hp⟩
      intro b hb
      rcases List.mem_cons.1 hb with rfl | hb
      · exact hna
      · exact hT.trans _ _ _ hna (hp.1 b hb)

/-- a new entry -/
theorem insert_spec {hp : Heap} {K : MapKind} {m k : Nat} (hm : hp.IsMap K m)
    (ha : ∀ h ns, (K.arrange h ns).Perm ns) (hl : ∀ l, K.less = some l → TotalOrder l) (hf : hp.lookup K m (hp.cells k K.key) = none) :
    (hp.mapInsert K m k).1.IsMap K m ∧
    ((hp.mapInsert K m k).1.entries K m).Perm ((hp.cells k K.key, (List.range K.val).map K.init) :: hp.entries K m) ∧
    (hp.mapInsert K m k).1.ValueAt K m (hp.cells k K.key) ((hp.mapInsert K m k).2 + K.key) ∧
    (∀ k' a, hp.ValueAt K m k' a → (hp.mapInsert K m k).1.ValueAt K m k' a) ∧
    ElsewhereM hp (hp.mapInsert K m k).1 K m := by
  obtain ⟨⟨o1, o2⟩, h2, h3, h4, h5, h6, h7⟩ := id hm
  rw [lookup_none_iff] at hf
  unfold mapInsert
  simp only
  generalize hF : (fun j => if j < K.key then hp.mem (k + j) else K.init (j - K.key)) = F
  have n0 : (hp.newObj F (K.key + K.val)).2 = hp.next := rfl
  rw [n0]
  have nx : (hp.newObj F (K.key + K.val)).1.next = hp.next + (K.key + K.val) + 1 := rfl
  have nnew : ∀ j < K.key + K.val, (hp.newObj F (K.key + K.val)).1.mem (hp.next + j) = F j := fun j hj => newObj_new hp F _ j hj
  have nold : ∀ y < hp.next, (hp.newObj F (K.key + K.val)).1.mem y = hp.mem y := fun y hy => newObj_old hp F _ y hy
  generalize (hp.newObj F (K.key + K.val)).1 = w at nx nnew nold
  have hperm := perm_place (h := w) ha hp.next (hp.nodes m)
  have hsort := fun l hk => sorted_place (h := w) hl l hk hp.next (hp.nodes m)
  generalize w.place K hp.next (hp.nodes m) = ns at hperm hsort
  have hlen : ns.length = hp.mem (m + 1) + 1 := by rw [hperm.length_eq, List.length_cons, nodes_length]
  generalize hG : (fun i : Nat => ns[i]?.getD 0) = G
  have i0 : (w.newObj G (hp.mem (m + 1) + 1)).2 = w.next := rfl
  rw [i0]
  have ix : (w.newObj G (hp.mem (m + 1) + 1)).1.next = w.next + (hp.mem (m + 1) + 1) + 1 := rfl
  have inew : ∀ j < hp.mem (m + 1) + 1, (w.newObj G (hp.mem (m + 1) + 1)).1.mem (w.next + j) = G j := fun j hj => newObj_new w G _ j hj
  have iold : ∀ y < w.next, (w.newObj G (hp.mem (m + 1) + 1)).1.mem y = w.mem y := fun y hy => newObj_old w G _ y hy
  generalize (w.newObj G (hp.mem (m + 1) + 1)).1 = u at ix inew iold
  generalize hz : (u.poke m w.next).poke (m + 1) (hp.mem (m + 1) + 1) = z
  have e0 : z.mem m = w.next := by rw [← hz, poke_ne _ _ _ _ (by omega), poke_at]
  have e1 : z.mem (m + 1) = hp.mem (m + 1) + 1 := by rw [← hz, poke_at]
  have zn : z.next = w.next + (hp.mem (m + 1) + 1) + 1 := by rw [← hz]; exact ix
  have zo : ∀ y, (y < m ∨ m + 2 ≤ y) → z.mem y = u.mem y := by
    intro y hy; rw [← hz, poke_ne _ _ _ _ (by omega), poke_ne _ _ _ _ (by omega)]
  have old : ∀ y < hp.next, (y < m ∨ m + 2 ≤ y) → z.mem y = hp.mem y := by
    intro y hy hy'; rw [zo y hy', iold y (by omega), nold y hy]
  have zns : z.nodes m = ns := by
    apply List.ext_getElem?
    intro i
    by_cases hi : i < hp.mem (m + 1) + 1
    · rw [nodes_get (by rw [e1]; exact hi), e0, zo _ (by omega), inew i hi, ← hG, List.getElem?_eq_getElem (by omega)]
      simp only [Option.getD_some]
      rw [List.getElem?_eq_getElem (by omega)]
      simp
    · rw [List.getElem?_eq_none (by rw [nodes_length, e1]; omega), List.getElem?_eq_none (by omega)]
  have mem_iff : ∀ a, a ∈ z.nodes m ↔ a = hp.next ∨ a ∈ hp.nodes m := by
    intro a; rw [zns, hperm.mem_iff, List.mem_cons]
  have oldc : ∀ a ∈ hp.nodes m, ∀ q < K.key + K.val, z.mem (a + q) = hp.mem (a + q) := by
    intro a ha q hq
    obtain ⟨⟨g1, g2⟩, g3, -⟩ := h4 a ha
    exact old _ (by omega) (by omega)
  have newc : ∀ q < K.key + K.val, z.mem (hp.next + q) = F q := by
    intro q hq
    rw [zo _ (by omega), iold _ (by omega), nnew q hq]
  have ck : ∀ a ∈ hp.nodes m, z.cells a K.key = hp.cells a K.key := fun a ha => cells_congr fun j hj => oldc a ha j (by omega)
  have cv : ∀ a ∈ hp.nodes m, z.cells (a + K.key) K.val = hp.cells (a + K.key) K.val := fun a ha => cells_congr fun j hj => by
    rw [Nat.add_assoc]; exact oldc a ha _ (by omega)
  have nk : z.cells hp.next K.key = hp.cells k K.key := cells_congr fun j hj => by
    rw [newc j (by omega), ← hF]; simp only [if_pos hj]
  have nv : z.cells (hp.next + K.key) K.val = (List.range K.val).map K.init := by
    unfold Heap.cells
    apply List.map_congr_left
    intro j hj
    rw [List.mem_range] at hj
    rw [Nat.add_assoc, newc _ (by omega), ← hF]
    simp only
    rw [if_neg (by omega)]
    congr 1; omega
  refine ⟨⟨⟨o1, by omega⟩, Or.inl (by rw [e0, e1]; omega), Or.inl (by rw [e0]; omega), ?_, ?_, ?_, ?_⟩, ?_, ?_, ?_, ?_⟩
  · intro a ha
    rw [e0, e1]
    rcases (mem_iff a).1 ha with rfl | ha
    · exact ⟨⟨by omega, by omega⟩, by omega, by omega⟩
    · obtain ⟨⟨g1, g2⟩, g3, -⟩ := h4 a ha
      exact ⟨⟨g1, by omega⟩, g3, by omega⟩
  · rw [zns]
    refine (hperm.pairwise_iff (fun h => Or.comm.1 h)).2 (List.pairwise_cons.2 ⟨?_, h5⟩)
    intro a ha
    obtain ⟨⟨g1, g2⟩, -⟩ := h4 a ha
    omega
  · rw [zns]
    refine ((hperm.map _).nodup_iff).2 ?_
    rw [List.map_cons, List.nodup_cons, List.map_congr_left ck, nk]
    refine ⟨?_, h6⟩
    intro hc
    obtain ⟨a, ha, hk⟩ := List.mem_map.1 hc
    exact hf a ha hk
  · intro l hk
    have wk : ∀ a ∈ hp.next :: hp.nodes m, w.keyOf K a = z.cells a K.key := by
      intro a ha
      rcases List.mem_cons.1 ha with rfl | ha
      · exact (cells_congr (h := z) (h' := w) (n := K.key) fun j hj => by rw [nnew j (by omega), newc j (by omega)] : w.cells hp.next K.key = _)
      · obtain ⟨⟨g1, g2⟩, -⟩ := h4 a ha
        exact (cells_congr (h := z) (h' := w) (n := K.key) fun j hj => by rw [nold _ (by omega), oldc a ha j (by omega)] : w.cells a K.key = _)
    have wo : ∀ a ∈ hp.nodes m, w.keyOf K a = hp.cells a K.key := fun a ha => by rw [wk a (by simp [ha]), ck a ha]
    rw [zns, ← List.map_congr_left fun a ha => wk a (hperm.mem_iff.1 ha)]
    refine hsort l hk ?_ ?_
    · rw [List.map_congr_left wo]; exact h7 l hk
    · rw [List.map_congr_left wo, wk hp.next (by simp), nk]
      intro hc
      obtain ⟨a, ha, e⟩ := List.mem_map.1 hc
      exact hf a ha e
  · unfold Heap.entries
    rw [zns]
    refine (hperm.map _).trans ?_
    rw [List.map_cons, nk, nv]
    refine List.Perm.cons _ (List.Perm.of_eq (List.map_congr_left ?_))
    intro a ha
    rw [ck a ha, cv a ha]
  · exact ⟨hp.next, (mem_iff _).2 (Or.inl rfl), rfl, nk⟩
  · rintro k' a ⟨b, hb, rfl, hk⟩
    exact ⟨b, (mem_iff _).2 (Or.inr hb), rfl, by rw [ck b hb]; exact hk⟩
  · refine ⟨?_, by omega, ?_⟩
    · intro y hy hn
      exact old y hy (by
        have : ¬ (m ≤ y ∧ y < m + 2) := fun h => hn (Or.inl h)
        omega)
    · intro y hy hi
      rcases hi with hi | hi | ⟨a, ha, hi⟩
      · exact Or.inl hi
      · rw [e0] at hi; omega
      · rcases (mem_iff a).1 ha with rfl | ha
        · omega
        · exact Or.inr (Or.inr ⟨a, ha, hi⟩)

theorem pairwise_all {α : Type} {R : α → α → Prop} (hs : ∀ a b, R a b → R b a) : ∀ {xs : List α}, xs.Pairwise R → ∀ a ∈ xs, ∀ b ∈ xs, a ≠ b → R a b
  | [], _, _, ha, _, _, _ => by cases ha
  | x :: xs, hp, a, ha, b, hb, hne => by
    obtain ⟨h1, h2⟩ := List.pairwise_cons.1 hp
    rcases List.mem_cons.1 ha with e1 | ha <;> rcases List.mem_cons.1 hb with e2 | hb
    · exact absurd (e1.trans e2.symm) hne
    · exact e1 ▸ h1 b hb
    · exact e2 ▸ hs _ _ (h1 a ha)
    · exact pairwise_all hs h2 a ha b hb hne

/-- a value overwritten, and perhaps what is not of the map -/
theorem write_inside {h h' : Heap} {K : MapKind} {m a : Nat} {k : List Nat} (hm : h.IsMap K m) (hv : h.ValueAt K m k a) (hn : h.next ≤ h'.next)
    (hs : ∀ y < h.next, h.InMap K m y → (y < a ∨ a + K.val ≤ y) → h'.mem y = h.mem y) :
    h'.IsMap K m ∧ h'.entries K m = (h.entries K m).map (fun e => if e.1 = k then (k, h'.cells a K.val) else e) ∧
      (∀ k' b, h'.ValueAt K m k' b ↔ h.ValueAt K m k' b) ∧ (∀ y, h'.InMap K m y ↔ h.InMap K m y) := by
  obtain ⟨⟨o1, o2⟩, h2, h3, h4, h5, h6, h7⟩ := id hm
  obtain ⟨b, hb, rfl, rfl⟩ := hv
  obtain ⟨⟨b1, b2⟩, b3, b4⟩ := h4 b hb
  have e0 : h'.mem m = h.mem m := hs m (by omega) (Or.inl (by omega)) (by omega)
  have e1 : h'.mem (m + 1) = h.mem (m + 1) := hs (m + 1) (by omega) (Or.inl (by omega)) (by omega)
  have en : h'.nodes m = h.nodes m := by
    unfold nodes
    rw [e0, e1]
    apply List.map_congr_left
    intro i hi
    rw [List.mem_range] at hi
    exact hs _ (by omega) (Or.inr (Or.inl (by omega))) (by omega)
  have dis : ∀ c ∈ h.nodes m, c = b ∨ c + (K.key + K.val) ≤ b ∨ b + (K.key + K.val) ≤ c := by
    intro c hc
    by_cases hcb : c = b
    · exact Or.inl hcb
    · right
      exact pairwise_all (fun _ _ h => Or.comm.1 h) h5 c hc b hb hcb
  have ck : ∀ c ∈ h.nodes m, h'.cells c K.key = h.cells c K.key := by
    intro c hc
    obtain ⟨⟨g1, g2⟩, -⟩ := h4 c hc
    apply cells_congr
    intro j hj
    rcases dis c hc with rfl | d
    · exact hs _ (by omega) (Or.inr (Or.inr ⟨_, hc, by omega, by omega⟩)) (by omega)
    · exact hs _ (by omega) (Or.inr (Or.inr ⟨_, hc, by omega, by omega⟩)) (by omega)
  refine ⟨⟨⟨o1, by omega⟩, by rw [e0, e1]; omega, by rw [e0, e1]; omega, ?_, by rw [en]; exact h5, ?_, ?_⟩, ?_, ?_, ?_⟩
  · rw [en, e0, e1]
    intro c hc
    obtain ⟨⟨g1, g2⟩, g3⟩ := h4 c hc
    exact ⟨⟨g1, by omega⟩, g3⟩
  · rw [en, List.map_congr_left ck]; exact h6
  · rw [en, List.map_congr_left ck]; exact h7
  · unfold entries
    rw [en, List.map_map]
    apply List.map_congr_left
    intro c hc
    simp only [Function.comp]
    rw [ck c hc]
    by_cases hcb : c = b
    · subst hcb; rw [if_pos rfl]
    · rw [if_neg fun he => hcb (nodup_unique _ _ h6 c hc b hb he)]
      congr 1
      obtain ⟨⟨g1, g2⟩, -⟩ := h4 c hc
      have := (dis c hc).resolve_left hcb
      apply cells_congr
      intro j hj
      exact hs _ (by omega) (Or.inr (Or.inr ⟨_, hc, by omega, by omega⟩)) (by omega)
  · intro k' c
    unfold ValueAt
    rw [en]
    constructor
    · rintro ⟨d, hd, rfl, hk⟩; exact ⟨d, hd, rfl, by rw [← ck d hd]; exact hk⟩
    · rintro ⟨d, hd, rfl, hk⟩; exact ⟨d, hd, rfl, by rw [ck d hd]; exact hk⟩
  · intro y; unfold InMap; rw [en, e0, e1]

/-- a value overwritten -/
theorem write_spec {h h' : Heap} {K : MapKind} {m a : Nat} {k : List Nat} (hm : h.IsMap K m) (hv : h.ValueAt K m k a) (hn : h.next ≤ h'.next)
    (hs : ∀ y < h.next, (y < a ∨ a + K.val ≤ y) → h'.mem y = h.mem y) :
    h'.IsMap K m ∧ h'.entries K m = (h.entries K m).map (fun e => if e.1 = k then (k, h'.cells a K.val) else e) ∧
      (∀ k' b, h'.ValueAt K m k' b ↔ h.ValueAt K m k' b) ∧ (∀ y, h'.InMap K m y ↔ h.InMap K m y) :=
  write_inside hm hv hn fun y hy _ => hs y hy

theorem entries_length (h : Heap) (K : MapKind) (m : Nat) : (h.entries K m).length = h.mem (m + 1) := by
  simp [Heap.entries, nodes_length]

theorem count_one (h : Heap) (K : MapKind) (m k : Nat) :
    (h.mapFind K m k).isSome = (h.lookup K m (h.cells k K.key)).isSome := by
  rcases find_of_valueAt (h := h) (K := K) (m := m) (k := k) with ⟨a, h1, h2⟩ | ⟨h1, h2⟩
  · rw [h1]
    cases hl : h.lookup K m (h.cells k K.key) with
    | some _ => rfl
    | none =>
      obtain ⟨b, hb, _, hk⟩ := h2
      exact absurd hk ((lookup_none_iff _ _ _ _).1 hl b hb)
  · rw [h1, h2]; rfl

/-- the vector of the keys -/
theorem keys_spec {hp : Heap} {K : MapKind} {m : Nat} (hm : hp.IsMap K m) :
    ∃ hp' a, mapKeys K hp m = .ok (hp', .obj a) ∧ hp.next ≤ a ∧ hp'.IsVec K.key a ∧ hp'.elems K.key a = (hp.entries K m).map Prod.fst ∧
      (∀ y < hp.next, hp'.mem y = hp.mem y) ∧ hp.next ≤ hp'.next ∧ (∀ y, hp'.InVec K.key a y → hp.next ≤ y) := by
  obtain ⟨⟨o1, o2⟩, h2, h3, h4, h5, h6, h7⟩ := id hm
  unfold mapKeys
  rw [if_pos ⟨o1, o2⟩]
  simp only
  generalize hF : (fun q => hp.mem (((hp.nodes m)[q / K.key]?.getD 0) + q % K.key)) = F
  have n0 : (hp.newObj F (K.key * hp.mem (m + 1))).2 = hp.next := rfl
  rw [n0]
  have nx : (hp.newObj F (K.key * hp.mem (m + 1))).1.next = hp.next + K.key * hp.mem (m + 1) + 1 := rfl
  have nnew : ∀ j < K.key * hp.mem (m + 1), (hp.newObj F (K.key * hp.mem (m + 1))).1.mem (hp.next + j) = F j := fun j hj => newObj_new hp F _ j hj
  have nold : ∀ y < hp.next, (hp.newObj F (K.key * hp.mem (m + 1))).1.mem y = hp.mem y := fun y hy => newObj_old hp F _ y hy
  generalize (hp.newObj F (K.key * hp.mem (m + 1))).1 = w at nx nnew nold
  generalize hG : (fun j => if j = 0 then hp.next else hp.mem (m + 1)) = G
  have i0 : (w.newObj G 3).2 = w.next := rfl
  rw [i0]
  have ix : (w.newObj G 3).1.next = w.next + 3 + 1 := rfl
  have inew : ∀ j < 3, (w.newObj G 3).1.mem (w.next + j) = G j := fun j hj => newObj_new w G _ j hj
  have iold : ∀ y < w.next, (w.newObj G 3).1.mem y = w.mem y := fun y hy => newObj_old w G _ y hy
  generalize (w.newObj G 3).1 = z at ix inew iold
  have e0 : z.mem w.next = hp.next := by have := inew 0 (by omega); rw [← hG] at this; simpa using this
  have e1 : z.mem (w.next + 1) = hp.mem (m + 1) := by have := inew 1 (by omega); rw [← hG] at this; simpa using this
  have e2 : z.mem (w.next + 2) = hp.mem (m + 1) := by have := inew 2 (by omega); rw [← hG] at this; simpa using this
  refine ⟨z, w.next, rfl, by omega, ⟨⟨by omega, by omega⟩, by omega, Or.inl ?_, Or.inr (Or.inl ?_)⟩, ?_, ?_, by omega, ?_⟩
  · rw [e0, e2]; omega
  · rw [e0, e2]; omega
  · unfold Heap.elems Heap.entries
    rw [e0, e1, List.map_map]
    apply List.ext_getElem?
    intro i
    by_cases hi : i < hp.mem (m + 1)
    · rw [List.getElem?_map, List.getElem?_range hi, List.getElem?_map, nodes_get hi]
      simp only [Option.map_some, Function.comp]
      congr 1
      apply cells_congr
      intro j hj
      have hs := slot_lt hi hj
      rw [Nat.add_assoc, iold _ (by omega), nnew _ hs, ← hF]
      simp only
      rw [Nat.mul_add_div (by omega), Nat.div_eq_of_lt hj, Nat.add_zero, nodes_get hi, Option.getD_some, Nat.mul_add_mod, Nat.mod_eq_of_lt hj]
    · rw [List.getElem?_eq_none (by simp; omega), List.getElem?_eq_none (by simp [nodes_length]; omega)]
  · intro y hy
    rw [iold y (by omega), nold y hy]
  · intro y hy
    unfold InVec at hy
    rw [e0, e2] at hy
    omega

end Reflect

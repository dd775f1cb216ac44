import Verif.Spec.JsonPlace
import Verif.Lemmas.MapFns
import Verif.Lemmas.Vector
import Verif.Lemmas.Json.Back
/- Values in memory: what they consist of, and how they are moved. -/
namespace Reflect.Json

variable {p : Prog} {N : Native} {L : Layout}

/-- what a value consists of: objects that exist, apart from its own cells -/
theorem Rep.own (hL : L.Sound p N) {h : Heap} {t : Ty} {a : Nat} {v : JV} {O : Nat → Prop} (hr : Rep p N L h t a v O) :
    h.Ok a (p.size t) ∧ ∀ y, O y → y < h.next ∧ ¬ OwnCell p t a y := by
  induction hr with
  | scalar t a v cells cs O h1 h2 h3 h4 h5 => exact ⟨h3, fun y hy => absurd hy (h5 y)⟩
  | list t a e vs Os O h1 h2 h3 h4 h5 h6 h7 ih =>
    obtain ⟨s1, s2⟩ := hL.list t e h1
    refine ⟨by rw [s1]; exact h2.obj, fun y hy => ?_⟩
    rcases (h7 y).1 hy with ⟨g1, g2⟩ | ⟨i, hi, hy⟩
    · have b := h2.buf
      have c := h2.apart
      have hc : h.mem (a + 2) ≠ 0 := by intro e0; rw [e0] at g2; omega
      refine ⟨by omega, ?_⟩
      rintro ⟨o1, o2⟩
      rw [s1] at o2
      omega
    · obtain ⟨g1, g2⟩ := ih i vs[i] (List.getElem?_eq_getElem hi)
      refine ⟨(g2 y hy).1, ?_⟩
      rintro ⟨o1, o2⟩
      exact h5 i y hi hy (Or.inl ⟨o1, by rw [s1] at o2; exact o2⟩)
  | map t a e K m B Os O h1 h2 h3 h4 h5 h6 h7 h8 h9 ih =>
    obtain ⟨s1, s2, s3⟩ := hL.map t e K h1
    refine ⟨by rw [s1]; exact h2.obj, fun y hy => ?_⟩
    rcases (h9 y).1 hy with ⟨g1, g2⟩ | ⟨k, hk, hy⟩
    · refine ⟨?_, g2⟩
      rcases g1 with g | g | ⟨d, hd, g⟩
      · have := h2.obj; unfold Heap.Ok at this; omega
      · have := h2.index; omega
      · have := (h2.node d hd).1; unfold Heap.Ok at this; omega
    · obtain ⟨x, hx⟩ := Option.isSome_iff_exists.1 hk
      obtain ⟨g1, g2⟩ := ih k x hx
      refine ⟨(g2 y hy).1, ?_⟩
      rintro ⟨o1, o2⟩
      exact h7 k y hk hy (Or.inl ⟨o1, by rw [s1] at o2; exact o2⟩)
  | obj t a field fs Os O h1 h2 h3 h4 h5 h6 h7 ih =>
    refine ⟨h2, fun y hy => ?_⟩
    obtain ⟨k, hk, hy⟩ := (h7 y).1 hy
    obtain ⟨x, hx⟩ := Option.isSome_iff_exists.1 ((h3 k).2 hk)
    obtain ⟨f, hf⟩ := Option.isSome_iff_exists.1 hk
    exact ⟨((ih k x f hx hf).2 y hy).1, h5 k y hk hy⟩
  | null t a e n O h1 h2 h3 h4 h5 => exact ⟨h2, fun y hy => absurd hy (h5 y)⟩
  | ptr t a e n v Oe O h1 h2 h3 h4 h5 h6 h7 h8 ih =>
    obtain ⟨s1, s2⟩ := hL.ptr t e n h1
    refine ⟨h2, fun y hy => ?_⟩
    rcases (h8 y).1 hy with g | g
    · refine ⟨?_, (h6 y g).1⟩
      rcases g with g | ⟨g1, g2⟩
      · have := ih.1.2; omega
      · have := (h4 g1).2.1; omega
    · refine ⟨?_, h7 y g⟩
      rcases g with g | g
      · have := ih.1.2; have := g.2; omega
      · exact (ih.2 y g).1

/-- two places that overlap have a cell in common -/
theorem overlap {a n b m : Nat} (h : ∀ y, a ≤ y → y < a + n → b ≤ y → y < b + m → False) (hn : 0 < n) (hm : 0 < m) :
    a + n ≤ b ∨ b + m ≤ a := by
  refine Classical.byContradiction fun hc => ?_
  by_cases c : a ≤ b
  · exact h b c (by omega) (by omega) (by omega)
  · exact h a (by omega) (by omega) (by omega) (by omega)

theorem Layout.Sound.keyPos (hL : L.Sound p N) : 0 < p.size N.stringT := by
  rcases Nat.eq_zero_or_pos (p.size N.stringT) with h | h
  · have := hL.strings [] [0] (by unfold keyCells; rw [h]; rfl)
    cases this
  · exact h

theorem nodes_congr {h h' : Heap} {a b : Nat} (h0 : h'.mem b = h.mem a) (h1 : h'.mem (b + 1) = h.mem (a + 1))
    (hi : ∀ i < h.mem (a + 1), h'.mem (h.mem a + i) = h.mem (h.mem a + i)) : h'.nodes b = h.nodes a := by
  unfold Heap.nodes
  rw [h1]
  apply List.map_congr_left
  intro i hx
  rw [h0, hi i (List.mem_range.1 hx)]

/-- A value moves with its own cells, if the rest of it stays as it is and out of the way. -/
theorem Rep.move (hL : L.Sound p N) {h h' : Heap} (hn : h.next ≤ h'.next) {t : Ty} {a : Nat} {v : JV} {O : Nat → Prop}
    (hr : Rep p N L h t a v O) : ∀ b, h'.Ok b (p.size t) → (∀ j < p.size t, h'.mem (b + j) = h.mem (a + j)) →
      (∀ y, O y → h'.mem y = h.mem y) → (∀ y, O y → ¬ OwnCell p t b y) → Rep p N L h' t b v O := by
  induction hr with
  | scalar t a v cells cs O h1 h2 h3 h4 h5 =>
    intro b hb hc _ _
    exact .scalar t b v cells cs O h1 h2 hb (fun j hj => by rw [hc j hj, h4 j hj]) h5
  | list t a e vs Os O h1 h2 h3 h4 h5 h6 h7 ih =>
    intro b hb hc ho hd
    obtain ⟨s1, s2⟩ := hL.list t e h1
    rw [s1] at hb hc
    have c0 : h'.mem b = h.mem a := hc 0 (by omega)
    have c1 : h'.mem (b + 1) = h.mem (a + 1) := hc 1 (by omega)
    have c2 : h'.mem (b + 2) = h.mem (a + 2) := hc 2 (by omega)
    have hbuf : ∀ y, h.mem a ≤ y → y < h.mem a + p.size e * h.mem (a + 2) → O y := fun y g1 g2 => (h7 y).2 (Or.inl ⟨g1, g2⟩)
    have hin : ∀ y, h'.InVec (p.size e) b y ↔ (b ≤ y ∧ y < b + 3) ∨ (h.mem a ≤ y ∧ y < h.mem a + p.size e * h.mem (a + 2)) := by
      intro y; unfold Heap.InVec; rw [c0, c2]
    have hv : h'.IsVec (p.size e) b := by
      refine ⟨hb, by rw [c1, c2]; exact h2.room, by rw [c0, c2]; exact h2.buf.imp (fun g => ⟨g.1, by omega⟩) id, ?_⟩
      rw [c0, c2]
      by_cases e0 : h.mem (a + 2) = 0
      · exact Or.inr (Or.inr e0)
      · have hpos : 0 < p.size e * h.mem (a + 2) := Nat.mul_pos s2 (by omega)
        rcases overlap (a := b) (n := 3) (b := h.mem a) (m := p.size e * h.mem (a + 2)) (fun y g1 g2 g3 g4 =>
          hd y (hbuf y g3 g4) ⟨g1, by rw [s1]; exact g2⟩) (by omega) hpos with g | g
        · exact Or.inl g
        · exact Or.inr (Or.inl g)
    refine .list t b e vs Os O h1 hv (by rw [c1]; exact h3) ?_ ?_ h6 ?_
    · intro i v hi
      rw [c0]
      have hlt := (List.getElem?_eq_some_iff.1 hi).1
      have hr' := h4 i v hi
      obtain ⟨⟨g0, g1⟩, g2⟩ := hr'.own hL
      refine ih i v hi _ ⟨g0, by omega⟩ (fun j hj => ?_) (fun y hy => ho y ((h7 y).2 (Or.inr ⟨i, hlt, hy⟩))) (fun y hy => (g2 y hy).2)
      refine ho _ (hbuf _ (by omega) ?_)
      have := slot_lt (n := p.size e) (i := i) (j := j) (len := h.mem (a + 2)) (by have := h2.room; omega) hj
      omega
    · intro i y hi hy hb
      rcases (hin y).1 hb with g | g
      · exact hd y ((h7 y).2 (Or.inr ⟨i, hi, hy⟩)) ⟨g.1, by rw [s1]; exact g.2⟩
      · exact h5 i y hi hy (Or.inr g)
    · intro y
      rw [c0, c2]
      exact h7 y
  | map t a e K m B Os O h1 h2 h3 h4 h5 h6 h7 h8 h9 ih =>
    intro b hb hc ho hd
    obtain ⟨s1, s2, s3⟩ := hL.map t e K h1
    rw [s1] at hb hc
    have c0 : h'.mem b = h.mem a := hc 0 (by omega)
    have c1 : h'.mem (b + 1) = h.mem (a + 1) := hc 1 (by omega)
    have hidx : ∀ y, h.mem a ≤ y → y < h.mem a + h.mem (a + 1) → O y := by
      intro y g1 g2
      refine (h9 y).2 (Or.inl ⟨Or.inr (Or.inl ⟨g1, g2⟩), ?_⟩)
      rintro ⟨o1, o2⟩
      rw [s1] at o2
      have := h2.indexApart
      omega
    have hnode : ∀ d ∈ h.nodes a, ∀ y, d ≤ y → y < d + (K.key + K.val) → O y := by
      intro d hd y g1 g2
      refine (h9 y).2 (Or.inl ⟨Or.inr (Or.inr ⟨d, hd, g1, g2⟩), ?_⟩)
      rintro ⟨o1, o2⟩
      rw [s1] at o2
      have := (h2.node d hd).2.1
      omega
    have hns : h'.nodes b = h.nodes a := nodes_congr c0 c1 fun i hi => ho _ (hidx _ (by omega) (by omega))
    have hkey : ∀ d ∈ h.nodes a, h'.cells d K.key = h.cells d K.key := by
      intro d hd
      exact cells_congr fun j hj => ho _ (hnode d hd _ (by omega) (by omega))
    have hin : ∀ y, h'.InMap K b y ↔ (b ≤ y ∧ y < b + 2) ∨ (h.mem a ≤ y ∧ y < h.mem a + h.mem (a + 1)) ∨
        ∃ d ∈ h.nodes a, d ≤ y ∧ y < d + (K.key + K.val) := by
      intro y; unfold Heap.InMap; rw [c0, c1, hns]
    have hm : h'.IsMap K b := by
      refine ⟨hb, by rw [c0, c1]; exact h2.index.imp (fun g => ⟨g.1, by omega⟩) id, ?_, ?_, by rw [hns]; exact h2.apart, ?_, ?_⟩
      · rw [c0, c1]
        by_cases e0 : h.mem (a + 1) = 0
        · exact Or.inr (Or.inr e0)
        · rcases overlap (a := b) (n := 2) (b := h.mem a) (m := h.mem (a + 1)) (fun y g1 g2 g3 g4 =>
            hd y (hidx y g3 g4) ⟨g1, by rw [s1]; exact g2⟩) (by omega) (by omega) with g | g
          · exact Or.inl g
          · exact Or.inr (Or.inl g)
      · rw [hns, c0, c1]
        intro d hdn
        obtain ⟨⟨n0, n1⟩, n2, n3⟩ := h2.node d hdn
        refine ⟨⟨n0, by omega⟩, ?_, n3⟩
        have hkp := hL.keyPos
        exact (overlap (a := d) (n := K.key + K.val) (b := b) (m := 2) (fun y g1 g2 g3 g4 =>
          hd y (hnode d hdn y g1 g2) ⟨g3, by rw [s1]; exact g4⟩) (by omega) (by omega))
      · rw [hns]
        rw [List.map_congr_left hkey]
        exact h2.keys
      · rw [hns, List.map_congr_left hkey]
        exact h2.sorted
    refine .map t b e K m B Os O h1 hm h3 ?_ ?_ ?_ ?_ h8 ?_
    · rw [hns]
      intro d hd
      rw [hkey d hd]
      exact h4 d hd
    · intro k hk
      obtain ⟨d, hd, hB, hc⟩ := h5 k hk
      exact ⟨d, by rw [hns]; exact hd, hB, by rw [hkey d hd]; exact hc⟩
    · intro k x hx
      have hk : (Assoc.get m k).isSome := by rw [hx]; rfl
      obtain ⟨d, hd, hB, -⟩ := h5 k hk
      obtain ⟨⟨g0, g1⟩, g2⟩ := (h6 k x hx).own hL
      refine ih k x hx _ ⟨g0, by omega⟩ (fun j hj => ?_) (fun y hy => ho y ((h9 y).2 (Or.inr ⟨k, hk, hy⟩))) (fun y hy => (g2 y hy).2)
      exact ho _ (hnode d hd _ (by omega) (by omega))
    · intro k y hk hy hb
      rcases (hin y).1 hb with g | g
      · exact hd y ((h9 y).2 (Or.inr ⟨k, hk, hy⟩)) ⟨g.1, by rw [s1]; exact g.2⟩
      · exact h7 k y hk hy (Or.inr g)
    · intro y
      rw [h9 y]
      constructor
      · rintro (g | g)
        · refine Or.inl ⟨(hin y).2 ?_, hd y ((h9 y).2 (Or.inl g))⟩
          rcases g.1 with q | q
          · exact absurd ⟨q.1, by rw [s1]; exact q.2⟩ g.2
          · exact Or.inr q
        · exact Or.inr g
      · rintro (g | g)
        · rcases (hin y).1 g.1 with q | q | ⟨d, hd, q⟩
          · exact absurd ⟨q.1, by rw [s1]; exact q.2⟩ g.2
          · exact (h9 y).1 (hidx y q.1 q.2)
          · exact (h9 y).1 (hnode d hd y q.1 q.2)
        · exact Or.inr g
  | obj t a field fs Os O h1 h2 h3 h4 h5 h6 h7 ih =>
    intro b hb hc ho hd
    refine .obj t b field fs Os O h1 hb h3 ?_ ?_ h6 h7
    · intro k x f hx hf
      have hr' := h4 k x f hx hf
      have hin := hL.inside t field k f h1 hf
      obtain ⟨g1, g2⟩ := hr'.own hL
      have hk : (field k).isSome := by rw [hf]; rfl
      refine ih k x f hx hf _ ⟨by have := hb.1; omega, by have := hb.2; omega⟩ (fun j hj => ?_) (fun y hy => ho y ((h7 y).2 ⟨k, hk, hy⟩)) ?_
      · have := hc (f.2 + j) (by omega)
        rw [show b + f.2 + j = b + (f.2 + j) by omega, this, show a + (f.2 + j) = a + f.2 + j by omega]
      · rintro y hy ⟨o1, o2⟩
        exact hd y ((h7 y).2 ⟨k, hk, hy⟩) ⟨by omega, by omega⟩
    · intro k y hk hy
      exact hd y ((h7 y).2 ⟨k, hk, hy⟩)
  | null t a e n O h1 h2 h3 h4 h5 =>
    intro b hb hc _ _
    obtain ⟨s1, s2⟩ := hL.ptr t e n h1
    exact .null t b e n O h1 hb (by rw [← h3]; exact hc 0 (by omega)) (fun h => by rw [← h4 h]; exact hc 1 (by omega)) h5
  | ptr t a e n v Oe O h1 h2 h3 h4 h5 h6 h7 h8 ih =>
    intro b hb hc ho hd
    obtain ⟨s1, s2⟩ := hL.ptr t e n h1
    obtain ⟨g1, g2⟩ := h5.own hL
    have c0 : h'.mem b = h.mem a := hc 0 (by omega)
    have c1 : n = 2 → h'.mem (b + 1) = h.mem (a + 1) := fun h => hc 1 (by omega)
    have hk : ∀ y, Heap.Keeps h' n b y ↔ Heap.Keeps h n a y := by
      intro y
      unfold Heap.Keeps
      rw [c0]
      constructor
      · rintro (q | ⟨q1, q2⟩)
        · exact Or.inl q
        · exact Or.inr ⟨q1, by rw [← c1 q1]; exact q2⟩
      · rintro (q | ⟨q1, q2⟩)
        · exact Or.inl q
        · exact Or.inr ⟨q1, by rw [c1 q1]; exact q2⟩
    refine .ptr t b e n v Oe O h1 hb (by rw [c0]; exact h3) (fun h => ?_) ?_ (fun y hy => ?_) (fun y hy => ?_) fun y => ?_
    · obtain ⟨q1, q2, q3, q4⟩ := h4 h
      rw [c0, c1 h, ho _ ((h8 _).2 (Or.inl (Or.inr ⟨h, rfl⟩)))]
      exact ⟨q1, by omega, q3, q4⟩
    · rw [c0]
      refine ih _ ⟨g1.1, by have := g1.2; omega⟩ (fun j hj => ho _ ((h8 _).2 (Or.inr (Or.inl ⟨by omega, by omega⟩)))) (fun y hy => ho y ((h8 y).2 (Or.inr (Or.inr hy))))
        fun y hy => (g2 y hy).2
    · have := (hk y).1 hy
      rw [c0]
      exact ⟨hd y ((h8 y).2 (Or.inl this)), (h6 y this).2⟩
    · rw [c0] at hy
      exact hd y ((h8 y).2 (Or.inr hy))
    · rw [hk, c0]
      exact h8 y

/-! ### one more element -/

theorem list_push (hL : L.Sound p N) {h h' : Heap} {t e : Ty} {a b : Nat} {vs : List JV} {x : JV} {O Ox : Nat → Prop} (hl : L t = .list e)
    (hr : Rep p N L h t a (.list vs) O) (hx : Rep p N L h e b x Ox)
    (hd1 : ∀ y, Ox y → ¬ O y ∧ ¬ OwnCell p t a y) (hd2 : ∀ y, OwnCell p e b y → ¬ O y ∧ ¬ OwnCell p t a y)
    (hv : h'.IsVec (p.size e) a) (he : h'.elems (p.size e) a = h.elems (p.size e) a ++ [h.cells b (p.size e)]) (hn : h.next ≤ h'.next)
    (hmine : ∀ y < h.next, h'.InVec (p.size e) a y → h.InVec (p.size e) a y)
    (hsame : ∀ y < h.next, ¬ h.InVec (p.size e) a y → ¬ OwnCell p e b y → h'.mem y = h.mem y) :
    ∃ O', Rep p N L h' t a (.list (vs ++ [x])) O' ∧ (∀ y < h.next, O' y → O y ∨ Ox y) ∧
      ∀ y < h.next, ¬ OwnCell p t a y → ¬ O y → ¬ OwnCell p e b y → h'.mem y = h.mem y := by
  obtain ⟨s1, s2⟩ := hL.list t e hl
  obtain ⟨x1, x2⟩ := hx.own hL
  obtain ⟨r1, r2⟩ := hr.own hL
  cases hr with
  | scalar _ _ _ cells cs _ h1 => rw [hl] at h1; cases h1
  | list _ _ e' _ Os _ h1 h2 h3 h4 h5 h6 h7 =>
  rw [hl] at h1; cases h1
  have hin : ∀ y, h.InVec (p.size e) a y → OwnCell p t a y ∨ O y := by
    rintro y (g | g)
    · exact Or.inl ⟨g.1, by rw [s1]; exact g.2⟩
    · exact Or.inr ((h7 y).2 (Or.inl g))
  have hlen : h'.mem (a + 1) = vs.length + 1 := by
    have := congrArg List.length he
    rw [elems_length, List.length_append, elems_length] at this
    simpa [h3] using this
  have hroom := hv.room
  obtain ⟨p1, p2, p3⟩ := IsVec.place hv (by omega)
  have hbuf : ∀ i j, i < vs.length + 1 → j < p.size e → h'.InVec (p.size e) a (h'.mem a + p.size e * i + j) := by
    intro i j hi hj
    have := slot_lt (n := p.size e) (i := i) (j := j) (len := h'.mem (a + 2)) (by omega) hj
    exact Or.inr ⟨by omega, by omega⟩
  have hok : ∀ i, i < vs.length + 1 → h'.Ok (h'.mem a + p.size e * i) (p.size e) := by
    intro i hi
    have := slot_lt (n := p.size e) (i := i) (j := p.size e - 1) (len := h'.mem (a + 2)) (by omega) (by omega)
    exact ⟨by omega, by omega⟩
  have hget : ∀ i, i < vs.length → ∀ j < p.size e, h'.mem (h'.mem a + p.size e * i + j) = h.mem (h.mem a + p.size e * i + j) := by
    intro i hi
    have e1 := elems_get (h := h') (n := p.size e) (v := a) (i := i) (by omega)
    rw [he, List.getElem?_append_left (by rw [elems_length, h3]; exact hi), elems_get (by omega)] at e1
    exact cells_eq_iff.1 (Option.some.inj e1).symm
  have hlast : ∀ j < p.size e, h'.mem (h'.mem a + p.size e * vs.length + j) = h.mem (b + j) := by
    have e1 := elems_get (h := h') (n := p.size e) (v := a) (i := vs.length) (by omega)
    rw [he, List.getElem?_append_right (by rw [elems_length, h3]; omega), elems_length, h3, Nat.sub_self] at e1
    exact cells_eq_iff.1 (Option.some.inj e1).symm
  have hstay : ∀ y < h.next, ¬ OwnCell p t a y → ¬ OwnCell p e b y → ¬ h.InVec (p.size e) a y → h'.mem y = h.mem y :=
    fun y g1 _ g3 g4 => hsame y g1 g4 g3
  have hOs : ∀ i y, i < vs.length → Os i y → O y ∧ y < h.next ∧ ¬ h.InVec (p.size e) a y ∧ ¬ OwnCell p e b y := by
    intro i y hi hy
    have g := (h7 y).2 (Or.inr ⟨i, hi, hy⟩)
    exact ⟨g, (r2 y g).1, h5 i y hi hy, fun c => (hd2 y c).1 g⟩
  have hOx : ∀ y, Ox y → ¬ O y ∧ y < h.next ∧ ¬ h.InVec (p.size e) a y ∧ ¬ OwnCell p e b y := by
    intro y hy
    obtain ⟨g1, g2⟩ := hd1 y hy
    refine ⟨g1, (x2 y hy).1, fun c => ?_, (x2 y hy).2⟩
    rcases hin y c with q | q
    · exact g2 q
    · exact g1 q
  refine ⟨fun y => (h'.mem a ≤ y ∧ y < h'.mem a + p.size e * h'.mem (a + 2)) ∨ ∃ i, i < (vs ++ [x]).length ∧ (if i < vs.length then Os i y else Ox y),
    .list t a e (vs ++ [x]) (fun i y => if i < vs.length then Os i y else Ox y) _ hl hv (by rw [hlen]; simp) ?_ ?_ ?_ (fun y => Iff.rfl), ?_, ?_⟩
  · intro i v hi
    have hlt := (List.getElem?_eq_some_iff.1 hi).1
    rw [List.length_append, List.length_singleton] at hlt
    by_cases c : i < vs.length
    · rw [List.getElem?_append_left c] at hi
      simp only [c, if_true]
      refine (h4 i v hi).move hL hn _ (hok i hlt) (hget i c) (fun y hy => ?_) ?_
      · obtain ⟨g1, g2, g3, g4⟩ := hOs i y c hy
        exact hsame y g2 g3 g4
      · rintro y hy ⟨o1, o2⟩
        obtain ⟨g1, g2, g3, g4⟩ := hOs i y c hy
        refine g3 (hmine y g2 ?_)
        have := hbuf i (y - (h'.mem a + p.size e * i)) hlt (by omega)
        rwa [show h'.mem a + p.size e * i + (y - (h'.mem a + p.size e * i)) = y by omega] at this
    · have hi' : i = vs.length := by omega
      subst hi'
      rw [List.getElem?_append_right (Nat.le_refl _), Nat.sub_self] at hi
      simp only [List.getElem?_cons_zero, Option.some.injEq] at hi
      subst hi
      simp only [Nat.lt_irrefl, if_false]
      refine hx.move hL hn _ (hok _ hlt) hlast (fun y hy => ?_) ?_
      · obtain ⟨g1, g2, g3, g4⟩ := hOx y hy
        exact hsame y g2 g3 g4
      · rintro y hy ⟨o1, o2⟩
        obtain ⟨g1, g2, g3, g4⟩ := hOx y hy
        refine g3 (hmine y g2 ?_)
        have := hbuf vs.length (y - (h'.mem a + p.size e * vs.length)) hlt (by omega)
        rwa [show h'.mem a + p.size e * vs.length + (y - (h'.mem a + p.size e * vs.length)) = y by omega] at this
  · intro i y _ hy hc
    by_cases c : i < vs.length
    · simp only [c, if_true] at hy
      obtain ⟨g1, g2, g3, g4⟩ := hOs i y c hy
      exact g3 (hmine y g2 hc)
    · simp only [c, if_false] at hy
      obtain ⟨g1, g2, g3, g4⟩ := hOx y hy
      exact g3 (hmine y g2 hc)
  · intro i j y hi hj hy hy'
    rw [List.length_append, List.length_singleton] at hi hj
    by_cases c : i < vs.length <;> by_cases c' : j < vs.length <;> simp only [c, c', if_true, if_false] at hy hy'
    · exact h6 i j y c c' hy hy'
    · exact absurd (hOs i y c hy).1 (hOx y hy').1
    · exact absurd (hOs j y c' hy').1 (hOx y hy).1
    · omega
  · rintro y hy (g | ⟨i, hi, g⟩)
    · rcases hmine y hy (Or.inr g) with q | q
      · refine absurd g ?_
        rintro ⟨g1, g2⟩
        omega
      · exact Or.inl ((h7 y).2 (Or.inl q))
    · by_cases c : i < vs.length <;> simp only [c, if_true, if_false] at g
      · exact Or.inl (hOs i y c g).1
      · exact Or.inr g
  · intro y hy g1 g2 g3
    refine hsame y hy (fun c => ?_) g3
    rcases hin y c with q | q
    · exact g1 q
    · exact g2 q

/-! ### one more entry -/

theorem nodup_map_inj {α β : Type} {f : α → β} : ∀ {l : List α}, (l.map f).Nodup → ∀ {x y : α}, x ∈ l → y ∈ l → f x = f y → x = y
  | [], _, _, _, hx, _, _ => by cases hx
  | z :: l, hn, x, y, hx, hy, he => by
    simp only [List.map_cons, List.nodup_cons, List.mem_map, not_exists, not_and] at hn
    rcases List.mem_cons.1 hx with rfl | hx' <;> rcases List.mem_cons.1 hy with rfl | hy'
    · rfl
    · exact absurd he.symm (hn.1 y hy')
    · exact absurd he (hn.1 x hx')
    · exact nodup_map_inj hn.2 hx' hy' he

/-- what the old value at a key lets go of was part of the map -/
theorem letsgo_core (hL : L.Sound p N) {h h1 : Heap} {t e : Ty} {K : MapKind} {a r : Nat} {m : List (Bytes × JV)} {k : Bytes}
    {G : Nat → Prop} {B : Bytes → Nat} {Os : Bytes → Nat → Prop} (hl : L t = .map e K) (g2 : h.IsMap K a)
    (g4 : ∀ d ∈ h.nodes a, ∃ k, (Assoc.get m k).isSome ∧ h.cells d K.key = keyCells p N k)
    (g5 : ∀ k, (Assoc.get m k).isSome → h.ValueAt K a (keyCells p N k) (B k))
    (g6 : ∀ k x, Assoc.get m k = some x → Rep p N L h e (B k) x (Os k))
    (hm1 : h1.IsMap K a) (hv1 : h1.ValueAt K a (keyCells p N k) r)
    (hlk0 : h1.lookup K a (keyCells p N k) = some ((h.lookup K a (keyCells p N k)).getD ((List.range K.val).map K.init)))
    (hva : ∀ k' c, h.ValueAt K a k' c → h1.ValueAt K a k' c)
    (hG : ∀ y, G y → ∃ e' n, L e = .ptr e' n ∧ (∀ j, K.init j = 0) ∧ (h1.mem r ≠ 0 ∨ (n = 2 ∧ h1.mem (r + 1) ≠ 0)) ∧ Heap.Keeps h1 n r y) :
    ∀ y, G y → (Assoc.get m k).isSome ∧ Os k y := by
  obtain ⟨s1, s2, s3⟩ := hL.map t e K hl
  intro y hy
  obtain ⟨e', n, z1, z2, z3, z4⟩ := hG y hy
  obtain ⟨s4, s5⟩ := hL.ptr e e' n z1
  have hlr := lookup_valueAt hm1.keys hv1
  rw [hlk0] at hlr
  cases hk : Assoc.get m k with
  | none =>
    have hn : h.lookup K a (keyCells p N k) = none := by
      cases hq : h.lookup K a (keyCells p N k) with
      | none => rfl
      | some q =>
        obtain ⟨z, ⟨d', hd', -, z2⟩, -⟩ := valueAt_of_lookup hq
        obtain ⟨k', w1, w2⟩ := g4 d' hd'
        have := hL.strings k' k (by rw [← w2, z2])
        rw [this, hk] at w1; cases w1
    rw [hn] at hlr
    have hz : ∀ j < K.val, h1.mem (r + j) = 0 := by
      intro j hj
      have := congrArg (fun l => l[j]?) (Option.some.inj hlr)
      simpa [Heap.cells, hj, z2] using this.symm
    rcases z3 with c | ⟨c1, c2⟩
    · exact absurd (by simpa using hz 0 (by omega)) c
    · exact absurd (hz 1 (by omega)) c2
  | some x0 =>
    refine ⟨rfl, ?_⟩
    have v0 := g5 k (by rw [hk]; rfl)
    rw [lookup_valueAt g2.keys v0] at hlr
    have l2 := cells_eq_iff.1 (Option.some.inj hlr)
    obtain ⟨da, w1, w2, w3⟩ := hva _ _ v0
    obtain ⟨db, w4, w5, w6⟩ := hv1
    have hdd : da = db := nodup_map_inj hm1.keys w1 w4 (by rw [w3, w6])
    have hbr : B k = r := by omega
    rw [hbr] at l2
    have w := g6 k x0 hk
    rw [hbr] at w
    have c0 : h1.mem r = h.mem r := by simpa using (l2 0 (by omega)).symm
    have c1 : n = 2 → h1.mem (r + 1) = h.mem (r + 1) := fun hn => (l2 1 (by omega)).symm
    cases w with
    | scalar _ _ _ _ _ _ u1 => rw [z1] at u1; cases u1
    | list _ _ _ _ _ _ u1 => rw [z1] at u1; cases u1
    | map _ _ _ _ _ _ _ _ u1 => rw [z1] at u1; cases u1
    | obj _ _ _ _ _ _ u1 => rw [z1] at u1; cases u1
    | null _ _ _ _ _ u1 u2 u3 u4 =>
      rw [z1] at u1; cases u1
      rcases z3 with c | ⟨c, c'⟩
      · exact absurd (c0.trans u3) c
      · exact absurd ((c1 c).trans (u4 c)) c'
    | ptr _ _ _ _ _ _ _ u1 u2 u3 u4 u5 u6 u7 u8 =>
      rw [z1] at u1; cases u1
      refine (u8 y).2 (Or.inl ?_)
      rcases z4 with c | ⟨c, c'⟩
      · exact Or.inl (by rw [← c0]; exact c)
      · exact Or.inr ⟨c, by rw [← c1 c]; exact c'⟩

theorem map_letsgo (hL : L.Sound p N) {h h1 : Heap} {t e : Ty} {K : MapKind} {a r : Nat} {m : List (Bytes × JV)} {k : Bytes}
    {O G : Nat → Prop} (hl : L t = .map e K) (hr : Rep p N L h t a (.map m) O)
    (hm1 : h1.IsMap K a) (hv1 : h1.ValueAt K a (keyCells p N k) r)
    (hlk0 : h1.lookup K a (keyCells p N k) = some ((h.lookup K a (keyCells p N k)).getD ((List.range K.val).map K.init)))
    (hva : ∀ k' c, h.ValueAt K a k' c → h1.ValueAt K a k' c)
    (hmine : ∀ y < h.next, h1.InMap K a y → h.InMap K a y)
    (hG : ∀ y, G y → ∃ e' n, L e = .ptr e' n ∧ (∀ j, K.init j = 0) ∧ (h1.mem r ≠ 0 ∨ (n = 2 ∧ h1.mem (r + 1) ≠ 0)) ∧ Heap.Keeps h1 n r y) :
    ∀ y, G y → ¬ h1.InMap K a y := by
  obtain ⟨r1, r2⟩ := hr.own hL
  cases hr with
  | scalar _ _ _ cells cs _ h1 => rw [hl] at h1; cases h1
  | map _ _ e' K' _ B Os _ g1 g2 g3 g4 g5 g6 g7 g8 g9 =>
  rw [hl] at g1; cases g1
  intro y hy
  obtain ⟨z1, z2⟩ := letsgo_core hL hl g2 g4 g5 g6 hm1 hv1 hlk0 hva hG y hy
  have q1 := (r2 y ((g9 y).2 (Or.inr ⟨k, z1, z2⟩))).1
  exact fun c => g7 k y z1 z2 (hmine y q1 c)

theorem map_set (hL : L.Sound p N) {h h1 h2 : Heap} {t e : Ty} {K : MapKind} {a b r : Nat} {m : List (Bytes × JV)} {k : Bytes} {x : JV}
    {O Ox G : Nat → Prop} (hl : L t = .map e K)
    (hr : Rep p N L h t a (.map m) O) (hx : Rep p N L h e b x Ox)
    (hd1 : ∀ y, Ox y → ¬ O y ∧ ¬ OwnCell p t a y) (hd2 : ∀ y, OwnCell p e b y → ¬ O y ∧ ¬ OwnCell p t a y)
    (hm1 : h1.IsMap K a) (hv1 : h1.ValueAt K a (keyCells p N k) r)
    (hlk0 : h1.lookup K a (keyCells p N k) = some ((h.lookup K a (keyCells p N k)).getD ((List.range K.val).map K.init)))
    (hlk : ∀ k', k' ≠ keyCells p N k → h1.lookup K a k' = h.lookup K a k')
    (hva : ∀ k' c, h.ValueAt K a k' c → h1.ValueAt K a k' c)
    (hs1 : ∀ y < h.next, ¬ h.InMap K a y → h1.mem y = h.mem y) (hn1 : h.next ≤ h1.next)
    (hmine : ∀ y < h.next, h1.InMap K a y → h.InMap K a y)
    (hw : ∀ i < p.size e, h2.mem (r + i) = h1.mem (b + i))
    (hs2 : ∀ y < h1.next, ¬ OwnCell p e r y → ¬ OwnCell p e b y → ¬ G y → h2.mem y = h1.mem y)
    (hG : ∀ y, G y → ∃ e' n, L e = .ptr e' n ∧ (∀ j, K.init j = 0) ∧ (h1.mem r ≠ 0 ∨ (n = 2 ∧ h1.mem (r + 1) ≠ 0)) ∧ Heap.Keeps h1 n r y) (hn2 : h1.next ≤ h2.next) :
    ∃ O', Rep p N L h2 t a (.map (mapSet m k x)) O' ∧ (∀ y < h.next, O' y → O y ∨ Ox y) ∧
      ∀ y < h.next, ¬ OwnCell p t a y → ¬ O y → ¬ OwnCell p e b y → h2.mem y = h.mem y := by
  obtain ⟨s1, s2, s3⟩ := hL.map t e K hl
  obtain ⟨x1, x2⟩ := hx.own hL
  obtain ⟨r1, r2⟩ := hr.own hL
  cases hr with
  | scalar _ _ _ cells cs _ h1 => rw [hl] at h1; cases h1
  | map _ _ e' K' _ B Os _ g1 g2 g3 g4 g5 g6 g7 g8 g9 =>
  rw [hl] at g1; cases g1
  have hin : ∀ y, h.InMap K a y → OwnCell p t a y ∨ O y := by
    intro y g
    by_cases c : OwnCell p t a y
    · exact Or.inl c
    · exact Or.inr ((g9 y).2 (Or.inl ⟨g, c⟩))
  have hb1 : ∀ y, OwnCell p e b y → y < h.next ∧ ¬ h.InMap K a y ∧ ¬ h1.InMap K a y := by
    intro y hy
    have q1 : y < h.next := by have := x1.2; have := hy.2; omega
    have q2 : ¬ h.InMap K a y := fun c => (hin y c).elim (hd2 y hy).2 (hd2 y hy).1
    exact ⟨q1, q2, fun c => q2 (hmine y q1 c)⟩
  have hGO := letsgo_core hL hl g2 g4 g5 g6 hm1 hv1 hlk0 hva hG
  have hGm : ∀ y, G y → O y ∧ y < h.next ∧ ¬ h.InMap K a y ∧ ¬ h1.InMap K a y := by
    intro y hy
    obtain ⟨z1, z2⟩ := hGO y hy
    have q := (g9 y).2 (Or.inr ⟨k, z1, z2⟩)
    have q1 := (r2 y q).1
    have q2 := g7 k y z1 z2
    exact ⟨q, q1, q2, fun c => q2 (hmine y q1 c)⟩
  obtain ⟨dr, n1, n2, n3⟩ := hv1
  have hr1 : ∀ y, OwnCell p e r y → h1.InMap K a y := by
    rintro y ⟨o1, o2⟩
    exact Or.inr (Or.inr ⟨dr, n1, by omega, by omega⟩)
  obtain ⟨m1, m2, m3, m4⟩ := write_inside (k := keyCells p N k) (a := r) hm1 ⟨dr, n1, n2, n3⟩ hn2 (fun y q1 q2 q3 => hs2 y q1 (fun c => by
    have := c.1; have := c.2; omega) (fun c => (hb1 y c).2.2 q2) (fun c => (hGm y c).2.2.2 q2))
  have hOs : ∀ k' y, (Assoc.get m k').isSome → k ≠ k' → Os k' y → O y ∧ y < h.next ∧ ¬ h.InMap K a y ∧ h2.mem y = h.mem y ∧ ¬ h2.InMap K a y := by
    intro k' y hk' hne hy
    have q := (g9 y).2 (Or.inr ⟨k', hk', hy⟩)
    have q1 := (r2 y q).1
    have q2 := g7 k' y hk' hy
    have q3 : ¬ h1.InMap K a y := fun c => q2 (hmine y q1 c)
    refine ⟨q, q1, q2, ?_, fun c => q3 ((m4 y).1 c)⟩
    rw [hs2 y (by omega) (fun c => q3 (hr1 y c)) (fun c => (hd2 y c).1 q) (fun c => hne (g8 k k' y (hGO y c).1 hk' (hGO y c).2 hy)), hs1 y q1 q2]
  have hOx : ∀ y, Ox y → ¬ O y ∧ y < h.next ∧ h2.mem y = h.mem y ∧ ¬ h2.InMap K a y := by
    intro y hy
    have q1 := (x2 y hy).1
    have q2 : ¬ h.InMap K a y := fun c => (hin y c).elim (hd1 y hy).2 (hd1 y hy).1
    have q3 : ¬ h1.InMap K a y := fun c => q2 (hmine y q1 c)
    refine ⟨(hd1 y hy).1, q1, ?_, fun c => q3 ((m4 y).1 c)⟩
    rw [hs2 y (by omega) (fun c => q3 (hr1 y c)) (x2 y hy).2 (fun c => (hd1 y hy).1 (hGm y c).1), hs1 y q1 q2]
  have hget : ∀ k', Assoc.get (mapSet m k x) k' = if k = k' then some x else Assoc.get m k' := fun k' => get_mapSet m k k' x g3
  have hsome : ∀ k', (Assoc.get (mapSet m k x) k').isSome → k ≠ k' → (Assoc.get m k').isSome := by
    intro k' hk' hne
    rwa [hget, if_neg hne] at hk'
  refine ⟨fun y => (h2.InMap K a y ∧ ¬ OwnCell p t a y) ∨ ∃ k', (Assoc.get (mapSet m k x) k').isSome ∧ (if k = k' then Ox y else Os k' y),
    .map t a e K (mapSet m k x) (fun k' => if k = k' then r else B k') (fun k' y => if k = k' then Ox y else Os k' y) _ hl m1
      (mapSet_ordered m k x g3) ?_ ?_ ?_ ?_ ?_ (fun y => Iff.rfl), ?_, ?_⟩
  · intro d hd
    have q : h1.ValueAt K a (h2.cells d K.key) (d + K.key) := (m3 _ _).1 ⟨d, hd, rfl, rfl⟩
    by_cases c : h2.cells d K.key = keyCells p N k
    · exact ⟨k, by rw [hget, if_pos rfl]; rfl, c⟩
    · have q1 := lookup_valueAt hm1.keys q
      rw [hlk _ c] at q1
      obtain ⟨z, ⟨d', hd', -, z2⟩, -⟩ := valueAt_of_lookup q1
      obtain ⟨k', w1, w2⟩ := g4 d' hd'
      refine ⟨k', ?_, by rw [← z2, w2]⟩
      rw [hget]
      split
      · rfl
      · exact w1
  · intro k' hk'
    by_cases c : k = k'
    · subst c
      simp only [if_true]
      exact (m3 _ _).2 ⟨dr, n1, n2, n3⟩
    · simp only [c, if_false]
      exact (m3 _ _).2 (hva _ _ (g5 k' (hsome k' hk' c)))
  · intro k' v hk'
    rw [hget] at hk'
    by_cases c : k = k'
    · subst c
      simp only [if_true, Option.some.injEq] at hk' ⊢
      subst hk'
      have q0 := (hm1.node dr n1).1
      refine hx.move hL (Nat.le_trans hn1 hn2) r ⟨by have := q0.1; omega, by have := q0.2; omega⟩ (fun j hj => ?_) (fun y hy => (hOx y hy).2.2.1) ?_
      · have q := hb1 (b + j) ⟨by omega, by omega⟩
        rw [hw j hj, hs1 _ q.1 q.2.1]
      · intro y hy c
        exact (hOx y hy).2.2.2 ((m4 y).2 (hr1 y c))
    · simp only [c, if_false] at hk' ⊢
      have hsk : (Assoc.get m k').isSome := by rw [hk']; rfl
      have w := g6 k' v hk'
      have w0 := (w.own hL)
      have v0 := g5 k' hsk
      have v1 := hva _ _ v0
      have hne : keyCells p N k' ≠ keyCells p N k := fun z => c (hL.strings _ _ z).symm
      have l1 := lookup_valueAt hm1.keys v1
      rw [hlk _ hne, lookup_valueAt g2.keys v0] at l1
      have l2 := cells_eq_iff.1 (Option.some.inj l1)
      obtain ⟨d', u1, u2, u3⟩ := v1
      have hdd : d' ≠ dr := by
        intro z
        rw [z, n3] at u3
        exact hne u3.symm
      have hap := pairwise_all (fun _ _ h => Or.comm.1 h) hm1.apart d' u1 dr n1 hdd
      have hok := (hm1.node d' u1).1.2
      refine w.move hL (Nat.le_trans hn1 hn2) _ ⟨w0.1.1, by have := w0.1.2; omega⟩ (fun j hj => ?_) (fun y hy => (hOs k' y hsk c hy).2.2.2.1)
        (fun y hy => (w0.2 y hy).2)
      rw [hs2 _ (by omega) (fun z => by have := z.1; have := z.2; omega) (fun z => (hb1 _ z).2.2 (Or.inr (Or.inr ⟨d', u1, by omega, by omega⟩)))
        (fun z => (hGm _ z).2.2.2 (Or.inr (Or.inr ⟨d', u1, by omega, by omega⟩))), l2 j (by omega)]
  · intro k' y hk' hy
    by_cases c : k = k' <;> simp only [c, if_true, if_false] at hy
    · exact (hOx y hy).2.2.2
    · exact (hOs k' y (hsome k' hk' c) c hy).2.2.2.2
  · intro k' k'' y hk' hk'' hy hy'
    by_cases c : k = k' <;> by_cases c' : k = k'' <;> simp only [c, c', if_true, if_false] at hy hy'
    · exact c.symm.trans c'
    · subst c
      exact absurd (hOs k'' y (hsome k'' hk'' c') c' (by simpa [c'] using hy')).1 (hOx y hy).1
    · subst c'
      exact absurd (hOs k' y (hsome k' hk' c) c (by simpa [c] using hy)).1 (hOx y hy').1
    · exact g8 k' k'' y (hsome k' hk' c) (hsome k'' hk'' c') hy hy'
  · rintro y hy (⟨q1, q2⟩ | ⟨k', hk', g⟩)
    · have := hmine y hy ((m4 y).1 q1)
      exact Or.inl ((hin y this).resolve_left q2)
    · by_cases c : k = k' <;> simp only [c, if_true, if_false] at g
      · exact Or.inr g
      · exact Or.inl (hOs k' y (hsome k' hk' c) c g).1
  · intro y hy q1 q2 q3
    have q4 : ¬ h.InMap K a y := fun c => (hin y c).elim q1 q2
    rw [hs2 y (by omega) (fun c => q4 (hmine y hy (hr1 y c))) q3 (fun c => q2 (hGm y c).1), hs1 y hy q4]

/-! ### from one value to another -/

theorem Become.refl {h : Heap} {t : Ty} {a : Nat} {v : JV} {O : Nat → Prop} (hr : Rep p N L h t a v O) : Become p N L h h t a O v O :=
  ⟨hr, fun _ _ _ _ => rfl, fun _ _ h => h, Nat.le_refl _⟩

theorem Become.trans {h h1 h2 : Heap} {t : Ty} {a : Nat} {v1 v2 : JV} {O O1 O2 : Nat → Prop}
    (b1 : Become p N L h h1 t a O v1 O1) (b2 : Become p N L h1 h2 t a O1 v2 O2) : Become p N L h h2 t a O v2 O2 := by
  refine ⟨b2.rep, fun y hy h1 h2 => ?_, fun y hy h => b1.mine y hy (b2.mine y (Nat.lt_of_lt_of_le hy b1.grow) h), Nat.le_trans b1.grow b2.grow⟩
  rw [b2.same y (Nat.lt_of_lt_of_le hy b1.grow) h1 (fun c => h2 (b1.mine y hy c)), b1.same y hy h1 h2]

/-- a value among what is left alone -/
theorem Rep.kept (hL : L.Sound p N) {h h' : Heap} {t : Ty} {a : Nat} {v : JV} {O : Nat → Prop} (hr : Rep p N L h t a v O)
    (hn : h.next ≤ h'.next) (hs : ∀ y < h.next, OwnCell p t a y ∨ O y → h'.mem y = h.mem y) : Rep p N L h' t a v O := by
  obtain ⟨⟨o1, o2⟩, o3⟩ := hr.own hL
  exact hr.move hL hn a ⟨o1, by omega⟩ (fun j hj => hs _ (by omega) (Or.inl ⟨by omega, by omega⟩)) (fun y hy => hs y (o3 y hy).1 (Or.inr hy))
    fun y hy => (o3 y hy).2

theorem keys_of_get {k : Bytes} : ∀ {fs : List (Bytes × JV)}, (Assoc.get fs k).isSome → k ∈ fs.map (·.1)
  | [], h => by cases h
  | (l, u) :: fs, h => by
    simp only [Assoc.get] at h
    split at h
    · rename_i e; simp [e]
    · simp [keys_of_get h]

/-- a field of an object, and the object when its field has changed -/
theorem obj_set (hL : L.Sound p N) {h : Heap} {t : Ty} {a : Nat} {fs : List (Bytes × JV)} {O : Nat → Prop}
    {field : Bytes → Option (Ty × Nat)} (hl : L t = .obj field) (hr : Rep p N L h t a (.obj fs) O) {k : Bytes} {f : Ty × Nat} (hf : field k = some f) :
    ∃ x Ok, Assoc.get fs k = some x ∧ Rep p N L h f.1 (a + f.2) x Ok ∧
      ∀ h' x' Ok', Become p N L h h' f.1 (a + f.2) Ok x' Ok' → ∃ O', Become p N L h h' t a O (.obj (objSet fs k x')) O' := by
  obtain ⟨r1, r2⟩ := hr.own hL
  cases hr with
  | scalar _ _ _ cells cs _ h1 => rw [hl] at h1; cases h1
  | obj _ _ field' _ Os _ h1 h2 h3 h4 h5 h6 h7 =>
  rw [hl] at h1; cases h1
  have hfk : (field k).isSome := by rw [hf]; rfl
  obtain ⟨x, hx⟩ := Option.isSome_iff_exists.1 ((h3 k).2 hfk)
  have hin := hL.inside t field k f hl hf
  have hkeys : k ∈ fs.map (·.1) := keys_of_get ((h3 k).2 hfk)
  refine ⟨x, Os k, hx, h4 k x f hx hf, fun h' x' Ok' hb => ?_⟩
  have hget : ∀ k', Assoc.get (objSet fs k x') k' = if k = k' then some x' else Assoc.get fs k' := by
    intro k'
    rw [get_objSet]
    by_cases c : k = k'
    · subst c; simp [hkeys]
    · simp [c]
  have hOk : ∀ y, Ok' y → h.next ≤ y ∨ Os k y := by
    intro y hy
    rcases Nat.lt_or_ge y h.next with c | c
    · exact Or.inr (hb.mine y c hy)
    · exact Or.inl c
  have hO : ∀ k' y, (field k').isSome → Os k' y → O y := fun k' y q1 q2 => (h7 y).2 ⟨k', q1, q2⟩
  have hfc : ∀ y, OwnCell p f.1 (a + f.2) y → OwnCell p t a y := by
    rintro y ⟨o1, o2⟩
    exact ⟨by omega, by omega⟩
  refine ⟨fun y => ∃ k', (field k').isSome ∧ (if k = k' then Ok' y else Os k' y),
    .obj t a field (objSet fs k x') (fun k' y => if k = k' then Ok' y else Os k' y) _ hl ⟨h2.1, Nat.le_trans h2.2 hb.grow⟩ ?_ ?_ ?_ ?_ (fun y => Iff.rfl), ?_, ?_, hb.grow⟩
  · intro k'
    rw [hget]
    split
    · rename_i c; subst c; simp [hfk]
    · exact h3 k'
  · intro k' v f' hv hf'
    rw [hget] at hv
    by_cases c : k = k'
    · subst c
      simp only [if_true, Option.some.injEq] at hv ⊢
      subst hv
      rw [hf] at hf'
      cases hf'
      exact hb.rep
    · simp only [c, if_false] at hv ⊢
      have hfk' : (field k').isSome := by rw [hf']; rfl
      have hap := hL.apart t field k k' f f' hl hf hf' c
      have hin' := hL.inside t field k' f' hl hf'
      refine (h4 k' v f' hv hf').kept hL hb.grow fun y hy hc => ?_
      rcases hc with hc | hc
      · refine hb.same y hy (fun q => ?_) (fun q => h5 k y hfk q ⟨by have := hc.1; omega, by have := hc.2; omega⟩)
        have := hc.1; have := hc.2; have := q.1; have := q.2
        omega
      · exact hb.same y hy (fun q => h5 k' y hfk' hc (hfc y q)) (fun q => c (h6 k k' y hfk hfk' q hc))
  · intro k' y hk' hy
    by_cases c : k = k'
    · subst c
      simp only [if_true] at hy
      rcases hOk y hy with q | q
      · rintro ⟨o1, o2⟩
        have := h2.2
        omega
      · exact h5 k y hk' q
    · simp only [c, if_false] at hy
      exact h5 k' y hk' hy
  · intro k' k'' y hk' hk'' hy hy'
    by_cases c : k = k' <;> by_cases c' : k = k'' <;> simp only [c, c', if_true, if_false] at hy hy'
    · exact c.symm.trans c'
    · subst c
      rcases hOk y hy with q | q
      · have := (r2 y (hO k'' y hk'' (by simpa [c'] using hy'))).1
        omega
      · exact absurd (h6 k k'' y hk' hk'' q (by simpa [c'] using hy')) c'
    · subst c'
      rcases hOk y hy' with q | q
      · have := (r2 y (hO k' y hk' (by simpa [c] using hy))).1
        omega
      · exact absurd (h6 k k' y hk'' hk' q (by simpa [c] using hy)) c
    · exact h6 k' k'' y hk' hk'' hy hy'
  · intro y hy q1 q2
    exact hb.same y hy (fun c => q1 (hfc y c)) (fun c => q2 (hO k y hfk c))
  · rintro y hy ⟨k', q1, q2⟩
    by_cases c : k = k'
    · subst c
      simp only [if_true] at q2
      exact hO k y q1 (hb.mine y hy q2)
    · simp only [c, if_false] at q2
      exact hO k' y q1 q2

end Reflect.Json

f='/verif/lean/Verif/Lemmas/Json/Place.lean'
s=open(f).read()
a=s.index("theorem map_set"); b=s.index("/-! ### from one value to another")
t=s[a:b]
t=t.replace("""  obtain ⟨m1, m2, m3, m4⟩ := write_inside (k := keyCells p N k) (a := r) hm1 ⟨dr, n1, n2, n3⟩ hn2 (fun y q1 q2 q3 => hs2 y q1 (fun c => by
    have := c.1; have := c.2; omega) (fun c => (hb1 y c).2.2 q2))
""","""  have hGO : ∀ y, G y → (Assoc.get m k).isSome ∧ Os k y := by
    intro y hy
    obtain ⟨e', n, z1, z2, z3, z4⟩ := hG y hy
    obtain ⟨s4, s5⟩ := hL.ptr e e' n z1
    have hlr := lookup_valueAt hm1.keys hv1
    rw [hlk0] at hlr
    cases hk : Assoc.get m k with
    | none =>
      have hn : h.lookup K a (keyCells p N k) = none := by
        cases hq : h.lookup K a (keyCells p N k) with
        | none => rfl
        | some q =>
          obtain ⟨z, ⟨d', hd', -, z2⟩, -⟩ := valueAt_of_lookup hq
          obtain ⟨k', w1, w2⟩ := g4 d' hd'
          have := hL.strings k' k (by rw [← w2, z2])
          rw [this, hk] at w1; cases w1
      rw [hn] at hlr
      have hz : ∀ j < K.val, h1.mem (r + j) = 0 := by
        intro j hj
        have := congrArg (fun l => l[j]?) (Option.some.inj hlr)
        simpa [Heap.cells, hj, z2] using this.symm
      rcases z3 with c | ⟨c1, c2⟩
      · exact absurd (by simpa using hz 0 (by omega)) c
      · exact absurd (hz 1 (by omega)) c2
    | some x0 =>
      refine ⟨rfl, ?_⟩
      have v0 := g5 k (by rw [hk]; rfl)
      rw [lookup_valueAt g2.keys v0] at hlr
      have l2 := cells_eq_iff.1 (Option.some.inj hlr)
      obtain ⟨da, w1, w2, w3⟩ := hva _ _ v0
      obtain ⟨db, w4, w5, w6⟩ := hv1
      have hdd : da = db := nodup_map_inj hm1.keys w1 w4 (by rw [w3, w6])
      have hbr : B k = r := by omega
      rw [hbr] at l2
      have w := g6 k x0 hk
      rw [hbr] at w
      have c0 : h1.mem r = h.mem r := by simpa using (l2 0 (by omega)).symm
      have c1 : n = 2 → h1.mem (r + 1) = h.mem (r + 1) := fun hn => (l2 1 (by omega)).symm
      cases w with
      | scalar _ _ _ _ _ _ u1 => rw [z1] at u1; cases u1
      | list _ _ _ _ _ _ u1 => rw [z1] at u1; cases u1
      | map _ _ _ _ _ _ _ _ u1 => rw [z1] at u1; cases u1
      | obj _ _ _ _ _ _ u1 => rw [z1] at u1; cases u1
      | null _ _ _ _ _ u1 u2 u3 u4 =>
        rw [z1] at u1; cases u1
        rcases z3 with c | ⟨c, c'⟩
        · exact absurd (c0.trans u3) c
        · exact absurd ((c1 c).trans (u4 c)) c'
      | ptr _ _ _ _ _ _ _ u1 u2 u3 u4 u5 u6 u7 u8 =>
        rw [z1] at u1; cases u1
        refine (u8 y).2 (Or.inl ?_)
        rcases z4 with c | ⟨c, c'⟩
        · exact Or.inl (by rw [← c0]; exact c)
        · exact Or.inr ⟨c, by rw [← c1 c]; exact c'⟩
  have hGm : ∀ y, G y → O y ∧ y < h.next ∧ ¬ h.InMap K a y ∧ ¬ h1.InMap K a y := by
    intro y hy
    obtain ⟨z1, z2⟩ := hGO y hy
    have q := (g9 y).2 (Or.inr ⟨k, z1, z2⟩)
    have q1 := (r2 y q).1
    have q2 := g7 k y z1 z2
    exact ⟨q, q1, q2, fun c => q2 (hmine y q1 c)⟩
  obtain ⟨dr, n1, n2, n3⟩ := hv1
  have hr1 : ∀ y, OwnCell p e r y → h1.InMap K a y := by
    rintro y ⟨o1, o2⟩
    exact Or.inr (Or.inr ⟨dr, n1, by omega, by omega⟩)
  obtain ⟨m1, m2, m3, m4⟩ := write_inside (k := keyCells p N k) (a := r) hm1 ⟨dr, n1, n2, n3⟩ hn2 (fun y q1 q2 q3 => hs2 y q1 (fun c => by
    have := c.1; have := c.2; omega) (fun c => (hb1 y c).2.2 q2) (fun c => (hGm y c).2.2.2 q2))
""")
t=t.replace("""  obtain ⟨dr, n1, n2, n3⟩ := hv1
  have hr1 : ∀ y, OwnCell p e r y → h1.InMap K a y := by
    rintro y ⟨o1, o2⟩
    exact Or.inr (Or.inr ⟨dr, n1, by omega, by omega⟩)
  have hGO""","  have hGO")
# hOs
t=t.replace("""(Assoc.get m k').isSome → Os k' y → O y ∧ y < h.next ∧ ¬ h.InMap K a y ∧ h2.mem y = h.mem y ∧ ¬ h2.InMap K a y := by
    intro k' y hk' hy""","""(Assoc.get m k').isSome → k ≠ k' → Os k' y → O y ∧ y < h.next ∧ ¬ h.InMap K a y ∧ h2.mem y = h.mem y ∧ ¬ h2.InMap K a y := by
    intro k' y hk' hne hy""")
t=t.replace("(fun c => (hd2 y c).1 q), hs1 y q1 q2]","(fun c => (hd2 y c).1 q) (fun c => hne (g8 k k' y (hGO y c).1 hk' (hGO y c).2 hy)), hs1 y q1 q2]")
t=t.replace("(x2 y hy).2, hs1 y q1 q2]","(x2 y hy).2 (fun c => (hd1 y hy).1 (hGm y c).1), hs1 y q1 q2]")
t=t.replace("(hOs k' y hsk hy)","(hOs k' y hsk c hy)")
t=t.replace("(Or.inr (Or.inr ⟨d', u1, by omega, by omega⟩))),\n        l2","(Or.inr (Or.inr ⟨d', u1, by omega, by omega⟩)))\n        (fun z => (hGm _ z).2.2.2 (Or.inr (Or.inr ⟨d', u1, by omega, by omega⟩))), l2")
t=t.replace("(hOs k' y (hsome k' hk' c) ","(hOs k' y (hsome k' hk' c) c ").replace("(hOs k'' y (hsome k'' hk'' c') ","(hOs k'' y (hsome k'' hk'' c') c' ")
t=t.replace("(hmine y hy (hr1 y c))) q3, hs1","(hmine y hy (hr1 y c))) q3 (fun c => q2 (hGm y c).1), hs1")
s=s[:a]+'''theorem nodup_map_inj {α β : Type} {f : α → β} : ∀ {l : List α}, (l.map f).Nodup → ∀ {x y : α}, x ∈ l → y ∈ l → f x = f y → x = y
  | [], _, _, _, hx, _, _ => by cases hx
  | z :: l, hn, x, y, hx, hy, he => by
    simp only [List.map_cons, List.nodup_cons, List.mem_map, not_exists, not_and] at hn
    rcases List.mem_cons.1 hx with rfl | hx' <;> rcases List.mem_cons.1 hy with rfl | hy'
    · rfl
    · exact absurd he.symm (hn.1 y hy')
    · exact absurd he (hn.1 x hx')
    · exact nodup_map_inj hn.2 hx' hy' he

'''+t+s[b:]
open(f,'w').write(s)

f='/verif/lean/Verif/Props/JsonPlace.lean'
s=open(f).read()
s=s.replace("              obtain ⟨copy, hA⟩ := lm.assign\n              have hgiven : given p t m = m.rvalue := by unfold given; rw [if_pos l2.moves.movable]\n              have him","              have hgiven : given p t m = m.rvalue := by unfold given; rw [if_pos l2.moves.movable]\n              have him")
a=s.index("              obtain ⟨h4, d1, d2, d3, d4⟩ := C71_move_value p (F + 1) h3 ref m.rvalue t copy")
b=s.index("              refine ⟨h4, ?_, O3, hb.trans")
s=s[:a]+"""              have hrok : h3.Ok ref.addr (p.size t) := by
                obtain ⟨dr, n1, n2, -⟩ := c4
                have := (c3.node dr n1).1
                exact ⟨by have := this.1; omega, by have := this.2; omega⟩
              have hrap : m.addr + p.size t ≤ ref.addr ∨ ref.addr + p.size t ≤ m.addr := by
                rcases Nat.eq_zero_or_pos (p.size t) with z | z
                · omega
                · exact overlap (fun y z1 z2 z3 z4 => hout y ⟨z1, z2⟩ (c9.mine y (by have := hx.2; omega) (hrin y ⟨z3, z4⟩))) z z
              have hgo : ∀ y, LetsGo L h3 t ref.addr y → ∃ e' n, L t = .ptr e' n ∧ (∀ j, K.init j = 0) ∧
                  (h3.mem ref.addr ≠ 0 ∨ (n = 2 ∧ h3.mem (ref.addr + 1) ≠ 0)) ∧ Heap.Keeps h3 n ref.addr y := by
                rintro y ⟨e', n', z1, z2, z3⟩
                refine ⟨e', n', z1, ?_, z2, z3⟩
                rcases lm with lm | ⟨_, _, _, _, lm⟩
                · exact absurd z1 (lm' lm e' n')
                · exact lm
              obtain ⟨g1, g2⟩ := map_letsgo hL l1 a1.rep c3 c4 c5 c8 c9.mine hgo
              obtain ⟨h4, d1, d2, d3, d4⟩ := value_moved hL l2.moves (lm.imp id fun ⟨e', n', raw', z, _⟩ => ⟨e', n', raw', z⟩) (F + 1) h3 ref m c2 w2 hrok
                ⟨hx.1, Nat.le_trans hx.2 c9.grow⟩ hrap (fun y hy hc => g2 y hy (hrin y hc))
              obtain ⟨O3, p1, p2, p3⟩ := map_set (h1 := h3) (h2 := h4) (k := k) (r := ref.addr) (G := LetsGo L h3 t ref.addr) hL l1 a1.rep e2.rep
                (fun y hy => ⟨(a2 y hy).1, (a2 y hy).2.1⟩) a3
                c3 c4 c5 c6 c8 (fun y z1 z2 => c9.same y z1 z2 (by rintro ⟨arg, a, z1, z2, -⟩; cases z2; exact absurd rfl z1)) c9.grow c9.mine
                d2 d3 hgo d4
"""+s[b:]
open(f,'w').write(s)

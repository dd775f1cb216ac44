f='/verif/lean/Verif/Props/JsonPlacePrint.lean'
s=open(f).read()
i=s.rindex("end\n\nend Reflect.Json")
s=s[:i]+'''theorem get_size {m : List (Bytes × JV)} {k : Bytes} {x : JV} (h : Assoc.get m k = some x) : sizeOf x < sizeOf m := by
  induction m with
  | nil => cases h
  | cons q m ih =>
    obtain ⟨a, b⟩ := q
    simp only [Assoc.get] at h
    split at h
    · cases h; simp; omega
    · have := ih h; simp; omega

/-- `isEmpty` -/
theorem isEmptyP_spec (hB : BackedW p N L env T) (hcl : env.Closed T) {c : WCache} (hc : GoodW env c) (F : Nat) :
    ∀ (E : Nat) (ty : Ty), T ty → (Assoc.get c ty).isSome → ∀ (o : Handle) (hp : Heap) (v : JV), o.arg.type = ty → o.arg.ref = .lvalue →
      Shows p N.toNative L env.orderOf hp ty o.addr v → sizeOf v < E →
      WSim (Ext hp) (isEmptyP p N c (F + 2) E ty o hp) (isEmptyV env c v ty)
  | 0, _, _, _, _, _, _, _, _, _, h => by omega
  | E + 1, ty, hT, hs, o, hp, v, ho, hol, hv, hE => by
    obtain ⟨d, sh, hd⟩ := hcl.kind ty hT
    obtain ⟨st, g1, g2, g3, g4⟩ := goodW_get hc hd hs
    rw [isEmpty_eq hc hd hs]
    unfold isEmptyP
    simp only [g1]
    cases sh with
    | void => cases g2
    | bool => injection g2 with g2; rw [← g2]; exact ⟨hp, rfl, ext_refl _⟩
    | object => injection g2 with g2; rw [← g2]; exact ⟨hp, rfl, ext_refl _⟩
    | int =>
      injection g2 with g2; rw [← g2]
      simp only
      obtain ⟨x, rfl, x1⟩ := scalar_read (hB.int ty d hT hd) hd (F + 1) hp o ho hol hv
      simp only
      cases hx : env.exact ty with
      | true =>
        rw [hx] at x1
        obtain ⟨-, cs, e1, e2⟩ := x1
        show WSim _ (Except.bind _ _) _
        rw [e1]
        simp only [Except.bind, e2, if_true]
        exact ⟨hp, rfl, ext_refl _⟩
      | false =>
        rw [hx] at x1
        show WSim _ (Except.bind _ _) _
        rw [x1.2]
        rfl
    | float =>
      injection g2 with g2; rw [← g2]
      simp only
      obtain ⟨x, rfl, x1⟩ := scalar_read (hB.float ty d hT hd) hd (F + 1) hp o ho hol hv
      simp only
      cases hx : env.exact ty with
      | true =>
        rw [hx] at x1
        obtain ⟨-, cs, e1, e2⟩ := x1
        show WSim _ (Except.bind _ _) _
        rw [e1]
        simp only [Except.bind, e2, if_true]
        exact ⟨hp, rfl, ext_refl _⟩
      | false =>
        rw [hx] at x1
        show WSim _ (Except.bind _ _) _
        rw [x1.2]
        rfl
    | string =>
      injection g2 with g2; rw [← g2]
      simp only
      obtain ⟨b1, b2⟩ := hB.string ty d hT hd
      obtain ⟨x, rfl, -⟩ := scalar_read b1 hd (F + 1) hp o ho hol hv
      obtain ⟨cells, l1, -⟩ := b1.form
      obtain ⟨hp', e1, e2⟩ := size_read b2 l1 (F + 1) hp o ho hv
      simp only
      show WSim _ (Except.bind _ _) _
      rw [e1]
      simp only [Except.bind]
      refine ⟨hp', ?_, e2⟩
      cases x <;> rfl
    | list t =>
      injection g2 with g2; rw [← g2]
      simp only
      obtain ⟨l1, grow, init, V⟩ := hB.list ty d t hT hd
      cases hv with
      | scalar _ _ _ _ _ h1 => rw [l1] at h1; cases h1
      | map _ _ _ _ _ h1 => rw [l1] at h1; cases h1
      | obj _ _ _ _ h1 => rw [l1] at h1; cases h1
      | null _ _ _ _ h1 => rw [l1] at h1; cases h1
      | ptr _ _ _ _ _ h1 => rw [l1] at h1; cases h1
      | list _ _ e vs h1 h2 h3 h4 =>
      rw [l1] at h1; cases h1
      obtain ⟨hp', e1, e2⟩ := vec_size_read V (F + 1) hp o ho h2
      show WSim _ (Except.bind _ _) _
      rw [e1]
      simp only [Except.bind]
      refine ⟨hp', ?_, e2⟩
      rw [h3]
      cases vs <;> rfl
    | map t =>
      injection g2 with g2; rw [← g2]
      simp only
      obtain ⟨K, l1, V, -, -⟩ := hB.map ty d t hT hd
      cases hv with
      | scalar _ _ _ _ _ h1 => rw [l1] at h1; cases h1
      | list _ _ _ _ h1 => rw [l1] at h1; cases h1
      | obj _ _ _ _ h1 => rw [l1] at h1; cases h1
      | null _ _ _ _ h1 => rw [l1] at h1; cases h1
      | ptr _ _ _ _ _ h1 => rw [l1] at h1; cases h1
      | map _ _ e _ m h1 h2 h3 h4 h5 h6 =>
      rw [l1] at h1; cases h1
      obtain ⟨hp', a, e1, e2, -, -, e3, e4⟩ := C86_size V (F + 1) hp o ho h2
      have e5 : (hp.entries K o.addr).length = m.length := by
        have := congrArg List.length (entries_keys hp K o.addr)
        rw [h5] at this
        simp only [List.length_map] at this
        rw [this, h4.length_eq, List.length_map]
      show WSim _ (Except.bind _ _) _
      unfold callSize
      rw [e1]
      simp only [Except.bind]
      refine ⟨hp', ?_, ⟨e3, e4⟩⟩
      rw [e2, e5]
      cases m <;> rfl
    | ptr t =>
      injection g2 with g2; rw [← g2]
      simp only
      obtain ⟨i1, i2⟩ := g3 t (Or.inl rfl)
      obtain ⟨n, l1, P⟩ := hB.ptr ty d t hT hd
      have hsz := hB.sound.ptr ty t n l1
      cases hv with
      | scalar _ _ _ _ _ h1 => rw [l1] at h1; cases h1
      | list _ _ _ _ h1 => rw [l1] at h1; cases h1
      | map _ _ _ _ _ h1 => rw [l1] at h1; cases h1
      | obj _ _ _ _ h1 => rw [l1] at h1; cases h1
      | null _ _ e n' h1 h2 h3 =>
        rw [l1] at h1; cases h1
        obtain ⟨hp', e1, e2⟩ := bool_read P F hp o ho hol ⟨h2.1, by have := h2.2; omega⟩
        show WSim _ (Except.bind _ _) _
        rw [e1]
        simp only [Except.bind, h3]
        exact ⟨hp', rfl, e2⟩
      | ptr _ _ e n' x h1 h2 h3 h4 =>
        rw [l1] at h1; cases h1
        have hok : hp.Ok o.addr n := ⟨h2.1, by have := h2.2; omega⟩
        obtain ⟨hp', e1, e2⟩ := bool_read P F hp o ho hol hok
        have e3 : hp'.mem o.addr = hp.mem o.addr := e2.same _ (by have := h2.2; omega)
        obtain ⟨ic, d1⟩ := deref_read P (F + 1) hp' o ho (ok_ext e2 hok) (by rw [e3]; exact h3)
        show WSim _ (Except.bind _ _) _
        rw [e1]
        simp only [Except.bind, h3]
        show WSim _ (Except.bind _ _) _
        rw [d1]
        simp only [Except.bind, i1]
        rw [e3]
        exact (isEmptyP_spec hB hcl hc F E t (hcl.ptr ty d t hT hd) i2 _ hp' x rfl rfl (h4.ext hB.sound e2) (by simp at hE; omega)).mono
          fun s hs => ext_trans e2 hs

'''+s[i:]
open(f,'w').write(s)

f='/verif/lean/Verif/Props/JsonPlacePrint.lean'
s=open(f).read()
s=s.replace("""        simp only [Except.bind, h3]
        show WSim _ (Except.bind _ _) _
        rw [d1]
""","""        simp only [Except.bind]
        rw [if_pos (by simpa using h3)]
        show WSim _ (Except.bind _ _) _
        rw [d1]
""")
i=s.rindex("end\n\nend Reflect.Json")
s=s[:i]+'''/-- the scalars -/
theorem scalar_print {α : Type} {nat ty : Ty} {d : TyD} {f : α → JV} {dec : List Nat → α} (hS : ScalarTo p L nat ty d f dec)
    {sh : Shape} (hd : env.Has ty d sh) (fuel : Nat) (hp : Heap) (o : Handle) (ho : o.arg.type = ty) (hol : o.arg.ref = .lvalue) {v : JV}
    {M : Native} (hr : Shows p M L order hp ty o.addr v) :
    ∃ x, v = f x ∧ ∀ (g : α → Res Writer), WSim (Ext hp)
      (do let q ← castCopy p nat (fuel + 1) hp o
          let w' ← g (dec q.2)
          .ok (q.1, w')) (if env.exact ty then g x else .error .err) := by
  obtain ⟨x, rfl, x1⟩ := scalar_read hS hd fuel hp o ho hol hr
  refine ⟨x, rfl, fun g => ?_⟩
  cases hx : env.exact ty with
  | true =>
    rw [hx] at x1
    obtain ⟨⟨hp', cs, e1, e2, e3⟩, -⟩ := x1
    show WSim _ (Except.bind _ _) _
    rw [e1]
    simp only [Except.bind, e2, if_true]
    show WSim _ (Except.bind _ _) _
    cases g x with
    | error e => rfl
    | ok w => exact ⟨hp', rfl, e3⟩
  | false =>
    rw [hx] at x1
    show WSim _ (Except.bind _ _) _
    rw [x1.1]
    rfl

/-- The printer of an object in memory does what the printer of its value does. -/
theorem printP_spec (hB : BackedW p N L env T) (hcl : env.Closed T) {c : WCache} (hc : GoodW env c) (other : OtherW) (F E : Nat) :
    ∀ (n : Nat) (ty : Ty), T ty → (Assoc.get c ty).isSome → ∀ (o : Handle) (hp : Heap) (w : Writer) (v : JV), o.arg.type = ty → o.arg.ref = .lvalue →
      Shows p N.toNative L env.orderOf hp ty o.addr v → sizeOf v < E →
      WSim (Ext hp) (printP p N other env c (F + 2) E n ty o hp w) (printV env c n ty v w)
  | 0, _, _, _, _, _, _, _, _, _, _, _ => rfl
  | n + 1, ty, hT, hs, o, hp, w, v, ho, hol, hv, hE => by
    have hL := hB.sound
    obtain ⟨d, sh, hd⟩ := hcl.kind ty hT
    obtain ⟨st, g1, g2, g3, g4⟩ := goodW_get hc hd hs
    unfold printP printV
    simp only [g1]
    cases sh with
    | void => cases g2
    | bool =>
      injection g2 with g2; rw [← g2]
      simp only
      obtain ⟨x, rfl, x1⟩ := scalar_print (hB.bool ty d hT hd) hd (F + 1) hp o ho hol hv
      exact x1 fun x => .ok (formatBool w x)
    | int =>
      injection g2 with g2; rw [← g2]
      simp only
      obtain ⟨x, rfl, x1⟩ := scalar_print (hB.int ty d hT hd) hd (F + 1) hp o ho hol hv
      exact x1 fun x => .ok (formatInt w x)
    | float =>
      injection g2 with g2; rw [← g2]
      simp only
      obtain ⟨x, rfl, x1⟩ := scalar_print (hB.float ty d hT hd) hd (F + 1) hp o ho hol hv
      exact x1 fun x => .ok (w.push (env.fmtG x))
    | string =>
      injection g2 with g2; rw [← g2]
      simp only
      obtain ⟨x, rfl, x1⟩ := scalar_print (hB.string ty d hT hd).1 hd (F + 1) hp o ho hol hv
      exact x1 fun x => formatString w x
    | ptr t =>
      injection g2 with g2; rw [← g2]
      simp only
      obtain ⟨i1, i2⟩ := g3 t (Or.inl rfl)
      obtain ⟨n', l1, P⟩ := hB.ptr ty d t hT hd
      have hsz := hL.ptr ty t n' l1
      cases hv with
      | scalar _ _ _ _ _ h1 => rw [l1] at h1; cases h1
      | list _ _ _ _ h1 => rw [l1] at h1; cases h1
      | map _ _ _ _ _ h1 => rw [l1] at h1; cases h1
      | obj _ _ _ _ h1 => rw [l1] at h1; cases h1
      | null _ _ e _ h1 h2 h3 =>
        rw [l1] at h1; cases h1
        obtain ⟨hp', e1, e2⟩ := bool_read P F hp o ho hol ⟨h2.1, by have := h2.2; omega⟩
        show WSim _ (Except.bind _ _) _
        rw [e1]
        simp only [Except.bind, h3]
        exact ⟨hp', rfl, e2⟩
      | ptr _ _ e _ x h1 h2 h3 h4 =>
        rw [l1] at h1; cases h1
        have hok : hp.Ok o.addr n' := ⟨h2.1, by have := h2.2; omega⟩
        obtain ⟨hp', e1, e2⟩ := bool_read P F hp o ho hol hok
        have e3 : hp'.mem o.addr = hp.mem o.addr := e2.same _ (by have := h2.2; omega)
        obtain ⟨ic, d1⟩ := deref_read P (F + 1) hp' o ho (ok_ext e2 hok) (by rw [e3]; exact h3)
        show WSim _ (Except.bind _ _) _
        rw [e1]
        simp only [Except.bind]
        rw [if_pos (by simpa using h3)]
        show WSim _ (Except.bind _ _) _
        rw [d1]
        simp only [Except.bind, i1]
        rw [e3]
        exact (printP_spec hB hcl hc other F E n t (hcl.ptr ty d t hT hd) i2 _ hp' w x rfl rfl (h4.ext hL e2) (by simp at hE; omega)).mono
          fun s hs => ext_trans e2 hs
    | list t =>
      injection g2 with g2; rw [← g2]
      simp only
      obtain ⟨i1, i2⟩ := g3 t (Or.inr (Or.inl rfl))
      obtain ⟨l1, grow, init, V⟩ := hB.list ty d t hT hd
      have hs1 := hL.list ty t l1
      cases hv with
      | scalar _ _ _ _ _ h1 => rw [l1] at h1; cases h1
      | map _ _ _ _ _ h1 => rw [l1] at h1; cases h1
      | obj _ _ _ _ h1 => rw [l1] at h1; cases h1
      | null _ _ _ _ h1 => rw [l1] at h1; cases h1
      | ptr _ _ _ _ _ h1 => rw [l1] at h1; cases h1
      | list _ _ e vs h1 h2 h3 h4 =>
      rw [l1] at h1; cases h1
      obtain ⟨hp', e1, e2⟩ := vec_size_read V (F + 1) hp o ho h2
      show WSim _ (Except.bind _ _) _
      rw [e1]
      simp only [Except.bind, i1]
      rw [h3]
      refine printArrayM_sim (I := Ext hp) vs (fun j x hj s w' hs => ?_) hp' w e2
      obtain ⟨v1, -, -⟩ := vec_kept h2 hs.grow fun y hy _ => hs.same y hy
      have ob := h2.obj.2
      have hlt : j < vs.length := by
        rcases Nat.lt_or_ge j vs.length with h | h
        · exact h
        · rw [List.getElem?_eq_none h] at hj; cases hj
      have m0 : s.mem o.addr = hp.mem o.addr := hs.same _ (by omega)
      have m1 : s.mem (o.addr + 1) = vs.length := by rw [hs.same _ (by omega), h3]
      obtain ⟨h5, own, r1, r2⟩ := at_read V F s o ho v1 j (by rw [m1]; exact hlt)
      show WSim _ (Except.bind _ _) _
      rw [r1]
      simp only [Except.bind]
      rw [m0]
      exact (printP_spec hB hcl hc other F E n t (hcl.list ty d t hT hd) i2 _ h5 w' x rfl rfl ((h4 j x hj).ext hL (ext_trans hs r2))
        (by have := List.sizeOf_lt_of_mem (List.mem_of_getElem? hj); simp at hE; omega)).mono fun s' hs' => ext_trans (ext_trans hs r2) hs'
    | map t =>
      injection g2 with g2; rw [← g2]
      simp only
      obtain ⟨i1, i2⟩ := g3 t (Or.inr (Or.inr rfl))
      obtain ⟨K, l1, V, k1, k2⟩ := hB.map ty d t hT hd
      cases hv with
      | scalar _ _ _ _ _ h1 => rw [l1] at h1; cases h1
      | list _ _ _ _ h1 => rw [l1] at h1; cases h1
      | obj _ _ _ _ h1 => rw [l1] at h1; cases h1
      | null _ _ _ _ h1 => rw [l1] at h1; cases h1
      | ptr _ _ _ _ _ h1 => rw [l1] at h1; cases h1
      | map _ _ e _ m h1 h2 h3 h4 h5 h6 =>
      rw [l1] at h1; cases h1
      obtain ⟨h0, ks, e1, e2, e3, e4⟩ := keys_read V k1 k2 (F + 1) hp o ho h2
      have hK := V.sizes.1
      show WSim _ (Except.bind _ _) _
      rw [e1]
      simp only [Except.bind, i1]
      rw [entries_keys, h5] at e3
      have e5 : ks.map (fun a => N.toStr (h0.cells a K.key)) = env.orderOf ty (m.map (·.1)) := by
        have := congrArg (List.map N.toStr) e3
        rw [List.map_map, List.map_map] at this
        rw [show (fun a => N.toStr (h0.cells a K.key)) = N.toStr ∘ (fun a => h0.cells a K.key) from rfl, this]
        rw [List.map_congr_left (g := id) (fun k _ => hB.keys k), List.map_id]
      have e6 : (match env.types[ty]? with | none => id | some d => d.order) (m.map (·.1)) = env.orderOf ty (m.map (·.1)) := by
        unfold Env.orderOf; cases env.types[ty]? <;> rfl
      rw [e6, ← e5]
      have hcells : ∀ s, Ext h0 s → ∀ a ∈ ks, s.cells a K.key = h0.cells a K.key := fun s hs a ha =>
        cells_congr fun j hj => hs.same _ (by have := (e4 a ha).2; omega)
      refine WSim.mono (printObjectM_sim (I := Ext h0) ks (key := fun a => N.toStr (h0.cells a K.key)) ?_ ?_ ?_ h0 w (ext_refl _))
        fun s hs => ext_trans e2 hs
      · intro a ha s hs
        show N.toStr (s.cells a (p.size N.stringT)) = _
        rw [← hK, hcells s hs a ha]
      · intro a ha s w' hs
        have hin : N.toStr (h0.cells a K.key) ∈ env.orderOf ty (m.map (·.1)) := by rw [← e5]; exact List.mem_map.2 ⟨a, ha, rfl⟩
        have hkc : h0.cells a K.key = keyCells p N.toNative (N.toStr (h0.cells a K.key)) := by
          have : h0.cells a K.key ∈ (env.orderOf ty (m.map (·.1))).map (keyCells p N.toNative) := by rw [← e3]; exact List.mem_map.2 ⟨a, ha, rfl⟩
          obtain ⟨k, -, hk⟩ := List.mem_map.1 this
          rw [← hk, hB.keys]
        generalize N.toStr (h0.cells a K.key) = k at hin hkc
        obtain ⟨x, hx⟩ := get_of_mem_keys (h4.mem_iff.1 hin)
        have x1 : Ext hp s := ext_trans e2 hs
        obtain ⟨w1, -, -, -, w5⟩ := map_kept h2 x1.grow fun y hy _ => x1.same y hy
        have hmem : keyCells p N.toNative k ∈ (hp.nodes o.addr).map (fun d => hp.cells d K.key) := by
          rw [h5]; exact List.mem_map.2 ⟨k, hin, rfl⟩
        obtain ⟨b, b1, b2⟩ := List.mem_map.1 hmem
        have hva : hp.ValueAt K o.addr (keyCells p N.toNative k) (b + K.key) := ⟨b, b1, rfl, b2⟩
        obtain ⟨h6', own, b', r1, r2, r3⟩ := map_at_read V (F + 1) s o ho w1 a (b + K.key) (ok_ext hs (e4 a ha))
          (by rw [hcells s hs a ha, hkc]; exact (w5 _ _).2 hva)
        rw [hcells s hs a ha, hkc] at r2
        rw [hx]
        show WSim _ (Except.bind _ _) _
        rw [r1]
        simp only [Except.bind]
        exact (printP_spec hB hcl hc other F E n t (hcl.map ty d t hT hd) i2 _ h6' w' x rfl rfl
          ((h6 k x b' hx ((w5 _ _).1 r2)).ext hL (ext_trans x1 r3))
          (by have := get_size hx; simp at hE; omega)).mono fun s' hs' => ext_trans (ext_trans hs r3) hs'
      · intro a ha s hs
        exact ⟨s, rfl, hs⟩
    | object =>
      injection g2 with g2; rw [← g2]
      simp only
      obtain ⟨field, l1, lf⟩ := hB.object ty d hT hd
      obtain ⟨k1, k2, -⟩ := g4 rfl
      cases hv with
      | scalar _ _ _ _ _ h1 => rw [l1] at h1; cases h1
      | list _ _ _ _ h1 => rw [l1] at h1; cases h1
      | map _ _ _ _ _ h1 => rw [l1] at h1; cases h1
      | null _ _ _ _ h1 => rw [l1] at h1; cases h1
      | ptr _ _ _ _ _ h1 => rw [l1] at h1; cases h1
      | obj _ _ _ fs h1 h2 h3 h4 =>
      rw [l1] at h1; cases h1
      simp only
      have hkey : ∀ a ∈ st.sortedKeys, ∃ f x fd, Assoc.get st.keys a = some f.name ∧ Assoc.get st.fields f.name = some f.type ∧
          (Assoc.get c f.type).isSome ∧ T f.type ∧ Assoc.get fs f.name = some x ∧ p.w.fieldF p.w.fuel ty (nameOf f.name) = .ok fd ∧
          fd.arg.type = f.type ∧ Shows p N.toNative L env.orderOf hp f.type (o.addr + fd.offset) x := by
        intro a ha
        rw [k1] at ha
        have hmem : a ∈ d.keys := (sortKeys_perm _).mem_iff.mp ha
        obtain ⟨f, q1, q2⟩ := List.mem_filterMap.mp hmem
        obtain ⟨f, hl⟩ := last_exists d.fields f q1 q2
        obtain ⟨j1, j2, j3⟩ := k2 a f hl
        have hf : f ∈ d.fields ∧ f.key = some a := last_in hl
        have hnn : f.key ≠ none := by rw [hf.2]; simp
        obtain ⟨fd, r1, r2, r3⟩ := lf f hf.1 hnn
        obtain ⟨x, hx⟩ := h3 _ _ r1
        exact ⟨f, x, fd, j1, j2, j3, hcl.field ty d f hT hd hf.1 hnn, hx, r2, r3, h4 _ _ _ hx r1⟩
      have hfld : ∀ (f : FieldD) (fd : Reflect.FieldD), p.w.fieldF p.w.fuel ty (nameOf f.name) = .ok fd →
          o.field p (nameOf f.name) = .ok ⟨⟨fd.arg.type, .lvalue, fd.arg.isConst || o.arg.isConst⟩, o.addr + fd.offset, none⟩ := by
        intro f fd h
        unfold Handle.field
        rw [ho, h]
      have := printObjectM_sim (I := Ext hp) (key := id) st.sortedKeys
        (name := fun (_ : Heap) (a : Bytes) => a)
        (fn := fun a h w => do
            let f ← (match Assoc.get st.keys a with
              | none => (.error .err : Res (Bytes × TyId))
              | some k =>
                match Assoc.get st.fields k with
                | none => .error .err
                | some t => .ok (k, t))
            let v ← o.field p (nameOf f.1)
            printP p N other env c (F + 2) E n f.2 v h w)
        (skip := fun a h =>
            if !w.opts.compact && !st.skipEmpty.contains a then .ok (h, false)
            else do
              let f ← (match Assoc.get st.keys a with
                | none => (.error .err : Res (Bytes × TyId))
                | some k =>
                  match Assoc.get st.fields k with
                  | none => .error .err
                  | some t => .ok (k, t))
              let v ← o.field p (nameOf f.1)
              isEmptyP p N c (F + 2) E f.2 v h)
        (gn := fun a w => do
              let p ← (match Assoc.get st.keys a with
                | none => (.error .err : Res (TyId × JV))
                | some k =>
                  match Assoc.get st.fields k with
                  | none => .error .err
                  | some t => match Assoc.get fs k with | none => .error .err | some x => .ok (t, x))
              printV env c n p.1 p.2 w)
        (gskip := fun a =>
              if !w.opts.compact && !st.skipEmpty.contains a then .ok false
              else do
                let p ← (match Assoc.get st.keys a with
                  | none => (.error .err : Res (TyId × JV))
                  | some k =>
                    match Assoc.get st.fields k with
                    | none => .error .err
                    | some t => match Assoc.get fs k with | none => .error .err | some x => .ok (t, x))
                isEmptyV env c p.2 p.1)
        (fun _ _ _ _ => rfl) ?_ ?_ hp w (ext_refl _)
      · rw [List.map_id] at this
        exact this
      · intro a ha s w' hs
        obtain ⟨f, x, fd, j1, j2, j3, j4, j5, j6, j7, j8⟩ := hkey a ha
        simp only [id, j1, j2, j5]
        show WSim _ (Except.bind _ _) (Except.bind _ _)
        simp only [Except.bind]
        show WSim _ (Except.bind _ _) _
        rw [hfld f fd j6]
        simp only [Except.bind]
        exact (printP_spec hB hcl hc other F E n f.type j4 j3 _ s w' x j7 rfl (j8.ext hL hs)
          (by have := get_size j5; simp at hE; omega)).mono fun s' hs' => ext_trans hs hs'
      · intro a ha s hs
        obtain ⟨f, x, fd, j1, j2, j3, j4, j5, j6, j7, j8⟩ := hkey a ha
        simp only [id]
        by_cases hsk : (!w.opts.compact && !st.skipEmpty.contains a) = true
        · rw [if_pos hsk, if_pos hsk]; exact ⟨s, rfl, hs⟩
        · rw [if_neg hsk, if_neg hsk]
          simp only [j1, j2, j5]
          show WSim _ (Except.bind _ _) (Except.bind _ _)
          simp only [Except.bind]
          show WSim _ (Except.bind _ _) _
          rw [hfld f fd j6]
          simp only [Except.bind]
          exact (isEmptyP_spec hB hcl hc F E f.type j4 j3 _ s x j7 rfl (j8.ext hL hs)
            (by have := get_size j5; simp at hE; omega)).mono fun s' hs' => ext_trans hs hs'

'''+s[i:]
open(f,'w').write(s)

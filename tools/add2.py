f='/verif/lean/Verif/Props/JsonPlacePrint.lean'
s=open(f).read()
i=s.index("theorem get_size")
s=s[:i]+'''/-- `list.call<size_t>("size")` -/
theorem vec_size_read {ty t sizeT : Ty} {grow : Nat → Nat} {init : Nat → Nat} (V : ReflectedVector p ty ty t sizeT grow init) (fuel : Nat) (hp : Heap)
    (o : Handle) (ho : o.arg.type = ty) (hv : hp.IsVec (p.size t) o.addr) :
    ∃ hp', callSize p sizeT (fuel + 1) hp o = .ok (hp', hp.mem (o.addr + 1)) ∧ Ext hp hp' := by
  obtain ⟨hp', a, e1, e2, -, -, e3, e4⟩ := C85_size V fuel hp o ho hv
  refine ⟨hp', ?_, ⟨e3, e4⟩⟩
  unfold callSize
  rw [e1]
  simp only
  rw [e2, elems_length]

/-- `list.call<Value>("at", i)` -/
theorem at_read {ty t sizeT : Ty} {grow : Nat → Nat} {init : Nat → Nat} (V : ReflectedVector p ty ty t sizeT grow init) (fuel : Nat) (hp : Heap)
    (o : Handle) (ho : o.arg.type = ty) (hv : hp.IsVec (p.size t) o.addr) (i : Nat) (hi : i < hp.mem (o.addr + 1)) :
    ∃ hp' own, callValue p (fuel + 2) (hp.newObj (fun _ => i) (p.size sizeT)).1 o "at".toList
        [.native sizeT.lref (hp.newObj (fun _ => i) (p.size sizeT)).2] = .ok (hp', ⟨t.cref, hp.mem o.addr + p.size t * i, own⟩) ∧ Ext hp hp' := by
  obtain ⟨o1, o2⟩ := hv.obj
  have x1 : Ext hp (hp.newObj (fun _ => i) (p.size sizeT)).1 := newObj_ext _ _ _
  have x2 : (hp.newObj (fun _ => i) (p.size sizeT)).2 = hp.next := rfl
  have x3 : (hp.newObj (fun _ => i) (p.size sizeT)).1.mem hp.next = i := newObj_new hp _ _ 0 (by rw [V.cell]; omega)
  have x4 : (hp.newObj (fun _ => i) (p.size sizeT)).1.next = hp.next + 1 + 1 := by rw [V.cell]; rfl
  generalize hq : hp.newObj (fun _ => i) (p.size sizeT) = q at x1 x2 x3 x4 ⊢
  obtain ⟨h1, b⟩ := q
  simp only at x1 x2 x3 x4 ⊢
  subst x2
  obtain ⟨v1, v2, -⟩ := vec_kept hv x1.grow fun y hy _ => x1.same y hy
  have := C85_at V fuel h1 o ho (.native sizeT.lref hp.next) i
    (by
      have := Hands.kept (p := p) (hp := h1) (sizeT := sizeT) (.native sizeT.lref hp.next) (by rintro _ _ ⟨⟩; rfl)
        ⟨V.index.notValue, child_refl _ _, V.noSizeConverter, by simp [Actual.arg, Ty.lref]⟩
        ⟨by show 0 < hp.next; omega, by show hp.next + 1 ≤ _; omega⟩
      rwa [show h1.mem (Actual.native sizeT.lref hp.next).handle.addr = i from x3] at this)
    v1 (by rintro y ⟨arg, a1, ⟨⟩⟩; exact absurd rfl a1)
  rw [elems_get (by rw [x1.same _ (by omega)]; exact hi)] at this
  simp only at this
  obtain ⟨h2, ⟨ra, rb, rc⟩, r1, r2, -, -, -, r3, r4, r5⟩ := this
  simp only at r2 r5
  subst r2 r5
  refine ⟨h2, rc, ?_, ⟨fun y hy => ?_, Nat.le_trans x1.grow r4⟩⟩
  · unfold callValue
    rw [r1]
    simp only
    rw [x1.same _ (by omega)]
  · rw [r3 y (Nat.lt_of_lt_of_le hy x1.grow) (by rintro ⟨arg, a1, a2⟩; cases a2; exact a1 rfl), x1.same y hy]

/-- `map.call<Value>("at", key)` -/
theorem map_at_read {ty stringT t keysT sizeT : Ty} {K : MapKind} (V : ReflectedMap p ty ty stringT t keysT sizeT K) (fuel : Nat) (hp : Heap)
    (o : Handle) (ho : o.arg.type = ty) (hm : hp.IsMap K o.addr) (a b : Nat) (ha : hp.Ok a K.key) (hb : hp.ValueAt K o.addr (hp.cells a K.key) b) :
    ∃ hp' own b', callValue p (fuel + 1) hp o "at".toList [.native stringT.cref a] = .ok (hp', ⟨t.cref, b', own⟩) ∧
      hp.ValueAt K o.addr (hp.cells a K.key) b' ∧ Ext hp hp' := by
  have := C86_at V fuel hp o ho (.native stringT.cref a)
    (HandsKey.kept _ (by rintro _ _ ⟨⟩; rfl) V.notValue.2.2.1 (child_refl _ _) V.noKeyConverter (by rw [← V.sizes.1]; exact ha)) hm
    (by rintro y ⟨arg, a', a1, ⟨⟩, -⟩; exact absurd rfl a1)
  rw [show (Actual.native stringT.cref a).handle.addr = a from rfl, lookup_valueAt hm.keys hb] at this
  simp only at this
  obtain ⟨h2, ⟨ra, rb, rc⟩, r1, r2, -, -, -, r3, r4, r5⟩ := this
  simp only at r2 r3
  subst r2
  refine ⟨h2, rc, rb, ?_, r3, ⟨fun y hy => r4 y hy (by rintro ⟨arg, a', a1, a2, -⟩; cases a2; exact a1 rfl), r5⟩⟩
  unfold callValue
  rw [r1]

'''+s[i:]
open(f,'w').write(s)

s=open('Verif/Props/JsonPlaceCalls.lean').read()
i=s.index("/-- `cast<bool>(ptr)` -/\ntheorem castBool_spec")
j=s.index("/-- `ptr.call<void>(\"reset\")` -/")
new='''/-- `cast<bool>(ptr)` by way of the converter `f`, which is handed a pointer that holds the same -/
theorem castBool_by {ty boolT : Ty} {n : Nat} (hd : p.w.valueT ≠ p.w.voidT)
    (hB : PlainCopy p boolT ∧ p.size boolT = 1 ∧ p.w.env.conv boolT boolT = false) (hid : (p.w.ty boolT).id = "bool".toList)
    (hconv : p.w.env.conv ty boolT = true) (hchild : p.w.env.child ty boolT = false) (fuel : Nat) (hp : Heap) (o : Handle)
    (hty : o.arg.type = ty) {f : Fn} {u : Arg} (g1 : p.w.functionF p.w.fuel ty "operator bool()".toList = .ok [f]) (g2 : f.args = [u])
    (g3 : f.ret = boolT.val) (g4 : ∀ hp a k, p.impl f.body hp [.obj a k] = ptrBool n hp a)
    (hu : isConvertibleTo p.w.env o.arg u ≠ .none) {h1 : Heap} {a : Nat} {k : Bool} (hb : p.castTo (p.run fuel) hp o u = .ok (h1, .obj a k))
    (hok : h1.Ok a n) (ha : h1.mem a = hp.mem o.addr) (he : Ext hp h1) :
    ∃ hp', castBool p boolT (fuel + 1) hp o = .ok (hp', decide (hp.mem o.addr ≠ 0)) ∧ Ext hp hp' ∧ hp.next < hp'.next := by
  obtain ⟨B, hsz, -⟩ := hB
  have hname : World.converterName (p.w.ty boolT).id = "operator bool()".toList := by rw [hid]; decide
  have hcf : p.w.converter ty boolT = .ok f := by
    unfold World.converter
    rw [hname, g1]; rfl
  have htest : f.test p.w.env p.valueArg [o.arg] ≠ .none := by
    have h1 := test_ctor p.w.env f u o.arg hd (by rw [g3]; exact B.notVoid) (by rw [g3]; exact B.notValue) g2
    rwa [← h1] at hu
  have hb : p.bind (p.run fuel) hp [o] f.args = .ok (h1, [.obj a k]) := by
    rw [g2]
    simp only [Prog.bind, hb]
  have hbody : p.impl f.body h1 [.obj a k] =
      .ok ((h1.newObj (fun _ => if h1.mem a = 0 then 0 else 1) 1).1, .obj h1.next) := by
    rw [g4, ptrBool, if_pos hok]; rfl
  rw [ha] at hbody
  have q1 : (h1.newObj (fun _ => if hp.mem o.addr = 0 then 0 else 1) 1).1.next = h1.next + 1 + 1 := rfl
  have q2 : (h1.newObj (fun _ => if hp.mem o.addr = 0 then 0 else 1) 1).1.mem h1.next = if hp.mem o.addr = 0 then 0 else 1 :=
    newObj_new h1 _ 1 0 (by omega)
  have q3 : ∀ y < h1.next, (h1.newObj (fun _ => if hp.mem o.addr = 0 then 0 else 1) 1).1.mem y = h1.mem y := fun y hy => newObj_old _ _ _ _ hy
  generalize (h1.newObj (fun _ => if hp.mem o.addr = 0 then 0 else 1) 1).1 = h2 at hbody q1 q2 q3
  have he1 := he.grow
  obtain ⟨h3, r, hw, hst, -⟩ := C67_temporary_stored p h2 boolT.val h1.next (by simp [Ty.val]) (.inl B.copyable)
    ⟨by have := hok.1; have := hok.2; omega, by show h1.next + p.size boolT ≤ _; omega⟩
  have hrun : p.run (fuel + 1) hp f [o] = .ok (h3, r) := by
    simp only [Prog.run, hb, hbody, Prog.wrapRet, g3, hw]
  have hcast : p.castV (p.run (fuel + 1)) hp o boolT.val = .ok (h3, r) := by
    have hc : p.convert (p.run (fuel + 1)) hp o boolT = .ok (h3, r) := by
      unfold Prog.convert
      rw [hty, hcf]
      simp only [if_neg htest, hrun]
    simp only [Prog.castV, Ty.val, B.copiable, if_true, hty, hchild, hconv, hc, Bool.false_eq_true, if_false]
  have hs1 : p.size boolT.val.type = 1 := hsz
  have w1 := hst.live
  have w2 := hst.grow
  have w3 := hst.frame
  have w4 := hst.same 0 (by omega)
  have w5 := hst.fresh
  rw [hs1] at w1 w3
  obtain ⟨h4, e1, e2, e3, e4⟩ := copyObj_ok h3 1 r.addr w1
  have hchr : p.w.env.child r.arg.type boolT = true := by rw [hst.arg]; exact child_refl _ _
  have hneb : boolT.val ≠ p.valueArg := fun z => B.notValue (congrArg Arg.type z)
  refine ⟨h4, ?_, ⟨fun y hy => ?_, by omega⟩, by omega⟩
  · unfold castBool Prog.castTo
    rw [if_neg hneb, hcast]
    simp only [Prog.castRet, Ty.val, B.copyable, if_true, Handle.get, hchr, hsz, e1]
    have e5 := e3 0 (by omega)
    simp only [Nat.add_zero] at e5 w4
    rw [e5, w4, q2]
    congr 3
    by_cases z : hp.mem o.addr = 0 <;> simp [z]
  · rw [e4 y (by omega), w3 y (by omega) (by omega), q3 y (by omega), he.same y hy]

/-- `cast<bool>(ptr)` of a smart pointer -/
theorem castBool_spec {ty t raw boolT : Ty} {n : Nat} {ic : Bool} (V : ReflectedPtr p ty ty t raw boolT ic n)
    (hid : (p.w.ty boolT).id = "bool".toList)
    (hconv : p.w.env.conv ty boolT = true) (hchild : p.w.env.child ty boolT = false) (fuel : Nat) (hp : Heap) (o : Handle)
    (ho : o.arg.type = ty) (hok : hp.Ok o.addr n) :
    ∃ hp', castBool p boolT (fuel + 1) hp o = .ok (hp', decide (hp.mem o.addr ≠ 0)) ∧ Ext hp hp' ∧ hp.next < hp'.next := by
  obtain ⟨f, g1, g2, g3, g4⟩ := V.toBool
  refine castBool_by V.distinct V.boolPlain hid hconv hchild fuel hp o ho g1 g2 g3 g4 ?_ (k := false) ?_ hok rfl ⟨fun _ _ => rfl, Nat.le_refl _⟩
  · exact match_lref p.w.env o.arg ty true (by rw [ho]; exact V.notValue.1) V.notValue.1 (by rw [ho]; exact V.noConverter)
      (by rw [ho]; exact V.derives) (Or.inl rfl)
  · have hnes : ty.cref ≠ p.valueArg := by simp [Prog.valueArg, Ty.cref]
    simp only [Prog.castTo, if_neg hnes]
    simp [Prog.castV, Ty.cref, ho, V.derives, Prog.castRet, Handle.as]

'''
s=s[:i]+new+s[j:]
open('Verif/Props/JsonPlaceCalls.lean','w').write(s)
t=open('Verif/Props/JsonPlace.lean').read()
t=t.replace("castBool_spec P.isPtr P.boolName P.toBool.1 P.toBool.2 (F + 1) hp o ho (by","castBool_spec P.isPtr P.boolName P.toBool.1 P.toBool.2 (F + 1) hp o (by rw [ho]; rfl) (by")
open('Verif/Props/JsonPlace.lean','w').write(t)
v=open('Verif/Props/Vector.lean').read()
v=v.replace('''        (∀ y < hp.next, ¬ x.Own y → hp'.mem y = hp.mem y) ∧ hp.next ≤ hp'.next := by
  obtain ⟨f, g1, g2, g3, g4⟩ := V.at
''','''        (∀ y < hp.next, ¬ x.Own y → hp'.mem y = hp.mem y) ∧ hp.next ≤ hp'.next ∧ r.addr = hp.mem o.addr + p.size elem * i := by
  obtain ⟨f, g1, g2, g3, g4⟩ := V.at
''',1)
v=v.replace('''    exact ⟨h1, _, rfl, g3, rfl, v1, v2 ▸ rfl, k4, k5⟩
  · rw [List.getElem?_eq_none (by rw [elems_length]; omega), if_pos (by omega)]''','''    have hobj := hv.obj
    refine ⟨h1, _, rfl, g3, rfl, v1, v2 ▸ rfl, k4, k5, ?_⟩
    show h1.mem o.addr + _ = _
    rw [k4 o.addr (by have := hobj.2; omega) fun c => hap _ c (Or.inl ⟨Nat.le_refl _, by omega⟩)]
  · rw [List.getElem?_eq_none (by rw [elems_length]; omega), if_pos (by omega)]''',1)
open('Verif/Props/Vector.lean','w').write(v)

import Verif.Props.JsonPlace
import Verif.Lemmas.Json.PlacePrint
/-
  Property C89: `json::print` prints of an object in memory, through the reflected functions it calls, what it prints of its value.
-/
namespace Reflect.Json

/-! ### What is assumed of the reflected types -/

/-- `ty` is a scalar type for the printer that casts to `nat`: it is `nat` itself, and `dec` tells the values apart, or it neither
derives from it nor can be converted to it (`TyD.exact` tells). -/
structure ScalarTo {α : Type} (p : Prog) (L : Layout) (nat ty : Ty) (d : TyD) (f : α → JV) (dec : List Nat → α) : Prop where
  notValue : nat ≠ p.w.valueT
  form : ∃ cells, L ty = .scalar cells ∧ ∀ v cs, cells v = some cs → ∃ x, v = f x ∧ (d.exact = true → dec ((List.range (p.size nat)).map cs) = x)
  same : d.exact = true → ty = nat ∧ PlainCopy p nat ∧ p.w.env.conv nat nat = false
  other : d.exact = false → p.w.env.child ty nat = false ∧ p.w.env.conv ty nat = false

/-- strings have a function `size` -/
structure Sized (p : Prog) (L : Layout) (sizeT ty : Ty) : Prop where
  notValue : ty ≠ p.w.valueT
  noConverter : p.w.env.conv ty ty = false
  /-- `size_t` -/
  index : PlainCopy p sizeT ∧ p.size sizeT = 1 ∧ p.w.env.conv sizeT sizeT = false
  size : ∃ f : Fn, p.w.functionF p.w.fuel ty "size".toList = .ok [f] ∧ f.args = [ty.cref] ∧ f.ret = sizeT.val ∧
    ∀ (hp : Heap) a k cells s cs, L ty = .scalar cells → cells (.str s) = some cs → hp.Ok a (p.size ty) → (∀ j < p.size ty, hp.mem (a + j) = cs j) →
      p.impl f.body hp [.obj a k] = .ok ((hp.newObj (fun _ => s.length) 1).1, .obj (hp.newObj (fun _ => s.length) 1).2)

/-- a plain pointer, as pointer.h reflects it -/
structure PlainPointer (p : Prog) (boolT ty t : Ty) : Prop where
  copied : PlainCopy p ty ∧ p.size ty = 1 ∧ p.w.env.conv ty ty = false
  boolPlain : PlainCopy p boolT ∧ p.size boolT = 1 ∧ p.w.env.conv boolT boolT = false
  toBool : ∃ f : Fn, p.w.functionF p.w.fuel ty "operator bool()".toList = .ok [f] ∧ f.args = [ty.val] ∧ f.ret = boolT.val ∧
    ∀ hp u k, p.impl f.body hp [.obj u k] = ptrBool 1 hp u
  deref : ∃ (l : Lib) (ic : Bool) (o : Overloads), p.w.functionF p.w.fuel ty "operator*".toList = .ok o ∧
    o.map (fun f => (f.ret, f.args)) = Spec.rows (Spec.pointerTable l ty t ic) "operator*".toList ∧
    ∀ f ∈ o, ∀ hp a m, p.impl f.body hp [.obj a m] = derefBody hp a
  target : t ≠ p.w.voidT ∧ t ≠ p.w.valueT

/-- `ty` is a pointer to `t`, of `n` cells -/
structure PointerTo (p : Prog) (boolT ty t : Ty) (n : Nat) : Prop where
  kind : (n = 1 ∧ PlainPointer p boolT ty t) ∨ ∃ raw ic, ReflectedPtr p ty ty t raw boolT ic n
  boolName : (p.w.ty boolT).id = "bool".toList
  toBool : p.w.env.conv ty boolT = true ∧ p.w.env.child ty boolT = false

/-- The reflected program has the types `T` as `env` describes them, as far as printing goes. -/
structure BackedW (p : Prog) (N : NativeW) (L : Layout) (env : Env) (T : TyId → Prop) : Prop where
  sound : L.Sound p N.toNative
  keys : ∀ k, N.toStr (keyCells p N.toNative k) = k
  bool : ∀ ty d, T ty → env.Has ty d .bool → ScalarTo p L N.boolT ty d JV.bool N.toBool
  int : ∀ ty d, T ty → env.Has ty d .int → ScalarTo p L N.intT ty d JV.int N.toInt
  float : ∀ ty d, T ty → env.Has ty d .float → ScalarTo p L N.floatT ty d JV.flt N.toFlt
  string : ∀ ty d, T ty → env.Has ty d .string → ScalarTo p L N.stringT ty d JV.str N.toStr ∧ Sized p L N.sizeT ty
  ptr : ∀ ty d t, T ty → env.Has ty d (.ptr t) → ∃ n, L ty = .ptr t n ∧ PointerTo p N.boolT ty t n
  list : ∀ ty d t, T ty → env.Has ty d (.list t) → L ty = .list t ∧ ∃ grow init, ReflectedVector p ty ty t N.sizeT grow init
  map : ∀ ty d t, T ty → env.Has ty d (.map t) → ∃ K, L ty = .map t K ∧ ReflectedMap p ty ty N.stringT t N.keysT N.sizeT K ∧
    PlainCopy p N.keysT ∧ p.w.env.conv N.keysT N.keysT = false
  object : ∀ ty d, T ty → env.Has ty d .object → ∃ field, L ty = .obj field ∧
    ∀ f ∈ d.fields, f.key ≠ none → ∃ fd : Reflect.FieldD, field f.name = some (f.type, fd.offset) ∧
      p.w.fieldF p.w.fuel ty (nameOf f.name) = .ok fd ∧ fd.arg.type = f.type

/-! ### The calls -/

section
variable {p : Prog} {N : NativeW} {L : Layout} {env : Env} {T : TyId → Prop} {order : Ty → List Bytes → List Bytes}

/-- the printers of scalars -/
theorem scalar_read {α : Type} {nat ty : Ty} {d : TyD} {f : α → JV} {dec : List Nat → α} (hS : ScalarTo p L nat ty d f dec)
    {sh : Shape} (hd : env.Has ty d sh) (fuel : Nat) (hp : Heap) (o : Handle) (ho : o.arg.type = ty) (hol : o.arg.ref = .lvalue) {v : JV}
    {M : Native} (hr : Shows p M L order hp ty o.addr v) :
    ∃ x, v = f x ∧
    if env.exact ty then (∃ hp' cs, castCopy p nat (fuel + 1) hp o = .ok (hp', cs) ∧ dec cs = x ∧ Ext hp hp') ∧
      ∃ cs, castRef p nat (fuel + 1) hp o = .ok (hp, cs) ∧ dec cs = x
    else castCopy p nat (fuel + 1) hp o = .error .err ∧ castRef p nat (fuel + 1) hp o = .error .err := by
  have he : env.exact ty = d.exact := by unfold Env.exact; rw [hd.1]
  obtain ⟨cells, h1, h2⟩ := hS.form
  cases hr with
  | list _ _ _ _ h3 => rw [h1] at h3; cases h3
  | map _ _ _ _ _ h3 => rw [h1] at h3; cases h3
  | obj _ _ _ _ h3 => rw [h1] at h3; cases h3
  | null _ _ _ _ h3 => rw [h1] at h3; cases h3
  | ptr _ _ _ _ _ h3 => rw [h1] at h3; cases h3
  | scalar _ _ _ cells' cs h3 h4 h5 h6 =>
  rw [h1] at h3; cases h3
  obtain ⟨x, x1, x2⟩ := h2 v cs h4
  refine ⟨x, x1, ?_⟩
  have hnv : nat.val ≠ p.valueArg := fun z => hS.notValue (congrArg Arg.type z)
  have hnr : nat.cref ≠ p.valueArg := by simp [Prog.valueArg, Ty.cref]
  rw [he]
  cases hx : d.exact with
  | true =>
    obtain ⟨h7, h8, h9⟩ := hS.same hx
    subst h7
    simp only [if_true]
    constructor
    · obtain ⟨hp', a', e1, e2⟩ := castTo_copy_plain p (Ty.val ty) hp o fuel rfl h8 h5
        ⟨by rw [ho]; exact hS.notValue, by rw [ho]; exact child_refl _ _, by rw [ho]; exact h9, by rw [hol]; simp⟩
      refine ⟨hp', _, by unfold castCopy; rw [e1], ?_, ⟨e2.frame, e2.grow⟩⟩
      rw [← x2 hx]
      congr 1
      refine List.map_congr_left fun j hj => ?_
      have hj := List.mem_range.1 hj
      rw [e2.same j hj, h6 j hj]
    · refine ⟨readCells hp o.addr (p.size ty), by unfold castRef; simp only [Prog.castTo, if_neg hnr]; simp [Prog.castV, Ty.cref, ho, child_refl, Prog.castRet, Handle.as], ?_⟩
      rw [← x2 hx]
      congr 1
      exact List.map_congr_left fun j hj => h6 j (List.mem_range.1 hj)
  | false =>
    obtain ⟨h7, h8⟩ := hS.other hx
    simp only [Bool.false_eq_true, if_false]
    constructor
    · unfold castCopy
      simp only [Prog.castTo, if_neg hnv]
      simp [Prog.castV, Ty.val, ho, h7, h8]
    · unfold castRef
      simp only [Prog.castTo, if_neg hnr]
      simp [Prog.castV, Ty.cref, ho, h7]

/-- `call<size_t>("size")` of a string -/
theorem size_read {sizeT ty : Ty} (hS : Sized p L sizeT ty) {cells : JV → Option (Nat → Nat)} (hl : L ty = .scalar cells) (fuel : Nat) (hp : Heap) (o : Handle)
    (ho : o.arg.type = ty) {s : Bytes} {M : Native} (hr : Shows p M L order hp ty o.addr (.str s)) :
    ∃ hp', callSize p sizeT (fuel + 1) hp o = .ok (hp', s.length) ∧ Ext hp hp' := by
  cases hr with
  | scalar _ _ _ cells' cs h3 h4 h5 h6 =>
  rw [hl] at h3; cases h3
  obtain ⟨f, g1, g2, g3, g4⟩ := hS.size
  obtain ⟨i1, i2, i3⟩ := hS.index
  have hfit : RefFits p (.dyn o) ty.cref := ⟨rfl, ⟨by show o.arg.type ≠ _; rw [ho]; exact hS.notValue, hS.notValue⟩,
    by show p.w.env.child o.arg.type _ = true; rw [ho]; exact child_refl _ _,
    by show p.w.env.conv o.arg.type _ = false; rw [ho]; exact hS.noConverter, Or.inl rfl, by rintro _ _ ⟨⟩⟩
  unfold callSize
  rw [callMethod_refs p fuel hp o _ f sizeT.val [] (by rw [ho]; exact g1) (by rw [g2]; exact .cons hfit .nil)
    (by rw [g3]; exact size_ret i1)]
  rw [show ownObjects [Actual.dyn o] f.args = [.obj o.addr (!true)] by rw [g2]; rfl, g4 hp o.addr _ cells s cs hl h4 h5 h6]
  have q1 : (hp.newObj (fun _ => s.length) 1).2 = hp.next := rfl
  have q2 : (hp.newObj (fun _ => s.length) 1).1.next = hp.next + 1 + 1 := rfl
  have q3 : (hp.newObj (fun _ => s.length) 1).1.mem hp.next = s.length := newObj_new hp _ 1 0 (by omega)
  have q4 : ∀ y < hp.next, (hp.newObj (fun _ => s.length) 1).1.mem y = hp.mem y := fun y hy => newObj_old _ _ _ _ hy
  have hpos : 0 < hp.next := Nat.lt_of_lt_of_le h5.1 (Nat.le_trans (Nat.le_add_right _ _) h5.2)
  obtain ⟨h4, b, e1, e2, e3, e4⟩ := ret_number i1 i2 i3 fuel (hp.newObj (fun _ => s.length) 1).1 (hp.newObj (fun _ => s.length) 1).2
    ⟨by rw [q1]; exact hpos, by rw [q1, q2]; omega⟩
  simp only [g3]
  have hcall : ∀ (x : Res (Heap × Handle)), (match x with
      | .error e => (.error e : Res (Heap × Option BArg))
      | .ok (h3, u) => p.retCast (p.run (fuel + 1)) h3 u sizeT.val) = .ok (h4, some (.obj b true)) → ∃ h3 u, x = .ok (h3, u) ∧
      p.retCast (p.run (fuel + 1)) h3 u sizeT.val = .ok (h4, some (.obj b true)) := by
    intro x hx
    cases x with
    | error e => cases hx
    | ok q => exact ⟨q.1, q.2, rfl, hx⟩
  obtain ⟨h3, u, z1, z2⟩ := hcall _ e1
  rw [z1]
  simp only
  rw [z2]
  simp only
  rw [e2, q1, q3]
  exact ⟨h4, rfl, fun y hy => by rw [e3 y (by omega) (by rw [q1]; omega), q4 y hy], by omega⟩

/-- `cast<bool>(ptr)` of a pointer -/
theorem bool_read {boolT ty t : Ty} {n : Nat} (P : PointerTo p boolT ty t n) (fuel : Nat) (hp : Heap) (o : Handle) (ho : o.arg.type = ty)
    (hol : o.arg.ref = .lvalue) (hok : hp.Ok o.addr n) :
    ∃ hp', castBool p boolT (fuel + 2) hp o = .ok (hp', decide (hp.mem o.addr ≠ 0)) ∧ Ext hp hp' := by
  rcases P.kind with ⟨rfl, V⟩ | ⟨raw, ic, V⟩
  · obtain ⟨f, g1, g2, g3, g4⟩ := V.toBool
    obtain ⟨c1, c2, c3⟩ := V.copied
    have hc : Copied p o.arg ty := ⟨by rw [ho]; exact c1.notValue, by rw [ho]; exact child_refl _ _, by rw [ho]; exact c3, by rw [hol]; simp⟩
    obtain ⟨h1, a, e1, e2⟩ := castTo_copy_plain p (Ty.val ty) hp o fuel rfl c1 (by rw [show (Ty.val ty).type = ty from rfl, c2]; exact hok) hc
    rw [show (Ty.val ty).type = ty from rfl, c2] at e2
    obtain ⟨hp', r1, r2, -⟩ := castBool_by c1.distinct V.boolPlain P.boolName P.toBool.1 P.toBool.2 (fuel + 1) hp o ho g1 g2 g3 g4
      (by
        have : ∀ w : Arg, w.type ≠ p.w.valueT → p.w.env.child w.type ty = true → p.w.env.conv w.type ty = false →
            isConvertibleTo p.w.env w ty.val ≠ .none := by
          rintro ⟨u, r, c⟩ j1 j2 j3
          simp only at j1 j2 j3
          rw [Ty.val, convertible_static p.w.env _ _ _ _ _ _ (not_dynamic p.w.env _ _ j1 c1.notValue _ _ _ _), j3, j2]
          cases r <;> cases c <;> simp <;> split <;> simp
        exact this o.arg hc.notValue hc.derives hc.noConverter)
      e1 e2.ok (by simpa using e2.same 0 (by omega)) ⟨e2.frame, e2.grow⟩
    exact ⟨hp', r1, r2⟩
  · obtain ⟨hp', r1, r2, -⟩ := castBool_spec V P.boolName P.toBool.1 P.toBool.2 (fuel + 1) hp o ho hok
    exact ⟨hp', r1, r2⟩

/-- `*ptr` of a pointer that is not null -/
theorem deref_read {boolT ty t : Ty} {n : Nat} (P : PointerTo p boolT ty t n) (fuel : Nat) (hp : Heap) (o : Handle) (ho : o.arg.type = ty)
    (hok : hp.Ok o.addr n) (h0 : hp.mem o.addr ≠ 0) :
    ∃ c, callValue p (fuel + 1) hp o "operator*".toList [] = .ok (hp, ⟨⟨t, .lvalue, c⟩, hp.mem o.addr, none⟩) := by
  rcases P.kind with ⟨rfl, V⟩ | ⟨raw, ic, V⟩
  · obtain ⟨l, ic, tab, t1, t2, t3⟩ := V.deref
    obtain ⟨c1, c2, c3⟩ := V.copied
    obtain ⟨⟨ra, rb, rc⟩, d1, d2, d3, d4⟩ := C79_deref p fuel hp l t ty ic o tab t1 t2 t3 c3 V.target.1 V.target.2 c1.notValue c1.distinct ho hok
    simp only at d2 d3 d4
    subst d2 d3 d4
    exact ⟨_, by unfold callValue; rw [d1]⟩
  · exact ⟨ic, by unfold callValue; rw [C87_deref V fuel hp o ho hok h0]⟩

/-- `map.call< std::vector<std::string> >("keys")` -/
theorem keys_read {ty stringT t keysT sizeT : Ty} {K : MapKind} (V : ReflectedMap p ty ty stringT t keysT sizeT K) (hk : PlainCopy p keysT)
    (hkc : p.w.env.conv keysT keysT = false) (fuel : Nat) (hp : Heap) (o : Handle) (ho : o.arg.type = ty) (hm : hp.IsMap K o.addr) :
    ∃ hp' ks, callKeys p keysT stringT (fuel + 1) hp o = .ok (hp', ks) ∧ Ext hp hp' ∧
      ks.map (fun a => hp'.cells a K.key) = (hp.entries K o.addr).map Prod.fst ∧ ∀ a ∈ ks, hp'.Ok a K.key := by
  obtain ⟨h3, u, e1, e2, e3, e4, e5, -, -, -, -, e6, e7⟩ := C86_keys V fuel hp o ho hm
  obtain ⟨f, g1, g2, g3, g4⟩ := V.keys
  have hfit : RefsFit p [.dyn o] f.args := by rw [g2]; exact .cons (V.fits o ho true (Or.inl rfl)) .nil
  rw [callMethod_refs p fuel hp o _ f p.valueArg [] (by rw [ho]; exact g1) hfit
    (by rw [testReturn_value p V.distinct _ (by rw [g3]; exact V.notValue.2.2.2.2)]; simp)] at e1
  obtain ⟨s1, s2⟩ := V.keysReturn
  obtain ⟨v1, v2, v3, v4⟩ := id e4
  obtain ⟨h4, b, c1, c2⟩ := castTo_copy_plain p keysT.val h3 u fuel rfl hk (by rw [show keysT.val.type = keysT from rfl, s1]; exact v1)
    (by rw [e2]; exact ⟨hk.notValue, child_refl _ _, hkc, by simp [Ty.lref]⟩)
  rw [show keysT.val.type = keysT from rfl, s1] at c2
  have b0 : h4.mem b = h3.mem u.addr := by simpa using c2.same 0 (by omega)
  have b1 : h4.mem (b + 1) = h3.mem (u.addr + 1) := c2.same 1 (by omega)
  have hcall : p.callMethod (fuel + 1) hp o "keys".toList keysT.val [] = .ok (h4, some (.obj b true)) := by
    rw [callMethod_refs p fuel hp o _ f keysT.val [] (by rw [ho]; exact g1) hfit (by rw [g3]; exact size_ret hk)]
    cases hi : p.impl f.body hp (ownObjects [Actual.dyn o] f.args) with
    | error e => rw [hi] at e1; cases e1
    | ok q =>
      obtain ⟨h2, r⟩ := q
      rw [hi] at e1
      simp only at e1 ⊢
      cases hw : p.wrapRet h2 f.ret r with
      | error e => rw [hw] at e1; cases e1
      | ok q =>
        obtain ⟨h5, u'⟩ := q
        rw [hw] at e1
        simp only at e1 ⊢
        rw [retCast_value p V.distinct] at e1
        cases e1
        unfold Prog.retCast
        rw [if_neg (show ¬ keysT.val.type = p.w.voidT from hk.notVoid), c1]
  refine ⟨h4, _, by unfold callKeys; rw [hcall], ⟨fun y hy => by rw [c2.frame y (by omega), e6 y hy], Nat.le_trans e7 c2.grow⟩, ?_, ?_⟩
  · rw [← e5]
    unfold Heap.elems
    rw [List.map_map, b1, b0, ← V.sizes.1]
    refine List.map_congr_left fun i hi => ?_
    have hi := List.mem_range.1 hi
    refine List.map_congr_left fun j hj => ?_
    have hj := List.mem_range.1 hj
    have hi2 : i < h3.mem (u.addr + 2) := Nat.lt_of_lt_of_le hi v2
    have := slot_lt (n := K.key) hi2 hj
    have v3' : 0 < h3.mem u.addr ∧ h3.mem u.addr + K.key * h3.mem (u.addr + 2) ≤ h3.next := v3.resolve_right (by omega)
    refine c2.frame _ ?_
    show h3.mem u.addr + K.key * i + j < _
    omega
  · intro a ha
    rw [List.mem_map] at ha
    obtain ⟨i, hi, rfl⟩ := ha
    have hi := List.mem_range.1 hi
    rw [b1] at hi
    rw [b0, ← V.sizes.1]
    have hi2 : i + 1 ≤ h3.mem (u.addr + 2) := Nat.lt_of_lt_of_le hi v2
    have := slot_le (n := K.key) hi2
    rw [Nat.mul_succ] at this
    have v3' : 0 < h3.mem u.addr ∧ h3.mem u.addr + K.key * h3.mem (u.addr + 2) ≤ h3.next := v3.resolve_right (by omega)
    have := c2.grow
    refine ⟨by omega, by omega⟩

/-- `list.call<size_t>("size")` -/
theorem vec_size_read {ty t sizeT : Ty} {grow : Nat → Nat} {init : Nat → Nat} (V : ReflectedVector p ty ty t sizeT grow init) (fuel : Nat) (hp : Heap)
    (o : Handle) (ho : o.arg.type = ty) (hv : hp.IsVec (p.size t) o.addr) :
    ∃ hp', callSize p sizeT (fuel + 1) hp o = .ok (hp', hp.mem (o.addr + 1)) ∧ Ext hp hp' := by
  obtain ⟨hp', a, e1, e2, -, -, e3, e4⟩ := C85_size V fuel hp o ho hv
  refine ⟨hp', ?_, ⟨e3, e4⟩⟩
  unfold callSize
  rw [e1]
  simp only
  rw [e2, elems_length]

/-- `list.call<Value>("at", i)` -/
theorem at_read {ty t sizeT : Ty} {grow : Nat → Nat} {init : Nat → Nat} (V : ReflectedVector p ty ty t sizeT grow init) (fuel : Nat) (hp : Heap)
    (o : Handle) (ho : o.arg.type = ty) (hv : hp.IsVec (p.size t) o.addr) (i : Nat) (hi : i < hp.mem (o.addr + 1)) :
    ∃ hp' own, callValue p (fuel + 2) (hp.newObj (fun _ => i) (p.size sizeT)).1 o "at".toList
        [.native sizeT.lref (hp.newObj (fun _ => i) (p.size sizeT)).2] = .ok (hp', ⟨t.cref, hp.mem o.addr + p.size t * i, own⟩) ∧ Ext hp hp' := by
  obtain ⟨o1, o2⟩ := hv.obj
  have x1 : Ext hp (hp.newObj (fun _ => i) (p.size sizeT)).1 := newObj_ext _ _ _
  have x2 : (hp.newObj (fun _ => i) (p.size sizeT)).2 = hp.next := rfl
  have x3 : (hp.newObj (fun _ => i) (p.size sizeT)).1.mem hp.next = i := newObj_new hp _ _ 0 (by rw [V.cell]; omega)
  have x4 : (hp.newObj (fun _ => i) (p.size sizeT)).1.next = hp.next + 1 + 1 := by rw [V.cell]; rfl
  generalize hq : hp.newObj (fun _ => i) (p.size sizeT) = q at x1 x2 x3 x4 ⊢
  obtain ⟨h1, b⟩ := q
  simp only at x1 x2 x3 x4 ⊢
  subst x2
  obtain ⟨v1, v2, -⟩ := vec_kept hv x1.grow fun y hy _ => x1.same y hy
  have := C85_at V fuel h1 o ho (.native sizeT.lref hp.next) i
    (by
      have := Hands.kept (p := p) (hp := h1) (sizeT := sizeT) (.native sizeT.lref hp.next) (by rintro _ _ ⟨⟩; rfl)
        ⟨V.index.notValue, child_refl _ _, V.noSizeConverter, by simp [Actual.arg, Ty.lref]⟩
        ⟨by show 0 < hp.next; omega, by show hp.next + 1 ≤ _; omega⟩
      rwa [show h1.mem (Actual.native sizeT.lref hp.next).handle.addr = i from x3] at this)
    v1 (by rintro y ⟨arg, a1, ⟨⟩⟩; exact absurd rfl a1)
  rw [elems_get (by rw [x1.same _ (by omega)]; exact hi)] at this
  simp only at this
  obtain ⟨h2, ⟨ra, rb, rc⟩, r1, r2, -, -, -, r3, r4, r5⟩ := this
  simp only at r2 r5
  subst r2 r5
  refine ⟨h2, rc, ?_, ⟨fun y hy => ?_, Nat.le_trans x1.grow r4⟩⟩
  · unfold callValue
    rw [r1]
    simp only
    rw [x1.same _ (by omega)]
  · rw [r3 y (Nat.lt_of_lt_of_le hy x1.grow) (by rintro ⟨arg, a1, a2⟩; cases a2; exact a1 rfl), x1.same y hy]

/-- `map.call<Value>("at", key)` -/
theorem map_at_read {ty stringT t keysT sizeT : Ty} {K : MapKind} (V : ReflectedMap p ty ty stringT t keysT sizeT K) (fuel : Nat) (hp : Heap)
    (o : Handle) (ho : o.arg.type = ty) (hm : hp.IsMap K o.addr) (a b : Nat) (ha : hp.Ok a K.key) (hb : hp.ValueAt K o.addr (hp.cells a K.key) b) :
    ∃ hp' own b', callValue p (fuel + 1) hp o "at".toList [.native stringT.cref a] = .ok (hp', ⟨t.cref, b', own⟩) ∧
      hp.ValueAt K o.addr (hp.cells a K.key) b' ∧ Ext hp hp' := by
  have := C86_at V fuel hp o ho (.native stringT.cref a)
    (HandsKey.kept _ (by rintro _ _ ⟨⟩; rfl) V.notValue.2.2.1 (child_refl _ _) V.noKeyConverter (by rw [← V.sizes.1]; exact ha)) hm
    (by rintro y ⟨arg, a', a1, ⟨⟩, -⟩; exact absurd rfl a1)
  rw [show (Actual.native stringT.cref a).handle.addr = a from rfl, lookup_valueAt hm.keys hb] at this
  simp only at this
  obtain ⟨h2, ⟨ra, rb, rc⟩, r1, r2, -, -, -, r3, r4, r5⟩ := this
  simp only at r2 r3
  subst r2
  refine ⟨h2, rc, rb, ?_, r3, ⟨fun y hy => r4 y hy (by rintro ⟨arg, a', a1, a2, -⟩; cases a2; exact a1 rfl), r5⟩⟩
  unfold callValue
  rw [r1]

theorem get_size {m : List (Bytes × JV)} {k : Bytes} {x : JV} (h : Assoc.get m k = some x) : sizeOf x < sizeOf m := by
  induction m with
  | nil => cases h
  | cons q m ih =>
    obtain ⟨a, b⟩ := q
    simp only [Assoc.get] at h
    split at h
    · cases h; simp; omega
    · have := ih h; simp; omega

theorem get_of_mem_keys {m : List (Bytes × JV)} {k : Bytes} (h : k ∈ m.map (·.1)) : ∃ x, Assoc.get m k = some x := by
  induction m with
  | nil => cases h
  | cons q m ih =>
    obtain ⟨a, b⟩ := q
    simp only [Assoc.get]
    split
    · exact ⟨_, rfl⟩
    · refine ih ?_
      simp only [List.map_cons, List.mem_cons] at h
      rcases h with h | h
      · subst h; simp at *
      · exact h

/-- `isEmpty` -/
theorem isEmptyP_spec (hB : BackedW p N L env T) (hcl : env.Closed T) {c : WCache} (hc : GoodW env c) (F : Nat) :
    ∀ (E : Nat) (ty : Ty), T ty → (Assoc.get c ty).isSome → ∀ (o : Handle) (hp : Heap) (v : JV), o.arg.type = ty → o.arg.ref = .lvalue →
      Shows p N.toNative L env.orderOf hp ty o.addr v → sizeOf v < E →
      WSim (Ext hp) (isEmptyP p N c (F + 2) E ty o hp) (isEmptyV env c v ty)
  | 0, _, _, _, _, _, _, _, _, _, h => by omega
  | E + 1, ty, hT, hs, o, hp, v, ho, hol, hv, hE => by
    obtain ⟨d, sh, hd⟩ := hcl.kind ty hT
    obtain ⟨st, g1, g2, g3, g4⟩ := goodW_get hc hd hs
    rw [isEmpty_eq hc hd hs]
    unfold isEmptyP
    simp only [g1]
    cases sh with
    | void => cases g2
    | bool => injection g2 with g2; rw [← g2]; exact ⟨hp, rfl, ext_refl _⟩
    | object => injection g2 with g2; rw [← g2]; exact ⟨hp, rfl, ext_refl _⟩
    | int =>
      injection g2 with g2; rw [← g2]
      simp only
      obtain ⟨x, rfl, x1⟩ := scalar_read (hB.int ty d hT hd) hd (F + 1) hp o ho hol hv
      simp only
      cases hx : env.exact ty with
      | true =>
        rw [hx] at x1
        obtain ⟨-, cs, e1, e2⟩ := x1
        show WSim _ (Except.bind _ _) _
        rw [e1]
        simp only [Except.bind, e2, if_true]
        exact ⟨hp, rfl, ext_refl _⟩
      | false =>
        rw [hx] at x1
        show WSim _ (Except.bind _ _) _
        rw [x1.2]
        rfl
    | float =>
      injection g2 with g2; rw [← g2]
      simp only
      obtain ⟨x, rfl, x1⟩ := scalar_read (hB.float ty d hT hd) hd (F + 1) hp o ho hol hv
      simp only
      cases hx : env.exact ty with
      | true =>
        rw [hx] at x1
        obtain ⟨-, cs, e1, e2⟩ := x1
        show WSim _ (Except.bind _ _) _
        rw [e1]
        simp only [Except.bind, e2, if_true]
        exact ⟨hp, rfl, ext_refl _⟩
      | false =>
        rw [hx] at x1
        show WSim _ (Except.bind _ _) _
        rw [x1.2]
        rfl
    | string =>
      injection g2 with g2; rw [← g2]
      simp only
      obtain ⟨b1, b2⟩ := hB.string ty d hT hd
      obtain ⟨x, rfl, -⟩ := scalar_read b1 hd (F + 1) hp o ho hol hv
      obtain ⟨cells, l1, -⟩ := b1.form
      obtain ⟨hp', e1, e2⟩ := size_read b2 l1 (F + 1) hp o ho hv
      simp only
      show WSim _ (Except.bind _ _) _
      rw [e1]
      simp only [Except.bind]
      refine ⟨hp', ?_, e2⟩
      cases x <;> rfl
    | list t =>
      injection g2 with g2; rw [← g2]
      simp only
      obtain ⟨l1, grow, init, V⟩ := hB.list ty d t hT hd
      cases hv with
      | scalar _ _ _ _ _ h1 => rw [l1] at h1; cases h1
      | map _ _ _ _ _ h1 => rw [l1] at h1; cases h1
      | obj _ _ _ _ h1 => rw [l1] at h1; cases h1
      | null _ _ _ _ h1 => rw [l1] at h1; cases h1
      | ptr _ _ _ _ _ h1 => rw [l1] at h1; cases h1
      | list _ _ e vs h1 h2 h3 h4 =>
      rw [l1] at h1; cases h1
      obtain ⟨hp', e1, e2⟩ := vec_size_read V (F + 1) hp o ho h2
      show WSim _ (Except.bind _ _) _
      rw [e1]
      simp only [Except.bind]
      refine ⟨hp', ?_, e2⟩
      rw [h3]
      cases vs <;> rfl
    | map t =>
      injection g2 with g2; rw [← g2]
      simp only
      obtain ⟨K, l1, V, -, -⟩ := hB.map ty d t hT hd
      cases hv with
      | scalar _ _ _ _ _ h1 => rw [l1] at h1; cases h1
      | list _ _ _ _ h1 => rw [l1] at h1; cases h1
      | obj _ _ _ _ h1 => rw [l1] at h1; cases h1
      | null _ _ _ _ h1 => rw [l1] at h1; cases h1
      | ptr _ _ _ _ _ h1 => rw [l1] at h1; cases h1
      | map _ _ e _ m h1 h2 h3 h4 h5 h6 =>
      rw [l1] at h1; cases h1
      obtain ⟨hp', a, e1, e2, -, -, e3, e4⟩ := C86_size V (F + 1) hp o ho h2
      have e5 : (hp.entries K o.addr).length = m.length := by
        have := congrArg List.length (entries_keys hp K o.addr)
        rw [h5] at this
        simp only [List.length_map] at this
        rw [this, h4.length_eq, List.length_map]
      show WSim _ (Except.bind _ _) _
      unfold callSize
      rw [e1]
      simp only [Except.bind]
      refine ⟨hp', ?_, ⟨e3, e4⟩⟩
      rw [e2, e5]
      cases m <;> rfl
    | ptr t =>
      injection g2 with g2; rw [← g2]
      simp only
      obtain ⟨i1, i2⟩ := g3 t (Or.inl rfl)
      obtain ⟨n, l1, P⟩ := hB.ptr ty d t hT hd
      have hsz := hB.sound.ptr ty t n l1
      cases hv with
      | scalar _ _ _ _ _ h1 => rw [l1] at h1; cases h1
      | list _ _ _ _ h1 => rw [l1] at h1; cases h1
      | map _ _ _ _ _ h1 => rw [l1] at h1; cases h1
      | obj _ _ _ _ h1 => rw [l1] at h1; cases h1
      | null _ _ e n' h1 h2 h3 =>
        rw [l1] at h1; cases h1
        obtain ⟨hp', e1, e2⟩ := bool_read P F hp o ho hol ⟨h2.1, by have := h2.2; omega⟩
        show WSim _ (Except.bind _ _) _
        rw [e1]
        simp only [Except.bind, h3]
        exact ⟨hp', rfl, e2⟩
      | ptr _ _ e n' x h1 h2 h3 h4 =>
        rw [l1] at h1; cases h1
        have hok : hp.Ok o.addr n := ⟨h2.1, by have := h2.2; omega⟩
        obtain ⟨hp', e1, e2⟩ := bool_read P F hp o ho hol hok
        have e3 : hp'.mem o.addr = hp.mem o.addr := e2.same _ (by have := h2.2; omega)
        obtain ⟨ic, d1⟩ := deref_read P (F + 1) hp' o ho (ok_ext e2 hok) (by rw [e3]; exact h3)
        show WSim _ (Except.bind _ _) _
        rw [e1]
        simp only [Except.bind]
        rw [if_pos (by simpa using h3)]
        show WSim _ (Except.bind _ _) _
        rw [d1]
        simp only [Except.bind, i1]
        rw [e3]
        exact (isEmptyP_spec hB hcl hc F E t (hcl.ptr ty d t hT hd) i2 _ hp' x rfl rfl (h4.ext hB.sound e2) (by simp at hE; omega)).mono
          fun s hs => ext_trans e2 hs

/-- the scalars -/
theorem scalar_print {α : Type} {nat ty : Ty} {d : TyD} {f : α → JV} {dec : List Nat → α} (hS : ScalarTo p L nat ty d f dec)
    {sh : Shape} (hd : env.Has ty d sh) (fuel : Nat) (hp : Heap) (o : Handle) (ho : o.arg.type = ty) (hol : o.arg.ref = .lvalue) {v : JV}
    {M : Native} (hr : Shows p M L order hp ty o.addr v) :
    ∃ x, v = f x ∧ ∀ (g : α → Res Writer), WSim (Ext hp)
      (do let q ← castCopy p nat (fuel + 1) hp o
          let w' ← g (dec q.2)
          .ok (q.1, w')) (if env.exact ty then g x else .error .err) := by
  obtain ⟨x, rfl, x1⟩ := scalar_read hS hd fuel hp o ho hol hr
  refine ⟨x, rfl, fun g => ?_⟩
  cases hx : env.exact ty with
  | true =>
    rw [hx] at x1
    obtain ⟨⟨hp', cs, e1, e2, e3⟩, -⟩ := x1
    show WSim _ (Except.bind _ _) _
    rw [e1]
    simp only [Except.bind, e2, if_true]
    show WSim _ (Except.bind _ _) _
    cases g x with
    | error e => rfl
    | ok w => exact ⟨hp', rfl, e3⟩
  | false =>
    rw [hx] at x1
    show WSim _ (Except.bind _ _) _
    rw [x1.1]
    rfl

/-- The printer of an object in memory does what the printer of its value does. -/
theorem printP_spec (hB : BackedW p N L env T) (hcl : env.Closed T) {c : WCache} (hc : GoodW env c) (other : OtherW) (F E : Nat) :
    ∀ (n : Nat) (ty : Ty), T ty → (Assoc.get c ty).isSome → ∀ (o : Handle) (hp : Heap) (w : Writer) (v : JV), o.arg.type = ty → o.arg.ref = .lvalue →
      Shows p N.toNative L env.orderOf hp ty o.addr v → sizeOf v < E →
      WSim (Ext hp) (printP p N other env c (F + 2) E n ty o hp w) (printV env c n ty v w)
  | 0, _, _, _, _, _, _, _, _, _, _, _ => rfl
  | n + 1, ty, hT, hs, o, hp, w, v, ho, hol, hv, hE => by
    have hL := hB.sound
    obtain ⟨d, sh, hd⟩ := hcl.kind ty hT
    obtain ⟨st, g1, g2, g3, g4⟩ := goodW_get hc hd hs
    unfold printP printV
    simp only [g1]
    cases sh with
    | void => cases g2
    | bool =>
      injection g2 with g2; rw [← g2]
      simp only
      obtain ⟨x, rfl, x1⟩ := scalar_print (hB.bool ty d hT hd) hd (F + 1) hp o ho hol hv
      exact x1 fun x => .ok (formatBool w x)
    | int =>
      injection g2 with g2; rw [← g2]
      simp only
      obtain ⟨x, rfl, x1⟩ := scalar_print (hB.int ty d hT hd) hd (F + 1) hp o ho hol hv
      exact x1 fun x => .ok (formatInt w x)
    | float =>
      injection g2 with g2; rw [← g2]
      simp only
      obtain ⟨x, rfl, x1⟩ := scalar_print (hB.float ty d hT hd) hd (F + 1) hp o ho hol hv
      exact x1 fun x => .ok (w.push (env.fmtG x))
    | string =>
      injection g2 with g2; rw [← g2]
      simp only
      obtain ⟨x, rfl, x1⟩ := scalar_print (hB.string ty d hT hd).1 hd (F + 1) hp o ho hol hv
      exact x1 fun x => formatString w x
    | ptr t =>
      injection g2 with g2; rw [← g2]
      simp only
      obtain ⟨i1, i2⟩ := g3 t (Or.inl rfl)
      obtain ⟨n', l1, P⟩ := hB.ptr ty d t hT hd
      have hsz := hL.ptr ty t n' l1
      cases hv with
      | scalar _ _ _ _ _ h1 => rw [l1] at h1; cases h1
      | list _ _ _ _ h1 => rw [l1] at h1; cases h1
      | map _ _ _ _ _ h1 => rw [l1] at h1; cases h1
      | obj _ _ _ _ h1 => rw [l1] at h1; cases h1
      | null _ _ e _ h1 h2 h3 =>
        rw [l1] at h1; cases h1
        obtain ⟨hp', e1, e2⟩ := bool_read P F hp o ho hol ⟨h2.1, by have := h2.2; omega⟩
        show WSim _ (Except.bind _ _) _
        rw [e1]
        simp only [Except.bind, h3]
        exact ⟨hp', rfl, e2⟩
      | ptr _ _ e _ x h1 h2 h3 h4 =>
        rw [l1] at h1; cases h1
        have hok : hp.Ok o.addr n' := ⟨h2.1, by have := h2.2; omega⟩
        obtain ⟨hp', e1, e2⟩ := bool_read P F hp o ho hol hok
        have e3 : hp'.mem o.addr = hp.mem o.addr := e2.same _ (by have := h2.2; omega)
        obtain ⟨ic, d1⟩ := deref_read P (F + 1) hp' o ho (ok_ext e2 hok) (by rw [e3]; exact h3)
        show WSim _ (Except.bind _ _) _
        rw [e1]
        simp only [Except.bind]
        rw [if_pos (by simpa using h3)]
        show WSim _ (Except.bind _ _) _
        rw [d1]
        simp only [Except.bind, i1]
        rw [e3]
        exact (printP_spec hB hcl hc other F E n t (hcl.ptr ty d t hT hd) i2 _ hp' w x rfl rfl (h4.ext hL e2) (by simp at hE; omega)).mono
          fun s hs => ext_trans e2 hs
    | list t =>
      injection g2 with g2; rw [← g2]
      simp only
      obtain ⟨i1, i2⟩ := g3 t (Or.inr (Or.inl rfl))
      obtain ⟨l1, grow, init, V⟩ := hB.list ty d t hT hd
      have hs1 := hL.list ty t l1
      cases hv with
      | scalar _ _ _ _ _ h1 => rw [l1] at h1; cases h1
      | map _ _ _ _ _ h1 => rw [l1] at h1; cases h1
      | obj _ _ _ _ h1 => rw [l1] at h1; cases h1
      | null _ _ _ _ h1 => rw [l1] at h1; cases h1
      | ptr _ _ _ _ _ h1 => rw [l1] at h1; cases h1
      | list _ _ e vs h1 h2 h3 h4 =>
      rw [l1] at h1; cases h1
      obtain ⟨hp', e1, e2⟩ := vec_size_read V (F + 1) hp o ho h2
      show WSim _ (Except.bind _ _) _
      rw [e1]
      simp only [Except.bind, i1]
      rw [h3]
      refine printArrayM_sim (I := Ext hp) vs (fun j x hj s w' hs => ?_) hp' w e2
      obtain ⟨v1, -, -⟩ := vec_kept h2 hs.grow fun y hy _ => hs.same y hy
      have ob := h2.obj.2
      have hlt : j < vs.length := by
        rcases Nat.lt_or_ge j vs.length with h | h
        · exact h
        · rw [List.getElem?_eq_none h] at hj; cases hj
      have m0 : s.mem o.addr = hp.mem o.addr := hs.same _ (by omega)
      have m1 : s.mem (o.addr + 1) = vs.length := by rw [hs.same _ (by omega), h3]
      obtain ⟨h5, own, r1, r2⟩ := at_read V F s o ho v1 j (by rw [m1]; exact hlt)
      show WSim _ (Except.bind _ _) _
      rw [r1]
      simp only [Except.bind]
      rw [m0]
      exact (printP_spec hB hcl hc other F E n t (hcl.list ty d t hT hd) i2 _ h5 w' x rfl rfl ((h4 j x hj).ext hL (ext_trans hs r2))
        (by have := List.sizeOf_lt_of_mem (List.mem_of_getElem? hj); simp at hE; omega)).mono fun s' hs' => ext_trans (ext_trans hs r2) hs'
    | map t =>
      injection g2 with g2; rw [← g2]
      simp only
      obtain ⟨i1, i2⟩ := g3 t (Or.inr (Or.inr rfl))
      obtain ⟨K, l1, V, k1, k2⟩ := hB.map ty d t hT hd
      cases hv with
      | scalar _ _ _ _ _ h1 => rw [l1] at h1; cases h1
      | list _ _ _ _ h1 => rw [l1] at h1; cases h1
      | obj _ _ _ _ h1 => rw [l1] at h1; cases h1
      | null _ _ _ _ h1 => rw [l1] at h1; cases h1
      | ptr _ _ _ _ _ h1 => rw [l1] at h1; cases h1
      | map _ _ e _ m h1 h2 h3 h4 h5 h6 =>
      rw [l1] at h1; cases h1
      obtain ⟨h0, ks, e1, e2, e3, e4⟩ := keys_read V k1 k2 (F + 1) hp o ho h2
      have hK := V.sizes.1
      show WSim _ (Except.bind _ _) _
      rw [e1]
      simp only [Except.bind, i1]
      rw [entries_keys, h5] at e3
      have e5 : ks.map (fun a => N.toStr (h0.cells a K.key)) = env.orderOf ty (m.map (·.1)) := by
        have := congrArg (List.map N.toStr) e3
        rw [List.map_map, List.map_map] at this
        rw [show (fun a => N.toStr (h0.cells a K.key)) = N.toStr ∘ (fun a => h0.cells a K.key) from rfl, this]
        exact (List.map_congr_left (g := id) (fun k _ => hB.keys k)).trans (List.map_id _)
      have e6 : d.order (m.map fun x => x.1) = env.orderOf ty (m.map fun x => x.1) := by unfold Env.orderOf; rw [hd.1]
      simp only [hd.1]
      rw [e6, ← e5]
      have hcells : ∀ s, Ext h0 s → ∀ a ∈ ks, s.cells a K.key = h0.cells a K.key := fun s hs a ha =>
        cells_congr fun j hj => hs.same _ (by have := (e4 a ha).2; omega)
      refine WSim.mono (printObjectM_sim (I := Ext h0) ks (key := fun a => N.toStr (h0.cells a K.key)) ?_ ?_ ?_ h0 w (ext_refl _))
        fun s hs => ext_trans e2 hs
      · intro a ha s hs
        show N.toStr (s.cells a (p.size N.stringT)) = _
        rw [← hK, hcells s hs a ha]
      · intro a ha s w' hs
        have hin : N.toStr (h0.cells a K.key) ∈ env.orderOf ty (m.map (·.1)) := by rw [← e5]; exact List.mem_map.2 ⟨a, ha, rfl⟩
        have hkc : h0.cells a K.key = keyCells p N.toNative (N.toStr (h0.cells a K.key)) := by
          have : h0.cells a K.key ∈ (env.orderOf ty (m.map (·.1))).map (keyCells p N.toNative) := by rw [← e3]; exact List.mem_map.2 ⟨a, ha, rfl⟩
          obtain ⟨k, -, hk⟩ := List.mem_map.1 this
          rw [← hk, hB.keys]
        generalize N.toStr (h0.cells a K.key) = k at hin hkc
        obtain ⟨x, hx⟩ := get_of_mem_keys (h4.mem_iff.1 hin)
        have x1 : Ext hp s := ext_trans e2 hs
        obtain ⟨w1, -, -, -, w5⟩ := map_kept h2 x1.grow fun y hy _ => x1.same y hy
        have hmem : keyCells p N.toNative k ∈ (hp.nodes o.addr).map (fun d => hp.cells d K.key) := by
          rw [h5]; exact List.mem_map.2 ⟨k, hin, rfl⟩
        obtain ⟨b, b1, b2⟩ := List.mem_map.1 hmem
        have hva : hp.ValueAt K o.addr (keyCells p N.toNative k) (b + K.key) := ⟨b, b1, rfl, b2⟩
        obtain ⟨h6', own, b', r1, r2, r3⟩ := map_at_read V (F + 1) s o ho w1 a (b + K.key) (ok_ext hs (e4 a ha))
          (by rw [hcells s hs a ha, hkc]; exact (w5 _ _).2 hva)
        rw [hcells s hs a ha, hkc] at r2
        rw [hx]
        show WSim _ (Except.bind _ _) _
        rw [r1]
        simp only [Except.bind]
        exact (printP_spec hB hcl hc other F E n t (hcl.map ty d t hT hd) i2 _ h6' w' x rfl rfl
          ((h6 k x b' hx ((w5 _ _).1 r2)).ext hL (ext_trans x1 r3))
          (by have := get_size hx; simp at hE; omega)).mono fun s' hs' => ext_trans (ext_trans hs r3) hs'
      · intro a ha s hs
        exact ⟨s, rfl, hs⟩
    | object =>
      injection g2 with g2; rw [← g2]
      simp only
      obtain ⟨field, l1, lf⟩ := hB.object ty d hT hd
      obtain ⟨k1, k2, -⟩ := g4 rfl
      cases hv with
      | scalar _ _ _ _ _ h1 => rw [l1] at h1; cases h1
      | list _ _ _ _ h1 => rw [l1] at h1; cases h1
      | map _ _ _ _ _ h1 => rw [l1] at h1; cases h1
      | null _ _ _ _ h1 => rw [l1] at h1; cases h1
      | ptr _ _ _ _ _ h1 => rw [l1] at h1; cases h1
      | obj _ _ _ fs h1 h2 h3 h4 =>
      rw [l1] at h1; cases h1
      simp only
      have hkey : ∀ a ∈ st.sortedKeys, ∃ (f : FieldD) (x : JV) (fd : Reflect.FieldD), Assoc.get st.keys a = some f.name ∧ Assoc.get st.fields f.name = some f.type ∧
          (Assoc.get c f.type).isSome ∧ T f.type ∧ Assoc.get fs f.name = some x ∧ p.w.fieldF p.w.fuel ty (nameOf f.name) = .ok fd ∧
          fd.arg.type = f.type ∧ Shows p N.toNative L env.orderOf hp f.type (o.addr + fd.offset) x := by
        intro a ha
        rw [k1] at ha
        have hmem : a ∈ d.keys := (sortKeys_perm _).mem_iff.mp ha
        obtain ⟨f, q1, q2⟩ := List.mem_filterMap.mp hmem
        obtain ⟨f, hl⟩ := last_exists d.fields f q1 q2
        obtain ⟨j1, j2, j3⟩ := k2 a f hl
        have hf : f ∈ d.fields ∧ f.key = some a := by
          obtain ⟨l1', l2', z1, z2, -⟩ := hl
          exact ⟨by rw [z1]; simp, z2⟩
        have hnn : f.key ≠ none := by rw [hf.2]; simp
        obtain ⟨fd, r1, r2, r3⟩ := lf f hf.1 hnn
        obtain ⟨x, hx⟩ := h3 _ _ r1
        exact ⟨f, x, fd, j1, j2, j3, hcl.field ty d f hT hd hf.1 hnn, hx, r2, r3, h4 _ _ _ hx r1⟩
      have hfld : ∀ (f : FieldD) (fd : Reflect.FieldD), p.w.fieldF p.w.fuel ty (nameOf f.name) = .ok fd →
          o.field p (nameOf f.name) = .ok ⟨⟨fd.arg.type, .lvalue, fd.arg.isConst || o.arg.isConst⟩, o.addr + fd.offset, none⟩ := by
        intro f fd h
        unfold Handle.field
        rw [ho, h]
      have := printObjectM_sim (I := Ext hp) (key := id) st.sortedKeys
        (name := fun (_ : Heap) (a : Bytes) => a)
        (fn := fun a h w => do
            let f ← (match Assoc.get st.keys a with
              | none => (.error .err : Res (Bytes × TyId))
              | some k =>
                match Assoc.get st.fields k with
                | none => .error .err
                | some t => .ok (k, t))
            let v ← o.field p (nameOf f.1)
            printP p N other env c (F + 2) E n f.2 v h w)
        (skip := fun a h =>
            if !w.opts.compact && !st.skipEmpty.contains a then .ok (h, false)
            else do
              let f ← (match Assoc.get st.keys a with
                | none => (.error .err : Res (Bytes × TyId))
                | some k =>
                  match Assoc.get st.fields k with
                  | none => .error .err
                  | some t => .ok (k, t))
              let v ← o.field p (nameOf f.1)
              isEmptyP p N c (F + 2) E f.2 v h)
        (gn := fun a w => do
              let p ← (match Assoc.get st.keys a with
                | none => (.error .err : Res (TyId × JV))
                | some k =>
                  match Assoc.get st.fields k with
                  | none => .error .err
                  | some t => match Assoc.get fs k with | none => .error .err | some x => .ok (t, x))
              printV env c n p.1 p.2 w)
        (gskip := fun a =>
              if !w.opts.compact && !st.skipEmpty.contains a then .ok false
              else do
                let p ← (match Assoc.get st.keys a with
                  | none => (.error .err : Res (TyId × JV))
                  | some k =>
                    match Assoc.get st.fields k with
                    | none => .error .err
                    | some t => match Assoc.get fs k with | none => .error .err | some x => .ok (t, x))
                isEmptyV env c p.2 p.1)
        (fun _ _ _ _ => rfl) ?_ ?_ hp w (ext_refl _)
      · rw [List.map_id] at this
        exact this
      · intro a ha s w' hs
        obtain ⟨f, x, fd, j1, j2, j3, j4, j5, j6, j7, j8⟩ := hkey a ha
        simp only [id, j1, j2, j5]
        show WSim _ (Except.bind _ _) (Except.bind _ _)
        simp only [Except.bind]
        show WSim _ (Except.bind _ _) _
        rw [hfld f fd j6]
        simp only [Except.bind]
        exact (printP_spec hB hcl hc other F E n f.type j4 j3 _ s w' x j7 rfl (j8.ext hL hs)
          (by have := get_size j5; simp at hE; omega)).mono fun s' hs' => ext_trans hs hs'
      · intro a ha s hs
        obtain ⟨f, x, fd, j1, j2, j3, j4, j5, j6, j7, j8⟩ := hkey a ha
        simp only [id]
        by_cases hsk : (!w.opts.compact && !st.skipEmpty.contains a) = true
        · rw [if_pos hsk, if_pos hsk]; exact ⟨s, rfl, hs⟩
        · rw [if_neg hsk, if_neg hsk]
          simp only [j1, j2, j5]
          show WSim _ (Except.bind _ _) (Except.bind _ _)
          simp only [Except.bind]
          show WSim _ (Except.bind _ _) _
          rw [hfld f fd j6]
          simp only [Except.bind]
          exact (isEmptyP_spec hB hcl hc F E f.type j4 j3 _ s x j7 rfl (j8.ext hL hs)
            (by have := get_size j5; simp at hE; omega)).mono fun s' hs' => ext_trans hs hs'

/-! ### The claims -/

/-- C89. `json::print(writer, value)` of an object in memory that has the value `v` - through an lvalue, const or not - has
the outcome of `print` of the tree `v` (Model/Json/Typed.lean, C40-C65): the same error, or the same text in the same writer; the
cache of printers is the same afterwards; and of the memory nothing that existed has changed. -/
theorem C89_print (hB : BackedW p N L env T) (hcl : env.Closed T) (hn : env.Named) {c : WCache} (hc : Printers env c) (other : OtherW) (F E n : Nat)
    (ty : Ty) (hT : T ty) (o : Handle) (ho : o.arg.type = ty) (hol : o.arg.ref = .lvalue) (hp : Heap) (v : JV)
    (hv : Shows p N.toNative L env.orderOf hp ty o.addr v) (hE : sizeOf v < E) (w : Writer) :
    (printMem p N other env (F + 2) E n c ty o hp w).2 = (print env n c ty v w).2 ∧
    match (print env n c ty v w).1 with
    | .error e => (printMem p N other env (F + 2) E n c ty o hp w).1 = .error e
    | .ok w' => ∃ hp', (printMem p N other env (F + 2) E n c ty o hp w).1 = .ok (hp', w') ∧ Ext hp hp' := by
  unfold printMem print
  simp only
  cases hg : (getPrinter env n ty c).1 with
  | error e => exact ⟨rfl, rfl⟩
  | ok u =>
    refine ⟨rfl, ?_⟩
    obtain ⟨g1, g2⟩ := getPrinter_Good hn (c' := (getPrinter env n ty c).2) (n := n) (ty := ty) (c := c) (by rw [← hg]) (printers_good hn hc)
    have := printP_spec hB hcl g1 other F E n ty hT g2 o hp w v ho hol hv hE
    simp only
    cases hq : printV env (getPrinter env n ty c).2 n ty v w with
    | error e => rw [hq] at this; exact this
    | ok q => rw [hq] at this; exact this

/-- C89. Every object that can be parsed into - and so every one that was parsed into (C88) - can be printed: what is printed is its value, the
entries of maps in the order in which the maps go through them. -/
theorem C89_whole (hB : BackedW p N L env T) (hcl : env.Closed T) (hn : env.Named) (hid : ∀ ty ks, env.orderOf ty ks = ks) {c : WCache}
    (hc : Printers env c) (other : OtherW) (F n : Nat) (ty : Ty) (hT : T ty) (o : Handle) (ho : o.arg.type = ty) (hol : o.arg.ref = .lvalue) (hp : Heap)
    (v : JV) (O : Nat → Prop) (hr : Rep p N.toNative L hp ty o.addr v O) (w : Writer) :
    ∃ v', Shuffled v v' ∧ ∃ E0, ∀ E, E0 ≤ E →
    match (print env n c ty v' w).1 with
    | .error e => (printMem p N other env (F + 2) E n c ty o hp w).1 = .error e
    | .ok w' => ∃ hp', (printMem p N other env (F + 2) E n c ty o hp w).1 = .ok (hp', w') ∧ Rep p N.toNative L hp' ty o.addr v O := by
  obtain ⟨v', h1, h2⟩ := hr.shows hB.sound
  rw [show (fun (_ : Ty) (ks : List Bytes) => ks) = env.orderOf from funext fun ty => funext fun ks => (hid ty ks).symm] at h2
  refine ⟨v', h1, sizeOf v' + 1, fun E hE => ?_⟩
  have := (C89_print hB hcl hn hc other F E n ty hT o ho hol hp v' h2 (by omega) w).2
  cases hq : (print env n c ty v' w).1 with
  | error e => rw [hq] at this; exact this
  | ok w' =>
    rw [hq] at this
    obtain ⟨hp', e1, e2⟩ := this
    exact ⟨hp', e1, hr.kept hB.sound e2.grow fun y hy _ => e2.same y hy⟩

/-- C89. What is printed of one object in memory can be parsed into another, which then has the value that reading back the printed tree gives
(`ValueBack`, C40). The first one and all others stay as they were. -/
theorem C89_back (hB : BackedW p N L env T) {smart : Ty → Bool} (hP : Backed p N.toNative L env smart T) (hcl : env.Closed T) (hn : env.Named)
    {cw : WCache} (hw : Printers env cw) {c : PCache} (hc : Parsers env c) (otherW : OtherW) (other : Other) (F : Nat) (ty : Ty) (hT : T ty)
    (o : Handle) (ho : o.arg.type = ty) (hol : o.arg.ref = .lvalue) (b : Handle) (hb : b.arg = ty.lref) (hp : Heap) (v u v' : JV) (O : Nat → Prop)
    (hv : Shows p N.toNative L env.orderOf hp ty o.addr v) (hr : Rep p N.toNative L hp ty b.addr u O) (wo : WOpts) (ro : ROpts)
    (hvb : ValueBack env cw c wo ro ty v u v') :
    ∃ n0 E0 out, ∀ n, n0 ≤ n → ∀ E, E0 ≤ E → ∃ hp1 w, (printMem p N otherW env (F + 2) E n cw ty o hp (Writer.new wo)).1 = .ok (hp1, w) ∧
      w.err = none ∧ w.out = out ∧
      ∀ y, Stops y → ∃ hp2 O' r, (parseMem p N.toNative smart other env (F + 2) n c ty b hp1 (Reader.open ro (out ++ y))).1 = .ok (b, hp2, r) ∧
        r.err = none ∧ r.rest = y ∧ Become p N.toNative L hp hp2 ty b.addr O v' O' := by
  obtain ⟨n0, out, h1, h2⟩ := hvb
  refine ⟨n0, sizeOf v + 1, out, fun n hn0 E hE => ?_⟩
  obtain ⟨w, a1, a2, a3⟩ := h1 n hn0
  have := (C89_print hB hcl hn hw otherW F E n ty hT o ho hol hp v hv (by omega) (Writer.new wo)).2
  rw [a1] at this
  obtain ⟨hp1, b1, b2⟩ := this
  refine ⟨hp1, w, b1, a2, a3, fun y hy => ?_⟩
  obtain ⟨r, e1, e2, e3⟩ := h2 y hy n hn0
  have hr1 : Rep p N.toNative L hp1 ty b.addr u O := hr.kept hB.sound b2.grow fun y hy _ => b2.same y hy
  have := (C88_parse hP hcl hn hc other F n ty hT b hb hp1 u O hr1 (Reader.open ro (out ++ y))).2
  rw [e1] at this
  obtain ⟨hp2, O', q1, q2⟩ := this
  exact ⟨hp2, O', r, q1, e2, e3, q2.rep, fun y hy z1 z2 => by rw [q2.same y (Nat.lt_of_lt_of_le hy b2.grow) z1 z2, b2.same y hy],
    fun y hy z => q2.mine y (Nat.lt_of_lt_of_le hy b2.grow) z, Nat.le_trans b2.grow q2.grow⟩

end

/-! ### an example -/

namespace PlaceDemo

def nativeW : NativeW :=
  { native with
    sizeT := 7, keysT := 8, toBool := fun l => l.headD 0 != 0, toInt := fun l => if l.headD 0 < 2 ^ 63 then (l.headD 0 : Int) else (l.headD 0 : Int) - 2 ^ 64
    toFlt := fun l => UInt64.ofNat (l.headD 0), toStr := fun l => decode (l.headD 0) (l.headD 0) }

theorem plain2 (t : Ty) (id : Name) (b : Nat) (ht : (t = 2 ∧ id = ['i'] ∧ b = 20) ∨ (t = 3 ∧ id = ['s'] ∧ b = 20) ∨ (t = 8 ∧ id = ['k'] ∧ b = 30)) :
    PlainCopy prog t ∧ prog.w.env.conv t t = false := by
  have hb : ∀ hp a m, hp.Ok a (prog.size t) → prog.impl (b + 1) hp [.obj a m] = (hp.copyObj (prog.size t) a).map fun r => (r.1, .obj r.2) := by
    intro hp a m _
    rcases ht with ⟨rfl, -, rfl⟩ | ⟨rfl, -, rfl⟩ | ⟨rfl, -, rfl⟩ <;> rfl
  have hb' : ∀ hp a m, hp.Ok a (prog.size t) → prog.impl (b + 3) hp [.obj a m] = (hp.moveObj (prog.moved t) (prog.size t) a).map fun r => (r.1, .obj r.2) := by
    intro hp a m _
    rcases ht with ⟨rfl, -, rfl⟩ | ⟨rfl, -, rfl⟩ | ⟨rfl, -, rfl⟩ <;> rfl
  refine ⟨⟨?_, ?_, by decide, ?_, rfl, rfl, [Fn.make id t.val [] b], Fn.make id t.val [t.cref] (b + 1), [Fn.make id t.val [t.rref] (b + 3)], ?_, ⟨rfl, rfl, hb⟩, ?_⟩, ?_⟩
  · rcases ht with ⟨rfl, -⟩ | ⟨rfl, -⟩ | ⟨rfl, -⟩ <;> decide
  · rcases ht with ⟨rfl, -⟩ | ⟨rfl, -⟩ | ⟨rfl, -⟩ <;> decide
  · rcases ht with ⟨rfl, -⟩ | ⟨rfl, -⟩ | ⟨rfl, -⟩ <;> decide +kernel
  · rcases ht with ⟨rfl, rfl, rfl⟩ | ⟨rfl, rfl, rfl⟩ | ⟨rfl, rfl, rfl⟩ <;> decide +kernel
  · intro g hg
    simp only [List.cons_append, List.nil_append, List.mem_cons, List.not_mem_nil, or_false] at hg
    rcases hg with rfl | rfl
    · exact Or.inr (Or.inl (by simp [Fn.make]))
    · exact Or.inl ⟨rfl, rfl, hb'⟩
  · rcases ht with ⟨rfl, -⟩ | ⟨rfl, -⟩ | ⟨rfl, -⟩ <;> decide +kernel

theorem int_back (i : Int) (h : -(2 ^ 63 : Int) ≤ i ∧ i < 2 ^ 63) : nativeW.toInt ((List.range 1).map (native.int i)) = i := by
  show (if (i % 2 ^ 64).toNat < 2 ^ 63 then ((i % 2 ^ 64).toNat : Int) else ((i % 2 ^ 64).toNat : Int) - 2 ^ 64) = i
  split <;> omega

theorem str_back (s : Bytes) : nativeW.toStr ((List.range 1).map (native.str s)) = s := decode_code s _ (code_length s)

theorem sized : Sized prog layout 7 3 := by
  refine ⟨by decide, by decide +kernel, ⟨plainSize, rfl, by decide +kernel⟩, fn "size" (Ty.val 7) [Ty.cref 3] 118, by decide +kernel, rfl, rfl, ?_⟩
  intro hp a k cells s cs h1 h2 h3 h4
  cases h1
  simp only at h2
  cases h2
  have := h4 0 (by decide)
  rw [Nat.add_zero] at this
  show (.ok ((hp.newObj (fun _ => (decode (hp.mem a) (hp.mem a)).length) 1).1, .obj _) : Res (Heap × BRet)) = _
  rw [this, show native.str s 0 = code s from rfl, decode_code s _ (code_length s)]

theorem backedW : BackedW prog nativeW layout env T := by
  refine ⟨sound, str_back, ?_, ?_, ?_, ?_, ?_, ?_, ?_, ?_⟩
  · intro ty d hT h
    rcases kinds hT h with ⟨-, -, c⟩ | ⟨-, -, c⟩ | ⟨-, -, c⟩ | ⟨-, -, c⟩ | ⟨-, -, c⟩ | ⟨-, -, c⟩ | ⟨-, -, c⟩ <;> cases c
  · intro ty d hT h
    rcases kinds hT h with ⟨rfl, rfl, -⟩ | ⟨-, -, c⟩ | ⟨-, -, c⟩ | ⟨-, -, c⟩ | ⟨-, -, c⟩ | ⟨-, -, c⟩ | ⟨-, -, c⟩ <;> try cases c
    refine ⟨by decide, ⟨_, rfl, fun v cs hv => ?_⟩, fun _ => ⟨rfl, plain2 2 ['i'] 20 (by simp)⟩, fun c => by cases c⟩
    cases v with
    | int i =>
      simp only at hv
      split at hv
      · rename_i hi; cases hv; exact ⟨i, rfl, fun _ => int_back i hi⟩
      · cases hv
    | _ => cases hv
  · intro ty d hT h
    rcases kinds hT h with ⟨-, -, c⟩ | ⟨-, -, c⟩ | ⟨-, -, c⟩ | ⟨-, -, c⟩ | ⟨-, -, c⟩ | ⟨-, -, c⟩ | ⟨-, -, c⟩ <;> cases c
  · intro ty d hT h
    rcases kinds hT h with ⟨-, -, c⟩ | ⟨rfl, rfl, -⟩ | ⟨-, -, c⟩ | ⟨-, -, c⟩ | ⟨-, -, c⟩ | ⟨-, -, c⟩ | ⟨-, -, c⟩ <;> try cases c
    refine ⟨⟨by decide, ⟨_, rfl, fun v cs hv => ?_⟩, fun _ => ⟨rfl, plain2 3 ['s'] 20 (by simp)⟩, fun c => by cases c⟩, sized⟩
    cases v with
    | str s => cases hv; exact ⟨s, rfl, fun _ => str_back s⟩
    | _ => cases hv
  · intro ty d t hT h
    rcases kinds hT h with ⟨-, -, c⟩ | ⟨-, -, c⟩ | ⟨-, -, c⟩ | ⟨-, -, c⟩ | ⟨-, -, c⟩ | ⟨rfl, -, c⟩ | ⟨rfl, -, c⟩ <;> cases c
    · exact ⟨1, rfl, Or.inr ⟨12, false, unique.toReflectedPtr⟩, rfl, by decide +kernel⟩
    · exact ⟨2, rfl, Or.inr ⟨14, false, shared.toReflectedPtr⟩, rfl, by decide +kernel⟩
  · intro ty d t hT h
    rcases kinds hT h with ⟨-, -, c⟩ | ⟨-, -, c⟩ | ⟨rfl, rfl, c⟩ | ⟨-, -, c⟩ | ⟨-, -, c⟩ | ⟨-, -, c⟩ | ⟨-, -, c⟩ <;> cases c
    exact ⟨rfl, _, _, vector⟩
  · intro ty d t hT h
    rcases kinds hT h with ⟨-, -, c⟩ | ⟨-, -, c⟩ | ⟨-, -, c⟩ | ⟨rfl, rfl, c⟩ | ⟨-, -, c⟩ | ⟨-, -, c⟩ | ⟨-, -, c⟩ <;> cases c
    exact ⟨_, rfl, map, plain2 8 ['k'] 30 (by simp)⟩
  · intro ty d hT h
    rcases kinds hT h with ⟨-, -, c⟩ | ⟨-, -, c⟩ | ⟨-, -, c⟩ | ⟨-, -, c⟩ | ⟨rfl, rfl, -⟩ | ⟨-, -, c⟩ | ⟨-, -, c⟩ <;> try cases c
    refine ⟨field, rfl, fun f hf _ => ?_⟩
    simp only [node, List.mem_cons, List.not_mem_nil, or_false] at hf
    rcases hf with rfl | rfl | rfl | rfl | rfl | rfl
    · exact ⟨⟨Ty.val 2, 0⟩, rfl, by decide +kernel, rfl⟩
    · exact ⟨⟨Ty.val 3, 1⟩, rfl, by decide +kernel, rfl⟩
    · exact ⟨⟨Ty.val 4, 2⟩, rfl, by decide +kernel, rfl⟩
    · exact ⟨⟨Ty.val 5, 5⟩, rfl, by decide +kernel, rfl⟩
    · exact ⟨⟨Ty.val 11, 7⟩, rfl, by decide +kernel, rfl⟩
    · exact ⟨⟨Ty.val 13, 8⟩, rfl, by decide +kernel, rfl⟩

/-- A `node` at 1 with all its parts - the elements of `l` at 12, the entry of `m` at 14, whose elements are at 19, `*p` at 22, `*p->s` at 33 - and a `node` at 40
all of whose cells are 0. -/
def full : Heap :=
  { next := 51
    mem := fun y => ([0, 7, 98, 12, 1, 1, 13, 1, 22, 0, 0, 0, 7, 14, 108, 19, 1, 1, 0, 5, 0, 0, 3, 0, 0, 0, 0, 0, 0, 0, 33, 32, 1, 4] : List Nat).getD y 0 }

theorem shows_num (a : Nat) (i : Int) (hi : -(2 ^ 63 : Int) ≤ i ∧ i < 2 ^ 63) (ha : 0 < a ∧ a < 51) (hm : full.mem a = (i % 2 ^ 64).toNat) :
    Shows prog native layout env.orderOf full 2 a (.int i) := by
  refine .scalar 2 a _ _ _ rfl (if_pos hi) ⟨ha.1, ha.2⟩ fun j hj => ?_
  have : j = 0 := by simp [prog] at hj; exact hj
  subst this
  exact hm

theorem shows_str (a : Nat) (s : Bytes) (ha : 0 < a ∧ a < 51) (hm : full.mem a = code s) : Shows prog native layout env.orderOf full 3 a (.str s) := by
  refine .scalar 3 a _ _ _ rfl rfl ⟨ha.1, ha.2⟩ fun j hj => ?_
  have : j = 0 := by simp [prog] at hj; exact hj
  subst this
  exact hm

theorem shows_list (a b : Nat) (i : Int) (hi : -(2 ^ 63 : Int) ≤ i ∧ i < 2 ^ 63) (ha : 0 < a ∧ a + 3 ≤ 51) (hb : 0 < b ∧ b < 51 ∧ a + 3 ≤ b)
    (h1 : full.mem a = b) (h2 : full.mem (a + 1) = 1) (h3 : full.mem (a + 2) = 1) (h4 : full.mem b = (i % 2 ^ 64).toNat) :
    Shows prog native layout env.orderOf full 4 a (.list [.int i]) := by
  refine .list 4 a 2 _ rfl ⟨ha, by omega, Or.inl ?_, Or.inl ?_⟩ h2 fun j v hv => ?_
  · rw [h1, h3]; exact ⟨hb.1, hb.2.1⟩
  · rw [h1]; exact hb.2.2
  · cases j with
    | zero => cases hv; rw [h1]; exact shows_num b i hi ⟨hb.1, hb.2.1⟩ h4
    | succ j => simp at hv

theorem shows_nil (a : Nat) (ha : 0 < a ∧ a + 3 ≤ 51) (h2 : full.mem (a + 1) = 0) (h3 : full.mem (a + 2) = 0) :
    Shows prog native layout env.orderOf full 4 a (.list []) :=
  .list 4 a 2 _ rfl ⟨ha, by omega, Or.inr h3, Or.inr (Or.inr h3)⟩ h2 fun j v hv => by cases hv

theorem shows_node (a : Nat) (ha : 0 < a ∧ a + 10 ≤ 51) (i na l m q s : JV) (h1 : Shows prog native layout env.orderOf full 2 a i)
    (h2 : Shows prog native layout env.orderOf full 3 (a + 1) na) (h3 : Shows prog native layout env.orderOf full 4 (a + 2) l)
    (h4 : Shows prog native layout env.orderOf full 5 (a + 5) m) (h5 : Shows prog native layout env.orderOf full 11 (a + 7) q)
    (h6 : Shows prog native layout env.orderOf full 13 (a + 8) s) :
    Shows prog native layout env.orderOf full 6 a (.obj [([105], i), ([110, 97], na), ([108], l), ([109], m), ([112], q), ([115], s)]) := by
  refine .obj 6 a field _ rfl ha ?_ ?_
  · intro k f hf
    unfold field at hf
    split at hf <;> cases hf <;> exact ⟨_, rfl⟩
  · intro k x f hx hf
    unfold field at hf
    split at hf <;> cases hf <;> cases hx <;> assumption

theorem shows_empty (a : Nat) (ha : 0 < a ∧ a + 2 ≤ 51) (h1 : full.mem (a + 1) = 0) : Shows prog native layout env.orderOf full 5 a (.map []) := by
  have hn : full.nodes a = [] := by unfold Heap.nodes; rw [h1]; rfl
  refine .map 5 a 4 kind [] rfl ⟨ha, Or.inr h1, Or.inr (Or.inr h1), ?_, ?_, ?_, ?_⟩ .nil (.refl _) (by rw [hn]; rfl) (by intro k x b hx; cases hx)
  · rw [hn]; intro d hd; cases hd
  · rw [hn]; exact .nil
  · rw [hn]; exact .nil
  · rw [hn]; intro _ _; exact .nil

/-- the object at 1 has the value `after` -/
theorem shows : Shows prog native layout env.orderOf full 6 1 after := by
  refine shows_node 1 (by decide) _ _ _ _ _ _ (shows_num _ 7 (by decide) (by decide) rfl) (shows_str _ [97] (by decide) (by decide))
    (shows_list _ 12 7 (by decide) (by decide) (by decide) rfl rfl rfl rfl) ?_ ?_ ?_
  · refine .map 5 6 4 kind _ rfl ⟨by decide, Or.inl (by decide), Or.inl (by decide), by decide, by decide, by decide,
      fun l _ => by rw [show (full.nodes 6).map (fun a => full.cells a kind.key) = [[108]] by decide]; exact List.pairwise_singleton _ _⟩ (by decide) (.refl _) (by decide +kernel) ?_
    intro k x b hx hb
    simp only [Assoc.get] at hx
    split at hx
    · cases hx
      obtain ⟨d, d1, rfl, -⟩ := hb
      have : d = 14 := by simpa [Heap.nodes, full, List.range, List.range.loop] using d1
      subst this
      exact shows_list _ 19 5 (by decide) (by decide) (by decide) rfl rfl rfl rfl
    · cases hx
  · refine .ptr 11 8 6 1 _ rfl ⟨by decide, by decide⟩ (by decide) ?_
    refine shows_node 22 (by decide) _ _ _ _ _ _ (shows_num _ 3 (by decide) (by decide) rfl) (shows_str _ [] (by decide) (by decide))
      (shows_nil _ (by decide) rfl rfl) (shows_empty _ (by decide) rfl) (.null 11 _ 6 1 rfl ⟨by decide, by decide⟩ rfl) ?_
    exact .ptr 13 _ 2 2 _ rfl ⟨by decide, by decide⟩ (by decide) (shows_num _ 4 (by decide) (by decide) rfl)
  · exact .null 13 9 2 2 rfl ⟨by decide, by decide⟩ rfl

theorem shaped : env.Shaped := by
  intro ty d h
  have : d ∈ env.types := List.mem_of_getElem? h
  simp only [env, List.mem_cons, List.not_mem_nil, or_false] at this
  rcases this with rfl | rfl | rfl | rfl | rfl | rfl | rfl | rfl | rfl | rfl | rfl | rfl | rfl | rfl | rfl | rfl
  all_goals first
    | exact ⟨_, .int rfl⟩
    | exact ⟨_, .string rfl⟩
    | exact ⟨_, .list 2 rfl rfl⟩
    | exact ⟨_, .map 4 rfl rfl⟩
    | exact ⟨_, .map 13 rfl rfl⟩
    | exact ⟨_, .ptr 6 rfl rfl⟩
    | exact ⟨_, .ptr 2 rfl rfl⟩
    | exact ⟨_, .void rfl (by intro t h; cases h)⟩
    | exact ⟨_, .object rfl (by intro t h; cases h)⟩

theorem ascii_survives : ∀ s : Bytes, (∀ b ∈ s, b < 128) → Survives WOpts.default ROpts.default s := by
  intro s h
  refine ⟨fun _ => ⟨rfl, s.map UInt8.toNat, ?_, ?_⟩, fun h => by cases h⟩
  · intro n hn
    obtain ⟨b, -, rfl⟩ := List.mem_map.1 hn
    have := b.toNat_lt
    omega
  · induction s with
    | nil => rfl
    | cons b s ih =>
      have hb : b < 128 := h b (by simp)
      have hb' : b.toNat < 128 := UInt8.lt_iff_toNat_lt.1 hb
      rw [List.map_cons, List.flatMap_cons, ← ih fun b hb => h b (by simp [hb])]
      have : utf8 b.toNat = [b] := by
        unfold utf8
        rw [if_pos (by omega)]
        simp
      rw [this]; rfl

theorem comes_back : ValueBack env [] [] WOpts.default ROpts.default 6 after before after := by
  have hs := ascii_survives
  have hsk : ∀ a, ¬ env.Skips 6 node a := by
    rintro a ⟨f, hf, _, t, h1, h2⟩
    simp only [node, List.mem_cons, List.not_mem_nil, or_false] at hf
    rcases hf with rfl | rfl | rfl | rfl | rfl | rfl <;> simp at h1
    subst h1
    revert h2; decide
  have hno : ∀ a (f : FieldD) v, ¬ ((WOpts.default.compact = true ∨ env.Skips 6 node a) ∧ Empty env f.type v) := by
    rintro a f v ⟨h | h, -⟩
    · cases h
    · exact hsk a h
  have hobj : ∀ i na l m q s, Back env (Survives WOpts.default ROpts.default) WOpts.default.compact 2 (.int 0) i →
      Back env (Survives WOpts.default ROpts.default) WOpts.default.compact 3 (.str []) na →
      Back env (Survives WOpts.default ROpts.default) WOpts.default.compact 4 (.list []) l →
      Back env (Survives WOpts.default ROpts.default) WOpts.default.compact 5 (.map []) m →
      Back env (Survives WOpts.default ROpts.default) WOpts.default.compact 11 .null q →
      Back env (Survives WOpts.default ROpts.default) WOpts.default.compact 13 .null s →
      Back env (Survives WOpts.default ROpts.default) WOpts.default.compact 6 before
        (.obj [([105], i), ([110, 97], na), ([108], l), ([109], m), ([112], q), ([115], s)]) := by
    intro i na l m q s h1 h2 h3 h4 h5 h6
    refine .obj 6 node _ _ has6 (by decide) (by decide)
      (show ([[105], [110, 97], [108], [109], [112], [115]] : List Bytes).Nodup by decide)
      (show ∀ f ∈ node.fields, f.key ≠ none → f.name ∈ ([[105], [110, 97], [108], [109], [112], [115]] : List Bytes) by decide) ?_
    refine .shown 6 node ⟨[105], 2, none⟩ [105] _ _ _ _ (by simp [node]) rfl (hs _ (by decide)) (hno _ _ _) h1 ?_
    refine .shown 6 node ⟨[110, 97], 3, some (.mkAlias [110])⟩ [110] _ _ _ _ (by simp [node]) (by decide) (hs _ (by decide)) (hno _ _ _) h2 ?_
    refine .shown 6 node ⟨[108], 4, none⟩ [108] _ _ _ _ (by simp [node]) rfl (hs _ (by decide)) (hno _ _ _) h3 ?_
    refine .shown 6 node ⟨[109], 5, none⟩ [109] _ _ _ _ (by simp [node]) rfl (hs _ (by decide)) (hno _ _ _) h4 ?_
    refine .shown 6 node ⟨[112], 11, none⟩ [112] _ _ _ _ (by simp [node]) rfl (hs _ (by decide)) (hno _ _ _) h5 ?_
    exact .shown 6 node ⟨[115], 13, none⟩ [115] _ _ _ _ (by simp [node]) rfl (hs _ (by decide)) (hno _ _ _) h6 (.nil _ _)
  refine C45_round_trip env (namedB_spec (by decide)) shaped T closed (fun ty d h => backed.notVoid ty d h) [] .fresh [] .fresh WOpts.default ROpts.default 6
    (by simp [T]) before after ?_ (by decide)
  have hlist : ∀ i : Int, -(2 ^ 63 : Int) ≤ i → i < 2 ^ 63 →
      Back env (Survives WOpts.default ROpts.default) WOpts.default.compact 4 (.list []) (.list [.int i]) := fun i h1 h2 =>
    .list 4 _ 2 _ has4 (.cons 2 tInt (.int 0) _ _ rfl rfl (.int 2 _ _ i has2 rfl h1 h2) (.nil 2))
  refine hobj _ _ _ _ _ _ (.int 2 _ _ 7 has2 rfl (by decide) (by decide)) (.str 3 _ _ _ has3 rfl (hs _ (by decide))) (hlist 7 (by decide) (by decide)) ?_ ?_
    (.null 13 _ 2 _ has13)
  · exact .map 5 tMap 4 _ has5 (by unfold Ordered; decide) (.refl _) (.cons 4 tList (.list []) _ _ _ rfl rfl (hs _ (by decide)) (hlist 5 (by decide) (by decide)) (.nil 4))
  · refine .ptrNew 11 _ 6 node before _ has11 rfl rfl rfl rfl ?_
    refine hobj _ _ _ _ _ _ (.int 2 _ _ 3 has2 rfl (by decide) (by decide)) (.str 3 _ _ _ has3 rfl (hs _ (by decide)))
      (.list 4 _ 2 _ has4 (.nil 2)) (.map 5 tMap 4 _ has5 (by unfold Ordered; decide) (.refl _) (.nil 4)) (.null 11 _ 6 _ has11) ?_
    exact .ptrNew 13 _ 2 tInt (.int 0) _ has13 rfl rfl rfl rfl (.int 2 _ _ 4 has2 rfl (by decide) (by decide))

/-- All of C89 applies: the object at 1 is printed, and what was printed is parsed into the one at 40, which then has the value `after` as well; the object
at 1 still has its number. -/
example (otherW : OtherW) (other : Other) : ∃ n E hp1 w hp2 O r,
    (printMem prog nativeW otherW env 2 E n [] 6 ⟨Ty.cref 6, 1, none⟩ full (Writer.new WOpts.default)).1 = .ok (hp1, w) ∧ w.err = none ∧
    (parseMem prog native smart other env 2 n [] 6 ⟨Ty.lref 6, 40, none⟩ hp1 (Reader.open ROpts.default (w.out ++ []))).1 = .ok (⟨Ty.lref 6, 40, none⟩, hp2, r) ∧
    r.err = none ∧ Rep prog native layout hp2 6 40 after O ∧ hp2.mem 1 = 7 := by
  have hrep : Rep prog native layout full 6 40 before fun _ => False := by
    refine rep_node ⟨by decide, by decide⟩ fun j hj => ?_
    have : ∀ j < 10, full.mem (40 + j) = 0 := by decide
    exact this j hj
  obtain ⟨n, E, out, h⟩ := C89_back backedW backed closed (namedB_spec (by decide)) .fresh .fresh otherW other 0 6 (by simp [T]) ⟨Ty.cref 6, 1, none⟩ rfl rfl
    ⟨Ty.lref 6, 40, none⟩ rfl full after before after (fun _ => False) shows hrep WOpts.default ROpts.default comes_back
  obtain ⟨hp1, w, h1, h2, h3, h4⟩ := h n (Nat.le_refl _) E (Nat.le_refl _)
  obtain ⟨hp2, O, r, e1, e2, -, e4⟩ := h4 [] (by intro c hc; cases hc)
  refine ⟨n, E, hp1, w, hp2, O, r, h1, h2, by rw [h3]; exact e1, e2, e4.rep, ?_⟩
  rw [e4.same 1 (by decide) (by unfold OwnCell; decide) (fun h => h)]
  rfl

end PlaceDemo

end Reflect.Json

import Verif.Lemmas.MapFns
import Verif.Props.Vector
import Verif.Props.Assign
/-
  C86 A reflected map is a finite map.
-/
namespace Reflect
open World

/-- The functions of a reflected map `t` from `key` to `elem`, as objects of type `s` answer to them: `s` is `t`, or
derives from it and has no functions of these names. `keysT` is `std::vector<key>`. -/
structure ReflectedMap (p : Prog) (s t key elem keysT sizeT : Ty) (K : MapKind) : Prop where
  distinct : p.w.valueT ≠ p.w.voidT
  notValue : s ≠ p.w.valueT ∧ t ≠ p.w.valueT ∧ key ≠ p.w.valueT ∧ elem ≠ p.w.valueT ∧ keysT ≠ p.w.valueT
  derives : p.w.env.child s t = true
  noConverter : p.w.env.conv s t = false
  noKeyConverter : p.w.env.conv key key = false
  sizes : K.key = p.size key ∧ K.val = p.size elem
  arranges : ∀ hp ns, (K.arrange hp ns).Perm ns
  ordered : ∀ l, K.less = some l → TotalOrder l
  /-- `size_t` -/
  index : PlainCopy p sizeT
  cell : p.size sizeT = 1
  noSizeConverter : p.w.env.conv sizeT sizeT = false
  /-- vectors can be returned -/
  keysReturn : p.size keysT = 3 ∧ ((p.caps keysT).copyConstructible = true ∨ (p.caps keysT).moveConstructible = true)
  size : ∃ f : Fn, p.w.functionF p.w.fuel s "size".toList = .ok [f] ∧ f.args = [t.cref] ∧ f.ret = sizeT.val ∧
    ∀ hp m k, p.impl f.body hp [.obj m k] = mapSize hp m
  count : ∃ f : Fn, p.w.functionF p.w.fuel s "count".toList = .ok [f] ∧ f.args = [t.cref, key.cref] ∧ f.ret = sizeT.val ∧
    ∀ hp m i k k', p.impl f.body hp [.obj m k, .obj i k'] = mapCount K hp m i
  sub : ∃ f : Fn, p.w.functionF p.w.fuel s "operator[]".toList = .ok [f] ∧ f.args = [t.lref, key.cref] ∧ f.ret = elem.lref ∧
    ∀ hp m i k k', p.impl f.body hp [.obj m k, .obj i k'] = mapIndex K hp m i
  «at» : ∃ f : Fn, p.w.functionF p.w.fuel s "at".toList = .ok [f] ∧ f.args = [t.cref, key.cref] ∧ f.ret = elem.cref ∧
    ∀ hp m i k k', p.impl f.body hp [.obj m k, .obj i k'] = mapAt K hp m i
  keys : ∃ f : Fn, p.w.functionF p.w.fuel s "keys".toList = .ok [f] ∧ f.args = [t.cref] ∧ f.ret = keysT.val ∧
    ∀ hp m k, p.impl f.body hp [.obj m k] = mapKeys K hp m

/-- the caller hands over a key: a variable, a `Value`, or a temporary -/
inductive HandsKey (p : Prog) (hp : Heap) (key : Ty) : Actual → Prop
  | kept (x : Actual) : (∀ arg a, x = .native arg a → arg.ref = .lvalue) → x.arg.type ≠ p.w.valueT → p.w.env.child x.arg.type key = true →
      p.w.env.conv x.arg.type key = false → hp.Ok x.handle.addr (p.size key) → HandsKey p hp key x
  | temporary (a : Nat) : ((p.caps key).copyConstructible = true ∨ (p.caps key).moveConstructible = true) → hp.Ok a (p.size key) →
      HandsKey p hp key (.native ⟨key, .rvalue, false⟩ a)

theorem key_arg {p : Prog} {hp : Heap} {key : Ty} {x : Actual} (h : HandsKey p hp key x) (hk : key ≠ p.w.valueT)
    (hnc : p.w.env.conv key key = false) (rec : Runner) :
    isConvertibleTo p.w.env x.arg key.cref ≠ .none ∧
    ∃ h0 u a, (∀ y : Handle, p.toHandles hp [.dyn y, x] = .ok (h0, [y, u])) ∧
      p.castTo rec h0 u key.cref = .ok (h0, .obj a false) ∧ h0.Ok a (p.size key) ∧
      h0.cells a (p.size key) = hp.cells x.handle.addr (p.size key) ∧
      (∀ y < hp.next, ¬ x.OwnN (p.size key) y → h0.mem y = hp.mem y) ∧ hp.next ≤ h0.next := by
  cases h with
  | kept _ h1 h2 h3 h4 h5 =>
    have hf : RefFits p x key.cref := ⟨rfl, ⟨h2, hk⟩, h3, h4, Or.inl rfl, h1⟩
    refine ⟨hf.matches, hp, x.handle, x.handle.addr, ?_, castTo_ref p rec hp x key.cref hf, h5, rfl, fun _ _ _ => rfl, Nat.le_refl _⟩
    intro y
    exact toHandles_simple p hp [.dyn y, x] (by
      intro z hz arg a e
      simp only [List.mem_cons, List.not_mem_nil, or_false] at hz
      rcases hz with rfl | rfl
      · cases e
      · exact h1 arg a e)
  | temporary a h1 h2 =>
    obtain ⟨h0, u, w1, w2, w3⟩ := C67_temporary_stored p hp ⟨key, .rvalue, false⟩ a (by simp) (by simpa using h1) h2
    have hf : RefFits p (.dyn u) key.cref := by
      refine ⟨rfl, ⟨?_, hk⟩, ?_, ?_, Or.inl rfl, by rintro _ _ ⟨⟩⟩
      · show u.arg.type ≠ _; rw [w2.arg]; exact hk
      · show p.w.env.child u.arg.type _ = true; rw [w2.arg]; exact child_refl _ _
      · show p.w.env.conv u.arg.type _ = false; rw [w2.arg]; exact hnc
    refine ⟨?_, h0, u, u.addr, ?_, castTo_ref p rec h0 (.dyn u) key.cref hf, w2.live, cells_congr w2.same, ?_, ?_⟩
    · rw [Ty.cref, match_constref_arg p.w.env _ key hk hk hnc (child_refl _ _)]
      split <;> simp
    · intro y
      simp only [Prog.toHandles, w1]
    · intro y hy hn
      refine w2.frame y hy ?_
      have : ¬ (a ≤ y ∧ y < a + p.size key) := fun c => hn ⟨⟨key, .rvalue, false⟩, a, by simp, rfl, c⟩
      show y < a ∨ a + p.size key ≤ y
      omega
    · exact w2.grow

/-- A call with a key as its argument: the body is handed the object and a key of the same contents. -/
theorem call_keyed {p : Prog} {t key : Ty} (hk : key ≠ p.w.valueT) (hnc : p.w.env.conv key key = false)
    (fuel : Nat) (hp : Heap) (o : Handle) (name : Name) (want : Arg) (f : Fn) (c : Bool) (x : Actual)
    (hlook : p.w.functionF p.w.fuel o.arg.type name = .ok [f]) (hargs : f.args = [⟨t, .lvalue, c⟩, key.cref])
    (ho : RefFits p (.dyn o) ⟨t, .lvalue, c⟩) (hx : HandsKey p hp key x) (hret : testReturn p.w.env want f.ret ≠ .none) :
    ∃ h1 a, h1.Ok a (p.size key) ∧ h1.cells a (p.size key) = hp.cells x.handle.addr (p.size key) ∧
      (∀ y < hp.next, ¬ x.OwnN (p.size key) y → h1.mem y = hp.mem y) ∧ hp.next ≤ h1.next ∧
      p.callMethod (fuel + 1) hp o name want [x] =
        match p.impl f.body h1 [.obj o.addr (!c), .obj a false] with
        | .error e => .error e
        | .ok (h2, r) => match p.wrapRet h2 f.ret r with
          | .error e => .error e
          | .ok (h3, u) => p.retCast (p.run (fuel + 1)) h3 u want := by
  obtain ⟨g1, h1, u, a, g2, g3, g5, g6, g7, g8⟩ := key_arg hx hk hnc (p.run fuel)
  refine ⟨h1, a, g5, g6, g7, g8, ?_⟩
  have ht : f.test p.w.env want [o.arg, x.arg] ≠ .none := by
    unfold Fn.test
    rw [hargs, testArguments_pair]
    exact combine_ne_none hret (combine_ne_none ho.matches g1)
  unfold Prog.callMethod
  rw [hlook]
  dsimp only
  unfold Prog.callOv
  simp only [List.map_cons, List.map_nil, show (Actual.dyn o).arg = o.arg from rfl]
  rw [select_single, if_neg ht]
  dsimp only
  unfold Prog.callFn
  simp only [List.map_cons, List.map_nil, show (Actual.dyn o).arg = o.arg from rfl]
  rw [if_neg ht, g2 o]
  dsimp only
  have hcast := castTo_ref p (p.run fuel) h1 (.dyn o) ⟨t, .lvalue, c⟩ ho
  have hrun : p.run (fuel + 1) h1 f [o, u] =
      match p.impl f.body h1 [.obj o.addr (!c), .obj a false] with
      | .error e => .error e
      | .ok (h2, r) => p.wrapRet h2 f.ret r := by
    rw [run_succ p fuel, hargs]
    simp only [Prog.bind]
    rw [show (o : Handle) = (Actual.dyn o).handle from rfl, hcast]
    simp only [g3]
    rfl
  rw [hrun]
  generalize p.impl f.body h1 _ = q
  cases q with
  | error e => rfl
  | ok q => rfl

theorem size_ret {p : Prog} {sizeT : Ty} (hi : PlainCopy p sizeT) : testReturn p.w.env sizeT.val sizeT.val ≠ .none := by
  unfold testReturn
  rw [if_neg (show ¬ sizeT.val.type = p.w.env.voidT from hi.notVoid), if_neg (show ¬ sizeT.val.type = p.w.env.voidT from hi.notVoid)]
  have : isConvertibleTo p.w.env sizeT.val sizeT.val = .exact := by unfold isConvertibleTo; rw [if_pos rfl]
  rw [this]; simp [Arg.isConstRef, Ty.val]

/-- a number returned -/
theorem ret_number {p : Prog} {sizeT : Ty} (hi : PlainCopy p sizeT) (hc : p.size sizeT = 1) (hnc : p.w.env.conv sizeT sizeT = false)
    (fuel : Nat) (g : Heap) (a : Nat) (hok : g.Ok a 1) :
    ∃ h4 b, (match p.wrapRet g sizeT.val (.obj a) with
      | .error e => (.error e : Res (Heap × Option BArg))
      | .ok (h3, u) => p.retCast (p.run (fuel + 1)) h3 u sizeT.val) = .ok (h4, some (.obj b true)) ∧ h4.mem b = g.mem a ∧
      (∀ y < g.next, y ≠ a → h4.mem y = g.mem y) ∧ g.next ≤ h4.next := by
  simp only [Prog.wrapRet]
  obtain ⟨h3, u, w1, w2, w3⟩ := C67_temporary_stored p g sizeT.val a (by simp [Ty.val]) (Or.inl hi.copyable)
    (by rw [show sizeT.val.type = sizeT from rfl, hc]; exact hok)
  rw [w1]
  simp only
  have hsz : p.size sizeT.val.type = 1 := hc
  have wl := w2.live
  rw [hsz] at wl
  obtain ⟨h4, b, c1, c2⟩ := castTo_copy_plain p sizeT.val h3 u fuel rfl hi (by rw [show sizeT.val.type = sizeT from rfl, hc]; exact wl)
    (by rw [w2.arg]; exact ⟨hi.notValue, child_refl _ _, hnc, by simp⟩)
  have hgr := w2.grow
  have hgr2 := c2.grow
  refine ⟨h4, b, ?_, ?_, ?_, by omega⟩
  · unfold Prog.retCast
    rw [if_neg (show ¬ sizeT.val.type = p.w.voidT from hi.notVoid), c1]
  · have e1 := c2.same 0 (by rw [show sizeT.val.type = sizeT from rfl, hc]; omega)
    have e2 := w2.same 0 (by rw [hsz]; omega)
    simp only [Nat.add_zero] at e1 e2
    rw [e1, e2]
  · intro y hy hne
    rw [c2.frame y (by omega), w2.frame y (by omega) (by rw [hsz]; omega)]

/-! ### lists of entries -/

theorem lookup_iff_mem {β γ : Type} [BEq β] [LawfulBEq β] (k : β) (v : γ) : ∀ (l : List (β × γ)), (l.map Prod.fst).Nodup → (l.lookup k = some v ↔ (k, v) ∈ l)
  | [], _ => by simp
  | (a, b) :: l, hn => by
    rw [List.map_cons, List.nodup_cons] at hn
    rw [List.lookup_cons, List.mem_cons]
    by_cases h : k = a
    · subst h
      have : (k, v) ∉ l := fun hc => hn.1 (List.mem_map.2 ⟨_, hc, rfl⟩)
      simp [this, eq_comm]
    · have h1 : (k == a) = false := by simpa using h
      rw [h1]
      rw [lookup_iff_mem k v l hn.2]
      simp [h]

theorem entries_keys (h : Heap) (K : MapKind) (m : Nat) : (h.entries K m).map Prod.fst = (h.nodes m).map fun a => h.cells a K.key := by
  unfold Heap.entries; rw [List.map_map]; rfl

theorem lookup_mem {h : Heap} {K : MapKind} {m : Nat} (hm : h.IsMap K m) (k v : List Nat) : h.lookup K m k = some v ↔ (k, v) ∈ h.entries K m :=
  lookup_iff_mem k v _ (by rw [entries_keys]; exact hm.keys)

theorem option_ext {α : Type} {a b : Option α} (h : ∀ v, a = some v ↔ b = some v) : a = b := by
  cases a with
  | some x => exact ((h x).1 rfl).symm
  | none => cases b with
    | none => rfl
    | some y => exact (h y).2 rfl

/-- the finite map with an entry more -/
theorem lookup_added {h h' : Heap} {K : MapKind} {m : Nat} {k v : List Nat} (hm : h.IsMap K m) (hm' : h'.IsMap K m)
    (hp : (h'.entries K m).Perm ((k, v) :: h.entries K m)) :
    h'.lookup K m k = some v ∧ ∀ k', k' ≠ k → h'.lookup K m k' = h.lookup K m k' := by
  refine ⟨(lookup_mem hm' k v).2 (hp.mem_iff.2 (by simp)), fun k' hk => option_ext fun w => ?_⟩
  rw [lookup_mem hm', lookup_mem hm, hp.mem_iff, List.mem_cons]
  simp [hk]

/-- the finite map with a value changed -/
theorem lookup_changed {h h' : Heap} {K : MapKind} {m : Nat} {k v : List Nat} (hm : h.IsMap K m) (hm' : h'.IsMap K m)
    (hin : ∃ v0, h.lookup K m k = some v0) (he : h'.entries K m = (h.entries K m).map fun e => if e.1 = k then (k, v) else e) :
    h'.lookup K m k = some v ∧ ∀ k', k' ≠ k → h'.lookup K m k' = h.lookup K m k' := by
  obtain ⟨v0, hin⟩ := hin
  rw [lookup_mem hm] at hin
  refine ⟨(lookup_mem hm' k v).2 ?_, fun k' hk => option_ext fun w => ?_⟩
  · rw [he]; exact List.mem_map.2 ⟨(k, v0), hin, by simp⟩
  · rw [lookup_mem hm', lookup_mem hm, he, List.mem_map]
    constructor
    · rintro ⟨⟨a, b⟩, h1, h2⟩
      by_cases ha : a = k
      · rw [if_pos ha] at h2; cases h2; exact absurd rfl hk
      · rw [if_neg ha] at h2; cases h2; exact h1
    · intro h1; exact ⟨(k', w), h1, by simp [hk]⟩

section
variable {p : Prog} {s t key elem keysT sizeT : Ty} {K : MapKind}

theorem ReflectedMap.fits (V : ReflectedMap p s t key elem keysT sizeT K) (o : Handle) (ho : o.arg.type = s) (c : Bool)
    (hc : c = true ∨ o.Mutable) : RefFits p (.dyn o) ⟨t, .lvalue, c⟩ := by
  refine ⟨rfl, ⟨?_, V.notValue.2.1⟩, ?_, ?_, hc, by rintro _ _ ⟨⟩⟩
  · show o.arg.type ≠ _; rw [ho]; exact V.notValue.1
  · show p.w.env.child o.arg.type t = true; rw [ho]; exact V.derives
  · show p.w.env.conv o.arg.type t = false; rw [ho]; exact V.noConverter

/-- C86. `size()` is the number of entries. -/
theorem C86_size (V : ReflectedMap p s t key elem keysT sizeT K) (fuel : Nat) (hp : Heap) (o : Handle) (ho : o.arg.type = s)
    (hm : hp.IsMap K o.addr) :
    ∃ hp' a, p.callMethod (fuel + 1) hp o "size".toList sizeT.val [] = .ok (hp', some (.obj a true)) ∧
      hp'.mem a = (hp.entries K o.addr).length ∧ hp'.IsMap K o.addr ∧ hp'.entries K o.addr = hp.entries K o.addr ∧
      (∀ y < hp.next, hp'.mem y = hp.mem y) ∧ hp.next ≤ hp'.next := by
  obtain ⟨f, g1, g2, g3, g4⟩ := V.size
  rw [callMethod_refs p fuel hp o _ f sizeT.val [] (by rw [ho]; exact g1) (by rw [g2]; exact .cons (V.fits o ho true (Or.inl rfl)) .nil)
    (by rw [g3]; exact size_ret V.index)]
  rw [show ownObjects [Actual.dyn o] f.args = [.obj o.addr (!true)] by rw [g2]; rfl, g4, mapSize, if_pos hm.obj]
  obtain ⟨o1, o2⟩ := hm.obj
  generalize hq : hp.newObj (fun _ => hp.mem (o.addr + 1)) 1 = q
  have q1 : q.2 = hp.next := by rw [← hq]; rfl
  have q2 : q.1.next = hp.next + 1 + 1 := by rw [← hq]; rfl
  have q3 : q.1.mem hp.next = hp.mem (o.addr + 1) := by
    rw [← hq]; exact newObj_new hp (fun _ => hp.mem (o.addr + 1)) 1 0 (by omega)
  have q4 : ∀ y < hp.next, q.1.mem y = hp.mem y := by
    intro y hy; rw [← hq]; exact newObj_old hp _ 1 y hy
  obtain ⟨h4, b, w1, w2, w3, w4⟩ := ret_number V.index V.cell V.noSizeConverter fuel q.1 q.2 (by rw [q1]; exact ⟨by omega, by omega⟩)
  have fr : ∀ y < hp.next, h4.mem y = hp.mem y := fun y hy => by rw [w3 y (by omega) (by omega), q4 y hy]
  obtain ⟨v1, -, v3, -⟩ := map_kept hm (h' := h4) (by omega) fun y hy _ => fr y hy
  simp only [g3]
  refine ⟨h4, b, w1, ?_, v1, v3, fr, by omega⟩
  rw [w2, q1, q3, entries_length]

/-- the map is not touched by handing over a key -/
theorem handed_map {hp h1 : Heap} {n m : Nat} {x : Actual} (hm : hp.IsMap K m) (hap : ∀ y, x.OwnN n y → ¬ hp.InMap K m y)
    (h7 : ∀ y < hp.next, ¬ x.OwnN n y → h1.mem y = hp.mem y) (h8 : hp.next ≤ h1.next) :
    h1.IsMap K m ∧ h1.nodes m = hp.nodes m ∧ h1.entries K m = hp.entries K m ∧ (∀ y, h1.InMap K m y ↔ hp.InMap K m y) ∧
      ∀ k a, h1.ValueAt K m k a ↔ hp.ValueAt K m k a :=
  map_kept hm h8 fun y hy hi => h7 y hy fun ho => hap y ho hi

/-- C86. `count(k)` is 1 if the map has the key `k`, 0 if not. -/
theorem C86_count (V : ReflectedMap p s t key elem keysT sizeT K) (fuel : Nat) (hp : Heap) (o : Handle) (ho : o.arg.type = s)
    (x : Actual) (hx : HandsKey p hp key x) (hm : hp.IsMap K o.addr) (hap : ∀ y, x.OwnN K.key y → ¬ hp.InMap K o.addr y) :
    ∃ hp' a, p.callMethod (fuel + 1) hp o "count".toList sizeT.val [x] = .ok (hp', some (.obj a true)) ∧
      hp'.mem a = (if (hp.lookup K o.addr (hp.cells x.handle.addr K.key)).isSome then 1 else 0) ∧
      hp'.IsMap K o.addr ∧ hp'.entries K o.addr = hp.entries K o.addr ∧
      (∀ y < hp.next, ¬ x.OwnN K.key y → hp'.mem y = hp.mem y) ∧ hp.next ≤ hp'.next := by
  obtain ⟨f, g1, g2, g3, g4⟩ := V.count
  obtain ⟨h1, a, k1, k2, k3, k4, k5⟩ := call_keyed V.notValue.2.2.1 V.noKeyConverter fuel hp o "count".toList sizeT.val f true x
    (by rw [ho]; exact g1) g2 (V.fits o ho true (Or.inl rfl)) hx (by rw [g3]; exact size_ret V.index)
  rw [← V.sizes.1] at k1 k2 k3
  obtain ⟨v1, v2, v3, v4, v5⟩ := handed_map hm hap k3 k4
  rw [k5, g4, mapCount, if_pos ⟨v1.obj, k1⟩, count_one, k2, show h1.lookup K o.addr (hp.cells x.handle.addr K.key) =
    hp.lookup K o.addr (hp.cells x.handle.addr K.key) by unfold Heap.lookup; rw [v3]]
  obtain ⟨o1, o2⟩ := v1.obj
  generalize (if (hp.lookup K o.addr (hp.cells x.handle.addr K.key)).isSome = true then 1 else 0) = c
  generalize hq : h1.newObj (fun _ => c) 1 = q
  have q1 : q.2 = h1.next := by rw [← hq]; rfl
  have q2 : q.1.next = h1.next + 1 + 1 := by rw [← hq]; rfl
  have q3 : q.1.mem h1.next = c := by rw [← hq]; exact newObj_new h1 (fun _ => c) 1 0 (by omega)
  have q4 : ∀ y < h1.next, q.1.mem y = h1.mem y := by
    intro y hy; rw [← hq]; exact newObj_old h1 _ 1 y hy
  obtain ⟨h4, b, w1, w2, w3, w4⟩ := ret_number V.index V.cell V.noSizeConverter fuel q.1 q.2 (by rw [q1]; exact ⟨by omega, by omega⟩)
  have fr : ∀ y < h1.next, h4.mem y = h1.mem y := fun y hy => by rw [w3 y (by omega) (by omega), q4 y hy]
  obtain ⟨u1, -, u3, -⟩ := map_kept v1 (h' := h4) (by omega) fun y hy _ => fr y hy
  simp only [g3]
  refine ⟨h4, b, w1, ?_, u1, by rw [u3, v3], fun y hy hn => by rw [fr y (by omega), k3 y hy hn], by omega⟩
  rw [w2, q1, q3]

/-- C86. `at(k)` gives the value of the key `k`, to be read; it raises if there is none. Const and temporary maps have it
too. -/
theorem C86_at (V : ReflectedMap p s t key elem keysT sizeT K) (fuel : Nat) (hp : Heap) (o : Handle) (ho : o.arg.type = s)
    (x : Actual) (hx : HandsKey p hp key x) (hm : hp.IsMap K o.addr) (hap : ∀ y, x.OwnN K.key y → ¬ hp.InMap K o.addr y) :
    match hp.lookup K o.addr (hp.cells x.handle.addr K.key) with
    | none => p.callMethod (fuel + 1) hp o "at".toList p.valueArg [x] = .error .err
    | some v => ∃ hp' r, p.callMethod (fuel + 1) hp o "at".toList p.valueArg [x] = .ok (hp', some (.val r)) ∧
        r.arg = elem.cref ∧ hp'.cells r.addr K.val = v ∧ hp'.IsMap K o.addr ∧ hp'.entries K o.addr = hp.entries K o.addr ∧
        hp.ValueAt K o.addr (hp.cells x.handle.addr K.key) r.addr ∧
        (∀ y < hp.next, ¬ x.OwnN K.key y → hp'.mem y = hp.mem y) ∧ hp.next ≤ hp'.next := by
  obtain ⟨f, g1, g2, g3, g4⟩ := V.at
  obtain ⟨h1, a, k1, k2, k3, k4, k5⟩ := call_keyed V.notValue.2.2.1 V.noKeyConverter fuel hp o "at".toList p.valueArg f true x
    (by rw [ho]; exact g1) g2 (V.fits o ho true (Or.inl rfl)) hx
    (by rw [testReturn_value p V.distinct _ (by rw [g3]; exact V.notValue.2.2.2.1)]; simp)
  rw [← V.sizes.1] at k1 k2 k3
  obtain ⟨v1, v2, v3, v4, v5⟩ := handed_map hm hap k3 k4
  have hl : hp.lookup K o.addr (hp.cells x.handle.addr K.key) = h1.lookup K o.addr (h1.cells a K.key) := by
    unfold Heap.lookup; rw [v3, k2]
  rw [hl, k5, g4, mapAt, if_pos ⟨v1.obj, k1⟩]
  rcases find_of_valueAt (h := h1) (K := K) (m := o.addr) (k := a) with ⟨b, e1, e2⟩ | ⟨e1, e2⟩
  · rw [lookup_valueAt v1.keys e2, e1]
    simp only [Prog.wrapRet]
    rw [C67_lvalue_refers _ _ _ _ (by rw [g3]; rfl)]
    simp only
    rw [retCast_value p V.distinct]
    exact ⟨h1, _, rfl, g3, rfl, v1, v3, (v5 _ _).1 (k2 ▸ e2), k3, k4⟩
  · rw [e2, e1]

/-- what differs at most is the map, what is new, and the temporary handed over -/
structure ElsewhereM' (hp hp' : Heap) (K : MapKind) (m : Nat) (x : Actual) : Prop where
  same : ∀ y < hp.next, ¬ hp.InMap K m y → ¬ x.OwnN K.key y → hp'.mem y = hp.mem y
  grow : hp.next ≤ hp'.next
  mine : ∀ y < hp.next, hp'.InMap K m y → hp.InMap K m y

/-- C86. `m[k]` gives the value of the key `k` itself, after adding the key with a value-initialised value if it was
missing. No other key is affected, and all values stay where they are. -/
theorem C86_index (V : ReflectedMap p s t key elem keysT sizeT K) (fuel : Nat) (hp : Heap) (o : Handle) (ho : o.arg.type = s)
    (hmut : o.Mutable) (x : Actual) (hx : HandsKey p hp key x) (hm : hp.IsMap K o.addr) (hap : ∀ y, x.OwnN K.key y → ¬ hp.InMap K o.addr y)
    (k : List Nat) (hk : k = hp.cells x.handle.addr K.key) :
    ∃ hp' r, p.callMethod (fuel + 1) hp o "operator[]".toList p.valueArg [x] = .ok (hp', some (.val r)) ∧
      r.arg = elem.lref ∧ hp'.IsMap K o.addr ∧ hp'.ValueAt K o.addr k r.addr ∧
      hp'.lookup K o.addr k = some ((hp.lookup K o.addr k).getD ((List.range K.val).map K.init)) ∧
      (∀ k', k' ≠ k → hp'.lookup K o.addr k' = hp.lookup K o.addr k') ∧
      (hp'.entries K o.addr).length = (hp.entries K o.addr).length + (if (hp.lookup K o.addr k).isSome then 0 else 1) ∧
      (∀ k' a, hp.ValueAt K o.addr k' a → hp'.ValueAt K o.addr k' a) ∧
      ElsewhereM' hp hp' K o.addr x := by
  obtain ⟨f, g1, g2, g3, g4⟩ := V.sub
  obtain ⟨h1, a, k1, k2, k3, k4, k5⟩ := call_keyed V.notValue.2.2.1 V.noKeyConverter fuel hp o "operator[]".toList p.valueArg f false x
    (by rw [ho]; exact g1) g2 (V.fits o ho false (Or.inr hmut)) hx
    (by rw [testReturn_value p V.distinct _ (by rw [g3]; exact V.notValue.2.2.2.1)]; simp)
  rw [← V.sizes.1] at k1 k2 k3
  obtain ⟨v1, v2, v3, v4, v5⟩ := handed_map hm hap k3 k4
  have hl : ∀ q, h1.lookup K o.addr q = hp.lookup K o.addr q := by
    intro q; unfold Heap.lookup; rw [v3]
  rw [← hk] at k2
  rw [k5, g4, mapIndex, if_pos ⟨v1.obj, k1⟩]
  rcases find_of_valueAt (h := h1) (K := K) (m := o.addr) (k := a) with ⟨b, e1, e2⟩ | ⟨e1, e2⟩
  · rw [e1]
    simp only [Prog.wrapRet]
    rw [C67_lvalue_refers _ _ _ _ (by rw [g3]; rfl)]
    simp only
    rw [retCast_value p V.distinct]
    rw [k2] at e2
    have := lookup_valueAt v1.keys e2
    refine ⟨h1, _, rfl, g3, v1, e2, ?_, fun k' _ => hl k', ?_, fun k' c hc => (v5 k' c).2 hc,
      ⟨fun y hy _ hn => k3 y hy hn, k4, fun y _ => (v4 y).1⟩⟩
    · rw [← hl, this]; rfl
    · rw [← hl, this, v3]; rfl
  · rw [e1]
    simp only [Prog.wrapRet]
    rw [C67_lvalue_refers _ _ _ _ (by rw [g3]; rfl)]
    simp only
    rw [retCast_value p V.distinct]
    obtain ⟨i1, i2, i3, i4, i5⟩ := insert_spec v1 V.arranges V.ordered e2
    rw [k2] at i2 i3 e2
    obtain ⟨l1, l2⟩ := lookup_added v1 i1 i2
    rw [hl] at e2
    refine ⟨_, _, rfl, g3, i1, i3, ?_, fun k' hne => by rw [l2 k' hne, hl], ?_, fun k' c hc => i4 k' c ((v5 k' c).2 hc), ⟨?_, ?_, ?_⟩⟩
    · rw [l1, e2]; rfl
    · rw [i2.length_eq, List.length_cons, v3, e2]; rfl
    · intro y hy h h'
      rw [i5.same y (by omega) (by rw [v4]; exact h), k3 y hy h']
    · exact Nat.le_trans k4 i5.grow
    · intro y hy h
      exact (v4 y).1 (i5.mine y (by omega) h)

/-- C86. What is written to the value of a key is the value of that key from then on; all other keys keep theirs, no key
comes or goes, and all values stay where they are. -/
theorem C86_write {h h' : Heap} {m a : Nat} {k : List Nat} (hm : h.IsMap K m) (hv : h.ValueAt K m k a) (hn : h.next ≤ h'.next)
    (hs : ∀ y < h.next, (y < a ∨ a + K.val ≤ y) → h'.mem y = h.mem y) :
    h'.IsMap K m ∧ h'.lookup K m k = some (h'.cells a K.val) ∧ (∀ k', k' ≠ k → h'.lookup K m k' = h.lookup K m k') ∧
      (h'.entries K m).map Prod.fst = (h.entries K m).map Prod.fst ∧ ∀ k' b, h'.ValueAt K m k' b ↔ h.ValueAt K m k' b := by
  obtain ⟨w1, w2, w3, -⟩ := write_spec hm hv hn hs
  obtain ⟨l1, l2⟩ := lookup_changed hm w1 ⟨_, lookup_valueAt hm.keys hv⟩ w2
  refine ⟨w1, l1, l2, ?_, w3⟩
  rw [w2, List.map_map]
  apply List.map_congr_left
  intro e _
  simp only [Function.comp]
  split
  · rename_i he; exact he.symm
  · rfl

theorem valueAt_ok {h : Heap} {m a : Nat} {k : List Nat} (hm : h.IsMap K m) (hv : h.ValueAt K m k a) :
    h.Ok a K.val ∧ ∀ y, a ≤ y → y < a + K.val → h.InMap K m y := by
  obtain ⟨b, hb, rfl, -⟩ := hv
  obtain ⟨⟨g1, g2⟩, -⟩ := hm.node b hb
  exact ⟨⟨by omega, by omega⟩, fun y h1 h2 => Or.inr (Or.inr ⟨b, hb, by omega, by omega⟩)⟩

/-- C86. `m[k].assign(x)`: the map then has the contents of `x` under `k`, and is otherwise as it was; nothing outside of
it changes. `x` may be a value of the map itself. -/
theorem C86_set (V : ReflectedMap p s t key elem keysT sizeT K) (fuel : Nat) (hp : Heap) (o : Handle) (ho : o.arg.type = s)
    (hmut : o.Mutable) (kx : Handle) (hkx : Copied p kx.arg key) (hkok : hp.Ok kx.addr K.key) (hm : hp.IsMap K o.addr)
    (move : Bool) (hA : Assignable p elem elem true move) (x : Handle) (hx : Copied p x.arg elem) (hok : hp.Ok x.addr K.val)
    (hout : (∀ j < K.val, ¬ hp.InMap K o.addr (x.addr + j)) ∨ ∃ k', hp.ValueAt K o.addr k' x.addr) :
    ∃ hp', (MapCall.set kx x).call p (fuel + 1) hp o = .ok hp' ∧ hp'.IsMap K o.addr ∧
      hp'.lookup K o.addr (hp.cells kx.addr K.key) = some (hp.cells x.addr K.val) ∧
      (∀ k', k' ≠ hp.cells kx.addr K.key → hp'.lookup K o.addr k' = hp.lookup K o.addr k') ∧
      (∀ k' a, hp.ValueAt K o.addr k' a → hp'.ValueAt K o.addr k' a) ∧ ElsewhereM hp hp' K o.addr := by
  obtain ⟨h1, r, c1, c2, c3, c4, c5, c6, c7, c8, c9⟩ := C86_index V fuel hp o ho hmut (.dyn kx)
    (.kept _ (by rintro _ _ ⟨⟩) hkx.notValue hkx.derives hkx.noConverter (by rw [← V.sizes.1]; exact hkok)) hm
    (by rintro y ⟨_, _, _, ⟨⟩, _⟩) _ rfl
  simp only [Actual.handle] at c4 c5 c6 c7
  obtain ⟨o1, o2⟩ := valueAt_ok c3 c4
  obtain ⟨x1, x2⟩ := hok
  have hgr := c9.grow
  have c9s : ∀ y < hp.next, ¬ hp.InMap K o.addr y → h1.mem y = hp.mem y := fun y hy h => c9.same y hy h (by rintro ⟨_, _, _, ⟨⟩, _⟩)
  obtain ⟨h2, a1, a2⟩ := C71_copy p fuel h1 r (.dyn x) elem move (by rw [c2]; exact hA) (by rw [c2]; exact ⟨rfl, rfl⟩)
    (by rw [← V.sizes.2]; exact o1) (by rw [← V.sizes.2]; exact ⟨x1, Nat.le_trans x2 hgr⟩) hx (by rintro _ _ ⟨⟩)
  have hcx : h1.cells x.addr K.val = hp.cells x.addr K.val := by
    rcases hout with hout | ⟨k', hv'⟩
    · exact cells_congr fun j hj => c9s _ (by omega) (hout j hj)
    · have e1 := lookup_valueAt hm.keys hv'
      have e2 := lookup_valueAt c3.keys (c8 _ _ hv')
      by_cases hkk : k' = hp.cells kx.addr K.key
      · rw [hkk] at e1 e2
        rw [c5, e1] at e2
        exact (Option.some.inj e2).symm
      · rw [c6 k' hkk, e1] at e2
        exact (Option.some.inj e2).symm
  have same := a2.same
  have frame := a2.frame
  rw [← V.sizes.2] at same frame
  simp only [Actual.handle] at same
  obtain ⟨w1, w2, w3, -, w5⟩ := C86_write c3 c4 a2.grow frame
  obtain ⟨-, -, -, w6⟩ := write_spec c3 c4 a2.grow frame
  have hcr : h2.cells r.addr K.val = hp.cells x.addr K.val := by rw [← hcx]; exact cells_congr same
  refine ⟨h2, ?_, w1, by rw [w2, hcr], fun k' hk => by rw [w3 k' hk, c6 k' hk], fun k' a h => (w5 k' a).2 (c8 k' a h), ⟨?_, Nat.le_trans hgr a2.grow, ?_⟩⟩
  · simp only [MapCall.call, c1]; exact a1
  · intro y hy hn
    have : ¬ h1.InMap K o.addr y := fun h => hn (c9.mine y hy h)
    rw [frame y (by omega) (by
      have : ¬ (r.addr ≤ y ∧ y < r.addr + K.val) := fun h => this (o2 y h.1 h.2)
      omega), c9s y hy hn]
  · intro y hy h
    exact c9.mine y hy ((w6 y).1 h)

/-- C86. `keys()` gives a new vector with the keys, each once. The map stays as it is. -/
theorem C86_keys (V : ReflectedMap p s t key elem keysT sizeT K) (fuel : Nat) (hp : Heap) (o : Handle) (ho : o.arg.type = s)
    (hm : hp.IsMap K o.addr) :
    ∃ hp' r, p.callMethod (fuel + 1) hp o "keys".toList p.valueArg [] = .ok (hp', some (.val r)) ∧ r.arg = keysT.lref ∧ hp.next ≤ r.addr ∧
      hp'.IsVec K.key r.addr ∧ hp'.elems K.key r.addr = (hp.entries K o.addr).map Prod.fst ∧ (hp'.elems K.key r.addr).Nodup ∧
      (∀ k, k ∈ hp'.elems K.key r.addr ↔ (hp.lookup K o.addr k).isSome) ∧
      hp'.IsMap K o.addr ∧ hp'.entries K o.addr = hp.entries K o.addr ∧ (∀ y < hp.next, hp'.mem y = hp.mem y) ∧ hp.next ≤ hp'.next := by
  obtain ⟨f, g1, g2, g3, g4⟩ := V.keys
  rw [callMethod_refs p fuel hp o _ f p.valueArg [] (by rw [ho]; exact g1) (by rw [g2]; exact .cons (V.fits o ho true (Or.inl rfl)) .nil)
    (by rw [testReturn_value p V.distinct _ (by rw [g3]; exact V.notValue.2.2.2.2)]; simp)]
  rw [show ownObjects [Actual.dyn o] f.args = [.obj o.addr (!true)] by rw [g2]; rfl, g4]
  obtain ⟨h1, a, k1, k2, k3, k4, k5, k6, k7⟩ := keys_spec hm
  rw [k1]
  simp only [Prog.wrapRet]
  obtain ⟨s1, s2⟩ := V.keysReturn
  obtain ⟨v1, v2, v3, v4⟩ := id k3
  obtain ⟨h3, u, w1, w2, w3⟩ := C67_temporary_stored p h1 keysT.val a (by simp [Ty.val]) (by simpa [Ty.val] using s2)
    (by rw [show keysT.val.type = keysT from rfl, s1]; exact v1)
  rw [g3, w1]
  simp only
  rw [retCast_value p V.distinct]
  have hfresh := w2.fresh
  have hgr := w2.grow
  have hsame := w2.same
  have hframe := w2.frame
  have hlive := w2.live
  rw [show keysT.val.type = keysT from rfl, s1] at hsame hframe hlive
  obtain ⟨l1, l2⟩ := hlive
  have e0 : h3.mem u.addr = h1.mem a := by simpa using hsame 0 (by omega)
  have e1 : h3.mem (u.addr + 1) = h1.mem (a + 1) := hsame 1 (by omega)
  have e2 : h3.mem (u.addr + 2) = h1.mem (a + 2) := hsame 2 (by omega)
  have helems : h3.elems K.key u.addr = (hp.entries K o.addr).map Prod.fst := by
    rw [← k4]
    unfold Heap.elems
    rw [e0, e1]
    apply List.map_congr_left
    intro i hi
    rw [List.mem_range] at hi
    apply cells_congr
    intro j hj
    have := slot_lt (n := K.key) (show i < h1.mem (a + 2) by omega) hj
    have : h1.mem (a + 2) = 0 → K.key * h1.mem (a + 2) = 0 := fun h => by rw [h, Nat.mul_zero]
    exact hframe _ (by omega) (by omega)
  have fr : ∀ y < hp.next, h3.mem y = hp.mem y := by
    intro y hy; rw [hframe y (by omega) (by omega), k5 y hy]
  obtain ⟨m1, -, m3, -⟩ := map_kept hm (h' := h3) (by omega) fun y hy _ => fr y hy
  have hnd : ((hp.entries K o.addr).map Prod.fst).Nodup := by rw [entries_keys]; exact hm.keys
  refine ⟨h3, u, rfl, w2.arg, by omega, ⟨⟨l1, l2⟩, by omega, ?_, ?_⟩, helems, by rw [helems]; exact hnd, ?_, m1, m3, fr, by omega⟩
  · rw [e0, e2]; omega
  · rw [e0, e2]; omega
  · intro k
    rw [helems, List.mem_map, Option.isSome_iff_exists]
    constructor
    · rintro ⟨⟨k', v⟩, h, rfl⟩; exact ⟨v, (lookup_mem hm _ _).2 h⟩
    · rintro ⟨v, h⟩; exact ⟨(k, v), (lookup_mem hm _ _).1 h, rfl⟩

/-- C86. `m[k]` is refused on const maps and temporaries: they cannot get new keys, nor can references to change their
values be had. -/
theorem C86_const_refused (V : ReflectedMap p s t key elem keysT sizeT K) (fuel : Nat) (hp : Heap) (o : Handle) (ho : o.arg.type = s)
    (hm : o.arg.isConst = true ∨ o.arg.ref ≠ .lvalue) (want : Arg) (xs : List Actual) :
    p.callMethod fuel hp o "operator[]".toList want xs = .error .err := by
  have hc : isConvertibleTo p.w.env o.arg t.lref = .none := by
    obtain ⟨⟨ty, r, c⟩, a, w⟩ := o
    simp only at ho hm
    subst ho
    rw [Ty.lref, convertible_static p.w.env _ _ _ _ _ _ (not_dynamic p.w.env _ _ V.notValue.1 V.notValue.2.1 _ _ _ _), V.noConverter, V.derives]
    cases r <;> cases c <;> simp_all
  obtain ⟨f, g1, g2, -⟩ := V.sub
  unfold Prog.callMethod Prog.callOv
  rw [ho, g1]
  simp only [List.map_cons, show (Actual.dyn o).arg = o.arg from rfl]
  rw [select_single, if_pos (test_none_of_param p.w.env f want _ 0 (by simp) (by simp [g2]) (by simpa [g2] using hc))]

/-! ### any number of calls -/

theorem MapCall.step_spec (V : ReflectedMap p s t key elem keysT sizeT K) (fuel : Nat) (hp : Heap) (o : Handle) (ho : o.arg.type = s)
    (hmut : o.Mutable) (hm : hp.IsMap K o.addr) (move : Bool) (hA : Assignable p elem elem true move) (c : MapCall)
    (hc : c.Ready p hp key elem K o.addr) :
    ∃ hp', c.call p (fuel + 1) hp o = .ok hp' ∧ hp'.IsMap K o.addr ∧
      (∀ k, hp'.lookup K o.addr k = c.effect hp K (hp.lookup K o.addr) k) ∧
      (∀ k a, hp.ValueAt K o.addr k a → hp'.ValueAt K o.addr k a) ∧ ElsewhereM hp hp' K o.addr := by
  cases c with
  | touch kx =>
    obtain ⟨h1, h2, -⟩ := hc
    obtain ⟨h1, r, c1, c2, c3, c4, c5, c6, c7, c8, c9⟩ := C86_index V fuel hp o ho hmut (.dyn kx)
      (.kept _ (by rintro _ _ ⟨⟩) h1.notValue h1.derives h1.noConverter (by rw [← V.sizes.1]; exact h2)) hm
      (by rintro y ⟨_, _, _, ⟨⟩, _⟩) _ rfl
    refine ⟨h1, by simp only [MapCall.call, c1], c3, fun k => ?_, c8,
      ⟨fun y hy h => c9.same y hy h (by rintro ⟨_, _, _, ⟨⟩, _⟩), c9.grow, c9.mine⟩⟩
    simp only [MapCall.effect]
    split
    · rename_i e; subst e; exact c5
    · rename_i e; exact c6 k e
  | set kx x =>
    obtain ⟨⟨h1, h2, -⟩, h4, h5, h6⟩ := hc
    obtain ⟨hp', d1, d2, d3, d4, d5, d6⟩ := C86_set V fuel hp o ho hmut kx h1 h2 hm move hA x h4 h5 (Or.inl h6)
    refine ⟨hp', d1, d2, fun k => ?_, d5, d6⟩
    simp only [MapCall.effect]
    split
    · rename_i e; subst e; exact d3
    · rename_i e; exact d4 k e

/-- C86. After any history of `m[k]` and `m[k].assign(x)` the map has what the finite map has after the same history, the
values that were there are where they were, and nothing else has changed. The arguments lie outside of the map. -/
theorem C86_history (V : ReflectedMap p s t key elem keysT sizeT K) (fuel : Nat) (cs : List MapCall) (o : Handle) (ho : o.arg.type = s)
    (hmut : o.Mutable) (move : Bool) (hA : Assignable p elem elem true move) : ∀ (hp : Heap), hp.IsMap K o.addr →
    (∀ c ∈ cs, c.Ready p hp key elem K o.addr) →
    ∃ hp', MapCall.all p (fuel + 1) o hp cs = .ok hp' ∧ hp'.IsMap K o.addr ∧
      (∀ k, hp'.lookup K o.addr k = cs.foldl (fun f c => c.effect hp K f) (hp.lookup K o.addr) k) ∧
      (∀ k a, hp.ValueAt K o.addr k a → hp'.ValueAt K o.addr k a) ∧ ElsewhereM hp hp' K o.addr := by
  induction cs with
  | nil => exact fun hp hm _ => ⟨hp, rfl, hm, fun _ => rfl, fun _ _ h => h, ⟨fun _ _ _ => rfl, Nat.le_refl _, fun _ _ h => h⟩⟩
  | cons c cs ih =>
    intro hp hm hr
    obtain ⟨h1, a1, a2, a3, a4, a5⟩ := MapCall.step_spec V fuel hp o ho hmut hm move hA c (hr c (by simp))
    have keep : ∀ a n, hp.Ok a n → (∀ j < n, ¬ hp.InMap K o.addr (a + j)) →
        h1.Ok a n ∧ (∀ j < n, ¬ h1.InMap K o.addr (a + j)) ∧ ∀ j < n, h1.mem (a + j) = hp.mem (a + j) := by
      intro a n ⟨e1, e2⟩ e3
      have := a5.grow
      exact ⟨⟨e1, by omega⟩, fun j hj h => e3 j hj (a5.mine _ (by omega) h), fun j hj => a5.same _ (by omega) (e3 j hj)⟩
    have hr' : ∀ d ∈ cs, d.Ready p h1 key elem K o.addr := by
      intro d hd
      have := hr d (by simp [hd])
      cases d with
      | touch x => obtain ⟨b1, b2, b3⟩ := this; obtain ⟨c1, c2, -⟩ := keep _ _ b2 b3; exact ⟨b1, c1, c2⟩
      | set x y =>
        obtain ⟨⟨b1, b2, b3⟩, b4, b5, b6⟩ := this
        obtain ⟨c1, c2, -⟩ := keep _ _ b2 b3
        obtain ⟨c3, c4, -⟩ := keep _ _ b5 b6
        exact ⟨⟨b1, c1, c2⟩, b4, c3, c4⟩
    have he : ∀ d ∈ cs, ∀ f, d.effect h1 K f = d.effect hp K f := by
      intro d hd f
      have := hr d (by simp [hd])
      cases d with
      | touch x =>
        obtain ⟨b1, b2, b3⟩ := this
        obtain ⟨-, -, c3⟩ := keep _ _ b2 b3
        funext k
        simp only [MapCall.effect, cells_congr c3]
      | set x y =>
        obtain ⟨⟨b1, b2, b3⟩, b4, b5, b6⟩ := this
        obtain ⟨-, -, c3⟩ := keep _ _ b2 b3
        obtain ⟨-, -, c4⟩ := keep _ _ b5 b6
        funext k
        simp only [MapCall.effect, cells_congr c3, cells_congr c4]
    obtain ⟨hp', d1, d2, d3, d4, d5⟩ := ih h1 a2 hr'
    refine ⟨hp', by simp only [MapCall.all, a1, d1], d2, ?_, fun k a h => d4 k a (a4 k a h), ⟨fun y hy h => ?_, Nat.le_trans a5.grow d5.grow, fun y hy h => ?_⟩⟩
    · intro k
      rw [d3, List.foldl_cons, show h1.lookup K o.addr = c.effect hp K (hp.lookup K o.addr) from funext a3]
      exact congrFun (foldl_same (fun f c => MapCall.effect h1 K c f) (fun f c => MapCall.effect hp K c f) cs he _) k
    · have := a5.grow
      rw [d5.same y (by omega) (fun g => h (a5.mine y hy g)), a5.same y hy h]
    · have := a5.grow
      exact a5.mine y hy (d5.mine y (by omega) h)

/-- C86. The library's description of the maps, with the standard's maps behind it, makes a reflected map. -/
theorem C86_described (l : Lib) (hd : p.w.valueT ≠ p.w.voidT)
    (hnv : s ≠ p.w.valueT ∧ t ≠ p.w.valueT ∧ key ≠ p.w.valueT ∧ elem ≠ p.w.valueT ∧ keysT ≠ p.w.valueT) (hch : p.w.env.child s t = true)
    (hcv : p.w.env.conv s t = false) (hck : p.w.env.conv key key = false) (hsz : K.key = p.size key ∧ K.val = p.size elem)
    (har : ∀ hp ns, (K.arrange hp ns).Perm ns) (hor : ∀ l, K.less = some l → TotalOrder l)
    (hi : PlainCopy p l.sizeT) (hcell : p.size l.sizeT = 1) (hcs : p.w.env.conv l.sizeT l.sizeT = false)
    (hkr : p.size keysT = 3 ∧ ((p.caps keysT).copyConstructible = true ∨ (p.caps keysT).moveConstructible = true))
    (c : Caps) (id : Name)
    (hf : ∀ n ∈ (Spec.mapTable l t key elem keysT).map Prod.fst, p.w.functionF p.w.fuel s n.toList =
      .ok (((fnsOf ((mapDesc l t key elem keysT c id).drop (plumbing l t id c).length)).filter fun f => f.1 = n.toList).map Prod.snd))
    (h5 : ∀ hp m k, p.impl 5 hp [.obj m k] = mapSize hp m)
    (h6 : ∀ hp m i k k', p.impl 6 hp [.obj m k, .obj i k'] = mapCount K hp m i)
    (h7 : ∀ hp m i k k', p.impl 7 hp [.obj m k, .obj i k'] = mapIndex K hp m i)
    (h8 : ∀ hp m i k k', p.impl 8 hp [.obj m k, .obj i k'] = mapAt K hp m i)
    (h9 : ∀ hp m k, p.impl 9 hp [.obj m k] = mapKeys K hp m) :
    ReflectedMap p s t key elem keysT l.sizeT K := by
  rw [mapDesc, List.drop_left] at hf
  simp only [flag, tag, defFn, fnsOf] at hf
  exact
  { distinct := hd, notValue := hnv, derives := hch, noConverter := hcv, noKeyConverter := hck, sizes := hsz, arranges := har, ordered := hor, index := hi,
    cell := hcell, noSizeConverter := hcs, keysReturn := hkr
    size := ⟨Fn.make "size".toList l.sizeT.val [t.cref] 5, (hf "size" (by simp [Spec.mapTable])).trans (by simp), rfl, rfl, h5⟩
    count := ⟨Fn.make "count".toList l.sizeT.val [t.cref, key.cref] 6, (hf "count" (by simp [Spec.mapTable])).trans (by simp), rfl, rfl, h6⟩
    sub := ⟨Fn.make "operator[]".toList elem.lref [t.lref, key.cref] 7, (hf "operator[]" (by simp [Spec.mapTable])).trans (by simp), rfl, rfl, h7⟩
    «at» := ⟨Fn.make "at".toList elem.cref [t.cref, key.cref] 8, (hf "at" (by simp [Spec.mapTable])).trans (by simp), rfl, rfl, h8⟩
    keys := ⟨Fn.make "keys".toList keysT.val [t.cref] 9, (hf "keys" (by simp [Spec.mapTable])).trans (by simp), rfl, rfl, h9⟩ }

end

/-! ### a concrete case -/

namespace MapDemo

def all : Caps := ⟨true, true, true, true, true⟩
def lib : Lib := ⟨7, 4, 0, ⟨Ty.val 0, 0, none⟩, fun t n => ⟨Ty.lref 4, t, some n.length⟩⟩
def e0 : Env := ⟨0, 1, fun a b => a = b, fun _ _ => false⟩
/-- keys of two cells, values of one; the order of iteration is turned around with every insertion -/
def kind : MapKind := ⟨2, 1, none, fun _ ns => ns.reverse, fun _ => 0⟩

def impl : Nat → Heap → List BArg → Res (Heap × BRet)
  | 1, hp, [.obj a _] => (hp.copyObj 1 a).map fun r => (r.1, .obj r.2)
  | 3, hp, [.obj a _] => (hp.moveObj (fun _ => 0) 1 a).map fun r => (r.1, .obj r.2)
  | 2, hp, [.obj a true, .obj b _] => (hp.assignObj 1 a b).map fun h => (h, .obj a)
  | 4, hp, [.obj a true, .obj b _] => (hp.moveAssignObj (fun _ => 0) 1 a b).map fun h => (h, .obj a)
  | 5, hp, [.obj m _] => mapSize hp m
  | 6, hp, [.obj m _, .obj k _] => mapCount kind hp m k
  | 7, hp, [.obj m _, .obj k _] => mapIndex kind hp m k
  | 8, hp, [.obj m _, .obj k _] => mapAt kind hp m k
  | 9, hp, [.obj m _] => mapKeys kind hp m
  | _, _, _ => .error .ub

/-- 0 void, 1 Value, 2 map<K, size_t>, 3 K (two cells), 4 size_t, 5 a class derived from the map, 6 vector<K> -/
def world : World :=
  { n := 8, voidT := 0, valueT := 1
    ty := fun t => match t with
      | 0 => TypeD.new ['v']
      | 1 => TypeD.new ['V']
      | 2 => ((Noted.new ['M']).runAll e0 lib.void (mapDesc lib 2 3 4 6 all ['M'])).1.d
      | 3 => ((TypeD.new ['K']).runAll e0 (plumbingOps 3 ['K'] all)).1
      | 4 => { TypeD.new ['S'] with fns := [(['S'], plumbedConstructors 4 ['S'] all), ("operator=".toList, plumbedAssigns 4 all)] }
      | 5 => { TypeD.new ['C'] with parent := some 2 }
      | _ => TypeD.new ['b'] }

def prog : Prog :=
  { w := world, size := fun t => if t = 3 then 2 else if t = 4 then 1 else if t = 6 then 3 else 2, caps := fun _ => all
    moved := fun _ _ => 0, junk := .copy, impl := impl }

theorem plainSize : PlainCopy prog 4 := by
  refine (C32_plumbed prog 4 all [] (by decide) (by decide) (by decide) rfl rfl rfl (by decide) (by decide) (by simp) ?_ ?_).1
  · intro hp a m h; rfl
  · intro hp a m h; rfl

theorem assignable : Assignable prog 4 4 true true :=
  C71_plumbed_assignable prog 4 4 all (by decide) (by decide) (by decide) (by decide +kernel) (by decide +kernel) (by decide) rfl
    (fun _ _ _ _ => rfl) (fun _ _ _ _ => rfl)

theorem map (s : Ty) (hs : s = 2 ∨ s = 5) : ReflectedMap prog s 2 3 4 6 4 kind := by
  refine C86_described lib (by decide) ?_ ?_ ?_ (by decide +kernel) (by decide) (fun _ ns => List.reverse_perm ns) (by rintro _ ⟨⟩) plainSize (by decide)
    (by decide +kernel) (by decide) all ['M'] ?_ (fun _ _ _ => rfl) (fun _ _ _ _ _ => rfl) (fun _ _ _ _ _ => rfl) (fun _ _ _ _ _ => rfl)
    (fun _ _ _ => rfl)
  · rcases hs with rfl | rfl <;> decide
  · rcases hs with rfl | rfl <;> decide +kernel
  · rcases hs with rfl | rfl <;> decide +kernel
  · rcases hs with rfl | rfl <;> decide +kernel

/-- a map at 1 with one entry, (7, 8) ↦ 9, its index at 4 and the node at 6; keys (5, 6) at 10 and (7, 8) at 13; the
    number 77 at 16 -/
def heap : Heap :=
  { mem := fun a => match a with
      | 1 => 4 | 2 => 1 | 4 => 6 | 6 => 7 | 7 => 8 | 8 => 9 | 10 => 5 | 11 => 6 | 13 => 7 | 14 => 8 | 16 => 77 | _ => 0
    next := 18 }

def m : Handle := ⟨Ty.lref 5, 1, none⟩
def k1 : Handle := ⟨Ty.lref 3, 10, none⟩
def k2 : Handle := ⟨Ty.cref 3, 13, none⟩
def x : Handle := ⟨Ty.lref 4, 16, none⟩

theorem isMap : heap.IsMap kind m.addr := ⟨by decide, by decide, by decide, by decide, by decide, by decide, by rintro _ ⟨⟩⟩
theorem copiedK1 : Copied prog k1.arg 3 := ⟨by decide, by decide +kernel, by decide +kernel, by decide⟩
theorem copiedK2 : Copied prog k2.arg 3 := ⟨by decide, by decide +kernel, by decide +kernel, by decide⟩
theorem copiedX : Copied prog x.arg 4 := ⟨by decide, by decide +kernel, by decide +kernel, by decide⟩
theorem outside (y : Nat) (hy : 9 ≤ y) : ¬ heap.InMap kind m.addr y := by
  rintro (h | h | ⟨a, ha, h⟩)
  · simp only [m] at h; omega
  · have h1 : heap.mem m.addr = 4 := rfl
    have h2 : heap.mem (m.addr + 1) = 1 := rfl
    rw [h1, h2] at h; omega
  · have : heap.nodes m.addr = [6] := by decide
    rw [this, List.mem_singleton] at ha
    subst ha
    simp only [kind] at h; omega

theorem ready : ∀ c ∈ [MapCall.touch k1, .set k2 x, .touch k2, .set k1 x], c.Ready prog heap 3 4 kind m.addr := by
  have o1 : ∀ (h : Handle), 9 ≤ h.addr → ∀ n, ∀ j < n, ¬ heap.InMap kind m.addr (h.addr + j) :=
    fun h hh n j _ => outside _ (Nat.le_trans hh (Nat.le_add_right _ _))
  have r1 : MapCall.Ready prog heap 3 4 kind m.addr (.touch k1) := ⟨copiedK1, by decide, o1 _ (by decide) _⟩
  have r2 : MapCall.Ready prog heap 3 4 kind m.addr (.touch k2) := ⟨copiedK2, by decide, o1 _ (by decide) _⟩
  have r3 : Copied prog x.arg 4 ∧ heap.Ok x.addr kind.val ∧ ∀ j < kind.val, ¬ heap.InMap kind m.addr (x.addr + j) :=
    ⟨copiedX, by decide, o1 _ (by decide) _⟩
  intro c hc
  simp only [List.mem_cons, List.not_mem_nil, or_false] at hc
  rcases hc with rfl | rfl | rfl | rfl
  · exact r1
  · exact ⟨r2, r3⟩
  · exact r2
  · exact ⟨r1, r3⟩

/-- the entries after the calls -/
def after (cs : List MapCall) : Option (List (List Nat × List Nat)) := match MapCall.all prog 1 m heap cs with
  | .ok h => some (h.entries kind 1)
  | .error _ => none

example : ∃ hp', MapCall.all prog 1 m heap [.touch k1, .set k2 x, .touch k2, .set k1 x] = .ok hp' ∧
    hp'.lookup kind 1 [7, 8] = some [77] ∧ hp'.lookup kind 1 [5, 6] = some [77] ∧ hp'.lookup kind 1 [1, 1] = none := by
  obtain ⟨hp', h1, -, h3, -⟩ := C86_history (map 5 (by decide)) 0 _ m rfl ⟨rfl, rfl⟩ true assignable heap isMap ready
  exact ⟨hp', h1, (h3 _).trans (by decide), (h3 _).trans (by decide), (h3 _).trans (by decide)⟩
example : after [.touch k1] = some [([7, 8], [9]), ([5, 6], [0])] := by decide +kernel
example : after [.set k1 x, .touch k2] = some [([7, 8], [9]), ([5, 6], [77])] := by decide +kernel
example : after [.set k2 x] = some [([7, 8], [77])] := by decide +kernel
/-- `m[k1] = m[k2]`, the value of `k2` lying at 8 -/
example : after [.set k1 ⟨Ty.lref 4, 8, none⟩] = some [([7, 8], [9]), ([5, 6], [9])] := by decide +kernel
example : heap.ValueAt kind m.addr [7, 8] 8 := ⟨6, by decide, rfl, by decide⟩

example : HandsKey prog heap 3 (.native ⟨3, .rvalue, false⟩ 10) := .temporary 10 (by decide) (by decide)
example : HandsKey prog heap 3 (.dyn k2) := .kept _ (by rintro _ _ ⟨⟩) (by decide) (by decide +kernel) (by decide +kernel) (by decide)
example : prog.callMethod 1 heap m.toConst "at".toList prog.valueArg [.dyn k1] = .error .err :=
  C86_at (map 5 (by decide)) 0 heap m.toConst rfl (.dyn k1)
    (.kept _ (by rintro _ _ ⟨⟩) (by decide) (by decide +kernel) (by decide +kernel) (by decide)) isMap (by rintro y ⟨_, _, _, ⟨⟩, _⟩)
example : ∃ hp' a, prog.callMethod 1 heap m.toConst "count".toList (Ty.val 4) [.dyn k2] = .ok (hp', some (.obj a true)) ∧ hp'.mem a = 1 := by
  obtain ⟨hp', a, h1, h2, -⟩ := C86_count (map 5 (by decide)) 0 heap m.toConst rfl (.dyn k2)
    (.kept _ (by rintro _ _ ⟨⟩) (by decide) (by decide +kernel) (by decide +kernel) (by decide)) isMap (by rintro y ⟨_, _, _, ⟨⟩, _⟩)
  exact ⟨hp', a, h1, h2.trans (by decide)⟩
example : prog.callMethod 1 heap m.toConst "operator[]".toList prog.valueArg [.dyn k2] = .error .err :=
  C86_const_refused (map 5 (by decide)) 1 heap m.toConst rfl (Or.inl rfl) _ _
example : ∃ hp' r, prog.callMethod 1 heap m "keys".toList prog.valueArg [] = .ok (hp', some (.val r)) ∧ hp'.elems 2 r.addr = [[7, 8]] := by
  obtain ⟨hp', r, h1, -, -, -, h5, -⟩ := C86_keys (map 5 (by decide)) 0 heap m rfl isMap
  exact ⟨hp', r, h1, h5.trans (by decide)⟩
example : ∃ hp' a, prog.callMethod 1 heap m "size".toList (Ty.val 4) [] = .ok (hp', some (.obj a true)) ∧ hp'.mem a = 1 := by
  obtain ⟨hp', a, h1, h2, -⟩ := C86_size (map 5 (by decide)) 0 heap m rfl isMap
  exact ⟨hp', a, h1, h2⟩

end MapDemo

end Reflect

import re
P='/verif/lean/Verif/Spec/Vector.lean'
s=open(P).read()
i=s.index("/-- a call that changes a vector -/")
s=s[:i]+'''/-- a call that changes a vector -/
inductive VecCall where
  /-- `push_back(x)` -/
  | push (x : Handle)
  /-- `push_back(x.rvalue())` -/
  | pushMoved (x : Handle)
  /-- `v[i].assign(x)` -/
  | set (i x : Handle)
  | clear
  | resize (k : Handle)

/-- what there is outside of the vector, and the sequence -/
abbrev VecState := (Nat → Nat) × List (List Nat)

namespace VecCall

/-- the call -/
def call (p : Prog) (fuel : Nat) (hp : Heap) (o : Handle) : VecCall → Res Heap
  | push x => (p.callMethod fuel hp o "push_back".toList p.voidArg [.dyn x]).map (·.1)
  | pushMoved x => (p.callMethod fuel hp o "push_back".toList p.voidArg [.dyn x.rvalue]).map (·.1)
  | set i x => match p.callMethod fuel hp o "operator[]".toList p.valueArg [.dyn i] with
    | .ok (h1, some (.val r)) => p.assign fuel h1 r (.dyn x)
    | .ok (h1, _) => .ok h1
    | .error e => .error e
  | clear => (p.callMethod fuel hp o "clear".toList p.voidArg []).map (·.1)
  | resize k => (p.callMethod fuel hp o "resize".toList p.voidArg [.dyn k]).map (·.1)

/-- one call after the other -/
def all (p : Prog) (fuel : Nat) (o : Handle) : Heap → List VecCall → Res Heap
  | hp, [] => .ok hp
  | hp, c :: cs => match c.call p fuel hp o with
    | .error x => .error x
    | .ok hp' => all p fuel o hp' cs

/-- what it does to a sequence, and outside of it; `none`: the behaviour is undefined. Elements are of `n` cells. -/
def effect (n : Nat) (init moved : Nat → Nat) : VecCall → VecState → Option VecState
  | push x, (f, xs) => some (f, xs ++ [(List.range n).map fun j => f (x.addr + j)])
  | pushMoved x, (f, xs) => some (fun y => if x.addr ≤ y ∧ y < x.addr + n then moved (f y) else f y,
      xs ++ [(List.range n).map fun j => f (x.addr + j)])
  | set i x, (f, xs) =>
      if f i.addr < xs.length then some (f, xs.set (f i.addr) ((List.range n).map fun j => f (x.addr + j))) else none
  | clear, (f, _) => some (f, [])
  | resize k, (f, xs) => some (f, xs.take (f k.addr) ++ List.replicate (f k.addr - xs.length) ((List.range n).map init))

/-- there is an element at `x`, outside of the vector at `v` -/
def Element (p : Prog) (hp : Heap) (elem : Ty) (v : Nat) (x : Handle) : Prop :=
  hp.Ok x.addr (p.size elem) ∧ ∀ j < p.size elem, ¬ hp.InVec (p.size elem) v (x.addr + j)

/-- there is a number at `k`, outside of the vector at `v` -/
def Number (p : Prog) (hp : Heap) (elem sizeT : Ty) (v : Nat) (k : Handle) : Prop :=
  Copied p k.arg sizeT ∧ hp.Ok k.addr 1 ∧ ¬ hp.InVec (p.size elem) v k.addr

/-- the arguments are an element, a number, outside of the vector at `v` -/
def Ready (p : Prog) (hp : Heap) (elem sizeT : Ty) (v : Nat) : VecCall → Prop
  | push x => Copied p x.arg elem ∧ Element p hp elem v x
  | pushMoved x => MovedFrom p x.rvalue.arg elem ∧ Element p hp elem v x
  | set i x => Number p hp elem sizeT v i ∧ Copied p x.arg elem ∧ Element p hp elem v x
  | clear => True
  | resize k => Number p hp elem sizeT v k

/-- what is needed of the elements: that they can be moved, assigned -/
def Can (p : Prog) (elem : Ty) (Assigned : Prop) : VecCall → Prop
  | pushMoved _ => (p.caps elem).moveConstructible = true ∧ p.w.isMovable elem = true
  | set _ _ => Assigned
  | _ => True

end VecCall

end Reflect
'''
open(P,'w').write(s)

P='/verif/lean/Verif/Props/Vector.lean'
s=open(P).read()
s=s.replace("import Verif.Props.Alloc\n","import Verif.Props.Alloc\nimport Verif.Props.Assign\n",1)
# C85_index conj
old="(∀ y < hp.next, ¬ x.Own y → hp'.mem y = hp.mem y) ∧ hp.next ≤ hp'.next ∧\n      ∀ h2 : Heap"
assert s.count(old)==1
s=s.replace(old,"(∀ y < hp.next, ¬ x.Own y → hp'.mem y = hp.mem y) ∧ hp.next ≤ hp'.next ∧\n      r.addr = hp.mem o.addr + p.size elem * i ∧\n      ∀ h2 : Heap")
old="  refine ⟨h1, _, rfl, g3, ?_, v1, v2, k4, k5, ?_⟩\n  · have := elems_get"
assert s.count(old)==1
s=s.replace(old,'''  refine ⟨h1, _, rfl, g3, ?_, v1, v2, k4, k5, ?_, ?_⟩
  rotate_left
  · show h1.mem o.addr + _ = _
    have hobj := hv.obj
    rw [k4 o.addr (by have := hobj.2; omega) fun c => hap _ c (Or.inl ⟨Nat.le_refl _, by omega⟩)]
  rotate_left
  · have := elems_get''')
i=s.index("theorem foldl_same"); j=s.index("/-- C85. The library's description of `std::vector`")
new='''/-- C85. `v[i].assign(x)` makes the element at `i` a copy of `x`, even if `x` is itself an element, and changes nothing
else. -/
theorem C85_set (V : ReflectedVector p s t elem sizeT grow init) (fuel : Nat) (hp : Heap) (o : Handle) (ho : o.arg.type = s)
    (hm : o.Mutable) (x : Actual) (i : Nat) (hx : Hands p hp sizeT x i) (hv : hp.IsVec (p.size elem) o.addr)
    (hap : ∀ y, x.Own y → ¬ hp.InVec (p.size elem) o.addr y) (hi : i < (hp.elems (p.size elem) o.addr).length)
    (move : Bool) (hA : Assignable p elem elem true move) (e : Handle) (he : Copied p e.arg elem) (hok : hp.Ok e.addr (p.size elem))
    (hown : ∀ j < p.size elem, ¬ x.Own (e.addr + j)) :
    ∃ h1 r hp', p.callMethod (fuel + 2) hp o "operator[]".toList p.valueArg [x] = .ok (h1, some (.val r)) ∧
      p.assign (fuel + 1) h1 r (.dyn e) = .ok hp' ∧ hp'.IsVec (p.size elem) o.addr ∧
      hp'.elems (p.size elem) o.addr = (hp.elems (p.size elem) o.addr).set i (hp.cells e.addr (p.size elem)) ∧
      Elsewhere' hp hp' (p.size elem) o.addr x := by
  obtain ⟨h1, r, k1, k2, -, k4, k5, k6, k7, k8, k9⟩ := C85_index V fuel hp o ho hm x i hx hv hap _ (List.getElem?_eq_getElem hi)
  obtain ⟨v1, v2, v3⟩ := handed_vec hv hap k6 k7
  obtain ⟨⟨o1, o2⟩, b2, b3, b4⟩ := id hv
  have hlen := elems_length hp (p.size elem) o.addr
  have hl : p.size elem * i + p.size elem ≤ p.size elem * hp.mem (o.addr + 2) := by
    have := Nat.mul_le_mul_left (p.size elem) (show i + 1 ≤ hp.mem (o.addr + 2) by omega)
    rw [Nat.mul_succ] at this; exact this
  have b3' : 0 < hp.mem o.addr ∧ hp.mem o.addr + p.size elem * hp.mem (o.addr + 2) ≤ hp.next := by omega
  have b4' : o.addr + 3 ≤ hp.mem o.addr ∨ hp.mem o.addr + p.size elem * hp.mem (o.addr + 2) ≤ o.addr := by omega
  obtain ⟨e1, e2⟩ := hok
  obtain ⟨hp', c1, c2⟩ := C71_copy p fuel h1 r (.dyn e) elem move (by rw [k2]; exact hA) (by rw [k2]; exact ⟨rfl, rfl⟩)
    ⟨by omega, by omega⟩ ⟨e1, by show e.addr + p.size elem ≤ h1.next; omega⟩ he (by rintro _ _ ⟨⟩)
  obtain ⟨w1, w2⟩ := k9 hp' c2.grow c2.frame
  have hc : hp'.cells r.addr (p.size elem) = hp.cells e.addr (p.size elem) := cells_congr fun j hj => by
    rw [c2.same j hj]
    exact k6 _ (by show e.addr + j < _; omega) (hown j hj)
  have hg := c2.grow
  refine ⟨h1, r, hp', k1, c1, w1, by rw [w2, hc], ⟨fun y hy hy1 hy2 => ?_, by omega, fun y hy hy1 => ?_⟩⟩
  · rw [c2.frame y (by omega) ?_, k6 y hy hy2]
    refine Classical.byContradiction fun c => hy1 (Or.inr ?_)
    omega
  · have q0 : hp'.mem o.addr = h1.mem o.addr := c2.frame _ (by omega) (by omega)
    have q2 : hp'.mem (o.addr + 2) = h1.mem (o.addr + 2) := c2.frame _ (by omega) (by omega)
    refine (v3 y).1 ?_
    unfold Heap.InVec at hy1 ⊢
    rwa [q0, q2] at hy1

/-- `h` is what became of `h0` after a history that leads from its vector and what is outside to `st` -/
structure Tracks (h0 h : Heap) (n v : Nat) (st : VecState) : Prop where
  vec : h.IsVec n v
  elems : h.elems n v = st.2
  grow : h0.next ≤ h.next
  mine : ∀ y < h0.next, h.InVec n v y → h0.InVec n v y
  same : ∀ y < h0.next, ¬ h0.InVec n v y → h.mem y = st.1 y

theorem Tracks.elsewhere {h0 h h' : Heap} {n v : Nat} {st : VecState} {xs : List (List Nat)} (T : Tracks h0 h n v st) (h1 : h'.IsVec n v)
    (h2 : h'.elems n v = xs) (h3 : Elsewhere h h' n v) : Tracks h0 h' n v (st.1, xs) := by
  have := T.grow
  have := h3.grow
  refine ⟨h1, h2, by omega, fun y hy g => T.mine y hy (h3.mine y (by omega) g), fun y hy g => ?_⟩
  rw [h3.same y (by omega) fun c => g (T.mine y hy c), T.same y hy g]

theorem Tracks.element {h0 h : Heap} {v : Nat} {st : VecState} (T : Tracks h0 h (p.size elem) v st) {x : Handle}
    (hx : VecCall.Element p h0 elem v x) : VecCall.Element p h elem v x ∧
      h.cells x.addr (p.size elem) = (List.range (p.size elem)).map fun j => st.1 (x.addr + j) := by
  obtain ⟨⟨e1, e2⟩, e3⟩ := hx
  have := T.grow
  refine ⟨⟨⟨e1, by omega⟩, fun j hj c => e3 j hj (T.mine _ (by omega) c)⟩, ?_⟩
  unfold Heap.cells
  refine List.map_congr_left fun j hj => ?_
  have hj := List.mem_range.1 hj
  exact T.same _ (by omega) (e3 j hj)

theorem Tracks.number {h0 h : Heap} {v : Nat} {st : VecState} (T : Tracks h0 h (p.size elem) v st) {k : Handle}
    (hx : VecCall.Number p h0 elem sizeT v k) : Hands p h sizeT (.dyn k) (st.1 k.addr) := by
  obtain ⟨e0, ⟨e1, e2⟩, e3⟩ := hx
  have := T.grow
  have hh := Hands.kept (hp := h) (.dyn k) (by rintro _ _ ⟨⟩) e0 ⟨e1, by show k.addr + 1 ≤ _; omega⟩
  rwa [show h.mem (Actual.dyn k).handle.addr = st.1 k.addr from T.same _ (by omega) e3] at hh

theorem not_own (k : Handle) (y : Nat) : ¬ (Actual.dyn k).Own y := by rintro ⟨arg, _, ⟨⟩⟩

theorem Elsewhere'.plain {hp hp' : Heap} {n v : Nat} {k : Handle} (h : Elsewhere' hp hp' n v (.dyn k)) : Elsewhere hp hp' n v :=
  ⟨fun y hy g => h.same y hy g (not_own k y), h.grow, h.mine⟩

theorem VecCall.step_spec (V : ReflectedVector p s t elem sizeT grow init) (fuel : Nat) (h0 hp : Heap) (o : Handle) (ho : o.arg.type = s)
    (hm : o.Mutable) (st : VecState) (T : Tracks h0 hp (p.size elem) o.addr st) (c : VecCall) (hc : c.Ready p h0 elem sizeT o.addr)
    (hk : c.Can p elem (∃ move, Assignable p elem elem true move)) :
    match c.effect (p.size elem) init (p.moved elem) st with
    | none => c.call p (fuel + 2) hp o = .error .ub
    | some st' => ∃ hp', c.call p (fuel + 2) hp o = .ok hp' ∧ Tracks h0 hp' (p.size elem) o.addr st' := by
  obtain ⟨f, xs⟩ := st
  cases c with
  | push x =>
    obtain ⟨h1, h2⟩ := hc
    obtain ⟨h3, h4⟩ := T.element h2
    obtain ⟨hp', a1, a2, a3, a4⟩ := C85_push_back V (fuel + 1) hp o ho hm (.dyn x) (by rintro _ _ ⟨⟩) h1 h3.1 T.vec
    exact ⟨hp', by simp only [VecCall.call, a1]; rfl, T.elsewhere a2 (by rw [a3, T.elems, ← h4]; rfl) a4⟩
  | pushMoved x =>
    obtain ⟨h1, h2⟩ := hc
    obtain ⟨h3, h4⟩ := T.element h2
    obtain ⟨hp', a1, a2, a3, a4, a5, a6⟩ := C85_push_back_moved V (fuel + 1) hp o ho hm x.rvalue h1 hk.1 hk.2 h3.1 T.vec h3.2
    have := T.grow
    refine ⟨hp', by simp only [VecCall.call, a1]; rfl, ⟨a2, by rw [a3, T.elems, ← h4]; rfl, by omega,
      fun y hy g => T.mine y hy (a5 y (by omega) g), fun y hy g => ?_⟩⟩
    rw [a6 y (by omega) fun c => g (T.mine y hy c), T.same y hy g]
    rfl
  | set i x =>
    obtain ⟨h1, h2, h3⟩ := hc
    obtain ⟨h4, h5⟩ := T.element h3
    have hn := T.number h1
    have hl := T.elems
    simp only at hn hl
    simp only [VecCall.effect]
    by_cases hi : f i.addr < xs.length
    · rw [if_pos hi]
      obtain ⟨move, hA⟩ := hk
      obtain ⟨g1, r, hp', a1, a2, a3, a4, a5⟩ := C85_set V fuel hp o ho hm (.dyn i) _ hn T.vec (fun y hy => absurd hy (not_own i y))
        (by rw [hl]; exact hi) move hA x h2 h4.1 (fun j _ => not_own i _)
      obtain ⟨hp'', b1, -⟩ := C71_copy p (fuel + 1) g1 r (.dyn x) elem move ?_ ?_ ?_ ?_ h2 (by rintro _ _ ⟨⟩)
      all_goals skip
    · rw [if_neg hi]
      simp only [VecCall.call]
      rw [C85_index_unchecked V fuel hp o ho hm (.dyn i) _ hn T.vec (fun y hy => absurd hy (not_own i y))
        (by rw [hl]; exact List.getElem?_eq_none_iff.2 (by omega))]
  | clear =>
    obtain ⟨hp', a1, a2, a3, a4⟩ := C85_clear V (fuel + 1) hp o ho hm T.vec
    exact ⟨hp', by simp only [VecCall.call, a1]; rfl, T.elsewhere a2 a3 a4⟩
  | resize k =>
    obtain ⟨hp', a1, a2, a3, a4⟩ := C85_resize V fuel hp o ho hm (.dyn k) _ (T.number hc) T.vec (fun y hy => absurd hy (not_own k y))
    exact ⟨hp', by simp only [VecCall.call, a1]; rfl, T.elsewhere a2 (by rw [a3, T.elems]) a4.plain⟩

/-- C85. After any history of `push_back`, `push_back` of an `rvalue()`, `v[i].assign`, `clear` and `resize`, the vector
has the elements that the sequence has after the same history, and what is outside of it has changed only where
`push_back` took it; unless a `v[i]` is past the end: then the behaviour is undefined. The arguments lie outside of the
vector. -/
theorem C85_history (V : ReflectedVector p s t elem sizeT grow init) (fuel : Nat) (cs : List VecCall) (o : Handle) (ho : o.arg.type = s)
    (hm : o.Mutable) (hp : Heap) (hv : hp.IsVec (p.size elem) o.addr) (hr : ∀ c ∈ cs, c.Ready p hp elem sizeT o.addr)
    (hk : ∀ c ∈ cs, c.Can p elem (∃ move, Assignable p elem elem true move)) :
    match cs.foldlM (fun st c => c.effect (p.size elem) init (p.moved elem) st) (hp.mem, hp.elems (p.size elem) o.addr) with
    | none => VecCall.all p (fuel + 2) o hp cs = .error .ub
    | some (f, xs) => ∃ hp', VecCall.all p (fuel + 2) o hp cs = .ok hp' ∧ hp'.IsVec (p.size elem) o.addr ∧
        hp'.elems (p.size elem) o.addr = xs ∧ hp.next ≤ hp'.next ∧
        (∀ y < hp.next, ¬ hp.InVec (p.size elem) o.addr y → hp'.mem y = f y ∧ ¬ hp'.InVec (p.size elem) o.addr y) := by
  have main : ∀ (cs : List VecCall) (h : Heap) (st : VecState), Tracks hp h (p.size elem) o.addr st →
      (∀ c ∈ cs, c.Ready p hp elem sizeT o.addr) → (∀ c ∈ cs, c.Can p elem (∃ move, Assignable p elem elem true move)) →
      match cs.foldlM (fun st c => c.effect (p.size elem) init (p.moved elem) st) st with
      | none => VecCall.all p (fuel + 2) o h cs = .error .ub
      | some st' => ∃ hp', VecCall.all p (fuel + 2) o h cs = .ok hp' ∧ Tracks hp hp' (p.size elem) o.addr st' := by
    intro cs
    induction cs with
    | nil => exact fun h st T _ _ => ⟨h, rfl, T⟩
    | cons c cs ih =>
      intro h st T h1 h2
      have hs := VecCall.step_spec V fuel hp h o ho hm st T c (h1 c (by simp)) (h2 c (by simp))
      rw [List.foldlM_cons]
      cases he : c.effect (p.size elem) init (p.moved elem) st with
      | none =>
        rw [he] at hs
        simp only at hs
        simp only [VecCall.all, hs]
        rfl
      | some st' =>
        rw [he] at hs
        obtain ⟨h', a1, a2⟩ := hs
        have := ih h' st' a2 (fun d hd => h1 d (by simp [hd])) (fun d hd => h2 d (by simp [hd]))
        simp only [VecCall.all, a1]
        exact this
  have := main cs hp _ ⟨hv, rfl, Nat.le_refl _, fun _ _ h => h, fun _ _ _ => rfl⟩ hr hk
  revert this
  cases cs.foldlM (fun st c => c.effect (p.size elem) init (p.moved elem) st) (hp.mem, hp.elems (p.size elem) o.addr) with
  | none => exact id
  | some st =>
    rintro ⟨hp', a1, a2⟩
    exact ⟨hp', a1, a2.vec, a2.elems, a2.grow, fun y hy g => ⟨a2.same y hy g, fun c => g (a2.mine y hy c)⟩⟩

'''
# C85_set: assign with any fuel
new=new.replace('''      p.assign (fuel + 1) h1 r (.dyn e) = .ok hp' ∧ hp'.IsVec''','''      p.assign (fuel + 2) h1 r (.dyn e) = .ok hp' ∧ hp'.IsVec''').replace("C71_copy p fuel h1 r (.dyn e)","C71_copy p (fuel + 1) h1 r (.dyn e)")
a=new.index("      obtain ⟨hp'', b1, -⟩"); b=new.index("    · rw [if_neg hi]\n")
new=new[:a]+'''      exact ⟨hp', by simp only [VecCall.call, a1, a2], T.elsewhere a3 (by rw [a4, hl, h5]) a5.plain⟩
'''+new[b:]
s=s[:i]+new+s[j:]
open(P,'w').write(s)

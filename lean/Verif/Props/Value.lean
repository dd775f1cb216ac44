import Verif.Lemmas.Value
/-
  Properties C32–C35: what a reflected call hands to the callee, constness, castability, fields.
  A cast is `castTo`, i.e. `reflect::cast<Target>(value)`; the run-time work of a call is `bind`
  (one `castTo` per parameter) followed by the body.
-/
namespace Reflect

/-! ### C32 -/

/-- C32. Binding to an lvalue reference hands over the very object of the value, mutably unless the
    parameter is a reference to const, and touches no memory. -/
theorem C32_reference (p : Prog) (rec : Runner) (hp hp' : Heap) (v : Handle) (t : Arg) (b : BArg)
    (href : t.ref = .lvalue) (h : p.castTo rec hp v t = .ok (hp', b)) :
    hp' = hp ∧ b = .obj v.addr (!t.isConst) := by
  have hne : t ≠ p.valueArg := by
    intro hh; rw [hh] at href; simp [Prog.valueArg] at href
  unfold Prog.castTo at h
  rw [if_neg hne] at h
  simp only [Prog.castV, href] at h
  split at h
  · cases h
  · rename_i hp1 r hc
    split at hc
    · simp only [Except.ok.injEq, Prod.mk.injEq] at hc
      obtain ⟨rfl, rfl⟩ := hc
      simp only [Prog.castRet, href, Handle.as] at h
      split at h
      · cases h
      · rename_i a m ha
        split at ha
        · simp only [Except.ok.injEq, Prod.mk.injEq] at ha h
          obtain ⟨rfl, rfl⟩ := ha
          obtain ⟨rfl, rfl⟩ := h
          simp
        · cases ha
    · cases hc

/-- C32. Binding by value, for a plainly copied type and a value that is not an `rvalue()` of a mutable
    object, hands over a fresh object with the contents of the argument's, and changes no existing
    memory. -/
theorem C32_by_value (p : Prog) (fuel : Nat) (hp : Heap) (v : Handle) (t : Arg)
    (href : t.ref = .copy) (hplain : PlainCopy p t.type) (hok : hp.Ok v.addr (p.size t.type))
    (hc : Copied p v.arg t.type) :
    ∃ hp' a', p.castTo (p.run (fuel + 1)) hp v t = .ok (hp', .obj a' true) ∧
      hp.next ≤ a' ∧ (∀ i < p.size t.type, hp'.mem (a' + i) = hp.mem (v.addr + i)) ∧
      ∀ x < hp.next, hp'.mem x = hp.mem x := by
  obtain ⟨hp', a', h1, h2⟩ := castTo_copy_plain p t hp v fuel href hplain hok hc
  exact ⟨hp', a', h1, h2.fresh, h2.same, h2.frame⟩

/-- C32. An rvalue reference to a class whose objects can be copied but not moved is given a fresh mutable copy: the
    argument's object keeps its contents. -/
theorem C32_rvalue_copied (p : Prog) (rec : Runner) (hp : Heap) (v : Handle) (t : Arg) (href : t.ref = .rvalue)
    (hmov : p.w.isMovable t.type = true) (hch : p.w.env.child v.arg.type t.type = true)
    (hm : (p.caps t.type).moveConstructible = false) (hc : (p.caps t.type).copyConstructible = true)
    (hok : hp.Ok v.addr (p.size t.type)) :
    ∃ hp' a', p.castTo rec hp v t = .ok (hp', .obj a' true) ∧
      hp.next ≤ a' ∧ hp'.Ok a' (p.size t.type) ∧ (∀ i < p.size t.type, hp'.mem (a' + i) = hp.mem (v.addr + i)) ∧
      ∀ x < hp.next, hp'.mem x = hp.mem x := by
  obtain ⟨h2, a2, e2, x2⟩ := copyObj_fresh hp (p.size t.type) v.addr hok
  refine ⟨h2, a2, ?_, x2.fresh, x2.ok, x2.same, x2.frame⟩
  have hne : t ≠ p.valueArg := by
    intro hh; rw [hh] at href; simp [Prog.valueArg] at href
  unfold Prog.castTo
  rw [if_neg hne]
  simp [Prog.castV, href, hmov, hch, Prog.castRet, hm, hc, Handle.get, e2]

/-- C32. The object of a class that can neither be moved nor copied is handed over by no rvalue reference and by no
    value: the cast raises, whatever constructors are declared for the class. -/
theorem C32_untransferable (p : Prog) (rec : Runner) (hp : Heap) (v : Handle) (t : Arg) (href : t.ref ≠ .lvalue)
    (hv : t ≠ p.valueArg) (hm : (p.caps t.type).moveConstructible = false)
    (hc : (p.caps t.type).copyConstructible = false) :
    (∀ r, p.castTo rec hp v t ≠ .ok r) ∧ (t.ref = .rvalue → p.w.env.child v.arg.type t.type = true →
      p.castTo rec hp v t = .error .err) ∧
    ((∃ r, p.castV rec hp v t = .ok r) → p.castTo rec hp v t = .error .err) := by
  have h1 : ∀ h r, p.castRet h r t = .error .err := by
    intro h r
    unfold Prog.castRet
    cases hr : t.ref
    · simp [hc]
    · exact absurd hr href
    · simp [hm, hc]
  have h2 : p.castTo rec hp v t = match p.castV rec hp v t with
      | .error x => .error x
      | .ok _ => .error .err := by
    unfold Prog.castTo
    rw [if_neg hv]
    simp only [h1]
    cases p.castV rec hp v t <;> rfl
  rw [h2]
  refine ⟨?_, ?_, ?_⟩
  · intro r; split <;> simp
  · intro hr hch
    unfold Prog.castV
    rw [hr]
    simp only [hch, if_true]
    split
    · rename_i heq
      split at heq
      · cases heq
      · simp only [Except.error.injEq] at heq; rw [heq]
    · rfl
  · rintro ⟨r, hr⟩; rw [hr]

/-- C32. A class that cannot be copied is handed over by no value, even if it can be moved. -/
theorem C32_uncopyable (p : Prog) (rec : Runner) (hp : Heap) (v : Handle) (t : Arg) (href : t.ref = .copy)
    (hv : t ≠ p.valueArg) (hc : (p.caps t.type).copyConstructible = false) :
    (∀ r, p.castTo rec hp v t ≠ .ok r) ∧
    ((∃ r, p.castV rec hp v t = .ok r) → p.castTo rec hp v t = .error .err) := by
  have h1 : ∀ h r, p.castRet h r t = .error .err := by
    intro h r
    simp [Prog.castRet, href, hc]
  have h2 : p.castTo rec hp v t = match p.castV rec hp v t with
      | .error x => .error x
      | .ok _ => .error .err := by
    unfold Prog.castTo
    rw [if_neg hv]
    simp only [h1]
    cases p.castV rec hp v t <;> rfl
  rw [h2]
  refine ⟨?_, ?_⟩
  · intro r; split <;> simp
  · rintro ⟨r, hr⟩; rw [hr]

/-- C32. Binding by value, for a plainly moved type and an `rvalue()` of a mutable object, hands over a
    fresh object with the contents of the argument's, moves from the argument's object and changes nothing
    else. -/
theorem C32_by_value_moved (p : Prog) (fuel : Nat) (hp : Heap) (v : Handle) (t : Arg)
    (href : t.ref = .copy) (hplain : PlainMove p t.type) (hcop : p.w.isCopiable t.type = true)
    (hcap : (p.caps t.type).copyConstructible = true)
    (hok : hp.Ok v.addr (p.size t.type)) (hc : MovedFrom p v.arg t.type) :
    ∃ hp' a', p.castTo (p.run (fuel + 1)) hp v t = .ok (hp', .obj a' true) ∧
      hp.next ≤ a' ∧ (∀ i < p.size t.type, hp'.mem (a' + i) = hp.mem (v.addr + i)) ∧
      (∀ i < p.size t.type, hp'.mem (v.addr + i) = p.moved t.type (hp.mem (v.addr + i))) ∧
      ∀ x < hp.next, x < v.addr ∨ v.addr + p.size t.type ≤ x → hp'.mem x = hp.mem x := by
  obtain ⟨h1, a1, e1, x1⟩ := construct_moved hp v fuel hplain hok hc
  obtain ⟨h2, a2, e2, x2⟩ := copyObj_fresh h1 (p.size t.type) a1 x1.ok
  have x3 := x1.copy hok x2
  refine ⟨h2, a2, ?_, x3.fresh, x3.same, x3.moved, x3.frame⟩
  have hne : t ≠ p.valueArg := by
    intro hh; exact hplain.notValue (by rw [hh]; rfl)
  unfold Prog.castTo
  rw [if_neg hne]
  simp only [Prog.castV, href, hcop, hc.derives, if_true, e1, Prog.castRet, hcap, Handle.get,
    child_refl, e2]

/-- a parameter that is an lvalue reference, a `Value`, or a plainly copied object of a parent type given
    a value that is not moved from -/
inductive SimpleParam (p : Prog) (hp : Heap) (v : Handle) (t : Arg) : Prop
  | ref : t.ref = .lvalue → SimpleParam p hp v t
  | dyn : t = p.valueArg → SimpleParam p hp v t
  | byValue : t.ref = .copy → PlainCopy p t.type → hp.Ok v.addr (p.size t.type) →
      Copied p v.arg t.type → SimpleParam p hp v t

/-- what the callee must see for the value `v` of heap `hp` -/
def Sees (p : Prog) (hp hp' : Heap) (v : Handle) (t : Arg) (b : BArg) : Prop :=
  if t.ref = .lvalue then b = .obj v.addr (!t.isConst)
  else if t = p.valueArg then b = .val v
  else ∃ a, b = .obj a true ∧ hp.next ≤ a ∧
    ∀ i < p.size t.type, hp'.mem (a + i) = hp.mem (v.addr + i)

theorem castTo_dyn (p : Prog) (rec : Runner) (hp : Heap) (v : Handle) :
    p.castTo rec hp v p.valueArg = .ok (hp, .val v) := by
  unfold Prog.castTo; rw [if_pos rfl]

/-- C32. A whole call: for every list of arguments and parameters of these kinds, once binding
    succeeds, the callee sees the argument's own object for each reference parameter and a fresh equal
    object for each by-value parameter, and no memory that existed has changed. -/
theorem C32_call (p : Prog) (fuel : Nat) (vs : List Handle) (ts : List Arg) (hp hp' : Heap)
    (bs : List BArg) (hlen : vs.length = ts.length)
    (hs : ∀ x ∈ vs.zip ts, SimpleParam p hp x.1 x.2)
    (h : p.bind (p.run (fuel + 1)) hp vs ts = .ok (hp', bs)) :
    bs.length = ts.length ∧ (∀ x < hp.next, hp'.mem x = hp.mem x) ∧
    ∀ i (hv : i < vs.length) (ht : i < ts.length) (hb : i < bs.length),
      Sees p hp hp' vs[i] ts[i] bs[i] := by
  -- objects that exist in `hp0` keep their contents; this generalises the heap of the induction
  suffices H : ∀ (vs : List Handle) (ts : List Arg) (h0 hp : Heap) (bs : List BArg),
      vs.length = ts.length → h0.next ≤ hp.next → (∀ x < h0.next, hp.mem x = h0.mem x) →
      (∀ x ∈ vs.zip ts, SimpleParam p h0 x.1 x.2) →
      p.bind (p.run (fuel + 1)) hp vs ts = .ok (hp', bs) →
      bs.length = ts.length ∧ hp.next ≤ hp'.next ∧ (∀ x < hp.next, hp'.mem x = hp.mem x) ∧
      ∀ i (hv : i < vs.length) (ht : i < ts.length) (hb : i < bs.length),
        Sees p h0 hp' vs[i] ts[i] bs[i] by
    obtain ⟨h1, -, h2, h3⟩ := H vs ts hp hp bs hlen (Nat.le_refl _) (fun _ _ => rfl) hs h
    exact ⟨h1, h2, h3⟩
  clear h hs hlen
  intro vs
  induction vs with
  | nil =>
    intro ts h0 hp bs hlen hle hmem hs h
    cases ts with
    | cons t ts => simp at hlen
    | nil =>
      simp only [Prog.bind, Except.ok.injEq, Prod.mk.injEq] at h
      obtain ⟨rfl, rfl⟩ := h
      exact ⟨rfl, Nat.le_refl _, fun _ _ => rfl, fun i hv => absurd hv (by simp)⟩
  | cons v vs ih =>
    intro ts h0 hp bs hlen hle hmem hs h
    cases ts with
    | nil => simp at hlen
    | cons t ts =>
      rw [Prog.bind] at h
      split at h
      · cases h
      · rename_i h1 b hb
        split at h
        · cases h
        · rename_i h2 bs' hbs
          simp only [Except.ok.injEq, Prod.mk.injEq] at h
          obtain ⟨rfl, rfl⟩ := h
          have hsv := hs (v, t) (by simp)
          have key : hp.next ≤ h1.next ∧ (∀ x < hp.next, h1.mem x = hp.mem x) ∧
              (∀ h2 : Heap, h1.next ≤ h2.next → (∀ x < h1.next, h2.mem x = h1.mem x) →
                Sees p h0 h2 v t b) := by
            cases hsv with
            | ref hr =>
              obtain ⟨rfl, rfl⟩ := C32_reference p _ _ _ v t b hr hb
              exact ⟨Nat.le_refl _, fun _ _ => rfl, fun _ _ _ => by
                change t.ref = .lvalue at hr
                simp only [Sees, hr, if_true]⟩
            | dyn hr =>
              simp only at hr
              subst hr
              rw [castTo_dyn] at hb
              simp only [Except.ok.injEq, Prod.mk.injEq] at hb
              obtain ⟨rfl, rfl⟩ := hb
              exact ⟨Nat.le_refl _, fun _ _ => rfl, fun _ _ _ => by
                simp [Sees, Prog.valueArg]⟩
            | byValue hr hpl hok hch =>
              have hok' : hp.Ok v.addr (p.size t.type) :=
                ⟨hok.1, Nat.le_trans hok.2 hle⟩
              obtain ⟨h1', a', e1, x1⟩ := castTo_copy_plain p t hp v fuel hr hpl hok' hch
              rw [e1] at hb
              simp only [Except.ok.injEq, Prod.mk.injEq] at hb
              obtain ⟨rfl, rfl⟩ := hb
              refine ⟨x1.grow, x1.frame, fun h2 hg hf => ?_⟩
              have hne : t ≠ p.valueArg := fun hh => hpl.notValue (by rw [hh]; rfl)
              change t.ref = .copy at hr
              simp only [Sees, hr, if_neg hne, reduceCtorEq, if_false]
              refine ⟨a', rfl, Nat.le_trans hle x1.fresh, fun i hi => ?_⟩
              have h3 := x1.ok.2
              have h4 : v.addr + p.size t.type ≤ h0.next := hok.2
              rw [hf _ (by omega), x1.same i hi, hmem _ (by omega)]
          obtain ⟨k1, k2, k3⟩ := key
          obtain ⟨i1, i2, i3, i4⟩ := ih ts h0 h1 bs' (by simpa using hlen) (Nat.le_trans hle k1)
            (fun x hx => by rw [k2 x (Nat.lt_of_lt_of_le hx hle), hmem x hx])
            (fun x hx => hs x (by simp [hx])) hbs
          refine ⟨by simp [i1], Nat.le_trans k1 i2,
            fun x hx => by rw [i3 x (Nat.lt_of_lt_of_le hx k1), k2 x hx], ?_⟩
          intro i hv ht hb'
          cases i with
          | zero => exact k3 h2 i2 i3
          | succ i => exact i4 i (by simpa using hv) (by simpa using ht) (by simpa using hb')

/-- C32. The standard plumbing meets the requirements: a plumbed class that can be copied and moved is
    plainly copied and plainly moved, whatever other constructors it is given, as long as none of them
    accepts one of its objects alone. -/
theorem C32_plumbed (p : Prog) (t : Ty) (c : Caps) (o : Overloads)
    (hv : t ≠ p.w.voidT) (hd : t ≠ p.w.valueT) (hvd : p.w.valueT ≠ p.w.voidT)
    (hcopy : c.copyConstructible = true) (hmove : c.moveConstructible = true)
    (hcaps : p.caps t = c)
    (hconv : p.w.env.conv t t = false)
    (hctors : p.w.functionF p.w.fuel t (p.w.ty t).id =
      .ok (plumbedConstructors t (p.w.ty t).id c ++ o))
    (ho : ∀ g ∈ o, NotFor p t g)
    (hbody : ∀ hp a m, hp.Ok a (p.size t) → p.impl 1 hp [.obj a m] =
      (hp.copyObj (p.size t) a).map fun r => (r.1, .obj r.2))
    (hbody' : ∀ hp a m, hp.Ok a (p.size t) → p.impl 3 hp [.obj a m] =
      (hp.moveObj (p.moved t) (p.size t) a).map fun r => (r.1, .obj r.2)) :
    PlainCopy p t ∧ PlainMove p t := by
  have hcop : p.w.isCopiable t = true := by
    unfold World.isCopiable World.constructibleFrom
    rw [hctors]
    have hmc := match_copy_constref p.w.env t hconv (child_refl p.w t)
    simp only [plumbedConstructors, hcopy, hmove, Overloads.test, List.any_append,
      Bool.and_self, if_true, List.any_cons, List.any_nil, Bool.or_false]
    have : Fn.test p.w.env (Fn.make (p.w.ty t).id ⟨t, .copy, false⟩ [⟨t, .lvalue, true⟩] 1)
        ⟨t, .copy, false⟩ [⟨t, .copy, false⟩] = .part := by
      simp [Fn.test, Fn.make, testReturn_self, testArguments, testArgumentsLoop, hmc, combine]
    simp [this]
  have hmov : p.w.isMovable t = true := by
    unfold World.isMovable World.constructibleFrom
    rw [hctors]
    have hmc := match_rvalue_constref p.w.env t hconv (child_refl p.w t)
    simp only [plumbedConstructors, hcopy, hmove, Overloads.test, List.any_append,
      Bool.and_self, if_true, List.any_cons, List.any_nil, Bool.or_false]
    have : Fn.test p.w.env (Fn.make (p.w.ty t).id ⟨t, .copy, false⟩ [⟨t, .lvalue, true⟩] 1)
        ⟨t, .copy, false⟩ [⟨t, .rvalue, false⟩] = .part := by
      simp [Fn.test, Fn.make, testReturn_self, testArguments, testArgumentsLoop, hmc, combine]
    simp [this]
  have hc1 : IsCopyCtor p t (Fn.make (p.w.ty t).id ⟨t, .copy, false⟩ [⟨t, .lvalue, true⟩] 1) :=
    ⟨rfl, rfl, hbody⟩
  have hm1 : IsMoveCtor p t (Fn.make (p.w.ty t).id ⟨t, .copy, false⟩ [⟨t, .rvalue, false⟩] 3) :=
    ⟨rfl, rfl, hbody'⟩
  have hdef : ∀ g ∈ (if c.defaultConstructible then [Fn.make (p.w.ty t).id (⟨t, .copy, false⟩ : Arg) [] 0]
      else []), NotFor p t g := by
    intro g hg
    split at hg
    · simp only [List.mem_singleton] at hg; subst hg; exact .inl (by simp [Fn.make])
    · cases hg
  have hmid : plumbedConstructors t (p.w.ty t).id c =
      (if c.defaultConstructible then [Fn.make (p.w.ty t).id ⟨t, .copy, false⟩ [] 0] else []) ++
      [Fn.make (p.w.ty t).id ⟨t, .copy, false⟩ [⟨t, .lvalue, true⟩] 1,
       Fn.make (p.w.ty t).id ⟨t, .copy, false⟩ [⟨t, .rvalue, false⟩] 3] := by
    simp only [plumbedConstructors, hcopy, hmove, Bool.and_true, if_true]
    simp
  rw [hmid] at hctors
  generalize (if c.defaultConstructible then
    [Fn.make (p.w.ty t).id (⟨t, .copy, false⟩ : Arg) [] 0] else []) = d at hdef hctors
  constructor
  · refine ⟨hv, hd, hvd, hcop, by rw [hcaps]; exact hcopy, by rw [hcaps]; exact hmove, d, _,
      Fn.make (p.w.ty t).id ⟨t, .copy, false⟩ [⟨t, .rvalue, false⟩] 3 :: o, ?_, hc1, ?_⟩
    · rw [hctors]; simp
    · intro g hg
      rcases List.mem_append.1 hg with hg | hg
      · exact .inr (hdef g hg)
      · rcases List.mem_cons.1 hg with rfl | hg
        · exact .inl hm1
        · exact .inr (ho g hg)
  · refine ⟨hv, hd, hvd, hmov, by rw [hcaps]; exact hmove,
      d ++ [Fn.make (p.w.ty t).id ⟨t, .copy, false⟩ [⟨t, .lvalue, true⟩] 1], _, o, ?_, hm1, ?_⟩
    · rw [hctors]; simp
    · intro g hg
      rcases List.mem_append.1 hg with hg | hg
      · rcases List.mem_append.1 hg with hg | hg
        · exact .inr (hdef g hg)
        · simp only [List.mem_singleton] at hg; subst hg; exact .inl hc1
      · exact .inr (ho g hg)

/-! ### C33 -/

/-- handles obtained from `h` by the handle operations that make no new object: copies of the handle,
    `toConst`, `rvalue`, `field`, and casts to lvalue references (which return the handle itself) -/
inductive Derived (p : Prog) (h : Handle) : Handle → Prop
  | self : Derived p h h
  | toConst {v} : Derived p h v → Derived p h v.toConst
  | rvalue {v} : Derived p h v → Derived p h v.rvalue
  | field {v w name} : Derived p h v → v.field p name = .ok w → Derived p h w
  | lref {v w t rec hp hp'} : Derived p h v → t.ref = .lvalue →
      p.castV rec hp v t = .ok (hp', w) → Derived p h w

theorem derived_const (p : Prog) (h v : Handle) (hc : h.arg.isConst = true) (hd : Derived p h v) :
    v.arg.isConst = true := by
  induction hd with
  | self => exact hc
  | toConst _ _ => rfl
  | rvalue _ ih => exact ih
  | field _ hf ih =>
    unfold Handle.field at hf
    split at hf
    · cases hf
    · simp only [Except.ok.injEq] at hf
      subst hf
      simp [ih]
  | lref _ hr hcast ih =>
    simp only [Prog.castV, hr] at hcast
    split at hcast
    · simp only [Except.ok.injEq, Prod.mk.injEq] at hcast
      rw [← hcast.2]; exact ih
    · cases hcast

/-- C33 (1). However a handle is derived from a const handle, it stays const and
    is never bound to a mutable lvalue reference. -/
theorem C33_no_mutable_reference (p : Prog) (h v : Handle) (hc : h.arg.isConst = true)
    (hd : Derived p h v) (rec : Runner) (hp : Heap) (t : Arg) (href : t.ref = .lvalue)
    (ht : t.isConst = false) :
    v.arg.isConst = true ∧ p.castTo rec hp v t = .error .err := by
  have hv := derived_const p h v hc hd
  refine ⟨hv, ?_⟩
  have hne : t ≠ p.valueArg := by
    intro hh; rw [hh] at href; simp [Prog.valueArg] at href
  unfold Prog.castTo
  rw [if_neg hne]
  simp [Prog.castV, href, ht, hv]

/-- C33 (2). In a whole call whose parameters are lvalue references, `Value`s or
    plainly copied objects, no object that exists changes before the body runs, and the body gets a
    mutable reference to the object of a handle only if the handle is not const. -/
theorem C33_call (p : Prog) (fuel : Nat) (vs : List Handle) (ts : List Arg) (hp hp' : Heap)
    (bs : List BArg) (hlen : vs.length = ts.length)
    (hs : ∀ x ∈ vs.zip ts, SimpleParam p hp x.1 x.2)
    (h : p.bind (p.run (fuel + 1)) hp vs ts = .ok (hp', bs)) :
    (∀ x < hp.next, hp'.mem x = hp.mem x) ∧
    ∀ i (hv : i < vs.length) (hb : i < bs.length) a,
      bs[i] = .obj a true → a < hp.next → a = vs[i].addr ∧ vs[i].arg.isConst = false := by
  obtain ⟨h1, h2, h3⟩ := C32_call p fuel vs ts hp hp' bs hlen hs h
  refine ⟨h2, ?_⟩
  intro i hv hb a hba hlt
  have ht : i < ts.length := hlen ▸ hv
  have hsee := h3 i hv ht hb
  rw [hba] at hsee
  cases href : ts[i].ref with
  | lvalue =>
    simp only [Sees, href, if_true, BArg.obj.injEq] at hsee
    refine ⟨hsee.1, ?_⟩
    have htc : ts[i].isConst = false := by simpa using hsee.2.symm
    -- the cast at position i succeeded, so the handle was not const
    have : ∀ (vs : List Handle) (ts : List Arg) (hp : Heap) (bs : List BArg) (i : Nat)
        (hv : i < vs.length) (ht : i < ts.length),
        p.bind (p.run (fuel + 1)) hp vs ts = .ok (hp', bs) →
        ∃ ha hb b, p.castTo (p.run (fuel + 1)) ha vs[i] ts[i] = .ok (hb, b) := by
      intro vs
      induction vs with
      | nil => intro ts hp bs i hv; simp at hv
      | cons v vs ih =>
        intro ts hp bs i hv ht hbd
        cases ts with
        | nil => simp at ht
        | cons t ts =>
          rw [Prog.bind] at hbd
          split at hbd
          · cases hbd
          · rename_i ha b hcast
            split at hbd
            · cases hbd
            · rename_i hb bs' hrest
              cases i with
              | zero => exact ⟨_, _, _, hcast⟩
              | succ i =>
                simp only [Except.ok.injEq, Prod.mk.injEq] at hbd
                obtain ⟨rfl, rfl⟩ := hbd
                exact ih ts _ _ i (by simpa using hv) (by simpa using ht) hrest
    obtain ⟨ha, hb', b, hcast⟩ := this vs ts hp bs i hv ht h
    cases hcv : vs[i].arg.isConst with
    | false => rfl
    | true =>
      have := (C33_no_mutable_reference p vs[i] vs[i] hcv .self (p.run (fuel + 1)) ha ts[i]
        href htc).2
      rw [this] at hcast; cases hcast
  | rvalue =>
    simp only [Sees, href, reduceCtorEq, if_false] at hsee
    split at hsee
    · cases hsee
    · obtain ⟨a', h4, h5, -⟩ := hsee
      simp only [BArg.obj.injEq] at h4
      omega
  | copy =>
    simp only [Sees, href, reduceCtorEq, if_false] at hsee
    split at hsee
    · cases hsee
    · obtain ⟨a', h4, h5, -⟩ := hsee
      simp only [BArg.obj.injEq] at h4
      omega

/-- C33 is false of the code: `as<T>()` hands out a mutable reference to the object of every handle,
    const ones included. -/
theorem C33_as_ignores_const (p : Prog) (h : Handle) :
    h.toConst.arg.isConst = true ∧ h.toConst.as p h.arg.type = .ok (h.addr, true) := by
  refine ⟨rfl, ?_⟩
  have : p.w.env.child h.toConst.arg.type h.arg.type = true := child_refl p.w h.arg.type
  unfold Handle.as
  rw [if_pos this]
  rfl

/-- C33 is false of the code: casting to an rvalue reference never looks at the constness of the
    handle. For every movable type the object of a const handle is moved from, even by a cast to
    `const T&&`. -/
theorem C33_const_moved_from (p : Prog) (rec : Runner) (hp : Heap) (v : Handle) (t : Ty) (k : Bool)
    (hmov : p.w.isMovable t = true) (hch : p.w.env.child v.arg.type t = true)
    (hcap : (p.caps t).moveConstructible = true) (hok : hp.Ok v.addr (p.size t)) :
    ∃ hp' a, p.castTo rec hp v.toConst ⟨t, .rvalue, k⟩ = .ok (hp', .obj a true) ∧
      ∀ i < p.size t, hp'.mem (v.addr + i) = p.moved t (hp.mem (v.addr + i)) := by
  have hne : (⟨t, .rvalue, k⟩ : Arg) ≠ p.valueArg := by simp [Prog.valueArg]
  obtain ⟨hp', h1, h2⟩ := moveObj_source hp (p.moved t) (p.size t) v.addr hok
  refine ⟨hp', hp.next, ?_, h2⟩
  unfold Prog.castTo
  rw [if_neg hne]
  have hch' : p.w.env.child v.toConst.arg.type t = true := hch
  simp only [Prog.castV, hmov, if_true, hch', Prog.castRet, hcap, Handle.as]
  have : v.toConst.addr = v.addr := rfl
  rw [this, h1]

theorem select_error_err {e : Env} {o : Overloads} {ret : Arg} {args : List Arg} {x : Fault}
    (h : o.select e ret args = .error x) : x = .err := by
  unfold Overloads.select at h
  split at h <;> simp_all

theorem test_none_of_param (e : Env) (f : Fn) (want : Arg) (as : List Arg) (i : Nat) (hi : i < as.length)
    (hf : i < f.args.length) (h : isConvertibleTo e as[i] f.args[i] = .none) :
    f.test e want as = .none := by
  have : testArguments e as f.args = .none := by
    rw [C23_none_iff]
    exact .inr ⟨(as[i], f.args[i]), by
      rw [List.mem_iff_getElem]
      exact ⟨i, by rw [List.length_zip]; omega, by simp⟩, h⟩
  unfold Fn.test
  rw [this]; unfold combine; simp

/-- C33 (3). A whole call never moves from the object of a const value through a `T&&` parameter: the
    call is refused before anything is copied, moved or run, unless the value's type declares a
    converter to `T` (which makes a new object). -/
theorem C33_call_refuses_const (p : Prog) (fuel : Nat) (hp : Heap) (f : Fn) (want : Arg)
    (as : List Actual) (i : Nat) (hi : i < as.length) (hf : i < f.args.length) (t : Ty)
    (ht : f.args[i] = ⟨t, .rvalue, false⟩) (hc : as[i].arg.isConst = true)
    (hv : as[i].arg.type ≠ p.w.valueT) (htv : t ≠ p.w.valueT)
    (hconv : p.w.env.conv as[i].arg.type t = false) :
    p.callFn fuel hp f want as = .error .err ∧
    ∀ o, p.callOv fuel hp o want as ≠ .error .err →
      ∃ g ∈ o, p.callOv fuel hp o want as = p.callFn fuel hp g want as ∧ g ≠ f := by
  have htest : f.test p.w.env want (as.map Actual.arg) = .none := by
    apply test_none_of_param p.w.env f want _ i (by simpa using hi) hf
    rw [ht, List.getElem_map]
    refine Classical.byContradiction fun hh => ?_
    have := (C21_rvalue_ref_safe p.w.env (child_refl p.w) as[i].arg ⟨t, .rvalue, false⟩ hv htv hconv
      rfl hh).2.1 hc
    cases this
  have h1 : p.callFn fuel hp f want as = .error .err := by
    unfold Prog.callFn; rw [if_pos htest]
  refine ⟨h1, ?_⟩
  intro o ho
  unfold Prog.callOv at ho ⊢
  cases hs : o.select p.w.env want (as.map Actual.arg) with
  | error x =>
    exfalso
    rw [hs] at ho
    have := select_error_err hs
    subst this
    exact ho rfl
  | ok g =>
    rw [hs] at ho
    refine ⟨g, (select_mem _ hs).1, rfl, ?_⟩
    rintro rfl
    exact ho h1

/-- C33 is false of the code: a whole call of a function that takes `const T&&` accepts a const value of
    type `T` and moves from its object. -/
theorem C33_const_rvalue_parameter (p : Prog) (fuel : Nat) (hp : Heap) (f : Fn) (v : Handle)
    (hargs : f.args = [⟨v.arg.type, .rvalue, true⟩]) (hret : f.ret.type = p.w.voidT)
    (hmov : p.w.isMovable v.arg.type = true)
    (hcap : (p.caps v.arg.type).moveConstructible = true) (hok : hp.Ok v.addr (p.size v.arg.type)) :
    ∃ hp' a, (∀ i < p.size v.arg.type,
        hp'.mem (v.addr + i) = p.moved v.arg.type (hp.mem (v.addr + i))) ∧
      p.callFn (fuel + 1) hp f ⟨p.w.voidT, .copy, false⟩ [.dyn v.toConst] =
        match p.impl f.body hp' [.obj a true] with
        | .error x => .error x
        | .ok (h2, r) => (p.wrapRet h2 f.ret r).map fun r => (r.1, none) := by
  obtain ⟨hp', a, h1, h2⟩ := C33_const_moved_from p (p.run fuel) hp v v.arg.type true hmov
    (child_refl _ _) hcap hok
  refine ⟨hp', a, h2, ?_⟩
  have htest : f.test p.w.env ⟨p.w.voidT, .copy, false⟩ [v.toConst.arg] ≠ .none := by
    have : isConvertibleTo p.w.env v.toConst.arg ⟨v.arg.type, .rvalue, true⟩ = .exact := by
      unfold isConvertibleTo; exact if_pos rfl
    have hr : testReturn p.w.env ⟨p.w.voidT, .copy, false⟩ f.ret ≠ .none := by
      unfold testReturn; simp [World.env, hret]
    unfold Fn.test
    rw [hargs]
    cases hm : testReturn p.w.env ⟨p.w.voidT, .copy, false⟩ f.ret <;>
      simp_all [testArguments, testArgumentsLoop, combine]
  unfold Prog.callFn
  have hm : List.map Actual.arg [Actual.dyn v.toConst] = [v.toConst.arg] := rfl
  rw [hm, if_neg htest]
  simp only [Prog.toHandles, Prog.run, hargs, Prog.bind, h1]
  cases p.impl f.body hp' [.obj a true] with
  | error x => rfl
  | ok r =>
    obtain ⟨h3, r⟩ := r
    simp only
    cases p.wrapRet h3 f.ret r with
    | error x => rfl
    | ok r => simp [Prog.retCast, Except.map]

/-! ### C34 -/

/-- C34 (1). For an lvalue-reference target, when neither side is the dynamic
    type and the value's type declares no converter to the target, `isCastable` is true exactly when
    the cast succeeds. -/
theorem C34_lvalue (p : Prog) (rec : Runner) (hp : Heap) (v : Handle) (t : Arg)
    (href : t.ref = .lvalue) (hv : v.arg.type ≠ p.w.valueT) (ht : t.type ≠ p.w.valueT)
    (hconv : p.w.env.conv v.arg.type t.type = false) :
    p.isCastable v t = true ↔ ∃ r, p.castTo rec hp v t = .ok r := by
  have hne : t ≠ p.valueArg := fun hh => ht (by rw [hh]; rfl)
  have hcast : (∃ r, p.castTo rec hp v t = .ok r) ↔
      (p.w.env.child v.arg.type t.type = true ∧
        (t.isConst = true ∨ (v.arg.isConst = false ∧ v.arg.ref = .lvalue))) := by
    unfold Prog.castTo
    rw [if_neg hne]
    simp only [Prog.castV, href]
    constructor
    · rintro ⟨r, h⟩
      split at h
      · cases h
      · rename_i hc
        split at hc
        · assumption
        · cases hc
    · intro h
      rw [if_pos h]
      simp [Prog.castRet, href, Handle.as, h.1]
  rw [hcast]
  unfold Prog.isCastable
  simp only [hne, decide_false, Bool.false_or, decide_eq_true_eq]
  rw [C22_matches_iff]
  constructor
  · rintro hm
    have hm' := (C22_matches_iff p.w.env v.arg t).2 hm
    unfold isConvertibleTo at hm'
    split at hm'
    · rename_i heq
      refine ⟨by rw [heq]; exact child_refl p.w t.type, ?_⟩
      rw [heq]
      cases t.isConst <;> simp [href]
    · rw [if_neg (by simp [World.env, hv, ht]), hconv, if_neg (by simp)] at hm'
      split at hm'
      · simp at hm'
      · rename_i hcc
        simp only [href, ne_eq, reduceCtorEq, not_false_eq_true, true_and, testConstConversion] at hcc
        simp only at hm'
        split at hm'
        · simp at hm'
        · rename_i hl
          split at hm'
          · simp at hm'
          · split at hm'
            · simp at hm'
            · rename_i hch
              refine ⟨by simpa using hch, ?_⟩
              cases htc : t.isConst with
              | true => exact .inl rfl
              | false =>
                right
                simp only [href, htc, true_and] at hl
                constructor
                · cases hvc : v.arg.isConst <;> simp_all
                · exact Classical.byContradiction fun hx => hl (.inr hx)
  · rintro ⟨hch, hc⟩
    apply (C22_matches_iff p.w.env v.arg t).1
    unfold isConvertibleTo
    split
    · simp
    · rw [if_neg (by simp [World.env, hv, ht]), hconv, if_neg (by simp)]
      rw [if_neg]
      · simp only
        rw [if_neg, if_neg, if_neg]
        · split
          · simp
          · split <;> simp
        · simp [hch]
        · simp [href]
        · rintro ⟨-, htc, hx⟩
          rcases hc with hc | ⟨hc1, hc2⟩
          · rw [htc] at hc; cases hc
          · rcases hx with hx | hx
            · rw [hc1] at hx; cases hx
            · exact hx hc2
      · rintro ⟨-, hx⟩
        simp only [testConstConversion, Bool.or_eq_false_iff, beq_eq_false_iff_ne, ne_eq] at hx
        rcases hc with hc | ⟨hc1, hc2⟩
        · rw [hc] at hx; simp at hx
        · rw [hc1, hx.2] at hx; simp at hx

/-- C34 (2). For a by-value target that is plainly copiable, when the value is
    a live object of a type that declares no converter to the target, `isCastable` is true exactly
    when the cast succeeds. -/
theorem C34_copy (p : Prog) (fuel : Nat) (hp : Heap) (v : Handle) (t : Arg)
    (href : t.ref = .copy) (hplain : PlainCopy p t.type) (hmv : p.w.isMovable t.type = true)
    (hv : v.arg.type ≠ p.w.valueT)
    (hok : hp.Ok v.addr (p.size t.type)) (hconv : p.w.env.conv v.arg.type t.type = false) :
    p.isCastable v t = true ↔ ∃ r, p.castTo (p.run (fuel + 1)) hp v t = .ok r := by
  have ht := hplain.notValue
  have hne : t ≠ p.valueArg := fun hh => ht (by rw [hh]; rfl)
  have hcast : (∃ r, p.castTo (p.run (fuel + 1)) hp v t = .ok r) ↔
      p.w.env.child v.arg.type t.type = true := by
    constructor
    · rintro ⟨r, h⟩
      cases hch : p.w.env.child v.arg.type t.type with
      | true => rfl
      | false =>
        unfold Prog.castTo at h
        rw [if_neg hne] at h
        simp [Prog.castV, href, hplain.copiable, hch, hconv] at h
    · intro hch
      obtain ⟨h1, a1, e1, x1⟩ := construct_any p t.type hp v fuel hplain hmv hok hv hch hconv
      obtain ⟨h2, a2, e2, -⟩ := copyObj_fresh h1 (p.size t.type) a1 x1
      refine ⟨(h2, .obj a2 true), ?_⟩
      unfold Prog.castTo
      rw [if_neg hne]
      simp only [Prog.castV, href, hplain.copiable, hch, if_true, e1, Prog.castRet, hplain.copyable, Handle.get,
        child_refl, e2]
  rw [hcast]
  unfold Prog.isCastable
  simp only [hne, decide_false, Bool.false_or, decide_eq_true_eq]
  unfold isConvertibleTo
  split
  · rename_i heq
    simp only [ne_eq, reduceCtorEq, not_false_eq_true, true_iff]
    rw [heq]; exact child_refl p.w t.type
  · rw [if_neg (by simp [World.env, hv, ht]), hconv, if_neg (by simp)]
    simp only [href, ne_eq, not_true_eq_false, false_and, if_false, reduceCtorEq]
    cases hch : p.w.env.child v.arg.type t.type with
    | false => simp
    | true =>
      simp only [Bool.true_eq_false, if_false, iff_true]
      split
      · simp
      · split <;> simp

/-- C34 (3). For an rvalue-reference target, when neither side is the dynamic type and no converter to
    the target is declared: what `isCastable` asks (a non-const or const-compatible temporary of a
    child type) and what the cast needs (a live object of a child type, target movable) are these two
    different things. -/
theorem C34_rvalue (p : Prog) (rec : Runner) (hp : Heap) (v : Handle) (t : Arg)
    (href : t.ref = .rvalue) (hv : v.arg.type ≠ p.w.valueT) (ht : t.type ≠ p.w.valueT)
    (hconv : p.w.env.conv v.arg.type t.type = false)
    (hcap : (p.caps t.type).moveConstructible = true) (hok : hp.Ok v.addr (p.size t.type)) :
    (p.isCastable v t = true ↔ v.arg.ref = .rvalue ∧ (v.arg.isConst = true → t.isConst = true) ∧
      p.w.env.child v.arg.type t.type = true) ∧
    ((∃ r, p.castTo rec hp v t = .ok r) ↔
      p.w.isMovable t.type = true ∧ p.w.env.child v.arg.type t.type = true) := by
  have hne : t ≠ p.valueArg := fun hh => ht (by rw [hh]; rfl)
  constructor
  · unfold Prog.isCastable
    simp only [hne, decide_false, Bool.false_or, decide_eq_true_eq]
    constructor
    · intro h
      exact C21_rvalue_ref_safe p.w.env (child_refl p.w) v.arg t hv ht hconv href h
    · rintro ⟨h1, h2, h3⟩
      unfold isConvertibleTo
      split
      · simp
      · rw [if_neg (by simp [World.env, hv, ht]), hconv, if_neg (by simp)]
        have hcc : testConstConversion v.arg.isConst t.isConst = true := by
          unfold testConstConversion
          cases hvc : v.arg.isConst <;> cases htc : t.isConst <;> simp_all
        simp only [hcc, href, h1, h3, reduceCtorEq, Bool.true_eq_false, and_false, false_and,
          if_false, not_true_eq_false, ne_eq]
        split
        · simp
        · split <;> simp
  · unfold Prog.castTo
    rw [if_neg hne]
    simp only [Prog.castV, href]
    cases hm : p.w.isMovable t.type with
    | false => simp
    | true =>
      cases hch : p.w.env.child v.arg.type t.type with
      | false => simp [hconv]
      | true => simp [Prog.castRet, href, hcap, Handle.as, hch, Heap.moveObj, hok]

/-- C34 is false of the code (3): a converter declared to a type the value derives from anyway makes
    `isCastable` deny every lvalue-reference cast that succeeds, but for the identical one. -/
theorem C34_converter_hides_parent (p : Prog) (rec : Runner) (hp : Heap) (v : Handle) (t : Arg)
    (href : t.ref = .lvalue) (hv : v.arg.type ≠ p.w.valueT) (ht : t.type ≠ p.w.valueT)
    (hdiff : v.arg ≠ t) (hconv : p.w.env.conv v.arg.type t.type = true)
    (hch : p.w.env.child v.arg.type t.type = true)
    (hc : t.isConst = true ∨ (v.arg.isConst = false ∧ v.arg.ref = .lvalue)) :
    p.isCastable v t = false ∧ ∃ r, p.castTo rec hp v t = .ok r := by
  have hne : t ≠ p.valueArg := fun hh => ht (by rw [hh]; rfl)
  constructor
  · unfold Prog.isCastable
    simp only [hne, decide_false, Bool.false_or, decide_eq_false_iff_not, ne_eq, Decidable.not_not]
    rw [C24_converter p.w.env v.arg t hdiff ?_ hconv, if_pos href]
    rintro (h | h)
    · exact hv h.1
    · exact ht h.2
  · unfold Prog.castTo
    rw [if_neg hne]
    simp only [Prog.castV, href]
    rw [if_pos ⟨hch, hc⟩]
    simp [Prog.castRet, href, Handle.as, hch]

/-- C34 is false of the code (1): every value is reported castable to a reference to `Value`, but the
    cast always raises unless the value is itself of the dynamic type. -/
theorem C34_castable_but_fails (p : Prog) (rec : Runner) (hp : Heap) (v : Handle)
    (hv : v.arg.type ≠ p.w.valueT) (hch : p.w.env.child v.arg.type p.w.valueT = false) (c : Bool) :
    p.isCastable v ⟨p.w.valueT, .lvalue, c⟩ = true ∧
    p.castTo rec hp v ⟨p.w.valueT, .lvalue, c⟩ = .error .err := by
  have hne : (⟨p.w.valueT, .lvalue, c⟩ : Arg) ≠ p.valueArg := by simp [Prog.valueArg]
  constructor
  · unfold Prog.isCastable isConvertibleTo
    simp only [hne, decide_false, Bool.false_or, decide_eq_true_eq]
    split
    · simp
    · rw [if_pos (by simp [World.env, hv])]; simp
  · unfold Prog.castTo
    rw [if_neg hne]
    simp [Prog.castV, hch]

/-- C34 is false of the code (2): no lvalue handle, stored temporaries included, is reported castable
    to an rvalue reference of its own type, but the cast succeeds for every movable type. -/
theorem C34_not_castable_but_succeeds (p : Prog) (rec : Runner) (hp : Heap) (v : Handle)
    (hl : v.arg.ref = .lvalue) (hv : v.arg.type ≠ p.w.valueT)
    (hconv : p.w.env.conv v.arg.type v.arg.type = false)
    (hmov : p.w.isMovable v.arg.type = true) (hcap : (p.caps v.arg.type).moveConstructible = true)
    (hok : hp.Ok v.addr (p.size v.arg.type)) :
    p.isCastable v ⟨v.arg.type, .rvalue, false⟩ = false ∧
    ∃ r, p.castTo rec hp v ⟨v.arg.type, .rvalue, false⟩ = .ok r := by
  have hne : (⟨v.arg.type, .rvalue, false⟩ : Arg) ≠ p.valueArg := by simp [Prog.valueArg]
  constructor
  · unfold Prog.isCastable isConvertibleTo
    simp only [hne, decide_false, Bool.false_or, decide_eq_false_iff_not, ne_eq,
      Decidable.not_not]
    rw [if_neg (by intro h; rw [h] at hl; cases hl), if_neg (by simp [World.env, hv]), hconv,
      if_neg (by simp)]
    simp only [hl]
    split
    · rfl
    · simp
  · unfold Prog.castTo
    rw [if_neg hne]
    simp [Prog.castV, hmov, child_refl, Prog.castRet, hcap, Handle.as, Heap.moveObj, hok]

/-! ### C35 -/

/-- C35. `field(name)` yields exactly the sub-object at the offset declared by the nearest
    declaration of the field, const when the object or the field is, and owning nothing. -/
theorem C35_field (p : Prog) (hcl : p.w.Closed) (hac : p.w.Acyclic) (h : Handle)
    (hty : h.arg.type < p.w.n) (name : Name) (r : Handle) :
    h.field p name = .ok r ↔ ∃ f, p.w.Nearest (fun d => d.fields.get name) h.arg.type f ∧
      r.arg.type = f.arg.type ∧ r.arg.ref = .lvalue ∧ r.addr = h.addr + f.offset ∧
      r.owner = none ∧ (r.arg.isConst = true ↔ f.arg.isConst = true ∨ h.arg.isConst = true) := by
  have hn := C17_field_nearest p.w hcl hac h.arg.type hty name p.w.fuel (by unfold World.fuel; omega)
  unfold Handle.field
  constructor
  · intro hr
    split at hr
    · cases hr
    · rename_i f hf
      simp only [Except.ok.injEq] at hr
      subst hr
      exact ⟨f, (hn.1 f).1 hf, rfl, rfl, rfl, rfl, by simp⟩
  · rintro ⟨f, hf, h1, h2, h3, h4, h5⟩
    rw [(hn.1 f).2 hf]
    obtain ⟨⟨t, ref, c⟩, a, o⟩ := r
    simp only at h1 h2 h3 h4 h5
    subst h1; subst h2; subst h3; subst h4
    simp only [Except.ok.injEq, Handle.mk.injEq, Arg.mk.injEq, true_and, and_true]
    cases c <;> cases hf' : f.arg.isConst <;> cases hh' : h.arg.isConst <;> simp_all

/-- C35. When no type of the parent chain declares the field, the access raises an error. -/
theorem C35_missing (p : Prog) (hcl : p.w.Closed) (hac : p.w.Acyclic) (h : Handle)
    (hty : h.arg.type < p.w.n) (name : Name)
    (hno : ∀ k u, p.w.anc k h.arg.type = some u → (p.w.ty u).fields.get name = none) :
    h.field p name = .error .err := by
  have hn := C17_field_nearest p.w hcl hac h.arg.type hty name p.w.fuel (by unfold World.fuel; omega)
  unfold Handle.field
  rw [hn.2.1.1 hno]

/-! ### a concrete program -/

namespace ValueDemo

/-- the copy, move and `T(U)` constructors of the demo type, by body number -/
def impl (size : Nat) : Nat → Heap → List BArg → Res (Heap × BRet)
  | 1, hp, [.obj a _] => (hp.copyObj size a).map fun r => (r.1, .obj r.2)
  | 3, hp, [.obj a _] => (hp.moveObj (fun _ => 0) size a).map fun r => (r.1, .obj r.2)
  | 9, hp, [.obj _ _] => .ok (hp, .void)
  | _, _, _ => .error .ub

def tCtors : Overloads := plumbedConstructors 2 ['T'] ⟨true, true, true, true, true⟩

/-- 0 void, 1 Value, 2 T (two cells), 3 a child of T with a field, 4 U -/
def world : World :=
  { n := 5, voidT := 0, valueT := 1
    ty := fun t => match t with
      | 0 => TypeD.new ['v']
      | 1 => TypeD.new ['V']
      | 2 => { TypeD.new ['T'] with fns := [(['T'], tCtors)] }
      | 3 => { TypeD.new ['C'] with
          parent := some 2, fields := [(['x'], ⟨⟨4, .copy, false⟩, 1⟩)] }
      | _ => { TypeD.new ['U'] with
          fns := [(['U'], [Fn.make ['U'] ⟨4, .copy, false⟩ [⟨2, .lvalue, true⟩] 9] ++
            plumbedConstructors 4 ['U'] ⟨true, true, true, true, true⟩)] } }

def prog : Prog :=
  { w := world, size := fun _ => 2, caps := fun _ => ⟨true, true, true, true, true⟩
    moved := fun _ _ => 0, junk := .copy, impl := impl 2 }

/-- an object of the child type at address 1 -/
def heap : Heap := { mem := fun a => if a = 1 then 7 else if a = 2 then 8 else 0, next := 5 }
def obj : Handle := ⟨⟨3, .lvalue, false⟩, 1, none⟩

/-- the demo type `T` is plumbed, hence plainly copied and moved; its child is passed by value as a `T` -/
theorem plainT : PlainCopy prog 2 ∧ PlainMove prog 2 := by
  refine C32_plumbed prog 2 ⟨true, true, true, true, true⟩ [] (by decide) (by decide) (by decide)
    rfl rfl rfl (by decide) (by decide) (by simp) ?_ ?_
  · intro hp a m h; rfl
  · intro hp a m h; rfl

theorem copiedObj : Copied prog obj.arg 2 := ⟨by decide, by decide, by decide, by decide⟩

example : heap.Ok obj.addr (prog.size 2) ∧ prog.w.env.child obj.arg.type 2 = true ∧
    SimpleParam prog heap obj ⟨2, .copy, false⟩ ∧ SimpleParam prog heap obj ⟨2, .lvalue, true⟩ :=
  ⟨by decide, by decide, .byValue rfl plainT.1 (by decide) copiedObj, .ref rfl⟩

example : MovedFrom prog obj.rvalue.arg 2 ∧ Copied prog obj.toConst.arg 2 :=
  ⟨⟨by decide, by decide, by decide, by decide⟩, ⟨by decide, by decide, by decide, by decide⟩⟩

/-- passing `obj.rvalue()` by value empties it -/
example : (match prog.bind (prog.run 1) heap [obj.rvalue] [⟨2, .copy, false⟩] with
    | .ok (hp, [.obj a _]) => decide (hp.mem a = 7 ∧ hp.mem 1 = 0)
    | _ => false) = true := by decide

/-- a call `f(T, const T&)` with twice the same object binds a fresh copy and the object -/
example : (match prog.bind (prog.run 1) heap [obj, obj] [⟨2, .copy, false⟩, ⟨2, .lvalue, true⟩] with
    | .ok (hp, [.obj a m, .obj b m']) => decide (a ≥ 5 ∧ m = true ∧ hp.mem a = 7 ∧
        hp.mem (a + 1) = 8 ∧ b = 1 ∧ m' = false ∧ hp.mem 1 = 7)
    | _ => false) = true := by decide

/-- a const handle is refused by a reflected call of `f(T&&)`, and moved from by one of `f(const T&&)`:
    cell 1 changes from 7 to 0 -/
example : (prog.callOv 1 heap [Fn.make ['f'] ⟨0, .copy, false⟩ [⟨2, .rvalue, false⟩] 9]
      ⟨0, .copy, false⟩ [.dyn obj.toConst]).toOption.isSome = false ∧
    (match prog.callOv 1 heap [Fn.make ['f'] ⟨0, .copy, false⟩ [⟨2, .rvalue, true⟩] 9]
      ⟨0, .copy, false⟩ [.dyn obj.toConst] with
    | .ok (hp, _) => decide (hp.mem 1 = 0)
    | _ => false) = true := by decide

example : prog.w.isMovable 2 = true ∧ prog.w.env.conv 2 2 = false := by decide

example : obj.field prog ['x'] = .ok ⟨⟨4, .lvalue, false⟩, 2, none⟩ ∧
    obj.toConst.field prog ['x'] = .ok ⟨⟨4, .lvalue, true⟩, 2, none⟩ ∧
    obj.field prog ['y'] = .error .err := by decide

/-- the child type of `T` with a converter to `T` -/
def childWithConverter : TypeD :=
  { TypeD.new ['C'] with
    parent := some 2
    fns := [(World.converterName ['T'],
      [Fn.make (World.converterName ['T']) ⟨2, .copy, false⟩ [⟨3, .lvalue, true⟩] 1])] }

def progConv : Prog :=
  { prog with w := { world with ty := fun t => if t = 3 then childWithConverter else world.ty t } }

example : progConv.w.env.conv obj.arg.type 2 = true ∧ progConv.w.env.child obj.arg.type 2 = true ∧
    progConv.isCastable obj ⟨2, .lvalue, true⟩ = false := by decide

/-- the same, with a class that can be copied but not moved, and with one that can be neither -/
def progCopyOnly : Prog := { prog with caps := fun _ => ⟨true, true, false, true, false⟩ }
def progPinned : Prog := { prog with caps := fun _ => ⟨true, false, false, false, false⟩ }

example : ∃ hp' a', progCopyOnly.castTo (prog.run 1) heap obj ⟨2, .rvalue, false⟩ = .ok (hp', .obj a' true) ∧
    heap.next ≤ a' ∧ hp'.Ok a' 2 ∧ (∀ i < 2, hp'.mem (a' + i) = heap.mem (obj.addr + i)) ∧
    ∀ x < heap.next, hp'.mem x = heap.mem x :=
  C32_rvalue_copied progCopyOnly _ heap obj ⟨2, .rvalue, false⟩ rfl (by decide) (by decide) rfl rfl (by decide)
example : progPinned.castTo (prog.run 1) heap obj ⟨2, .rvalue, false⟩ = .error .err :=
  (C32_untransferable progPinned _ heap obj ⟨2, .rvalue, false⟩ (by decide) (by decide) rfl rfl).2.1 rfl (by decide)
/-- the declared copy constructor ran, its result cannot be returned -/
example : progPinned.castTo (prog.run 1) heap obj ⟨2, .copy, false⟩ = .error .err :=
  (C32_uncopyable progPinned (prog.run 1) heap obj ⟨2, .copy, false⟩ rfl (by decide) rfl).2
    ⟨_, show progPinned.castV (prog.run 1) heap obj ⟨2, .copy, false⟩ = .ok (_, _) from rfl⟩

end ValueDemo

end Reflect

import Verif.Props.MethodCall
/-
  Properties C32 and C68 for parameters of every kind, those that move from their argument included: a
  by-value parameter given an `rvalue()` of a mutable object, and an rvalue-reference parameter.
-/
namespace Reflect
open World

/-- the parameter is given an object of its own, made from the object the value refers to -/
def OwnObject (p : Prog) (t : Arg) : Prop := t.ref ≠ .lvalue ∧ t ≠ p.valueArg

/-- the parameter `t` moves from the object of `v`: an rvalue reference to a class that can be moved, or a
    by-value parameter given an `rvalue()` of a mutable object -/
def Takes (p : Prog) (v : Handle) (t : Arg) : Prop :=
  (t.ref = .rvalue ∧ (p.caps t.type).moveConstructible = true) ∨
  (t.ref = .copy ∧ t ≠ p.valueArg ∧ v.arg.ref = .rvalue ∧ v.arg.isConst = false)

/-- a value and its parameter, of any kind: a reference, a `Value`, a plainly copied or plainly moved by-value
    parameter, or an rvalue reference to a parent class -/
inductive AnyParam (p : Prog) (v : Handle) (t : Arg) : Prop
  | ref : t.ref = .lvalue → AnyParam p v t
  | dyn : t = p.valueArg → AnyParam p v t
  | copied : t.ref = .copy → PlainCopy p t.type → Copied p v.arg t.type → AnyParam p v t
  | moved : t.ref = .copy → PlainMove p t.type → p.w.isCopiable t.type = true →
      (p.caps t.type).copyConstructible = true → MovedFrom p v.arg t.type → AnyParam p v t
  | rvalue : t.ref = .rvalue → p.w.isMovable t.type = true → p.w.env.child v.arg.type t.type = true →
      ((p.caps t.type).moveConstructible = true ∨ (p.caps t.type).copyConstructible = true) →
      AnyParam p v t

/-- every object a parameter's own object is made from is live -/
def Live (p : Prog) (hp : Heap) (vs : List Handle) (ts : List Arg) : Prop :=
  ∀ x ∈ vs.zip ts, OwnObject p x.2 → hp.Ok x.1.addr (p.size x.2.type)

/-- no object that a parameter moves from overlaps one that another parameter copies or moves from -/
def ApartTaken (p : Prog) (vs : List Handle) (ts : List Arg) : Prop :=
  (vs.zip ts).Pairwise fun x y => OwnObject p x.2 → OwnObject p y.2 →
    (Takes p x.1 x.2 ∨ Takes p y.1 y.2) →
    x.1.addr + p.size x.2.type ≤ y.1.addr ∨ y.1.addr + p.size y.2.type ≤ x.1.addr

theorem Takes.own {p : Prog} {v : Handle} {t : Arg} (h : Takes p v t) : OwnObject p t := by
  rcases h with ⟨h, -⟩ | ⟨h, h', -⟩
  · refine ⟨by rw [h]; simp, fun e => ?_⟩
    rw [e] at h; simp [Prog.valueArg] at h
  · exact ⟨by rw [h]; simp, h'⟩

/-- one parameter with an object of its own -/
theorem castTo_own (p : Prog) (fuel : Nat) (hp : Heap) (v : Handle) (t : Arg) (h : AnyParam p v t)
    (hown : OwnObject p t) (hok : hp.Ok v.addr (p.size t.type)) :
    ∃ hp' a, p.castTo (p.run (fuel + 1)) hp v t = .ok (hp', .obj a true) ∧
      hp.next ≤ a ∧ hp'.Ok a (p.size t.type) ∧ hp.next ≤ hp'.next ∧
      (∀ k < p.size t.type, hp'.mem (a + k) = hp.mem (v.addr + k)) ∧
      (Takes p v t → ∀ k < p.size t.type, hp'.mem (v.addr + k) = p.moved t.type (hp.mem (v.addr + k))) ∧
      (∀ x < hp.next, (Takes p v t → x < v.addr ∨ v.addr + p.size t.type ≤ x) → hp'.mem x = hp.mem x) := by
  obtain ⟨hown1, hown2⟩ := hown
  cases h with
  | ref h => exact absurd h hown1
  | dyn h => exact absurd h hown2
  | copied hr hpl hc =>
    obtain ⟨hp', a, e, x⟩ := castTo_copy_plain p t hp v fuel hr hpl hok hc
    have hno : ¬ Takes p v t := by
      rintro (⟨h, -⟩ | ⟨-, -, h⟩)
      · rw [hr] at h; cases h
      · exact hc.notMoved h
    exact ⟨hp', a, e, x.fresh, x.ok, x.grow, x.same, fun h => absurd h hno, fun z hz _ => x.frame z hz⟩
  | moved hr hpl hcop hcap hc =>
    obtain ⟨h1, a1, e1, x1⟩ := construct_moved hp v fuel hpl hok hc
    obtain ⟨h2, a2, e2, x2⟩ := copyObj_fresh h1 (p.size t.type) a1 x1.ok
    have x3 := x1.copy hok x2
    have htk : Takes p v t := .inr ⟨hr, hown2, hc.isMoved⟩
    refine ⟨h2, a2, ?_, x3.fresh, x3.ok, x3.grow, x3.same, fun _ => x3.moved, fun z hz hz' =>
      x3.frame z hz (hz' htk)⟩
    unfold Prog.castTo
    rw [if_neg hown2]
    simp only [Prog.castV, hr, hcop, hc.derives, if_true, e1, Prog.castRet, hcap, Handle.get, child_refl, e2]
  | rvalue hr hmv hch hcap =>
    by_cases hm : (p.caps t.type).moveConstructible = true
    · obtain ⟨h2, a2, e2, x2⟩ := moveObj_fresh hp (p.moved t.type) (p.size t.type) v.addr hok
      have htk : Takes p v t := .inl ⟨hr, hm⟩
      refine ⟨h2, a2, ?_, x2.fresh, x2.ok, x2.grow, x2.same, fun _ => x2.moved, fun z hz hz' =>
        x2.frame z hz (hz' htk)⟩
      unfold Prog.castTo
      rw [if_neg hown2]
      simp [Prog.castV, hr, hmv, hch, Prog.castRet, hm, Handle.as, e2]
    · have hm' : (p.caps t.type).moveConstructible = false := by simpa using hm
      have hcc := hcap.resolve_left hm
      obtain ⟨h2, a2, e2, x2⟩ := copyObj_fresh hp (p.size t.type) v.addr hok
      have hno : ¬ Takes p v t := by
        rintro (⟨-, h⟩ | ⟨h, -⟩)
        · exact hm h
        · rw [hr] at h; cases h
      refine ⟨h2, a2, ?_, x2.fresh, x2.ok, x2.grow, x2.same, fun h => absurd h hno, fun z hz _ =>
        x2.frame z hz⟩
      unfold Prog.castTo
      rw [if_neg hown2]
      simp [Prog.castV, hr, hmv, hch, Prog.castRet, hm', hcc, Handle.get, e2]

/-- C32. A whole call with parameters of every kind, those that move from their argument included: once
    binding succeeds, each reference parameter sees the argument's own object, and each by-value or
    rvalue-reference parameter a fresh object with the contents the argument had before the call; the
    objects moved from are left as their class's move constructor leaves them; and nothing else that
    existed has changed. -/
theorem C32_call_moving (p : Prog) (fuel : Nat) (vs : List Handle) (ts : List Arg) (hp hp' : Heap)
    (bs : List BArg) (hlen : vs.length = ts.length)
    (hs : ∀ x ∈ vs.zip ts, AnyParam p x.1 x.2) (hlive : Live p hp vs ts) (hap : ApartTaken p vs ts)
    (h : p.bind (p.run (fuel + 1)) hp vs ts = .ok (hp', bs)) :
    bs.length = ts.length ∧
    (∀ i (hv : i < vs.length) (ht : i < ts.length) (hb : i < bs.length), Sees p hp hp' vs[i] ts[i] bs[i]) ∧
    (∀ x ∈ vs.zip ts, Takes p x.1 x.2 → ∀ k < p.size x.2.type,
      hp'.mem (x.1.addr + k) = p.moved x.2.type (hp.mem (x.1.addr + k))) ∧
    (∀ a < hp.next, (∀ x ∈ vs.zip ts, Takes p x.1 x.2 → a < x.1.addr ∨ x.1.addr + p.size x.2.type ≤ a) →
      hp'.mem a = hp.mem a) := by
  -- the objects of the parameters still to be bound keep their contents of the first memory
  suffices H : ∀ (vs : List Handle) (ts : List Arg) (h0 hp : Heap) (bs : List BArg),
      vs.length = ts.length → h0.next ≤ hp.next →
      (∀ x ∈ vs.zip ts, OwnObject p x.2 → ∀ k < p.size x.2.type,
        hp.mem (x.1.addr + k) = h0.mem (x.1.addr + k)) →
      (∀ x ∈ vs.zip ts, AnyParam p x.1 x.2) → Live p h0 vs ts → ApartTaken p vs ts →
      p.bind (p.run (fuel + 1)) hp vs ts = .ok (hp', bs) →
      bs.length = ts.length ∧ hp.next ≤ hp'.next ∧
      (∀ i (hv : i < vs.length) (ht : i < ts.length) (hb : i < bs.length),
        Sees p h0 hp' vs[i] ts[i] bs[i]) ∧
      (∀ x ∈ vs.zip ts, Takes p x.1 x.2 → ∀ k < p.size x.2.type,
        hp'.mem (x.1.addr + k) = p.moved x.2.type (h0.mem (x.1.addr + k))) ∧
      (∀ a < hp.next, (∀ x ∈ vs.zip ts, Takes p x.1 x.2 → a < x.1.addr ∨ x.1.addr + p.size x.2.type ≤ a) →
        hp'.mem a = hp.mem a) by
    obtain ⟨h1, -, h2, h3, h4⟩ := H vs ts hp hp bs hlen (Nat.le_refl _) (fun _ _ _ _ _ => rfl) hs hlive hap h
    exact ⟨h1, h2, h3, h4⟩
  clear h hs hlen hlive hap
  intro vs
  induction vs with
  | nil =>
    intro ts h0 hp bs hlen hle hmem hs hlive hap h
    cases ts with
    | cons t ts => simp at hlen
    | nil =>
      simp only [Prog.bind, Except.ok.injEq, Prod.mk.injEq] at h
      obtain ⟨rfl, rfl⟩ := h
      exact ⟨rfl, Nat.le_refl _, fun i hv => absurd hv (by simp), fun x hx => absurd hx (by simp),
        fun _ _ _ => rfl⟩
  | cons v vs ih =>
    intro ts h0 hp bs hlen hle hmem hs hlive hap h
    cases ts with
    | nil => simp at hlen
    | cons t ts =>
      rw [Prog.bind] at h
      split at h
      · cases h
      rename_i h1 b hb
      split at h
      · cases h
      rename_i h2 bs' hbs
      simp only [Except.ok.injEq, Prod.mk.injEq] at h
      obtain ⟨rfl, rfl⟩ := h
      simp only [List.zip_cons_cons] at hs hmem hlive hap ⊢
      obtain ⟨hap1, hap2⟩ := List.pairwise_cons.1 (show List.Pairwise _ ((v, t) :: vs.zip ts) from hap)
      have hlive2 : Live p h0 vs ts := fun x hx => hlive x (by
        simp only [List.zip_cons_cons]; exact List.mem_cons_of_mem _ hx)
      have hliveH : OwnObject p t → h0.Ok v.addr (p.size t.type) := fun ho =>
        hlive (v, t) (by simp) ho
      have key : hp.next ≤ h1.next ∧
          (∀ a < hp.next, (Takes p v t → a < v.addr ∨ v.addr + p.size t.type ≤ a) → h1.mem a = hp.mem a) ∧
          (Takes p v t → ∀ k < p.size t.type, h1.mem (v.addr + k) = p.moved t.type (h0.mem (v.addr + k))) ∧
          (∀ h2 : Heap, (∀ a < h1.next, (hp.next ≤ a) → h2.mem a = h1.mem a) → Sees p h0 h2 v t b) := by
        have hsv := hs (v, t) (by simp)
        simp only at hsv
        by_cases ho : OwnObject p t
        · have hok := hliveH ho
          have hok' : hp.Ok v.addr (p.size t.type) := ⟨hok.1, Nat.le_trans hok.2 hle⟩
          have hm : ∀ k < p.size t.type, hp.mem (v.addr + k) = h0.mem (v.addr + k) :=
            hmem (v, t) (by simp) ho
          obtain ⟨h1', a', e1, f1, f2, f3, f4, f5, f6⟩ := castTo_own p fuel hp v t hsv ho hok'
          rw [e1] at hb
          simp only [Except.ok.injEq, Prod.mk.injEq] at hb
          obtain ⟨rfl, rfl⟩ := hb
          refine ⟨f3, f6, fun htk k hk => by rw [f5 htk k hk, hm k hk], fun h2 hf => ?_⟩
          simp only [Sees, if_neg ho.1, if_neg ho.2]
          refine ⟨a', rfl, Nat.le_trans hle f1, fun i hi => ?_⟩
          have := f2.2
          rw [hf _ (by omega) (by omega), f4 i hi, hm i hi]
        · have hno : ¬ Takes p v t := fun h => ho h.own
          by_cases hr : t.ref = .lvalue
          · obtain ⟨rfl, rfl⟩ := C32_reference p _ _ _ v t b hr hb
            exact ⟨Nat.le_refl _, fun _ _ _ => rfl, fun h => absurd h hno, fun _ _ => by
              simp only [Sees, hr, if_true]⟩
          · have hd : t = p.valueArg := Classical.byContradiction fun hne => ho ⟨hr, hne⟩
            subst hd
            rw [castTo_dyn] at hb
            simp only [Except.ok.injEq, Prod.mk.injEq] at hb
            obtain ⟨rfl, rfl⟩ := hb
            exact ⟨Nat.le_refl _, fun _ _ _ => rfl, fun h => absurd h hno, fun _ _ => by
              simp [Sees, Prog.valueArg]⟩
      obtain ⟨k1, k2, k3, k4⟩ := key
      have hend : ∀ x ∈ vs.zip ts, OwnObject p x.2 → x.1.addr + p.size x.2.type ≤ h0.next :=
        fun x hx ho => (hlive2 x hx ho).2
      obtain ⟨i1, i2, i3, i4, i5⟩ := ih ts h0 h1 bs' (by simpa using hlen) (Nat.le_trans hle k1)
        (fun x hx ho k hk => by
          have := hend x hx ho
          rw [k2 _ (by omega) (fun htk => by
            have := hap1 x hx htk.own ho (.inl htk)
            simp only at this
            omega), hmem x (List.mem_cons_of_mem _ hx) ho k hk])
        (fun x hx => hs x (List.mem_cons_of_mem _ hx)) hlive2 hap2 hbs
      refine ⟨by simp [i1], Nat.le_trans k1 i2, ?_, ?_, ?_⟩
      · intro i hv ht hb'
        cases i with
        | zero =>
          refine k4 h2 fun a ha ha' => i5 a ha fun x hx htk => ?_
          have := hend x hx htk.own
          exact .inr (by omega)
        | succ i => exact i3 i (by simpa using hv) (by simpa using ht) (by simpa using hb')
      · intro x hx htk k hk
        rcases List.mem_cons.1 hx with rfl | hx
        · simp only at htk hk ⊢
          have hO := (hliveH htk.own).2
          rw [i5 _ (by omega) fun y hy hty => by
            have := hap1 y hy htk.own hty.own (.inl htk)
            simp only at this
            omega]
          exact k3 htk k hk
        · exact i4 x hx htk k hk
      · intro a ha hout
        rw [i5 a (by omega) fun x hx => hout x (List.mem_cons_of_mem _ hx)]
        exact k2 a ha (hout (v, t) (by simp))

/-! ### whole calls -/

/-- an argument and its parameter, of any kind. A temporary is handed over as a mutable lvalue of its type. -/
inductive AnyArg (p : Prog) (hp : Heap) : Actual → Arg → Prop
  | value (x : Actual) (t : Arg) : (∀ arg a, ¬ x.IsTemp arg a) → AnyParam p x.handle t →
      (OwnObject p t → hp.Ok x.handle.addr (p.size t.type)) → AnyArg p hp x t
  | temp (x : Actual) (t arg : Arg) (a : Nat) : x.IsTemp arg a →
      (∀ h : Handle, h.arg = ⟨arg.type, .lvalue, false⟩ → AnyParam p h t) →
      (OwnObject p t → p.size t.type ≤ p.size arg.type) → AnyArg p hp x t

/-- no object that a parameter moves from overlaps one that another parameter copies or moves from, where
    neither is a temporary -/
def ApartActuals (p : Prog) (as : List Actual) (ts : List Arg) : Prop :=
  (as.zip ts).Pairwise fun x y => (∀ arg a, ¬ x.1.IsTemp arg a) → (∀ arg a, ¬ y.1.IsTemp arg a) →
    OwnObject p x.2 → OwnObject p y.2 → (Takes p x.1.handle x.2 ∨ Takes p y.1.handle y.2) →
    x.1.handle.addr + p.size x.2.type ≤ y.1.handle.addr ∨ y.1.handle.addr + p.size y.2.type ≤ x.1.handle.addr

theorem Handed.cases' {p : Prog} {hp hv : Heap} {x : Actual} {v : Handle} (h : Handed p hp hv x v) :
    ((∀ arg a, ¬ x.IsTemp arg a) ∧ v = x.handle) ∨
    ∃ arg a, x.IsTemp arg a ∧ v.arg = ⟨arg.type, .lvalue, false⟩ ∧ hp.next ≤ v.addr ∧
      hv.Ok v.addr (p.size arg.type) := by
  cases h with
  | dyn h => exact .inl ⟨fun _ _ h => (by cases h.1), rfl⟩
  | lvalue arg a h => exact .inl ⟨fun _ _ h' => (by cases h'.1; exact h'.2 h), rfl⟩
  | temporary arg a b hl f1 f2 => exact .inr ⟨arg, a, ⟨rfl, hl⟩, rfl, f1, f2⟩

/-- what is handed over for the arguments of a call meets the requirements of `C32_call_moving` -/
theorem handed_ready (p : Prog) (hp hv : Heap) (as : List Actual) (ts : List Arg) (vs : List Handle)
    (hlen : as.length = ts.length) (e2 : vs.length = as.length) (e3 : hp.next ≤ hv.next)
    (e4 : ∀ i (ha : i < as.length) (hb : i < vs.length), Handed p hp hv as[i] vs[i])
    (e5 : ∀ i j (hi : i < as.length) (hj : j < as.length) (hi' : i < vs.length) (hj' : j < vs.length), i < j →
      ∀ arg a arg' a', as[i].IsTemp arg a → as[j].IsTemp arg' a' → vs[i].addr + p.size arg.type ≤ vs[j].addr)
    (hs : ∀ x ∈ as.zip ts, AnyArg p hp x.1 x.2) (hapt : ApartActuals p as ts) :
    (∀ x ∈ vs.zip ts, AnyParam p x.1 x.2) ∧ Live p hv vs ts ∧ ApartTaken p vs ts ∧
    ∀ x < hp.next, (∀ y ∈ as.zip ts, (∀ arg a, ¬ y.1.IsTemp arg a) → Takes p y.1.handle y.2 →
        x < y.1.handle.addr ∨ y.1.handle.addr + p.size y.2.type ≤ x) →
      ∀ y ∈ vs.zip ts, Takes p y.1 y.2 → x < y.1.addr ∨ y.1.addr + p.size y.2.type ≤ x := by
  have hkind : ∀ i (ha : i < as.length) (ht : i < ts.length), AnyArg p hp as[i] ts[i] := by
    intro i ha ht
    have := hs (as[i], ts[i]) (by
      rw [List.mem_iff_getElem]
      exact ⟨i, by rw [List.length_zip]; omega, by simp⟩)
    exact this
  -- what is handed over, for each parameter
  have hand : ∀ i (ha : i < as.length) (ht : i < ts.length) (hi : i < vs.length),
      AnyParam p vs[i] ts[i] ∧ (OwnObject p ts[i] → hv.Ok vs[i].addr (p.size ts[i].type)) ∧
      (((∀ arg a, ¬ as[i].IsTemp arg a) ∧ vs[i] = as[i].handle ∧
          (OwnObject p ts[i] → as[i].handle.addr + p.size ts[i].type ≤ hp.next)) ∨
        ∃ arg a, as[i].IsTemp arg a ∧ hp.next ≤ vs[i].addr ∧
          (OwnObject p ts[i] → p.size ts[i].type ≤ p.size arg.type)) := by
    intro i ha ht hi
    have hk := hkind i ha ht
    have hh := (e4 i ha hi).cases'
    generalize as[i] = z at hk hh
    generalize ts[i] = t at hk
    generalize vs[i] = u at hh
    cases hk with
    | value hno hany hok =>
      rcases hh with ⟨-, rfl⟩ | ⟨arg, a, ht, -⟩
      · exact ⟨hany, fun ho => ⟨(hok ho).1, Nat.le_trans (hok ho).2 e3⟩, .inl ⟨hno, rfl, fun ho => (hok ho).2⟩⟩
      · exact absurd ht (hno arg a)
    | temp arg a ht hany hsz =>
      rcases hh with ⟨hno, -⟩ | ⟨arg', a', ht', hu, f1, f2⟩
      · exact absurd ht (hno arg a)
      · obtain ⟨rfl, -⟩ : arg = arg' ∧ a = a' := by
          have := ht.1.symm.trans ht'.1
          injection this with e1 e2
          exact ⟨e1, e2⟩
        exact ⟨hany u hu, fun ho => ⟨f2.1, Nat.le_trans (Nat.add_le_add_left (hsz ho) _) f2.2⟩,
          .inr ⟨arg, a, ht, f1, hsz⟩⟩
  refine ⟨?_, ?_, ?_, ?_⟩
  · intro x hx
    obtain ⟨i, hi, rfl⟩ := List.getElem_of_mem hx
    rw [List.length_zip] at hi
    simp only [List.getElem_zip]
    exact (hand i (by omega) (by omega) (by omega)).1
  · intro x hx ho
    obtain ⟨i, hi, rfl⟩ := List.getElem_of_mem hx
    rw [List.length_zip] at hi
    simp only [List.getElem_zip] at ho ⊢
    exact (hand i (by omega) (by omega) (by omega)).2.1 ho
  · unfold ApartTaken
    rw [List.pairwise_iff_getElem]
    intro i j hi hj hij ho1 ho2 htk
    rw [List.length_zip] at hi hj
    simp only [List.getElem_zip] at ho1 ho2 htk ⊢
    have hA := (hand i (by omega) (by omega) (by omega)).2.2
    have hB := (hand j (by omega) (by omega) (by omega)).2.2
    rcases hA with ⟨hn1, hv1, hb1⟩ | ⟨arg1, a1, ht1, hf1, hs1⟩
    · rcases hB with ⟨hn2, hv2, hb2⟩ | ⟨arg2, a2, ht2, hf2, hs2⟩
      · have := List.pairwise_iff_getElem.1 hapt i j (by rw [List.length_zip]; omega)
          (by rw [List.length_zip]; omega) hij
        simp only [List.getElem_zip] at this
        rw [hv1, hv2] at htk ⊢
        exact this hn1 hn2 ho1 ho2 htk
      · have := hb1 ho1
        rw [hv1]
        exact .inl (by omega)
    · rcases hB with ⟨hn2, hv2, hb2⟩ | ⟨arg2, a2, ht2, hf2, hs2⟩
      · have := hb2 ho2
        rw [hv2]
        exact .inr (by omega)
      · have := e5 i j (by omega) (by omega) (by omega) (by omega) hij arg1 a1 arg2 a2 ht1 ht2
        have := hs1 ho1
        exact .inl (by omega)
  · intro x hx hz' y hy htk
    obtain ⟨i, hi, rfl⟩ := List.getElem_of_mem hy
    rw [List.length_zip] at hi
    simp only [List.getElem_zip] at htk ⊢
    rcases (hand i (by omega) (by omega) (by omega)).2.2 with ⟨hn1, hv1, -⟩ | ⟨arg1, a1, ht1, hf1, -⟩
    · rw [hv1] at htk ⊢
      exact hz' (as[i], ts[i]) (by
        rw [List.mem_iff_getElem]
        exact ⟨i, by rw [List.length_zip]; omega, by simp⟩) hn1 htk
    · exact .inl (by omega)

/-- C68. A call that succeeds, with any mix of `Value`s, lvalues and temporaries, to a function with
    parameters of every kind: there were as many arguments as parameters; each argument was handed over, in
    order, as `Handed` says; each reference parameter got the very object (of the caller, or stored for a
    temporary), each by-value or rvalue-reference parameter a fresh object with its contents; the objects
    moved from were left as the move constructor of the class leaves them; and the body ran on a memory in
    which nothing else that existed had changed. -/
theorem C68_call_moving (p : Prog) (fuel : Nat) (hp hp' : Heap) (f : Fn) (want : Arg)
    (as : List Actual) (out : Option BArg) (hst : Storable p hp as) (hap : Apart p as)
    (hs : ∀ x ∈ as.zip f.args, AnyArg p hp x.1 x.2) (hapt : ApartActuals p as f.args)
    (h : p.callFn (fuel + 2) hp f want as = .ok (hp', out)) :
    ∃ (hv : Heap) (vs : List Handle) (h1 : Heap) (bs : List BArg) (h2 : Heap) (r : BRet),
      as.length = f.args.length ∧ vs.length = as.length ∧ bs.length = f.args.length ∧
      (∀ i (ha : i < as.length) (hb : i < vs.length), Handed p hp hv as[i] vs[i]) ∧
      hp.next ≤ hv.next ∧
      (∀ x < hp.next, (∀ y ∈ as, ∀ arg a, y.IsTemp arg a → x < a ∨ a + p.size arg.type ≤ x) →
        (∀ y ∈ as.zip f.args, (∀ arg a, ¬ y.1.IsTemp arg a) → Takes p y.1.handle y.2 →
          x < y.1.handle.addr ∨ y.1.handle.addr + p.size y.2.type ≤ x) →
        h1.mem x = hp.mem x) ∧
      (∀ i (ha : i < vs.length) (ht : i < f.args.length) (hb : i < bs.length),
        Sees p hv h1 vs[i] f.args[i] bs[i]) ∧
      (∀ i (ha : i < vs.length) (ht : i < f.args.length), Takes p vs[i] f.args[i] →
        ∀ k < p.size f.args[i].type,
          h1.mem (vs[i].addr + k) = p.moved f.args[i].type (hv.mem (vs[i].addr + k))) ∧
      p.impl f.body h1 bs = .ok (h2, r) ∧
      ∃ h3 v, p.wrapRet h2 f.ret r = .ok (h3, v) ∧
        p.retCast (p.run (fuel + 2)) h3 v want = .ok (hp', out) := by
  obtain ⟨hv, vs, e1, e2, e3, e4, e5, e6⟩ := C67_arguments p as hp hst hap
  unfold Prog.callFn at h
  split at h
  · cases h
  rename_i htest
  have hlen : as.length = f.args.length := by
    refine Classical.byContradiction fun hh => htest ?_
    exact test_none_of_length _ _ _ _ (by simpa using fun e => hh e.symm)
  rw [e1] at h
  simp only [Prog.run] at h
  split at h
  · cases h
  rename_i h3 v3 hrun
  split at hrun
  · cases hrun
  rename_i h1 bs hbind
  split at hrun
  · cases hrun
  rename_i h2 r himpl
  obtain ⟨q1, q2, q3, q4⟩ := handed_ready p hp hv as f.args vs hlen e2 e3 e4 e5 hs hapt
  obtain ⟨c1, c2, c3, c4⟩ := C32_call_moving p fuel vs f.args hv h1 bs (by omega) q1 q2 q3 hbind
  refine ⟨hv, vs, h1, bs, h2, r, hlen, e2, c1, e4, e3, fun x hx hz hz' => ?_, c2, ?_, himpl, h3, v3, hrun, h⟩
  · rw [c4 x (by omega) (q4 x hx hz'), e6 x hx hz]
  · intro i ha ht htk
    exact c3 (vs[i], f.args[i]) (by
      rw [List.mem_iff_getElem]
      exact ⟨i, by rw [List.length_zip]; omega, by simp⟩) htk

/-! ### a call that is accepted reaches the body -/

theorem lref_fits (p : Prog) (a t : Arg) (href : t.ref = .lvalue) (ha : a.type ≠ p.w.valueT) (ht : t.type ≠ p.w.valueT)
    (hconv : p.w.env.conv a.type t.type = false) (h : isConvertibleTo p.w.env a t ≠ .none) :
    p.w.env.child a.type t.type = true ∧ (t.isConst = true ∨ (a.isConst = false ∧ a.ref = .lvalue)) := by
  have hne : t ≠ p.valueArg := fun hh => ht (by rw [hh]; rfl)
  obtain ⟨r, hr⟩ := (C34_lvalue p (p.run 0) ⟨fun _ => 0, 1⟩ ⟨a, 0, none⟩ t href ha ht hconv).1
    (by simp [Prog.isCastable, h])
  unfold Prog.castTo at hr
  rw [if_neg hne] at hr
  simp only [Prog.castV, href] at hr
  split at hr
  · cases hr
  · rename_i hc
    split at hc
    · assumption
    · cases hc

theorem bind_ok (p : Prog) (fuel : Nat) (vs : List Handle) (ts : List Arg) (hp : Heap) (hlen : vs.length = ts.length)
    (hs : ∀ x ∈ vs.zip ts, AnyParam p x.1 x.2) (hlive : Live p hp vs ts)
    (href : ∀ x ∈ vs.zip ts, x.2.ref = .lvalue → p.w.env.child x.1.arg.type x.2.type = true ∧
      (x.2.isConst = true ∨ (x.1.arg.isConst = false ∧ x.1.arg.ref = .lvalue))) :
    ∃ hp' bs, p.bind (p.run (fuel + 1)) hp vs ts = .ok (hp', bs) := by
  induction vs generalizing ts hp with
  | nil =>
    cases ts with
    | cons t ts => simp at hlen
    | nil => exact ⟨hp, [], rfl⟩
  | cons v vs ih =>
    cases ts with
    | nil => simp at hlen
    | cons t ts =>
      simp only [List.zip_cons_cons] at hs href
      have key : ∃ h1 b, p.castTo (p.run (fuel + 1)) hp v t = .ok (h1, b) ∧ hp.next ≤ h1.next := by
        by_cases ho : OwnObject p t
        · obtain ⟨h1, a, e, -, -, e2, -⟩ := castTo_own p fuel hp v t (hs (v, t) (by simp)) ho
            (hlive (v, t) (by simp) ho)
          exact ⟨h1, _, e, e2⟩
        · by_cases hd : t = p.valueArg
          · subst hd
            exact ⟨hp, _, castTo_dyn p _ hp v, Nat.le_refl _⟩
          · have hr : t.ref = .lvalue := Classical.byContradiction fun hne => ho ⟨hne, hd⟩
            have hf := href (v, t) (by simp) hr
            suffices H : ∃ b, p.castTo (p.run (fuel + 1)) hp v t = .ok (hp, b) from
              ⟨hp, H.choose, H.choose_spec, Nat.le_refl _⟩
            unfold Prog.castTo
            rw [if_neg hd]
            simp only [Prog.castV, hr]
            simp only at hf
            rw [if_pos hf]
            simp [Prog.castRet, hr, Handle.as, hf.1]
      obtain ⟨h1, b, e1, hg⟩ := key
      obtain ⟨h2, bs, e2⟩ := ih ts h1 (by simpa using hlen) (fun x hx => hs x (List.mem_cons_of_mem _ hx))
        (fun x hx ho => by
          have := hlive x (by simp only [List.zip_cons_cons]; exact List.mem_cons_of_mem _ hx) ho
          exact ⟨this.1, Nat.le_trans this.2 hg⟩)
        (fun x hx => href x (List.mem_cons_of_mem _ hx))
      exact ⟨h2, b :: bs, by simp [Prog.bind, e1, e2]⟩

/-- C68. A call is never lost between acceptance and the body: when the arguments pass the test of C21 to C24, the
    parameters are of the kinds above and no converter is declared between an argument and a reference parameter,
    the body is run, on the arguments handed over and bound as in C68_call_moving; the call gives what the body's
    result, stored and cast to the wanted type, gives, and raises exactly if the body, the storing or the cast does. -/
theorem C68_accepted_runs (p : Prog) (fuel : Nat) (hp : Heap) (f : Fn) (want : Arg) (as : List Actual)
    (hst : Storable p hp as) (hap : Apart p as)
    (hs : ∀ x ∈ as.zip f.args, AnyArg p hp x.1 x.2) (hapt : ApartActuals p as f.args)
    (hplain : ∀ x ∈ as.zip f.args, x.2.ref = .lvalue → x.1.arg.type ≠ p.w.valueT ∧ x.2.type ≠ p.w.valueT ∧
      p.w.env.conv x.1.arg.type x.2.type = false)
    (htest : f.test p.w.env want (as.map Actual.arg) ≠ .none) :
    ∃ (hv : Heap) (vs : List Handle) (h1 : Heap) (bs : List BArg),
      as.length = f.args.length ∧ vs.length = as.length ∧ bs.length = f.args.length ∧
      (∀ i (ha : i < as.length) (hb : i < vs.length), Handed p hp hv as[i] vs[i]) ∧
      hp.next ≤ hv.next ∧
      (∀ x < hp.next, (∀ y ∈ as, ∀ arg a, y.IsTemp arg a → x < a ∨ a + p.size arg.type ≤ x) →
        (∀ y ∈ as.zip f.args, (∀ arg a, ¬ y.1.IsTemp arg a) → Takes p y.1.handle y.2 →
          x < y.1.handle.addr ∨ y.1.handle.addr + p.size y.2.type ≤ x) →
        h1.mem x = hp.mem x) ∧
      (∀ i (ha : i < vs.length) (ht : i < f.args.length) (hb : i < bs.length),
        Sees p hv h1 vs[i] f.args[i] bs[i]) ∧
      p.callFn (fuel + 2) hp f want as = match p.impl f.body h1 bs with
        | .error x => .error x
        | .ok (h2, r) => match p.wrapRet h2 f.ret r with
          | .error x => .error x
          | .ok (h3, u) => p.retCast (p.run (fuel + 2)) h3 u want := by
  obtain ⟨hv, vs, e1, e2, e3, e4, e5, e6⟩ := C67_arguments p as hp hst hap
  have hlen : as.length = f.args.length := by
    refine Classical.byContradiction fun hh => htest ?_
    exact test_none_of_length _ _ _ _ (by simpa using fun e => hh e.symm)
  obtain ⟨q1, q2, q3, q4⟩ := handed_ready p hp hv as f.args vs hlen e2 e3 e4 e5 hs hapt
  have hta : testArguments p.w.env (as.map Actual.arg) f.args ≠ .none := by
    intro h
    apply htest
    unfold Fn.test
    rw [h]
    cases testReturn p.w.env want f.ret <;> rfl
  have hfit : ∀ x ∈ vs.zip f.args, x.2.ref = .lvalue → p.w.env.child x.1.arg.type x.2.type = true ∧
      (x.2.isConst = true ∨ (x.1.arg.isConst = false ∧ x.1.arg.ref = .lvalue)) := by
    intro x hx hr
    obtain ⟨i, hi, rfl⟩ := List.getElem_of_mem hx
    rw [List.length_zip] at hi
    simp only [List.getElem_zip] at hr ⊢
    have hmem : (as[i], f.args[i]) ∈ as.zip f.args := by
      rw [List.mem_iff_getElem]
      exact ⟨i, by rw [List.length_zip]; omega, by simp⟩
    obtain ⟨n1, n2, n3⟩ := hplain _ hmem hr
    simp only at n1 n2 n3
    have hm : isConvertibleTo p.w.env as[i].arg f.args[i] ≠ .none := by
      intro h
      apply hta
      rw [C23_none_iff]
      refine .inr ⟨(as[i].arg, f.args[i]), ?_, h⟩
      rw [List.mem_iff_getElem]
      exact ⟨i, by rw [List.length_zip, List.length_map]; omega, by simp⟩
    have hf := lref_fits p _ _ hr n1 n2 n3 hm
    rcases (e4 i (by omega) (by omega)).cases' with ⟨-, hvi⟩ | ⟨arg, a, ht, hvi, -⟩
    · rw [hvi]
      have : as[i].handle.arg = as[i].arg := by cases as[i] <;> rfl
      rw [this]
      exact hf
    · have : as[i].arg = arg := by rw [ht.1]; rfl
      rw [this] at hf
      rw [hvi]
      exact ⟨hf.1, hf.2.imp_right fun h => absurd h.2 ht.2⟩
  obtain ⟨h1, bs, hb⟩ := bind_ok p fuel vs f.args hv (by omega) q1 q2 hfit
  obtain ⟨c1, c2, c3, c4⟩ := C32_call_moving p fuel vs f.args hv h1 bs (by omega) q1 q2 q3 hb
  refine ⟨hv, vs, h1, bs, hlen, e2, c1, e4, e3, fun x hx hz hz' => by
    rw [c4 x (by omega) (q4 x hx hz'), e6 x hx hz], c2, ?_⟩
  unfold Prog.callFn
  have hrun : p.run (fuel + 2) hv f vs = match p.impl f.body h1 bs with
      | .error x => .error x
      | .ok (h2, r) => p.wrapRet h2 f.ret r := by
    show (match p.bind (p.run (fuel + 1)) hv vs f.args with
      | .error x => .error x
      | .ok (hp', bs) => match p.impl f.body hp' bs with
        | .error x => .error x
        | .ok (hp'', r) => p.wrapRet hp'' f.ret r : Res (Heap × Handle)) = _
    rw [hb]
  rw [if_neg htest, e1]
  dsimp only
  rw [hrun]
  cases p.impl f.body h1 bs with
  | error x => rfl
  | ok r =>
    obtain ⟨h2, r⟩ := r
    dsimp only
    cases p.wrapRet h2 f.ret r <;> rfl

/-- the function the rules choose passes the test -/
theorem choose_test (g : Fn → Match) (o : Overloads) (f : Fn) (h : Spec.choose g o = some f) : g f ≠ .none := by
  unfold Spec.choose at h
  split at h
  · rename_i f' l hl
    cases h
    have := (List.mem_filter.mp (by rw [hl]; simp : f ∈ o.filter fun f => decide (g f = .exact))).2
    rw [of_decide_eq_true this]; simp
  · split at h
    · rename_i f' hl
      cases h
      have := (List.mem_filter.mp (by rw [hl]; simp : f ∈ o.filter fun f => decide (g f = .part))).2
      rw [of_decide_eq_true this]; simp
    · cases h

/-- C68. By name: when the closest class with functions of that name has the overloads `o`, and the rules of C27 choose
    `f` for the arguments, `v.call<Ret>(name, args...)` runs the body of `f` on them, under the conditions of
    C68_accepted_runs, and gives what its result gives. -/
theorem C68_method_runs (p : Prog) (hcl : p.w.Closed) (hac : p.w.Acyclic) (fuel : Nat) (hp : Heap) (v : Handle)
    (hv : v.arg.type < p.w.n) (name : Name) (want : Arg) (as : List Actual) (o : Overloads) (f : Fn)
    (hnear : p.w.Nearest (fun d => d.fns.get name) v.arg.type o)
    (hchosen : Spec.choose (fun f => f.test p.w.env want (v.arg :: as.map Actual.arg)) o = some f)
    (hst : Storable p hp as) (hap : Apart p as)
    (hs : ∀ x ∈ (.dyn v :: as).zip f.args, AnyArg p hp x.1 x.2) (hapt : ApartActuals p (.dyn v :: as) f.args)
    (hplain : ∀ x ∈ (.dyn v :: as).zip f.args, x.2.ref = .lvalue → x.1.arg.type ≠ p.w.valueT ∧
      x.2.type ≠ p.w.valueT ∧ p.w.env.conv x.1.arg.type x.2.type = false) :
    ∃ (hv : Heap) (vs : List Handle) (h1 : Heap) (bs : List BArg),
      as.length + 1 = f.args.length ∧ vs.length = as.length ∧ bs.length = f.args.length ∧
      (∀ i (ha : i < as.length) (hb : i < vs.length), Handed p hp hv as[i] vs[i]) ∧
      (∀ x < hp.next, (∀ y ∈ as, ∀ arg a, y.IsTemp arg a → x < a ∨ a + p.size arg.type ≤ x) →
        (∀ y ∈ (.dyn v :: as).zip f.args, (∀ arg a, ¬ y.1.IsTemp arg a) → Takes p y.1.handle y.2 →
          x < y.1.handle.addr ∨ y.1.handle.addr + p.size y.2.type ≤ x) →
        h1.mem x = hp.mem x) ∧
      (∀ i (ha : i < (v :: vs).length) (ht : i < f.args.length) (hb : i < bs.length),
        Sees p hv h1 (v :: vs)[i] f.args[i] bs[i]) ∧
      p.callMethod (fuel + 2) hp v name want as = match p.impl f.body h1 bs with
        | .error x => .error x
        | .ok (h2, r) => match p.wrapRet h2 f.ret r with
          | .error x => .error x
          | .ok (h3, u) => p.retCast (p.run (fuel + 2)) h3 u want := by
  have hn := (C17_function_nearest p.w hcl hac v.arg.type hv name p.w.fuel (by unfold World.fuel; omega)).1
  have hlook := (hn o).2 hnear
  have notemp : ∀ arg a, ¬ (Actual.dyn v).IsTemp arg a := by rintro arg a ⟨h1, _⟩; cases h1
  have hmap : (Actual.dyn v :: as).map Actual.arg = v.arg :: as.map Actual.arg := rfl
  obtain ⟨hw, vs, h1, bs, e1, e2, e3, e4, e5, e6, e7, e8⟩ :=
    C68_accepted_runs p fuel hp f want (.dyn v :: as)
      (by
        intro x hx arg a ht
        rcases List.mem_cons.mp hx with rfl | hx
        · exact absurd ht (notemp _ _)
        · exact hst x hx arg a ht)
      (List.pairwise_cons.mpr ⟨fun y _ arg a arg' a' ht => absurd ht (notemp _ _), hap⟩)
      hs hapt hplain (by rw [hmap]; exact choose_test _ _ _ hchosen)
  obtain ⟨v', vs, rfl⟩ : ∃ v' vs', vs = v' :: vs' := by
    cases vs with
    | nil => cases e2
    | cons x l => exact ⟨x, l, rfl⟩
  have hv' : v' = v := by
    have := e4 0 (by simp) (by simp)
    simp only [List.getElem_cons_zero] at this
    cases this; rfl
  subst hv'
  refine ⟨hw, vs, h1, bs, e1, by simpa using e2, e3, ?_, ?_, e7, ?_⟩
  · intro i ha hb
    have := e4 (i + 1) (by simpa using ha) (by simpa using hb)
    simpa using this
  · intro x hx hz hz'
    refine e6 x hx (fun y hy arg a ht => ?_) hz'
    rcases List.mem_cons.mp hy with rfl | hy
    · exact absurd ht (notemp _ _)
    · exact hz y hy arg a ht
  · rw [← e8]
    unfold Prog.callMethod
    rw [hlook]
    dsimp only
    unfold Prog.callOv
    rw [C27_select, hmap, hchosen]

/-- C74. `v op x` for an operator with parameters of every kind, those that move from their argument included: when the
    class of `v` declares, or inherits from the closest ancestor, the one operator `m` of that name, and it accepts the
    arguments, then, under the conditions of C68_accepted_runs, the operator runs once, on the very object of `v` - const when the
    operator is - and on the arguments in order, each handed over and bound as in C68; the result is the value made of what
    the operator returned; and it raises only if the operator, or storing its result, does. -/
theorem C74_accepted_runs (p : Prog) (hcl : p.w.Closed) (hac : p.w.Acyclic) (fuel : Nat) (hp : Heap) (v : Handle)
    (hv : v.arg.type < p.w.n) (op : Name) (m : Member) (as : List Actual)
    (hlook : p.w.Nearest (fun d => d.fns.get op) v.arg.type [m.fn op])
    (htest : (m.fn op).test p.w.env p.valueArg (v.arg :: as.map Actual.arg) ≠ .none)
    (hst : Storable p hp as) (hap : Apart p as)
    (hs : ∀ x ∈ as.zip m.args, AnyArg p hp x.1 x.2) (hapt : ApartActuals p as m.args)
    (hplain : ∀ x ∈ (.dyn v, ⟨m.obj, .lvalue, m.isConst⟩) :: as.zip m.args, x.2.ref = .lvalue →
      x.1.arg.type ≠ p.w.valueT ∧ x.2.type ≠ p.w.valueT ∧ p.w.env.conv x.1.arg.type x.2.type = false)
    (hvd : p.w.valueT ≠ p.w.voidT) :
    ∃ (hv : Heap) (vs : List Handle) (h1 : Heap) (bs : List BArg),
      as.length = m.args.length ∧ vs.length = as.length ∧ bs.length = m.args.length ∧
      (∀ i (ha : i < as.length) (hb : i < vs.length), Handed p hp hv as[i] vs[i]) ∧
      (∀ x < hp.next, (∀ y ∈ as, ∀ arg a, y.IsTemp arg a → x < a ∨ a + p.size arg.type ≤ x) →
        (∀ y ∈ as.zip m.args, (∀ arg a, ¬ y.1.IsTemp arg a) → Takes p y.1.handle y.2 →
          x < y.1.handle.addr ∨ y.1.handle.addr + p.size y.2.type ≤ x) →
        h1.mem x = hp.mem x) ∧
      (∀ i (ha : i < vs.length) (ht : i < m.args.length) (hb : i < bs.length),
        Sees p hv h1 vs[i] m.args[i] bs[i]) ∧
      p.valueOp (fuel + 2) hp v op as = match p.impl m.body h1 (.obj v.addr (!m.isConst) :: bs) with
        | .error x => .error x
        | .ok (h2, r) => match p.wrapRet h2 m.ret r with
          | .error x => .error x
          | .ok (h3, u) => .ok (h3, some (.val u)) := by
  have hargs : (m.fn op).args = ⟨m.obj, .lvalue, m.isConst⟩ :: m.args := rfl
  have hchosen : Spec.choose (fun f => f.test p.w.env p.valueArg (v.arg :: as.map Actual.arg)) [m.fn op] =
      some (m.fn op) := by
    unfold Spec.choose
    cases ht : (m.fn op).test p.w.env p.valueArg (v.arg :: as.map Actual.arg) with
    | none => exact absurd ht htest
    | exact => simp [ht]
    | part => simp [ht]
  have hno : ¬ OwnObject p (⟨m.obj, .lvalue, m.isConst⟩ : Arg) := fun h => h.1 rfl
  obtain ⟨hw, vs, h1, bs, e1, e2, e3, e4, e5, e6, e7⟩ :=
    C68_method_runs p hcl hac fuel hp v hv op p.valueArg as [m.fn op] (m.fn op) hlook hchosen hst hap
      (by
        intro x hx
        rw [hargs, List.zip_cons_cons] at hx
        rcases List.mem_cons.mp hx with rfl | hx
        · exact .value _ _ (fun _ _ h => by cases h.1) (.ref rfl) (fun h => absurd h hno)
        · exact hs x hx)
      (by
        unfold ApartActuals
        rw [hargs, List.zip_cons_cons]
        exact List.pairwise_cons.mpr ⟨fun y _ _ _ h => absurd h hno, hapt⟩)
      (by rw [hargs, List.zip_cons_cons]; exact hplain)
  obtain ⟨b, bs, rfl⟩ : ∃ b bs', bs = b :: bs' := by
    cases bs with
    | nil => cases e3
    | cons x l => exact ⟨x, l, rfl⟩
  have hb : b = .obj v.addr (!m.isConst) := by
    have := e6 0 (by simp) (by rw [hargs]; simp) (by simp)
    simpa [Sees, hargs] using this
  subst hb
  rw [hargs, List.length_cons, Nat.add_right_cancel_iff] at e1
  rw [hargs, List.length_cons] at e3
  refine ⟨hw, vs, h1, bs, e1, e2, by simpa using e3, e4, ?_, ?_, ?_⟩
  · intro x hx hz hz'
    refine e5 x hx hz fun y hy hny htk => ?_
    rw [hargs, List.zip_cons_cons] at hy
    rcases List.mem_cons.mp hy with rfl | hy
    · exact absurd htk.own hno
    · exact hz' y hy hny htk
  · intro i ha ht hb
    have := e6 (i + 1) (by simpa using ha) (by rw [hargs]; simpa using ht) (by simpa using hb)
    simpa [hargs] using this
  · show p.callMethod (fuel + 2) hp v op p.valueArg as = _
    rw [e7]
    show (match p.impl m.body h1 (.obj v.addr (!m.isConst) :: bs) with
      | .error x => .error x
      | .ok (h2, r) => match p.wrapRet h2 m.ret r with
        | .error x => .error x
        | .ok (h3, u) => p.retCast (p.run (fuel + 2)) h3 u p.valueArg : Res (Heap × Option BArg)) = _
    have hcast : ∀ h3 u, p.retCast (p.run (fuel + 2)) h3 u p.valueArg = .ok (h3, some (.val u)) := by
      intro h3 u
      unfold Prog.retCast
      rw [if_neg (by exact hvd), castTo_dyn]
    simp only [hcast]

/-- C68. `v.call<Ret>(name, args...)` with parameters of every kind: as C68_method for the look-up and the choice, and as
    C68_call_moving for the call. -/
theorem C68_method_moving (p : Prog) (hcl : p.w.Closed) (hac : p.w.Acyclic) (fuel : Nat) (hp hp' : Heap) (v : Handle)
    (hv : v.arg.type < p.w.n) (name : Name) (want : Arg) (as : List Actual) (out : Option BArg)
    (hst : Storable p hp as) (hap : Apart p as)
    (hs : ∀ o f, p.w.Nearest (fun d => d.fns.get name) v.arg.type o →
      Spec.choose (fun f => f.test p.w.env want (v.arg :: as.map Actual.arg)) o = some f →
      (∀ x ∈ (.dyn v :: as).zip f.args, AnyArg p hp x.1 x.2) ∧ ApartActuals p (.dyn v :: as) f.args)
    (h : p.callMethod (fuel + 2) hp v name want as = .ok (hp', out)) :
    ∃ o f, p.w.Nearest (fun d => d.fns.get name) v.arg.type o ∧
      Spec.choose (fun f => f.test p.w.env want (v.arg :: as.map Actual.arg)) o = some f ∧
    ∃ (hv : Heap) (vs : List Handle) (h1 : Heap) (bs : List BArg) (h2 : Heap) (r : BRet),
      as.length + 1 = f.args.length ∧ vs.length = as.length ∧ bs.length = f.args.length ∧
      (∀ i (ha : i < as.length) (hb : i < vs.length), Handed p hp hv as[i] vs[i]) ∧
      hp.next ≤ hv.next ∧
      (∀ x < hp.next, (∀ y ∈ as, ∀ arg a, y.IsTemp arg a → x < a ∨ a + p.size arg.type ≤ x) →
        (∀ y ∈ (.dyn v :: as).zip f.args, (∀ arg a, ¬ y.1.IsTemp arg a) → Takes p y.1.handle y.2 →
          x < y.1.handle.addr ∨ y.1.handle.addr + p.size y.2.type ≤ x) →
        h1.mem x = hp.mem x) ∧
      (∀ i (ha : i < (v :: vs).length) (ht : i < f.args.length) (hb : i < bs.length),
        Sees p hv h1 (v :: vs)[i] f.args[i] bs[i]) ∧
      (∀ i (ha : i < (v :: vs).length) (ht : i < f.args.length), Takes p (v :: vs)[i] f.args[i] →
        ∀ k < p.size f.args[i].type, h1.mem ((v :: vs)[i].addr + k) =
          p.moved f.args[i].type (hv.mem ((v :: vs)[i].addr + k))) ∧
      p.impl f.body h1 bs = .ok (h2, r) ∧
      ∃ h3 u, p.wrapRet h2 f.ret r = .ok (h3, u) ∧
        p.retCast (p.run (fuel + 2)) h3 u want = .ok (hp', out) := by
  have hn := (C17_function_nearest p.w hcl hac v.arg.type hv name p.w.fuel (by unfold World.fuel; omega)).1
  unfold Prog.callMethod at h
  split at h
  · cases h
  rename_i o hlook
  have hnear := (hn o).1 hlook
  unfold Prog.callOv at h
  split at h
  · cases h
  rename_i f hsel
  rw [C27_select] at hsel
  have hmap : (Actual.dyn v :: as).map Actual.arg = v.arg :: as.map Actual.arg := rfl
  rw [hmap] at hsel
  have hchosen : Spec.choose (fun f => f.test p.w.env want (v.arg :: as.map Actual.arg)) o = some f := by
    cases hc : Spec.choose (fun f => f.test p.w.env want (v.arg :: as.map Actual.arg)) o with
    | none => rw [hc] at hsel; cases hsel
    | some g => rw [hc] at hsel; simp only [Except.ok.injEq] at hsel; rw [hsel]
  refine ⟨o, f, hnear, hchosen, ?_⟩
  have notemp : ∀ arg a, ¬ (Actual.dyn v).IsTemp arg a := by rintro arg a ⟨h1, _⟩; cases h1
  obtain ⟨hw, vs, h1, bs, h2, r, e1, e2, e3, e4, e5, e6, e7, e8, e9, h3, u, e10, e11⟩ :=
    C68_call_moving p fuel hp hp' f want (.dyn v :: as) out
      (by
        intro x hx arg a ht
        rcases List.mem_cons.mp hx with rfl | hx
        · exact absurd ht (notemp _ _)
        · exact hst x hx arg a ht)
      (List.pairwise_cons.mpr ⟨fun y _ arg a arg' a' ht => absurd ht (notemp _ _), hap⟩)
      (hs o f hnear hchosen).1 (hs o f hnear hchosen).2 h
  obtain ⟨v', vs, rfl⟩ : ∃ v' vs', vs = v' :: vs' := by
    cases vs with
    | nil => cases e2
    | cons x l => exact ⟨x, l, rfl⟩
  have hv' : v' = v := by
    have := e4 0 (by simp) (by simp)
    simp only [List.getElem_cons_zero] at this
    cases this; rfl
  subst hv'
  refine ⟨hw, vs, h1, bs, h2, r, e1, by simpa using e2, e3, ?_, e5, ?_, e7, e8, e9, h3, u, e10, e11⟩
  · intro i ha hb
    have := e4 (i + 1) (by simpa using ha) (by simpa using hb)
    simpa using this
  · intro x hx hz hz'
    refine e6 x hx (fun y hy arg a ht => ?_) hz'
    rcases List.mem_cons.mp hy with rfl | hy
    · exact absurd ht (notemp _ _)
    · exact hz y hy arg a ht

/-- C68. `type->call<Ret>(name, args...)` with parameters of every kind. -/
theorem C68_type_call_moving (p : Prog) (hcl : p.w.Closed) (hac : p.w.Acyclic) (fuel : Nat) (hp hp' : Heap) (t : Ty)
    (ht : t < p.w.n) (name : Name) (want : Arg) (as : List Actual) (out : Option BArg)
    (hst : Storable p hp as) (hap : Apart p as)
    (hs : ∀ o f, p.w.Nearest (fun d => d.fns.get name) t o →
      Spec.choose (fun f => f.test p.w.env want (as.map Actual.arg)) o = some f →
      (∀ x ∈ as.zip f.args, AnyArg p hp x.1 x.2) ∧ ApartActuals p as f.args)
    (h : p.typeCall (fuel + 2) hp t name want as = .ok (hp', out)) :
    ∃ o f, p.w.Nearest (fun d => d.fns.get name) t o ∧
      Spec.choose (fun f => f.test p.w.env want (as.map Actual.arg)) o = some f ∧
    ∃ (hv : Heap) (vs : List Handle) (h1 : Heap) (bs : List BArg) (h2 : Heap) (r : BRet),
      as.length = f.args.length ∧ vs.length = as.length ∧ bs.length = f.args.length ∧
      (∀ i (ha : i < as.length) (hb : i < vs.length), Handed p hp hv as[i] vs[i]) ∧
      hp.next ≤ hv.next ∧
      (∀ x < hp.next, (∀ y ∈ as, ∀ arg a, y.IsTemp arg a → x < a ∨ a + p.size arg.type ≤ x) →
        (∀ y ∈ as.zip f.args, (∀ arg a, ¬ y.1.IsTemp arg a) → Takes p y.1.handle y.2 →
          x < y.1.handle.addr ∨ y.1.handle.addr + p.size y.2.type ≤ x) →
        h1.mem x = hp.mem x) ∧
      (∀ i (ha : i < vs.length) (ht : i < f.args.length) (hb : i < bs.length),
        Sees p hv h1 vs[i] f.args[i] bs[i]) ∧
      (∀ i (ha : i < vs.length) (ht : i < f.args.length), Takes p vs[i] f.args[i] →
        ∀ k < p.size f.args[i].type,
          h1.mem (vs[i].addr + k) = p.moved f.args[i].type (hv.mem (vs[i].addr + k))) ∧
      p.impl f.body h1 bs = .ok (h2, r) ∧
      ∃ h3 u, p.wrapRet h2 f.ret r = .ok (h3, u) ∧
        p.retCast (p.run (fuel + 2)) h3 u want = .ok (hp', out) := by
  have hn := (C17_function_nearest p.w hcl hac t ht name p.w.fuel (by unfold World.fuel; omega)).1
  unfold Prog.typeCall at h
  split at h
  · cases h
  rename_i o hlook
  have hnear := (hn o).1 hlook
  unfold Prog.callOv at h
  split at h
  · cases h
  rename_i f hsel
  rw [C27_select] at hsel
  have hchosen : Spec.choose (fun f => f.test p.w.env want (as.map Actual.arg)) o = some f := by
    cases hc : Spec.choose (fun f => f.test p.w.env want (as.map Actual.arg)) o with
    | none => rw [hc] at hsel; cases hsel
    | some g => rw [hc] at hsel; simp only [Except.ok.injEq] at hsel; rw [hsel]
  exact ⟨o, f, hnear, hchosen, C68_call_moving p fuel hp hp' f want as out hst hap (hs o f hnear hchosen).1
    (hs o f hnear hchosen).2 h⟩

/-- C80. `type->construct(args...)` with a constructor whose parameters are of every kind, such as the move
    constructor: as C80_constructed. -/
theorem C80_constructed_moving (p : Prog) (hcl : p.w.Closed) (hac : p.w.Acyclic) (fuel : Nat) (hp hp' : Heap) (t : Ty)
    (ht : t < p.w.n) (as : List Actual) (out : Option BArg) (hd : p.w.valueT ≠ p.w.voidT)
    (hst : Storable p hp as) (hap : Apart p as)
    (hs : ∀ o f, p.w.Nearest (fun d => d.fns.get (p.w.ty t).id) t o →
      Spec.choose (fun f => f.test p.w.env p.valueArg (as.map Actual.arg)) o = some f →
      (∀ x ∈ as.zip f.args, AnyArg p hp x.1 x.2) ∧ ApartActuals p as f.args)
    (h : p.constructWith (fuel + 2) hp t as = .ok (hp', out)) :
    ∃ o f, p.w.Nearest (fun d => d.fns.get (p.w.ty t).id) t o ∧
      Spec.choose (fun f => f.test p.w.env p.valueArg (as.map Actual.arg)) o = some f ∧
    ∃ (hv : Heap) (vs : List Handle) (h1 : Heap) (bs : List BArg) (h2 : Heap) (r : BRet) (u : Handle),
      as.length = f.args.length ∧ vs.length = as.length ∧ bs.length = f.args.length ∧
      (∀ i (ha : i < as.length) (hb : i < vs.length), Handed p hp hv as[i] vs[i]) ∧
      (∀ x < hp.next, (∀ y ∈ as, ∀ arg a, y.IsTemp arg a → x < a ∨ a + p.size arg.type ≤ x) →
        (∀ y ∈ as.zip f.args, (∀ arg a, ¬ y.1.IsTemp arg a) → Takes p y.1.handle y.2 →
          x < y.1.handle.addr ∨ y.1.handle.addr + p.size y.2.type ≤ x) →
        h1.mem x = hp.mem x) ∧
      (∀ i (ha : i < vs.length) (ht : i < f.args.length) (hb : i < bs.length),
        Sees p hv h1 vs[i] f.args[i] bs[i]) ∧
      (∀ i (ha : i < vs.length) (ht : i < f.args.length), Takes p vs[i] f.args[i] →
        ∀ k < p.size f.args[i].type,
          h1.mem (vs[i].addr + k) = p.moved f.args[i].type (hv.mem (vs[i].addr + k))) ∧
      p.impl f.body h1 bs = .ok (h2, r) ∧ p.wrapRet h2 f.ret r = .ok (hp', u) ∧ out = some (.val u) ∧
      ∀ a, r = .obj a → f.ret.ref ≠ .lvalue → h2.Ok a (p.size f.ret.type) →
        ((p.caps f.ret.type).copyConstructible = true ∨
          (f.ret.isConst = false ∧ (p.caps f.ret.type).moveConstructible = true)) →
        Stored p h2 hp' f.ret.type a u := by
  obtain ⟨o, f, w1, w2, hv, vs, h1, bs, h2, r, e1, e2, e3, e4, e5, e6, e7, e8, e9, h3, u, e10, e11⟩ :=
    C68_type_call_moving p hcl hac fuel hp hp' t ht (p.w.ty t).id p.valueArg as out hst hap hs h
  unfold Prog.retCast at e11
  rw [if_neg (by exact hd), castTo_dyn] at e11
  simp only [Except.ok.injEq, Prod.mk.injEq] at e11
  obtain ⟨rfl, rfl⟩ := e11
  refine ⟨o, f, w1, w2, hv, vs, h1, bs, h2, r, u, e1, e2, e3, e4, e6, e7, e8, e9, e10, rfl, ?_⟩
  intro a hr href hok hcap
  subst hr
  obtain ⟨h4, u', k1, k2, -⟩ := C67_temporary_stored p h2 f.ret a href hcap.symm.symm hok
  have e : p.wrapRet h2 f.ret (.obj a) = .ok (h4, u') := k1
  rw [e] at e10
  simp only [Except.ok.injEq, Prod.mk.injEq] at e10
  obtain ⟨rfl, rfl⟩ := e10
  exact k2

/-- C80. When the closest class with constructors of the type's name has the set `o`, and the rules of C27 choose `f` for the
    arguments, `type->construct(args...)` runs that constructor on them, under the conditions of C68_accepted_runs, and
    gives the value made of what it returns; it raises only if the constructor, or storing its result, does. -/
theorem C80_accepted_runs (p : Prog) (hcl : p.w.Closed) (hac : p.w.Acyclic) (fuel : Nat) (hp : Heap) (t : Ty)
    (ht : t < p.w.n) (as : List Actual) (o : Overloads) (f : Fn)
    (hnear : p.w.Nearest (fun d => d.fns.get (p.w.ty t).id) t o)
    (hchosen : Spec.choose (fun f => f.test p.w.env p.valueArg (as.map Actual.arg)) o = some f)
    (hst : Storable p hp as) (hap : Apart p as)
    (hs : ∀ x ∈ as.zip f.args, AnyArg p hp x.1 x.2) (hapt : ApartActuals p as f.args)
    (hplain : ∀ x ∈ as.zip f.args, x.2.ref = .lvalue → x.1.arg.type ≠ p.w.valueT ∧ x.2.type ≠ p.w.valueT ∧
      p.w.env.conv x.1.arg.type x.2.type = false)
    (hd : p.w.valueT ≠ p.w.voidT) :
    ∃ (hv : Heap) (vs : List Handle) (h1 : Heap) (bs : List BArg),
      as.length = f.args.length ∧ vs.length = as.length ∧ bs.length = f.args.length ∧
      (∀ i (ha : i < as.length) (hb : i < vs.length), Handed p hp hv as[i] vs[i]) ∧
      (∀ x < hp.next, (∀ y ∈ as, ∀ arg a, y.IsTemp arg a → x < a ∨ a + p.size arg.type ≤ x) →
        (∀ y ∈ as.zip f.args, (∀ arg a, ¬ y.1.IsTemp arg a) → Takes p y.1.handle y.2 →
          x < y.1.handle.addr ∨ y.1.handle.addr + p.size y.2.type ≤ x) →
        h1.mem x = hp.mem x) ∧
      (∀ i (ha : i < vs.length) (ht : i < f.args.length) (hb : i < bs.length),
        Sees p hv h1 vs[i] f.args[i] bs[i]) ∧
      p.constructWith (fuel + 2) hp t as = match p.impl f.body h1 bs with
        | .error x => .error x
        | .ok (h2, r) => match p.wrapRet h2 f.ret r with
          | .error x => .error x
          | .ok (h3, u) => .ok (h3, some (.val u)) := by
  have hn := (C17_function_nearest p.w hcl hac t ht (p.w.ty t).id p.w.fuel (by unfold World.fuel; omega)).1
  have hlook := (hn o).2 hnear
  obtain ⟨hw, vs, h1, bs, e1, e2, e3, e4, e5, e6, e7, e8⟩ :=
    C68_accepted_runs p fuel hp f p.valueArg as hst hap hs hapt hplain (choose_test _ _ _ hchosen)
  refine ⟨hw, vs, h1, bs, e1, e2, e3, e4, e6, e7, ?_⟩
  have hcast : ∀ h3 u, p.retCast (p.run (fuel + 2)) h3 u p.valueArg = .ok (h3, some (.val u)) := by
    intro h3 u
    unfold Prog.retCast
    rw [if_neg (by exact hd), castTo_dyn]
  have h9 : p.constructWith (fuel + 2) hp t as = p.callFn (fuel + 2) hp f p.valueArg as := by
    show p.typeCall (fuel + 2) hp t (p.w.ty t).id p.valueArg as = _
    unfold Prog.typeCall
    rw [hlook]
    dsimp only
    unfold Prog.callOv
    rw [C27_select, hchosen]
  rw [h9, e8]
  simp only [hcast]

/-- C80. The move constructor: for a type moved by its move constructor (such as one with the standard plumbing),
    `type->construct(v)` of an `rvalue()` of a mutable object of that type, or of a child, makes a new object with the contents the old one had,
    leaves the old one as the move constructor of the class leaves it, and changes nothing else. -/
theorem C80_moved (p : Prog) (fuel : Nat) (hp : Heap) (t : Ty) (v : Handle)
    (hpl : PlainMove p t) (hok : hp.Ok v.addr (p.size t)) (hmf : MovedFrom p v.arg t) :
    ∃ hp' u, p.construct (p.run (fuel + 1)) hp t v = .ok (hp', u) ∧ u.owner = some u.addr ∧
      u.arg = ⟨t, .lvalue, false⟩ ∧ hp.next ≤ u.addr ∧
      (∀ i < p.size t, hp'.mem (u.addr + i) = hp.mem (v.addr + i)) ∧
      (∀ i < p.size t, hp'.mem (v.addr + i) = p.moved t (hp.mem (v.addr + i))) ∧
      ∀ x < hp.next, x < v.addr ∨ v.addr + p.size t ≤ x → hp'.mem x = hp.mem x := by
  obtain ⟨hp', a, e, x⟩ := construct_moved hp v fuel hpl hok hmf
  exact ⟨hp', _, e, rfl, rfl, x.fresh, x.same, x.moved, x.frame⟩

/-! ### concrete cases -/

namespace MovingDemo
open ValueDemo TempDemo

theorem plainM3 : PlainMove prog3 2 := by
  refine (C32_plumbed prog3 2 ⟨true, true, true, true, true⟩ [] (by decide) (by decide) (by decide)
    rfl rfl rfl (by decide) (by decide) (by simp) ?_ ?_).2
  · intro hp a m h; rfl
  · intro hp a m h; rfl

/-- `f(T, T&&, const T&)` called with an `rvalue()`, a temporary and a third object -/
def room : Heap := { mem := fun a => if a = 5 then 4 else heap.mem a, next := 7 }
def third : Handle := ⟨⟨2, .lvalue, false⟩, 5, none⟩
def given : List Actual := [.dyn obj.rvalue, .native ⟨2, .rvalue, false⟩ 3, .dyn third]
def fnM : Fn := Fn.make ['f'] ⟨0, .copy, false⟩
  [⟨2, .copy, false⟩, ⟨2, .rvalue, false⟩, ⟨2, .lvalue, true⟩] 10

example : ∀ x ∈ given.zip fnM.args, AnyArg prog3 room x.1 x.2 := by
  intro x hx
  simp only [given, fnM, Fn.make, List.zip_cons_cons, List.zip_nil_right, List.mem_cons,
    List.not_mem_nil, or_false] at hx
  rcases hx with rfl | rfl | rfl
  · exact .value _ _ (fun _ _ h => by cases h.1)
      (.moved rfl plainM3 (by decide) (by decide) ⟨by decide, by decide, by decide, by decide⟩)
      (fun _ => by decide)
  · exact .temp _ _ _ _ ⟨rfl, by decide⟩
      (fun h hh => .rvalue rfl (by decide) (by rw [hh]; decide) (.inl (by decide))) (fun _ => by decide)
  · exact .value _ _ (fun _ _ h => by cases h.1) (.ref rfl) (fun _ => by decide)

example : Storable prog3 room given ∧ Apart prog3 given ∧ ApartActuals prog3 given fnM.args := by
  refine ⟨?_, ?_, ?_⟩
  · intro x hx arg a ⟨h1, _⟩
    subst h1
    simp only [given, List.mem_cons, List.not_mem_nil, or_false, reduceCtorEq, false_or,
      Actual.native.injEq] at hx
    obtain ⟨rfl, rfl⟩ := hx
    decide
  · unfold Apart given
    simp only [List.pairwise_cons, List.mem_cons, List.not_mem_nil, or_false, Actual.IsTemp]
    refine ⟨?_, ?_, fun _ h => h.elim, .nil⟩
    · rintro y (rfl | rfl) arg a arg' a' ⟨h1, -⟩ ⟨h2, -⟩ <;> cases h1
    · rintro y rfl arg a arg' a' _ ⟨h2, -⟩
      cases h2
  · unfold ApartActuals given fnM
    simp only [Fn.make, List.zip_cons_cons, List.zip_nil_right, List.pairwise_cons, List.mem_cons,
      List.not_mem_nil, or_false]
    refine ⟨?_, ?_, fun _ h => h.elim, .nil⟩
    · rintro y (rfl | rfl)
      · intro _ h; exact absurd ⟨rfl, by decide⟩ (h ⟨2, .rvalue, false⟩ 3)
      · intro _ _ _ h; exact absurd rfl h.1
    · rintro y rfl _ _ _ h; exact absurd rfl h.1

/-- the temporary that is given to `T&&` and the object passed by value are both taken -/
example : Takes prog3 obj.rvalue ⟨2, .copy, false⟩ ∧
    Takes prog3 ⟨⟨2, .lvalue, false⟩, 9, some 9⟩ ⟨2, .rvalue, false⟩ ∧
    ¬ Takes prog3 obj ⟨2, .copy, false⟩ := by
  refine ⟨.inr (by decide), .inl (by decide), ?_⟩
  rintro (h | h)
  · exact absurd h.1 (by decide)
  · exact absurd h.2.2.1 (by decide)

example : (prog3.callFn 3 room fnM ⟨0, .copy, false⟩ given).toOption.isSome = true := by decide

/-- C68_method_moving: a program whose class has a method `f(const T&, T)`, called on the third object with an
    `rvalue()` -/
def fnO : Fn := Fn.make ['f'] ⟨0, .copy, false⟩ [⟨2, .lvalue, true⟩, ⟨2, .copy, false⟩] 10
def progO : Prog := { prog3 with w := { world with
  ty := fun t => if t = 2 then { world.ty 2 with fns := (['f'], [fnO]) :: (world.ty 2).fns } else world.ty t } }

example : (progO.callMethod 3 room third ['f'] ⟨0, .copy, false⟩ [.dyn obj.rvalue]).toOption.isSome = true ∧
    (match progO.callMethod 3 room third ['f'] ⟨0, .copy, false⟩ [.dyn obj.rvalue] with
      | .ok (h, _) => decide (h.mem 1 = 0 ∧ h.mem 2 = 0 ∧ h.mem 5 = 4)
      | _ => false) = true := by decide

/-- constructing from an `rvalue()` of the third object -/
example : (match prog3.constructWith 3 room 2 [.dyn third.rvalue] with
    | .ok (h, some (.val u)) => decide (u.owner = some u.addr ∧ 7 ≤ u.addr ∧ h.mem u.addr = 4 ∧ h.mem 5 = 0 ∧
        h.mem 6 = 0 ∧ h.mem 1 = 7)
    | _ => false) = true := by decide

example : AnyArg prog3 room (.dyn third.rvalue) ⟨2, .rvalue, false⟩ ∧
    MovedFrom prog3 third.rvalue.arg 2 ∧ room.Ok third.rvalue.addr (prog3.size 2) :=
  ⟨.value _ _ (fun _ _ h => by cases h.1) (.rvalue rfl (by decide) (by decide) (.inl (by decide)))
    (fun _ => by decide), ⟨by decide, by decide, by decide, by decide⟩, by decide⟩

/-- non-vacuity of `C68_accepted_runs`: the call of `fnM` above is accepted, without converters -/
example : fnM.test prog3.w.env ⟨0, .copy, false⟩ (given.map Actual.arg) ≠ .none ∧
    ∀ x ∈ given.zip fnM.args, x.2.ref = .lvalue → x.1.arg.type ≠ prog3.w.valueT ∧ x.2.type ≠ prog3.w.valueT ∧
      prog3.w.env.conv x.1.arg.type x.2.type = false := by
  refine ⟨by decide, ?_⟩
  intro x hx hr
  simp only [given, fnM, Fn.make, List.zip_cons_cons, List.zip_nil_right, List.mem_cons,
    List.not_mem_nil, or_false] at hx
  rcases hx with rfl | rfl | rfl
  · cases hr
  · cases hr
  · decide

/-! the hypotheses of `C68_method_moving` and `C68_method_runs` for the method of `progO`, called on the third object with
    an `rvalue()` -/

theorem edgesO (a b : Ty) (h : progO.w.Edge a b) : a = 3 ∧ b = 2 := by
  have hpar : ∀ a b, (progO.w.ty a).parent = some b → a = 3 ∧ b = 2 := by
    intro a b
    show (if a = 2 then { world.ty 2 with fns := (['f'], [fnO]) :: (world.ty 2).fns } else world.ty a).parent = some b → _
    unfold world
    dsimp only
    split
    · intro h; simp [TypeD.new] at h
    · split <;> intro h <;> simp_all [TypeD.new]
  have hp : ∀ a, (progO.w.ty a).ptr = none := by
    intro a
    show (if a = 2 then { world.ty 2 with fns := (['f'], [fnO]) :: (world.ty 2).fns } else world.ty a).ptr = none
    unfold world
    dsimp only
    split
    · simp [TypeD.new]
    · split <;> simp_all [TypeD.new]
  rcases h with h | ⟨k, h⟩
  · exact hpar a b h
  · rw [hp a] at h; cases h

theorem closedO : progO.w.Closed ∧ progO.w.Acyclic := by
  have hr : ∀ a b, progO.w.Reach a b → b < a := by
    intro a b h
    induction h with
    | edge h => obtain ⟨rfl, rfl⟩ := edgesO _ _ h; decide
    | step h _ ih => obtain ⟨rfl, rfl⟩ := edgesO _ _ h; exact Nat.lt_trans ih (by decide)
  refine ⟨?_, fun a h => Nat.lt_irrefl _ (hr a a h)⟩
  intro a b _ h
  obtain ⟨rfl, rfl⟩ := edgesO a b h
  decide

theorem plainMO : PlainMove progO 2 := by
  refine (C32_plumbed progO 2 ⟨true, true, true, true, true⟩ [] (by decide) (by decide) (by decide)
    rfl rfl rfl (by decide) (by decide) (by simp) ?_ ?_).2
  · intro hp a m h; rfl
  · intro hp a m h; rfl

example : ∀ x ∈ [.dyn third, .dyn obj.rvalue].zip fnO.args, AnyArg progO room x.1 x.2 ∧
    (x.2.ref = .lvalue → x.1.arg.type ≠ progO.w.valueT ∧ x.2.type ≠ progO.w.valueT ∧
      progO.w.env.conv x.1.arg.type x.2.type = false) := by
  intro x hx
  simp only [fnO, Fn.make, List.zip_cons_cons, List.zip_nil_right, List.mem_cons, List.not_mem_nil, or_false] at hx
  rcases hx with rfl | rfl
  · exact ⟨.value _ _ (fun _ _ h => by cases h.1) (.ref rfl) (fun _ => by decide), fun _ => by decide⟩
  · refine ⟨.value _ _ (fun _ _ h => by cases h.1)
      (.moved rfl plainMO (by decide) (by decide) ⟨by decide, by decide, by decide, by decide⟩)
      (fun _ => by decide), fun h => by cases h⟩

example : Spec.choose (fun f => f.test progO.w.env ⟨0, .copy, false⟩ (third.arg :: [Actual.dyn obj.rvalue].map Actual.arg))
    [fnO] = some fnO := by decide

example : progO.w.Nearest (fun d => d.fns.get ['f']) third.arg.type [fnO] :=
  ⟨0, 2, rfl, by decide, fun j hj => absurd hj (Nat.not_lt_zero j)⟩


/-- the hypotheses of `C80_accepted_runs` for the move constructor of the class of `prog3`, given the third object as an
    `rvalue()` -/
example : Spec.choose (fun f => f.test prog3.w.env prog3.valueArg ([Actual.dyn third.rvalue].map Actual.arg)) tCtors =
      some (Fn.make ['T'] ⟨2, .copy, false⟩ [⟨2, .rvalue, false⟩] 3) ∧
    Storable prog3 room [.dyn third.rvalue] ∧ Apart prog3 [.dyn third.rvalue] ∧
    ApartActuals prog3 [.dyn third.rvalue] [⟨2, .rvalue, false⟩] ∧
    prog3.w.Nearest (fun d => d.fns.get (prog3.w.ty 2).id) 2 tCtors := by
  refine ⟨by decide, ?_, by simp [Apart], by simp [ApartActuals],
    ⟨0, 2, rfl, by decide, fun j hj => absurd hj (Nat.not_lt_zero j)⟩⟩
  intro x hx arg a h
  rw [List.mem_singleton] at hx; subst hx; cases h.1

end MovingDemo

namespace OpArgsDemo

/-- the `bool` at 3, given up by the caller -/
def gone : Handle := ⟨⟨4, .rvalue, false⟩, 3, none⟩

theorem plainMoveBool : PlainMove prog 4 := by
  refine (C32_plumbed prog 4 ⟨true, true, true, true, true⟩ [] (by decide) (by decide) (by decide)
    rfl rfl rfl (by decide) (by decide) (by simp) ?_ ?_).2
  · intro hp a m h; rfl
  · intro hp a m h; rfl

/-- the hypotheses of `C74_accepted_runs` for `sub <<= gone` (with `closed` and `looks`) -/
example : (shift.fn (Spec.opName "<<=")).test prog.w.env prog.valueArg (sub.arg :: [Actual.dyn gone].map Actual.arg) ≠ .none ∧
    Storable prog heap [.dyn gone] ∧ Apart prog [.dyn gone] ∧
    (∀ x ∈ [Actual.dyn gone].zip shift.args, AnyArg prog heap x.1 x.2) ∧ ApartActuals prog [.dyn gone] shift.args ∧
    (∀ x ∈ (.dyn sub, ⟨shift.obj, .lvalue, shift.isConst⟩) :: [Actual.dyn gone].zip shift.args, x.2.ref = .lvalue →
      x.1.arg.type ≠ prog.w.valueT ∧ x.2.type ≠ prog.w.valueT ∧ prog.w.env.conv x.1.arg.type x.2.type = false) := by
  refine ⟨by decide +kernel, ?_, by simp [Apart], ?_, by simp [ApartActuals, shift], ?_⟩
  · intro x hx arg a h
    rw [List.mem_singleton] at hx; subst hx; cases h.1
  · intro x hx
    simp only [shift, List.zip_cons_cons, List.zip_nil_left, List.mem_singleton] at hx
    subst hx
    exact .value _ _ (fun _ _ h => by cases h.1)
      (.moved rfl plainMoveBool (by decide +kernel) (by decide) ⟨by decide, by decide, by decide, by decide⟩)
      (fun _ => by decide)
  · intro x hx hr
    simp only [shift, List.zip_cons_cons, List.zip_nil_left, List.mem_cons, List.not_mem_nil, or_false] at hx
    rcases hx with rfl | rfl
    · decide
    · cases hr

end OpArgsDemo

end Reflect

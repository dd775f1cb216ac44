import Verif.Spec.Match
/-
  C21–C26: argument and return matching.
-/
namespace Reflect
open Spec

variable (e : Env)

/-! ### C22: the rules -/

theorem convertible_same (a : Arg) : isConvertibleTo e a a = .exact := by simp [isConvertibleTo]

theorem oneDynamic_iff (a p : Arg) :
    OneDynamic e a p ↔ (xor (decide (a.type = e.valueT)) (decide (p.type = e.valueT))) = true := by
  unfold OneDynamic
  by_cases h3 : a.type = e.valueT <;> by_cases h4 : p.type = e.valueT <;> simp [h3, h4]

theorem convertible_dynamic (a p : Arg) (h : OneDynamic e a p) : isConvertibleTo e a p = .exact := by
  rw [oneDynamic_iff] at h
  unfold isConvertibleTo
  by_cases h1 : a = p
  · rw [if_pos h1]
  · rw [if_neg h1, if_pos h]

theorem convertible_conv (a p : Arg) (hne : a ≠ p) (hnd : ¬ OneDynamic e a p)
    (hc : e.conv a.type p.type = true) :
    isConvertibleTo e a p = if p.ref = .lvalue then .none else .part := by
  rw [oneDynamic_iff] at hnd
  unfold isConvertibleTo
  rw [if_neg hne, if_neg hnd, if_pos hc]
  cases p.ref <;> rfl

theorem convertible_no_child (a p : Arg) (hne : a ≠ p) (hnd : ¬ OneDynamic e a p)
    (hc : e.conv a.type p.type = false) (hch : e.child a.type p.type = false) :
    isConvertibleTo e a p = .none := by
  rw [oneDynamic_iff] at hnd
  unfold isConvertibleTo
  rw [if_neg hne, if_neg hnd]
  simp [hc, hch]

theorem convertible_inherited (a p : Arg) (hne : a ≠ p) (hnd : ¬ OneDynamic e a p)
    (hc : e.conv a.type p.type = false) (hch : e.child a.type p.type = true) :
    (isConvertibleTo e a p ≠ .none ↔ Binds a p) ∧
    (isConvertibleTo e a p = .exact ↔ Binds a p ∧
      ((a.ref = p.ref ∧ a.isConst = p.isConst) ∨ (a.ref = .rvalue ∧ p.ref = .copy))) := by
  rw [oneDynamic_iff] at hnd
  unfold isConvertibleTo
  rw [if_neg hne, if_neg hnd]
  obtain ⟨ta, ra, ca⟩ := a
  obtain ⟨tp, rp, cp⟩ := p
  have hb : Binds ⟨ta, ra, ca⟩ ⟨tp, rp, cp⟩ ↔
      (rp = .copy ∨ (rp = .lvalue ∧ cp = true) ∨
        (rp = .lvalue ∧ cp = false ∧ ra = .lvalue ∧ ca = false) ∨
        (rp = .rvalue ∧ ra = .rvalue ∧ (ca = true → cp = true))) := by
    constructor
    · intro h
      cases h with
      | byValue h => exact .inl h
      | constRef h h2 => exact .inr (.inl ⟨h, h2⟩)
      | mutableRef h1 h2 h3 h4 => exact .inr (.inr (.inl ⟨h1, h2, h3, h4⟩))
      | rvalueRef h1 h2 h3 => exact .inr (.inr (.inr ⟨h1, h2, h3⟩))
    · rintro (h | ⟨h, h2⟩ | ⟨h1, h2, h3, h4⟩ | ⟨h1, h2, h3⟩)
      · exact .byValue h
      · exact .constRef h h2
      · exact .mutableRef h1 h2 h3 h4
      · exact .rvalueRef h1 h2 h3
  rw [hb]
  simp only at hc hch
  simp only [hc, hch]
  cases ra <;> cases ca <;> cases rp <;> cases cp <;> simp [testConstConversion]

/-- C22. The grade is "none" exactly when the declarative rules do not accept the argument. -/
theorem C22_matches_iff (a p : Arg) : isConvertibleTo e a p ≠ .none ↔ Matches e a p := by
  by_cases h1 : a = p
  · subst h1; simp [convertible_same, Matches.same]
  by_cases h2 : OneDynamic e a p
  · simp [convertible_dynamic e a p h2, Matches.dynamic h2]
  cases hc : e.conv a.type p.type with
  | true =>
    rw [convertible_conv e a p h1 h2 hc]
    by_cases hr : p.ref = .lvalue
    · simp only [hr, if_true, ne_eq, not_true, false_iff]
      intro h
      cases h with
      | same => exact h1 rfl
      | dynamic h => exact h2 h
      | converted _ h => exact h hr
      | inherited h => rw [hc] at h; cases h
    · simp [hr, Matches.converted hc hr]
  | false =>
    cases hch : e.child a.type p.type with
    | true =>
      rw [(convertible_inherited e a p h1 h2 hc hch).1]
      constructor
      · exact .inherited hc hch
      · intro h
        cases h with
        | same => exact absurd rfl h1
        | dynamic h => exact absurd h h2
        | converted h => rw [hc] at h; cases h
        | inherited _ _ h => exact h
    | false =>
      simp only [convertible_no_child e a p h1 h2 hc hch, ne_eq, not_true, false_iff]
      intro h
      cases h with
      | same => exact h1 rfl
      | dynamic h => exact h2 h
      | converted h => rw [hc] at h; cases h
      | inherited _ h => rw [hch] at h; cases h

/-- C22. The grade is "exact" exactly for perfect fits. -/
theorem C22_exact_iff (a p : Arg) : isConvertibleTo e a p = .exact ↔ Fits e a p := by
  by_cases h1 : a = p
  · subst h1; simp [convertible_same, Fits.same]
  by_cases h2 : OneDynamic e a p
  · simp [convertible_dynamic e a p h2, Fits.dynamic h2]
  have hno : ∀ b, (e.conv a.type p.type = b ∧ b = true) ∨ e.child a.type p.type = false →
      ¬ Fits e a p := by
    intro b hb h
    cases h with
    | same => exact h1 rfl
    | dynamic h => exact h2 h
    | alike hc hch => rcases hb with hb | hb <;> simp_all
    | consumed hc hch => rcases hb with hb | hb <;> simp_all
  cases hc : e.conv a.type p.type with
  | true =>
    rw [convertible_conv e a p h1 h2 hc]
    simp only [hno true (.inl ⟨hc, rfl⟩), iff_false]
    split <;> simp
  | false =>
    cases hch : e.child a.type p.type with
    | true =>
      rw [(convertible_inherited e a p h1 h2 hc hch).2]
      constructor
      · rintro ⟨hb, ⟨h3, h4⟩ | ⟨h3, h4⟩⟩
        · exact .alike hc hch hb h3 h4
        · exact .consumed hc hch h3 h4
      · intro h
        cases h with
        | same => exact absurd rfl h1
        | dynamic h => exact absurd h h2
        | alike _ _ hb h3 h4 => exact ⟨hb, .inl ⟨h3, h4⟩⟩
        | consumed _ _ h3 h4 => exact ⟨.byValue h4, .inr ⟨h3, h4⟩⟩
    | false =>
      rw [convertible_no_child e a p h1 h2 hc hch]
      simp [hno true (.inr hch)]

/-! ### C21 -/

/-- C21. A mutable reference parameter is matched only by a mutable lvalue of a child type. -/
theorem C21_mutable_ref_safe (hrefl : ∀ t, e.child t t = true) (a p : Arg)
    (ha : a.type ≠ e.valueT) (hp : p.type ≠ e.valueT)
    (hr : p.ref = .lvalue) (hc : p.isConst = false) (h : isConvertibleTo e a p ≠ .none) :
    a.ref = .lvalue ∧ a.isConst = false ∧ e.child a.type p.type = true := by
  cases (C22_matches_iff e a p).1 h with
  | same => exact ⟨hr, hc, hrefl _⟩
  | dynamic hd => exact hd.elim (fun hd => absurd hd.1 ha) (fun hd => absurd hd.2 hp)
  | converted _ hl => exact absurd hr hl
  | inherited _ hch hb =>
    cases hb with
    | byValue h => rw [hr] at h; cases h
    | constRef _ h => rw [hc] at h; cases h
    | mutableRef _ _ h1 h2 => exact ⟨h1, h2, hch⟩
    | rvalueRef h => rw [hr] at h; cases h

/-- C21. An rvalue-reference parameter is matched, without a converter, only by an rvalue of a child
    type that is not const unless the parameter is. -/
theorem C21_rvalue_ref_safe (hrefl : ∀ t, e.child t t = true) (a p : Arg)
    (ha : a.type ≠ e.valueT) (hp : p.type ≠ e.valueT) (hnc : e.conv a.type p.type = false)
    (hr : p.ref = .rvalue) (h : isConvertibleTo e a p ≠ .none) :
    a.ref = .rvalue ∧ (a.isConst = true → p.isConst = true) ∧ e.child a.type p.type = true := by
  cases (C22_matches_iff e a p).1 h with
  | same => exact ⟨hr, id, hrefl _⟩
  | dynamic hd => exact hd.elim (fun hd => absurd hd.1 ha) (fun hd => absurd hd.2 hp)
  | converted hl _ => rw [hnc] at hl; cases hl
  | inherited _ hch hb =>
    cases hb with
    | byValue h => rw [hr] at h; cases h
    | constRef h _ => rw [hr] at h; cases h
    | mutableRef h _ _ _ => rw [hr] at h; cases h
    | rvalueRef _ h1 h2 => exact ⟨h1, h2, hch⟩

/-! ### C23 -/

theorem combine_eq_exact (a b : Match) : combine a b = .exact ↔ a = .exact ∧ b = .exact := by
  cases a <;> cases b <;> simp [combine]

theorem combine_eq_none (a b : Match) : combine a b = .none ↔ a = .none ∨ b = .none := by
  cases a <;> cases b <;> simp [combine]

theorem testArgumentsLoop_spec : ∀ (vs ts : List Arg) (m : Match), m ≠ .none →
    vs.length = ts.length →
    (testArgumentsLoop e m vs ts = .none ↔ ∃ q ∈ vs.zip ts, isConvertibleTo e q.1 q.2 = .none) ∧
    (testArgumentsLoop e m vs ts = .exact ↔
      m = .exact ∧ ∀ q ∈ vs.zip ts, isConvertibleTo e q.1 q.2 = .exact) := by
  intro vs
  induction vs with
  | nil => intro ts m hm hl; cases ts <;> simp_all [testArgumentsLoop]
  | cons v vs ih =>
    intro ts m hm hl
    cases ts with
    | nil => simp at hl
    | cons t ts =>
      simp only [testArgumentsLoop]
      split
      · rename_i hc
        rw [combine_eq_none] at hc
        rcases hc with hc | hc
        · exact absurd hc hm
        · simp [hc]
      · rename_i hc
        have h := ih ts _ hc (by simpa using hl)
        rw [combine_eq_none, not_or] at hc
        rw [h.1, h.2, combine_eq_exact]
        simp [hc.2, and_assoc]

/-- C23. The grade of an argument list: "none" when the lengths differ or some position is "none". -/
theorem C23_none_iff (vs ts : List Arg) :
    testArguments e vs ts = .none ↔
      vs.length ≠ ts.length ∨ ∃ q ∈ vs.zip ts, isConvertibleTo e q.1 q.2 = .none := by
  unfold testArguments
  split
  · simp [*]
  · rename_i h
    rw [(testArgumentsLoop_spec e vs ts .exact (by simp) (by simpa using h)).1]
    simp [h]

/-- C23. "Exact" when the lengths agree and every position is exact; so it is the minimum. -/
theorem C23_exact_iff (vs ts : List Arg) :
    testArguments e vs ts = .exact ↔
      vs.length = ts.length ∧ ∀ q ∈ vs.zip ts, isConvertibleTo e q.1 q.2 = .exact := by
  unfold testArguments
  split
  · simp [*]
  · rename_i h
    rw [(testArgumentsLoop_spec e vs ts .exact (by simp) (by simpa using h)).2]
    simp only [ne_eq, Decidable.not_not] at h
    simp [h]

theorem match_ext {a b : Match} (h1 : a = .none ↔ b = .none) (h2 : a = .exact ↔ b = .exact) :
    a = b := by
  cases a <;> cases b <;> simp_all

/-- C23. The order of positions is irrelevant. -/
theorem C23_order_irrelevant (vs ts vs' ts' : List Arg) (hl : vs.length = ts.length)
    (hl' : vs'.length = ts'.length) (h : (vs.zip ts).Perm (vs'.zip ts')) :
    testArguments e vs ts = testArguments e vs' ts' := by
  apply match_ext
  · rw [C23_none_iff, C23_none_iff]; simp [hl, hl', h.mem_iff]
  · rw [C23_exact_iff, C23_exact_iff]; simp [hl, hl', h.mem_iff]

/-! ### C24 -/

/-- C24. An argument that is not the parameter's own type and reference kind, is not dynamic, and has
    a converter to it, matches partially when the parameter is no lvalue reference and not at all when
    it is: never exactly. -/
theorem C24_converter (a p : Arg) (hne : a ≠ p) (hnd : ¬ OneDynamic e a p)
    (hc : e.conv a.type p.type = true) :
    isConvertibleTo e a p = if p.ref = .lvalue then .none else .part :=
  convertible_conv e a p hne hnd hc

/-! ### C25 -/

/-- C25. A wanted void accepts every function. -/
theorem C25_void_accepts (want ret : Arg) (h : want.type = e.voidT) :
    testReturn e want ret = .exact := by
  simp [testReturn, h]

/-- C25. A wanted reference is given only by a function that returns an lvalue reference of a child
    type, mutable when a mutable one is wanted. -/
theorem C25_reference_safe (hrefl : ∀ t, e.child t t = true) (want ret : Arg)
    (hv : want.type ≠ e.voidT) (hd : want.type ≠ e.valueT) (hd' : ret.type ≠ e.valueT)
    (hr : want.ref = .lvalue) (h : testReturn e want ret ≠ .none) :
    ret.type ≠ e.voidT ∧ ret.ref = .lvalue ∧ e.child ret.type want.type = true ∧
      (want.isConst = false → ret.isConst = false) := by
  unfold testReturn at h
  rw [if_neg hv] at h
  split at h
  · rename_i hvr; simp [hd] at h
  · rename_i hvr
    split at h
    · exact absurd rfl h
    rename_i hm
    split at h
    · exact absurd rfl h
    rename_i ht
    refine ⟨hvr, ?_⟩
    have hm' := (C22_matches_iff e ret want).1 hm
    cases hw : want.isConst with
    | false =>
      have := C21_mutable_ref_safe e hrefl ret want hd' hd hr hw hm
      exact ⟨this.1, this.2.2, fun _ => this.2.1⟩
    | true =>
      simp [Arg.isTemporary, Arg.isConstRef, hr, hw] at ht
      refine ⟨?_, ?_, by simp⟩
      · cases hrr : ret.ref <;> simp_all
      · cases hm' with
        | same => exact hrefl _
        | dynamic hh => exact hh.elim (fun hh => absurd hh.1 hd') (fun hh => absurd hh.2 hd)
        | converted _ hl => exact absurd hr hl
        | inherited _ hch _ => exact hch

/-- C25. A temporary is never handed out as a const reference, dynamic types included. -/
theorem C25_no_dangling_const_ref (want ret : Arg) (hv : want.type ≠ e.voidT)
    (hr : want.ref = .lvalue) (hc : want.isConst = true) (ht : ret.ref ≠ .lvalue) :
    testReturn e want ret = .none := by
  have h1 : ret.isTemporary = true := by
    unfold Arg.isTemporary; cases h : ret.ref <;> simp_all
  unfold testReturn
  rw [if_neg hv]
  simp only [hr, Arg.isConstRef, hc, h1]
  split
  · split <;> rfl
  · split <;> simp

/-- C25. What a function without result gives: nothing but a by-value dynamic value. -/
theorem C25_void_function (want ret : Arg) (hv : want.type ≠ e.voidT) (hr : ret.type = e.voidT) :
    testReturn e want ret ≠ .none ↔ want.type = e.valueT ∧ want.ref ≠ .lvalue := by
  unfold testReturn
  rw [if_neg hv, if_pos hr]
  by_cases h1 : want.type = e.valueT <;> by_cases h2 : want.ref = .lvalue <;> simp [h1, h2]

/-- C25. A wanted rvalue reference is given, without a converter, only by a function that returns an rvalue reference of a child
    type, not a const one unless that is wanted. -/
theorem C25_rvalue_reference (hrefl : ∀ t, e.child t t = true) (want ret : Arg)
    (hv : want.type ≠ e.voidT) (hd : want.type ≠ e.valueT) (hd' : ret.type ≠ e.valueT)
    (hnc : e.conv ret.type want.type = false)
    (hr : want.ref = .rvalue) (h : testReturn e want ret ≠ .none) :
    ret.type ≠ e.voidT ∧ ret.ref = .rvalue ∧ e.child ret.type want.type = true ∧
      (ret.isConst = true → want.isConst = true) := by
  unfold testReturn at h
  rw [if_neg hv] at h
  by_cases hvt : ret.type = e.voidT
  · rw [if_pos hvt, if_pos hd] at h; exact absurd rfl h
  · rw [if_neg hvt] at h
    by_cases hm : isConvertibleTo e ret want = .none
    · rw [if_pos hm] at h; exact absurd rfl h
    · obtain ⟨h1, h2, h3⟩ := C21_rvalue_ref_safe e hrefl ret want hd' hd hnc hr hm
      exact ⟨hvt, h1, h3, h2⟩

/-- C25, exactly: a wanted return type other than void is given by a function that returns something exactly when what it returns could be
    passed as the wanted type and is not a temporary for which a reference to const is wanted. -/
theorem C25_iff (want ret : Arg) (hv : want.type ≠ e.voidT) (hr : ret.type ≠ e.voidT) :
    testReturn e want ret ≠ .none ↔
      Matches e ret want ∧ ¬ (ret.ref ≠ .lvalue ∧ want.ref = .lvalue ∧ want.isConst = true) := by
  rw [← C22_matches_iff]
  unfold testReturn
  rw [if_neg hv, if_neg hr]
  by_cases hm : isConvertibleTo e ret want = .none
  · simp [hm]
  · rw [if_neg hm]
    cases h1 : ret.ref <;> cases h2 : want.ref <;> cases h3 : want.isConst <;> simp [Arg.isTemporary, Arg.isConstRef, h1, h2, h3, hm]

/-! ### C26 -/

/-- C26 is false of the code: a pointer to const fits a pointer to mutable exactly. -/
theorem C26_pointee_const_lost (ids : CxxTy → Ty) (n : Name) :
    isConvertibleTo e (Arg.make ids (.ptr (.const (.obj n)))) (Arg.make ids (.ptr (.obj n)))
      = .exact := by
  simp [Arg.make, CxxTy.clean, CxxTy.refType, CxxTy.isConst, CxxTy.removeRef, isConvertibleTo]

/-- at any depth -/
theorem C26_pointee_const_lost_deep (ids : CxxTy → Ty) (t : CxxTy) :
    Arg.make ids (.ptr (.const t)) = Arg.make ids (.ptr t) := by
  simp [Arg.make, CxxTy.clean, CxxTy.refType, CxxTy.isConst, CxxTy.removeRef]

/-- A parameter type as it is written in C++: how it is passed, whether it is const, and what it is:
    a class or a pointer chain, with the constness of each pointee, outermost first. -/
structure Written where
  ref : RefType
  const : Bool
  pointees : List Bool
  cls : Name

def withConst (c : Bool) (t : CxxTy) : CxxTy := if c then .const t else t

def chain (cls : Name) : List Bool → CxxTy
  | [] => .obj cls
  | c :: cs => .ptr (withConst c (chain cls cs))

/-- e.g. `⟨.lvalue, true, [false], "T"⟩` is `T* const &` -/
def Written.cxx (w : Written) : CxxTy :=
  let t := withConst w.const (chain w.cls w.pointees)
  match w.ref with
  | .copy => t
  | .lvalue => .lref t
  | .rvalue => .rref t

theorem clean_withConst (c : Bool) (t : CxxTy) : (withConst c t).clean = t.clean := by
  cases c <;> rfl

theorem clean_cxx (w : Written) : w.cxx.clean = (chain w.cls w.pointees).clean := by
  obtain ⟨r, c, ps, n⟩ := w
  cases r <;> simp [Written.cxx, CxxTy.clean, clean_withConst]

theorem clean_chain (n m : Name) (ps qs : List Bool) :
    (chain n ps).clean = (chain m qs).clean ↔ n = m ∧ ps.length = qs.length := by
  induction ps generalizing qs with
  | nil => cases qs <;> simp [chain, CxxTy.clean]
  | cons p ps ih => cases qs <;> simp [chain, CxxTy.clean, clean_withConst, ih]

/-- C26. How a parameter is passed and whether it is itself const are read off correctly, for every
    C++ type. -/
theorem C26_read (ids : CxxTy → Ty) (w : Written) :
    (Arg.make ids w.cxx).ref = w.ref ∧ (Arg.make ids w.cxx).isConst = w.const := by
  obtain ⟨r, c, ps, n⟩ := w
  constructor
  · cases r <;> cases c <;> cases ps <;> rfl
  · cases r <;> cases c <;> cases ps <;> rfl

/-- C26, exactly: when the registry tells distinct type names apart, two C++ types have the same
    description if and only if they agree in the class, the number of pointers, the way they are
    passed and their own constness. The constness of pointees is the one thing that is lost. -/
theorem C26_described_alike (ids : CxxTy → Ty) (hinj : ∀ s t, ids s = ids t → s = t) (v w : Written) :
    Arg.make ids v.cxx = Arg.make ids w.cxx ↔
      v.cls = w.cls ∧ v.pointees.length = w.pointees.length ∧ v.ref = w.ref ∧ v.const = w.const := by
  obtain ⟨h1, h2⟩ := C26_read ids v
  obtain ⟨h3, h4⟩ := C26_read ids w
  constructor
  · intro h
    have ht : ids v.cxx.clean = ids w.cxx.clean := congrArg Arg.type h
    have := hinj _ _ ht
    rw [clean_cxx, clean_cxx, clean_chain] at this
    exact ⟨this.1, this.2, by rw [← h1, h, h3], by rw [← h2, h, h4]⟩
  · rintro ⟨ha, hb, hc, hd⟩
    have ht : v.cxx.clean = w.cxx.clean := by rw [clean_cxx, clean_cxx, clean_chain]; exact ⟨ha, hb⟩
    have hr : (Arg.make ids v.cxx).ref = (Arg.make ids w.cxx).ref := by rw [h1, h3, hc]
    have hk : (Arg.make ids v.cxx).isConst = (Arg.make ids w.cxx).isConst := by rw [h2, h4, hd]
    have hty : (Arg.make ids v.cxx).type = (Arg.make ids w.cxx).type := congrArg ids ht
    generalize Arg.make ids v.cxx = a at *
    generalize Arg.make ids w.cxx = b at *
    cases a; cases b
    simp only [Arg.mk.injEq]
    exact ⟨hty, hr, hk⟩

/-! ### satisfiability: types 0 void, 1 Value, 2 Base, 3 Derived < Base, 4 convertible to Base -/

def demoEnv : Env :=
  { voidT := 0, valueT := 1
    child := fun a b => a == b || (a == 3 && b == 2)
    conv := fun a b => a == 4 && b == 2 }

example : ∀ t, demoEnv.child t t = true := by simp [demoEnv]
example : isConvertibleTo demoEnv ⟨3, .lvalue, false⟩ ⟨2, .lvalue, false⟩ = .exact := by decide
example : isConvertibleTo demoEnv ⟨3, .lvalue, true⟩ ⟨2, .lvalue, false⟩ = .none := by decide
example : isConvertibleTo demoEnv ⟨3, .lvalue, false⟩ ⟨2, .lvalue, true⟩ = .part := by decide
example : isConvertibleTo demoEnv ⟨4, .lvalue, false⟩ ⟨2, .copy, false⟩ = .part := by decide
example : isConvertibleTo demoEnv ⟨4, .lvalue, false⟩ ⟨2, .lvalue, true⟩ = .none := by decide
example : isConvertibleTo demoEnv ⟨3, .rvalue, false⟩ ⟨2, .rvalue, true⟩ = .part := by decide
example : testReturn demoEnv ⟨2, .lvalue, true⟩ ⟨3, .lvalue, false⟩ = .exact := by decide
example : testReturn demoEnv ⟨2, .lvalue, true⟩ ⟨3, .copy, false⟩ = .none := by decide
example : testArguments demoEnv [⟨3, .lvalue, false⟩, ⟨4, .copy, false⟩]
    [⟨2, .lvalue, false⟩, ⟨2, .copy, false⟩] = .part := by decide

end Reflect

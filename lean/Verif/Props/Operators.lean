import Verif.Lemmas.Operators
import Verif.Spec.Operators
import Verif.Props.TypeGraph
/-
  Property C73: what `reflectOperators()` and the macros for groups of operators register.
-/
namespace Reflect
open Spec (plain incDec isPrefix isPostfix opName)

theorem plain_mem (n : Name) : plain n ↔ n ∈ Spec.symbols.map opName := by
  unfold plain
  simp only [List.mem_map]
  constructor
  · rintro ⟨s, h, rfl⟩; exact ⟨s, h, rfl⟩
  · rintro ⟨s, h, rfl⟩; exact ⟨s, h, rfl⟩

theorem keys_plain (n : Name) (h : plain n) :
    opKeys.filter (fun k => k.1 = n) = [(n, .single)] := by
  have : ∀ n ∈ Spec.symbols.map opName, opKeys.filter (fun k => k.1 = n) = [(n, .single)] := by
    decide +kernel
  exact this n ((plain_mem n).1 h)

theorem keys_inc (n : Name) (h : incDec n) :
    opKeys.filter (fun k => k.1 = n) = [(n, .pre), (n, .post)] := by
  rcases h with rfl | rfl <;> decide +kernel

theorem keys_mem (k : Name × OpKind) (h : k ∈ opKeys) : plain k.1 ∨ incDec k.1 := by
  have : ∀ k ∈ opKeys, k.1 ∈ Spec.symbols.map opName ∨ k.1 = opName "++" ∨ k.1 = opName "--" := by
    decide +kernel
  rw [plain_mem]
  exact this k h

theorem keys_other (n : Name) (h1 : ¬ plain n) (h2 : ¬ incDec n) :
    opKeys.filter (fun k => k.1 = n) = [] := by
  rw [List.filter_eq_nil_iff]
  intro k hk hn
  have hn : k.1 = n := by simpa using hn
  subst hn
  rcases keys_mem k hk with h | h
  · exact h1 h
  · exact h2 h

theorem opMember_plain (c : Members) (t intT : Ty) (n : Name) :
    (∀ m, c n = [m] → opMember c t intT (n, .single) = some m) ∧
    ((c n).length ≠ 1 → opMember c t intT (n, .single) = none) := by
  unfold opMember
  dsimp only
  generalize c n = l
  match l with
  | [] => simp
  | [m] => simp
  | _ :: _ :: _ => simp

/-- All registrations of `reflectOperators()` but the last are accepted. -/
theorem operators_table (e : Env) (c : Members) (hd : Spec.Members.Distinct c) (t intT : Ty) (d : TypeD)
    (hfresh : Spec.Fresh d) :
    ∃ d', d.runAll e (declare (opKeys.flatMap (opDecl c t intT))) = (d', .ok ()) ∧
      Spec.WithOperators c t intT d d' := by
  have hkeys : ∀ p ∈ opKeys.flatMap (opDecl c t intT), plain p.1 ∨ incDec p.1 := by
    intro p hp
    obtain ⟨k, hk, hp⟩ := List.mem_flatMap.1 hp
    unfold opDecl at hp
    cases h : opMember c t intT k with
    | none => rw [h] at hp; cases hp
    | some m =>
      rw [h] at hp
      rw [List.mem_singleton.1 hp]
      exact keys_mem k hk
  obtain ⟨fns, h1, h2⟩ := runAll_declare e (opKeys.flatMap (opDecl c t intT)) d
    (fun p hp => (hfresh p.1 (hkeys p hp)).1)
    (noClash_of_pairwise e _ _ (fun p hp g hg => by
      rw [(hfresh p.1 (hkeys p hp)).2] at hg; cases hg) (opDecls_noClash e c t intT))
  have hinc : ∀ n, incDec n → declared (opKeys.flatMap (opDecl c t intT)) n =
      (opDecl c t intT (n, .pre)).map (·.2) ++ (opDecl c t intT (n, .post)).map (·.2) := by
    intro n h
    rw [ops_declared, keys_inc n h]
    simp
  refine ⟨_, h1, rfl, rfl, rfl, rfl, fun n hn hi => ?_, fun n m hn hm => ?_, fun n hn hm => ?_,
    fun n hn f => ?_, fun n hn hm => ?_⟩
  · rw [h2 n, ops_declared, keys_other n hn hi]; simp
  · show fns.get n = _
    rw [h2 n, ops_declared, keys_plain n hn, (hfresh n (Or.inl hn)).2]
    simp [opDecl, (opMember_plain c t intT n).1 m hm]
  · show fns.get n = _
    rw [h2 n, ops_declared, keys_plain n hn, (hfresh n (Or.inl hn)).2]
    simp [opDecl, (opMember_plain c t intT n).2 hm]
  · show (∃ o, fns.get n = some o ∧ f ∈ o) ↔ _
    have hfn : (∃ o, fns.get n = some o ∧ f ∈ o) ↔
        f ∈ declared (opKeys.flatMap (opDecl c t intT)) n := by
      rw [h2 n, (hfresh n (Or.inr hn)).2]
      by_cases hx : declared (opKeys.flatMap (opDecl c t intT)) n = []
      · rw [if_pos hx, hx]; simp
      · rw [if_neg hx]; simp
    rw [hfn, hinc n hn]
    have hfind : ∀ (P : Member → Prop) [DecidablePred P] (m : Member),
        (∀ m, P m → m.obj = t) → (∀ m m', P m → P m' → m.isConst = m'.isConst ∧ m.args = m'.args) →
        ((c n).find? (fun m => decide (P m)) = some m ↔ m ∈ c n ∧ P m) := by
      intro P _ m hobj hsame
      constructor
      · intro h
        exact ⟨List.mem_of_find?_eq_some h, by simpa using List.find?_some h⟩
      · rintro ⟨hm, hP⟩
        cases hf : (c n).find? (fun m => decide (P m)) with
        | none =>
          have := List.find?_eq_none.1 hf m hm
          exact absurd hP (by simpa using this)
        | some m' =>
          have hP' : P m' := by simpa using List.find?_some hf
          have hs := hsame m' m hP' hP
          rw [hd n m' (List.mem_of_find?_eq_some hf) m hm
            ((hobj m' hP').trans (hobj m hP).symm) hs.1 hs.2]
    have hpre : ∀ m, opMember c t intT (n, .pre) = some m ↔ m ∈ c n ∧ isPrefix t m := fun m =>
      hfind (fun m => m.obj = t ∧ m.ret = ⟨t, .lvalue, false⟩ ∧ m.isConst = false ∧ m.args = []) m
        (fun m h => h.1) (fun m m' h h' => ⟨h.2.2.1.trans h'.2.2.1.symm, h.2.2.2.trans h'.2.2.2.symm⟩)
    have hpost : ∀ m, opMember c t intT (n, .post) = some m ↔ m ∈ c n ∧ isPostfix t intT m := fun m =>
      hfind (fun m => m.obj = t ∧ m.ret = ⟨t, .copy, false⟩ ∧ m.isConst = false ∧
        m.args = [⟨intT, .copy, false⟩]) m
        (fun m h => h.1) (fun m m' h h' => ⟨h.2.2.1.trans h'.2.2.1.symm, h.2.2.2.trans h'.2.2.2.symm⟩)
    have hdecl : ∀ k : OpKind, f ∈ (opDecl c t intT (n, k)).map (·.2) ↔
        ∃ m, opMember c t intT (n, k) = some m ∧ f = m.fn n := by
      intro k
      unfold opDecl
      cases opMember c t intT (n, k) <;> simp
    rw [List.mem_append, hdecl, hdecl]
    constructor
    · rintro (⟨m, h, rfl⟩ | ⟨m, h, rfl⟩)
      · exact ⟨m, ((hpre m).1 h).1, Or.inl ((hpre m).1 h).2, rfl⟩
      · exact ⟨m, ((hpost m).1 h).1, Or.inr ((hpost m).1 h).2, rfl⟩
    · rintro ⟨m, hm, h | h, rfl⟩
      · exact Or.inl ⟨m, (hpre m).2 ⟨hm, h⟩, rfl⟩
      · exact Or.inr ⟨m, (hpost m).2 ⟨hm, h⟩, rfl⟩
  · show fns.get n = _
    have hnone : ∀ k : OpKind, k ≠ .single → opMember c t intT (n, k) = none := by
      intro k hk
      cases hk' : opMember c t intT (n, k) with
      | none => rfl
      | some m =>
        exfalso
        cases k with
        | single => exact hk rfl
        | pre =>
          exact (hm m (List.mem_of_find?_eq_some hk')).1 (by simpa [isPrefix] using List.find?_some hk')
        | post =>
          exact (hm m (List.mem_of_find?_eq_some hk')).2 (by simpa [isPostfix] using List.find?_some hk')
    rw [h2 n, hinc n hn, (hfresh n (Or.inr hn)).2]
    simp [opDecl, hnone]

/-- C73. `reflectOperators()` is accepted for a class that does not have exactly one `operator*`, and
    then registers, under its C++ name, each operator the class has exactly one of, and of `++` and
    `--` the prefix form `T& ()` and the postfix form `T (int)`. An operator with two or more
    overloads is left out, without a word. -/
theorem C73_accepted (e : Env) (c : Members) (hd : Spec.Members.Distinct c) (t intT : Ty) (d : TypeD)
    (hfresh : Spec.Fresh d) (hstar : (c (opName "*")).length ≠ 1) :
    ∃ d', d.runAll e (reflectOperators c t intT) = (d', .ok ()) ∧ Spec.WithOperators c t intT d d' := by
  obtain ⟨d', h1, h2⟩ := operators_table e c hd t intT d hfresh
  refine ⟨d', ?_, h2⟩
  have h0 : reflectOp c "operator*".toList = [] := by
    have hs : opName "*" = "operator*".toList := by decide
    rw [hs] at hstar
    unfold reflectOp
    generalize c "operator*".toList = l at hstar ⊢
    match l with
    | [] => rfl
    | [m] => simp at hstar
    | _ :: _ :: _ => rfl
  rw [reflectOperators_decl, h0, List.append_nil, h1]

/-- C73 is false of the code for every class with exactly one `operator*`: it is registered twice, as
    the multiplication and as the indirection, the second registration is refused as a duplicate of the
    first, and the definition of the type fails although everything was registered. -/
theorem C73_star_refused (e : Env) (c : Members) (hd : Spec.Members.Distinct c) (t intT : Ty)
    (d : TypeD) (hfresh : Spec.Fresh d) (m : Member) (hstar : c (opName "*") = [m]) :
    ∃ d', d.runAll e (reflectOperators c t intT) = (d', .error .err) ∧
      Spec.WithOperators c t intT d d' := by
  obtain ⟨d', h1, h2⟩ := operators_table e c hd t intT d hfresh
  have hp : plain (opName "*") := ⟨"*", by decide, rfl⟩
  have hs : opName "*" = "operator*".toList := by decide
  have h3 := h2.one _ m hp hstar
  have hfld := (hfresh _ (Or.inl hp)).1
  rw [← h2.fields] at hfld
  rw [hs] at h3 hstar hfld
  have h0 : reflectOp c "operator*".toList = [.addFunction "operator*".toList (m.fn "operator*".toList)] := by
    unfold reflectOp; rw [hstar]
  have hadd : Overloads.add e [m.fn "operator*".toList] (m.fn "operator*".toList) =
      ([m.fn "operator*".toList], .error .err) := by
    unfold Overloads.add
    rw [if_pos]
    simp [testFn_self]
  rw [reflectOperators_decl, h0, runAll_append e _ d d' _ h1]
  generalize "operator*".toList = star at *
  have hset : ∀ n, (d'.fns.set star [m.fn star]).get n = d'.fns.get n := by
    intro n
    rw [Assoc.get_set]
    by_cases h : star = n
    · subst h; rw [if_pos rfl, h3]
    · rw [if_neg h]
  refine ⟨{ d' with fns := d'.fns.set star [m.fn star] }, ?_, h2.id, h2.parent, h2.ptr, h2.fields,
    fun n a b => by show Assoc.get _ n = _; rw [hset]; exact h2.others n a b,
    fun n m a b => by show Assoc.get _ n = _; rw [hset]; exact h2.one n m a b,
    fun n a b => by show Assoc.get _ n = _; rw [hset]; exact h2.notOne n a b,
    fun n a f => by
      show (∃ o, Assoc.get _ n = some o ∧ f ∈ o) ↔ _
      rw [hset]; exact h2.inc n a f,
    fun n a b => by show Assoc.get _ n = _; rw [hset]; exact h2.noInc n a b⟩
  unfold TypeD.runAll
  simp only [TypeD.step, TypeD.addFunction, hfld, h3, Option.getD_some, hadd]

/-- C73. `reflectOperators()` fails exactly for the classes with exactly one `operator*`. -/
theorem C73_accepted_iff (e : Env) (c : Members) (hd : Spec.Members.Distinct c) (t intT : Ty) (d : TypeD)
    (hfresh : Spec.Fresh d) :
    (d.runAll e (reflectOperators c t intT)).2 = .ok () ↔ (c (opName "*")).length ≠ 1 := by
  constructor
  · intro h hl
    match hm : c (opName "*"), hl with
    | [m], _ =>
      obtain ⟨d', h1, -⟩ := C73_star_refused e c hd t intT d hfresh m hm
      rw [h1] at h; cases h
  · intro h
    obtain ⟨d', h1, -⟩ := C73_accepted e c hd t intT d hfresh h
    rw [h1]

/-- C73. A macro that names each operator once is accepted for every class, and registers the operators
    of its group the class has exactly one of. -/
theorem C73_group (e : Env) (c : Members) (ns : List Name) (hnd : ns.Nodup) (d : TypeD)
    (hfresh : ∀ n ∈ ns, d.fields.get n = none ∧ d.fns.get n = none) :
    ∃ fns, d.runAll e (reflectOps c ns) = ({ d with fns := fns }, .ok ()) ∧
      (∀ n, n ∉ ns → fns.get n = d.fns.get n) ∧
      (∀ n m, n ∈ ns → c n = [m] → fns.get n = some [m.fn n]) ∧
      (∀ n, n ∈ ns → (c n).length ≠ 1 → fns.get n = none) := by
  have hkeys : ∀ ns : List Name, ∀ p ∈ (ns.map fun n => (n, OpKind.single)).flatMap (opDecl c 0 0), p.1 ∈ ns ∧
      ∃ m, c p.1 = [m] ∧ p.2 = m.fn p.1 := by
    intro ns p hp
    obtain ⟨k, hk, hp⟩ := List.mem_flatMap.1 hp
    obtain ⟨n, hn, rfl⟩ := List.mem_map.1 hk
    unfold opDecl at hp
    cases h : opMember c 0 0 (n, .single) with
    | none => rw [h] at hp; cases hp
    | some m =>
      rw [h] at hp
      rw [List.mem_singleton.1 hp]
      refine ⟨hn, m, ?_, rfl⟩
      by_cases hl : (c n).length = 1
      · match hm : c n, hl with
        | [m'], _ => rw [(opMember_plain c 0 0 n).1 m' hm] at h; cases h; rfl
      · rw [(opMember_plain c 0 0 n).2 hl] at h; cases h
  have hpair : ((ns.map fun n => (n, OpKind.single)).flatMap (opDecl c 0 0)).Pairwise
      (fun p q => p.1 = q.1 → q.2.testFn e p.2 ≠ .exact) := by
    refine List.pairwise_flatMap.2 ⟨fun k _ => ?_, ?_⟩
    · unfold opDecl; cases opMember c 0 0 k <;> simp
    · rw [List.pairwise_map]
      refine hnd.imp fun {a b} hab p hp q hq hpq => ?_
      unfold opDecl at hp hq
      cases h : opMember c 0 0 (a, .single) with
      | none => rw [h] at hp; cases hp
      | some m =>
        cases h' : opMember c 0 0 (b, .single) with
        | none => rw [h'] at hq; cases hq
        | some m' =>
          rw [h] at hp; rw [h'] at hq
          rw [List.mem_singleton.1 hp, List.mem_singleton.1 hq] at hpq
          exact absurd hpq hab
  obtain ⟨fns, h1, h2⟩ := runAll_declare e _ d
    (fun p hp => (hfresh p.1 (hkeys ns p hp).1).1)
    (noClash_of_pairwise e _ _ (fun p hp g hg => by
      rw [(hfresh p.1 (hkeys ns p hp).1).2] at hg; cases hg) hpair)
  have hdecl : ∀ ns : List Name, ns.Nodup → ∀ n ∈ ns,
      declared ((ns.map fun n => (n, OpKind.single)).flatMap (opDecl c 0 0)) n =
        (opDecl c 0 0 (n, .single)).map (·.2) := by
    intro ns
    induction ns with
    | nil => intro _ n hn; cases hn
    | cons a ns ih =>
      intro hnd n hn
      rw [List.map_cons, List.flatMap_cons, declared_append, opDecl_declared]
      have hna := (List.nodup_cons.1 hnd).1
      by_cases ha : a = n
      · subst ha
        rw [if_pos rfl]
        have : declared ((ns.map fun n => (n, OpKind.single)).flatMap (opDecl c 0 0)) a = [] := by
          unfold declared
          rw [List.map_eq_nil_iff, List.filter_eq_nil_iff]
          intro p hp hpa
          have hpa : p.1 = a := by simpa using hpa
          exact hna (hpa ▸ (hkeys ns p hp).1)
        rw [this, List.append_nil]
      · rw [if_neg ha, List.nil_append]
        exact ih (List.nodup_cons.1 hnd).2 n ((List.mem_cons.1 hn).resolve_left (fun h => ha h.symm))
  refine ⟨fns, by rw [reflectOps_decl c 0 0]; exact h1, fun n hn => ?_, fun n m hn hm => ?_,
    fun n hn hm => ?_⟩
  · rw [h2 n, if_pos]
    unfold declared
    rw [List.map_eq_nil_iff, List.filter_eq_nil_iff]
    intro p hp hpn
    have hpn : p.1 = n := by simpa using hpn
    exact hn (hpn ▸ (hkeys ns p hp).1)
  · rw [h2 n, hdecl ns hnd n hn, (hfresh n hn).2]
    simp [opDecl, (opMember_plain c 0 0 n).1 m hm]
  · rw [h2 n, hdecl ns hnd n hn, (hfresh n hn).2]
    simp [opDecl, (opMember_plain c 0 0 n).2 hm]

/-- C73. Each of the five macros for a group of operators names each operator once, but
    `reflectOpArithmetic()` and `reflectOpOther()` share `operator*`. -/
theorem C73_groups : opAssign.Nodup ∧ opArithmetic.Nodup ∧ opLogical.Nodup ∧ opComparison.Nodup ∧
    opOther.Nodup ∧ ∀ n, n ∈ opArithmetic → n ∈ opOther → n = opName "*" := by
  refine ⟨by decide +kernel, by decide +kernel, by decide +kernel, by decide +kernel, by decide +kernel, ?_⟩
  have : ∀ n ∈ opArithmetic, n ∈ opOther → n = opName "*" := by decide +kernel
  exact this

/-- C73. A registered member function takes its object first: a function not declared const accepts only
    mutable lvalues of the class that declares it or of a child, a const one only values of these. -/
theorem C73_receiver (e : Env) (hrefl : ∀ t, e.child t t = true) (n : Name) (m : Member) (want recv : Arg)
    (args : List Arg) (hr : recv.type ≠ e.valueT) (ho : m.obj ≠ e.valueT)
    (h : (m.fn n).test e want (recv :: args) ≠ .none) :
    e.child recv.type m.obj = true ∧ (m.isConst = false → recv.ref = .lvalue ∧ recv.isConst = false) ∧
    args.length = m.args.length := by
  have ht : testArguments e (recv :: args) (m.fn n).args ≠ .none := by
    intro h0; apply h; unfold Fn.test; rw [h0]; simp [combine]
  have hlen : (recv :: args).length = (m.fn n).args.length := by
    by_cases hl : (recv :: args).length = (m.fn n).args.length
    · exact hl
    · exfalso; apply ht; unfold testArguments; rw [if_pos hl]
  have hm : isConvertibleTo e recv ⟨m.obj, .lvalue, m.isConst⟩ ≠ .none := by
    intro h0
    apply ht
    unfold testArguments
    rw [if_neg (by simpa using hlen)]
    simp [Member.fn, Fn.make, Member.params, testArgumentsLoop, h0, combine]
  refine ⟨?_, fun hc => ?_, by simpa [Member.fn, Fn.make, Member.params] using hlen⟩
  · cases (C22_matches_iff e recv _).1 hm with
    | same => exact hrefl _
    | dynamic hd => exact hd.elim (fun hd => absurd hd.1 hr) (fun hd => absurd hd.2 ho)
    | converted _ hl => exact absurd rfl hl
    | inherited _ hch hb => exact hch
  · have := C21_mutable_ref_safe e hrefl recv ⟨m.obj, .lvalue, m.isConst⟩ hr ho rfl hc hm
    exact ⟨this.1, this.2.1⟩

/-! ### non-vacuity -/

namespace Demo73

/-- `struct Num { Num& operator+=(const Num&); Num& operator++(); Num operator++(int);
    bool operator==(const Num&) const; Num operator-() const; Num operator-(const Num&) const; }` -/
def num : Members := fun n =>
  if n = opName "+=" then [⟨5, ⟨5, .lvalue, false⟩, false, [⟨5, .lvalue, true⟩], 10⟩]
  else if n = opName "++" then [⟨5, ⟨5, .lvalue, false⟩, false, [], 11⟩,
    ⟨5, ⟨5, .copy, false⟩, false, [⟨2, .copy, false⟩], 12⟩]
  else if n = opName "==" then [⟨5, ⟨3, .copy, false⟩, true, [⟨5, .lvalue, true⟩], 13⟩]
  else if n = opName "-" then [⟨5, ⟨5, .copy, false⟩, true, [], 14⟩,
    ⟨5, ⟨5, .copy, false⟩, true, [⟨5, .lvalue, true⟩], 15⟩]
  else []

/-- the same with `Num operator*(const Num&) const` -/
def mul : Members := fun n =>
  if n = opName "*" then [⟨5, ⟨5, .copy, false⟩, true, [⟨5, .lvalue, true⟩], 16⟩] else num n

def e : Env := ⟨0, 1, fun a b => a == b, fun _ _ => false⟩

theorem distinct_num : Spec.Members.Distinct num := by
  intro n m hm m' hm' _ h1 h2
  unfold num at hm hm'
  by_cases a : n = opName "+="
  · rw [if_pos a] at hm hm'; simp only [List.mem_singleton] at hm hm'; rw [hm, hm']
  rw [if_neg a] at hm hm'
  by_cases b : n = opName "++"
  · rw [if_pos b] at hm hm'
    simp only [List.mem_cons, List.not_mem_nil, or_false] at hm hm'
    rcases hm with rfl | rfl <;> rcases hm' with rfl | rfl <;> first | rfl | (simp at h2)
  rw [if_neg b] at hm hm'
  by_cases b : n = opName "=="
  · rw [if_pos b] at hm hm'; simp only [List.mem_singleton] at hm hm'; rw [hm, hm']
  rw [if_neg b] at hm hm'
  by_cases b : n = opName "-"
  · rw [if_pos b] at hm hm'
    simp only [List.mem_cons, List.not_mem_nil, or_false] at hm hm'
    rcases hm with rfl | rfl <;> rcases hm' with rfl | rfl <;> first | rfl | (simp at h2)
  rw [if_neg b] at hm; cases hm

theorem distinct_mul : Spec.Members.Distinct mul := by
  intro n m hm m' hm' h0 h1 h2
  unfold mul at hm hm'
  by_cases a : n = opName "*"
  · rw [if_pos a] at hm hm'; simp only [List.mem_singleton] at hm hm'; rw [hm, hm']
  · rw [if_neg a] at hm hm'; exact distinct_num n m hm m' hm' h0 h1 h2

theorem fresh : Spec.Fresh (TypeD.new "Num".toList) := fun _ _ => ⟨rfl, rfl⟩

example : Spec.Members.Distinct num ∧ Spec.Fresh (TypeD.new "Num".toList) ∧
    (num (opName "*")).length ≠ 1 := ⟨distinct_num, fresh, by decide⟩
example : Spec.Members.Distinct mul ∧ (mul (opName "*")).length = 1 := ⟨distinct_mul, by decide⟩
example : let d := ((TypeD.new "Num".toList).runAll e (reflectOperators num 5 2)).1
    ((d.fns.get (opName "++")).getD []).map (·.body) = [11, 12] ∧ d.fns.get (opName "-") = none ∧
    ((d.fns.get (opName "+=")).getD []).map (·.body) = [10] := by decide +kernel
example : ((TypeD.new "Num".toList).runAll e (reflectOperators mul 5 2)).2 = .error .err := by
  decide +kernel
example : ((TypeD.new "Num".toList).runAll e (reflectOps mul opArithmetic)).2 = .ok () := by
  decide +kernel
example : (Member.fn (opName "==") ⟨5, ⟨3, .copy, false⟩, true, [⟨5, .lvalue, true⟩], 13⟩).test e
    ⟨3, .copy, false⟩ [⟨5, .lvalue, true⟩, ⟨5, .lvalue, true⟩] ≠ .none := by decide

end Demo73

end Reflect

import Verif.Lemmas.Declare
import Verif.Model.Operators
/-
  The registrations of `reflectOperators()` as a list of declarations.
-/
namespace Reflect

theorem noClash_of_pairwise (e : Env) : ∀ (l : List (Name × Fn)) (old : Name → List Fn),
    (∀ p ∈ l, ∀ g ∈ old p.1, p.2.testFn e g ≠ .exact) →
    l.Pairwise (fun p q => p.1 = q.1 → q.2.testFn e p.2 ≠ .exact) → NoClash e old l
  | [], _, _, _ => trivial
  | p :: l, old, h1, h2 => by
    refine ⟨h1 p List.mem_cons_self, noClash_of_pairwise e l _ ?_ (List.pairwise_cons.1 h2).2⟩
    intro q hq g hg
    rcases List.mem_append.1 hg with hg | hg
    · exact h1 q (List.mem_cons_of_mem _ hq) g hg
    · by_cases hpq : p.1 = q.1
      · rw [if_pos hpq] at hg
        rw [List.mem_singleton.1 hg]
        exact (List.pairwise_cons.1 h2).1 q hq hpq
      · rw [if_neg hpq] at hg; cases hg

/-- how an operator is named in `reflectOperators()` -/
inductive OpKind where
  | single | pre | post
  deriving DecidableEq

/-- the member a registration takes -/
def opMember (c : Members) (t intT : Ty) : Name × OpKind → Option Member
  | (n, .single) => match c n with
    | [m] => some m
    | _ => none
  | (n, .pre) => (c n).find? (fun m =>
      m.obj = t ∧ m.ret = ⟨t, .lvalue, false⟩ ∧ m.isConst = false ∧ m.args = [])
  | (n, .post) => (c n).find? (fun m =>
      m.obj = t ∧ m.ret = ⟨t, .copy, false⟩ ∧ m.isConst = false ∧ m.args = [⟨intT, .copy, false⟩])

def opDecl (c : Members) (t intT : Ty) (k : Name × OpKind) : List (Name × Fn) :=
  match opMember c t intT k with
  | some m => [(k.1, m.fn k.1)]
  | none => []

/-- the registrations of `reflectOperators()` but the last -/
def opKeys : List (Name × OpKind) :=
  opAssign.map (·, .single) ++ [("operator++".toList, .pre), ("operator--".toList, .pre),
    ("operator++".toList, .post), ("operator--".toList, .post)] ++ opArithmetic.map (·, .single) ++
  opLogical.map (·, .single) ++ opComparison.map (·, .single) ++
  ["operator()".toList, "operator[]".toList].map (·, .single)

theorem reflectOp_decl (c : Members) (t intT : Ty) (n : Name) :
    reflectOp c n = declare (opDecl c t intT (n, .single)) := by
  unfold reflectOp opDecl opMember declare
  dsimp only
  generalize c n = l
  match l with
  | [] => rfl
  | [m] => rfl
  | _ :: _ :: _ => rfl

theorem reflectOps_decl (c : Members) (t intT : Ty) (ns : List Name) :
    reflectOps c ns = declare ((ns.map fun n => (n, OpKind.single)).flatMap (opDecl c t intT)) := by
  induction ns with
  | nil => rfl
  | cons n ns ih =>
    unfold reflectOps at ih ⊢
    simp only [List.flatMap_cons, List.map_cons, declare_append, ih, reflectOp_decl c t intT]

theorem reflectOpTyped_pre (c : Members) (t intT : Ty) (n : Name) :
    reflectOpTyped c n t ⟨t, .lvalue, false⟩ [] = declare (opDecl c t intT (n, .pre)) := by
  unfold reflectOpTyped opDecl opMember
  dsimp only
  generalize (c n).find? _ = o
  cases o <;> rfl

theorem reflectOpTyped_post (c : Members) (t intT : Ty) (n : Name) :
    reflectOpTyped c n t ⟨t, .copy, false⟩ [⟨intT, .copy, false⟩] =
      declare (opDecl c t intT (n, .post)) := by
  unfold reflectOpTyped opDecl opMember
  dsimp only
  generalize (c n).find? _ = o
  cases o <;> rfl

theorem reflectOperators_decl (c : Members) (t intT : Ty) :
    reflectOperators c t intT =
      declare (opKeys.flatMap (opDecl c t intT)) ++ reflectOp c "operator*".toList := by
  have ho : opOther = ["operator()".toList, "operator[]".toList] ++ ["operator*".toList] := rfl
  have happ : ∀ a b, reflectOps c (a ++ b) = reflectOps c a ++ reflectOps c b := fun a b => by
    simp [reflectOps]
  have hone : ∀ a, reflectOps c [a] = reflectOp c a := fun a => by simp [reflectOps]
  unfold reflectOperators reflectOpIncDec opKeys
  rw [ho, happ, hone]
  simp only [reflectOps_decl c t intT, reflectOpTyped_pre c t intT, reflectOpTyped_post c t intT,
    List.flatMap_append, declare_append, List.flatMap_cons, List.flatMap_nil, List.append_nil,
    List.append_assoc]

theorem opMember_args (c : Members) (t intT : Ty) (n : Name) (m : Member) :
    (opMember c t intT (n, .pre) = some m → m.args = []) ∧
    (opMember c t intT (n, .post) = some m → m.args = [⟨intT, .copy, false⟩]) := by
  constructor <;> intro h
  · have := List.find?_some h
    simp at this
    exact this.2.2.2
  · have := List.find?_some h
    simp at this
    exact this.2.2.2

theorem opKeys_apart : opKeys.Pairwise (fun k q => k.1 ≠ q.1 ∨ (k.2 = .pre ∧ q.2 = .post)) := by
  decide +kernel

theorem opDecls_noClash (e : Env) (c : Members) (t intT : Ty) :
    (opKeys.flatMap (opDecl c t intT)).Pairwise
      (fun p q => p.1 = q.1 → q.2.testFn e p.2 ≠ .exact) := by
  refine List.pairwise_flatMap.2 ⟨fun k _ => ?_, opKeys_apart.imp fun {k q} h p hp r hr hpr => ?_⟩
  · unfold opDecl
    cases opMember c t intT k <;> simp
  · obtain ⟨kn, kk⟩ := k
    obtain ⟨qn, qk⟩ := q
    unfold opDecl at hp hr
    cases hk : opMember c t intT (kn, kk) with
    | none => rw [hk] at hp; cases hp
    | some m =>
      cases hq : opMember c t intT (qn, qk) with
      | none => rw [hq] at hr; cases hr
      | some m' =>
        rw [hk] at hp; rw [hq] at hr
        rw [List.mem_singleton.1 hp, List.mem_singleton.1 hr] at hpr ⊢
        rcases h with h | ⟨h1, h2⟩
        · exact absurd hpr h
        · simp only at h1 h2
          subst h1 h2
          rw [testFn_arity]
          · simp
          · simp [Member.fn, Fn.make, Member.params, (opMember_args c t intT kn m).1 hk,
              (opMember_args c t intT qn m').2 hq]

theorem opDecl_declared (c : Members) (t intT : Ty) (k : Name × OpKind) (n : Name) :
    declared (opDecl c t intT k) n = if k.1 = n then (opDecl c t intT k).map (·.2) else [] := by
  unfold opDecl
  cases opMember c t intT k with
  | none => simp [declared]
  | some m =>
    by_cases h : k.1 = n <;> simp [declared, h]

theorem declared_flatMap (f : Name × OpKind → List (Name × Fn)) (ks : List (Name × OpKind)) (n : Name) :
    declared (ks.flatMap f) n = ks.flatMap fun k => declared (f k) n := by
  induction ks with
  | nil => rfl
  | cons k ks ih => simp only [List.flatMap_cons, declared_append, ih]

theorem ops_declared (c : Members) (t intT : Ty) (n : Name) :
    declared (opKeys.flatMap (opDecl c t intT)) n =
      (opKeys.filter fun k => k.1 = n).flatMap fun k => (opDecl c t intT k).map (·.2) := by
  rw [declared_flatMap]
  generalize opKeys = ks
  induction ks with
  | nil => rfl
  | cons k ks ih =>
    simp only [List.flatMap_cons, List.filter_cons, opDecl_declared] at ih ⊢
    by_cases h : k.1 = n <;> simp [h, ih]

end Reflect

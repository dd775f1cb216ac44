import Verif.Props.Match
import Verif.Model.TypeGraph
/-
  Runs of declarations that are all functions: which are accepted and what they leave.
-/
namespace Reflect

/-- the declarations of a list of named functions -/
def declare (l : List (Name × Fn)) : List TypeOp := l.map fun p => .addFunction p.1 p.2

/-- the functions declared under a name, in order -/
def declared (l : List (Name × Fn)) (n : Name) : List Fn :=
  (l.filter fun p => p.1 = n).map (·.2)

theorem declared_cons (p : Name × Fn) (l : List (Name × Fn)) (n : Name) :
    declared (p :: l) n = (if p.1 = n then [p.2] else []) ++ declared l n := by
  unfold declared
  by_cases h : p.1 = n <;> simp [h]

theorem declared_append (a b : List (Name × Fn)) (n : Name) :
    declared (a ++ b) n = declared a n ++ declared b n := by
  simp [declared]

theorem declare_append (a b : List (Name × Fn)) : declare (a ++ b) = declare a ++ declare b := by
  simp [declare]

/-- Nothing declared in `l` clashes with an earlier declaration of the same name, `old` being those
    before `l`. -/
def NoClash (e : Env) : (Name → List Fn) → List (Name × Fn) → Prop
  | _, [] => True
  | old, p :: l => (∀ g ∈ old p.1, p.2.testFn e g ≠ .exact) ∧
      NoClash e (fun n => old n ++ if p.1 = n then [p.2] else []) l

/-- Functions that clash with none before them are all accepted, and the table has exactly them
    in addition. -/
theorem runAll_declare (e : Env) : ∀ (l : List (Name × Fn)) (d : TypeD),
    (∀ p ∈ l, d.fields.get p.1 = none) →
    NoClash e (fun n => (d.fns.get n).getD []) l →
    ∃ fns, d.runAll e (declare l) = ({ d with fns := fns }, .ok ()) ∧
      ∀ n, fns.get n = if declared l n = [] then d.fns.get n
        else some ((d.fns.get n).getD [] ++ declared l n)
  | [], d, _, _ => ⟨d.fns, rfl, fun n => by simp [declared]⟩
  | (n, f) :: l, d, hf, hc => by
    obtain ⟨h1, h2⟩ := hc
    have hstep : d.step e (.addFunction n f) =
        ({ d with fns := d.fns.set n ((d.fns.get n).getD [] ++ [f]) }, .ok ()) := by
      have ha : Overloads.add e ((d.fns.get n).getD []) f = ((d.fns.get n).getD [] ++ [f], .ok ()) := by
        unfold Overloads.add
        rw [if_neg]
        intro h
        obtain ⟨g, hg, hx⟩ := List.any_eq_true.1 h
        exact h1 g hg (by simpa using hx)
      simp only [TypeD.step, TypeD.addFunction, hf (n, f) List.mem_cons_self, ha]
    have hold : ∀ m, ((d.fns.set n ((d.fns.get n).getD [] ++ [f])).get m).getD [] =
        (d.fns.get m).getD [] ++ if n = m then [f] else [] := by
      intro m
      rw [Assoc.get_set]
      by_cases hm : n = m
      · subst hm; simp
      · simp [hm]
    obtain ⟨fns, h3, h4⟩ := runAll_declare e l
      { d with fns := d.fns.set n ((d.fns.get n).getD [] ++ [f]) }
      (fun p hp => hf p (List.mem_cons_of_mem _ hp)) (by
        have : (fun m => ((d.fns.set n ((d.fns.get n).getD [] ++ [f])).get m).getD []) =
          fun m => (d.fns.get m).getD [] ++ if n = m then [f] else [] := funext hold
        simp only [this]
        exact h2)
    refine ⟨fns, ?_, fun m => ?_⟩
    · have : declare ((n, f) :: l) = .addFunction n f :: declare l := rfl
      rw [this, TypeD.runAll, hstep]
      exact h3
    · rw [h4 m, declared_cons]
      simp only [hold m]
      rw [Assoc.get_set]
      by_cases hm : n = m
      · subst hm
        simp
      · simp [hm]

theorem runAll_append (e : Env) : ∀ (a : List TypeOp) (d d' : TypeD) (b : List TypeOp),
    d.runAll e a = (d', .ok ()) → d.runAll e (a ++ b) = d'.runAll e b
  | [], d, d', b, h => by
    simp only [TypeD.runAll, Prod.mk.injEq, and_true] at h
    subst h; rfl
  | op :: a, d, d', b, h => by
    simp only [List.cons_append, TypeD.runAll] at h ⊢
    cases hs : (d.step e op).2 with
    | ok u =>
      rw [hs] at h
      exact runAll_append e a _ d' b h
    | error x => rw [hs] at h; simp at h

/-- A function matches itself exactly. -/
theorem testFn_self (e : Env) (f : Fn) : f.testFn e f = .exact := by
  have ha : testArguments e f.args f.args = .exact := by
    unfold testArguments
    rw [if_neg (by simp)]
    generalize f.args = l
    induction l with
    | nil => rfl
    | cons a l ih => simp [testArgumentsLoop, convertible_same, combine, ih]
  have hr : testReturn e f.ret f.ret = .exact := by
    unfold testReturn
    by_cases h : f.ret.type = e.voidT
    · rw [if_pos h]
    · rw [if_neg h, if_neg h, convertible_same, if_neg (by decide), if_neg]
      unfold Arg.isTemporary Arg.isConstRef
      cases f.ret.ref <;> simp
  unfold Fn.testFn
  rw [ha, hr]; rfl

/-- Functions of different arity never clash. -/
theorem testFn_arity (e : Env) (f g : Fn) (h : g.args.length ≠ f.args.length) :
    f.testFn e g = .none := by
  unfold Fn.testFn testArguments
  rw [if_pos h]
  unfold combine
  simp

end Reflect

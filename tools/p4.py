f='/verif/lean/Verif/Lemmas/Print.lean'
s=open(f).read()
s=s.replace("""  obtain ⟨i, k, r⟩ := a
  unfold suffixT
  cases k <;> cases r <;> dsimp only <;> decide
""","""  have key : ∀ (k : Bool) (r : RefType), ∀ c ∈ ((if k then " const".toList else []) ++
      ((if r = .lvalue then "&".toList else []) ++ (if r = .rvalue then "&&".toList else []))),
      c ≠ ',' ∧ c ≠ '(' ∧ c ≠ '\\n' ∧ c ≠ '[' := by
    intro k r
    cases k <;> cases r <;> decide
  exact key a.isConst a.ref
""")
open(f,'w').write(s)

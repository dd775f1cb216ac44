f='/verif/lean/Verif/Lemmas/Print.lean'
s=open(f).read()
s=s.replace("""  obtain ⟨i, k, r⟩ := a
  cases k <;> cases r <;> decide
""","""  obtain ⟨i, k, r⟩ := a
  unfold suffixT
  cases k <;> cases r <;> decide
""")
s=s.replace("""    rw [hs] at e
    simp only [Option.or_some, Option.some.injEq] at e
    subst e
""","""    rw [hs] at e
    have e : some c = some ',' := e
    obtain rfl := Option.some.inj e
""")
s=s.replace("""  rw [argText_inj hs.1 ht.1 h1, argsT_inj hs.2 ht.2 (List.append_cancel_right h2)]
""","""  have h3 : r = r' := argText_inj hs.1 ht.1 h1
  have h4 : as = as' := argsT_inj hs.2 ht.2 (List.append_cancel_right h2)
  rw [h3, h4]
""")
open(f,'w').write(s)

f='/verif/lean/Verif/Lemmas/Print.lean'
s=open(f).read()
s=s.replace("""  unfold suffixT
  cases k <;> cases r <;> decide
""","""  unfold suffixT
  cases k <;> cases r <;> dsimp only <;> decide
""")
open(f,'w').write(s)

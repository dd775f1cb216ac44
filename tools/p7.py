f='/verif/lean/Verif/Lemmas/PrintType.lean'
s=open(f).read()
s=s.replace("""    simp only [List.append_assoc, List.append_nil]
    rfl
theorem kidsText_lines""","""    simp only [List.append_assoc, List.append_nil]
theorem kidsText_lines""")
open(f,'w').write(s)

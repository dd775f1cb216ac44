f='/verif/lean/Verif/Lemmas/PrintType.lean'
s=open(f).read()
s=s.replace("""        _ := by
      rw [List.map_map]
""","""        fns.flatMap (fun f => spaces (j + 4) ++ f.1 ++ ":\\n".toList ++ overloadsText ids (j + 4 + 4) [] f.2) := by
      rw [List.map_map]
""")
open(f,'w').write(s)

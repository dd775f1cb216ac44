import re
f='/verif/lean/Verif/Props/Print.lean'
s=open(f).read()
s=re.sub(r"⟨(\d), (true|false), \.(\w+)⟩",r"⟨\1, .\3, \2⟩",s)
s=s.replace("{ ret := ","{ name := \"f\".toList, arity := 2, ret := ")
s=s.replace("""/-- Two functions of one name and without clash are never shown alike: with distinct names for distinct
    types, equal text means the same signature. -/""","""/-- With distinct names for distinct types, functions shown alike have the same signature. -/""")
s=s.replace('''"int(A const&, int&&)".toList := by decide
''','''"int(A const&, int&&)".toList := by decide +kernel
''')
s=s.replace('''example : typeTextF exTbl''','''example : ∀ u ∈ [2, 3], (typeView exTbl u).Named := by
  intro u hu
  have hw : Word "x".toList ∧ Word "y".toList := by unfold Word; decide
  simp only [List.mem_cons, List.not_mem_nil, or_false] at hu
  rcases hu with rfl | rfl
  · refine ⟨plain (.inr (.inl rfl)), ?_, ?_, ?_⟩
    · intro x hx; simp [typeView, exTbl, exA, Traits.names] at hx
    · intro f hf; simp [typeView, exTbl, exA, TypeD.new, sortedFields] at hf
    · intro f hf; simp [typeView, exTbl, exA, TypeD.new] at hf
  · refine ⟨plain (.inr (.inr rfl)), ?_, ?_, ?_⟩
    · intro x hx; simp [typeView, exTbl, exB, Traits.names] at hx
    · intro f hf
      simp only [typeView, sortedFields, List.mem_map] at hf
      obtain ⟨g, hg, rfl⟩ := hf
      rw [List.mem_mergeSort] at hg
      have hg : g ∈ [("y".toList, (⟨⟨1, .copy, false⟩, 8⟩ : FieldD)), ("x".toList, ⟨⟨1, .copy, true⟩, 0⟩)] := hg
      simp only [List.mem_cons, List.not_mem_nil, or_false] at hg
      rcases hg with rfl | rfl
      · exact ⟨plain (.inl rfl), hw.2, by intro x hx; simp [Noted.fieldTraits, exTbl, exB, Traits.names, Assoc.get] at hx⟩
      · exact ⟨plain (.inl rfl), hw.1, by intro x hx; simp [Noted.fieldTraits, exTbl, exB, Traits.names, Assoc.get] at hx⟩
    · intro f hf
      have hf : f ∈ [(⟨"f".toList, [], [sigView (fun u => (exTbl u).d.id) exFn.ret exFn.args]⟩ : FnView)] := hf
      rw [List.mem_singleton] at hf
      subst hf
      refine ⟨⟨by decide, by decide, by decide, ?_, ?_, ?_, ?_⟩, by simp, ?_⟩
      · intro a e; simp at e
      · intro a e; simp at e
      · intro a e; simp at e
      · intro a e; simp at e
      · intro s hs
        rw [List.mem_singleton] at hs
        subst hs
        refine ⟨plain (.inl rfl), ?_⟩
        intro a ha
        simp only [sigView, exFn, List.map_cons, List.map_nil, List.mem_cons, List.not_mem_nil, or_false] at ha
        rcases ha with rfl | rfl
        · exact plain (.inr (.inl rfl))
        · exact plain (.inl rfl)

example : typeTextF exTbl''')
open(f,'w').write(s)

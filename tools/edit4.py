f='/verif/lean/Verif/Lemmas/Json/Place.lean'
s=open(f).read()
a=s.index("  have hGO : ∀ y, G y →"); b=s.index("  have hGm : ∀ y, G y →")
body=s[a:b]
c=s.index("theorem map_set")
core=body.split(":= by\n",1)[1]
core="\n".join(l[2:] if l.startswith("  ") else l for l in core.split("\n"))
lem='''/-- what the old value at a key lets go of was part of the map -/
theorem letsgo_core (hL : L.Sound p N) {h h1 : Heap} {t e : Ty} {K : MapKind} {a r : Nat} {m : List (Bytes × JV)} {k : Bytes}
    {G : Nat → Prop} {B : Bytes → Nat} {Os : Bytes → Nat → Prop} (hl : L t = .map e K) (g2 : h.IsMap K a)
    (g4 : ∀ d ∈ h.nodes a, ∃ k, (Assoc.get m k).isSome ∧ h.cells d K.key = keyCells p N k)
    (g5 : ∀ k, (Assoc.get m k).isSome → h.ValueAt K a (keyCells p N k) (B k))
    (g6 : ∀ k x, Assoc.get m k = some x → Rep p N L h e (B k) x (Os k))
    (hm1 : h1.IsMap K a) (hv1 : h1.ValueAt K a (keyCells p N k) r)
    (hlk0 : h1.lookup K a (keyCells p N k) = some ((h.lookup K a (keyCells p N k)).getD ((List.range K.val).map K.init)))
    (hva : ∀ k' c, h.ValueAt K a k' c → h1.ValueAt K a k' c)
    (hG : ∀ y, G y → ∃ e' n, L e = .ptr e' n ∧ (∀ j, K.init j = 0) ∧ (h1.mem r ≠ 0 ∨ (n = 2 ∧ h1.mem (r + 1) ≠ 0)) ∧ Heap.Keeps h1 n r y) :
    ∀ y, G y → (Assoc.get m k).isSome ∧ Os k y := by
  obtain ⟨s1, s2, s3⟩ := hL.map t e K hl
'''+core.rstrip()+'''

theorem map_letsgo (hL : L.Sound p N) {h h1 : Heap} {t e : Ty} {K : MapKind} {a r : Nat} {m : List (Bytes × JV)} {k : Bytes}
    {O G : Nat → Prop} (hl : L t = .map e K) (hr : Rep p N L h t a (.map m) O)
    (hm1 : h1.IsMap K a) (hv1 : h1.ValueAt K a (keyCells p N k) r)
    (hlk0 : h1.lookup K a (keyCells p N k) = some ((h.lookup K a (keyCells p N k)).getD ((List.range K.val).map K.init)))
    (hva : ∀ k' c, h.ValueAt K a k' c → h1.ValueAt K a k' c)
    (hmine : ∀ y < h.next, h1.InMap K a y → h.InMap K a y)
    (hG : ∀ y, G y → ∃ e' n, L e = .ptr e' n ∧ (∀ j, K.init j = 0) ∧ (h1.mem r ≠ 0 ∨ (n = 2 ∧ h1.mem (r + 1) ≠ 0)) ∧ Heap.Keeps h1 n r y) :
    ∀ y, G y → ¬ h1.InMap K a y := by
  obtain ⟨r1, r2⟩ := hr.own hL
  cases hr with
  | scalar _ _ _ cells cs _ h1 => rw [hl] at h1; cases h1
  | map _ _ e' K' _ B Os _ g1 g2 g3 g4 g5 g6 g7 g8 g9 =>
  rw [hl] at g1; cases g1
  intro y hy
  obtain ⟨z1, z2⟩ := letsgo_core hL hl g2 g4 g5 g6 hm1 hv1 hlk0 hva hG y hy
  have q1 := (r2 y ((g9 y).2 (Or.inr ⟨k, z1, z2⟩))).1
  exact fun c => g7 k y z1 z2 (hmine y q1 c)

'''
s=s[:c]+lem+s[c:a]+"  have hGO := letsgo_core hL hl g2 g4 g5 g6 hm1 hv1 hlk0 hva hG\n"+s[b:]
open(f,'w').write(s)
f='/verif/lean/Verif/Props/JsonPlaceCalls.lean'
s=open(f).read()
a=s.index("/-- moving a value of a type that can be")
t=s[a:]
t=t.replace("""(hG : ∀ y, LetsGo L h t q.addr y → ¬ OwnCell p t q.addr y) :""","""(hG : ∀ y, ¬ Moves p t ∧ LetsGo L h t q.addr y → ¬ OwnCell p t q.addr y) :""",1)
t=t.replace("¬ LetsGo L h t q.addr y → h'.mem","¬ (¬ Moves p t ∧ LetsGo L h t q.addr y) → h'.mem",1)
t=t.replace("""  rcases hP with lm | ⟨e, n, raw, hP⟩
""","""  by_cases lm : Moves p t
""",1)
t=t.replace("""  · exact pointer_moved hL hP fuel h q r hq hr hokq hokr hap hG
""","""  · obtain ⟨e, n, raw, hP⟩ := hP.resolve_left lm
    obtain ⟨h4, d1, d2, d3, d4⟩ := pointer_moved hL hP fuel h q r hq hr hokq hokr hap (fun y hy => hG y ⟨lm, hy⟩)
    exact ⟨h4, d1, d2, fun y z1 z2 z3 z4 => d3 y z1 z2 z3 fun c => z4 ⟨lm, c⟩, d4⟩
""")
s=s[:a]+t
open(f,'w').write(s)
f='/verif/lean/Verif/Props/JsonPlace.lean'
s=open(f).read()
s=s.replace("have hgo : ∀ y, LetsGo L h3 t ref.addr y →","have hgo : ∀ y, ¬ Moves p t ∧ LetsGo L h3 t ref.addr y →")
s=s.replace("rintro y ⟨e', n', z1, z2, z3⟩\n                refine","rintro y ⟨z0, e', n', z1, z2, z3⟩\n                refine")
s=s.replace("exact absurd z1 (lm' lm e' n')","exact absurd lm z0")
s=s.replace("obtain ⟨g1, g2⟩ := map_letsgo","have g2 := map_letsgo").replace("(G := LetsGo L h3 t ref.addr)","(G := fun y => ¬ Moves p t ∧ LetsGo L h3 t ref.addr y)")
open(f,'w').write(s)

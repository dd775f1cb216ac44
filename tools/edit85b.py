P='/verif/lean/Verif/Props/Vector.lean'
s=open(P).read()
def r(a,b,n=1):
    global s
    assert s.count(a)==n,(a,s.count(a)); s=s.replace(a,b)
r("e0 ⟨e1, by show k.addr + 1 ≤ _; omega⟩","e0\n    (show h.Ok k.addr 1 from ⟨e1, by omega⟩)")
r("""        simp only [VecCall.all, hs]
        rfl
""","""        simp only [VecCall.all, hs]
        trivial
""")
r("main cs hp _ ⟨hv,","main cs hp (hp.mem, hp.elems (p.size elem) o.addr) ⟨hv,")
r("""  | 5, hp, [.obj v _] => vecSize hp v
  | 6, hp""","""  | 2, hp, [.obj a true, .obj b _] => (hp.assignObj 2 a b).map fun h => (h, .obj a)
  | 4, hp, [.obj a true, .obj b _] => (hp.moveAssignObj (fun _ => 0) 2 a b).map fun h => (h, .obj a)
  | 5, hp, [.obj v _] => vecSize hp v
  | 6, hp""")
i=s.index("theorem ready :"); j=s.index("/-- the elements after the calls -/")
s=s[:i]+'''/-- the number 0 -/
def z : Handle := ⟨Ty.lref 4, 14, none⟩

theorem assignE : Assignable prog 3 3 true true :=
  C71_plumbed_assignable prog 3 3 all (by decide) (by decide) (by decide) (by decide +kernel) (by decide +kernel) (by decide) (by rfl)
    (fun _ _ _ _ => rfl) (fun _ _ _ _ => rfl)

theorem readyPush : VecCall.Ready prog heap 3 4 v.addr (.push e) :=
  ⟨copiedE, by decide, fun j _ => outside _ (Nat.le_trans (by decide) (Nat.le_add_right e.addr j))⟩
theorem readyMoved : VecCall.Ready prog heap 3 4 v.addr (.pushMoved e) :=
  ⟨⟨by decide, by decide +kernel, by decide +kernel, by decide⟩, readyPush.2⟩
theorem readySet : VecCall.Ready prog heap 3 4 v.addr (.set z e) :=
  ⟨⟨⟨by decide, by decide +kernel, by decide +kernel, by decide⟩, by decide, outside _ (by decide)⟩, readyPush⟩
theorem readyResize : VecCall.Ready prog heap 3 4 v.addr (.resize k) := ⟨copiedK, by decide, outside _ (by decide)⟩
theorem can (c : VecCall) : c.Can prog 3 (∃ move, Assignable prog 3 3 true move) := by
  cases c with
  | pushMoved x => exact ⟨rfl, by decide +kernel⟩
  | set i x => exact ⟨true, assignE⟩
  | _ => trivial

/-- a history that is defined, and one that is not -/
def good : List VecCall := [.push e, .set z e, .resize k, .pushMoved e, .push e]
def bad : List VecCall := [.clear, .set z e]
theorem readyGood : ∀ c ∈ good, c.Ready prog heap 3 4 v.addr := by
  intro c hc
  simp only [good, List.mem_cons, List.not_mem_nil, or_false] at hc
  rcases hc with rfl | rfl | rfl | rfl | rfl
  · exact readyPush
  · exact readySet
  · exact readyResize
  · exact readyMoved
  · exact readyPush
theorem readyBad : ∀ c ∈ bad, c.Ready prog heap 3 4 v.addr := by
  intro c hc
  simp only [bad, List.mem_cons, List.not_mem_nil, or_false] at hc
  rcases hc with rfl | rfl
  · trivial
  · exact readySet

'''+s[j:]
i=s.index("example : ∃ hp', VecCall.all prog 2 v heap ["); j=s.index("example : after [.push e, .push e] =")
s=s[:i]+'''example : ∃ hp', VecCall.all prog 2 v heap good = .ok hp' ∧
    hp'.elems 2 1 = [[5, 6], [5, 6], [0, 0], [5, 6], [0, 0]] ∧ hp'.mem 10 = 0 := by
  obtain ⟨hp', h1, -, h3, -, h5⟩ := C85_history (vec 5 (by decide)) 0 good v rfl ⟨rfl, rfl⟩ heap isVec readyGood (fun c _ => can c)
  exact ⟨hp', h1, h3.trans (by decide), (h5 10 (by decide) (outside _ (by decide))).1.trans (by decide)⟩
example : VecCall.all prog 2 v heap bad = .error .ub :=
  C85_history (vec 5 (by decide)) 0 bad v rfl ⟨rfl, rfl⟩ heap isVec readyBad (fun c _ => can c)
example : after good = some [[5, 6], [5, 6], [0, 0], [5, 6], [0, 0]] := by decide +kernel
/-- an element assigned to another: `v[0].assign(v[1])` -/
example : after [.push e, .set z ⟨Ty.lref 3, 7, none⟩] = some [[5, 6], [5, 6]] := by decide +kernel
'''+s[j:]
open(P,'w').write(s)

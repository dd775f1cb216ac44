f='/verif/lean/Verif/Props/JsonPlace.lean'
s=open(f).read()
def rep(a,b):
    global s
    assert s.count(a)==1,(s.count(a),a)
    s=s.replace(a,b)
rep("13 std::shared_ptr<int64_t>, 14 int64_t* -/","13 std::shared_ptr<int64_t>, 14 int64_t*,\n15 std::map<std::string, std::shared_ptr<int64_t>> -/")
rep("def tOther : TyD := { isVoid := true }","def tMapP : TyD := { isMap := true, valueType := some 13, make := some (.map []), alloc := true }\ndef tOther : TyD := { isVoid := true }")
rep("tUni, tOther, tSh], fmtG","tUni, tOther, tSh, tOther, tMapP], fmtG")
rep("/-- the default constructor, the copy and the move constructor, and the assignments, with bodies","/-- a `std::map` from strings to pointers -/\ndef kindP : MapKind := ⟨1, 2, some keyLess, fun _ ns => ns, fun _ => 0⟩\n\n/-- the default constructor, the copy and the move constructor, and the assignments, with bodies")
rep("{ n := 15, voidT","{ n := 16, voidT")
rep("      | _ => TypeD.new ['o'] }","""      | 15 => { TypeD.new ['q'] with fns := ops 15 ['q'] 40 ++ [
          ("size".toList, [fn "size" (Ty.val 7) [Ty.cref 15] 60]), ("count".toList, [fn "count" (Ty.val 7) [Ty.cref 15, Ty.cref 3] 121]),
          ("operator[]".toList, [fn "operator[]" (Ty.lref 13) [Ty.lref 15, Ty.cref 3] 122]),
          ("at".toList, [fn "at" (Ty.cref 13) [Ty.cref 15, Ty.cref 3] 123]), ("keys".toList, [fn "keys" (Ty.val 8) [Ty.cref 15] 124])] }
      | _ => TypeD.new ['o'] }""")
rep("    | _, _ => .error .ub\n\ndef prog","""    | 121, [.obj m _, .obj k _] => mapCount kindP hp m k
    | 122, [.obj m _, .obj k _] => mapIndex kindP hp m k
    | 123, [.obj m _, .obj k _] => mapAt kindP hp m k
    | 124, [.obj m _] => mapKeys kindP hp m
    | _, _ => .error .ub

def prog""")
rep("| 13 => 2 | _ => 1, caps","| 13 => 2 | 15 => 2 | _ => 1, caps")
rep("  | 13 => .ptr 2 2\n  | _ =>","  | 13 => .ptr 2 2\n  | 15 => .map 13 kindP\n  | _ =>")
rep("""    split at h <;> cases h
    exact ⟨rfl, rfl, rfl⟩
""","""    split at h <;> cases h <;> exact ⟨rfl, rfl, rfl⟩
""")
a=s.index("end PlaceDemo")
s=s[:a]+'''/-! a map of pointers -/

theorem mapP : ReflectedMap prog 15 15 3 13 8 7 kindP := by
  refine ⟨by decide, by decide, by decide +kernel, by decide +kernel, by decide +kernel, ⟨rfl, rfl⟩, fun _ _ => .refl _,
    by rintro _ ⟨⟩; exact keyLess_order, plainSize, rfl,
    by decide +kernel, ⟨rfl, Or.inl rfl⟩,
    ⟨fn "size" (Ty.val 7) [Ty.cref 15] 60, by decide +kernel, rfl, rfl, fun _ _ _ => rfl⟩,
    ⟨fn "count" (Ty.val 7) [Ty.cref 15, Ty.cref 3] 121, by decide +kernel, rfl, rfl, fun _ _ _ _ _ => rfl⟩,
    ⟨fn "operator[]" (Ty.lref 13) [Ty.lref 15, Ty.cref 3] 122, by decide +kernel, rfl, rfl, fun _ _ _ _ _ => rfl⟩,
    ⟨fn "at" (Ty.cref 13) [Ty.cref 15, Ty.cref 3] 123, by decide +kernel, rfl, rfl, fun _ _ _ _ _ => rfl⟩,
    ⟨fn "keys" (Ty.val 8) [Ty.cref 15] 124, by decide +kernel, rfl, rfl, fun _ _ _ => rfl⟩⟩

theorem elem13 : Element prog native layout env 13 := by
  refine ⟨⟨by decide +kernel, rfl, by decide, by decide, by decide +kernel⟩, fun d hd => ?_⟩
  cases hd
  refine ⟨by decide, [Fn.make ['h'] (Ty.val 13) [] 90, Fn.make ['h'] (Ty.val 13) [Ty.cref 13] 91, Fn.make ['h'] (Ty.val 13) [Ty.rref 13] 93,
    Fn.make ['h'] (Ty.val 13) [Ty.val 14] 95], Fn.make ['h'] (Ty.val 13) [] 90, fun _ => 0, by decide +kernel, List.mem_cons_self, rfl, rfl, ?_, fun _ => rfl, ?_⟩
  · intro g hg ha
    simp only [List.mem_cons, List.not_mem_nil, or_false] at hg
    rcases hg with rfl | rfl | rfl | rfl
    · rfl
    · cases ha
    · cases ha
    · cases ha
  · intro h a hok h0
    exact .null 13 a 2 2 _ rfl hok (h0 0 (by decide)) (fun _ => h0 1 (by decide)) (fun _ h => h)

theorem has15 : env.Has 15 tMapP (.map 13) := ⟨rfl, .map 13 rfl rfl⟩

def TP (ty : TyId) : Prop := ty = 2 ∨ ty = 13 ∨ ty = 15

theorem kindsP {ty : TyId} {d : TyD} {sh : Shape} (hT : TP ty) (h : env.Has ty d sh) :
    (ty = 2 ∧ d = tInt ∧ sh = .int) ∨ (ty = 13 ∧ d = tSh ∧ sh = .ptr 2) ∨ (ty = 15 ∧ d = tMapP ∧ sh = .map 13) := by
  rcases hT with rfl | rfl | rfl
  · have := has_unique h has2; simp [this]
  · have := has_unique h has13; simp [this]
  · have := has_unique h has15; simp [this]

theorem closedP : env.Closed TP := by
  refine ⟨?_, ?_, ?_, ?_, ?_, ?_⟩
  · intro ty hT
    rcases hT with rfl | rfl | rfl
    · exact ⟨_, _, has2⟩
    · exact ⟨_, _, has13⟩
    · exact ⟨_, _, has15⟩
  · intro ty d t hT h
    rcases kindsP hT h with ⟨-, -, c⟩ | ⟨-, -, c⟩ | ⟨-, -, c⟩ <;> cases c <;> simp [TP]
  · intro ty d t hT h
    rcases kindsP hT h with ⟨-, -, c⟩ | ⟨-, -, c⟩ | ⟨-, -, c⟩ <;> cases c
  · intro ty d t hT h
    rcases kindsP hT h with ⟨-, -, c⟩ | ⟨-, -, c⟩ | ⟨-, -, c⟩ <;> cases c <;> simp [TP]
  · intro ty d f hT h
    rcases kindsP hT h with ⟨-, -, c⟩ | ⟨-, -, c⟩ | ⟨-, -, c⟩ <;> cases c
  · intro ty d hT h
    rcases kindsP hT h with ⟨-, -, c⟩ | ⟨-, -, c⟩ | ⟨-, -, c⟩ <;> cases c

theorem backedP : Backed prog native layout env smart TP := by
  refine ⟨sound, ?_, ?_, ?_, ?_, ?_, ?_, ?_, ?_, ?_⟩
  · intro ty d hT h
    rcases kindsP hT h with ⟨-, -, c⟩ | ⟨-, -, c⟩ | ⟨-, -, c⟩ <;> cases c
  · intro ty d t hT h
    rcases kindsP hT h with ⟨-, -, c⟩ | ⟨rfl, -, c⟩ | ⟨-, -, c⟩ <;> cases c
    exact ⟨2, 14, points13⟩
  · intro ty d hT h
    rcases kindsP hT h with ⟨-, -, c⟩ | ⟨-, -, c⟩ | ⟨-, -, c⟩ <;> cases c
  · intro ty d hT h
    rcases kindsP hT h with ⟨rfl, rfl, -⟩ | ⟨-, -, c⟩ | ⟨-, -, c⟩ <;> try cases c
    exact ⟨moves 2 (by simp), by decide, ⟨_, rfl, fun _ => ⟨rfl, fun _ hx => if_pos hx⟩⟩, fun c => by cases c⟩
  · intro ty d hT h
    rcases kindsP hT h with ⟨-, -, c⟩ | ⟨-, -, c⟩ | ⟨-, -, c⟩ <;> cases c
  · intro ty d hT h
    rcases kindsP hT h with ⟨-, -, c⟩ | ⟨-, -, c⟩ | ⟨-, -, c⟩ <;> cases c
  · intro ty d t hT h
    rcases kindsP hT h with ⟨-, -, c⟩ | ⟨-, -, c⟩ | ⟨-, -, c⟩ <;> cases c
  · intro ty d t hT h
    rcases kindsP hT h with ⟨-, -, c⟩ | ⟨-, -, c⟩ | ⟨rfl, rfl, c⟩ <;> cases c
    exact ⟨_, rfl, elem13, Or.inr ⟨2, 2, 14, points13, fun _ => rfl⟩, _, _, mapP⟩
  · intro ty d hT h
    rcases kindsP hT h with ⟨-, -, c⟩ | ⟨-, -, c⟩ | ⟨-, -, c⟩ <;> cases c

/-- a map at 1 without entries, and another object at 4 -/
def heapP : Heap := { next := 6, mem := fun y => if y = 4 then 77 else 0 }

theorem rep_emptyP {h : Heap} {a : Nat} (hok : h.Ok a 2) (h0 : ∀ j < 2, h.mem (a + j) = 0) :
    Rep prog native layout h 15 a (.map []) fun _ => False := by
  have e1 := h0 1 (by omega)
  have hn : h.nodes a = [] := by unfold Heap.nodes; rw [e1]; rfl
  refine .map 15 a 13 kindP [] (fun _ => 0) (fun _ _ => False) _ rfl ⟨hok, Or.inr e1, Or.inr (Or.inr e1), ?_, ?_, ?_, ?_⟩ (by unfold Ordered; decide) ?_ ?_ ?_ ?_ ?_ fun y => ?_
  · rw [hn]; intro d hd; cases hd
  · rw [hn]; exact .nil
  · rw [hn]; exact .nil
  · rw [hn]; intro _ _; exact .nil
  · rw [hn]; intro d hd; cases hd
  · intro k hk; cases hk
  · intro k x hx; cases hx
  · intro k y hk; cases hk
  · intro k k' y hk; cases hk
  · constructor
    · exact False.elim
    · rintro (⟨q1, q2⟩ | ⟨k, hk, -⟩)
      · refine q2 ?_
        rcases q1 with q | q | ⟨d, hd, -⟩
        · exact q
        · rw [e1] at q; omega
        · rw [hn] at hd; cases hd
      · cases hk

/-- `{"k":4,"j":null,"k":5}` -/
def textP : Bytes := [123, 34, 107, 34, 58, 52, 44, 34, 106, 34, 58, 110, 117, 108, 108, 44, 34, 107, 34, 58, 53, 125]

def docP : JTree := .obj [([107], .int [52]), ([106], .null), ([107], .int [53])]

theorem textP_reads : ∃ y, Reads ROpts.default textP docP.toks y := by
  obtain ⟨y, h, _⟩ := spells_of ROpts.default textP docP.toks 60 (by decide +kernel)
  exact ⟨y, h⟩

/-- The pointer to 4 is replaced by one to 5, which takes the object with it. -/
theorem loadP : Load env 15 (.map []) docP (.map [([106], .null), ([107], .ptr (.int 5))]) := by
  have i4 : IntVal [52] 4 := Ex.intVal1 52 4 (Dec.snoc [] 0 4 .nil (by decide)) (by decide)
  have i5 : IntVal [53] 5 := Ex.intVal1 53 5 (Dec.snoc [] 0 5 .nil (by decide)) (by decide)
  exact .map 15 _ 13 _ _ _ has15
    (.cons 13 _ .null _ _ _ (.ptr (.int 4)) _ _ rfl rfl (.ptrNew 13 _ 2 tInt (.int 0) _ _ has13 (by simp) rfl rfl rfl (.int 2 _ _ _ 4 has2 rfl i4))
      (.cons 13 _ .null _ _ _ .null _ _ rfl rfl (.ptrNull 13 _ 2 _ has13)
        (.cons 13 _ .null _ _ _ (.ptr (.int 5)) _ _ rfl rfl (.ptrNew 13 _ 2 tInt (.int 0) _ _ has13 (by simp) rfl rfl rfl (.int 2 _ _ _ 5 has2 rfl i5))
          (.nil _ _))))

example (other : Other) : ∃ n hp' O' r,
    (parseMem prog native smart other env 2 n [] 15 ⟨Ty.lref 15, 1, none⟩ heapP (Reader.open ROpts.default textP)).1 = .ok (⟨Ty.lref 15, 1, none⟩, hp', r) ∧
      r.err = none ∧ Rep prog native layout hp' 15 1 (.map [([106], .null), ([107], .ptr (.int 5))]) O' ∧ hp'.mem 4 = 77 := by
  obtain ⟨y, h⟩ := textP_reads
  obtain ⟨n, hn⟩ := C88_document backedP closedP (namedB_spec (by decide)) .fresh other 0 15 (by simp [TP]) ⟨Ty.lref 15, 1, none⟩ rfl heapP (.map []) _
    (fun _ => False) (rep_emptyP ⟨by decide, by decide⟩ fun j hj => by simp only [heapP]; rw [if_neg (by omega)]) ROpts.default textP y docP h loadP
  obtain ⟨hp', O', r, h1, h2, -, h3⟩ := hn n (Nat.le_refl _)
  refine ⟨n, hp', O', r, h1, h2, h3.rep, ?_⟩
  rw [h3.same 4 (by decide) (by unfold OwnCell; decide) (fun h => h)]
  rfl

'''+s[a:]
open(f,'w').write(s)

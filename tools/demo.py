f='/verif/lean/Verif/Props/JsonPlace.lean'
s=open(f).read()
s=s.replace("""      | 3 => { TypeD.new ['s'] with fns := ops 3 ['s'] 20 }""","""      | 3 => { TypeD.new ['s'] with fns := ops 3 ['s'] 20 ++ [("size".toList, [fn "size" (Ty.val 7) [Ty.cref 3] 118])] }""")
s=s.replace("""      | 9 => { TypeD.new "bool".toList""","""      | 8 => { TypeD.new ['k'] with fns := ops 8 ['k'] 30 }
      | 9 => { TypeD.new "bool".toList""")
s=s.replace("""    | 117, [.obj a _] => newMoveBody (fun _ => 0) 1 hp a
    | _, _ => .error .ub
""","""    | 117, [.obj a _] => newMoveBody (fun _ => 0) 1 hp a
    | 118, [.obj a _] => let q := hp.newObj (fun _ => (decode (hp.mem a) (hp.mem a)).length) 1; .ok (q.1, .obj q.2)
    | _, _ => .error .ub
""")
s=s.replace("""def native : Native := ⟨9""","""/-- the other way around, by at most as many steps as the first number says -/
def decode : Nat → Nat → Bytes
  | 0, _ => []
  | _ + 1, 0 => []
  | f + 1, n + 1 => UInt8.ofNat (n % 256) :: decode f (n / 256)

theorem decode_code : ∀ (s : Bytes) (f : Nat), s.length ≤ f → decode f (code s) = s
  | [], 0, _ => rfl
  | [], f + 1, _ => rfl
  | b :: bs, 0, h => by simp at h
  | b :: bs, f + 1, h => by
    have hb := b.toNat_lt
    simp only [code, decode]
    rw [show (code bs * 256 + b.toNat) % 256 = b.toNat by omega, show (code bs * 256 + b.toNat) / 256 = code bs by omega,
      UInt8.ofNat_toNat, decode_code bs f (by simp at h; omega)]

theorem code_length : ∀ s : Bytes, s.length ≤ code s
  | [] => Nat.le_refl _
  | b :: bs => by
    have := code_length bs
    simp only [code, List.length_cons]
    omega

def native : Native := ⟨9""")
open(f,'w').write(s)
f='/verif/lean/Verif/Props/JsonPlacePrint.lean'
s=open(f).read()
i=s.rindex("end Reflect.Json")
s=s[:i]+'''/-! ### an example -/

namespace PlaceDemo

def nativeW : NativeW :=
  { native with
    sizeT := 7, keysT := 8, toBool := fun l => l.headD 0 != 0, toInt := fun l => if l.headD 0 < 2 ^ 63 then (l.headD 0 : Int) else (l.headD 0 : Int) - 2 ^ 64
    toFlt := fun l => UInt64.ofNat (l.headD 0), toStr := fun l => decode (l.headD 0) (l.headD 0) }

theorem plain2 (t : Ty) (id : Name) (b : Nat) (ht : (t = 2 ∧ id = ['i'] ∧ b = 20) ∨ (t = 3 ∧ id = ['s'] ∧ b = 20) ∨ (t = 8 ∧ id = ['k'] ∧ b = 30)) :
    PlainCopy prog t ∧ prog.w.env.conv t t = false := by
  have hb : ∀ hp a m, hp.Ok a (prog.size t) → prog.impl (b + 1) hp [.obj a m] = (hp.copyObj (prog.size t) a).map fun r => (r.1, .obj r.2) := by
    intro hp a m _
    rcases ht with ⟨rfl, -, rfl⟩ | ⟨rfl, -, rfl⟩ | ⟨rfl, -, rfl⟩ <;> rfl
  have hb' : ∀ hp a m, hp.Ok a (prog.size t) → prog.impl (b + 3) hp [.obj a m] = (hp.moveObj (prog.moved t) (prog.size t) a).map fun r => (r.1, .obj r.2) := by
    intro hp a m _
    rcases ht with ⟨rfl, -, rfl⟩ | ⟨rfl, -, rfl⟩ | ⟨rfl, -, rfl⟩ <;> rfl
  refine ⟨⟨?_, ?_, by decide, ?_, rfl, rfl, [Fn.make id t.val [] b], Fn.make id t.val [t.cref] (b + 1), [Fn.make id t.val [t.rref] (b + 3)], ?_, ⟨rfl, rfl, hb⟩, ?_⟩, ?_⟩
  · rcases ht with ⟨rfl, -⟩ | ⟨rfl, -⟩ | ⟨rfl, -⟩ <;> decide
  · rcases ht with ⟨rfl, -⟩ | ⟨rfl, -⟩ | ⟨rfl, -⟩ <;> decide
  · rcases ht with ⟨rfl, -⟩ | ⟨rfl, -⟩ | ⟨rfl, -⟩ <;> decide +kernel
  · rcases ht with ⟨rfl, rfl, rfl⟩ | ⟨rfl, rfl, rfl⟩ | ⟨rfl, rfl, rfl⟩ <;> decide +kernel
  · intro g hg
    simp only [List.cons_append, List.nil_append, List.mem_cons, List.not_mem_nil, or_false] at hg
    rcases hg with rfl | rfl
    · exact Or.inr (Or.inl (by simp [Fn.make]))
    · exact Or.inl ⟨rfl, rfl, hb'⟩
  · rcases ht with ⟨rfl, -⟩ | ⟨rfl, -⟩ | ⟨rfl, -⟩ <;> decide +kernel

theorem int_back (i : Int) (h : -(2 ^ 63 : Int) ≤ i ∧ i < 2 ^ 63) : nativeW.toInt ((List.range 1).map (native.int i)) = i := by
  show (if (i % 2 ^ 64).toNat < 2 ^ 63 then ((i % 2 ^ 64).toNat : Int) else ((i % 2 ^ 64).toNat : Int) - 2 ^ 64) = i
  split <;> omega

theorem str_back (s : Bytes) : nativeW.toStr ((List.range 1).map (native.str s)) = s := decode_code s _ (code_length s)

theorem sized : Sized prog layout 7 3 := by
  refine ⟨by decide, by decide +kernel, ⟨plainSize, rfl, by decide +kernel⟩, fn "size" (Ty.val 7) [Ty.cref 3] 118, by decide +kernel, rfl, rfl, ?_⟩
  intro hp a k cells s cs h1 h2 h3 h4
  cases h1
  simp only at h2
  cases h2
  have := h4 0 (by decide)
  rw [Nat.add_zero] at this
  show (.ok ((hp.newObj (fun _ => (decode (hp.mem a) (hp.mem a)).length) 1).1, .obj _) : Res (Heap × BRet)) = _
  rw [this, show native.str s 0 = code s from rfl, decode_code s _ (code_length s)]

theorem backedW : BackedW prog nativeW layout env T := by
  refine ⟨sound, str_back, ?_, ?_, ?_, ?_, ?_, ?_, ?_, ?_⟩
  · intro ty d hT h
    rcases kinds hT h with ⟨-, -, c⟩ | ⟨-, -, c⟩ | ⟨-, -, c⟩ | ⟨-, -, c⟩ | ⟨-, -, c⟩ | ⟨-, -, c⟩ | ⟨-, -, c⟩ <;> cases c
  · intro ty d hT h
    rcases kinds hT h with ⟨rfl, rfl, -⟩ | ⟨-, -, c⟩ | ⟨-, -, c⟩ | ⟨-, -, c⟩ | ⟨-, -, c⟩ | ⟨-, -, c⟩ | ⟨-, -, c⟩ <;> try cases c
    refine ⟨by decide, ⟨_, rfl, fun v cs hv => ?_⟩, fun _ => ⟨rfl, plain2 2 ['i'] 20 (by simp)⟩, fun c => by cases c⟩
    cases v with
    | int i =>
      simp only at hv
      split at hv
      · rename_i hi; cases hv; exact ⟨i, rfl, fun _ => int_back i hi⟩
      · cases hv
    | _ => cases hv
  · intro ty d hT h
    rcases kinds hT h with ⟨-, -, c⟩ | ⟨-, -, c⟩ | ⟨-, -, c⟩ | ⟨-, -, c⟩ | ⟨-, -, c⟩ | ⟨-, -, c⟩ | ⟨-, -, c⟩ <;> cases c
  · intro ty d hT h
    rcases kinds hT h with ⟨-, -, c⟩ | ⟨rfl, rfl, -⟩ | ⟨-, -, c⟩ | ⟨-, -, c⟩ | ⟨-, -, c⟩ | ⟨-, -, c⟩ | ⟨-, -, c⟩ <;> try cases c
    refine ⟨⟨by decide, ⟨_, rfl, fun v cs hv => ?_⟩, fun _ => ⟨rfl, plain2 3 ['s'] 20 (by simp)⟩, fun c => by cases c⟩, sized⟩
    cases v with
    | str s => cases hv; exact ⟨s, rfl, fun _ => str_back s⟩
    | _ => cases hv
  · intro ty d t hT h
    rcases kinds hT h with ⟨-, -, c⟩ | ⟨-, -, c⟩ | ⟨-, -, c⟩ | ⟨-, -, c⟩ | ⟨-, -, c⟩ | ⟨rfl, -, c⟩ | ⟨rfl, -, c⟩ <;> cases c
    · exact ⟨1, rfl, Or.inr ⟨12, false, unique.toReflectedPtr⟩, rfl, by decide +kernel⟩
    · exact ⟨2, rfl, Or.inr ⟨14, false, shared.toReflectedPtr⟩, rfl, by decide +kernel⟩
  · intro ty d t hT h
    rcases kinds hT h with ⟨-, -, c⟩ | ⟨-, -, c⟩ | ⟨rfl, rfl, c⟩ | ⟨-, -, c⟩ | ⟨-, -, c⟩ | ⟨-, -, c⟩ | ⟨-, -, c⟩ <;> cases c
    exact ⟨rfl, _, _, vector⟩
  · intro ty d t hT h
    rcases kinds hT h with ⟨-, -, c⟩ | ⟨-, -, c⟩ | ⟨-, -, c⟩ | ⟨rfl, rfl, c⟩ | ⟨-, -, c⟩ | ⟨-, -, c⟩ | ⟨-, -, c⟩ <;> cases c
    exact ⟨_, rfl, map, plain2 8 ['k'] 30 (by simp)⟩
  · intro ty d hT h
    rcases kinds hT h with ⟨-, -, c⟩ | ⟨-, -, c⟩ | ⟨-, -, c⟩ | ⟨-, -, c⟩ | ⟨rfl, rfl, -⟩ | ⟨-, -, c⟩ | ⟨-, -, c⟩ <;> try cases c
    refine ⟨field, rfl, fun f hf _ => ?_⟩
    simp only [node, List.mem_cons, List.not_mem_nil, or_false] at hf
    rcases hf with rfl | rfl | rfl | rfl | rfl | rfl
    · exact ⟨⟨Ty.val 2, 0⟩, rfl, by decide +kernel, rfl⟩
    · exact ⟨⟨Ty.val 3, 1⟩, rfl, by decide +kernel, rfl⟩
    · exact ⟨⟨Ty.val 4, 2⟩, rfl, by decide +kernel, rfl⟩
    · exact ⟨⟨Ty.val 5, 5⟩, rfl, by decide +kernel, rfl⟩
    · exact ⟨⟨Ty.val 11, 7⟩, rfl, by decide +kernel, rfl⟩
    · exact ⟨⟨Ty.val 13, 8⟩, rfl, by decide +kernel, rfl⟩

/-- A `node` at 1 with all its parts - the elements of `l` at 12, the entry of `m` at 14, whose elements are at 19, `*p` at 22, `*p->s` at 33 - and a `node` at 40
all of whose cells are 0. -/
def full : Heap :=
  { next := 51
    mem := fun y => ([0, 7, 98, 12, 1, 1, 13, 1, 22, 0, 0, 0, 7, 14, 108, 19, 1, 1, 0, 5, 0, 0, 3, 0, 0, 0, 0, 0, 0, 0, 33, 32, 1, 4] : List Nat).getD y 0 }

theorem shows_num (a : Nat) (i : Int) (hi : -(2 ^ 63 : Int) ≤ i ∧ i < 2 ^ 63) (ha : 0 < a ∧ a < 51) (hm : full.mem a = (i % 2 ^ 64).toNat) :
    Shows prog native layout env.orderOf full 2 a (.int i) := by
  refine .scalar 2 a _ _ _ rfl (if_pos hi) ⟨ha.1, ha.2⟩ fun j hj => ?_
  have : j = 0 := by simp [prog] at hj; exact hj
  subst this
  exact hm

theorem shows_str (a : Nat) (s : Bytes) (ha : 0 < a ∧ a < 51) (hm : full.mem a = code s) : Shows prog native layout env.orderOf full 3 a (.str s) := by
  refine .scalar 3 a _ _ _ rfl rfl ⟨ha.1, ha.2⟩ fun j hj => ?_
  have : j = 0 := by simp [prog] at hj; exact hj
  subst this
  exact hm

theorem shows_list (a b : Nat) (i : Int) (hi : -(2 ^ 63 : Int) ≤ i ∧ i < 2 ^ 63) (ha : 0 < a ∧ a + 3 ≤ 51) (hb : 0 < b ∧ b < 51 ∧ a + 3 ≤ b)
    (h1 : full.mem a = b) (h2 : full.mem (a + 1) = 1) (h3 : full.mem (a + 2) = 1) (h4 : full.mem b = (i % 2 ^ 64).toNat) :
    Shows prog native layout env.orderOf full 4 a (.list [.int i]) := by
  refine .list 4 a 2 _ rfl ⟨ha, by omega, Or.inl ?_, Or.inl ?_⟩ h2 fun j v hv => ?_
  · rw [h1, h3]; exact ⟨hb.1, hb.2.1⟩
  · rw [h1]; exact hb.2.2
  · cases j with
    | zero => cases hv; rw [h1]; exact shows_num b i hi ⟨hb.1, hb.2.1⟩ h4
    | succ j => simp at hv

theorem shows_nil (a : Nat) (ha : 0 < a ∧ a + 3 ≤ 51) (h2 : full.mem (a + 1) = 0) (h3 : full.mem (a + 2) = 0) :
    Shows prog native layout env.orderOf full 4 a (.list []) :=
  .list 4 a 2 _ rfl ⟨ha, by omega, Or.inr h3, Or.inr (Or.inr h3)⟩ h2 fun j v hv => by cases hv

theorem shows_node (a : Nat) (ha : 0 < a ∧ a + 10 ≤ 51) (i na l m q s : JV) (h1 : Shows prog native layout env.orderOf full 2 a i)
    (h2 : Shows prog native layout env.orderOf full 3 (a + 1) na) (h3 : Shows prog native layout env.orderOf full 4 (a + 2) l)
    (h4 : Shows prog native layout env.orderOf full 5 (a + 5) m) (h5 : Shows prog native layout env.orderOf full 11 (a + 7) q)
    (h6 : Shows prog native layout env.orderOf full 13 (a + 8) s) :
    Shows prog native layout env.orderOf full 6 a (.obj [([105], i), ([110, 97], na), ([108], l), ([109], m), ([112], q), ([115], s)]) := by
  refine .obj 6 a field _ rfl ha ?_ ?_
  · intro k f hf
    unfold field at hf
    split at hf <;> cases hf <;> exact ⟨_, rfl⟩
  · intro k x f hx hf
    unfold field at hf
    split at hf <;> cases hf <;> cases hx <;> assumption

theorem shows_empty (a : Nat) (ha : 0 < a ∧ a + 2 ≤ 51) (h1 : full.mem (a + 1) = 0) : Shows prog native layout env.orderOf full 5 a (.map []) := by
  have hn : full.nodes a = [] := by unfold Heap.nodes; rw [h1]; rfl
  refine .map 5 a 4 kind [] rfl ⟨ha, Or.inr h1, Or.inr (Or.inr h1), ?_, ?_, ?_⟩ .nil (.refl _) (by rw [hn]; rfl) (by intro k x b hx; cases hx)
  · rw [hn]; intro d hd; cases hd
  · rw [hn]; exact .nil
  · rw [hn]; exact .nil

/-- the object at 1 has the value `after` -/
theorem shows : Shows prog native layout env.orderOf full 6 1 after := by
  refine shows_node 1 (by decide) _ _ _ _ _ _ (shows_num _ 7 (by decide) (by decide) rfl) (shows_str _ [97] (by decide) (by decide))
    (shows_list _ 12 7 (by decide) (by decide) (by decide) rfl rfl rfl rfl) ?_ ?_ ?_
  · refine .map 5 6 4 kind _ rfl ⟨by decide, Or.inl (by decide), Or.inl (by decide), by decide, by decide, by decide⟩ (by decide) (.refl _) (by decide +kernel) ?_
    intro k x b hx hb
    simp only [Assoc.get] at hx
    split at hx
    · cases hx
      obtain ⟨d, d1, rfl, -⟩ := hb
      have : d = 14 := by simpa [Heap.nodes, full, List.range, List.range.loop] using d1
      subst this
      exact shows_list _ 19 5 (by decide) (by decide) (by decide) rfl rfl rfl rfl
    · cases hx
  · refine .ptr 11 8 6 1 _ rfl ⟨by decide, by decide⟩ (by decide) ?_
    refine shows_node 22 (by decide) _ _ _ _ _ _ (shows_num _ 3 (by decide) (by decide) rfl) (shows_str _ [] (by decide) (by decide))
      (shows_nil _ (by decide) rfl rfl) (shows_empty _ (by decide) rfl) (.null 11 _ 6 1 rfl ⟨by decide, by decide⟩ rfl) ?_
    exact .ptr 13 _ 2 2 _ rfl ⟨by decide, by decide⟩ (by decide) (shows_num _ 4 (by decide) (by decide) rfl)
  · exact .null 13 9 2 2 rfl ⟨by decide, by decide⟩ rfl

theorem shaped : env.Shaped := by
  intro ty d h
  have : d ∈ env.types := List.mem_of_getElem? h
  simp only [env, List.mem_cons, List.not_mem_nil, or_false] at this
  rcases this with rfl | rfl | rfl | rfl | rfl | rfl | rfl | rfl | rfl | rfl | rfl | rfl | rfl | rfl
  all_goals first
    | exact ⟨_, .int rfl⟩
    | exact ⟨_, .string rfl⟩
    | exact ⟨_, .list 2 rfl rfl⟩
    | exact ⟨_, .map 4 rfl rfl⟩
    | exact ⟨_, .ptr 6 rfl rfl⟩
    | exact ⟨_, .ptr 2 rfl rfl⟩
    | exact ⟨_, .void rfl (by intro t h; cases h)⟩
    | exact ⟨_, .object rfl (by intro t h; cases h)⟩

theorem comes_back : ValueBack env [] [] WOpts.default ROpts.default 6 after before after := by
  have hs : ∀ s : Bytes, (∀ b ∈ s, b < 128) → Survives WOpts.default ROpts.default s := by
    intro s h
    refine ⟨fun _ => ⟨rfl, s.map UInt8.toNat, ?_, ?_⟩, fun h => by cases h⟩
    · intro n hn
      obtain ⟨b, -, rfl⟩ := List.mem_map.1 hn
      have := b.toNat_lt
      omega
    · induction s with
      | nil => rfl
      | cons b s ih =>
        have hb : b < 128 := h b (by simp)
        have hb' : b.toNat < 128 := UInt8.lt_iff_toNat_lt.1 hb
        rw [List.map_cons, List.flatMap_cons, ← ih fun b hb => h b (by simp [hb])]
        have : utf8 b.toNat = [b] := by
          unfold utf8
          rw [if_pos (by omega)]
          simp
        rw [this]; rfl
  have hsk : ∀ a, ¬ env.Skips 6 node a := by
    rintro a ⟨f, hf, _, t, h1, h2⟩
    simp only [node, List.mem_cons, List.not_mem_nil, or_false] at hf
    rcases hf with rfl | rfl | rfl | rfl | rfl | rfl <;> simp at h1
    subst h1
    revert h2; decide
  have hno : ∀ a (f : FieldD) v, ¬ ((WOpts.default.compact = true ∨ env.Skips 6 node a) ∧ Empty env f.type v) := by
    rintro a f v ⟨h | h, -⟩
    · cases h
    · exact hsk a h
  have hobj : ∀ i na l m q s, Back env (Survives WOpts.default ROpts.default) WOpts.default.compact 2 (.int 0) i →
      Back env (Survives WOpts.default ROpts.default) WOpts.default.compact 3 (.str []) na →
      Back env (Survives WOpts.default ROpts.default) WOpts.default.compact 4 (.list []) l →
      Back env (Survives WOpts.default ROpts.default) WOpts.default.compact 5 (.map []) m →
      Back env (Survives WOpts.default ROpts.default) WOpts.default.compact 11 .null q →
      Back env (Survives WOpts.default ROpts.default) WOpts.default.compact 13 .null s →
      Back env (Survives WOpts.default ROpts.default) WOpts.default.compact 6 before
        (.obj [([105], i), ([110, 97], na), ([108], l), ([109], m), ([112], q), ([115], s)]) := by
    intro i na l m q s h1 h2 h3 h4 h5 h6
    refine .obj 6 node _ _ has6 (by decide) (by decide) (by decide) (by decide) ?_
    refine .shown 6 node ⟨[105], 2, none⟩ [105] _ _ _ _ (by simp [node]) rfl (hs _ (by decide)) (hno _ _ _) h1 ?_
    refine .shown 6 node ⟨[110, 97], 3, some (.mkAlias [110])⟩ [110] _ _ _ _ (by simp [node]) (by decide) (hs _ (by decide)) (hno _ _ _) h2 ?_
    refine .shown 6 node ⟨[108], 4, none⟩ [108] _ _ _ _ (by simp [node]) rfl (hs _ (by decide)) (hno _ _ _) h3 ?_
    refine .shown 6 node ⟨[109], 5, none⟩ [109] _ _ _ _ (by simp [node]) rfl (hs _ (by decide)) (hno _ _ _) h4 ?_
    refine .shown 6 node ⟨[112], 11, none⟩ [112] _ _ _ _ (by simp [node]) rfl (hs _ (by decide)) (hno _ _ _) h5 ?_
    exact .shown 6 node ⟨[115], 13, none⟩ [115] _ _ _ _ (by simp [node]) rfl (hs _ (by decide)) (hno _ _ _) h6 (.nil _ _)
  refine C45_round_trip env (namedB_spec (by decide)) shaped T closed (fun ty d h => backed.notVoid ty d h) [] .fresh [] .fresh WOpts.default ROpts.default 6
    (by simp [T]) before after ?_ (by decide)
  have hlist : ∀ i : Int, -(2 ^ 63 : Int) ≤ i → i < 2 ^ 63 →
      Back env (Survives WOpts.default ROpts.default) WOpts.default.compact 4 (.list []) (.list [.int i]) := fun i h1 h2 =>
    .list 4 _ 2 _ has4 (.cons 2 tInt (.int 0) _ _ rfl rfl (.int 2 _ _ i has2 rfl h1 h2) (.nil 2))
  refine hobj _ _ _ _ _ _ (.int 2 _ _ 7 has2 rfl (by decide) (by decide)) (.str 3 _ _ _ has3 rfl (hs _ (by decide))) (hlist 7 (by decide) (by decide)) ?_ ?_
    (.null 13 _ 2 _ has13)
  · exact .map 5 tMap 4 _ has5 (by unfold Ordered; decide) (.refl _) (.cons 4 tList (.list []) _ _ _ rfl rfl (hs _ (by decide)) (hlist 5 (by decide) (by decide)) (.nil 4))
  · refine .ptrNew 11 _ 6 node before _ has11 rfl rfl rfl rfl ?_
    refine hobj _ _ _ _ _ _ (.int 2 _ _ 3 has2 rfl (by decide) (by decide)) (.str 3 _ _ _ has3 rfl (hs _ (by decide)))
      (.list 4 _ 2 _ has4 (.nil 2)) (.map 5 tMap 4 _ has5 (by unfold Ordered; decide) (.refl _) (.nil 4)) (.null 11 _ 6 _ has11) ?_
    exact .ptrNew 13 _ 2 tInt (.int 0) _ has13 rfl rfl rfl rfl (.int 2 _ _ 4 has2 rfl (by decide) (by decide))

/-- All of C89 applies: the object at 1 is printed, and what was printed is parsed into the one at 40, which then has the value `after` as well; the object
at 1 still has its number. -/
example (otherW : OtherW) (other : Other) : ∃ n E hp1 w hp2 O r,
    (printMem prog nativeW otherW env 2 E n [] 6 ⟨Ty.cref 6, 1, none⟩ full (Writer.new WOpts.default)).1 = .ok (hp1, w) ∧ w.err = none ∧
    (parseMem prog native smart other env 2 n [] 6 ⟨Ty.lref 6, 40, none⟩ hp1 (Reader.open ROpts.default (w.out ++ []))).1 = .ok (⟨Ty.lref 6, 40, none⟩, hp2, r) ∧
    r.err = none ∧ Rep prog native layout hp2 6 40 after O ∧ hp2.mem 1 = 7 := by
  have hrep : Rep prog native layout full 6 40 before fun _ => False := by
    refine rep_node ⟨by decide, by decide⟩ fun j hj => ?_
    have : ∀ j < 10, full.mem (40 + j) = 0 := by decide
    exact this j hj
  obtain ⟨n, E, out, h⟩ := C89_back backedW backed closed (namedB_spec (by decide)) .fresh .fresh otherW other 0 6 (by simp [T]) ⟨Ty.cref 6, 1, none⟩ rfl rfl
    ⟨Ty.lref 6, 40, none⟩ rfl full after before after (fun _ => False) shows hrep WOpts.default ROpts.default comes_back
  obtain ⟨hp1, w, h1, h2, h3, h4⟩ := h n (Nat.le_refl _) E (Nat.le_refl _)
  obtain ⟨hp2, O, r, e1, e2, -, e4⟩ := h4 [] (by decide)
  refine ⟨n, E, hp1, w, hp2, O, r, h1, h2, by rw [h3]; exact e1, e2, e4.rep, ?_⟩
  rw [e4.same 1 (by decide) (by unfold OwnCell; decide) (fun h => h)]
  rfl

end PlaceDemo

'''+s[i:]
open(f,'w').write(s)

import Verif.Spec.JsonSorted
import Verif.Props.JsonPlacePrint
import Verif.Props.MapOrder
/-
  C90 What is printed of std::maps depends on what they hold, and on nothing else.
-/
namespace Reflect.Json

section
variable {p : Prog} {N : Native} {L : Layout}

theorem ordered_unique {ks ks' : List Bytes} (h1 : ks.Pairwise fun a b => bytesLt a b = true) (h2 : ks'.Pairwise fun a b => bytesLt a b = true)
    (hm : ∀ k, k ∈ ks ↔ k ∈ ks') : ks = ks' := by
  have nd : ∀ {ks : List Bytes}, ks.Pairwise (fun a b => bytesLt a b = true) → ks.Nodup := fun h =>
    List.Pairwise.imp (fun {a b} hab e => by subst e; rw [bytesLt_irrefl] at hab; cases hab) h
  refine List.Perm.eq_of_pairwise (le := fun a b : Bytes => bytesLt a b = true) ?_ h1 h2 ((List.perm_ext_iff_of_nodup (nd h1) (nd h2)).2 hm)
  intro a b _ _ e1 e2
  rw [bytesLt_asymm e1] at e2; cases e2

/-- An object shows exactly its value. -/
theorem Rep.shows_sorted {h : Heap} (hL : L.Sound p N) (hA : Alphabetic p N L) {t : Ty} {a : Nat} {v : JV} {O : Nat → Prop} (hr : Rep p N L h t a v O) :
    Shows p N L (fun _ ks => ks) h t a v := by
  induction hr with
  | scalar t a v cells cs O h1 h2 h3 h4 h5 => exact .scalar t a v cells cs h1 h2 h3 h4
  | null t a e n O h1 h2 h3 => exact .null t a e n h1 h2 h3
  | ptr t a e n v Oe O h1 h2 h3 _ _ _ _ _ ih => exact .ptr t a e n v h1 h2 (by omega) ih
  | list t a e vs Os O h1 h2 h3 _ _ _ _ ih => exact .list t a e vs h1 h2 h3 ih
  | map t a e K m B Os O h1 h2 h3 h4 h5 _ _ _ _ ih =>
    obtain ⟨l, l1, l2⟩ := hA t e K h1
    obtain ⟨ks, g1, g2⟩ := list_choose (R := fun _ d k => (Assoc.get m k).isSome = true ∧ h.cells d K.key = keyCells p N k) (h.nodes a) 0
      fun i d hd => h4 d (List.mem_of_getElem? hd)
    have hcells : (h.nodes a).map (fun d => h.cells d K.key) = ks.map (keyCells p N) := by
      refine List.ext_getElem (by simp [g1]) fun i hi hj => ?_
      simp only [List.length_map] at hi hj
      rw [List.getElem_map, List.getElem_map]
      exact (g2 i _ _ (List.getElem?_eq_getElem hi) (List.getElem?_eq_getElem hj)).2
    have hin : ∀ k, k ∈ ks ↔ k ∈ m.map (·.1) := by
      intro k
      constructor
      · intro hk
        obtain ⟨i, hi, rfl⟩ := List.getElem_of_mem hk
        exact get_some_iff.1 (g2 i _ _ (List.getElem?_eq_getElem (by omega)) (List.getElem?_eq_getElem hi)).1
      · intro hk
        obtain ⟨d, d1, -, d3⟩ := h5 k (get_some_iff.2 hk)
        have : keyCells p N k ∈ ks.map (keyCells p N) := by rw [← hcells, ← d3]; exact List.mem_map.2 ⟨d, d1, rfl⟩
        obtain ⟨k', k1, k2⟩ := List.mem_map.1 this
        rw [← hL.strings _ _ k2]; exact k1
    have hs := h2.sorted l l1
    rw [hcells, List.pairwise_map] at hs
    have hks : ks = m.map (·.1) := ordered_unique (List.Pairwise.imp (fun {a b} hab => by rw [← l2]; exact hab) hs) h3 hin
    refine .map t a e K m h1 h2 (ordered_nodup h3) (.refl _) (by rw [hcells, hks]) fun k x b hx hb => ?_
    have hb2 : b = B k := by
      obtain ⟨d, d1, d2, d3⟩ := hb
      obtain ⟨d', e1, e2, e3⟩ := h5 k (by rw [hx]; rfl)
      rw [d2, e2, nodup_inj h2.keys d d1 d' e1 (d3.trans e3.symm)]
    rw [hb2]
    exact ih k x hx
  | obj t a field fs Os O h1 h2 h3 _ _ _ _ ih =>
    exact .obj t a field fs h1 h2 (fun k f hf => Option.isSome_iff_exists.1 ((h3 k).2 (by rw [hf]; rfl))) ih

end

section
variable {p : Prog} {N : NativeW} {L : Layout} {env : Env} {T : Ty → Prop}

theorem order_id (hid : ∀ ty ks, env.orderOf ty ks = ks) : (fun (_ : Ty) (ks : List Bytes) => ks) = env.orderOf :=
  funext fun ty => funext fun ks => (hid ty ks).symm

/-- C90. If all maps are `std::map`s, an object prints as its value does: the keys of maps come in alphabetic order, whatever
was done to the maps before. -/
theorem C90_print (hB : BackedW p N L env T) (hA : Alphabetic p N.toNative L) (hcl : env.Closed T) (hn : env.Named)
    (hid : ∀ ty ks, env.orderOf ty ks = ks) {c : WCache} (hc : Printers env c) (other : OtherW) (F E n : Nat) (ty : Ty) (hT : T ty) (o : Handle)
    (ho : o.arg.type = ty) (hol : o.arg.ref = .lvalue) (hp : Heap) (v : JV) (O : Nat → Prop) (hr : Rep p N.toNative L hp ty o.addr v O)
    (hE : sizeOf v < E) (w : Writer) :
    match (print env n c ty v w).1 with
    | .error e => (printMem p N other env (F + 2) E n c ty o hp w).1 = .error e
    | .ok w' => ∃ hp', (printMem p N other env (F + 2) E n c ty o hp w).1 = .ok (hp', w') ∧ Ext hp hp' :=
  (C89_print hB hcl hn hc other F E n ty hT o ho hol hp v (by rw [← order_id hid]; exact hr.shows_sorted hB.sound hA) hE w).2

/-- C90. Two objects that have the same value print the same text, or fail in the same way, wherever they are and however they
came to have it. -/
theorem C90_same_text (hB : BackedW p N L env T) (hA : Alphabetic p N.toNative L) (hcl : env.Closed T) (hn : env.Named)
    (hid : ∀ ty ks, env.orderOf ty ks = ks) {c : WCache} (hc : Printers env c) (other : OtherW) (F E n : Nat) (ty : Ty) (hT : T ty) (o o' : Handle)
    (ho : o.arg.type = ty) (hol : o.arg.ref = .lvalue) (ho' : o'.arg.type = ty) (hol' : o'.arg.ref = .lvalue) (hp hp' : Heap) (v : JV)
    (O O' : Nat → Prop) (hr : Rep p N.toNative L hp ty o.addr v O) (hr' : Rep p N.toNative L hp' ty o'.addr v O') (hE : sizeOf v < E) (w : Writer) :
    (printMem p N other env (F + 2) E n c ty o hp w).1.map Prod.snd = (printMem p N other env (F + 2) E n c ty o' hp' w).1.map Prod.snd := by
  have h1 := C90_print hB hA hcl hn hid hc other F E n ty hT o ho hol hp v O hr hE w
  have h2 := C90_print hB hA hcl hn hid hc other F E n ty hT o' ho' hol' hp' v O' hr' hE w
  cases hq : (print env n c ty v w).1 with
  | error e => rw [hq] at h1 h2; rw [h1, h2]
  | ok w' =>
    rw [hq] at h1 h2
    obtain ⟨_, e1, -⟩ := h1
    obtain ⟨_, e2, -⟩ := h2
    rw [e1, e2]
    rfl

/-- C90. What is printed of an object and parsed into another one that lies elsewhere makes them print the same. -/
theorem C90_copy (hB : BackedW p N L env T) (hA : Alphabetic p N.toNative L) {smart : Ty → Bool} (hP : Backed p N.toNative L env smart T)
    (hcl : env.Closed T) (hn : env.Named) (hid : ∀ ty ks, env.orderOf ty ks = ks) {cw : WCache} (hw : Printers env cw) {c : PCache}
    (hc : Parsers env c) (otherW : OtherW) (other : Other) (F : Nat) (ty : Ty) (hT : T ty) (o : Handle) (ho : o.arg.type = ty)
    (hol : o.arg.ref = .lvalue) (b : Handle) (hb : b.arg = ty.lref) (hp : Heap) (v u : JV) (O Ob : Nat → Prop)
    (hr : Rep p N.toNative L hp ty o.addr v O) (hrb : Rep p N.toNative L hp ty b.addr u Ob)
    (hap : ∀ y, OwnCell p ty o.addr y ∨ O y → ¬ OwnCell p ty b.addr y ∧ ¬ Ob y) (wo : WOpts) (ro : ROpts) (hvb : ValueBack env cw c wo ro ty v u v) :
    ∃ n0 E0 out, ∀ n, n0 ≤ n → ∀ E, E0 ≤ E → ∃ hp1 w, (printMem p N otherW env (F + 2) E n cw ty o hp (Writer.new wo)).1 = .ok (hp1, w) ∧
      w.err = none ∧ w.out = out ∧
      ∀ y, Stops y → ∃ hp2 Ob' r, (parseMem p N.toNative smart other env (F + 2) n c ty b hp1 (Reader.open ro (out ++ y))).1 = .ok (b, hp2, r) ∧
        r.err = none ∧ Rep p N.toNative L hp2 ty b.addr v Ob' ∧ Rep p N.toNative L hp2 ty o.addr v O ∧
        ∀ w', (printMem p N otherW env (F + 2) E n cw ty o hp2 w').1.map Prod.snd = (printMem p N otherW env (F + 2) E n cw ty b hp2 w').1.map Prod.snd := by
  obtain ⟨n0, E0, out, h⟩ := C89_back hB hP hcl hn hw hc otherW other F ty hT o ho hol b hb hp v u v Ob
    (by rw [← order_id hid]; exact hr.shows_sorted hB.sound hA) hrb wo ro hvb
  refine ⟨n0, max E0 (sizeOf v + 1), out, fun n hn0 E hE => ?_⟩
  obtain ⟨hp1, w, h1, h2, h3, h4⟩ := h n hn0 E (by omega)
  refine ⟨hp1, w, h1, h2, h3, fun y hy => ?_⟩
  obtain ⟨hp2, Ob', r, e1, e2, -, e4⟩ := h4 y hy
  have hr2 : Rep p N.toNative L hp2 ty o.addr v O := hr.kept hB.sound e4.grow fun y hy hyo =>
    e4.same y hy (hap y hyo).1 (hap y hyo).2
  exact ⟨hp2, Ob', r, e1, e2, e4.rep, hr2, fun w' => C90_same_text hB hA hcl hn hid hw otherW F E n ty hT o b ho hol (by rw [hb]; rfl) (by rw [hb]; rfl)
    hp2 hp2 v O Ob' hr2 e4.rep (by omega) w'⟩

end

/-! ### an example -/

namespace PlaceDemo

theorem alphabetic : Alphabetic prog nativeW.toNative layout := by
  intro t e K h
  have hK : K.less = some keyLess := by
    unfold layout at h
    split at h <;> first | (cases h; rfl) | (exfalso; revert h; simp) | cases h
  refine ⟨keyLess, hK, fun k k' => ?_⟩
  have e : ∀ s : Bytes, keyCells prog nativeW.toNative s = [code s] := fun _ => rfl
  rw [e, e]
  unfold keyLess
  rw [show [code k].headD 0 = code k from rfl, show [code k'].headD 0 = code k' from rfl, decode_code k _ (code_length k), decode_code k' _ (code_length k')]
  by_cases hk : k = k'
  · subst hk
    rw [bytesLt_irrefl, Bool.false_or, beq_self_eq_true, Bool.true_and]
    exact decide_eq_false (List.lt_irrefl _)
  · rw [show (k == k') = false by simpa using hk, Bool.false_and, Bool.or_false]

theorem order_kept (ty : TyId) (ks : List Bytes) : env.orderOf ty ks = ks := by
  unfold Env.orderOf
  split
  · rfl
  · rename_i d hd
    have := List.mem_of_getElem? hd
    simp only [env, List.mem_cons, List.not_mem_nil, or_false] at this
    rcases this with rfl | rfl | rfl | rfl | rfl | rfl | rfl | rfl | rfl | rfl | rfl | rfl | rfl | rfl | rfl | rfl <;> rfl

/-- a map at 1 with two entries, the index at 4; the nodes of `"a"` and `"b"` at `x` and `y` -/
def two (x y : Nat) : Heap :=
  { next := 40
    mem := fun z => if z = 1 then 4 else if z = 2 then 2 else if z = 4 then x else if z = 5 then y else if z = x then 98 else if z = y then 99 else 0 }

def ab : JV := .map [([97], .list []), ([98], .list [])]

theorem rep_two (x y : Nat) (h : (x = 10 ∧ y = 20) ∨ (x = 25 ∧ y = 15)) :
    Rep prog native layout (two x y) 5 1 ab fun z => (two x y).InMap kind 1 z ∧ ¬ OwnCell prog 5 1 z := by
  have hn : (two x y).nodes 1 = [x, y] := by rcases h with ⟨rfl, rfl⟩ | ⟨rfl, rfl⟩ <;> decide
  have hz : ∀ a, (a = x ∨ a = y) → Rep prog native layout (two x y) 4 (a + 1) (.list []) fun _ => False := by
    intro a ha
    refine rep_nil ?_ ?_
    · rcases h with ⟨rfl, rfl⟩ | ⟨rfl, rfl⟩ <;> rcases ha with rfl | rfl <;> decide
    · rcases h with ⟨rfl, rfl⟩ | ⟨rfl, rfl⟩ <;> rcases ha with rfl | rfl <;> decide
  have hg : ∀ k, (Assoc.get ([([97], .list []), ([98], .list [])] : List (Bytes × JV)) k).isSome → k = [97] ∨ k = [98] := by
    intro k hk
    simp only [Assoc.get] at hk
    split at hk
    · left; rename_i e; exact e.symm
    · split at hk
      · right; rename_i e; exact e.symm
      · cases hk
  refine .map 5 1 4 kind _ (fun k => if k = [97] then x + 1 else y + 1) (fun _ _ => False) _ rfl ?_ (by unfold Ordered; decide) ?_ ?_ ?_ ?_ ?_ fun z => ?_
  · rcases h with ⟨rfl, rfl⟩ | ⟨rfl, rfl⟩ <;> exact ⟨by decide, by decide, by decide, by decide, by decide, by decide, by rintro _ ⟨⟩; decide⟩
  · rw [hn]
    intro d hd
    rcases List.mem_cons.1 hd with rfl | hd
    · refine ⟨[97], rfl, ?_⟩
      rcases h with ⟨rfl, rfl⟩ | ⟨rfl, rfl⟩ <;> decide
    · rw [List.mem_singleton] at hd
      subst hd
      refine ⟨[98], rfl, ?_⟩
      rcases h with ⟨rfl, rfl⟩ | ⟨rfl, rfl⟩ <;> decide
  · intro k hk
    rcases hg k hk with rfl | rfl
    · refine ⟨x, by rw [hn]; simp, rfl, ?_⟩
      rcases h with ⟨rfl, rfl⟩ | ⟨rfl, rfl⟩ <;> decide
    · refine ⟨y, by rw [hn]; simp, rfl, ?_⟩
      rcases h with ⟨rfl, rfl⟩ | ⟨rfl, rfl⟩ <;> decide
  · intro k v hv
    rcases hg k (by rw [hv]; rfl) with rfl | rfl
    · cases hv; exact hz x (Or.inl rfl)
    · cases hv; exact hz y (Or.inr rfl)
  · intro _ _ _ h; exact h.elim
  · intro _ _ _ _ _ h; exact h.elim
  · constructor
    · exact Or.inl
    · rintro (h | ⟨_, _, h⟩)
      · exact h
      · exact h.elim

/-- Two maps with the same entries, their nodes at other places and in other order in memory, print the same. -/
example (otherW : OtherW) (n : Nat) (w : Writer) :
    (printMem prog nativeW otherW env 2 (sizeOf ab + 1) n [] 5 ⟨Ty.cref 5, 1, none⟩ (two 10 20) w).1.map Prod.snd =
    (printMem prog nativeW otherW env 2 (sizeOf ab + 1) n [] 5 ⟨Ty.lref 5, 1, none⟩ (two 25 15) w).1.map Prod.snd :=
  C90_same_text backedW alphabetic closed (namedB_spec (by decide)) order_kept .fresh otherW 0 _ n 5 (by simp [T]) ⟨Ty.cref 5, 1, none⟩ ⟨Ty.lref 5, 1, none⟩
    rfl rfl rfl rfl (two 10 20) (two 25 15) ab _ _
    (rep_two 10 20 (by simp)) (rep_two 25 15 (by simp)) (by omega) w

theorem ab_back : ValueBack env [] [] WOpts.default ROpts.default 5 ab (.map []) ab := by
  refine C45_round_trip env (namedB_spec (by decide)) shaped T closed (fun ty d h => backed.notVoid ty d h) [] .fresh [] .fresh WOpts.default ROpts.default 5
    (by simp [T]) (.map []) ab ?_ (by decide)
  have hl : Back env (Survives WOpts.default ROpts.default) WOpts.default.compact 4 (.list []) (.list []) := .list 4 _ 2 _ has4 (.nil 2)
  exact .map 5 tMap 4 _ has5 (by unfold Ordered; decide) (.refl _) (.cons 4 tList (.list []) _ _ _ rfl rfl (ascii_survives _ (by decide)) hl
    (.cons 4 tList (.list []) _ _ _ rfl rfl (ascii_survives _ (by decide)) hl (.nil 4)))

/-- The map at 1 is printed and parsed into an empty one at 30. -/
example (otherW : OtherW) (other : Other) : ∃ n E hp1 w hp2 r,
    (printMem prog nativeW otherW env 2 E n [] 5 ⟨Ty.cref 5, 1, none⟩ (two 25 15) (Writer.new WOpts.default)).1 = .ok (hp1, w) ∧
    (parseMem prog native smart other env 2 n [] 5 ⟨Ty.lref 5, 30, none⟩ hp1 (Reader.open ROpts.default (w.out ++ []))).1 = .ok (⟨Ty.lref 5, 30, none⟩, hp2, r) ∧
    ∀ w', (printMem prog nativeW otherW env 2 E n [] 5 ⟨Ty.cref 5, 1, none⟩ hp2 w').1.map Prod.snd =
      (printMem prog nativeW otherW env 2 E n [] 5 ⟨Ty.lref 5, 30, none⟩ hp2 w').1.map Prod.snd := by
  have hap : ∀ z, (OwnCell prog 5 1 z ∨ (two 25 15).InMap kind 1 z ∧ ¬ OwnCell prog 5 1 z) → ¬ OwnCell prog 5 30 z := by
    intro z hz h
    unfold OwnCell at h hz
    have hs2 : prog.size 5 = 2 := rfl
    simp only [hs2] at h hz
    rcases hz with hz | ⟨hz, -⟩
    · omega
    · rcases hz with hz | hz | ⟨a, ha, hz⟩
      · omega
      · rw [show (two 25 15).mem 1 = 4 from rfl, show (two 25 15).mem (1 + 1) = 2 from rfl] at hz; omega
      · rw [show (two 25 15).nodes 1 = [25, 15] by decide, List.mem_cons, List.mem_singleton] at ha
        simp only [kind] at hz
        rcases ha with rfl | rfl <;> omega
  obtain ⟨n, E, out, h⟩ := C90_copy backedW alphabetic backed closed (namedB_spec (by decide)) order_kept .fresh .fresh otherW other 0 5 (by simp [T])
    ⟨Ty.cref 5, 1, none⟩ rfl rfl ⟨Ty.lref 5, 30, none⟩ rfl (two 25 15) ab (.map []) _ (fun _ => False) (rep_two 25 15 (by simp))
    (rep_empty (a := 30) ⟨by decide, by decide⟩ (by decide)) (fun z hz => ⟨hap z hz, fun h => h⟩) WOpts.default ROpts.default ab_back
  obtain ⟨hp1, w, h1, -, h3, h4⟩ := h n (Nat.le_refl _) E (Nat.le_refl _)
  obtain ⟨hp2, _, r, e1, -, -, -, e5⟩ := h4 [] (by intro c hc; cases hc)
  exact ⟨n, E, hp1, w, hp2, r, h1, by rw [h3]; exact e1, e5⟩

end PlaceDemo

end Reflect.Json

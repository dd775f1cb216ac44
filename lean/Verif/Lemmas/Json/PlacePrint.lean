import Verif.Spec.JsonPlacePrint
import Verif.Lemmas.Json.Place
import Verif.Lemmas.SmartPtr
/- The loops of the printers with call-backs that use memory; what a printer sees when nothing but new objects is added. -/
namespace Reflect.Json

/-- The same outcome; the state is one of `I` afterwards. -/
def WSim {σ β : Type} (I : σ → Prop) (q : Res (σ × β)) : Res β → Prop
  | .error e => q = .error e
  | .ok b => ∃ s, q = .ok (s, b) ∧ I s

theorem WSim.ok {σ β : Type} {I : σ → Prop} {s : σ} (b : β) (h : I s) : WSim I (.ok (s, b)) (.ok b) := ⟨s, rfl, h⟩

theorem WSim.mono {σ β : Type} {I J : σ → Prop} {q : Res (σ × β)} {r : Res β} (h : WSim I q r) (hij : ∀ s, I s → J s) : WSim J q r := by
  cases r with
  | error e => exact h
  | ok b => obtain ⟨s, h1, h2⟩ := h; exact ⟨s, h1, hij s h2⟩

section
variable {σ α : Type} {I : σ → Prop}

theorem printMembersM_sim {name : σ → α → Bytes} {fn : α → σ → Writer → Res (σ × Writer)} {skip : α → σ → Res (σ × Bool)}
    {key : α → Bytes} {gn : Bytes → Writer → Res Writer} {gskip : Bytes → Res Bool} : ∀ (ks : List α),
    (∀ k ∈ ks, ∀ s, I s → name s k = key k) → (∀ k ∈ ks, ∀ s w, I s → WSim I (fn k s w) (gn (key k) w)) →
    (∀ k ∈ ks, ∀ s, I s → WSim I (skip k s) (gskip (key k))) → ∀ (first : Bool) (s : σ) (w : Writer), I s →
    WSim I (printMembersM name fn skip ks first s w) (printMembers gn gskip (ks.map key) first w)
  | [], _, _, _, _, s, w, hs => ⟨s, rfl, hs⟩
  | k :: ks, h1, h2, h3, first, s, w, hs => by
    have ih := printMembersM_sim ks (fun k hk => h1 k (by simp [hk])) (fun k hk => h2 k (by simp [hk])) (fun k hk => h3 k (by simp [hk]))
    simp only [List.map_cons]
    unfold printMembersM printMembers
    by_cases hw : w.ok = true
    · rw [if_pos hw, if_pos hw]
      have g3 := h3 k (by simp) s hs
      show WSim I (Except.bind _ _) (Except.bind _ _)
      cases hq : gskip (key k) with
      | error e => rw [hq] at g3; have g3 : skip k s = .error e := g3; rw [g3]; rfl
      | ok b =>
        rw [hq] at g3
        obtain ⟨s1, g3, g4⟩ := g3
        rw [g3]
        simp only [Except.bind]
        cases b with
        | true => exact ih first s1 w g4
        | false =>
          simp only [Bool.false_eq_true, if_false]
          show WSim I (Except.bind _ _) (Except.bind _ _)
          cases itemLayout first w with
          | error e => rfl
          | ok w1 =>
            simp only [Except.bind]
            rw [h1 k (by simp) s1 g4]
            show WSim I (Except.bind _ _) (Except.bind _ _)
            cases formatString w1 (key k) with
            | error e => rfl
            | ok w2 =>
              simp only [Except.bind]
              have g2 := h2 k (by simp) s1 (w2.push [58]).space g4
              show WSim I (Except.bind _ _) (Except.bind _ _)
              cases hq2 : gn (key k) (w2.push [58]).space with
              | error e => rw [hq2] at g2; have g2 : fn k s1 _ = .error e := g2; rw [g2]; rfl
              | ok w3 =>
                rw [hq2] at g2
                obtain ⟨s2, g2, g5⟩ := g2
                rw [g2]
                exact ih false s2 w3 g5
    · rw [if_neg hw, if_neg hw]
      exact ⟨s, rfl, hs⟩

theorem printObjectM_sim {name : σ → α → Bytes} {fn : α → σ → Writer → Res (σ × Writer)} {skip : α → σ → Res (σ × Bool)}
    {key : α → Bytes} {gn : Bytes → Writer → Res Writer} {gskip : Bytes → Res Bool} (ks : List α)
    (h1 : ∀ k ∈ ks, ∀ s, I s → name s k = key k) (h2 : ∀ k ∈ ks, ∀ s w, I s → WSim I (fn k s w) (gn (key k) w))
    (h3 : ∀ k ∈ ks, ∀ s, I s → WSim I (skip k s) (gskip (key k))) (s : σ) (w : Writer) (hs : I s) :
    WSim I (printObjectM name fn skip ks s w) (printObject gn gskip (ks.map key) w) := by
  unfold printObjectM printObject
  simp only [List.length_map]
  show WSim I (Except.bind _ _) (Except.bind _ _)
  cases openLayout (decide (ks.length > 1)) (w.push [123]) with
  | error e => rfl
  | ok w1 =>
    simp only [Except.bind]
    have g := printMembersM_sim (I := I) ks h1 h2 h3 true s w1 hs
    show WSim I (Except.bind _ _) (Except.bind _ _)
    cases hq : printMembers gn gskip (ks.map key) true w1 with
    | error e => rw [hq] at g; have g : printMembersM name fn skip ks true s w1 = .error e := g; rw [g]; rfl
    | ok r =>
      rw [hq] at g
      obtain ⟨s1, g, g1⟩ := g
      rw [g]
      simp only [Except.bind]
      cases r.2 with
      | false => exact ⟨s1, rfl, g1⟩
      | true =>
        simp only [if_true]
        show WSim I (Except.bind _ _) (Except.bind _ _)
        cases closeLayout (decide (ks.length > 1)) r.1 with
        | error e => rfl
        | ok w2 => exact ⟨s1, rfl, g1⟩

theorem printItemsM_sim {β : Type} {fn : Nat → σ → Writer → Res (σ × Writer)} {gn : β → Writer → Res Writer} : ∀ (xs : List β) (k : Nat),
    (∀ (j : Nat) (x : β), xs[j]? = some x → ∀ s w, I s → WSim I (fn (k + j) s w) (gn x w)) → ∀ (first : Bool) (s : σ) (w : Writer), I s →
    WSim I (printItemsM fn (List.range' k xs.length) first s w) (printItems gn xs first w)
  | [], _, _, _, s, w, hs => ⟨s, rfl, hs⟩
  | x :: xs, k, h, first, s, w, hs => by
    have ih := printItemsM_sim (fn := fn) (gn := gn) xs (k + 1) (fun j y hj => by
      have := h (j + 1) y (by simpa using hj)
      rwa [show k + (j + 1) = k + 1 + j by omega] at this)
    simp only [List.length_cons, List.range'_succ]
    unfold printItemsM printItems
    by_cases hw : w.ok = true
    · rw [if_pos hw, if_pos hw]
      show WSim I (Except.bind _ _) (Except.bind _ _)
      cases itemLayout first w with
      | error e => rfl
      | ok w1 =>
        simp only [Except.bind]
        have g2 := h 0 x rfl s w1 hs
        rw [Nat.add_zero] at g2
        show WSim I (Except.bind _ _) (Except.bind _ _)
        cases hq2 : gn x w1 with
        | error e => rw [hq2] at g2; have g2 : fn k s _ = .error e := g2; rw [g2]; rfl
        | ok w3 =>
          rw [hq2] at g2
          obtain ⟨s2, g2, g5⟩ := g2
          rw [g2]
          exact ih false s2 w3 g5
    · rw [if_neg hw, if_neg hw]
      exact ⟨s, rfl, hs⟩

theorem printArrayM_sim {β : Type} {fn : Nat → σ → Writer → Res (σ × Writer)} {gn : β → Writer → Res Writer} (xs : List β)
    (h : ∀ (j : Nat) (x : β), xs[j]? = some x → ∀ s w, I s → WSim I (fn j s w) (gn x w)) (s : σ) (w : Writer) (hs : I s) :
    WSim I (printArrayM fn xs.length s w) (printArray gn xs w) := by
  unfold printArrayM printArray
  show WSim I (Except.bind _ _) (Except.bind _ _)
  cases openLayout (decide (xs.length > 1)) (w.push [91]) with
  | error e => rfl
  | ok w1 =>
    simp only [Except.bind]
    have g := printItemsM_sim (I := I) xs 0 (fun j x hj => by rw [Nat.zero_add]; exact h j x hj) true s w1 hs
    rw [← List.range_eq_range'] at g
    show WSim I (Except.bind _ _) (Except.bind _ _)
    cases hq : printItems gn xs true w1 with
    | error e => rw [hq] at g; have g : printItemsM fn (List.range xs.length) true s w1 = .error e := g; rw [g]; rfl
    | ok r =>
      rw [hq] at g
      obtain ⟨s1, g, g1⟩ := g
      rw [g]
      simp only [Except.bind]
      cases r.2 with
      | false => exact ⟨s1, rfl, g1⟩
      | true =>
        simp only [if_true]
        show WSim I (Except.bind _ _) (Except.bind _ _)
        cases closeLayout (decide (xs.length > 1)) r.1 with
        | error e => rfl
        | ok w2 => exact ⟨s1, rfl, g1⟩

end

/-! ### What a printer sees -/

section
variable {p : Prog} {N : Native} {L : Layout} {order : Ty → List Bytes → List Bytes}

theorem ok_ext {h h' : Heap} (he : Ext h h') {a n : Nat} (hk : h.Ok a n) : h'.Ok a n := ⟨hk.1, Nat.le_trans hk.2 he.grow⟩

/-- new objects make no difference -/
theorem Shows.ext {h h' : Heap} (hL : L.Sound p N) (he : Ext h h') {t : Ty} {a : Nat} {v : JV} (hs : Shows p N L order h t a v) :
    Shows p N L order h' t a v := by
  induction hs with
  | scalar t a v cells cs h1 h2 h3 h4 =>
    exact .scalar t a v cells cs h1 h2 (ok_ext he h3) fun j hj => by rw [he.same _ (by have := h3.2; omega), h4 j hj]
  | list t a e vs h1 h2 h3 _ ih =>
    obtain ⟨w1, -, -⟩ := vec_kept h2 he.grow fun y hy _ => he.same y hy
    have := h2.obj.2
    refine .list t a e vs h1 w1 (by rw [he.same _ (by omega), h3]) fun i v hv => ?_
    rw [he.same a (by omega)]
    exact ih i v hv
  | map t a e K m h1 h2 h3 h4 h5 _ ih =>
    obtain ⟨w1, w2, w3, w4, w5⟩ := map_kept h2 he.grow fun y hy _ => he.same y hy
    refine .map t a e K m h1 w1 h3 h4 ?_ fun k x b hk hb => ih k x b hk ((w5 _ _).1 hb)
    rw [w2, ← h5]
    refine List.map_congr_left fun d hd => ?_
    have := (h2.node d hd).1.2
    unfold Heap.cells
    refine List.map_congr_left fun j hj => he.same _ ?_
    have := List.mem_range.1 hj
    omega
  | obj t a field fs h1 h2 h3 _ ih => exact .obj t a field fs h1 (ok_ext he h2) h3 ih
  | null t a e n h1 h2 h3 =>
    have s1 := hL.ptr t e n h1
    exact .null t a e n h1 (ok_ext he h2) (by rw [he.same _ (by have := h2.2; omega), h3])
  | ptr t a e n v h1 h2 h3 _ ih =>
    have s1 := hL.ptr t e n h1
    have e1 : h'.mem a = h.mem a := he.same _ (by have := h2.2; omega)
    exact .ptr t a e n v h1 (ok_ext he h2) (by rw [e1]; exact h3) (by rw [e1]; exact ih)

theorem ext_refl (h : Heap) : Ext h h := ⟨fun _ _ => rfl, Nat.le_refl _⟩

theorem ext_trans {a b c : Heap} (h1 : Ext a b) (h2 : Ext b c) : Ext a c :=
  ⟨fun y hy => by rw [h2.same y (Nat.lt_of_lt_of_le hy h1.grow), h1.same y hy], Nat.le_trans h1.grow h2.grow⟩

/-! ### Every object that parsing can leave behind has a value to print -/

theorem list_choose {α β : Type} {R : Nat → α → β → Prop} : ∀ (xs : List α) (k : Nat), (∀ (i : Nat) (x : α), xs[i]? = some x → ∃ y, R (k + i) x y) →
    ∃ ys : List β, ys.length = xs.length ∧ ∀ (i : Nat) (x : α) (y : β), xs[i]? = some x → ys[i]? = some y → R (k + i) x y
  | [], _, _ => ⟨[], rfl, fun i x y h => by cases h⟩
  | x :: xs, k, h => by
    obtain ⟨y, hy⟩ := h 0 x rfl
    obtain ⟨ys, h1, h2⟩ := list_choose (R := R) xs (k + 1) fun i x hx => by
      have := h (i + 1) x (by simpa using hx)
      rwa [show k + (i + 1) = k + 1 + i by omega] at this
    refine ⟨y :: ys, by simp [h1], fun i a b ha hb => ?_⟩
    cases i with
    | zero => cases ha; cases hb; exact hy
    | succ i =>
      have := h2 i a b (by simpa using ha) (by simpa using hb)
      rwa [show k + 1 + i = k + (i + 1) by omega] at this

theorem nodup_inj {α β : Type} {f : α → β} : ∀ {l : List α}, (l.map f).Nodup → ∀ a ∈ l, ∀ b ∈ l, f a = f b → a = b
  | [], _, a, ha, _, _, _ => by cases ha
  | x :: l, hn, a, ha, b, hb, he => by
    rw [List.map_cons, List.nodup_cons] at hn
    rcases List.mem_cons.1 ha with h1 | h1 <;> rcases List.mem_cons.1 hb with h2 | h2
    · rw [h1, h2]
    · subst h1; exact absurd (List.mem_map.2 ⟨b, h2, he.symm⟩) hn.1
    · subst h2; exact absurd (List.mem_map.2 ⟨a, h1, he⟩) hn.1
    · exact nodup_inj hn.2 a h1 b h2 he

theorem get_map_val (F : Bytes → JV) (k : Bytes) : ∀ fs : List (Bytes × JV), Assoc.get (fs.map fun q => (q.1, F q.1)) k = (Assoc.get fs k).map fun _ => F k
  | [] => rfl
  | (a, b) :: fs => by
    simp only [List.map_cons, Assoc.get]
    by_cases h : a = k
    · subst h; simp
    · simp [h, get_map_val F k fs]

theorem get_keys (F : Bytes → JV) (k : Bytes) : ∀ ks : List Bytes, Assoc.get (ks.map fun k => (k, F k)) k = if k ∈ ks then some (F k) else none
  | [] => rfl
  | a :: ks => by
    simp only [List.map_cons, Assoc.get]
    by_cases h : a = k
    · subst h; simp
    · have : ¬ k = a := fun c => h c.symm
      simp [h, this, get_keys F k ks]

theorem get_some_iff {m : List (Bytes × JV)} {k : Bytes} : (Assoc.get m k).isSome ↔ k ∈ m.map (·.1) := by
  induction m with
  | nil => simp [Assoc.get]
  | cons q m ih =>
    obtain ⟨a, b⟩ := q
    simp only [Assoc.get, List.map_cons, List.mem_cons]
    by_cases h : a = k
    · simp [h]
    · have : ¬ k = a := fun c => h c.symm
      rw [if_neg h, ih]; simp [this]

theorem nodup_of_map {α β : Type} {f : α → β} : ∀ {l : List α}, (l.map f).Nodup → l.Nodup
  | [], _ => .nil
  | x :: l, h => by
    rw [List.map_cons, List.nodup_cons] at h
    exact List.nodup_cons.2 ⟨fun c => h.1 (List.mem_map.2 ⟨x, c, rfl⟩), nodup_of_map h.2⟩

theorem ordered_nodup {m : List (Bytes × JV)} (h : Ordered m) : (m.map (·.1)).Nodup :=
  List.Pairwise.imp (fun {a b} hab c => by subst c; rw [bytesLt_irrefl] at hab; cases hab) h

/-- An object has a value to print: its value, with the entries of maps in the order in which the maps go through them. -/
theorem Rep.shows {h : Heap} (hL : L.Sound p N) {t : Ty} {a : Nat} {v : JV} {O : Nat → Prop} (hr : Rep p N L h t a v O) :
    ∃ v', Shuffled v v' ∧ Shows p N L (fun _ ks => ks) h t a v' := by
  induction hr with
  | scalar t a v cells cs O h1 h2 h3 h4 h5 => exact ⟨v, .same v, .scalar t a v cells cs h1 h2 h3 h4⟩
  | null t a e n O h1 h2 h3 => exact ⟨.null, .same _, .null t a e n h1 h2 h3⟩
  | ptr t a e n v Oe O h1 h2 h3 _ _ _ _ _ ih =>
    obtain ⟨v', g1, g2⟩ := ih
    exact ⟨.ptr v', .ptr v v' g1, .ptr t a e n v' h1 h2 (by omega) g2⟩
  | list t a e vs Os O h1 h2 h3 _ _ _ _ ih =>
    obtain ⟨vs', g1, g2⟩ := list_choose (R := fun i v v' => Shuffled v v' ∧ Shows p N L (fun _ ks => ks) h e (h.mem a + p.size e * i) v') vs 0
      fun i v hv => by rw [Nat.zero_add]; exact ih i v hv
    have hex : ∀ (i : Nat) (v' : JV), vs'[i]? = some v' → ∃ v, vs[i]? = some v := by
      intro i v' hv
      have : i < vs'.length := by
        rcases Nat.lt_or_ge i vs'.length with hlt | hge
        · exact hlt
        · rw [List.getElem?_eq_none hge] at hv; cases hv
      exact ⟨_, List.getElem?_eq_getElem (by omega)⟩
    refine ⟨.list vs', .list vs vs' g1 fun i v v' hv hv' => (g2 i v v' hv hv').1, .list t a e vs' h1 h2 (by omega) fun i v' hv' => ?_⟩
    obtain ⟨v, hv⟩ := hex i v' hv'
    have := (g2 i v v' hv hv').2
    rwa [Nat.zero_add] at this
  | map t a e K m B Os O h1 h2 h3 h4 h5 _ _ _ _ ih =>
    have hF : ∀ k, ∃ x', ∀ x, Assoc.get m k = some x → Shuffled x x' ∧ Shows p N L (fun _ ks => ks) h e (B k) x' := by
      intro k
      cases hg : Assoc.get m k with
      | none => exact ⟨.null, fun x hx => by cases hx⟩
      | some x =>
        obtain ⟨x', g⟩ := ih k x hg
        exact ⟨x', fun y hy => by cases hy; exact g⟩
    obtain ⟨F, hF⟩ := Classical.axiomOfChoice hF
    obtain ⟨ks, g1, g2⟩ := list_choose (R := fun _ d k => (Assoc.get m k).isSome = true ∧ h.cells d K.key = keyCells p N k) (h.nodes a) 0
      fun i d hd => h4 d (List.mem_of_getElem? hd)
    have hcells : (h.nodes a).map (fun d => h.cells d K.key) = ks.map (keyCells p N) := by
      refine List.ext_getElem (by simp [g1]) fun i hi hj => ?_
      simp only [List.length_map] at hi hj
      rw [List.getElem_map, List.getElem_map]
      exact (g2 i _ _ (List.getElem?_eq_getElem hi) (List.getElem?_eq_getElem hj)).2
    have hnd : ks.Nodup := by
      have := h2.keys
      rw [hcells] at this
      exact nodup_of_map this
    have hks : (ks.map fun k => (k, F k)).map (·.1) = ks := by
      rw [List.map_map]; exact List.map_id _
    have hin : ∀ k, k ∈ ks ↔ k ∈ m.map (·.1) := by
      intro k
      constructor
      · intro hk
        obtain ⟨i, hi, rfl⟩ := List.getElem_of_mem hk
        exact get_some_iff.1 (g2 i _ _ (List.getElem?_eq_getElem (by omega)) (List.getElem?_eq_getElem hi)).1
      · intro hk
        obtain ⟨d, d1, -, d3⟩ := h5 k (get_some_iff.2 hk)
        have : keyCells p N k ∈ ks.map (keyCells p N) := by rw [← hcells, ← d3]; exact List.mem_map.2 ⟨d, d1, rfl⟩
        obtain ⟨k', k1, k2⟩ := List.mem_map.1 this
        rw [← hL.strings _ _ k2]; exact k1
    have hperm : ks.Perm (m.map (·.1)) := (List.perm_ext_iff_of_nodup hnd (ordered_nodup h3)).2 hin
    have hget : ∀ k x', Assoc.get (ks.map fun k => (k, F k)) k = some x' → x' = F k ∧ ∃ x, Assoc.get m k = some x := by
      intro k x' hx
      rw [get_keys] at hx
      by_cases hk : k ∈ ks
      · rw [if_pos hk] at hx; cases hx
        exact ⟨rfl, Option.isSome_iff_exists.1 (get_some_iff.2 ((hin k).1 hk))⟩
      · rw [if_neg hk] at hx; cases hx
    refine ⟨.map (ks.map fun k => (k, F k)), .map m _ (by rw [hks]; exact hperm) fun k x x' hx hx' => ?_,
      .map t a e K _ h1 h2 (by rw [hks]; exact hnd) (.refl _) (by rw [hks]; exact hcells) fun k x' b hx' hb => ?_⟩
    · obtain ⟨rfl, -⟩ := hget k x' hx'
      exact (hF k x hx).1
    · obtain ⟨rfl, x, hx⟩ := hget k x' hx'
      have hb2 : b = B k := by
        obtain ⟨d, d1, d2, d3⟩ := hb
        obtain ⟨d', e1, e2, e3⟩ := h5 k (by rw [hx]; rfl)
        rw [d2, e2, nodup_inj h2.keys d d1 d' e1 (d3.trans e3.symm)]
      rw [hb2]
      exact (hF k x hx).2
  | obj t a field fs Os O h1 h2 h3 _ _ _ _ ih =>
    have hF : ∀ k, ∃ x', ∀ x f, Assoc.get fs k = some x → field k = some f → Shuffled x x' ∧ Shows p N L (fun _ ks => ks) h f.1 (a + f.2) x' := by
      intro k
      cases hg : Assoc.get fs k with
      | none => exact ⟨.null, fun x f hx => by cases hx⟩
      | some x =>
        cases hf : field k with
        | none => exact ⟨.null, fun x f _ hx => by cases hx⟩
        | some f =>
          obtain ⟨x', g⟩ := ih k x f hg hf
          exact ⟨x', fun y f' hy hf' => by cases hy; cases hf'; exact g⟩
    obtain ⟨F, hF⟩ := Classical.axiomOfChoice hF
    refine ⟨.obj (fs.map fun q => (q.1, F q.1)), .obj fs _ (by rw [List.map_map]; rfl) fun k x x' hx hx' => ?_,
      .obj t a field _ h1 h2 (fun k f hf => ?_) fun k x' f hx' hf => ?_⟩
    · rw [get_map_val, hx] at hx'
      cases hx'
      obtain ⟨f, hf⟩ := Option.isSome_iff_exists.1 ((h3 k).1 (by rw [hx]; rfl))
      exact (hF k x f hx hf).1
    · obtain ⟨x, hx⟩ := Option.isSome_iff_exists.1 ((h3 k).2 (by rw [hf]; rfl))
      exact ⟨F k, by rw [get_map_val, hx]; rfl⟩
    · obtain ⟨x, hx⟩ := Option.isSome_iff_exists.1 ((h3 k).2 (by rw [hf]; rfl))
      rw [get_map_val, hx] at hx'
      cases hx'
      exact (hF k x f hx hf).2

end

end Reflect.Json

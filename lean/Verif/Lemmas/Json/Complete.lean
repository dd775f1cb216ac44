import Verif.Lemmas.Json.DocFun
/- A value that stands for a document is printed. -/
namespace Reflect.Json

variable {env : Env} {c : WCache} {wo : WOpts}

/-- a writer without an error that has room for `k` more levels of indentation -/
structure Room (wo : WOpts) (k : Nat) (w : Writer) : Prop where
  err : w.err = none
  opts : w.opts = wo
  room : wo.pretty = true → w.indent + k ≤ 1024

theorem Room.push {k : Nat} {w : Writer} (h : Room wo k w) (bs : Bytes) : Room wo k (w.push bs) :=
  ⟨h.err, h.opts, h.room⟩

theorem Room.less {k k' : Nat} {w : Writer} (h : Room wo k w) (hk : k' ≤ k) : Room wo k' w :=
  ⟨h.err, h.opts, fun hp => by have := h.room hp; omega⟩

theorem newline_ok {k : Nat} {w : Writer} (h : Room wo k w) : ∃ ws, w.newline = .ok (w.push ws) := by
  unfold Writer.newline
  rw [h.opts]
  by_cases hp : wo.pretty = true
  · have := h.room hp
    rw [if_pos hp, if_pos (by show w.indent * 4 ≤ 4096; omega), Writer.push_push]
    exact ⟨_, rfl⟩
  · rw [if_neg hp]
    exact ⟨[], by rw [Writer.push_nil]⟩

theorem space_push (w : Writer) : ∃ ws, w.space = w.push ws := by
  obtain ⟨ws, _, h⟩ := space_spec w
  exact ⟨ws, h⟩

theorem itemLayout_ok {k : Nat} {w : Writer} (h : Room wo k w) (first : Bool) : ∃ ws, itemLayout first w = .ok (w.push ws) := by
  unfold itemLayout
  cases first with
  | true => exact ⟨[], by rw [Writer.push_nil]; rfl⟩
  | false =>
    obtain ⟨ws, e⟩ := newline_ok (h.push [44])
    exact ⟨[44] ++ ws, by simp only [Bool.false_eq_true, if_false]; rw [e, Writer.push_push]⟩

/-- with room for `k` levels, the printing function writes the document `x` -/
def Writes (Str : Bytes → Bytes → Prop) (wo : WOpts) (k : Nat) (f : Writer → Res Writer) (x : JTree) : Prop :=
  ∀ w, Room wo k w → ∃ body, f w = .ok (w.push body) ∧ Gram Str x body

theorem newline_ok_ws {k : Nat} {w : Writer} (h : Room wo k w) : ∃ ws, w.newline = .ok (w.push ws) ∧ Ws ws := by
  obtain ⟨ws, e⟩ := newline_ok h
  obtain ⟨ws', h1, h2⟩ := newline_spec e
  exact ⟨ws', by rw [e, h2], h1⟩

theorem itemLayout_ok_ws {k : Nat} {w : Writer} (h : Room wo k w) (first : Bool) :
    ∃ ws, itemLayout first w = .ok (w.push ((if first then [] else [44]) ++ ws)) ∧ Ws ws := by
  obtain ⟨ws, e⟩ := itemLayout_ok h first
  obtain ⟨ws', h1, h2⟩ := itemLayout_spec e
  exact ⟨ws', by rw [e, h2], h1⟩

theorem printItems_complete {α : Type} {Str : Bytes → Bytes → Prop} {fn : α → Writer → Res Writer} {k : Nat}
    {xs : List α} {ts : List JTree} (h : All2 (fun x t => Writes Str wo k (fn x) t) xs ts) :
    ∀ (first : Bool) (w : Writer), Room wo k w →
    ∃ body, printItems fn xs first w = .ok (w.push body, true) ∧ SeqOf (Elems Str) first ts body := by
  induction h with
  | nil => intro first w _; exact ⟨[], by unfold printItems; rw [Writer.push_nil], Or.inl ⟨rfl, rfl⟩⟩
  | @cons x t xs ts hx _ ih =>
    intro first w hw
    obtain ⟨b1, e1, w1⟩ := itemLayout_ok_ws hw first
    obtain ⟨b2, e2, g2⟩ := hx _ (hw.push _)
    obtain ⟨b3, e3, g3⟩ := ih false _ ((hw.push _).push b2)
    refine ⟨(if first then [] else [44]) ++ b1 ++ b2 ++ b3, ?_, Or.inr ?_⟩
    · unfold printItems
      rw [if_pos ((Writer.ok_iff w).mpr hw.err), e1, okb, e2, okb, e3]
      simp [Writer.push_push]
    · rcases g3 with ⟨rfl, rfl⟩ | ⟨e, rfl, g6⟩
      · exact ⟨b1 ++ b2 ++ [], by simp, Elems.one t b1 b2 [] w1 g2 ws_nil⟩
      · exact ⟨b1 ++ b2 ++ [] ++ [44] ++ e, by simp, Elems.cons t ts b1 b2 [] e w1 g2 ws_nil g6⟩

/-- the layout after the opening bracket -/
theorem openLayout_ok {k : Nat} {w : Writer} (h : Room wo (k + 1) w) (many : Bool) :
    ∃ ws, openLayout many w = .ok { w.push ws with indent := w.indent + (if many then 1 else 0) } ∧ Ws ws ∧
      Room wo k { w.push ws with indent := w.indent + (if many then 1 else 0) } := by
  have hr : ∀ ws, Room wo k { w.push ws with indent := w.indent + (if many then 1 else 0) } := by
    intro ws
    refine ⟨h.err, h.opts, fun hp => ?_⟩
    have := h.room hp
    show w.indent + (if many then 1 else 0) + k ≤ 1024
    split <;> omega
  unfold openLayout
  cases many with
  | true =>
    obtain ⟨ws, e, hw⟩ := newline_ok_ws (w := w.indented) (k := k) (by simpa [Writer.indented, Writer.push] using hr [])
    exact ⟨ws, by simp only [if_true]; rw [e]; rfl, hw, hr ws⟩
  | false =>
    obtain ⟨ws, hw, e⟩ := space_spec w
    exact ⟨ws, by simp only [Bool.false_eq_true, if_false]; rw [e]; rfl, hw, hr ws⟩

theorem closeLayout_ok {k : Nat} {w : Writer} (h : Room wo k w) (many : Bool) :
    ∃ ws, closeLayout many w = .ok { w.push ws with indent := w.indent - (if many then 1 else 0) } ∧ Ws ws := by
  unfold closeLayout
  cases many with
  | true =>
    have hr : Room wo k w.unindented := ⟨h.err, h.opts, fun hp => by
      have := h.room hp
      show w.indent - 1 + k ≤ 1024
      omega⟩
    obtain ⟨ws, e, hw⟩ := newline_ok_ws hr
    exact ⟨ws, by simp only [if_true]; rw [e]; rfl, hw⟩
  | false =>
    obtain ⟨ws, hw, e⟩ := space_spec w
    exact ⟨ws, by simp only [Bool.false_eq_true, if_false]; rw [e]; rfl, hw⟩

theorem printArray_complete {α : Type} {Str : Bytes → Bytes → Prop} {fn : α → Writer → Res Writer} {k : Nat} {xs : List α}
    {ts : List JTree} (h : All2 (fun x t => Writes Str wo k (fn x) t) xs ts) :
    Writes Str wo (k + 1) (printArray fn xs) (.arr ts) := by
  intro w hw
  obtain ⟨b1, e1, w1, r1⟩ := openLayout_ok (hw.push [91]) (decide (xs.length > 1))
  obtain ⟨b2, e2, g2⟩ := printItems_complete h true _ r1
  obtain ⟨b3, e3, w3⟩ := closeLayout_ok (r1.push b2) (decide (xs.length > 1))
  refine ⟨[91] ++ (b1 ++ b2 ++ b3) ++ [93], ?_, ?_⟩
  · unfold printArray
    simp only [e1, okb, e2]
    simp only [if_true]
    rw [e3, okb]
    simp [Writer.push]
  · rcases g2 with ⟨rfl, rfl⟩ | ⟨e, rfl, g6⟩
    · have := Gram.arrNil (Str := Str) (b1 ++ b3) (ws_append w1 w3)
      simpa using this
    · have := Gram.arr (Str := Str) ts _ (elems_trail w3 (elems_lead w1 g6))
      simpa using this

theorem printMembers_complete {fn : Bytes → Writer → Res Writer} {skip : Bytes → Res Bool} {k : Nat} {ks : List Bytes}
    {ms : List (Bytes × JTree)}
    (h : Shown skip (fun a x => (∃ t, FText wo a t) ∧ Writes (FText wo) wo k (fn a) x) ks ms) :
    ∀ (first : Bool) (w : Writer), Room wo k w →
    ∃ body, printMembers fn skip ks first w = .ok (w.push body, true) ∧ SeqOf (Members (FText wo)) first ms body := by
  induction h with
  | nil => intro first w _; exact ⟨[], by unfold printMembers; rw [Writer.push_nil], Or.inl ⟨rfl, rfl⟩⟩
  | @omitted a ks ms hs _ ih =>
    intro first w hw
    obtain ⟨b, e, g⟩ := ih first w hw
    refine ⟨b, ?_, g⟩
    unfold printMembers
    rw [if_pos ((Writer.ok_iff w).mpr hw.err), hs, okb]
    simpa using e
  | @shown a x ks ms hs hx _ ih =>
    intro first w hw
    obtain ⟨⟨t, ht⟩, hx⟩ := hx
    obtain ⟨b1, e1, w1⟩ := itemLayout_ok_ws hw first
    have e2 := formatString_complete ht (w := w.push ((if first then [] else [44]) ++ b1)) hw.opts hw.err
    obtain ⟨b3, w3, e3⟩ := space_spec (((w.push ((if first then [] else [44]) ++ b1)).push ([34] ++ t ++ [34])).push [58])
    obtain ⟨b4, e4, g4⟩ := hx _ ((((hw.push _).push ([34] ++ t ++ [34])).push [58]).push b3)
    obtain ⟨b5, e5, g5⟩ := ih false _ (((((hw.push _).push ([34] ++ t ++ [34])).push [58]).push b3).push b4)
    refine ⟨(if first then [] else [44]) ++ b1 ++ ([34] ++ t ++ [34]) ++ [58] ++ b3 ++ b4 ++ b5, ?_, Or.inr ?_⟩
    · unfold printMembers
      rw [if_pos ((Writer.ok_iff w).mpr hw.err), hs, okb]
      simp only [Bool.false_eq_true, if_false]
      rw [e1, okb, e2, okb, e3, e4, okb, e5]
      simp [Writer.push_push]
    · rcases g5 with ⟨rfl, rfl⟩ | ⟨e, rfl, k6⟩
      · exact ⟨b1 ++ ([34] ++ t ++ [34]) ++ [] ++ [58] ++ b3 ++ b4 ++ [], by simp,
          Members.one a x b1 t [] b3 b4 [] w1 ht ws_nil w3 g4 ws_nil⟩
      · exact ⟨b1 ++ ([34] ++ t ++ [34]) ++ [] ++ [58] ++ b3 ++ b4 ++ [] ++ [44] ++ e, by simp,
          Members.cons a x ms b1 t [] b3 b4 [] e w1 ht ws_nil w3 g4 ws_nil k6⟩

theorem printObject_complete {fn : Bytes → Writer → Res Writer} {skip : Bytes → Res Bool} {k : Nat} {ks : List Bytes}
    {ms : List (Bytes × JTree)}
    (h : Shown skip (fun a x => (∃ t, FText wo a t) ∧ Writes (FText wo) wo k (fn a) x) ks ms) :
    Writes (FText wo) wo (k + 1) (printObject fn skip ks) (.obj ms) := by
  intro w hw
  obtain ⟨b1, e1, w1, r1⟩ := openLayout_ok (hw.push [123]) (decide (ks.length > 1))
  obtain ⟨b2, e2, g2⟩ := printMembers_complete h true _ r1
  obtain ⟨b3, e3, w3⟩ := closeLayout_ok (r1.push b2) (decide (ks.length > 1))
  refine ⟨[123] ++ (b1 ++ b2 ++ b3) ++ [125], ?_, ?_⟩
  · unfold printObject
    simp only [e1, okb, e2]
    simp only [if_true]
    rw [e3, okb]
    simp [Writer.push]
  · rcases g2 with ⟨rfl, rfl⟩ | ⟨e, rfl, g6⟩
    · have := Gram.objNil (Str := FText wo) (b1 ++ b3) (ws_append w1 w3)
      simpa using this
    · have := Gram.obj (Str := FText wo) ms _ (members_trail w3 (members_lead w1 g6))
      simpa using this

/-- emptiness of a value that can be printed is found out -/
theorem doc_isEmpty (hc : GoodW env c) {k : Bool} : ∀ {ty : TyId} {v : JV} {x : JTree}, Doc env k ty v x →
    (Assoc.get c ty).isSome → ∃ b, isEmptyV env c v ty = .ok b
  | _, _, _, .bool ty d b hd he, hs => by rw [isEmpty_eq hc hd hs]; exact ⟨_, rfl⟩
  | _, _, _, .int ty d b hd he, hs => by
    rw [isEmpty_eq hc hd hs]; simp only; rw [if_pos (exact_has hd he)]; exact ⟨_, rfl⟩
  | _, _, _, .fltInt ty d x hd he _, hs => by
    rw [isEmpty_eq hc hd hs]; simp only; rw [if_pos (exact_has hd he)]; exact ⟨_, rfl⟩
  | _, _, _, .flt ty d x hd he _, hs => by
    rw [isEmpty_eq hc hd hs]; simp only; rw [if_pos (exact_has hd he)]; exact ⟨_, rfl⟩
  | _, _, _, .str ty d b hd he, hs => by rw [isEmpty_eq hc hd hs]; exact ⟨_, rfl⟩
  | _, _, _, .null ty d t hd, hs => by rw [isEmpty_eq hc hd hs]; exact ⟨_, rfl⟩
  | _, _, _, .ptr ty d t v x hd h, hs => by
    rw [isEmpty_eq hc hd hs]
    obtain ⟨st, h1, h2, h3, _⟩ := goodW_get hc hd hs
    exact doc_isEmpty hc h (h3 t (Or.inl rfl)).2
  | _, _, _, .list ty d t vs xs hd _, hs => by rw [isEmpty_eq hc hd hs]; exact ⟨_, rfl⟩
  | _, _, _, .map ty d t m es ms hd _ _ _, hs => by rw [isEmpty_eq hc hd hs]; exact ⟨_, rfl⟩
  | _, _, _, .obj ty d fs l ms hd _ _, hs => by rw [isEmpty_eq hc hd hs]; exact ⟨_, rfl⟩
termination_by structural _ _ _ h => h

/-- all the strings of a document have a text -/
def Texts (wo : WOpts) (ss : List Bytes) : Prop := ∀ s ∈ ss, ∃ t, FText wo s t

theorem printV_exact {env : Env} {ty : TyId} {d : TyD} {sh : Shape} (hd : env.Has ty d sh) (he : d.exact = true) :
    env.exact ty = true := by unfold Env.exact; rw [hd.1]; exact he

/-- with fuel `n`, the value is printed as the document by any writer with enough room -/
def Prints (env : Env) (c : WCache) (wo : WOpts) (k n : Nat) (ty : TyId) (v : JV) (x : JTree) : Prop :=
  Writes (FText wo) wo k (printV env c n ty v) x

theorem Prints.more {k k' n : Nat} {ty : TyId} {v : JV} {x : JTree} (h : Prints env c wo k n ty v x) (hk : k ≤ k') :
    Prints env c wo k' n ty v x := fun w hw => h w (hw.less hk)

theorem All2.imp {α β : Type} {R S : α → β → Prop} (h : ∀ a b, R a b → S a b) : ∀ {xs : List α} {ys : List β},
    All2 R xs ys → All2 S xs ys
  | _, _, .nil => .nil
  | _, _, .cons h1 h2 => .cons (h _ _ h1) (All2.imp h h2)

mutual
theorem doc_prints (hc : GoodW env c) (hsh : env.Shaped) : ∀ {ty : TyId} {v : JV} {x : JTree},
    Doc env wo.compact ty v x → (Assoc.get c ty).isSome → Texts wo x.strs →
    ∃ n0, ∀ n, n0 ≤ n → Prints env c wo x.depth n ty v x
  | _, _, _, .bool ty d b hd he, hs, _ => by
    obtain ⟨st, h1, h2, h3, _⟩ := goodW_get hc hd hs
    injection h2 with h2
    refine ⟨1, fun n hn w _ => ?_⟩
    obtain ⟨m, rfl⟩ : ∃ m, n = m + 1 := ⟨n - 1, by omega⟩
    unfold printV; simp only [h1, ← h2]; rw [if_pos (exact_has hd he)]
    refine ⟨_, rfl, ?_⟩
    cases b
    · exact Gram.false
    · exact Gram.true
  | _, _, _, .int ty d b hd he, hs, _ => by
    obtain ⟨st, h1, h2, h3, _⟩ := goodW_get hc hd hs
    injection h2 with h2
    refine ⟨1, fun n hn w _ => ?_⟩
    obtain ⟨m, rfl⟩ : ∃ m, n = m + 1 := ⟨n - 1, by omega⟩
    unfold printV; simp only [h1, ← h2]; rw [if_pos (exact_has hd he)]; exact ⟨_, rfl, Gram.int _ (decText_gram b)⟩
  | _, _, _, .fltInt ty d x hd he hg, hs, _ => by
    obtain ⟨st, h1, h2, h3, _⟩ := goodW_get hc hd hs
    injection h2 with h2
    refine ⟨1, fun n hn w _ => ?_⟩
    obtain ⟨m, rfl⟩ : ∃ m, n = m + 1 := ⟨n - 1, by omega⟩
    unfold printV; simp only [h1, ← h2]; rw [if_pos (exact_has hd he)]; exact ⟨_, rfl, Gram.int _ hg⟩
  | _, _, _, .flt ty d x hd he hg, hs, _ => by
    obtain ⟨st, h1, h2, h3, _⟩ := goodW_get hc hd hs
    injection h2 with h2
    refine ⟨1, fun n hn w _ => ?_⟩
    obtain ⟨m, rfl⟩ : ∃ m, n = m + 1 := ⟨n - 1, by omega⟩
    unfold printV; simp only [h1, ← h2]; rw [if_pos (exact_has hd he)]; exact ⟨_, rfl, Gram.float _ hg⟩
  | _, _, _, .str ty d s hd he, hs, ht => by
    obtain ⟨st, h1, h2, h3, _⟩ := goodW_get hc hd hs
    injection h2 with h2
    refine ⟨1, fun n hn w hw => ?_⟩
    obtain ⟨m, rfl⟩ : ∃ m, n = m + 1 := ⟨n - 1, by omega⟩
    obtain ⟨t, ht⟩ := ht s (by simp [JTree.strs])
    unfold printV; simp only [h1, ← h2]; rw [if_pos (exact_has hd he)]
    exact ⟨_, formatString_complete ht hw.opts hw.err, Gram.str _ _ ht⟩
  | _, _, _, .null ty d t hd, hs, _ => by
    obtain ⟨st, h1, h2, h3, _⟩ := goodW_get hc hd hs
    injection h2 with h2
    refine ⟨1, fun n hn w _ => ?_⟩
    obtain ⟨m, rfl⟩ : ∃ m, n = m + 1 := ⟨n - 1, by omega⟩
    unfold printV; simp only [h1, ← h2]; exact ⟨_, rfl, Gram.null⟩
  | _, _, _, .ptr ty d t v x hd h, hs, ht => by
    obtain ⟨st, h1, h2, h3, _⟩ := goodW_get hc hd hs
    injection h2 with h2
    obtain ⟨n0, hn0⟩ := doc_prints hc hsh h (h3 t (Or.inl rfl)).2 ht
    refine ⟨n0 + 1, fun n hn w hw => ?_⟩
    obtain ⟨m, rfl⟩ : ∃ m, n = m + 1 := ⟨n - 1, by omega⟩
    unfold printV; simp only [h1, ← h2, (h3 t (Or.inl rfl)).1]
    exact hn0 m (by omega) w hw
  | _, _, _, .list ty d t vs xs hd h, hs, ht => by
    obtain ⟨st, h1, h2, h3, _⟩ := goodW_get hc hd hs
    injection h2 with h2
    obtain ⟨n0, hn0⟩ := docElems_prints hc hsh h (h3 t (Or.inr (Or.inl rfl))).2 (by simpa [JTree.strs] using ht)
    refine ⟨n0 + 1, fun n hn w hw => ?_⟩
    obtain ⟨m, rfl⟩ : ∃ m, n = m + 1 := ⟨n - 1, by omega⟩
    unfold printV; simp only [h1, ← h2, (h3 t (Or.inr (Or.inl rfl))).1]
    exact printArray_complete (hn0 m (by omega) _ (Nat.le_refl _)) w (by simpa [JTree.depth] using hw)
  | _, _, _, .map ty d t m es ms hd he hg h, hs, ht => by
    obtain ⟨st, h1, h2, h3, _⟩ := goodW_get hc hd hs
    injection h2 with h2
    obtain ⟨n0, hn0⟩ := docEntries_prints hc hsh h (h3 t (Or.inr (Or.inr rfl))).2 (by simpa [JTree.strs] using ht)
    refine ⟨n0 + 1, fun n hn w hw => ?_⟩
    obtain ⟨q, rfl⟩ : ∃ q, n = q + 1 := ⟨n - 1, by omega⟩
    unfold printV; simp only [h1, ← h2, (h3 t (Or.inr (Or.inr rfl))).1, hd.1]
    refine printObject_complete ?_ w (by simpa [JTree.depth] using hw)
    rw [← he]
    have := hn0 q (by omega) _ (Nat.le_refl _)
    clear hn0 ht he h hw w
    generalize JTree.depthM ms = K at this
    induction this with
    | nil => exact Shown.nil
    | @cons p q es ms hx _ ih =>
      obtain ⟨k, v⟩ := p
      obtain ⟨k', x⟩ := q
      obtain ⟨e, hx1, hx2⟩ := hx
      simp only at e hx1 hx2
      subst e
      refine Shown.shown rfl ⟨hx1, ?_⟩ (ih (fun p hp => hg p (by simp [hp])))
      have e := hg (k, v) (by simp)
      simp only at e
      intro w hw
      simp only [e]
      exact hx2 w hw
  | _, _, _, .obj ty d fs l ms hd hl h, hs, ht => by
    obtain ⟨st, h1, h2, h3, h4⟩ := goodW_get hc hd hs
    injection h2 with h2
    obtain ⟨k1, k2, k3⟩ := h4 rfl
    obtain ⟨n0, hn0⟩ := docFields_prints hc hsh h
      (fun p hp => k2 p.1 p.2 (hl.2.2 p hp)) k3 (by simpa [JTree.strs] using ht)
    refine ⟨n0 + 1, fun n hn w hw => ?_⟩
    obtain ⟨q, rfl⟩ : ∃ q, n = q + 1 := ⟨n - 1, by omega⟩
    unfold printV; simp only [h1, ← h2]
    show ∃ body, printObject (fun a w => do
              let p ← getField st fs a
              printV env c q p.1 p.2 w) (skipField env c w.opts.compact st fs) st.sortedKeys w = .ok (w.push body) ∧ _
    rw [hw.opts]
    refine printObject_complete ?_ w (by simpa [JTree.depth] using hw)
    rw [k1, ← sorted_unique hl.2.1 (sortKeys_sorted _) (hl.1.trans (sortKeys_perm _).symm)]
    exact hn0 q (by omega) _ (Nat.le_refl _)
termination_by structural _ _ _ h => h
theorem docElems_prints (hc : GoodW env c) (hsh : env.Shaped) : ∀ {t : TyId} {vs : List JV} {xs : List JTree},
    DocElems env wo.compact t vs xs → (Assoc.get c t).isSome → Texts wo (JTree.strsL xs) →
    ∃ n0, ∀ n, n0 ≤ n → ∀ k, JTree.depthL xs ≤ k → All2 (fun v x => Prints env c wo k n t v x) vs xs
  | _, _, _, .nil t, _, _ => ⟨0, fun n _ k _ => All2.nil⟩
  | _, _, _, .cons t v vs x xs h1 h2, hs, ht => by
    obtain ⟨n1, hn1⟩ := doc_prints hc hsh h1 hs (fun s hs => ht s (by simp [JTree.strsL, hs]))
    obtain ⟨n2, hn2⟩ := docElems_prints hc hsh h2 hs (fun s hs => ht s (by simp [JTree.strsL, hs]))
    refine ⟨n1 + n2, fun n hn k hk => ?_⟩
    have hd : JTree.depthL (x :: xs) = max x.depth (JTree.depthL xs) := by simp [JTree.depthL]
    exact All2.cons ((hn1 n (by omega)).more (by omega)) (hn2 n (by omega) k (by omega))
termination_by structural _ _ _ h => h
theorem docEntries_prints (hc : GoodW env c) (hsh : env.Shaped) : ∀ {t : TyId} {es : List (Bytes × JV)}
    {ms : List (Bytes × JTree)}, DocEntries env wo.compact t es ms → (Assoc.get c t).isSome → Texts wo (JTree.strsM ms) →
    ∃ n0, ∀ n, n0 ≤ n → ∀ k, JTree.depthM ms ≤ k →
      All2 (fun p q => p.1 = q.1 ∧ (∃ t, FText wo p.1 t) ∧ Prints env c wo k n t p.2 q.2) es ms
  | _, _, _, .nil t, _, _ => ⟨0, fun n _ k _ => All2.nil⟩
  | _, _, _, .cons t a v es x ms h1 h2, hs, ht => by
    obtain ⟨n1, hn1⟩ := doc_prints hc hsh h1 hs (fun s hs => ht s (by simp [JTree.strsM, hs]))
    obtain ⟨n2, hn2⟩ := docEntries_prints hc hsh h2 hs (fun s hs => ht s (by simp [JTree.strsM, hs]))
    refine ⟨n1 + n2, fun n hn k hk => ?_⟩
    have hd : JTree.depthM ((a, x) :: ms) = max x.depth (JTree.depthM ms) := by simp [JTree.depthM]
    exact All2.cons ⟨rfl, ht a (by simp [JTree.strsM]), (hn1 n (by omega)).more (by omega)⟩ (hn2 n (by omega) k (by omega))
termination_by structural _ _ _ h => h
theorem docFields_prints (hc : GoodW env c) (hsh : env.Shaped) : ∀ {ty : TyId} {d : TyD} {fs : List (Bytes × JV)}
    {l : List (Bytes × FieldD)} {ms : List (Bytes × JTree)}, DocFields env wo.compact ty d fs l ms → ∀ {st : WState},
    (∀ p ∈ l, Assoc.get st.keys p.1 = some p.2.name ∧ Assoc.get st.fields p.2.name = some p.2.type ∧
      (Assoc.get c p.2.type).isSome) → (∀ a, a ∈ st.skipEmpty ↔ env.Skips ty d a) → Texts wo (JTree.strsM ms) →
    ∃ n0, ∀ n, n0 ≤ n → ∀ k, JTree.depthM ms ≤ k → Shown (skipField env c wo.compact st fs)
      (fun a x => (∃ t, FText wo a t) ∧ Writes (FText wo) wo k (fun w => do
              let p ← getField st fs a
              printV env c n p.1 p.2 w) x) (l.map (·.1)) ms
  | _, _, _, _, _, .nil ty d fs, _, _, _, _ => ⟨0, fun n _ k _ => Shown.nil⟩
  | _, _, _, _, _, .shown ty d fs a f v x l ms hv hne h1 h2, st, hst, hsk, ht => by
    obtain ⟨k1, k2, k3⟩ := hst (a, f) (by simp)
    have hgf := getField_eq (fs := fs) k1 k2
    rw [hv] at hgf
    simp only at hgf
    obtain ⟨n1, hn1⟩ := doc_prints hc hsh h1 k3 (fun s hs => ht s (by simp [JTree.strsM, hs]))
    obtain ⟨n2, hn2⟩ := docFields_prints hc hsh h2 (fun p hp => hst p (by simp [hp])) hsk
      (fun s hs => ht s (by simp [JTree.strsM, hs]))
    refine ⟨n1 + n2, fun n hn k hk => ?_⟩
    have hd : JTree.depthM ((a, x) :: ms) = max x.depth (JTree.depthM ms) := by simp [JTree.depthM]
    refine Shown.shown ?_ ⟨ht a (by simp [JTree.strsM]), fun w hw => ?_⟩ (hn2 n (by omega) k (by omega))
    · unfold skipField
      split
      · rfl
      · rename_i hb
        simp only [hgf]
        rw [okb]
        obtain ⟨b, hb2⟩ := doc_isEmpty hc h1 k3
        rw [hb2]
        cases b with
        | false => rfl
        | true =>
          refine absurd ⟨?_, (isEmpty_spec hc hsh v f.type true hb2).mp rfl⟩ hne
          rw [← hsk a]
          cases hcmp : wo.compact
          · right; simpa [hcmp] using hb
          · exact Or.inl rfl
    · simp only [hgf]
      rw [okb]
      exact hn1 n (by omega) w (hw.less (by omega))
  | _, _, _, _, _, .omitted ty d fs a f v l ms hv hsk0 hem h2, st, hst, hsk, ht => by
    obtain ⟨k1, k2, k3⟩ := hst (a, f) (by simp)
    have hgf := getField_eq (fs := fs) k1 k2
    rw [hv] at hgf
    simp only at hgf
    obtain ⟨n2, hn2⟩ := docFields_prints hc hsh h2 (fun p hp => hst p (by simp [hp])) hsk ht
    refine ⟨n2, fun n hn k hk => Shown.omitted ?_ (hn2 n hn k hk)⟩
    unfold skipField
    have hb : (!wo.compact && !st.skipEmpty.contains a) = false := by
      rcases hsk0 with h | h
      · simp [h]
      · have := (hsk a).mpr h
        simp [this]
    simp only [hb, Bool.false_eq_true, if_false, hgf]
    rw [okb]
    exact empty_isEmpty hc hem k3
termination_by structural _ _ _ _ _ h => h
end

end Reflect.Json

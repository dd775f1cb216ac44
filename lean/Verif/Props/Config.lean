import Verif.Lemmas.Config.Node
/-
  C56 the text of paths, C57 their order, C58 the tree of links, C61 index components.
-/
namespace Reflect.Config
open Json (Byte Bytes)

/-! ### C56 -/

/-- A text is accepted exactly if it is made of non-empty components, possibly with one more separator at
the end; the path is these components. -/
theorem C56_parse (sep : Byte) (s : Bytes) (p : Path) : Path.ofText s sep = .ok p ↔
    (∀ c ∈ p, Component sep c) ∧ (s = List.intercalate [sep] p ∨ (p ≠ [] ∧ s = List.intercalate [sep] p ++ [sep])) := by
  unfold Path.ofText
  rw [parseLoop_iff sep s.length s (Nat.le_refl _)]
  simp only [List.nil_append, exists_eq_left']
  rfl

/-- Every other text is an error, and nothing worse. -/
theorem C56_refused (sep : Byte) (s : Bytes) (h : ¬ ∃ p, Path.ofText s sep = .ok p) : Path.ofText s sep = .error .err :=
  (parseLoop_ends sep s.length s (Nat.le_refl _) []).resolve_left h

/-- such as a text with two separators in a row -/
example : Path.ofText [97, 46, 46, 98] = .error .err := by
  refine C56_refused _ _ ?_
  rintro ⟨p, h⟩
  have h1 : Path.ofText [97, 46, 46, 98] = .error .err := by
    unfold Path.ofText
    rw [show ([97, 46, 46, 98] : Bytes) = [97] ++ 46 :: [46, 98] from rfl, parseLoop_cut 46 (by decide), if_neg (by decide),
      show ([46, 98] : Bytes) = [] ++ 46 :: [98] from rfl, parseLoop_cut 46 (by decide), if_pos rfl]
  rw [h1] at h
  cases h

/-- The text of a path is its components with separators between them. -/
theorem C56_text (sep : Byte) (p : Path) : p.toText sep = List.intercalate [sep] p := by
  unfold Path.toText
  rw [toTextLoop_eq]
  cases p <;> simp [inter_nil]

/-- A path of proper components survives. -/
theorem C56_round_trip (sep : Byte) (p : Path) (h : ∀ c ∈ p, Component sep c) : Path.ofText (p.toText sep) sep = .ok p := by
  rw [C56_parse, C56_text]
  exact ⟨h, Or.inl rfl⟩

/-- Whatever is parsed and formatted again parses to the same. -/
theorem C56_normal (sep : Byte) (s : Bytes) (p : Path) (h : Path.ofText s sep = .ok p) : Path.ofText (p.toText sep) sep = .ok p :=
  C56_round_trip sep p ((C56_parse sep s p).mp h).1

/-- A path does not survive if a component is empty or contains the separator. -/
theorem C56_only_proper (sep : Byte) (p : Path) (h : Path.ofText (p.toText sep) sep = .ok p) : ∀ c ∈ p, Component sep c :=
  ((C56_parse sep _ p).mp h).1

/-- A path extended by a text is the path followed by the components of the text. -/
theorem C56_append (sep : Byte) (pre : Path) (s : Bytes) (q : Path) :
    pre.append s sep = .ok q ↔ ∃ p, Path.ofText s sep = .ok p ∧ q = pre ++ p := by
  unfold Path.append Path.ofText
  rw [parseLoop_iff sep s.length s (Nat.le_refl _)]
  constructor
  · rintro ⟨p, rfl, h⟩
    exact ⟨p, (parseLoop_iff sep s.length s (Nat.le_refl _) [] p).mpr ⟨p, rfl, h⟩, rfl⟩
  · rintro ⟨p, h, rfl⟩
    obtain ⟨p', e, h⟩ := (parseLoop_iff sep s.length s (Nat.le_refl _) [] p).mp h
    rw [List.nil_append] at e
    subst e
    exact ⟨_, rfl, h⟩

/-- a path of three components, one with a blank and a zero byte -/
example : ∀ c ∈ ([[97], [32, 0], [48]] : Path), Component 46 c := by
  intro c hc
  simp only [List.mem_cons, List.not_mem_nil, or_false] at hc
  rcases hc with rfl | rfl | rfl <;> exact ⟨by decide, by decide⟩

/-! ### C57 -/

/-- One path is less than another exactly if it is a proper prefix of it, or its component is the lesser one
where they first differ - strings being ordered likewise by their bytes. -/
theorem C57_order (p q : Path) : p.lt q = true ↔ PathBefore p q := lt_spec p q

theorem C57_irreflexive (p : Path) : p.lt p = false := by
  cases h : p.lt p with
  | false => rfl
  | true => exact absurd ((lt_spec p p).mp h) (PathBefore.irrefl p)

theorem C57_transitive (p q r : Path) (h1 : p.lt q = true) (h2 : q.lt r = true) : p.lt r = true := by
  rw [lt_spec] at *
  exact h1.trans h2

/-- Two paths neither of which is less are equal. -/
theorem C57_total (p q : Path) : p.lt q = true ∨ p = q ∨ q.lt p = true := by
  rw [lt_spec, lt_spec]
  exact PathBefore.total p q

theorem C57_prefix (p q : Path) (h : q ≠ []) : p.lt (p ++ q) = true := by
  rw [lt_spec]
  cases q with
  | nil => exact absurd rfl h
  | cons y s => exact Or.inl ⟨y, s, rfl⟩

/-- Nothing but extensions lies between a path and its extensions: an extension `p.q` of `p` is before any
greater path that is not itself one. -/
theorem C57_prefix_block (p q r : Path) (h : p.lt r = true) (hr : ¬ p <+: r) : (p ++ q).lt r = true := by
  rw [lt_spec] at *
  rcases h with ⟨y, s, rfl⟩ | ⟨u, x, y, s, t, rfl, rfl, h⟩
  · exact absurd (List.prefix_append p (y :: s)) hr
  · exact Or.inr ⟨u, x, y, s ++ q, t, by simp, rfl, h⟩

example : Path.lt [[97]] [[97], [98]] = true ∧ Path.lt [[97], [98]] [[98]] = true := by decide

/-! ### C58 -/

theorem states_map (ops : List Op) : (states ops).1 = linkMap ops := by
  unfold states linkMap
  have key : ∀ (ops : List Op) (m : Map) (n : Nodes),
      (ops.foldl (fun s op => (s.1.step op, s.2.step s.1 op)) (m, n)).1 = ops.foldl Map.step m := by
    intro ops
    induction ops with
    | nil => intro m n; rfl
    | cons op ops ih => intro m n; exact ih _ _
  exact key ops _ _

theorem tree_states (ops : List Op) :
    (∀ q l, l ∈ ((tree ops).find q).links ↔ (states ops).1 q l) ∧ ∀ q, (tree ops).has q = true ↔ (states ops).2 q := by
  unfold tree states
  have key : ∀ (ops : List Op) (t : Node) (m : Map) (n : Nodes), (∀ q l, l ∈ (t.find q).links ↔ m q l) → (∀ q, t.has q = true ↔ n q) →
      (∀ q l, l ∈ ((ops.foldl Op.run t).find q).links ↔ (ops.foldl (fun s op => (s.1.step op, s.2.step s.1 op)) (m, n)).1 q l) ∧
      ∀ q, (ops.foldl Op.run t).has q = true ↔ (ops.foldl (fun s op => (s.1.step op, s.2.step s.1 op)) (m, n)).2 q := by
    intro ops
    induction ops with
    | nil => intro t m n h1 h2; exact ⟨h1, h2⟩
    | cons op ops ih =>
      intro t m n h1 h2
      refine ih _ _ _ ?_ ?_
      · intro q l
        cases op with
        | add k p =>
          show l ∈ ((t.add k p).find q).links ↔ m q l ∨ (q = p ∧ l = k)
          unfold Node.add
          rw [held_at (fun m => .mk (insertLink k m.links) m.children) l (l = k)
            (fun m => ⟨by rw [links_mk, mem_insertLink]; exact Or.comm, rfl⟩), h1]
        | get p =>
          show l ∈ ((t.get p).find q).links ↔ m q l
          unfold Node.get
          rw [held_at id l False (fun m => ⟨by simp, rfl⟩), h1]
          simp
        | erase p =>
          show l ∈ ((t.erase p).find q).links ↔ m q l ∧ ¬ p <+: q
          rw [held_erase, h1]
      · intro q
        cases op with
        | add k p =>
          show (t.add k p).has q = true ↔ n q ∨ q <+: p
          unfold Node.add
          rw [has_at (fun m => .mk (insertLink k m.links) m.children) (fun _ => rfl), h2]
        | get p =>
          show (t.get p).has q = true ↔ n q ∨ q <+: p
          unfold Node.get
          rw [has_at id (fun _ => rfl), h2]
        | erase p =>
          show (t.erase p).has q = true ↔ q = [] ∨ (n q ∧ ¬ p <+: q ∧
            (¬ q <+: p ∨ ∃ r, q <+: r ∧ n r ∧ ¬ p <+: r ∧ (¬ r <+: p ∨ ∃ l, m r l)))
          rw [has_erase]
          unfold Left
          simp only [h2, h1]
  refine key ops _ _ _ ?_ ?_
  · intro q l
    rw [empty_find]
    simp [Node.empty]
  · intro q
    exact empty_has

/-- After any sequence of operations a node exists exactly where it should. -/
theorem C58_nodes (ops : List Op) (q : Path) : (tree ops).has q = true ↔ (states ops).2 q := (tree_states ops).2 q

/-- If nodes are not asked for on their own, a node exists exactly where it leads to a link: erasing leaves
no empty branch. -/
theorem C58_no_empty_branch (ops : List Op) (ho : ∀ p, Op.get p ∉ ops) (q : Path) :
    (tree ops).has q = true ↔ q = [] ∨ ∃ r l, q <+: r ∧ linkMap ops r l := by
  rw [C58_nodes, ← states_map]
  unfold states
  have key : ∀ (ops : List Op) (m : Map) (n : Nodes), (∀ p, Op.get p ∉ ops) → (∀ q, n q ↔ q = [] ∨ ∃ r l, q <+: r ∧ m r l) →
      ∀ q, (ops.foldl (fun s op => (s.1.step op, s.2.step s.1 op)) (m, n)).2 q ↔
        q = [] ∨ ∃ r l, q <+: r ∧ (ops.foldl (fun s op => (s.1.step op, s.2.step s.1 op)) (m, n)).1 r l := by
    intro ops
    induction ops with
    | nil => intro m n _ h; exact h
    | cons op ops ih =>
      intro m n ho h
      refine ih _ _ (fun p hp => ho p (by simp [hp])) ?_
      intro q
      cases op with
      | get p => exact absurd (by simp) (ho p)
      | add k p =>
        show (n q ∨ q <+: p) ↔ q = [] ∨ ∃ r l, q <+: r ∧ (m r l ∨ (r = p ∧ l = k))
        rw [h]
        constructor
        · rintro ((h | ⟨r, l, h1, h2⟩) | h)
          · exact Or.inl h
          · exact Or.inr ⟨r, l, h1, Or.inl h2⟩
          · exact Or.inr ⟨p, k, h, Or.inr ⟨rfl, rfl⟩⟩
        · rintro (h | ⟨r, l, h1, h2 | ⟨rfl, rfl⟩⟩)
          · exact Or.inl (Or.inl h)
          · exact Or.inl (Or.inr ⟨r, l, h1, h2⟩)
          · exact Or.inr h1
      | erase p =>
        show (q = [] ∨ (n q ∧ ¬ p <+: q ∧ (¬ q <+: p ∨ ∃ r, q <+: r ∧ n r ∧ ¬ p <+: r ∧ (¬ r <+: p ∨ ∃ l, m r l)))) ↔
          q = [] ∨ ∃ r l, q <+: r ∧ m r l ∧ ¬ p <+: r
        have away : ∀ {a r : Path}, ¬ a <+: p → ¬ p <+: a → a <+: r → ¬ p <+: r := by
          intro a r h1 h2 h3 h4
          rcases List.prefix_or_prefix_of_prefix h3 h4 with h | h
          · exact h1 h
          · exact h2 h
        constructor
        · rintro (h' | ⟨h1, h2, h3⟩)
          · exact Or.inl h'
          · rcases (h q).mp h1 with h1 | ⟨r, l, g1, g2⟩
            · exact Or.inl h1
            · refine Or.inr ?_
              rcases h3 with h3 | ⟨s, k1, k2, k3, k4 | ⟨l', k4⟩⟩
              · exact ⟨r, l, g1, g2, away h3 h2 g1⟩
              · rcases (h s).mp k2 with k2 | ⟨s', l', e1, e2⟩
                · subst k2; exact absurd (List.nil_prefix) k4
                · exact ⟨s', l', k1.trans e1, e2, away k4 k3 e1⟩
              · exact ⟨s, l', k1, k4, k3⟩
        · rintro (h' | ⟨r, l, h1, h2, h3⟩)
          · exact Or.inl h'
          · refine Or.inr ⟨(h q).mpr (Or.inr ⟨r, l, h1, h2⟩), fun hp => h3 (hp.trans h1), ?_⟩
            exact Or.inr ⟨r, h1, (h r).mpr (Or.inr ⟨r, l, List.prefix_refl r, h2⟩), h3, Or.inr ⟨l, h2⟩⟩
  exact key ops _ _ ho (by intro q; simp) q

/-- the path an operation is about -/
def Op.path : Op → Path
  | .add _ p => p
  | .get p => p
  | .erase p => p

theorem tree_good (ops : List Op) (h : ∀ op ∈ ops, ∀ c ∈ op.path, Component 46 c) : (tree ops).Good := by
  unfold tree
  have key : ∀ (ops : List Op) (t : Node), t.Good → (∀ op ∈ ops, ∀ c ∈ op.path, Component 46 c) → (ops.foldl Op.run t).Good := by
    intro ops
    induction ops with
    | nil => intro t h _; exact h
    | cons op ops ih =>
      intro t ht h
      refine ih _ ?_ (fun o ho => h o (by simp [ho]))
      have hp := h op (by simp)
      cases op with
      | add l p =>
        refine good_at _ ?_ p t ht hp
        intro m hm
        cases hm with
        | mk links children h1 h2 h3 h4 => exact .mk _ _ (insertLink_sorted l links h1) h2 h3 h4
      | get p => exact good_at id (fun m hm => hm) p t ht hp
      | erase p => exact good_erase p t ht
  exact key ops _ good_empty h

/-- The links listed are exactly those the plain map holds, each once - if no component contains a dot. -/
theorem C58_links (ops : List Op) (h : ∀ op ∈ ops, ∀ c ∈ op.path, Component 46 c) :
    ∃ res, (tree ops).subtree = .ok res ∧ res.Nodup ∧ ∀ q l, (q, l) ∈ res ↔ linkMap ops q l := by
  obtain ⟨res, e, h1, h2⟩ := subtree_good (tree_good ops h) [] []
  refine ⟨res, by unfold Node.subtree; simpa using e, h1, fun q l => ?_⟩
  rw [h2, ← states_map, ← (tree_states ops).1]
  constructor
  · rintro ⟨q', l', e, hl⟩
    cases e
    exact hl
  · intro hl
    exact ⟨q, l, by simp, hl⟩

/-- The links below a node that is asked for, by the rest of their paths. -/
theorem C58_links_below (ops : List Op) (h : ∀ op ∈ ops, ∀ c ∈ op.path, Component 46 c) (p : Path) (hp : ∀ c ∈ p, Component 46 c) :
    ∃ res, (((tree ops).get p).find p).subtree = .ok res ∧ res.Nodup ∧ ∀ q l, (q, l) ∈ res ↔ linkMap ops (p ++ q) l := by
  have et : (tree ops).get p = tree (ops ++ [.get p]) := by
    unfold tree; rw [List.foldl_append]; rfl
  have em : linkMap (ops ++ [.get p]) = linkMap ops := by
    unfold linkMap; rw [List.foldl_append]; rfl
  rw [et, ← em]
  have h' : ∀ op ∈ ops ++ [.get p], ∀ c ∈ op.path, Component 46 c := by
    intro op ho
    rcases List.mem_append.mp ho with ho | ho
    · exact h op ho
    · rw [List.mem_singleton] at ho; subst ho; exact hp
  obtain ⟨res, e, h1, h2⟩ := subtree_good (good_find p _ (tree_good _ h')) [] []
  refine ⟨res, by unfold Node.subtree; simpa using e, h1, fun q l => ?_⟩
  have key : ∀ (p : Path) (n : Node) (q : Path), (n.find p).find q = n.find (p ++ q) := by
    intro p
    induction p with
    | nil => intro n q; rfl
    | cons k p ih => intro n q; rw [List.cons_append, find_cons, find_cons, ih]
  rw [h2, ← states_map, ← (tree_states _).1, ← key]
  constructor
  · rintro ⟨q', l', e, hl⟩
    cases e
    exact hl
  · intro hl
    exact ⟨q, l, by simp, hl⟩

/-- adding, asking for a node and erasing on the same branches -/
example : ∀ op ∈ [Op.add [[120]] [[97], [98]], .get [[97], [99]], .erase [[97], [98]]], ∀ c ∈ op.path, Component 46 c := by
  intro op h c hc
  simp only [List.mem_cons, List.not_mem_nil, or_false] at h
  rcases h with rfl | rfl | rfl <;> simp only [Op.path, List.mem_cons, List.not_mem_nil, or_false] at hc <;>
    rcases hc with rfl | rfl <;> exact ⟨by decide, by decide⟩

/-- A component with a dot in it - from a path with another separator - is listed as two. -/
theorem C58_dotted_component (l : Path) (a b : Bytes) (ha : Component 46 a) (hb : Component 46 b) :
    (tree [.add l [a ++ 46 :: b]]).subtree = .ok [([a, b], l)] := by
  have e : tree [.add l [a ++ 46 :: b]] = .mk [] [(a ++ 46 :: b, .mk [l] [])] := rfl
  rw [e]
  unfold Node.subtree
  rw [Node.subtreeFrom, Node.subtreeChildren, Path.append, parseLoop_cut 46 ha.2, if_neg ha.1, parseLoop_last 46 hb.1 hb.2]
  simp only [Node.subtreeFrom, Node.subtreeChildren]
  rfl

/-- A component that is not a path's text makes the listing raise. -/
theorem C58_dotted_refused (l : Path) (a : Bytes) : (tree [.add l [46 :: a]]).subtree = .error .err := by
  have e : tree [.add l [46 :: a]] = .mk [] [(46 :: a, .mk [l] [])] := rfl
  rw [e]
  unfold Node.subtree
  rw [Node.subtreeFrom, Node.subtreeChildren, Path.append, show 46 :: a = [] ++ 46 :: a from rfl, parseLoop_cut 46 (by simp),
    if_pos rfl]

/-- Erasing below a node that has nothing removes that node too, although it was asked for. -/
theorem C58_erase_takes_asked (k j : Bytes) : (tree [.get [k]]).has [k] = true ∧ (tree [.get [k], .erase [k, j]]).has [k] = false := by
  constructor
  · rw [C58_nodes]
    exact Or.inr (List.prefix_refl _)
  · cases h : (tree [.get [k], .erase [k, j]]).has [k] with
    | false => rfl
    | true =>
      exfalso
      rw [C58_nodes] at h
      have h : [k] = [] ∨ (([k] = [] ∨ [k] <+: [k]) ∧ ¬ [k, j] <+: [k] ∧ (¬ [k] <+: [k, j] ∨ ∃ r, [k] <+: r ∧
          (r = [] ∨ r <+: [k]) ∧ ¬ [k, j] <+: r ∧ (¬ r <+: [k, j] ∨ ∃ _ : Path, False))) := h
      rcases h with h | ⟨_, _, h | ⟨r, h1, h2, _, h3⟩⟩
      · cases h
      · exact h (by simp)
      · rcases h3 with h3 | ⟨_, h3⟩
        · rcases h2 with rfl | h2
          · exact h3 (by simp)
          · exact h3 (h2.trans (by simp))
        · exact h3

/-! ### C61 -/

/-- The component made from an index is an index, and that one. -/
theorem C61_index (pre : Path) (i : Nat) (hi : i < 2 ^ 64) :
    (pre.at i).isIndex pre.length = .ok true ∧ (pre.at i).index pre.length = .ok i := by
  obtain ⟨h1, h2, h3⟩ := Json.decDigits_spec i i (Nat.le_refl _)
  unfold Path.isIndex Path.index Path.at
  simp only [List.getElem?_append_right (Nat.le_refl _), Nat.sub_self, List.getElem?_cons_zero, allDigits_ok h1, true_and]
  unfold stoull
  rw [if_neg h2]
  simp only [h3]
  rw [if_pos hi]

/-- It can be part of a path's text. -/
theorem C61_component (i : Nat) : Component 46 (Json.decDigits i) := by
  obtain ⟨h1, h2, _⟩ := Json.decDigits_spec i i (Nat.le_refl _)
  refine ⟨h2, fun h => ?_⟩
  have := h1 46 h
  revert this
  decide

/-- Whatever is accepted as an index is a string of digits. -/
theorem C61_only_digits (p : Path) (i n : Nat) (h : p.index i = .ok n) : ∃ s, p[i]? = some s ∧ s ≠ [] ∧ Json.Digits s ∧
    s.foldl (fun a d => a * 10 + (d.toNat - 48)) 0 = n ∧ n < 2 ^ 64 := by
  unfold Path.index at h
  cases hs : p[i]? with
  | none => rw [hs] at h; cases h
  | some s =>
    rw [hs] at h
    simp only at h
    cases hd : allDigits s with
    | error e => rw [hd] at h; cases h
    | ok b =>
      rw [hd] at h
      cases b with
      | false => cases h
      | true =>
        simp only at h
        unfold stoull at h
        by_cases h0 : s = []
        · rw [if_pos h0] at h; cases h
        · rw [if_neg h0] at h
          simp only at h
          by_cases hn : s.foldl (fun a d => a * 10 + (d.toNat - 48)) 0 < 2 ^ 64
          · rw [if_pos hn] at h
            cases h
            exact ⟨s, rfl, h0, allDigits_true hd, rfl, hn⟩
          · rw [if_neg hn] at h; cases h

/-- A number too large is an index for one function and an exception of the standard library for the other. -/
theorem C61_large (pre : Path) (i : Nat) (hi : 2 ^ 64 ≤ i) :
    (pre.at i).isIndex pre.length = .ok true ∧ (pre.at i).index pre.length = .error .std := by
  obtain ⟨h1, h2, h3⟩ := Json.decDigits_spec i i (Nat.le_refl _)
  unfold Path.isIndex Path.index Path.at
  simp only [List.getElem?_append_right (Nat.le_refl _), Nat.sub_self, List.getElem?_cons_zero, allDigits_ok h1, true_and]
  unfold stoull
  rw [if_neg h2]
  simp only [h3]
  rw [if_neg (by omega)]

/-- Asking whether a component with a non-ASCII character in front is an index is undefined. -/
theorem C61_not_ascii (pre : Path) (c : Byte) (s : Bytes) (h : 0x80 ≤ c.toNat) (hc : c ≠ 0xFF) :
    Path.isIndex (pre ++ [c :: s]) pre.length = .error .ub := by
  unfold Path.isIndex
  simp only [List.getElem?_append_right (Nat.le_refl _), Nat.sub_self, List.getElem?_cons_zero]
  rw [allDigits]
  unfold isDigit
  rw [if_pos ⟨h, hc⟩]

/-- Popping undoes extending, at either end; an empty path cannot be popped. -/
theorem C61_pop (p : Path) (k : Bytes) : Path.popBack (p ++ [k]) = .ok p ∧ Path.popFront (k :: p) = .ok p ∧
    Path.popBack [] = .error .err ∧ Path.popFront [] = .error .err := by
  refine ⟨?_, rfl, rfl, rfl⟩
  cases hp : p ++ [k] with
  | nil => simp at hp
  | cons a q =>
    show Except.ok (a :: q).dropLast = _
    rw [← hp]
    simp

end Reflect.Config

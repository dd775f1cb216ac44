import Verif.Lemmas.Config.Path
/-
  Lemmas on the tree of configuration links.
-/
namespace Reflect.Config
open Json (Byte Bytes)

@[simp] theorem links_mk (l : List Path) (c : List (Bytes × Node)) : (Node.mk l c).links = l := rfl
@[simp] theorem children_mk (l : List Path) (c : List (Bytes × Node)) : (Node.mk l c).children = c := rfl

theorem empty_find : ∀ q, Node.empty.find q = Node.empty
  | [] => rfl
  | k :: q => by
    rw [Node.find]
    simp only [Node.empty, children_mk, Assoc.get_nil]
    exact empty_find q

theorem empty_has {q : Path} : Node.empty.has q = true ↔ q = [] := by
  cases q with
  | nil => simp [Node.has]
  | cons k q => simp [Node.has, Node.empty]

theorem mem_insertLink (l : Path) : ∀ (ls : List Path) (k : Path), k ∈ insertLink l ls ↔ k = l ∨ k ∈ ls
  | [], k => by simp [insertLink]
  | a :: ls, k => by
    unfold insertLink
    split
    · simp
    · rename_i h1
      split
      · rw [List.mem_cons, mem_insertLink l ls k, List.mem_cons]
        constructor
        · rintro (h | h | h) <;> simp [h]
        · rintro (h | h | h) <;> simp [h]
      · rename_i h2
        rw [lt_spec] at h1 h2
        rcases PathBefore.total l a with h | h | h
        · exact absurd h h1
        · subst h; simp
        · exact absurd h h2

theorem insertLink_sorted (l : Path) : ∀ (ls : List Path), ls.Pairwise PathBefore → (insertLink l ls).Pairwise PathBefore
  | [], _ => by simp [insertLink]
  | a :: ls, h => by
    rw [List.pairwise_cons] at h
    unfold insertLink
    split
    · rename_i h1
      rw [lt_spec] at h1
      rw [List.pairwise_cons, List.pairwise_cons]
      refine ⟨?_, h.1, h.2⟩
      intro b hb
      rcases List.mem_cons.mp hb with rfl | hb
      · exact h1
      · exact h1.trans (h.1 b hb)
    · split
      · rename_i h2
        rw [lt_spec] at h2
        rw [List.pairwise_cons]
        refine ⟨?_, insertLink_sorted l ls h.2⟩
        intro b hb
        rcases (mem_insertLink l ls b).mp hb with rfl | hb
        · exact h2
        · exact h.1 b hb
      · rw [List.pairwise_cons]; exact h

/-! ### Descending into the result of an operation -/

theorem find_cons (n : Node) (k : Bytes) (q : Path) :
    n.find (k :: q) = ((Assoc.get n.children k).getD .empty).find q := by
  rw [Node.find]
  cases Assoc.get n.children k <;> rfl

theorem has_cons (n : Node) (k : Bytes) (q : Path) :
    n.has (k :: q) = true ↔ ∃ c, Assoc.get n.children k = some c ∧ c.has q = true := by
  rw [Node.has]
  cases Assoc.get n.children k <;> simp

theorem at_cons (f : Node → Node) (n : Node) (k : Bytes) (p : Path) :
    ∃ cs, Node.at f n (k :: p) = .mk n.links cs ∧
      ∀ j, Assoc.get cs j = if k = j then some (Node.at f ((Assoc.get n.children k).getD .empty) p) else Assoc.get n.children j := by
  rw [Node.at]
  cases h : Assoc.get n.children k with
  | none => exact ⟨_, rfl, fun j => by rw [Assoc.get_cons]; rfl⟩
  | some c => exact ⟨_, rfl, fun j => by rw [Assoc.get_set]; rfl⟩

theorem held_at (f : Node → Node) (l' : Path) (P : Prop) (hf : ∀ m : Node, (l' ∈ (f m).links ↔ l' ∈ m.links ∨ P) ∧ (f m).children = m.children) :
    ∀ (p : Path) (n : Node) (q : Path), l' ∈ ((Node.at f n p).find q).links ↔ l' ∈ (n.find q).links ∨ (q = p ∧ P)
  | [], n, [] => by
    rw [Node.at]
    simp only [Node.find, true_and]
    exact (hf n).1
  | [], n, k :: q => by
    rw [Node.at, find_cons, find_cons, (hf n).2]
    simp
  | k :: p, n, q => by
    obtain ⟨cs, e, h⟩ := at_cons f n k p
    rw [e]
    cases q with
    | nil => simp [Node.find]
    | cons j q =>
      rw [find_cons, find_cons, children_mk, h]
      by_cases hk : k = j
      · subst hk
        rw [if_pos rfl, Option.getD_some, held_at f l' P hf p]
        simp
      · rw [if_neg hk]
        simp [Ne.symm hk]

theorem has_at (f : Node → Node) (hf : ∀ m : Node, (f m).children = m.children) :
    ∀ (p : Path) (n : Node) (q : Path), (Node.at f n p).has q = true ↔ n.has q = true ∨ q <+: p
  | [], n, [] => by simp [Node.has]
  | [], n, k :: q => by
    rw [Node.at, has_cons, has_cons, hf n]
    simp
  | k :: p, n, q => by
    obtain ⟨cs, e, h⟩ := at_cons f n k p
    rw [e]
    cases q with
    | nil => simp [Node.has]
    | cons j q =>
      rw [has_cons, has_cons, children_mk, h]
      by_cases hk : k = j
      · subst hk
        rw [if_pos rfl]
        simp only [Option.some.injEq, exists_eq_left', List.cons_prefix_cons, true_and]
        rw [has_at f hf p]
        cases Assoc.get n.children k with
        | none =>
          simp only [Option.getD_none, empty_has, reduceCtorEq, false_and, exists_false, false_or]
          constructor
          · rintro (rfl | h)
            · simp
            · exact h
          · exact Or.inr
        | some c => simp
      · rw [if_neg hk]
        simp [Ne.symm hk]

theorem held_erase : ∀ (p : Path) (n : Node) (q l : Path),
    l ∈ ((n.erase p).find q).links ↔ l ∈ (n.find q).links ∧ ¬ p <+: q
  | [], n, q, l => by
    have : n.erase [] = Node.empty := rfl
    rw [this, empty_find]
    simp [Node.empty]
  | k :: p, n, q, l => by
    rw [Node.erase]
    cases hc : Assoc.get n.children k with
    | none =>
      simp only
      cases q with
      | nil => simp
      | cons j q =>
        by_cases hk : k = j
        · subst hk
          rw [find_cons, hc, Option.getD_none, empty_find]
          simp [Node.empty]
        · simp [hk]
    | some c =>
      simp only
      cases q with
      | nil => split <;> simp [Node.find]
      | cons j q =>
        by_cases hk : k = j
        · subst hk
          simp only [List.cons_prefix_cons, true_and]
          rw [find_cons n, hc, Option.getD_some, ← held_erase p c q l]
          split
          · rename_i he
            rw [find_cons, children_mk, Assoc.get_erase, if_pos rfl]
            have : c.erase p = Node.empty := by
              cases hm : c.erase p with
              | mk ls cs => rw [hm] at he; simp at he; rw [he.1, he.2]; rfl
            rw [this]
            rfl
          · rw [find_cons, children_mk, Assoc.get_set, if_pos rfl]
            rfl
        · have : ∀ m : Node, Assoc.get m.children j = Assoc.get n.children j → (l ∈ (m.find (j :: q)).links ↔
              l ∈ (n.find (j :: q)).links ∧ ¬ k :: p <+: j :: q) := by
            intro m hm
            rw [find_cons, find_cons, hm]
            simp [hk]
          split
          · apply this; rw [children_mk, Assoc.get_erase, if_neg hk]
          · apply this; rw [children_mk, Assoc.get_set, if_neg hk]

theorem children_has (n : Node) : n.children ≠ [] ↔ ∃ q, q ≠ [] ∧ n.has q = true := by
  constructor
  · intro h
    cases hc : n.children with
    | nil => exact absurd hc h
    | cons x cs =>
      obtain ⟨k, c⟩ := x
      refine ⟨[k], by simp, ?_⟩
      rw [has_cons]
      exact ⟨c, by rw [hc, Assoc.get_cons, if_pos rfl], by simp [Node.has]⟩
  · rintro ⟨q, h, hq⟩ e
    cases q with
    | nil => exact h rfl
    | cons k q =>
      rw [has_cons, e] at hq
      simp at hq

/-- what is left of the way to an erased path -/
def Left (n : Node) (p r : Path) : Prop :=
  n.has r = true ∧ ¬ p <+: r ∧ (¬ r <+: p ∨ ∃ l, l ∈ (n.find r).links)

theorem has_erase : ∀ (p : Path) (n : Node) (q : Path), (n.erase p).has q = true ↔
    q = [] ∨ (n.has q = true ∧ ¬ p <+: q ∧ (¬ q <+: p ∨ ∃ r, q <+: r ∧ Left n p r))
  | [], n, q => by
    have : n.erase [] = Node.empty := rfl
    rw [this, empty_has]
    simp
  | k :: p, n, q => by
    cases q with
    | nil => simp [Node.has]
    | cons j q =>
      rw [Node.erase]
      simp only [reduceCtorEq, false_or]
      cases hc : Assoc.get n.children k with
      | none =>
        simp only
        by_cases hk : k = j
        · subst hk
          have : ¬ n.has (k :: q) = true := by rw [has_cons, hc]; simp
          simp [this]
        · have h1 : ¬ k :: p <+: j :: q := by simp [hk]
          have h2 : ¬ j :: q <+: k :: p := by simp [Ne.symm hk]
          simp [h1, h2]
      | some c =>
        by_cases hk : k = j
        · subst hk
          have hn : ∀ r, n.has (k :: r) = c.has r := by
            intro r; rw [Node.has, hc]
          have hl : ∀ r, (∃ s, k :: r <+: s ∧ Left n (k :: p) s) ↔ ∃ s, r <+: s ∧ Left c p s := by
            intro r
            have key : ∀ s, Left n (k :: p) (k :: s) ↔ Left c p s := by
              intro s
              unfold Left
              rw [hn, find_cons, hc, Option.getD_some]
              simp
            constructor
            · rintro ⟨s, h1, h2⟩
              cases s with
              | nil => simp at h1
              | cons i s =>
                rw [List.cons_prefix_cons] at h1
                obtain ⟨rfl, h1⟩ := h1
                exact ⟨s, h1, (key s).mp h2⟩
            · rintro ⟨s, h1, h2⟩
              exact ⟨k :: s, by simp [h1], (key s).mpr h2⟩
          rw [hn, hl]
          simp only [List.cons_prefix_cons, true_and]
          -- when the child is not removed
          have hne : ((c.erase p).links = [] ∧ (c.erase p).children = []) ↔ ¬ ∃ s, Left c p s := by
            constructor
            · rintro ⟨e1, e2⟩ ⟨s, g1, g2, g3⟩
              cases s with
              | nil =>
                rcases g3 with g3 | ⟨l, g3⟩
                · exact g3 (by simp)
                · have := (held_erase p c [] l).mpr ⟨g3, g2⟩
                  rw [Node.find, e1] at this
                  simp at this
              | cons i s =>
                have : (c.erase p).children ≠ [] := by
                  rw [children_has]
                  refine ⟨i :: s, by simp, ?_⟩
                  rw [has_erase p c]
                  refine Or.inr ⟨g1, g2, ?_⟩
                  by_cases h : i :: s <+: p
                  · exact Or.inr ⟨i :: s, List.prefix_refl _, g1, g2, g3⟩
                  · exact Or.inl h
                exact this e2
            · intro h
              constructor
              · cases hls : (c.erase p).links with
                | nil => rfl
                | cons l ls =>
                  exfalso
                  have h' : l ∈ ((c.erase p).find []).links := by rw [Node.find, hls]; simp
                  rw [held_erase p c] at h'
                  exact h ⟨[], by simp [Node.has], h'.2, Or.inr ⟨l, h'.1⟩⟩
              · cases hcs : (c.erase p).children with
                | nil => rfl
                | cons x xs =>
                  exfalso
                  obtain ⟨r, h1, h2⟩ := (children_has _).mp (show (c.erase p).children ≠ [] by rw [hcs]; simp)
                  rw [has_erase p c] at h2
                  rcases h2 with h2 | ⟨h2, h3, h4 | ⟨s, _, h4⟩⟩
                  · exact h1 h2
                  · exact h ⟨r, h2, h3, Or.inl h4⟩
                  · exact h ⟨s, h4⟩
          split
          · rename_i he
            have he' := hne.mp he
            rw [has_cons, children_mk, Assoc.get_erase, if_pos rfl]
            simp only [reduceCtorEq, false_and, exists_false, false_iff]
            rintro ⟨h1, h2, h3 | ⟨s, _, h3⟩⟩
            · exact he' ⟨q, h1, h2, Or.inl h3⟩
            · exact he' ⟨s, h3⟩
          · rename_i he
            rw [has_cons, children_mk, Assoc.get_set, if_pos rfl]
            simp only [Option.some.injEq, exists_eq_left']
            rw [has_erase p c]
            constructor
            · rintro (rfl | h)
              · obtain ⟨s, hs⟩ : ∃ s, Left c p s := Classical.byContradiction (fun h => he (hne.mpr h))
                refine ⟨by simp [Node.has], ?_, Or.inr ⟨s, by simp, hs⟩⟩
                intro h
                have : p = [] := List.prefix_nil.mp h
                subst this
                exact hs.2.1 (by simp)
              · exact h
            · exact Or.inr
        · have h1 : ¬ k :: p <+: j :: q := by simp [hk]
          have h2 : ¬ j :: q <+: k :: p := by simp [Ne.symm hk]
          simp only [h1, h2, not_false_eq_true, true_and, true_or, and_true]
          split
          · rw [has_cons, has_cons, children_mk, Assoc.get_erase, if_neg hk]
          · rw [has_cons, has_cons, children_mk, Assoc.get_set, if_neg hk]

/-! ### The subtree -/

/-- a tree as the operations leave it -/
inductive Node.Good : Node → Prop
  | mk (links : List Path) (children : List (Bytes × Node)) (h1 : links.Pairwise PathBefore)
      (h2 : (children.map (·.1)).Nodup) (h3 : ∀ k c, (k, c) ∈ children → Component 46 k)
      (h4 : ∀ k c, (k, c) ∈ children → Node.Good c) : Node.Good (.mk links children)

theorem good_empty : Node.empty.Good := .mk [] [] (by simp) (by simp) (by simp) (by simp)

theorem mem_keys_erase {m : Assoc Bytes Node} {k : Bytes} : k ∉ (Assoc.erase m k).map (·.1) := by
  rw [← Assoc.get_none_iff, Assoc.get_erase, if_pos rfl]

theorem keys_erase_nodup {m : Assoc Bytes Node} {k : Bytes} (h : (m.map (·.1)).Nodup) :
    ((Assoc.erase m k).map (·.1)).Nodup :=
  h.sublist (List.Sublist.map _ (by unfold Assoc.erase; exact List.filter_sublist))

theorem mem_erase {m : Assoc Bytes Node} {k j : Bytes} {c : Node} (h : (j, c) ∈ Assoc.erase m k) : (j, c) ∈ m :=
  (List.mem_filter.mp h).1

theorem good_set {links : List Path} {children : Assoc Bytes Node} (h : Node.Good (.mk links children)) {k : Bytes} {c : Node}
    (hk : Component 46 k) (hc : c.Good) : Node.Good (.mk links (Assoc.set children k c)) := by
  cases h with
  | mk _ _ h1 h2 h3 h4 =>
    refine .mk _ _ h1 ?_ ?_ ?_
    · unfold Assoc.set
      rw [List.map_cons, List.nodup_cons]
      exact ⟨mem_keys_erase, keys_erase_nodup h2⟩
    · intro j d hj
      rcases List.mem_cons.mp hj with e | hj
      · cases e; exact hk
      · exact h3 j d (mem_erase hj)
    · intro j d hj
      rcases List.mem_cons.mp hj with e | hj
      · cases e; exact hc
      · exact h4 j d (mem_erase hj)

theorem good_child {n : Node} (h : n.Good) {k : Bytes} {c : Node} (hc : Assoc.get n.children k = some c) :
    c.Good ∧ Component 46 k := by
  cases h with
  | mk _ _ h1 h2 h3 h4 => exact ⟨h4 k c (Assoc.get_some_mem hc), h3 k c (Assoc.get_some_mem hc)⟩

theorem good_at (f : Node → Node) (hf : ∀ m : Node, m.Good → (f m).Good) :
    ∀ (p : Path) (n : Node), n.Good → (∀ k ∈ p, Component 46 k) → (Node.at f n p).Good
  | [], n, h, _ => hf n h
  | k :: p, n, h, hp => by
    rw [Node.at]
    cases hc : Assoc.get n.children k with
    | none =>
      simp only
      have hg := good_at f hf p .empty good_empty (fun j hj => hp j (by simp [hj]))
      cases h with
      | mk links children h1 h2 h3 h4 =>
        refine .mk _ _ h1 ?_ ?_ ?_
        · rw [List.map_cons, List.nodup_cons]
          exact ⟨Assoc.get_none_iff.mp hc, h2⟩
        · intro j d hj
          rcases List.mem_cons.mp hj with e | hj
          · cases e; exact hp _ (by simp)
          · exact h3 j d hj
        · intro j d hj
          rcases List.mem_cons.mp hj with e | hj
          · cases e; exact hg
          · exact h4 j d hj
    | some c =>
      simp only
      have hg := good_at f hf p c (good_child h hc).1 (fun j hj => hp j (by simp [hj]))
      cases n with
      | mk links children => exact good_set h (hp k (by simp)) hg

theorem good_erase : ∀ (p : Path) (n : Node), n.Good → (n.erase p).Good
  | [], _, _ => good_empty
  | k :: p, n, h => by
    rw [Node.erase]
    cases hc : Assoc.get n.children k with
    | none => exact h
    | some c =>
      simp only
      have hg := good_erase p c (good_child h hc).1
      split
      · cases h with
        | mk links children h1 h2 h3 h4 =>
          exact .mk _ _ h1 (keys_erase_nodup h2) (fun j d hj => h3 j d (mem_erase hj)) (fun j d hj => h4 j d (mem_erase hj))
      · cases n with
        | mk links children => exact good_set h (good_child h hc).2 hg

theorem good_find : ∀ (p : Path) (n : Node), n.Good → (n.find p).Good
  | [], _, h => h
  | k :: p, n, h => by
    rw [Node.find]
    cases hc : Assoc.get n.children k with
    | none => exact good_find p _ good_empty
    | some c => exact good_find p c (good_child h hc).1

theorem append_key (pre : Path) {k : Bytes} (h : Component 46 k) : pre.append k = .ok (pre ++ [k]) :=
  parseLoop_last 46 h.1 h.2 pre

theorem subtree_children (pre : Path) : ∀ (cs : List (Bytes × Node)), (cs.map (·.1)).Nodup → (∀ k c, (k, c) ∈ cs → Component 46 k) →
    (∀ k c, (k, c) ∈ cs → ∀ (pre : Path) acc, ∃ res, c.subtreeFrom pre acc = .ok (acc ++ res) ∧ res.Nodup ∧
      ∀ x, x ∈ res ↔ ∃ q l, x = (pre ++ q, l) ∧ l ∈ (c.find q).links) →
    ∀ acc, ∃ res, Node.subtreeChildren pre cs acc = .ok (acc ++ res) ∧ res.Nodup ∧
      ∀ x, x ∈ res ↔ ∃ k c q l, (k, c) ∈ cs ∧ x = (pre ++ k :: q, l) ∧ l ∈ (c.find q).links
  | [], _, _, _, acc => ⟨[], by rw [Node.subtreeChildren]; simp, by simp, by simp⟩
  | (k, c) :: cs, h2, h3, h4, acc => by
    rw [Node.subtreeChildren, append_key pre (h3 k c (by simp))]
    obtain ⟨r1, e1, n1, m1⟩ := h4 k c (by simp) (pre ++ [k]) acc
    rw [List.map_cons, List.nodup_cons] at h2
    obtain ⟨r2, e2, n2, m2⟩ := subtree_children pre cs h2.2 (fun j d h => h3 j d (by simp [h])) (fun j d h => h4 j d (by simp [h]))
      (acc ++ r1)
    simp only [e1, e2]
    refine ⟨r1 ++ r2, by simp, ?_, ?_⟩
    · rw [List.nodup_append]
      refine ⟨n1, n2, ?_⟩
      rintro x hx _ hy rfl
      obtain ⟨q, l, rfl, _⟩ := (m1 x).mp hx
      obtain ⟨j, d, q', l', hj, e, _⟩ := (m2 _).mp hy
      have e := congrArg Prod.fst e
      simp only [List.append_assoc, List.singleton_append, List.append_cancel_left_eq, List.cons.injEq] at e
      exact h2.1 (List.mem_map.mpr ⟨(j, d), hj, e.1.symm⟩)
    · intro x
      rw [List.mem_append, m1, m2]
      constructor
      · rintro (⟨q, l, rfl, h⟩ | ⟨j, d, q, l, hj, rfl, h⟩)
        · exact ⟨k, c, q, l, by simp, by simp, h⟩
        · exact ⟨j, d, q, l, by simp [hj], rfl, h⟩
      · rintro ⟨j, d, q, l, hj, rfl, h⟩
        rcases List.mem_cons.mp hj with e | hj
        · cases e; exact Or.inl ⟨q, l, by simp, h⟩
        · exact Or.inr ⟨j, d, q, l, hj, rfl, h⟩

theorem mem_iff_get {m : Assoc Bytes Node} (h : (m.map (·.1)).Nodup) {k : Bytes} {c : Node} :
    (k, c) ∈ m ↔ Assoc.get m k = some c := by
  constructor
  · intro hm
    induction m with
    | nil => cases hm
    | cons x m ih =>
      obtain ⟨j, d⟩ := x
      rw [List.map_cons, List.nodup_cons] at h
      rw [Assoc.get_cons]
      rcases List.mem_cons.mp hm with e | hm
      · cases e; rw [if_pos rfl]
      · rw [if_neg, ih h.2 hm]
        rintro rfl
        exact h.1 (List.mem_map.mpr ⟨(j, c), hm, rfl⟩)
  · exact Assoc.get_some_mem

theorem subtree_good {n : Node} (h : n.Good) : ∀ (pre : Path) acc, ∃ res, n.subtreeFrom pre acc = .ok (acc ++ res) ∧ res.Nodup ∧
      ∀ x, x ∈ res ↔ ∃ q l, x = (pre ++ q, l) ∧ l ∈ (n.find q).links := by
  induction h with
  | mk links children h1 h2 h3 h4 ih =>
    intro pre acc
    obtain ⟨res, e, hn, hm⟩ := subtree_children pre children h2 h3 ih (acc ++ links.map (fun l => (pre, l)))
    refine ⟨links.map (fun l => (pre, l)) ++ res, by rw [Node.subtreeFrom, e]; simp, ?_, ?_⟩
    · rw [List.nodup_append]
      refine ⟨?_, hn, ?_⟩
      · rw [List.nodup_iff_pairwise_ne, List.pairwise_map]
        refine h1.imp ?_
        intro a b hab e
        injection e with _ e
        subst e
        exact PathBefore.irrefl _ hab
      · rintro x hx _ hy rfl
        obtain ⟨l, _, rfl⟩ := List.mem_map.mp hx
        obtain ⟨k, c, q, l', _, e, _⟩ := (hm _).mp hy
        have := congrArg Prod.fst e
        simp at this
    · intro x
      rw [List.mem_append, hm]
      constructor
      · rintro (h | ⟨k, c, q, l, hc, rfl, hl⟩)
        · obtain ⟨l, hl, rfl⟩ := List.mem_map.mp h
          exact ⟨[], l, by simp, hl⟩
        · refine ⟨k :: q, l, rfl, ?_⟩
          rw [find_cons, children_mk, (mem_iff_get h2).mp hc]
          exact hl
      · rintro ⟨q, l, rfl, hl⟩
        cases q with
        | nil => exact Or.inl (List.mem_map.mpr ⟨l, hl, by simp⟩)
        | cons k q =>
          rw [find_cons, children_mk] at hl
          cases hc : Assoc.get children k with
          | none =>
            rw [hc, Option.getD_none, empty_find] at hl
            simp [Node.empty] at hl
          | some c =>
            rw [hc] at hl
            exact Or.inr ⟨k, c, q, l, Assoc.get_some_mem hc, rfl, hl⟩

end Reflect.Config

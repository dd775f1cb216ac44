import Verif.Props.MapFns
/-
  C90 A reflected std::map lists its keys in ascending order.
-/
namespace Reflect
open World

section
variable {p : Prog} {s t key elem keysT sizeT : Ty} {K : MapKind} {l : List Nat → List Nat → Bool}

/-- C90. `keys()` of a `std::map` gives the keys in ascending order, each once. -/
theorem C90_keys (V : ReflectedMap p s t key elem keysT sizeT K) (hl : K.less = some l) (fuel : Nat) (hp : Heap) (o : Handle)
    (ho : o.arg.type = s) (hm : hp.IsMap K o.addr) :
    ∃ hp' r, p.callMethod (fuel + 1) hp o "keys".toList p.valueArg [] = .ok (hp', some (.val r)) ∧
      (hp'.elems K.key r.addr).Pairwise (fun a b => l a b = true) ∧ (∀ k, k ∈ hp'.elems K.key r.addr ↔ (hp.lookup K o.addr k).isSome) ∧
      ∀ y < hp.next, hp'.mem y = hp.mem y := by
  obtain ⟨hp', r, h1, -, -, -, h5, -, h7, -, -, h8, -⟩ := C86_keys V fuel hp o ho hm
  refine ⟨hp', r, h1, ?_, h7, h8⟩
  rw [h5, entries_keys]
  exact hm.sorted l hl

/-- a list of entries with ascending keys is determined by what it has under each key -/
theorem ascending_unique (hT : TotalOrder l) {es es' : List (List Nat × List Nat)} (h1 : (es.map Prod.fst).Pairwise fun a b => l a b = true)
    (h2 : (es'.map Prod.fst).Pairwise fun a b => l a b = true) (hl : ∀ k, es.lookup k = es'.lookup k) : es = es' := by
  have nd : ∀ {es : List (List Nat × List Nat)}, (es.map Prod.fst).Pairwise (fun a b => l a b = true) → (es.map Prod.fst).Nodup := by
    intro es h
    exact List.Pairwise.imp (fun {a b} hab e => by subst e; rw [hT.irrefl] at hab; cases hab) h
  have inj : ∀ {es : List (List Nat × List Nat)}, (es.map Prod.fst).Nodup → es.Nodup := fun h =>
    List.Pairwise.imp (fun {a b} hab e => hab (by rw [e])) (List.pairwise_map.1 h)
  have hmem : ∀ e, e ∈ es ↔ e ∈ es' := by
    rintro ⟨k, v⟩
    rw [← lookup_iff_mem k v es (nd h1), ← lookup_iff_mem k v es' (nd h2), hl]
  refine List.Perm.eq_of_pairwise (le := fun a b : List Nat × List Nat => l a.1 b.1 = true) ?_ (List.pairwise_map.1 h1) (List.pairwise_map.1 h2)
    ((List.perm_ext_iff_of_nodup (inj (nd h1)) (inj (nd h2))).2 hmem)
  intro a b _ _ e1 e2
  have := hT.trans _ _ _ e1 e2
  rw [hT.irrefl] at this; cases this

/-- C90. After any history of `m[k]` and `m[k].assign(x)` a `std::map` goes through the entries that the finite map has after
the same history in ascending order of the keys: what it lists does not depend on the order in which they came. -/
theorem C90_history (V : ReflectedMap p s t key elem keysT sizeT K) (hl : K.less = some l) (fuel : Nat) (cs : List MapCall) (o : Handle)
    (ho : o.arg.type = s) (hmut : o.Mutable) (move : Bool) (hA : Assignable p elem elem true move) (hp : Heap) (hm : hp.IsMap K o.addr)
    (hr : ∀ c ∈ cs, c.Ready p hp key elem K o.addr) (es : List (List Nat × List Nat)) (hes : (es.map Prod.fst).Pairwise fun a b => l a b = true)
    (hlk : ∀ k, es.lookup k = cs.foldl (fun f c => c.effect hp K f) (hp.lookup K o.addr) k) :
    ∃ hp', MapCall.all p (fuel + 1) o hp cs = .ok hp' ∧ hp'.entries K o.addr = es := by
  obtain ⟨hp', h1, h2, h3, -⟩ := C86_history V fuel cs o ho hmut move hA hp hm hr
  refine ⟨hp', h1, ascending_unique (V.ordered l hl) (by rw [entries_keys]; exact h2.sorted l hl) hes fun k => ?_⟩
  rw [hlk]; exact h3 k

/-- C90. Two `std::map`s that hold the same under each key, wherever they are and however they were filled, list the same
entries in the same order. -/
theorem C90_same {h h' : Heap} {m m' : Nat} (hT : TotalOrder l) (hl : K.less = some l) (hm : h.IsMap K m) (hm' : h'.IsMap K m')
    (heq : ∀ k, h.lookup K m k = h'.lookup K m' k) : h.entries K m = h'.entries K m' :=
  ascending_unique hT (by rw [entries_keys]; exact hm.sorted l hl) (by rw [entries_keys]; exact hm'.sorted l hl) heq

end

/-! ### a concrete case -/

namespace OrderDemo
open MapDemo (all lib x k1 k2 m)

/-- the lexicographic order of two cells -/
def less (a b : List Nat) : Bool := decide (a < b)
def kind : MapKind := ⟨2, 1, some less, fun _ ns => ns, fun _ => 0⟩

theorem less_order : TotalOrder less where
  irrefl a := decide_eq_false (List.lt_irrefl a)
  trans a b c h1 h2 := by
    unfold less at *
    rw [decide_eq_true_eq] at *
    exact List.lt_trans h1 h2
  total a b h := by
    unfold less
    rw [decide_eq_true_eq, decide_eq_true_eq]
    rcases Decidable.em (a < b) with h1 | h1
    · exact Or.inl h1
    · rcases Decidable.em (b < a) with h2 | h2
      · exact Or.inr h2
      · exact absurd (List.le_antisymm h2 h1) h

def impl : Nat → Heap → List BArg → Res (Heap × BRet)
  | 1, hp, [.obj a _] => (hp.copyObj 1 a).map fun r => (r.1, .obj r.2)
  | 3, hp, [.obj a _] => (hp.moveObj (fun _ => 0) 1 a).map fun r => (r.1, .obj r.2)
  | 2, hp, [.obj a true, .obj b _] => (hp.assignObj 1 a b).map fun h => (h, .obj a)
  | 4, hp, [.obj a true, .obj b _] => (hp.moveAssignObj (fun _ => 0) 1 a b).map fun h => (h, .obj a)
  | 5, hp, [.obj a _] => mapSize hp a
  | 6, hp, [.obj a _, .obj k _] => mapCount kind hp a k
  | 7, hp, [.obj a _, .obj k _] => mapIndex kind hp a k
  | 8, hp, [.obj a _, .obj k _] => mapAt kind hp a k
  | 9, hp, [.obj a _] => mapKeys kind hp a
  | _, _, _ => .error .ub

/-- the types of `MapDemo`, the map a `std::map` -/
def prog : Prog := { MapDemo.prog with impl := impl }

theorem plainSize : PlainCopy prog 4 := by
  refine (C32_plumbed prog 4 all [] (by decide) (by decide) (by decide) rfl rfl rfl (by decide) (by decide) (by simp) ?_ ?_).1
  · intro hp a m h; rfl
  · intro hp a m h; rfl

theorem assignable : Assignable prog 4 4 true true :=
  C71_plumbed_assignable prog 4 4 all (by decide) (by decide) (by decide) (by decide +kernel) (by decide +kernel) (by decide) rfl
    (fun _ _ _ _ => rfl) (fun _ _ _ _ => rfl)

theorem map (s : Ty) (hs : s = 2 ∨ s = 5) : ReflectedMap prog s 2 3 4 6 4 kind := by
  refine C86_described lib (by decide) ?_ ?_ ?_ (by decide +kernel) (by decide) (fun _ ns => .refl _) (by rintro _ ⟨⟩; exact less_order) plainSize
    (by decide) (by decide +kernel) (by decide) all ['M'] ?_ (fun _ _ _ => rfl) (fun _ _ _ _ _ => rfl) (fun _ _ _ _ _ => rfl)
    (fun _ _ _ _ _ => rfl) (fun _ _ _ => rfl)
  · rcases hs with rfl | rfl <;> decide
  · rcases hs with rfl | rfl <;> decide +kernel
  · rcases hs with rfl | rfl <;> decide +kernel
  · rcases hs with rfl | rfl <;> decide +kernel

/-- a map at 1 with the entries (3, 0) ↦ 4 and (7, 8) ↦ 9, its index at 4 and the nodes at 30 and at 6; keys (5, 6) at 10 and (1, 8) at 13; the
number 77 at 16 -/
def heap : Heap :=
  { mem := fun a => ([0, 4, 2, 0, 30, 6, 7, 8, 9, 0, 5, 6, 0, 1, 8, 0, 77, 0, 0, 0, 0, 0, 0, 0, 0, 0, 0, 0, 0, 0, 3, 0, 4] : List Nat).getD a 0
    next := 34 }

theorem isMap : heap.IsMap kind m.addr := ⟨by decide, by decide, by decide, by decide, by decide, by decide, by rintro _ ⟨⟩; decide⟩

theorem outside (y : Nat) (hy : 9 ≤ y) (hy' : y < 30) : ¬ heap.InMap kind m.addr y := by
  rintro (h | h | ⟨a, ha, h⟩)
  · simp only [m] at h; omega
  · have h1 : heap.mem m.addr = 4 := rfl
    have h2 : heap.mem (m.addr + 1) = 2 := rfl
    rw [h1, h2] at h; omega
  · have : heap.nodes m.addr = [30, 6] := by decide
    rw [this, List.mem_cons, List.mem_singleton] at ha
    simp only [kind] at h
    rcases ha with rfl | rfl <;> omega

theorem ready : ∀ c ∈ [MapCall.touch k1, .set k2 x, .set k1 x], c.Ready prog heap 3 4 kind m.addr := by
  have c1 : Copied prog k1.arg 3 := ⟨by decide, by decide +kernel, by decide +kernel, by decide⟩
  have c2 : Copied prog k2.arg 3 := ⟨by decide, by decide +kernel, by decide +kernel, by decide⟩
  have c3 : Copied prog x.arg 4 := ⟨by decide, by decide +kernel, by decide +kernel, by decide⟩
  have o1 : ∀ (h : Handle), 9 ≤ h.addr → ∀ n, h.addr + n ≤ 30 → ∀ j < n, ¬ heap.InMap kind m.addr (h.addr + j) :=
    fun h hh n hn j hj => outside _ (by omega) (by omega)
  have r1 : MapCall.Ready prog heap 3 4 kind m.addr (.touch k1) := ⟨c1, by decide, o1 _ (by decide) _ (by decide)⟩
  have r2 : MapCall.Ready prog heap 3 4 kind m.addr (.touch k2) := ⟨c2, by decide, o1 _ (by decide) _ (by decide)⟩
  have r3 : Copied prog x.arg 4 ∧ heap.Ok x.addr kind.val ∧ ∀ j < kind.val, ¬ heap.InMap kind m.addr (x.addr + j) :=
    ⟨c3, by decide, o1 _ (by decide) _ (by decide)⟩
  intro c hc
  simp only [List.mem_cons, List.not_mem_nil, or_false] at hc
  rcases hc with rfl | rfl | rfl
  · exact r1
  · exact ⟨r2, r3⟩
  · exact ⟨r1, r3⟩

/-- `m[(5,6)]`, `m[(1,8)] = 77`, `m[(5,6)] = 77`: the new keys are put first and in between -/
example : ∃ hp', MapCall.all prog 1 m heap [.touch k1, .set k2 x, .set k1 x] = .ok hp' ∧
    hp'.entries kind 1 = [([1, 8], [77]), ([3, 0], [4]), ([5, 6], [77]), ([7, 8], [9])] := by
  refine C90_history (map 5 (by decide)) rfl 0 _ m rfl ⟨rfl, rfl⟩ true assignable heap isMap ready _ (by decide) fun k => ?_
  have e1 : heap.cells k1.addr kind.key = [5, 6] := rfl
  have e2 : heap.cells k2.addr kind.key = [1, 8] := rfl
  have e3 : heap.cells x.addr kind.val = [77] := rfl
  have e4 : heap.lookup kind m.addr k = List.lookup k [([3, 0], [4]), ([7, 8], [9])] := by
    unfold Heap.lookup
    rw [show heap.entries kind m.addr = [([3, 0], [4]), ([7, 8], [9])] by decide]
  simp only [List.foldl, MapCall.effect, e1, e2, e3, e4, List.lookup]
  by_cases h1 : k = [5, 6]
  · subst h1; rfl
  · by_cases h2 : k = [1, 8]
    · subst h2; rfl
    · rw [if_neg h1, if_neg h2, if_neg h1, show (k == [1, 8]) = false by simpa using h2, show (k == [5, 6]) = false by simpa using h1]

example : ∃ hp' r, prog.callMethod 1 heap m "keys".toList prog.valueArg [] = .ok (hp', some (.val r)) ∧
    (hp'.elems 2 r.addr).Pairwise fun a b => less a b = true := by
  obtain ⟨hp', r, h1, h2, -⟩ := C90_keys (map 5 (by decide)) rfl 0 heap m rfl isMap
  exact ⟨hp', r, h1, h2⟩

end OrderDemo

end Reflect

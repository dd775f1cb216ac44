import Verif.Lemmas.StdTypes
import Verif.Spec.StdTypes
import Verif.Props.Overloads
/-
  C76: the types the library describes.
-/
namespace Reflect
open Spec (Sig signatures rows Offers)

/-! ### functions that do not clash -/

theorem not_exact_of_arg (e : Env) (f g : Fn) (q : Arg × Arg) (hq : q ∈ g.args.zip f.args)
    (h : isConvertibleTo e q.1 q.2 ≠ .exact) : f.testFn e g ≠ .exact := by
  intro hx
  unfold Fn.testFn at hx
  rw [combine_eq_exact, C23_exact_iff] at hx
  exact h (hx.2.2 q hq)

theorem cref_rref (e : Env) (t : Ty) : isConvertibleTo e t.cref t.rref ≠ .exact := by
  rw [Ne, C22_exact_iff]
  intro h
  generalize ha : t.cref = a at h
  generalize hb : t.rref = b at h
  cases h with
  | same => rw [← hb] at ha; simp [Ty.cref, Ty.rref] at ha
  | dynamic h => subst ha hb; simp [Spec.OneDynamic, Ty.cref, Ty.rref] at h
  | alike _ _ _ h => subst ha hb; simp [Ty.cref, Ty.rref] at h
  | consumed _ _ h => subst ha; simp [Ty.cref] at h

theorem lref_cref (e : Env) (t : Ty) : isConvertibleTo e t.lref t.cref ≠ .exact := by
  rw [Ne, C22_exact_iff]
  intro h
  generalize ha : t.lref = a at h
  generalize hb : t.cref = b at h
  cases h with
  | same => rw [← hb] at ha; simp [Ty.cref, Ty.lref] at ha
  | dynamic h => subst ha hb; simp [Spec.OneDynamic, Ty.cref, Ty.lref] at h
  | alike _ _ _ _ h => subst ha hb; simp [Ty.cref, Ty.lref] at h
  | consumed _ _ h => subst ha; simp [Ty.lref] at h

/-- nothing of a type unrelated to it is taken by value exactly -/
theorem to_val (e : Env) (a : Arg) (t : Ty) (ha : a.type ≠ e.valueT) (ht : t ≠ e.valueT)
    (hne : a.type ≠ t) (hc : e.child a.type t = false) : isConvertibleTo e a t.val ≠ .exact := by
  rw [Ne, C22_exact_iff]
  intro h
  generalize hb : t.val = b at h
  have hbt : b.type = t := by rw [← hb]; rfl
  cases h with
  | same => exact hne hbt
  | dynamic h => rw [Spec.OneDynamic, hbt] at h; rcases h with h | h <;> simp_all
  | alike _ h => rw [hbt, hc] at h; cases h
  | consumed _ h => rw [hbt, hc] at h; cases h

/-- every function of the plumbing, and what makes any two of one name different -/
def plumbingFns (t : Ty) (id : Name) (c : Caps) : List (Name × Fn) :=
  fnsOf ((plumbingOps t id c).map .decl)

theorem fnsOf_append : ∀ a b : List NoteOp, fnsOf (a ++ b) = fnsOf a ++ fnsOf b
  | [], _ => rfl
  | op :: a, b => by
    match op with
    | .decl (.addFunction n f) => simp [fnsOf, fnsOf_append a b]
    | .decl (.setPointer _ _) => simp [fnsOf, fnsOf_append a b]
    | .decl (.addField _ _ _) => simp [fnsOf, fnsOf_append a b]
    | .decl (.setParent _) => simp [fnsOf, fnsOf_append a b]
    | .trait _ _ => simp [fnsOf, fnsOf_append a b]
    | .fieldTrait _ _ _ => simp [fnsOf, fnsOf_append a b]
    | .fnTrait _ _ _ => simp [fnsOf, fnsOf_append a b]

theorem traitsOf_append (void : Handle) : ∀ a b : List NoteOp,
    traitsOf void (a ++ b) = traitsOf void a ++ traitsOf void b
  | [], _ => rfl
  | op :: a, b => by
    match op with
    | .decl (.addFunction n f) => simp [traitsOf, traitsOf_append void a b]
    | .decl (.setPointer _ _) => simp [traitsOf, traitsOf_append void a b]
    | .decl (.addField _ _ _) => simp [traitsOf, traitsOf_append void a b]
    | .decl (.setParent _) => simp [traitsOf, traitsOf_append void a b]
    | .trait _ _ => simp [traitsOf, traitsOf_append void a b]
    | .fieldTrait _ _ _ => simp [traitsOf, traitsOf_append void a b]
    | .fnTrait _ _ _ => simp [traitsOf, traitsOf_append void a b]

theorem plumbingFns_eq (t : Ty) (id : Name) (c : Caps) : plumbingFns t id c =
    (if c.defaultConstructible && c.moveConstructible then [(id, Fn.make id t.val [] 0)] else []) ++
    (if c.copyConstructible && c.moveConstructible then [(id, Fn.make id t.val [t.cref] 1)] else []) ++
    (if c.copyAssignable then [("operator=".toList,
      Fn.make "operator=".toList t.lref [t.lref, t.cref] 2)] else []) ++
    (if c.moveConstructible then [(id, Fn.make id t.val [t.rref] 3)] else []) ++
    (if c.moveAssignable then [("operator=".toList,
      Fn.make "operator=".toList t.lref [t.lref, t.rref] 4)] else []) := by
  obtain ⟨a, b, c, d, f⟩ := c
  cases a <;> cases b <;> cases c <;> cases d <;> cases f <;> rfl

theorem plumbingFns_mem (t : Ty) (id : Name) (c : Caps) (p : Name × Fn) (h : p ∈ plumbingFns t id c) :
    (p.1 = id ∧ p.2.args ∈ [[], [t.cref], [t.rref]]) ∨ p.1 = "operator=".toList := by
  rw [plumbingFns_eq] at h
  simp only [List.mem_append] at h
  rcases h with (((h | h) | h) | h) | h <;> split at h <;>
    first
    | (cases h; done)
    | (rw [List.mem_singleton.1 h]; simp [Fn.make])

theorem plumbing_pairwise (e : Env) (t : Ty) (id : Name) (c : Caps) (hid : id ≠ "operator=".toList) :
    (plumbingFns t id c).Pairwise (fun p q => p.1 = q.1 → q.2.testFn e p.2 ≠ .exact) := by
  have hd : "operator=".toList ≠ id := hid.symm
  have h1 : ∀ n r r' b b', (Fn.make n r [t.rref] b).testFn e (Fn.make n r' [t.cref] b') ≠ .exact :=
    fun n r r' b b' => not_exact_of_arg e _ _ (t.cref, t.rref) (by simp [Fn.make]) (cref_rref e t)
  have h2 : ∀ n r r' b b', (Fn.make n r [t.lref, t.rref] b).testFn e
      (Fn.make n r' [t.lref, t.cref] b') ≠ .exact :=
    fun n r r' b b' => not_exact_of_arg e _ _ (t.cref, t.rref) (by simp [Fn.make]) (cref_rref e t)
  have h3 : ∀ n r r' a b b', (Fn.make n r [a] b).testFn e (Fn.make n r' [] b') ≠ .exact :=
    fun n r r' a b b' => by rw [testFn_arity e _ _ (by simp [Fn.make])]; simp
  rw [plumbingFns_eq]
  generalize "operator=".toList = opn at *
  obtain ⟨a, b, c, d, f⟩ := c
  cases a <;> cases b <;> cases c <;> cases d <;> cases f <;>
    simp [List.pairwise_cons, hid, hd, h1, h2, h3]

/-! ### what a description offers -/

def sigOf (p : Name × Fn) : Sig := (p.2.ret, p.2.args)

theorem declared_none (l : List (Name × Fn)) (n : Name) (h : ∀ p ∈ l, p.1 ≠ n) : declared l n = [] := by
  unfold declared
  rw [List.map_eq_nil_iff, List.filter_eq_nil_iff]
  intro p hp hx
  exact h p hp (by simpa using hx)

theorem declared_all (l : List (Name × Fn)) (n : Name) (h : ∀ p ∈ l, p.1 = n) :
    declared l n = l.map (·.2) := by
  unfold declared
  rw [List.filter_eq_self.2]
  intro p hp
  simp [h p hp]

theorem rows_declared (rest : List (Name × Fn)) (table : List (String × Sig)) (n : Name)
    (h : rest.map (fun p => (p.1, sigOf p)) = table.map (fun r => (r.1.toList, r.2))) :
    (declared rest n).map (fun f => (f.ret, f.args)) = rows table n := by
  induction rest generalizing table with
  | nil =>
    cases table with
    | nil => rfl
    | cons r table => simp at h
  | cons p rest ih =>
    cases table with
    | nil => simp at h
    | cons r table =>
      simp only [List.map_cons, List.cons.injEq, Prod.mk.injEq] at h
      have := ih table h.2
      rw [declared_cons, List.map_append, this]
      unfold rows
      by_cases hn : p.1 = n
      · have hr : r.1.toList = n := by rw [← h.1.1, hn]
        simp only [hn, if_pos, List.filter_cons, hr, decide_true]
        show (p.2.ret, p.2.args) :: _ = r.2 :: _
        rw [← h.1.2]
        rfl
      · have hr : ¬ r.1.toList = n := by rw [← h.1.1]; exact hn
        simp [hn, List.filter_cons, hr]

theorem plumbing_constructors (t : Ty) (id : Name) (c : Caps) (hid : id ≠ "operator=".toList) :
    (declared (plumbingFns t id c) id).map (fun f => (f.ret, f.args)) = Spec.constructors t c := by
  have hd : "operator=".toList ≠ id := hid.symm
  rw [plumbingFns_eq]
  unfold declared Spec.constructors
  generalize "operator=".toList = opn at *
  obtain ⟨a, b, c, d, f⟩ := c
  cases a <;> cases b <;> cases c <;> cases d <;> cases f <;> simp [hd, Fn.make]

theorem plumbing_assignments (t : Ty) (id : Name) (c : Caps) (hid : id ≠ "operator=".toList) :
    (declared (plumbingFns t id c) "operator=".toList).map (fun f => (f.ret, f.args)) =
      Spec.assignments t c := by
  rw [plumbingFns_eq]
  unfold declared Spec.assignments
  generalize "operator=".toList = opn at *
  obtain ⟨a, b, c, d, f⟩ := c
  cases a <;> cases b <;> cases c <;> cases d <;> cases f <;> simp [hid, Fn.make]

theorem get_nodup {α : Type} : ∀ (l : Assoc Name α), (l.map (·.1)).Nodup → ∀ (n : Name) (v : α),
    Assoc.get l n = some v ↔ (n, v) ∈ l
  | [], _, n, v => by simp [Assoc.get]
  | (k, w) :: l, hn, n, v => by
    rw [Assoc.get_cons]
    have hn' := List.nodup_cons.1 hn
    by_cases h : k = n
    · subst h
      rw [if_pos rfl]
      constructor
      · intro h; cases h; exact List.mem_cons_self
      · intro h
        rcases List.mem_cons.1 h with h | h
        · cases h; rfl
        · exact absurd (List.mem_map.2 ⟨_, h, rfl⟩) hn'.1
    · rw [if_neg h, get_nodup l hn'.2 n v]
      simp [Ne.symm h]

theorem offers_of (e : Env) (void : Handle) (t : Ty) (id : Name) (c : Caps) (ops : List NoteOp)
    (cons rest : List (Name × Fn)) (table : List (String × Sig)) (marks : List (String × Handle))
    (ptr : Option (String × Ty)) (hid : id ≠ "operator=".toList)
    (hplain : ∀ op ∈ ops, PlainNote op) (hf : fnsOf ops = plumbingFns t id c ++ (cons ++ rest))
    (hcons : ∀ p ∈ cons, p.1 = id) (hrest : ∀ p ∈ rest, p.1 ≠ id ∧ p.1 ≠ "operator=".toList)
    (hpw : cons.Pairwise (fun p q => p.1 = q.1 → q.2.testFn e p.2 ≠ .exact))
    (hpr : rest.Pairwise (fun p q => p.1 = q.1 → q.2.testFn e p.2 ≠ .exact))
    (hcross : ∀ p ∈ plumbingFns t id c, ∀ q ∈ cons, p.1 = id → q.2.testFn e p.2 ≠ .exact)
    (htable : rest.map (fun p => (p.1, sigOf p)) = table.map (fun r => (r.1.toList, r.2)))
    (hmarks : traitsOf void ops = marks.map fun m => (m.1.toList, m.2))
    (hnodup : (marks.map fun m => m.1.toList).Nodup)
    (hptr : pointerOf ops = ptr.map fun p => (p.1.toList, p.2)) :
    ∃ t', (Noted.new id).runAll e void ops = (t', .ok ()) ∧
      Offers t' id (Spec.constructors t c ++ cons.map sigOf) (Spec.assignments t c) table marks ptr := by
  have hnil : ∀ n, (Noted.new id).d.fns.get n = none := fun n => rfl
  obtain ⟨t', h1, h2⟩ := runAll_desc e void ops (Noted.new id) hplain (fun _ _ => rfl)
    (by
      rw [hf]
      apply noClash_of_pairwise
      · intro p _ g hg; rw [hnil] at hg; cases hg
      · rw [List.pairwise_append]
        refine ⟨plumbing_pairwise e t id c hid, ?_, ?_⟩
        · rw [List.pairwise_append]
          exact ⟨hpw, hpr, fun p hp q hq hpq =>
            absurd (hpq.symm.trans (hcons p hp)) (hrest q hq).1⟩
        · intro p hp q hq hpq
          rcases List.mem_append.1 hq with hq | hq
          · exact hcross p hp q hq (hpq.trans (hcons q hq))
          · rcases plumbingFns_mem t id c p hp with h | h
            · exact absurd (hpq.symm.trans h.1) (hrest q hq).1
            · exact absurd (hpq.symm.trans h) (hrest q hq).2)
    (by rw [hmarks, List.map_map]; exact hnodup) (fun _ _ => rfl)
  have hsig : ∀ n, signatures t' n = (declared (fnsOf ops) n).map (fun f => (f.ret, f.args)) := by
    intro n
    unfold signatures
    rw [h2.fns n, hnil]
    by_cases hx : declared (fnsOf ops) n = []
    · rw [if_pos hx, hx]; rfl
    · rw [if_neg hx]; simp
  refine ⟨t', h1, h2.id, ⟨h2.parent, h2.fields⟩, ?_, ?_, fun n hn ho => ?_, fun n => ?_, fun n v => ?_, ?_⟩
  · rw [hsig, hf, declared_append, declared_append, List.map_append, List.map_append,
      plumbing_constructors t id c hid, declared_all cons id hcons,
      declared_none rest id (fun p hp => (hrest p hp).1), List.map_map]
    simp [sigOf, Function.comp_def]
  · rw [hsig, hf, declared_append, declared_append, List.map_append, List.map_append,
      plumbing_assignments t id c hid,
      declared_none cons _ (fun p hp hx => hid ((hcons p hp).symm.trans hx)),
      declared_none rest _ (fun p hp => (hrest p hp).2)]
    simp
  · rw [hsig, hf, declared_append, declared_append, List.map_append, List.map_append,
      declared_none (plumbingFns t id c) n, declared_none cons n (fun p hp hx => hn (hx.symm.trans (hcons p hp))),
      rows_declared rest table n htable]
    · simp
    · intro p hp hx
      rcases plumbingFns_mem t id c p hp with h | h
      · exact hn (hx.symm.trans h.1)
      · exact ho (hx.symm.trans h)
  · rw [h2.fns n, hnil]
    by_cases hx : declared (fnsOf ops) n = []
    · rw [if_pos hx]; simp
    · rw [if_neg hx]; simpa using hx
  · have : t'.own.get n = Assoc.get (traitsOf void ops) n := by
      rw [h2.traits n]; rfl
    rw [this, hmarks, get_nodup _ (by rw [List.map_map]; exact hnodup)]
    simp only [List.mem_map, Prod.mk.injEq]
  · rw [h2.ptr, hptr]
    cases ptr <;> rfl

/-- the names of concrete traits differ -/
macro "different_names" : tactic => `(tactic|
  (simp only [Spec.vectorTraits, Spec.pointerTraits, Spec.mapTraits, Spec.numberTraits, Spec.stringTraits,
    Spec.smartTraits, Spec.valued, Spec.flags, Spec.kindNames, List.map, List.cons_append, List.nil_append]
   decide +kernel))

/-! ### the descriptions -/

theorem plumbingOps_plain (t : Ty) (id : Name) (c : Caps) :
    ∀ op ∈ plumbingOps t id c, ∃ n f, op = .addFunction n f := by
  intro op h
  unfold plumbingOps at h
  simp only [List.mem_append] at h
  rcases h with (((h | h) | h) | h) | h <;> split at h <;>
    first
    | (cases h; done)
    | exact ⟨_, _, List.mem_singleton.1 h⟩

theorem plumbing_plain (l : Lib) (t : Ty) (id : Name) (c : Caps) : ∀ op ∈ plumbing l t id c, PlainNote op := by
  intro op h
  rcases List.mem_cons.1 h with rfl | h
  · exact trivial
  · obtain ⟨o, ho, rfl⟩ := List.mem_map.1 h
    obtain ⟨n, f, rfl⟩ := plumbingOps_plain t id c o ho
    exact trivial

theorem fnsOf_plumbing (l : Lib) (t : Ty) (id : Name) (c : Caps) :
    fnsOf (plumbing l t id c) = plumbingFns t id c := rfl

theorem traitsOf_plumbing (l : Lib) (t : Ty) (id : Name) (c : Caps) :
    traitsOf l.void (plumbing l t id c) = [("sizeof".toList, l.traitVal t "sizeof".toList)] := by
  obtain ⟨a, b, c, d, f⟩ := c
  cases a <;> cases b <;> cases c <;> cases d <;> cases f <;> rfl

theorem pointerOf_plumbing (l : Lib) (t : Ty) (id : Name) (c : Caps) (rest : List NoteOp) :
    pointerOf (plumbing l t id c ++ rest) = pointerOf rest := by
  obtain ⟨a, b, c, d, f⟩ := c
  cases a <;> cases b <;> cases c <;> cases d <;> cases f <;> rfl

/-- name and number of parameters -/
def keyOf (p : Name × Fn) : Name × Nat := (p.1, p.2.args.length)

/-- functions that differ in name or number of parameters do not clash -/
theorem pairwise_of_keys (e : Env) (l : List (Name × Fn)) (h : (l.map keyOf).Nodup) :
    l.Pairwise (fun p q => p.1 = q.1 → q.2.testFn e p.2 ≠ .exact) := by
  rw [List.Nodup, List.pairwise_map] at h
  refine h.imp ?_
  intro p q hpq hn
  have : p.2.args.length ≠ q.2.args.length := fun hl => hpq (by unfold keyOf; rw [hn, hl])
  rw [testFn_arity e _ _ this]; simp

theorem pairwise_twins {α : Type} {R : α → α → Prop} (x y : α) (b : List α) : ∀ a : List α,
    (a ++ x :: b).Pairwise R → (a ++ y :: b).Pairwise R → R x y → (a ++ x :: y :: b).Pairwise R
  | [], h1, h2, h => by
    rw [List.nil_append, List.pairwise_cons] at *
    refine ⟨?_, List.pairwise_cons.2 h2⟩
    intro z hz
    rcases List.mem_cons.1 hz with rfl | hz
    · exact h
    · exact h1.1 z hz
  | w :: a, h1, h2, h => by
    rw [List.cons_append, List.pairwise_cons] at *
    refine ⟨?_, pairwise_twins x y b a h1.2 h2.2 h⟩
    intro z hz
    have := h1.1 z
    have := h2.1 z
    simp only [List.mem_append, List.mem_cons] at *
    rcases hz with hz | rfl | rfl | hz <;> simp_all

theorem hrest_of (id : Name) (rest : List (Name × Fn)) (table : List (String × Sig))
    (ht : rest.map (fun p => (p.1, sigOf p)) = table.map (fun r => (r.1.toList, r.2)))
    (h1 : ∀ r ∈ table, r.1.toList ≠ id) (h2 : "operator=" ∉ table.map (·.1)) :
    ∀ p ∈ rest, p.1 ≠ id ∧ p.1 ≠ "operator=".toList := by
  intro p hp
  have hm : (p.1, sigOf p) ∈ table.map (fun r => (r.1.toList, r.2)) := by
    rw [← ht]; exact List.mem_map.2 ⟨p, hp, rfl⟩
  obtain ⟨r, hr, he⟩ := List.mem_map.1 hm
  have he1 : r.1.toList = p.1 := (Prod.mk.inj he).1
  refine ⟨he1 ▸ h1 r hr, fun hx => h2 ?_⟩
  rw [← he1] at hx
  have := String.toList_inj.1 hx
  exact List.mem_map.2 ⟨r, hr, this⟩

/-- C76. A description is run call by call: the calls before the first that raises have their effect, that one
    ends it with its error, and those after it are not made. -/
theorem C76_runs_in_order (e : Env) (void : Handle) (t t1 t2 : Noted) (pre post : List NoteOp) (op : NoteOp)
    (hpre : t.runAll e void pre = (t1, .ok ())) :
    (∀ x, t1.step e void op = (t2, .error x) → t.runAll e void (pre ++ op :: post) = (t2, .error x)) ∧
    (t1.step e void op = (t2, .ok ()) → t.runAll e void (pre ++ op :: post) = t2.runAll e void post) := by
  induction pre generalizing t with
  | nil =>
    simp only [Noted.runAll, Prod.mk.injEq, and_true] at hpre
    subst hpre
    exact ⟨fun x h => by simp [Noted.runAll, h], fun h => by simp [Noted.runAll, h]⟩
  | cons o os ih =>
    simp only [Noted.runAll] at hpre
    generalize hs : t.step e void o = r at hpre
    obtain ⟨t', x'⟩ := r
    cases x' with
    | error y => simp at hpre
    | ok u => simpa [Noted.runAll, hs] using ih t' hpre

/-- C76. `std::vector<V>`: the description is accepted, whatever `V` is. -/
theorem C76_vector (e : Env) (l : Lib) (t elem : Ty) (c : Caps) (id : Name)
    (hid : id ≠ "operator=".toList) (hn : ∀ r ∈ Spec.vectorTable l t elem, r.1.toList ≠ id) :
    ∃ t', (Noted.new id).runAll e l.void (vectorDesc l t elem c id) = (t', .ok ()) ∧
      Offers t' id (Spec.constructors t c) (Spec.assignments t c) (Spec.vectorTable l t elem)
        (Spec.vectorTraits l t) none := by
  have htab : (fnsOf ((vectorDesc l t elem c id).drop (plumbing l t id c).length)).map
      (fun p => (p.1, sigOf p)) = (Spec.vectorTable l t elem).map (fun r => (r.1.toList, r.2)) := by
    rw [vectorDesc, List.drop_left]; rfl
  have := offers_of e l.void t id c (vectorDesc l t elem c id) []
    (fnsOf ((vectorDesc l t elem c id).drop (plumbing l t id c).length)) (Spec.vectorTable l t elem)
    (Spec.vectorTraits l t) none hid
    (by
      intro op h
      rcases List.mem_append.1 h with h | h
      · exact plumbing_plain l t id c op h
      · simp only [List.mem_cons, List.not_mem_nil, or_false] at h
        rcases h with h | h | h | h | h | h | h | h | h <;> subst h <;> exact trivial)
    (by simp [vectorDesc, fnsOf_append, fnsOf_plumbing])
    (by simp)
    (hrest_of id _ _ htab hn (by show _ ∉ _; simp [Spec.vectorTable]))
    (by simp)
    (by
      rw [vectorDesc, List.drop_left]
      exact pairwise_twins _ _ [_, _] [_, _, _]
        (pairwise_of_keys e _ (show (_ : List (Name × Nat)).Nodup by
          show List.Nodup [("size".toList, 1), ("clear".toList, 1), ("resize".toList, 2),
            ("push_back".toList, 2), ("operator[]".toList, 2), ("at".toList, 2)]
          decide +kernel))
        (pairwise_of_keys e _ (by
          show List.Nodup [("size".toList, 1), ("clear".toList, 1), ("resize".toList, 2),
            ("push_back".toList, 2), ("operator[]".toList, 2), ("at".toList, 2)]
          decide +kernel))
        (fun _ => not_exact_of_arg e _ _ (elem.cref, elem.rref) (by simp [Fn.make]) (cref_rref e elem)))
    (by simp)
    htab
    (by rw [vectorDesc, traitsOf_append, traitsOf_plumbing]; rfl)
    (by different_names)
    (by rw [vectorDesc, pointerOf_plumbing]; rfl)
  simpa using this

/-- the functions of a table, with their bodies -/
def tableFns (table : List (String × Sig)) (bodies : List Nat) : List (Name × Fn) :=
  List.zipWith (fun r b => (r.1.toList, Fn.make r.1.toList r.2.1 r.2.2 b)) table bodies

/-- C76. `T*`. -/
theorem C76_pointer (e : Env) (l : Lib) (t inner : Ty) (k : Bool) (id : Name)
    (hid : id ≠ "operator=".toList) (hn : ∀ r ∈ Spec.pointerTable l t inner k, r.1.toList ≠ id) :
    ∃ t', (Noted.new id).runAll e l.void (pointerDesc l t inner k id) = (t', .ok ()) ∧
      Offers t' id [(t.val, []), (t.val, [t.cref]), (t.val, [t.rref])]
        [(t.lref, [t.lref, t.cref]), (t.lref, [t.lref, t.rref])]
        (Spec.pointerTable l t inner k) (Spec.pointerTraits l t) (some ("*", inner)) := by
  have := offers_of e l.void t id regular (pointerDesc l t inner k id) []
    (tableFns (Spec.pointerTable l t inner k) [5, 6, 7]) (Spec.pointerTable l t inner k)
    (Spec.pointerTraits l t) (some ("*", inner)) hid
    (by
      intro op h
      rcases List.mem_append.1 h with h | h
      · exact plumbing_plain l t id _ op h
      · simp only [List.mem_cons, List.not_mem_nil, or_false] at h
        rcases h with h | h | h | h | h <;> subst h <;> exact trivial)
    (by rw [pointerDesc, fnsOf_append, fnsOf_plumbing]; rfl)
    (by simp)
    (hrest_of id _ _ rfl hn (by show _ ∉ _; simp [Spec.pointerTable]))
    (by simp)
    (pairwise_twins _ _ [] [_]
        (pairwise_of_keys e _ (by
          simp only [tableFns, Spec.pointerTable, Spec.mapTable, Spec.numberTable, Spec.sharedTable,
        Spec.uniqueTable, Spec.smartTable, List.cons_append, List.nil_append, List.zipWith, List.map,
        keyOf, Fn.make, List.length]
          decide +kernel))
        (pairwise_of_keys e _ (by
          simp only [tableFns, Spec.pointerTable, Spec.mapTable, Spec.numberTable, Spec.sharedTable,
        Spec.uniqueTable, Spec.smartTable, List.cons_append, List.nil_append, List.zipWith, List.map,
        keyOf, Fn.make, List.length]
          decide +kernel))
        (fun _ => not_exact_of_arg e _ _ (t.lref, t.cref) (by simp [Fn.make]) (lref_cref e t)))
    (by simp) rfl
    (by rw [pointerDesc, traitsOf_append, traitsOf_plumbing]; rfl)
    (by different_names)
    (by rw [pointerDesc, pointerOf_plumbing]; rfl)
  simpa [Spec.constructors, Spec.assignments, regular] using this

/-- C76. `std::map<K,V>` and `std::unordered_map<K,V>`. -/
theorem C76_map (e : Env) (l : Lib) (t key elem keys : Ty) (c : Caps) (id : Name)
    (hid : id ≠ "operator=".toList) (hn : ∀ r ∈ Spec.mapTable l t key elem keys, r.1.toList ≠ id) :
    ∃ t', (Noted.new id).runAll e l.void (mapDesc l t key elem keys c id) = (t', .ok ()) ∧
      Offers t' id (Spec.constructors t c) (Spec.assignments t c) (Spec.mapTable l t key elem keys)
        (Spec.mapTraits l t) none := by
  have := offers_of e l.void t id c (mapDesc l t key elem keys c id) []
    (tableFns (Spec.mapTable l t key elem keys) [5, 6, 7, 8, 9]) (Spec.mapTable l t key elem keys)
    (Spec.mapTraits l t) none hid
    (by
      intro op h
      rcases List.mem_append.1 h with h | h
      · exact plumbing_plain l t id _ op h
      · simp only [List.mem_cons, List.not_mem_nil, or_false] at h
        rcases h with h | h | h | h | h | h | h | h <;> subst h <;> exact trivial)
    (by rw [mapDesc, fnsOf_append, fnsOf_plumbing]; rfl)
    (by simp)
    (hrest_of id _ _ rfl hn (by show _ ∉ _; simp [Spec.mapTable]))
    (by simp)
    (pairwise_of_keys e _ (by
      simp only [tableFns, Spec.pointerTable, Spec.mapTable, Spec.numberTable, Spec.sharedTable,
        Spec.uniqueTable, Spec.smartTable, List.cons_append, List.nil_append, List.zipWith, List.map,
        keyOf, Fn.make, List.length]
      decide +kernel))
    (by simp) rfl
    (by rw [mapDesc, traitsOf_append, traitsOf_plumbing]; rfl)
    (by different_names)
    (by rw [mapDesc, pointerOf_plumbing]; rfl)
  simpa using this

/-- C76. Numbers: exactly one of the traits bool, integer and float; integers are signed or unsigned. -/
theorem C76_number (e : Env) (l : Lib) (t raw sum : Ty) (k : NumKind) (id : Name)
    (hid : id ≠ "operator=".toList) (hn : ∀ r ∈ Spec.numberTable t raw sum, r.1.toList ≠ id) :
    ∃ t', (Noted.new id).runAll e l.void (numberDesc l t raw sum k id) = (t', .ok ()) ∧
      Offers t' id [(t.val, []), (t.val, [t.cref]), (t.val, [t.rref])]
        [(t.lref, [t.lref, t.cref]), (t.lref, [t.lref, t.rref])]
        (Spec.numberTable t raw sum) (Spec.numberTraits l t k) none := by
  have := offers_of e l.void t id regular (numberDesc l t raw sum k id) []
    (tableFns (Spec.numberTable t raw sum) [5, 6]) (Spec.numberTable t raw sum)
    (Spec.numberTraits l t k) none hid
    (by
      intro op h
      unfold numberDesc at h
      rcases List.mem_append.1 h with h | h
      · rcases List.mem_append.1 h with h | h
        · exact plumbing_plain l t id _ op h
        · simp only [List.mem_cons, List.not_mem_nil, or_false] at h
          rcases h with h | h | h | h | h <;> subst h <;> exact trivial
      · match k, h with
        | .bool, h => rw [List.mem_singleton.1 h]; exact trivial
        | .integer true, h => rcases List.mem_cons.1 h with rfl | h
                              · exact trivial
                              · rw [List.mem_singleton.1 h]; exact trivial
        | .integer false, h => rcases List.mem_cons.1 h with rfl | h
                               · exact trivial
                               · rw [List.mem_singleton.1 h]; exact trivial
        | .float, h => rw [List.mem_singleton.1 h]; exact trivial)
    (by
      rw [numberDesc, fnsOf_append, fnsOf_append, fnsOf_plumbing]
      match k with
      | .bool => simp only [List.append_assoc]; rfl
      | .integer true => simp only [List.append_assoc]; rfl
      | .integer false => simp only [List.append_assoc]; rfl
      | .float => simp only [List.append_assoc]; rfl)
    (by simp)
    (hrest_of id _ _ rfl hn (by show _ ∉ _; simp [Spec.numberTable]))
    (by simp)
    (pairwise_of_keys e _ (by
      simp only [tableFns, Spec.pointerTable, Spec.mapTable, Spec.numberTable, Spec.sharedTable,
        Spec.uniqueTable, Spec.smartTable, List.cons_append, List.nil_append, List.zipWith, List.map,
        keyOf, Fn.make, List.length]
      decide +kernel))
    (by simp) rfl
    (by
      rw [numberDesc, traitsOf_append, traitsOf_append, traitsOf_plumbing]
      match k with
      | .bool => rfl
      | .integer true => rfl
      | .integer false => rfl
      | .float => rfl)
    (by
      match k with
      | .bool => different_names
      | .integer true => different_names
      | .integer false => different_names
      | .float => different_names)
    (by
      rw [numberDesc, List.append_assoc, pointerOf_plumbing]
      match k with
      | .bool => rfl
      | .integer true => rfl
      | .integer false => rfl
      | .float => rfl)
  simpa [Spec.constructors, Spec.assignments, regular] using this

/-- C76. `std::string`. -/
theorem C76_string (e : Env) (l : Lib) (t raw : Ty) (id : Name)
    (hid : id ≠ "operator=".toList) (hn : ∀ r ∈ Spec.stringTable l t raw, r.1.toList ≠ id) :
    ∃ t', (Noted.new id).runAll e l.void (stringDesc l t raw id) = (t', .ok ()) ∧
      Offers t' id [(t.val, []), (t.val, [t.cref]), (t.val, [t.rref])]
        [(t.lref, [t.lref, t.cref]), (t.lref, [t.lref, t.rref])]
        (Spec.stringTable l t raw) (Spec.stringTraits l t) none := by
  have := offers_of e l.void t id regular (stringDesc l t raw id) []
    (tableFns (Spec.stringTable l t raw) [5, 6]) (Spec.stringTable l t raw)
    (Spec.stringTraits l t) none hid
    (by
      intro op h
      rcases List.mem_append.1 h with h | h
      · exact plumbing_plain l t id _ op h
      · simp only [List.mem_cons, List.not_mem_nil, or_false] at h
        rcases h with h | h | h <;> subst h <;> exact trivial)
    (by rw [stringDesc, fnsOf_append, fnsOf_plumbing]; rfl)
    (by simp)
    (hrest_of id _ _ rfl hn (by show _ ∉ _; simp [Spec.stringTable]))
    (by simp)
    (pairwise_of_keys e _ (by
      simp only [tableFns, Spec.stringTable, List.zipWith, List.map, keyOf, Fn.make, List.length]
      decide +kernel))
    (by simp) rfl
    (by rw [stringDesc, traitsOf_append, traitsOf_plumbing]; rfl)
    (by different_names)
    (by rw [stringDesc, pointerOf_plumbing]; rfl)
  simpa [Spec.constructors, Spec.assignments, regular] using this

/-- a smart pointer's constructor from a raw pointer clashes with none of its plumbing -/
theorem smart_cross (e : Env) (t raw : Ty) (id : Name) (c : Caps) (ht : t ≠ e.valueT) (hr : raw ≠ e.valueT)
    (hne : t ≠ raw) (hc : e.child t raw = false) :
    ∀ p ∈ plumbingFns t id c, ∀ q ∈ [(id, Fn.make id t.val [raw.val] 5)], p.1 = id →
      id ≠ "operator=".toList → q.2.testFn e p.2 ≠ .exact := by
  intro p hp q hq hpid hid
  rw [List.mem_singleton.1 hq]
  rcases plumbingFns_mem t id c p hp with ⟨_, h⟩ | h
  · simp only [List.mem_cons, List.not_mem_nil, or_false] at h
    rcases h with h | h | h
    · rw [testFn_arity e _ _ (by simp [Fn.make, h])]; simp
    · exact not_exact_of_arg e _ _ (t.cref, raw.val) (by simp [Fn.make, h]) (to_val e _ _ ht hr hne hc)
    · exact not_exact_of_arg e _ _ (t.rref, raw.val) (by simp [Fn.make, h]) (to_val e _ _ ht hr hne hc)
  · exact absurd (hpid.symm.trans h) hid

/-- C76. `std::shared_ptr<T>`: accepted as long as the smart pointer is not itself taken for a `T*`
    (`C76_smart_is_not_raw`). -/
theorem C76_shared (e : Env) (l : Lib) (t inner raw : Ty) (k : Bool) (id : Name)
    (hid : id ≠ "operator=".toList) (hn : ∀ r ∈ Spec.sharedTable l t inner raw k, r.1.toList ≠ id)
    (ht : t ≠ e.valueT) (hr : raw ≠ e.valueT) (hne : t ≠ raw) (hc : e.child t raw = false) :
    ∃ t', (Noted.new id).runAll e l.void (sharedDesc l t inner raw k id) = (t', .ok ()) ∧
      Offers t' id [(t.val, []), (t.val, [t.cref]), (t.val, [t.rref]), (t.val, [raw.val])]
        [(t.lref, [t.lref, t.cref]), (t.lref, [t.lref, t.rref])]
        (Spec.sharedTable l t inner raw k) (Spec.smartTraits l t)
        (some ("std::shared_ptr", inner)) := by
  exact offers_of e l.void t id regular (sharedDesc l t inner raw k id)
    [(id, Fn.make id t.val [raw.val] 5)]
    (tableFns (Spec.sharedTable l t inner raw k) [6, 7, 8, 9, 10, 11]) (Spec.sharedTable l t inner raw k)
    (Spec.smartTraits l t) (some ("std::shared_ptr", inner)) hid
    (by
      intro op h
      unfold sharedDesc smartDesc at h
      rcases List.mem_cons.1 h with rfl | h
      · exact trivial
      · rcases List.mem_append.1 h with h | h
        · rcases List.mem_append.1 h with h | h
          · exact plumbing_plain l t id _ op h
          · simp only [List.mem_cons, List.not_mem_nil, or_false] at h
            rcases h with h | h | h | h | h | h <;> subst h <;> exact trivial
        · simp only [List.mem_cons, List.not_mem_nil, or_false] at h
          rcases h with h | h <;> subst h <;> exact trivial)
    (by
      show fnsOf (smartDesc l t inner raw k regular id ++ _) = _
      rw [smartDesc, fnsOf_append, fnsOf_append, fnsOf_plumbing, List.append_assoc]; rfl)
    (by simp)
    (hrest_of id _ _ rfl hn (by show _ ∉ _; simp [Spec.sharedTable, Spec.smartTable]))
    (by simp)
    (pairwise_of_keys e _ (by
      simp only [tableFns, Spec.pointerTable, Spec.mapTable, Spec.numberTable, Spec.sharedTable,
        Spec.uniqueTable, Spec.smartTable, List.cons_append, List.nil_append, List.zipWith, List.map,
        keyOf, Fn.make, List.length]
      decide +kernel))
    (fun p hp q hq h => smart_cross e t raw id regular ht hr hne hc p hp q hq h hid) rfl
    (by
      show ("pointer".toList, l.void) :: traitsOf l.void (smartDesc l t inner raw k regular id ++ _) = _
      rw [smartDesc, traitsOf_append, traitsOf_append,
        traitsOf_plumbing]; rfl)
    (by different_names) rfl

/-- C76. `std::unique_ptr<T>`, which is move-only. -/
theorem C76_unique (e : Env) (l : Lib) (t inner raw : Ty) (k : Bool) (id : Name)
    (hid : id ≠ "operator=".toList) (hn : ∀ r ∈ Spec.uniqueTable l t inner raw k, r.1.toList ≠ id)
    (ht : t ≠ e.valueT) (hr : raw ≠ e.valueT) (hne : t ≠ raw) (hc : e.child t raw = false) :
    ∃ t', (Noted.new id).runAll e l.void (uniqueDesc l t inner raw k id) = (t', .ok ()) ∧
      Offers t' id [(t.val, []), (t.val, [t.rref]), (t.val, [raw.val])] [(t.lref, [t.lref, t.rref])]
        (Spec.uniqueTable l t inner raw k) (Spec.smartTraits l t)
        (some ("std::unique_ptr", inner)) := by
  exact offers_of e l.void t id moveOnly (uniqueDesc l t inner raw k id)
    [(id, Fn.make id t.val [raw.val] 5)]
    (tableFns (Spec.uniqueTable l t inner raw k) [6, 7, 8, 9, 10, 11, 12]) (Spec.uniqueTable l t inner raw k)
    (Spec.smartTraits l t) (some ("std::unique_ptr", inner)) hid
    (by
      intro op h
      unfold uniqueDesc smartDesc at h
      rcases List.mem_cons.1 h with rfl | h
      · exact trivial
      · rcases List.mem_append.1 h with h | h
        · rcases List.mem_append.1 h with h | h
          · exact plumbing_plain l t id _ op h
          · simp only [List.mem_cons, List.not_mem_nil, or_false] at h
            rcases h with h | h | h | h | h | h <;> subst h <;> exact trivial
        · simp only [List.mem_cons, List.not_mem_nil, or_false] at h
          rcases h with h | h | h <;> subst h <;> exact trivial)
    (by
      show fnsOf (smartDesc l t inner raw k moveOnly id ++ _) = _
      rw [smartDesc, fnsOf_append, fnsOf_append, fnsOf_plumbing, List.append_assoc]; rfl)
    (by simp)
    (hrest_of id _ _ rfl hn (by show _ ∉ _; simp [Spec.uniqueTable, Spec.smartTable]))
    (by simp)
    (pairwise_of_keys e _ (by
      simp only [tableFns, Spec.pointerTable, Spec.mapTable, Spec.numberTable, Spec.sharedTable,
        Spec.uniqueTable, Spec.smartTable, List.cons_append, List.nil_append, List.zipWith, List.map,
        keyOf, Fn.make, List.length]
      decide +kernel))
    (fun p hp q hq h => smart_cross e t raw id moveOnly ht hr hne hc p hp q hq h hid) rfl
    (by
      show ("pointer".toList, l.void) :: traitsOf l.void (smartDesc l t inner raw k moveOnly id ++ _) = _
      rw [smartDesc, traitsOf_append, traitsOf_append,
        traitsOf_plumbing]; rfl)
    (by different_names) rfl

end Reflect

import Verif.Lemmas.Operators
import Verif.Model.StdTypes
/-
  Runs of descriptions made of functions, traits and at most one `setPointer`.
-/
namespace Reflect

/-- the functions a description defines, in order -/
def fnsOf : List NoteOp → List (Name × Fn)
  | [] => []
  | .decl (.addFunction n f) :: ops => (n, f) :: fnsOf ops
  | _ :: ops => fnsOf ops

/-- the traits a description gives the type, with their values -/
def traitsOf (void : Handle) : List NoteOp → List (Name × Handle)
  | [] => []
  | .trait n v :: ops => (n, v) :: traitsOf void ops
  | .decl (.setPointer _ _) :: ops => ("pointer".toList, void) :: traitsOf void ops
  | _ :: ops => traitsOf void ops

/-- what a description makes the type point to -/
def pointerOf : List NoteOp → Option (Name × Ty)
  | [] => none
  | .decl (.setPointer k p) :: _ => some (k, p)
  | _ :: ops => pointerOf ops

/-- functions, traits of the type itself and `setPointer` -/
def PlainNote : NoteOp → Prop
  | .decl (.addFunction _ _) | .decl (.setPointer _ _) | .trait _ _ => True
  | _ => False

/-- what a description leaves of a type `t` -/
structure Described (void : Handle) (t : Noted) (ops : List NoteOp) (t' : Noted) : Prop where
  id : t'.d.id = t.d.id
  parent : t'.d.parent = t.d.parent
  fields : t'.d.fields = t.d.fields
  noted : t'.fields = t.fields ∧ t'.fns = t.fns
  ptr : t'.d.ptr = (pointerOf ops).or t.d.ptr
  fns : ∀ n, t'.d.fns.get n = if declared (fnsOf ops) n = [] then t.d.fns.get n
    else some ((t.d.fns.get n).getD [] ++ declared (fnsOf ops) n)
  traits : ∀ n, t'.own.get n = (t.own.get n).or (Assoc.get (traitsOf void ops) n)

theorem step_addFunction (e : Env) (d : TypeD) (n : Name) (f : Fn) (hf : d.fields.get n = none)
    (h : ∀ g ∈ (d.fns.get n).getD [], f.testFn e g ≠ .exact) :
    d.step e (.addFunction n f) =
      ({ d with fns := d.fns.set n ((d.fns.get n).getD [] ++ [f]) }, .ok ()) := by
  have ha : Overloads.add e ((d.fns.get n).getD []) f = ((d.fns.get n).getD [] ++ [f], .ok ()) := by
    unfold Overloads.add
    rw [if_neg]
    intro h'
    obtain ⟨g, hg, hx⟩ := List.any_eq_true.1 h'
    exact h g hg (by simpa using hx)
  simp only [TypeD.step, TypeD.addFunction, hf, ha]

theorem runAll_desc (e : Env) (void : Handle) : ∀ (ops : List NoteOp) (t : Noted),
    (∀ op ∈ ops, PlainNote op) → (∀ p ∈ fnsOf ops, t.d.fields.get p.1 = none) →
    NoClash e (fun n => (t.d.fns.get n).getD []) (fnsOf ops) →
    ((traitsOf void ops).map (·.1)).Nodup →
    (∀ n ∈ (traitsOf void ops).map (·.1), t.own.get n = none) →
    ∃ t', t.runAll e void ops = (t', .ok ()) ∧ Described void t ops t'
  | [], t, _, _, _, _, _ => ⟨t, rfl, rfl, rfl, rfl, ⟨rfl, rfl⟩, by simp [pointerOf],
      fun n => by simp [fnsOf, declared], fun n => by simp [traitsOf]⟩
  | op :: ops, t, hp, hf, hc, hn, ho => by
    have hp' : ∀ op ∈ ops, PlainNote op := fun o h => hp o (List.mem_cons_of_mem _ h)
    have h0 := hp op List.mem_cons_self
    match op, h0 with
    | .decl (.addFunction n f), _ =>
      obtain ⟨h1, h2⟩ := hc
      have hs := step_addFunction e t.d n f (hf (n, f) List.mem_cons_self) h1
      have hold : ∀ m, ((t.d.fns.set n ((t.d.fns.get n).getD [] ++ [f])).get m).getD [] =
          (t.d.fns.get m).getD [] ++ if n = m then [f] else [] := by
        intro m
        rw [Assoc.get_set]
        by_cases hm : n = m
        · subst hm; simp
        · simp [hm]
      obtain ⟨t', h3, h4⟩ := runAll_desc e void ops
        { t with d := { t.d with fns := t.d.fns.set n ((t.d.fns.get n).getD [] ++ [f]) } } hp'
        (fun p h => hf p (List.mem_cons_of_mem _ h)) (by
          have : (fun m => ((t.d.fns.set n ((t.d.fns.get n).getD [] ++ [f])).get m).getD []) =
            fun m => (t.d.fns.get m).getD [] ++ if n = m then [f] else [] := funext hold
          simp only [this]
          exact h2) hn ho
      refine ⟨t', ?_, h4.id, h4.parent, h4.fields, h4.noted, h4.ptr, fun m => ?_, h4.traits⟩
      · rw [Noted.runAll, Noted.step]
        · rw [hs]; exact h3
        · intro k p h; cases h
      · rw [h4.fns m]
        have hd : declared (fnsOf (.decl (.addFunction n f) :: ops)) m =
            (if n = m then [f] else []) ++ declared (fnsOf ops) m := declared_cons (n, f) (fnsOf ops) m
        simp only [hd, hold m]
        rw [Assoc.get_set]
        by_cases hm : n = m
        · subst hm; simp
        · simp [hm]
    | .decl (.setPointer k q), _ =>
      have hnone : t.own.get "pointer".toList = none := ho _ List.mem_cons_self
      have hs : t.step e void (.decl (.setPointer k q)) =
          ({ t with own := Assoc.set t.own "pointer".toList void, d := { t.d with ptr := some (k, q) } },
            .ok ()) := by
        have hi : t.isPointer = false := by
          unfold Noted.isPointer Traits.is
          rw [hnone]; rfl
        simp only [Noted.step, Noted.setPointer, hi, Traits.addTrait, hnone]
        rfl
      have hnd : "pointer".toList ∉ (traitsOf void ops).map (·.1) := (List.nodup_cons.1 hn).1
      obtain ⟨t', h3, h4⟩ := runAll_desc e void ops
        { t with own := Assoc.set t.own "pointer".toList void, d := { t.d with ptr := some (k, q) } } hp'
        hf hc (List.nodup_cons.1 hn).2 (fun n h => by
          show Assoc.get (Assoc.set t.own "pointer".toList void) n = none
          rw [Assoc.get_set, if_neg]
          · exact ho n (List.mem_cons_of_mem _ h)
          · intro hx; rw [hx] at hnd; exact hnd h)
      have hptr : pointerOf ops = none := by
        clear h3 h4 hs hf hc hn ho hp hp'
        induction ops with
        | nil => rfl
        | cons o ops ih =>
          match o with
          | .decl (.setPointer k' q') => simp [traitsOf] at hnd
          | .trait n v => exact ih (fun h => hnd (List.mem_cons_of_mem _ h))
          | .decl (.addFunction _ _) => exact ih hnd
          | .decl (.addField _ _ _) => exact ih hnd
          | .decl (.setParent _) => exact ih hnd
          | .fieldTrait _ _ _ => exact ih hnd
          | .fnTrait _ _ _ => exact ih hnd
      refine ⟨t', ?_, h4.id, h4.parent, h4.fields, h4.noted, ?_, h4.fns, fun m => ?_⟩
      · rw [Noted.runAll, hs]; exact h3
      · rw [h4.ptr, hptr]; rfl
      · rw [h4.traits m]
        show (Assoc.get (Assoc.set t.own "pointer".toList void) m).or _ = _
        rw [Assoc.get_set]
        simp only [traitsOf]
        rw [Assoc.get_cons]
        by_cases hm : "pointer".toList = m
        · rw [if_pos hm, if_pos hm, ← hm, hnone]; rfl
        · rw [if_neg hm, if_neg hm]
    | .trait n v, _ =>
      have hnone : t.own.get n = none := ho _ List.mem_cons_self
      have hs : t.step e void (.trait n v) = ({ t with own := Assoc.set t.own n v }, .ok ()) := by
        simp only [Noted.step, Traits.addTrait, hnone]
      have hnd : n ∉ (traitsOf void ops).map (·.1) := (List.nodup_cons.1 hn).1
      obtain ⟨t', h3, h4⟩ := runAll_desc e void ops { t with own := Assoc.set t.own n v } hp'
        hf hc (List.nodup_cons.1 hn).2 (fun m h => by
          show Assoc.get (Assoc.set t.own n v) m = none
          rw [Assoc.get_set, if_neg]
          · exact ho m (List.mem_cons_of_mem _ h)
          · intro hx; rw [hx] at hnd; exact hnd h)
      refine ⟨t', ?_, h4.id, h4.parent, h4.fields, h4.noted, h4.ptr, h4.fns, fun m => ?_⟩
      · rw [Noted.runAll, hs]; exact h3
      · rw [h4.traits m]
        show (Assoc.get (Assoc.set t.own n v) m).or _ = _
        rw [Assoc.get_set]
        simp only [traitsOf]
        rw [Assoc.get_cons]
        by_cases hm : n = m
        · rw [if_pos hm, if_pos hm, ← hm, hnone]; rfl
        · rw [if_neg hm, if_neg hm]

end Reflect

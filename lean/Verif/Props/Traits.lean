import Verif.Model.Traits
import Verif.Props.Calls
/-
  Property C72: traits.
-/
namespace Reflect
open World

/-! ### one collection of traits -/

theorem Traits.get_addTrait (m : Traits) (n : Name) (v : Handle) (x : Name) :
    (m.addTrait n v).1.get x = if n = x ∧ m.get n = none then some v else m.get x := by
  unfold Traits.addTrait
  cases h : Assoc.get m n with
  | some w => simp
  | none =>
    simp only [Assoc.get_set]
    by_cases hx : n = x <;> simp [hx]

theorem Traits.addTrait_ok (m : Traits) (n : Name) (v : Handle) :
    (m.addTrait n v).2 = .ok () ↔ m.get n = none := by
  unfold Traits.addTrait
  cases h : Assoc.get m n <;> simp

theorem Traits.addTrait_refused (m : Traits) (n : Name) (v : Handle) (h : (m.addTrait n v).2 ≠ .ok ()) :
    (m.addTrait n v).1 = m := by
  unfold Traits.addTrait at h ⊢
  cases hg : Assoc.get m n with
  | some w => rfl
  | none => rw [hg] at h; simp at h

/-! ### C72: what is recorded, over every history -/

/-- the value a call gives the trait `n` of the type: `setPointer` sets the flag "pointer" -/
def givesType (void : Handle) (n : Name) : NoteOp → Option Handle
  | .trait m v => if m = n then some v else none
  | .decl (.setPointer _ _) => if n = "pointer".toList then some void else none
  | _ => none

theorem Noted.run_append (e : Env) (void : Handle) (t : Noted) (a b : List NoteOp) :
    t.run e void (a ++ b) = (t.run e void a).run e void b := by
  unfold Noted.run; rw [List.foldl_append]

theorem Noted.run_snoc (e : Env) (void : Handle) (t : Noted) (a : List NoteOp) (op : NoteOp) :
    t.run e void (a ++ [op]) = ((t.run e void a).step e void op).1 := by
  rw [Noted.run_append]; rfl

theorem Noted.own_step (e : Env) (void : Handle) (t : Noted) (op : NoteOp) (n : Name) :
    (t.step e void op).1.own.get n = match t.own.get n with
      | some v => some v
      | none => givesType void n op := by
  cases op with
  | trait m v =>
    simp only [Noted.step, Traits.get_addTrait, givesType]
    by_cases hm : m = n
    · subst hm; cases t.own.get m <;> simp
    · simp only [hm, false_and, if_false]; cases t.own.get n <;> rfl
  | fieldTrait f m v =>
    simp only [Noted.step, givesType]
    split <;> (simp only; cases t.own.get n <;> rfl)
  | fnTrait f m v =>
    simp only [Noted.step, givesType]
    split <;> (simp only; cases t.own.get n <;> rfl)
  | decl op =>
    cases op with
    | setPointer k q =>
      simp only [Noted.step, Noted.setPointer, givesType]
      by_cases hp : t.isPointer = true
      · rw [if_pos hp]
        simp only
        by_cases hn : n = "pointer".toList
        · subst hn
          unfold Noted.isPointer Traits.is at hp
          cases h : Assoc.get t.own "pointer".toList with
          | none => rw [h] at hp; cases hp
          | some w => rfl
        · rw [if_neg hn]; cases t.own.get n <;> rfl
      · rw [if_neg hp]
        have hg : Assoc.get t.own "pointer".toList = none := by
          unfold Noted.isPointer Traits.is at hp
          cases h : Assoc.get t.own "pointer".toList with
          | none => rfl
          | some w => rw [h] at hp; exact absurd rfl hp
        simp only [Traits.get_addTrait, hg, and_true]
        by_cases hn : "pointer".toList = n
        · subst hn; rw [if_pos rfl, hg, if_pos rfl]
        · rw [if_neg hn, if_neg (fun h => hn h.symm)]; cases t.own.get n <;> rfl
    | _ => simp only [Noted.step, givesType]; cases t.own.get n <;> rfl

theorem Noted.own_run (e : Env) (void : Handle) (n : Name) : ∀ (ops : List NoteOp) (t : Noted),
    (t.run e void ops).own.get n = match t.own.get n with
      | some v => some v
      | none => ops.findSome? (givesType void n) := by
  intro ops
  induction ops with
  | nil => intro t; show t.own.get n = _; cases t.own.get n <;> rfl
  | cons op ops ih =>
    intro t
    show ((t.step e void op).1.run e void ops).own.get n = _
    rw [ih, Noted.own_step]
    cases t.own.get n with
    | some v => rfl
    | none =>
      simp only [List.findSome?_cons]
      cases givesType void n op <;> rfl

/-- C72. After any history of calls, accepted or refused, the value of a trait of a type is the one given by
    the first call that gave it one, and the type has the trait exactly if there was such a call. -/
theorem C72_type_trait (e : Env) (void : Handle) (id n : Name) (ops : List NoteOp) :
    ((Noted.new id).run e void ops).own.get n = ops.findSome? (givesType void n) ∧
    ((Noted.new id).run e void ops).own.is n = (ops.findSome? (givesType void n)).isSome := by
  have h : ((Noted.new id).run e void ops).own.get n = ops.findSome? (givesType void n) :=
    Noted.own_run e void n ops (Noted.new id)
  exact ⟨h, by unfold Traits.is; rw [h]⟩

/-- C72. A trait given twice to a type is refused the second time, and then nothing changes. -/
theorem C72_type_trait_refused (e : Env) (void : Handle) (t : Noted) (n : Name) (v : Handle) :
    ((t.step e void (.trait n v)).2 = .ok () ↔ t.own.is n = false) ∧
    ((t.step e void (.trait n v)).2 ≠ .ok () → (t.step e void (.trait n v)).1 = t) := by
  simp only [Noted.step, Traits.addTrait_ok, Traits.is]
  refine ⟨by cases t.own.get n <;> simp, fun h => ?_⟩
  rw [Traits.addTrait_refused _ _ _ h]

/-- a call that gives the own field `f` the trait `n` -/
def GivesField (f n : Name) (v : Handle) (op : NoteOp) : Prop := op = .fieldTrait f n v
/-- a call that gives the own function `f` the trait `n` -/
def GivesFn (f n : Name) (v : Handle) (op : NoteOp) : Prop := op = .fnTrait f n v

/-- the type declares the field itself -/
def Noted.HasField (t : Noted) (f : Name) : Prop := t.d.fields.get f ≠ none
/-- the type declares the function itself -/
def Noted.HasFn (t : Noted) (f : Name) : Prop := t.d.fns.get f ≠ none

theorem Noted.field_step (e : Env) (void : Handle) (t : Noted) (op : NoteOp) (f n : Name) (v : Handle) :
    ((t.step e void op).1.fieldTraits f).get n = some v ↔ (t.fieldTraits f).get n = some v ∨
      ((t.fieldTraits f).get n = none ∧ op = .fieldTrait f n v ∧ t.HasField f) := by
  have same : ∀ t' : Noted, t'.fields = t.fields → (∀ g m w, op ≠ .fieldTrait g m w) →
      ((t'.fieldTraits f).get n = some v ↔ (t.fieldTraits f).get n = some v ∨
      ((t.fieldTraits f).get n = none ∧ op = .fieldTrait f n v ∧ t.HasField f)) := by
    intro t' h1 h2
    unfold Noted.fieldTraits
    rw [h1]
    constructor
    · exact .inl
    · rintro (h | ⟨-, h, -⟩)
      · exact h
      · exact absurd h (h2 _ _ _)
  cases op with
  | trait m w => exact same _ rfl (by simp)
  | fnTrait g m w =>
    refine same _ ?_ (by simp)
    simp only [Noted.step]; split <;> rfl
  | decl op =>
    refine same _ ?_ (by simp)
    cases op with
    | setPointer k q => simp only [Noted.step, Noted.setPointer]; split <;> rfl
    | _ => rfl
  | fieldTrait g m w =>
    unfold Noted.HasField
    simp only [Noted.step]
    cases hg : t.d.fields.get g with
    | none =>
      simp only
      constructor
      · exact .inl
      · rintro (h | ⟨-, h, h'⟩)
        · exact h
        · injection h with h1; subst h1; exact absurd hg h'
    | some fd =>
      simp only [Noted.fieldTraits, Assoc.get_set]
      by_cases hf : g = f
      · subst hf
        rw [if_pos rfl]
        simp only [Option.getD_some, Traits.get_addTrait]
        by_cases hm : m = n
        · subst hm
          cases hx : Assoc.get ((Assoc.get t.fields g).getD []) m with
          | some u => simp
          | none => simp [hg]
        · simp only [hm, false_and, if_false]
          constructor
          · exact .inl
          · rintro (h | ⟨-, h, -⟩)
            · exact h
            · injection h with _ h; exact absurd h hm
      · rw [if_neg hf]
        constructor
        · exact .inl
        · rintro (h | ⟨-, h, -⟩)
          · exact h
          · injection h with h; exact absurd h hf

theorem Noted.fn_step (e : Env) (void : Handle) (t : Noted) (op : NoteOp) (f n : Name) (v : Handle) :
    ((t.step e void op).1.fnTraits f).get n = some v ↔ (t.fnTraits f).get n = some v ∨
      ((t.fnTraits f).get n = none ∧ op = .fnTrait f n v ∧ t.HasFn f) := by
  have same : ∀ t' : Noted, t'.fns = t.fns → (∀ g m w, op ≠ .fnTrait g m w) →
      ((t'.fnTraits f).get n = some v ↔ (t.fnTraits f).get n = some v ∨
      ((t.fnTraits f).get n = none ∧ op = .fnTrait f n v ∧ t.HasFn f)) := by
    intro t' h1 h2
    unfold Noted.fnTraits
    rw [h1]
    constructor
    · exact .inl
    · rintro (h | ⟨-, h, -⟩)
      · exact h
      · exact absurd h (h2 _ _ _)
  cases op with
  | trait m w => exact same _ rfl (by simp)
  | fieldTrait g m w =>
    refine same _ ?_ (by simp)
    simp only [Noted.step]; split <;> rfl
  | decl op =>
    refine same _ ?_ (by simp)
    cases op with
    | setPointer k q => simp only [Noted.step, Noted.setPointer]; split <;> rfl
    | _ => rfl
  | fnTrait g m w =>
    unfold Noted.HasFn
    simp only [Noted.step]
    cases hg : t.d.fns.get g with
    | none =>
      simp only
      constructor
      · exact .inl
      · rintro (h | ⟨-, h, h'⟩)
        · exact h
        · injection h with h1; subst h1; exact absurd hg h'
    | some fd =>
      simp only [Noted.fnTraits, Assoc.get_set]
      by_cases hf : g = f
      · subst hf
        rw [if_pos rfl]
        simp only [Option.getD_some, Traits.get_addTrait]
        by_cases hm : m = n
        · subst hm
          cases hx : Assoc.get ((Assoc.get t.fns g).getD []) m with
          | some u => simp
          | none => simp [hg]
        · simp only [hm, false_and, if_false]
          constructor
          · exact .inl
          · rintro (h | ⟨-, h, -⟩)
            · exact h
            · injection h with _ h; exact absurd h hm
      · rw [if_neg hf]
        constructor
        · exact .inl
        · rintro (h | ⟨-, h, -⟩)
          · exact h
          · injection h with h; exact absurd h hf

/-- `op`, which `is` one of a kind of calls with a value, was the first of its kind issued in a state that was
    `ready` for it -/
def FirstReady (kind : Handle → NoteOp → Prop) (ready : List NoteOp → Prop) (ops : List NoteOp) (v : Handle) :
    Prop :=
  ∃ pre op post, ops = pre ++ op :: post ∧ kind v op ∧ ready pre ∧
    ∀ pre' op' post' v', pre = pre' ++ op' :: post' → kind v' op' → ¬ ready pre'

/-- the history argument shared by fields and functions -/
theorem firstReady_of_steps (e : Env) (void : Handle) (t0 : Noted) (val : Noted → Option Handle)
    (kind : Handle → NoteOp → Prop) (ready : Noted → Prop) (h0 : val t0 = none)
    (hstep : ∀ t op v, val (t.step e void op).1 = some v ↔
      val t = some v ∨ (val t = none ∧ kind v op ∧ ready t)) (ops : List NoteOp) (v : Handle) :
    val (t0.run e void ops) = some v ↔
      FirstReady kind (fun pre => ready (t0.run e void pre)) ops v := by
  have key : ∀ (rev : List NoteOp) (v : Handle), val (t0.run e void rev.reverse) = some v ↔
      FirstReady kind (fun pre => ready (t0.run e void pre)) rev.reverse v := by
    intro rev
    induction rev with
    | nil =>
      intro v
      constructor
      · intro h; rw [show val (t0.run e void [].reverse) = val t0 from rfl, h0] at h; cases h
      · rintro ⟨pre, op, post, h, -⟩; simp at h
    | cons op rev ih =>
      intro v
      rw [List.reverse_cons, Noted.run_snoc, hstep]
      generalize rev.reverse = ops at ih
      constructor
      · rintro (h | ⟨h1, h2, h3⟩)
        · obtain ⟨pre, o, post, e1, e2⟩ := (ih v).1 h
          exact ⟨pre, o, post ++ [op], by rw [e1]; simp, e2⟩
        · refine ⟨ops, op, [], rfl, h2, h3, ?_⟩
          intro pre' op' post' v' e1 e2 e3
          -- otherwise a value would have been recorded
          have hex : ∃ w, FirstReady kind (fun pre => ready (t0.run e void pre)) ops w := by
            clear h1 h2 h3 ih
            -- the first of those calls
            have : ∀ (k : Nat) (pre' : List NoteOp) (op' : NoteOp) (post' : List NoteOp) (v' : Handle),
                pre'.length = k → ops = pre' ++ op' :: post' → kind v' op' → ready (t0.run e void pre') →
                ∃ w, FirstReady kind (fun pre => ready (t0.run e void pre)) ops w := by
              intro k
              induction k using Nat.strongRecOn with
              | _ k ihk =>
                intro pre' op' post' v' hk e1 e2 e3
                by_cases hc : ∃ p o q u, pre' = p ++ o :: q ∧ kind u o ∧ ready (t0.run e void p)
                · obtain ⟨p, o, q, u, f1, f2, f3⟩ := hc
                  refine ihk p.length ?_ p o (q ++ op' :: post') u rfl (by rw [e1, f1]; simp) f2 f3
                  rw [← hk, f1]; simp only [List.length_append, List.length_cons]; omega
                · refine ⟨v', pre', op', post', e1, e2, e3, ?_⟩
                  intro p o q u f1 f2 f3
                  exact hc ⟨p, o, q, u, f1, f2, f3⟩
            exact this _ pre' op' post' v' rfl e1 e2 e3
          obtain ⟨w, hw⟩ := hex
          rw [(ih w).2 hw] at h1
          cases h1
      · rintro ⟨pre, o, post, e1, e2, e3, e4⟩
        rcases List.eq_nil_or_concat post with rfl | ⟨post', z, rfl⟩
        · have h5 := List.append_inj' e1 (by simp)
          obtain ⟨h5, h6⟩ := h5
          simp only [List.cons.injEq, and_true] at h6
          subst h6; subst h5
          refine .inr ⟨?_, e2, e3⟩
          cases hv : val (t0.run e void ops) with
          | none => rfl
          | some w =>
            obtain ⟨pre', o', post', f1, f2, f3, -⟩ := (ih w).1 hv
            exact absurd f3 (e4 pre' o' post' w f1 f2)
        · have h5 : ops ++ [op] = (pre ++ o :: post') ++ [z] := by rw [e1]; simp
          obtain ⟨h6, -⟩ := List.append_inj' h5 (by simp)
          exact .inl ((ih v).2 ⟨pre, o, post', h6, e2, e3, e4⟩)
  have := key ops.reverse v
  rwa [List.reverse_reverse] at this

/-- C72. After any history the value of a trait of a field the type declares is the one given by the first
    call issued when the type had the field; so an earlier call, when there was no such field, and a second
    one have no effect. -/
theorem C72_field_trait (e : Env) (void : Handle) (id f n : Name) (ops : List NoteOp) (v : Handle) :
    (((Noted.new id).run e void ops).fieldTraits f).get n = some v ↔
      FirstReady (GivesField f n) (fun pre => ((Noted.new id).run e void pre).HasField f) ops v :=
  firstReady_of_steps e void (Noted.new id) (fun t => (t.fieldTraits f).get n) (GivesField f n)
    (fun t => t.HasField f) rfl
    (fun t op v => Noted.field_step e void t op f n v) ops v

/-- C72. The same for the functions of a type. -/
theorem C72_fn_trait (e : Env) (void : Handle) (id f n : Name) (ops : List NoteOp) (v : Handle) :
    (((Noted.new id).run e void ops).fnTraits f).get n = some v ↔
      FirstReady (GivesFn f n) (fun pre => ((Noted.new id).run e void pre).HasFn f) ops v :=
  firstReady_of_steps e void (Noted.new id) (fun t => (t.fnTraits f).get n) (GivesFn f n)
    (fun t => t.HasFn f) rfl
    (fun t op v => Noted.fn_step e void t op f n v) ops v

/-- C72. A trait can be given only to a member the type declares itself - not to an inherited one - and only
    once; a refused call changes no trait and no declaration. -/
theorem C72_member_trait_refused (e : Env) (void : Handle) (t : Noted) (f n : Name) (v : Handle) :
    ((t.step e void (.fieldTrait f n v)).2 = .ok () ↔ t.HasField f ∧ (t.fieldTraits f).is n = false) ∧
    ((t.step e void (.fnTrait f n v)).2 = .ok () ↔ t.HasFn f ∧ (t.fnTraits f).is n = false) ∧
    (∀ op, op = .fieldTrait f n v ∨ op = .fnTrait f n v → (t.step e void op).2 ≠ .ok () →
      (t.step e void op).1.d = t.d ∧ (t.step e void op).1.own = t.own ∧
      (∀ g, (t.step e void op).1.fieldTraits g = t.fieldTraits g) ∧
      ∀ g, (t.step e void op).1.fnTraits g = t.fnTraits g) := by
  refine ⟨?_, ?_, ?_⟩
  · unfold Noted.HasField Traits.is Noted.fieldTraits
    simp only [Noted.step]
    cases hg : t.d.fields.get f with
    | none => simp
    | some fd =>
      simp only [Traits.addTrait_ok]
      cases Assoc.get ((Assoc.get t.fields f).getD []) n <;> simp
  · unfold Noted.HasFn Traits.is Noted.fnTraits
    simp only [Noted.step]
    cases hg : t.d.fns.get f with
    | none => simp
    | some fd =>
      simp only [Traits.addTrait_ok]
      cases Assoc.get ((Assoc.get t.fns f).getD []) n <;> simp
  · rintro op (rfl | rfl) h
    · simp only [Noted.step] at h ⊢
      cases hg : t.d.fields.get f with
      | none => exact ⟨rfl, rfl, fun _ => rfl, fun _ => rfl⟩
      | some fd =>
        rw [hg] at h
        simp only at h ⊢
        refine ⟨trivial, trivial, fun g => ?_, fun _ => rfl⟩
        unfold Noted.fieldTraits
        rw [Traits.addTrait_refused _ _ _ h, Assoc.get_set]
        by_cases hf : f = g
        · subst hf; rw [if_pos rfl]; rfl
        · rw [if_neg hf]
    · simp only [Noted.step] at h ⊢
      cases hg : t.d.fns.get f with
      | none => exact ⟨rfl, rfl, fun _ => rfl, fun _ => rfl⟩
      | some fd =>
        rw [hg] at h
        simp only at h ⊢
        refine ⟨trivial, trivial, fun _ => rfl, fun g => ?_⟩
        unfold Noted.fnTraits
        rw [Traits.addTrait_refused _ _ _ h, Assoc.get_set]
        by_cases hf : f = g
        · subst hf; rw [if_pos rfl]; rfl
        · rw [if_neg hf]

/-! ### C72: listing -/

theorem Traits.names_addTrait (m : Traits) (n : Name) (v : Handle) (h : m.names.Nodup) :
    (m.addTrait n v).1.names.Nodup := by
  unfold Traits.addTrait
  cases hg : Assoc.get m n with
  | some w => exact h
  | none =>
    simp only
    have hn := Assoc.get_none_iff.1 hg
    have he : Assoc.erase m n = m := by
      unfold Assoc.erase
      rw [List.filter_eq_self]
      intro q hq
      simp only [decide_eq_true_eq, ne_eq]
      intro h'
      exact hn (List.mem_map.2 ⟨q, hq, h'⟩)
    unfold Assoc.set Traits.names
    rw [he, List.map_cons, List.nodup_cons]
    exact ⟨hn, h⟩

theorem Noted.own_nodup (e : Env) (void : Handle) : ∀ (ops : List NoteOp) (t : Noted), t.own.names.Nodup →
    (t.run e void ops).own.names.Nodup := by
  intro ops
  induction ops with
  | nil => intro t h; exact h
  | cons op ops ih =>
    intro t h
    refine ih _ ?_
    cases op with
    | trait m v => exact Traits.names_addTrait _ _ _ h
    | fieldTrait f m v => simp only [Noted.step]; split <;> exact h
    | fnTrait f m v => simp only [Noted.step]; split <;> exact h
    | decl op =>
      cases op with
      | setPointer k q =>
        simp only [Noted.step, Noted.setPointer]
        split
        · exact h
        · exact Traits.names_addTrait _ _ _ h
      | _ => exact h

/-- C72. `traits()` lists every trait the type was given, each once, and no other. -/
theorem C72_listed (e : Env) (void : Handle) (id : Name) (ops : List NoteOp) :
    ((Noted.new id).run e void ops).own.names.Nodup ∧
    ∀ n, n ∈ ((Noted.new id).run e void ops).own.names ↔ ∃ op ∈ ops, givesType void n op ≠ none := by
  refine ⟨Noted.own_nodup e void ops _ List.nodup_nil, fun n => ?_⟩
  have h := (C72_type_trait e void id n ops).1
  show n ∈ List.map _ _ ↔ _
  rw [← Assoc.get_isSome_iff, h]
  rw [List.findSome?_isSome_iff]
  constructor
  · rintro ⟨x, hx, h⟩; exact ⟨x, hx, by intro h'; rw [h'] at h; cases h⟩
  · rintro ⟨x, hx, h⟩; exact ⟨x, hx, by cases hg : givesType void n x with
      | none => exact absurd hg h
      | some v => rfl⟩

/-! ### C72: what is seen through inheritance -/

/-- C72. The traits of `field(f)` are those of the field of the closest ancestor-or-self that declares it -
    traits given to a field are seen from every type that inherits it, and from none that redeclares it - and
    likewise for functions. -/
theorem C72_inherited (w : World) (tbl : Ty → Noted) (hw : ∀ t, w.ty t = (tbl t).d) (fuel : Nat) (t : Ty)
    (f : Name) :
    (∀ m, Noted.fieldTraitsF tbl fuel t f = .ok m → ∃ k u, w.anc k t = some u ∧ (tbl u).HasField f ∧
      (∀ j < k, ∀ x, w.anc j t = some x → ¬ (tbl x).HasField f) ∧ m = (tbl u).fieldTraits f) ∧
    (∀ m, Noted.fnTraitsF tbl fuel t f = .ok m → ∃ k u, w.anc k t = some u ∧ (tbl u).HasFn f ∧
      (∀ j < k, ∀ x, w.anc j t = some x → ¬ (tbl x).HasFn f) ∧ m = (tbl u).fnTraits f) := by
  constructor
  · induction fuel generalizing t with
    | zero => intro m h; cases h
    | succ fuel ih =>
      intro m h
      rw [Noted.fieldTraitsF] at h
      split at h
      · rename_i fd hf
        injection h with h
        exact ⟨0, t, rfl, by unfold Noted.HasField; rw [hf]; simp, by omega, h.symm⟩
      · rename_i hf
        split at h
        · cases h
        · rename_i q hq
          obtain ⟨k, u, h1, h2, h3, h4⟩ := ih q m h
          refine ⟨k + 1, u, ?_, h2, ?_, h4⟩
          · simp only [World.anc, hw, hq]; exact h1
          · intro j hj x hx
            cases j with
            | zero =>
              simp only [World.anc, Option.some.injEq] at hx
              subst hx
              unfold Noted.HasField; rw [hf]; simp
            | succ j =>
              simp only [World.anc, hw, hq] at hx
              exact h3 j (by omega) x hx
  · induction fuel generalizing t with
    | zero => intro m h; cases h
    | succ fuel ih =>
      intro m h
      rw [Noted.fnTraitsF] at h
      split at h
      · rename_i fd hf
        injection h with h
        exact ⟨0, t, rfl, by unfold Noted.HasFn; rw [hf]; simp, by omega, h.symm⟩
      · rename_i hf
        split at h
        · cases h
        · rename_i q hq
          obtain ⟨k, u, h1, h2, h3, h4⟩ := ih q m h
          refine ⟨k + 1, u, ?_, h2, ?_, h4⟩
          · simp only [World.anc, hw, hq]; exact h1
          · intro j hj x hx
            cases j with
            | zero =>
              simp only [World.anc, Option.some.injEq] at hx
              subst hx
              unfold Noted.HasFn; rw [hf]; simp
            | succ j =>
              simp only [World.anc, hw, hq] at hx
              exact h3 j (by omega) x hx

/-- C72. And they are seen: if the `k`-th ancestor of `t` is the closest that declares `f`, its traits are
    returned. -/
theorem C72_inherited_seen (w : World) (tbl : Ty → Noted) (hw : ∀ t, w.ty t = (tbl t).d) (f : Name) :
    ∀ (k : Nat) (t u : Ty) (fuel : Nat), k < fuel → w.anc k t = some u →
    ((tbl u).HasField f → (∀ j < k, ∀ x, w.anc j t = some x → ¬ (tbl x).HasField f) →
      Noted.fieldTraitsF tbl fuel t f = .ok ((tbl u).fieldTraits f)) ∧
    ((tbl u).HasFn f → (∀ j < k, ∀ x, w.anc j t = some x → ¬ (tbl x).HasFn f) →
      Noted.fnTraitsF tbl fuel t f = .ok ((tbl u).fnTraits f)) := by
  intro k
  induction k with
  | zero =>
    intro t u fuel hk hu
    obtain ⟨fuel, rfl⟩ : ∃ x, fuel = x + 1 := ⟨fuel - 1, by omega⟩
    simp only [World.anc, Option.some.injEq] at hu
    subst hu
    constructor
    · intro h1 _
      rw [Noted.fieldTraitsF]
      cases h : (tbl t).d.fields.get f with
      | none => exact absurd h h1
      | some fd => rfl
    · intro h1 _
      rw [Noted.fnTraitsF]
      cases h : (tbl t).d.fns.get f with
      | none => exact absurd h h1
      | some fd => rfl
  | succ k ih =>
    intro t u fuel hk hu
    obtain ⟨fuel, rfl⟩ : ∃ x, fuel = x + 1 := ⟨fuel - 1, by omega⟩
    simp only [World.anc, hw] at hu
    cases hq : (tbl t).d.parent with
    | none => rw [hq] at hu; cases hu
    | some q =>
      rw [hq] at hu
      obtain ⟨i1, i2⟩ := ih q u fuel (by omega) hu
      constructor
      · intro h1 h2
        rw [Noted.fieldTraitsF]
        cases h : (tbl t).d.fields.get f with
        | some fd => exact absurd (by unfold Noted.HasField; rw [h]; simp) (h2 0 (by omega) t rfl)
        | none =>
          simp only [hq]
          refine i1 h1 fun j hj x hx => h2 (j + 1) (by omega) x ?_
          simp only [World.anc, hw, hq]; exact hx
      · intro h1 h2
        rw [Noted.fnTraitsF]
        cases h : (tbl t).d.fns.get f with
        | some fd => exact absurd (by unfold Noted.HasFn; rw [h]; simp) (h2 0 (by omega) t rfl)
        | none =>
          simp only [hq]
          refine i2 h1 fun j hj x hx => h2 (j + 1) (by omega) x ?_
          simp only [World.anc, hw, hq]; exact hx

/-! ### C72: reading a value -/

/-- C72. The value of a trait that is not there, or of a flag read as anything but a `Value` or `void`, cannot
    be read. -/
theorem C72_no_value (p : Prog) (fuel : Nat) (hp : Heap) (m : Traits) (n : Name) (want : Arg) :
    (m.is n = false → p.getTrait fuel hp m n want = .error .err) ∧
    (m.get n = some p.voidHandle → want ≠ p.valueArg → want.type ≠ p.w.voidT →
      p.w.env.child p.w.voidT want.type = false → p.w.env.conv p.w.voidT want.type = false →
      p.getTrait fuel hp m n want = .error .err) := by
  constructor
  · intro h
    unfold Traits.is at h
    unfold Prog.getTrait
    cases hg : Assoc.get m n with
    | none => rfl
    | some v => rw [hg] at h; cases h
  · intro h h1 h2 h3 h4
    unfold Prog.getTrait Prog.retCast
    rw [h]
    simp only
    rw [if_neg h2, C67_unrelated_refused p _ hp p.voidHandle want h1 h3 h4]

/-- C72. A trait read as a `Value` is the very `Value` that was stored. -/
theorem C72_read_as_value (p : Prog) (fuel : Nat) (hp : Heap) (m : Traits) (n : Name) (v : Handle)
    (hvv : p.w.valueT ≠ p.w.voidT) (h : m.get n = some v) :
    p.getTrait fuel hp m n p.valueArg = .ok (hp, some (.val v)) := by
  unfold Prog.getTrait Prog.retCast
  rw [h]
  simp only
  rw [if_neg (show p.valueArg.type ≠ p.w.voidT from hvv)]
  simp [Prog.castTo]

/-- C72. A trait given as an lvalue is a reference: it is read, as a reference to const of its type or a
    parent, as that very object - whatever it holds by then. -/
theorem C72_lvalue_trait (p : Prog) (fuel : Nat) (hp hp' : Heap) (m : Traits) (n : Name) (arg : Arg) (a : Nat)
    (t : Ty) (hl : arg.ref = .lvalue) (hm : m.is n = false) (hch : p.w.env.child arg.type t = true)
    (ht : t ≠ p.w.voidT) (hv : t ≠ p.w.valueT) :
    ∃ m', p.addTraitOf hp m n arg a = .ok (hp, m') ∧
      p.getTrait fuel hp' m' n ⟨t, .lvalue, true⟩ = .ok (hp', some (.obj a false)) := by
  have hg : Assoc.get m n = none := by
    unfold Traits.is at hm
    cases h : Assoc.get m n with
    | none => rfl
    | some v => rw [h] at hm; cases hm
  refine ⟨Assoc.set m n ⟨arg, a, none⟩, ?_, ?_⟩
  · unfold Prog.addTraitOf
    rw [C67_lvalue_refers p hp arg a hl]
    simp only [Traits.addTrait, hg]
  · unfold Prog.getTrait Prog.retCast
    rw [Assoc.get_set, if_pos rfl]
    simp only
    have hne : (⟨t, .lvalue, true⟩ : Arg) ≠ p.valueArg := by intro h; apply hv; rw [Prog.valueArg] at h; injection h
    rw [if_neg ht]
    simp [Prog.castTo, if_neg hne, Prog.castV, hch, Prog.castRet, Handle.as]

/-- C72. A trait given as a temporary owns an object of its own with the contents of the temporary; read as a
    reference to const it is that object. -/
theorem C72_temporary_trait (p : Prog) (fuel : Nat) (hp : Heap) (m : Traits) (n : Name) (arg : Arg) (a : Nat)
    (t : Ty) (hl : arg.ref ≠ .lvalue) (hm : m.is n = false)
    (hcap : (p.caps arg.type).copyConstructible = true ∨
      (arg.isConst = false ∧ (p.caps arg.type).moveConstructible = true))
    (hok : hp.Ok a (p.size arg.type)) (hch : p.w.env.child arg.type t = true)
    (ht : t ≠ p.w.voidT) (hv : t ≠ p.w.valueT) :
    ∃ hp' m' v, p.addTraitOf hp m n arg a = .ok (hp', m') ∧ Stored p hp hp' arg.type a v ∧
      m'.get n = some v ∧
      ∀ later, p.getTrait fuel later m' n ⟨t, .lvalue, true⟩ = .ok (later, some (.obj v.addr false)) := by
  have hg : Assoc.get m n = none := by
    unfold Traits.is at hm
    cases h : Assoc.get m n with
    | none => rfl
    | some v => rw [h] at hm; cases hm
  obtain ⟨hp', v, h1, h2, -⟩ := C67_temporary_stored p hp arg a hl hcap hok
  refine ⟨hp', Assoc.set m n v, v, ?_, h2, by rw [Assoc.get_set, if_pos rfl], fun later => ?_⟩
  · unfold Prog.addTraitOf
    rw [h1]
    simp only [Traits.addTrait, hg]
  · unfold Prog.getTrait Prog.retCast
    rw [Assoc.get_set, if_pos rfl]
    simp only
    have hne : (⟨t, .lvalue, true⟩ : Arg) ≠ p.valueArg := by intro h; apply hv; rw [Prog.valueArg] at h; injection h
    have hch' : p.w.env.child v.arg.type t = true := by rw [h2.arg]; exact hch
    rw [if_neg ht]
    simp [Prog.castTo, if_neg hne, Prog.castV, hch', Prog.castRet, Handle.as]

/-- C72. Read by value, for a plainly copied type and a trait that was not made from an `rvalue()`, a trait gives a fresh object with the contents its object
    has by then, and changes nothing. -/
theorem C72_read_by_value (p : Prog) (fuel : Nat) (hp : Heap) (m : Traits) (n : Name) (v : Handle) (want : Arg)
    (h : m.get n = some v) (href : want.ref = .copy) (hplain : PlainCopy p want.type)
    (hok : hp.Ok v.addr (p.size want.type)) (hch : Copied p v.arg want.type) :
    ∃ hp' b, p.getTrait (fuel + 1) hp m n want = .ok (hp', some (.obj b true)) ∧ hp.next ≤ b ∧
      (∀ i < p.size want.type, hp'.mem (b + i) = hp.mem (v.addr + i)) ∧
      ∀ x < hp.next, hp'.mem x = hp.mem x := by
  obtain ⟨hp', b, h1, h2⟩ := castTo_copy_plain p want hp v fuel href hplain hok hch
  refine ⟨hp', b, ?_, h2.fresh, h2.same, h2.frame⟩
  unfold Prog.getTrait Prog.retCast
  rw [h]
  simp only
  rw [if_neg hplain.notVoid, h1]

/-! ### C72: the trait "pointer" -/

theorem TypeD.step_ptr (e : Env) (d : TypeD) (op : TypeOp) (h : ∀ k q, op ≠ .setPointer k q) :
    (d.step e op).1.ptr = d.ptr := by
  cases op with
  | setPointer k q => exact absurd rfl (h k q)
  | addFunction n f => simp only [TypeD.step, TypeD.addFunction]; split <;> rfl
  | addField n a o =>
    simp only [TypeD.step]
    split
    · simp only [TypeD.addField]; split
      · rfl
      · split <;> rfl
    · rfl
  | setParent q => rfl

theorem Noted.step_ptr_keep (e : Env) (void : Handle) (t : Noted) (op : NoteOp)
    (h : t.isPointer = true ∨ givesType void "pointer".toList op = none ∨ ∃ n v, op = .trait n v) :
    (t.step e void op).1.d.ptr = t.d.ptr := by
  cases op with
  | trait m v => rfl
  | fieldTrait f m v => simp only [Noted.step]; split <;> rfl
  | fnTrait f m v => simp only [Noted.step]; split <;> rfl
  | decl op =>
    by_cases hs : ∃ k q, op = .setPointer k q
    · obtain ⟨k, q, rfl⟩ := hs
      rcases h with h | h | ⟨n, v, h⟩
      · simp only [Noted.step, Noted.setPointer]; rw [if_pos h]
      · simp [givesType] at h
      · cases h
    · have hne : ∀ k q, op ≠ .setPointer k q := fun k q h => hs ⟨k, q, h⟩
      have := TypeD.step_ptr e t.d op hne
      cases op with
      | setPointer k q => exact absurd rfl (hne k q)
      | _ => exact this

theorem Noted.step_isPointer (e : Env) (void : Handle) (t : Noted) (op : NoteOp) :
    (t.step e void op).1.isPointer = (t.isPointer || (givesType void "pointer".toList op).isSome) := by
  unfold Noted.isPointer Traits.is
  rw [Noted.own_step]
  cases Assoc.get t.own "pointer".toList <;> simp

theorem Noted.run_ptr_keep (e : Env) (void : Handle) : ∀ (ops : List NoteOp) (t : Noted),
    t.isPointer = true → (t.run e void ops).d.ptr = t.d.ptr ∧ (t.run e void ops).isPointer = true := by
  intro ops
  induction ops with
  | nil => intro t h; exact ⟨rfl, h⟩
  | cons op ops ih =>
    intro t h
    have h1 : (t.step e void op).1.isPointer = true := by rw [Noted.step_isPointer, h]; rfl
    obtain ⟨a, b⟩ := ih _ h1
    exact ⟨a.trans (Noted.step_ptr_keep e void t op (.inl h)), b⟩

theorem Noted.run_ptr_none (e : Env) (void : Handle) : ∀ (ops : List NoteOp) (t : Noted),
    (∀ op ∈ ops, givesType void "pointer".toList op = none) →
    (t.run e void ops).d.ptr = t.d.ptr ∧ (t.run e void ops).isPointer = t.isPointer := by
  intro ops
  induction ops with
  | nil => intro t h; exact ⟨rfl, rfl⟩
  | cons op ops ih =>
    intro t h
    have ho := h op (by simp)
    obtain ⟨a, b⟩ := ih (t.step e void op).1 (fun o hm => h o (by simp [hm]))
    refine ⟨a.trans (Noted.step_ptr_keep e void t op (.inr (.inl ho))), b.trans ?_⟩
    rw [Noted.step_isPointer, ho]; simp

/-- C72. A type is a pointer exactly if it was given the trait "pointer", by `setPointer` or by hand; what it
    points to was fixed by the first of these calls, and is null, of an empty kind, if that was by hand. -/
theorem C72_pointer_is_a_trait (e : Env) (void : Handle) (id : Name) (ops : List NoteOp) :
    (((Noted.new id).run e void ops).isPointer = true ↔
      ∃ op ∈ ops, (∃ k q, op = .decl (.setPointer k q)) ∨ ∃ v, op = .trait "pointer".toList v) ∧
    ∀ pre op post, ops = pre ++ op :: post →
      (∀ o ∈ pre, (∀ k q, o ≠ .decl (.setPointer k q)) ∧ ∀ v, o ≠ .trait "pointer".toList v) →
      (∀ k q, op = .decl (.setPointer k q) →
        ((Noted.new id).run e void ops).pointer = .ok k ∧
        ((Noted.new id).run e void ops).pointee = .ok (some q)) ∧
      (∀ v, op = .trait "pointer".toList v →
        ((Noted.new id).run e void ops).pointer = .ok [] ∧
        ((Noted.new id).run e void ops).pointee = .ok none) := by
  have hg : ∀ op, givesType void "pointer".toList op = none ↔
      (∀ k q, op ≠ .decl (.setPointer k q)) ∧ ∀ v, op ≠ .trait "pointer".toList v := by
    intro op
    cases op with
    | trait m v => simp [givesType]
    | fieldTrait f m v => simp [givesType]
    | fnTrait f m v => simp [givesType]
    | decl op => cases op <;> simp [givesType]
  refine ⟨?_, ?_⟩
  · unfold Noted.isPointer
    rw [(C72_type_trait e void id _ ops).2, List.findSome?_isSome_iff]
    constructor
    · rintro ⟨op, h1, h2⟩
      refine ⟨op, h1, ?_⟩
      cases op with
      | trait m v =>
        simp only [givesType] at h2
        split at h2
        · rename_i h; subst h; exact .inr ⟨v, rfl⟩
        · cases h2
      | fieldTrait f m v => cases h2
      | fnTrait f m v => cases h2
      | decl op =>
        cases op with
        | setPointer k q => exact .inl ⟨k, q, rfl⟩
        | _ => cases h2
    · rintro ⟨op, h1, ⟨k, q, rfl⟩ | ⟨v, rfl⟩⟩
      · exact ⟨_, h1, by simp [givesType]⟩
      · exact ⟨_, h1, by simp [givesType]⟩
  · intro pre op post hops hpre
    subst hops
    obtain ⟨a1, a2⟩ := Noted.run_ptr_none e void pre (Noted.new id) (fun o ho => (hg o).2 (hpre o ho))
    have a1 : ((Noted.new id).run e void pre).d.ptr = none := a1
    have a2 : ((Noted.new id).run e void pre).isPointer = false := a2
    have hrun : (Noted.new id).run e void (pre ++ op :: post) =
        (((Noted.new id).run e void pre).step e void op).1.run e void post := by
      rw [Noted.run_append]; rfl
    generalize (Noted.new id).run e void pre = t at a1 a2 hrun
    have fin : ∀ x, (givesType void "pointer".toList op).isSome = true →
        (t.step e void op).1.d.ptr = x →
        ((Noted.new id).run e void (pre ++ op :: post)).d.ptr = x ∧
        ((Noted.new id).run e void (pre ++ op :: post)).isPointer = true := by
      intro x h1 h2
      have h3 : (t.step e void op).1.isPointer = true := by rw [Noted.step_isPointer, h1]; simp
      obtain ⟨b1, b2⟩ := Noted.run_ptr_keep e void post _ h3
      rw [hrun]
      exact ⟨b1.trans h2, b2⟩
    constructor
    · intro k q ho
      subst ho
      obtain ⟨b1, b2⟩ := fin (some (k, q)) (by simp [givesType])
        (by simp only [Noted.step, Noted.setPointer, a2]; rfl)
      unfold Noted.pointer Noted.pointee
      rw [b2, b1]
      exact ⟨rfl, rfl⟩
    · intro v ho
      subst ho
      obtain ⟨b1, b2⟩ := fin none (by simp [givesType]) a1
      unfold Noted.pointer Noted.pointee
      rw [b2, b1]
      exact ⟨rfl, rfl⟩

/-- C72. In a table of types none of which was given the trait "pointer" by hand, the trait and the pointee go
    together, and `isChildOf` is the relation of C15. -/
theorem C72_untagged (e : Env) (void : Handle) (w : World) (tbl : Ty → Noted) (hist : Ty → List NoteOp)
    (hw : ∀ t, w.ty t = (tbl t).d)
    (hrun : ∀ t, ∃ id, tbl t = (Noted.new id).run e void (hist t))
    (hno : ∀ t v, .trait "pointer".toList v ∉ hist t) (fuel : Nat) (a b : Ty) :
    Noted.childF tbl fuel (some a) (some b) = w.childF fuel a b := by
  have inv : ∀ t, (tbl t).isPointer = (tbl t).d.ptr.isSome := by
    intro t
    obtain ⟨id, ht⟩ := hrun t
    have hno' := hno t
    rw [ht]
    clear ht hrun
    have : ∀ (ops : List NoteOp) (t0 : Noted), (∀ v, .trait "pointer".toList v ∉ ops) →
        t0.isPointer = t0.d.ptr.isSome →
        (t0.run e void ops).isPointer = (t0.run e void ops).d.ptr.isSome := by
      intro ops
      induction ops with
      | nil => intro t0 _ h; exact h
      | cons op ops ih =>
        intro t0 hn h
        refine ih _ (fun v hv => hn v (List.mem_cons_of_mem _ hv)) ?_
        rw [Noted.step_isPointer]
        by_cases hs : ∃ k q, op = .decl (.setPointer k q)
        · obtain ⟨k, q, rfl⟩ := hs
          simp only [Noted.step, Noted.setPointer]
          by_cases hp : t0.isPointer = true
          · rw [if_pos hp, ← h, hp]; rfl
          · rw [if_neg hp]; simp [givesType]
        · have hg : givesType void "pointer".toList op = none := by
            cases op with
            | trait m v =>
              have : m ≠ "pointer".toList := by rintro rfl; exact hn v List.mem_cons_self
              simp only [givesType]; rw [if_neg this]
            | fieldTrait f m v => rfl
            | fnTrait f m v => rfl
            | decl op =>
              cases op with
              | setPointer k q => exact absurd ⟨k, q, rfl⟩ hs
              | _ => rfl
          rw [Noted.step_ptr_keep e void t0 op (.inr (.inl hg)), hg, h]; simp
    exact this (hist t) (Noted.new id) hno' rfl
  induction fuel generalizing a b with
  | zero => rfl
  | succ fuel ih =>
    rw [Noted.childF, World.childF]
    by_cases hab : a = b
    · rw [if_pos (by rw [hab]), if_pos hab]
    rw [if_neg (by simpa using hab), if_neg hab]
    simp only [hw]
    cases ha : (tbl a).d.ptr with
    | none =>
      have : (tbl a).isPointer = false := by rw [inv, ha]; rfl
      simp only [this, Bool.false_eq_true, if_false]
      cases (tbl a).d.parent with
      | none => rfl
      | some q => exact ih q b
    | some kq =>
      obtain ⟨k, q⟩ := kq
      have h1 : (tbl a).isPointer = true := by rw [inv, ha]; rfl
      simp only [h1, if_true]
      cases hb : (tbl b).d.ptr with
      | none =>
        have : (tbl b).isPointer = false := by rw [inv, hb]; rfl
        simp only [this, Bool.false_eq_true, if_false]
        cases (tbl a).d.parent with
        | none => rfl
        | some q => exact ih q b
      | some kq' =>
        obtain ⟨k', q'⟩ := kq'
        have h2 : (tbl b).isPointer = true := by rw [inv, hb]; rfl
        simp only [h2, if_true, Noted.pointer, Noted.pointee, h1, ha, hb, Option.map_some]
        split
        · rfl
        · exact ih q q'

/-- C72. Two types given the trait "pointer" by hand cannot be compared: `isChildOf` calls a method on null,
    which is undefined behaviour. -/
theorem C72_hand_tagged (tbl : Ty → Noted) (fuel : Nat) (a b : Ty) (hab : a ≠ b)
    (ha : (tbl a).isPointer = true ∧ (tbl a).d.ptr = none)
    (hb : (tbl b).isPointer = true ∧ (tbl b).d.ptr = none) :
    Noted.childF tbl (fuel + 2) (some a) (some b) = .error .ub := by
  rw [Noted.childF, if_neg (by simpa using hab)]
  simp only [ha.1, hb.1, if_true, Noted.pointer, Noted.pointee, ha.2, hb.2, Option.map_none, ne_eq,
    not_true_eq_false, if_false]
  rfl

/-- C72. A type made a pointer of nameless kind, compared with a type given the trait "pointer" by hand: the
    answer is no if the pointee is a plain root type, and undefined behaviour if it is a pointer itself
    (`isChildOf` asks null whether it is a pointer). -/
theorem C72_hand_tagged_target (tbl : Ty → Noted) (fuel : Nat) (a b q : Ty) (hab : a ≠ b)
    (ha : (tbl a).isPointer = true ∧ (tbl a).d.ptr = some ([], q))
    (hb : (tbl b).isPointer = true ∧ (tbl b).d.ptr = none) :
    ((tbl q).isPointer = true → Noted.childF tbl (fuel + 2) (some a) (some b) = .error .ub) ∧
    ((tbl q).isPointer = false → (tbl q).d.parent = none →
      Noted.childF tbl (fuel + 2) (some a) (some b) = .ok false) := by
  have h : Noted.childF tbl (fuel + 2) (some a) (some b) = Noted.childF tbl (fuel + 1) (some q) none := by
    rw [Noted.childF, if_neg (by simpa using hab)]
    simp only [ha.1, hb.1, if_true, Noted.pointer, Noted.pointee, ha.2, hb.2, Option.map_none, Option.map_some,
      ne_eq, not_true_eq_false, if_false]
  rw [h, Noted.childF, if_neg (by simp)]
  constructor
  · intro h; simp only [h, if_true]
  · intro h1 h2; simp only [h1, h2, Bool.false_eq_true, if_false]

/-- C72. A refused call raises an error that can be caught; it is never undefined. The same goes for asking a
    type that is no pointer what it points to. -/
theorem C72_refused_raises (e : Env) (void : Handle) (t : Noted) :
    (∀ op, (t.step e void op).2 = .ok () ∨ (t.step e void op).2 = .error .err) ∧
    (t.isPointer = false → t.pointer = .error .err ∧ t.pointee = .error .err) := by
  have add : ∀ (m : Traits) (n : Name) (v : Handle), (m.addTrait n v).2 = .ok () ∨ (m.addTrait n v).2 = .error .err := by
    intro m n v
    unfold Traits.addTrait
    split
    · exact .inr rfl
    · exact .inl rfl
  constructor
  · intro op
    cases op with
    | trait n v => exact add _ _ _
    | fieldTrait f n v =>
      simp only [Noted.step]
      split
      · exact .inr rfl
      · exact add _ _ _
    | fnTrait f n v =>
      simp only [Noted.step]
      split
      · exact .inr rfl
      · exact add _ _ _
    | decl op =>
      cases op with
      | setPointer k q =>
        simp only [Noted.step, Noted.setPointer]
        split
        · exact .inr rfl
        · exact .inl rfl
      | setParent q => exact .inl rfl
      | addFunction n f =>
        simp only [Noted.step, TypeD.step, TypeD.addFunction]
        split
        · exact .inr rfl
        · simp only [Overloads.add]
          split <;> simp
      | addField n a o =>
        simp only [Noted.step, TypeD.step]
        split
        · unfold TypeD.addField
          split
          · exact .inr rfl
          · split
            · exact .inr rfl
            · exact .inl rfl
        · rename_i x hx
          unfold Field.new at hx
          split at hx
          · cases hx; exact .inr rfl
          · cases hx
  · intro h
    unfold Noted.pointer Noted.pointee
    rw [h]
    exact ⟨rfl, rfl⟩

/-- C72. Asking a type for a member that neither it nor any ancestor declares raises, when the ancestry ends;
    when it does not, because a type descends from itself, the search goes on forever. -/
theorem C72_absent_member (w : World) (tbl : Ty → Noted) (hw : ∀ t, w.ty t = (tbl t).d) (f : Name) :
    ∀ (fuel : Nat) (t : Ty),
    ((∀ j x, w.anc j t = some x → ¬ (tbl x).HasField f) →
      ((∃ k ≤ fuel, w.anc k t = none) → Noted.fieldTraitsF tbl fuel t f = .error .err) ∧
      ((∀ k, w.anc k t ≠ none) → Noted.fieldTraitsF tbl fuel t f = .error .diverge)) ∧
    ((∀ j x, w.anc j t = some x → ¬ (tbl x).HasFn f) →
      ((∃ k ≤ fuel, w.anc k t = none) → Noted.fnTraitsF tbl fuel t f = .error .err) ∧
      ((∀ k, w.anc k t ≠ none) → Noted.fnTraitsF tbl fuel t f = .error .diverge)) := by
  intro fuel
  induction fuel with
  | zero =>
    intro t
    refine ⟨fun _ => ⟨?_, fun _ => rfl⟩, fun _ => ⟨?_, fun _ => rfl⟩⟩
    · rintro ⟨k, hk, h⟩
      obtain rfl : k = 0 := by omega
      simp [World.anc] at h
    · rintro ⟨k, hk, h⟩
      obtain rfl : k = 0 := by omega
      simp [World.anc] at h
  | succ fuel ih =>
    intro t
    have up : ∀ q, (tbl t).d.parent = some q → ∀ j, w.anc (j + 1) t = w.anc j q := by
      intro q hq j
      simp only [World.anc, hw, hq]
    have top : (tbl t).d.parent = none → w.anc 1 t = none := by
      intro hq
      simp only [World.anc, hw, hq]
    have low : ∀ q, (tbl t).d.parent = some q → (∃ k ≤ fuel + 1, w.anc k t = none) → ∃ k ≤ fuel, w.anc k q = none := by
      rintro q hq ⟨k, hk, h⟩
      cases k with
      | zero => simp [World.anc] at h
      | succ k => exact ⟨k, by omega, by rw [← up q hq]; exact h⟩
    constructor
    · intro hn
      rw [Noted.fieldTraitsF]
      cases hf : (tbl t).d.fields.get f with
      | some fd => exact absurd (by unfold Noted.HasField; rw [hf]; simp) (hn 0 t rfl)
      | none =>
        simp only
        cases hq : (tbl t).d.parent with
        | none => exact ⟨fun _ => rfl, fun h => absurd (top hq) (h 1)⟩
        | some q =>
          have hn' : ∀ j x, w.anc j q = some x → ¬ (tbl x).HasField f :=
            fun j x h => hn (j + 1) x (by rw [up q hq]; exact h)
          exact ⟨fun h => ((ih q).1 hn').1 (low q hq h),
            fun h => ((ih q).1 hn').2 fun k => by rw [← up q hq]; exact h (k + 1)⟩
    · intro hn
      rw [Noted.fnTraitsF]
      cases hf : (tbl t).d.fns.get f with
      | some fd => exact absurd (by unfold Noted.HasFn; rw [hf]; simp) (hn 0 t rfl)
      | none =>
        simp only
        cases hq : (tbl t).d.parent with
        | none => exact ⟨fun _ => rfl, fun h => absurd (top hq) (h 1)⟩
        | some q =>
          have hn' : ∀ j x, w.anc j q = some x → ¬ (tbl x).HasFn f :=
            fun j x h => hn (j + 1) x (by rw [up q hq]; exact h)
          exact ⟨fun h => ((ih q).2 hn').1 (low q hq h),
            fun h => ((ih q).2 hn').2 fun k => by rw [← up q hq]; exact h (k + 1)⟩

/-! ### concrete cases -/
namespace TraitsDemo

def env : Env := { voidT := 0, valueT := 1, child := fun a b => a == b, conv := fun _ _ => false }
def void : Handle := ⟨⟨0, .copy, false⟩, 0, none⟩
def v1 : Handle := ⟨⟨2, .lvalue, false⟩, 5, none⟩
def v2 : Handle := ⟨⟨2, .lvalue, false⟩, 6, none⟩
def hist : List NoteOp :=
  [.fieldTrait ['x'] ['j'] v1, .decl (.addField ['x'] ⟨2, .copy, false⟩ 0), .fieldTrait ['x'] ['j'] v2,
    .fieldTrait ['x'] ['j'] v1, .trait ['k'] v1, .trait ['k'] v2, .decl (.setPointer ['*'] 2),
    .decl (.addFunction ['f'] (Fn.make ['f'] ⟨0, .copy, false⟩ [] 0)), .fnTrait ['f'] ['d'] v2,
    .trait "pointer".toList v1]
def t : Noted := (Noted.new ['T']).run env void hist

/-- the field's trait was refused first, then given, then refused again -/
example : (t.fieldTraits ['x']).get ['j'] = some v2 ∧ t.own.get ['k'] = some v1 ∧ t.isPointer = true ∧
    t.own.get "pointer".toList = some void ∧ (t.fnTraits ['f']).get ['d'] = some v2 ∧
    t.d.ptr = some (['*'], 2) := by decide

example : FirstReady (GivesField ['x'] ['j']) (fun pre => ((Noted.new ['T']).run env void pre).HasField ['x'])
    hist v2 :=
  (C72_field_trait env void ['T'] ['x'] ['j'] hist v2).1 (by decide)

/-- a parent with an annotated field, a child that inherits it and one that redeclares it -/
def tbl : Ty → Noted
  | 3 => { (Noted.new ['C']) with d := { TypeD.new ['C'] with parent := some 2 } }
  | 4 => { (Noted.new ['D']) with d := { TypeD.new ['D'] with parent := some 2, fields := [(['x'], ⟨⟨2, .copy, false⟩, 0⟩)] } }
  | 5 => (Noted.new ['P']).run env void [.trait "pointer".toList v1]
  | 6 => (Noted.new ['Q']).run env void [.trait "pointer".toList v1]
  | _ => t
example : (Noted.fieldTraitsF tbl 3 3 ['x']).map (·.get ['j']) = .ok (some v2) ∧
    (Noted.fieldTraitsF tbl 3 4 ['x']).map (·.get ['j']) = .ok none := by decide
example : (tbl 5).isPointer = true ∧ (tbl 5).d.ptr = none ∧ (tbl 6).isPointer = true ∧
    (tbl 6).d.ptr = none := by decide

def tbl' : Ty → Noted
  | 7 => (Noted.new ['R']).run env void [.decl (.setPointer [] 6)]
  | 8 => (Noted.new ['S']).run env void [.decl (.setPointer [] 9)]
  | 9 => Noted.new ['T']
  | n => tbl n
example : Noted.childF tbl' 5 (some 7) (some 5) = .error .ub ∧ Noted.childF tbl' 5 (some 8) (some 5) = .ok false :=
  ⟨(C72_hand_tagged_target tbl' 3 7 5 6 (by decide) (by decide) (by decide)).1 (by decide),
   (C72_hand_tagged_target tbl' 3 8 5 9 (by decide) (by decide) (by decide)).2 (by decide) (by decide)⟩

end TraitsDemo

end Reflect

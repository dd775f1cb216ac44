import Verif.Lemmas.Json.Loop
import Verif.Model.Json.Typed
/- What the calls on a reader keep, parsing keeps. -/
namespace Reflect.Json

/-- whatever comes out has the property -/
def Keeps {α : Type} (x : Res α) (P : α → Prop) : Prop := ∀ a, x = .ok a → P a

theorem Keeps.ok {α : Type} {a : α} {P : α → Prop} (h : P a) : Keeps (.ok a) P := by
  intro b e; injection e with e; subst e; exact h

theorem Keeps.err {α : Type} {e : Fault} {P : α → Prop} : Keeps (.error e : Res α) P := by
  intro b e; cases e

theorem Keeps.bind {α β : Type} {x : Res α} {f : α → Res β} {P : α → Prop} {Q : β → Prop}
    (h : Keeps x P) (hf : ∀ a, x = .ok a → P a → Keeps (f a) Q) : Keeps (x >>= f) Q := by
  cases x with
  | error e => exact Keeps.err
  | ok a => exact hf a rfl (h a rfl)

theorem Keeps.any {α : Type} {x : Res α} : Keeps x (fun _ => True) := fun _ _ => trivial

/-- a property of a reader that the calls parsing is made of keep -/
structure KeepsAll (P : Reader → Prop) : Prop where
  next : ∀ r : Reader, P r → Keeps r.nextToken (fun p => P p.2)
  peek : ∀ r : Reader, P r → Keeps r.peekToken (fun p => P p.2)
  assert : ∀ (r r' : Reader) (p : Token × Reader) (x : TokType), P r' → (r.nextToken = .ok p ∧ p.2 = r') → r'.mayAssert p.1 x = .ok () → P (r'.assertToken p.1 x).2
  unknown : ∀ (r : Reader) (p : Token × Reader), P r → r.peekToken = .ok p →
    p.1.type ≠ .null → p.1.type ≠ .bool → p.1.type ≠ .int → p.1.type ≠ .float → p.1.type ≠ .string →
    P (p.2.error (.unknownToken p.1.type (p.1.text p.2)))

variable {P : Reader → Prop} {r : Reader} {env : Env} {c : PCache}

theorem KeepsAll.expect (hk : KeepsAll P) (h : P r) (x : TokType) : Keeps (r.expectToken x) (fun p => P p.2) := by
  unfold Reader.expectToken
  refine Keeps.bind (hk.next r h) fun p e hp => ?_
  refine Keeps.bind Keeps.any fun u hu _ => ?_
  exact Keeps.ok (hk.assert r p.2 p x hp ⟨e, rfl⟩ hu)

/-- a call-back that keeps it -/
abbrev FnKeeps (P : Reader → Prop) {ι σ : Type} (fn : ι → σ → Reader → Res (σ × Reader)) : Prop :=
  ∀ i a r, P r → Keeps (fn i a r) (fun p => P p.2)

theorem KeepsAll.arrLoop (hk : KeepsAll P) {σ : Type} {fn : Nat → σ → Reader → Res (σ × Reader)} (hf : FnKeeps P fn) :
    ∀ (n i : Nat) (a : σ) (r : Reader), P r → Keeps (Json.arrLoop fn n i a r) (fun p => P p.2) := by
  intro n
  induction n with
  | zero => intro i a r _; exact Keeps.err
  | succ n ih =>
    intro i a r h
    unfold Json.arrLoop
    split
    · refine Keeps.bind (hf i a r h) fun q _ hq => ?_
      refine Keeps.bind (hk.next _ hq) fun e he hs => ?_
      split
      · exact Keeps.ok hs
      · exact Keeps.bind Keeps.any fun u hu _ => ih _ _ _ (hk.assert _ e.2 e _ hs ⟨he, rfl⟩ hu)
    · exact Keeps.ok h

theorem KeepsAll.objLoop (hk : KeepsAll P) {σ : Type} {fn : Bytes → σ → Reader → Res (σ × Reader)} (hf : FnKeeps P fn) :
    ∀ (n : Nat) (a : σ) (r : Reader), P r → Keeps (Json.objLoop fn n a r) (fun p => P p.2) := by
  intro n
  induction n with
  | zero => intro a r _; exact Keeps.err
  | succ n ih =>
    intro a r h
    unfold Json.objLoop
    split
    · refine Keeps.bind (hk.expect h .string) fun p _ hp => ?_
      refine Keeps.bind Keeps.any fun _ _ _ => ?_
      refine Keeps.bind (hk.expect hp .keySeparator) fun q _ hq => ?_
      refine Keeps.bind (hf _ a q.2 hq) fun d _ hd => ?_
      refine Keeps.bind (hk.next _ hd) fun e he hs => ?_
      split
      · exact Keeps.ok hs
      · exact Keeps.bind Keeps.any fun u hu _ => ih _ _ (hk.assert _ e.2 e _ hs ⟨he, rfl⟩ hu)
    · exact Keeps.ok h

theorem KeepsAll.array (hk : KeepsAll P) {σ : Type} {fn : Nat → σ → Reader → Res (σ × Reader)} (hf : FnKeeps P fn)
    (n : Nat) (a : σ) (h : P r) : Keeps (parseArray fn n a r) (fun p => P p.2) := by
  unfold parseArray
  refine Keeps.bind (hk.next _ h) fun p he hp => ?_
  split
  · exact Keeps.ok hp
  · refine Keeps.bind Keeps.any fun u hu _ => ?_
    refine Keeps.bind (hk.peek _ (hk.assert _ p.2 p _ hp ⟨he, rfl⟩ hu)) fun q _ hq => ?_
    split
    · exact Keeps.bind (hk.expect hq _) fun e _ he => Keeps.ok he
    · exact hk.arrLoop hf _ _ _ _ hq

theorem KeepsAll.object (hk : KeepsAll P) {σ : Type} {fn : Bytes → σ → Reader → Res (σ × Reader)} (hf : FnKeeps P fn)
    (n : Nat) (a : σ) (h : P r) : Keeps (parseObject fn n a r) (fun p => P p.2) := by
  unfold parseObject
  refine Keeps.bind (hk.next _ h) fun p he hp => ?_
  split
  · exact Keeps.ok hp
  · refine Keeps.bind Keeps.any fun u hu _ => ?_
    refine Keeps.bind (hk.peek _ (hk.assert _ p.2 p _ hp ⟨he, rfl⟩ hu)) fun q _ hq => ?_
    split
    · exact Keeps.bind (hk.expect hq _) fun e _ he => Keeps.ok he
    · exact hk.objLoop hf _ _ _ hq

theorem KeepsAll.skip (hk : KeepsAll P) : ∀ (n : Nat) (r : Reader), P r → Keeps (Json.skip n r) P := by
  intro n
  induction n with
  | zero => intro r _; exact Keeps.err
  | succ n ih =>
    intro r h
    unfold Json.skip
    refine Keeps.bind (hk.peek _ h) fun p _ hp => ?_
    split
    · split
      case h_6 =>
        refine Keeps.bind (hk.array ?_ n () hp) fun q _ hq => Keeps.ok hq
        intro i a r hr
        exact Keeps.bind (ih r hr) fun q _ hq => Keeps.ok hq
      case h_7 =>
        refine Keeps.bind (hk.object ?_ n () hp) fun q _ hq => Keeps.ok hq
        intro i a r hr
        exact Keeps.bind (ih r hr) fun q _ hq => Keeps.ok hq
      case h_8 => exact Keeps.err
      all_goals exact Keeps.bind (hk.next _ hp) fun q _ hq => Keeps.ok hq
    · exact Keeps.ok hp

theorem KeepsAll.null (hk : KeepsAll P) (h : P r) : Keeps (parseNull r) P := by
  unfold parseNull
  exact Keeps.bind (hk.expect h _) fun p _ hp => Keeps.ok hp
theorem KeepsAll.bool (hk : KeepsAll P) (h : P r) : Keeps (parseBool r) (fun p => P p.2) := by
  unfold parseBool
  exact Keeps.bind (hk.expect h _) fun p _ hp => Keeps.bind Keeps.any fun _ _ _ => Keeps.ok hp
theorem KeepsAll.int (hk : KeepsAll P) (h : P r) : Keeps (parseInt r) (fun p => P p.2) := by
  unfold parseInt
  exact Keeps.bind (hk.expect h _) fun p _ hp => Keeps.bind Keeps.any fun _ _ _ => Keeps.ok hp
theorem KeepsAll.string (hk : KeepsAll P) (h : P r) : Keeps (parseString r) (fun p => P p.2) := by
  unfold parseString
  exact Keeps.bind (hk.expect h _) fun p _ hp => Keeps.bind Keeps.any fun _ _ _ => Keeps.ok hp
theorem KeepsAll.float (hk : KeepsAll P) (h : P r) : Keeps (parseFloatText r) (fun p => P p.2) := by
  unfold parseFloatText
  refine Keeps.bind (hk.next _ h) fun p he hp => ?_
  refine Keeps.bind Keeps.any fun u hu _ => ?_
  refine Keeps.bind Keeps.any fun _ _ _ => Keeps.ok ?_
  show P (if p.1.type = .int then p.2 else (p.2.assertToken p.1 .float).2)
  split
  · exact hp
  · rename_i hne
    rw [if_neg hne] at hu
    exact hk.assert _ p.2 p _ hp ⟨he, rfl⟩ hu

theorem KeepsAll.untyped (hk : KeepsAll P) : ∀ (n : Nat) (v : JV) (r : Reader),
    P r → Keeps (parseUntyped env n v r) (fun p => P p.2) := by
  intro n
  induction n with
  | zero => intro v r _; exact Keeps.err
  | succ n ih =>
    intro v r h
    unfold parseUntyped
    refine Keeps.bind (hk.peek _ h) fun p he hp => ?_
    split
    · exact Keeps.bind (hk.null hp) fun q _ hq => Keeps.ok hq
    · exact Keeps.bind (hk.bool hp) fun q _ hq => Keeps.ok hq
    · exact Keeps.bind (hk.int hp) fun q _ hq => Keeps.ok hq
    · exact Keeps.bind (hk.float hp) fun q _ hq => Keeps.bind Keeps.any fun x _ _ => Keeps.ok hq
    · exact Keeps.bind (hk.string hp) fun q _ hq => Keeps.ok hq
    · refine Keeps.bind (hk.array ?_ n _ hp) fun q _ hq => Keeps.ok hq
      intro i a r' hr'
      exact Keeps.bind (ih .void r' hr') fun q _ hq => Keeps.ok hq
    · refine Keeps.bind (hk.object ?_ n _ hp) fun q _ hq => Keeps.ok hq
      intro i a r' hr'
      exact Keeps.bind (ih .void r' hr') fun q _ hq => Keeps.ok hq
    · rename_i h1 h2 h3 h4 h5 h6 h7
      exact Keeps.ok (hk.unknown _ p h he h1 h2 h3 h4 h5)

/-- Parsing into a value. -/
theorem KeepsAll.value (hk : KeepsAll P) (hf : ∀ ty name f v r, env.parseFn ty name = some f → P r → Keeps (f v r) (fun p => P p.2)) :
    ∀ (n : Nat) (ty : TyId) (v : JV) (r : Reader), P r → Keeps (parseV env c n ty v r) (fun p => P p.2) := by
  intro n
  induction n with
  | zero => intro ty v r _; exact Keeps.err
  | succ n ih =>
    intro ty v r hr
    unfold parseV
    cases Assoc.get c ty with
    | none => exact Keeps.err
    | some st =>
      dsimp only
      split
      · refine Keeps.bind (hk.bool hr) fun p _ h => ?_
        split
        · exact Keeps.ok h
        · exact Keeps.err
      · refine Keeps.bind (hk.int hr) fun p _ h => ?_
        split
        · exact Keeps.ok h
        · exact Keeps.err
      · refine Keeps.bind (hk.float hr) fun p _ h => Keeps.bind Keeps.any fun _ _ _ => ?_
        split
        · exact Keeps.ok h
        · exact Keeps.err
      · refine Keeps.bind (hk.string hr) fun p _ h => ?_
        split
        · exact Keeps.ok h
        · exact Keeps.err
      · refine Keeps.bind (hk.peek _ hr) fun p _ hp => ?_
        split
        · exact Keeps.bind (hk.next _ hp) fun q _ hq => Keeps.ok hq
        · split
          · exact Keeps.bind (ih _ _ _ hp) fun q _ hq => Keeps.ok hq
          · exact Keeps.bind Keeps.any fun _ _ _ => Keeps.bind (ih _ _ _ hp) fun q _ hq => Keeps.ok hq
          · exact Keeps.err
          · exact Keeps.err
      · split
        · refine Keeps.bind (hk.array ?_ n _ hr) fun q _ hq => Keeps.ok hq
          intro i a r' hr'
          refine Keeps.bind Keeps.any fun _ _ _ => Keeps.bind (ih _ _ _ hr') fun q _ hq => ?_
          split <;> exact Keeps.ok hq
        · refine Keeps.bind (hk.array ?_ n _ hr) fun q _ hq => Keeps.ok hq
          intro i a r' hr'
          exact Keeps.err
        · exact Keeps.err
      · split
        · refine Keeps.bind (hk.object ?_ n _ hr) fun q _ hq => Keeps.ok hq
          intro i a r' hr'
          refine Keeps.bind Keeps.any fun _ _ _ => Keeps.bind (ih _ _ _ hr') fun q _ hq => ?_
          split <;> exact Keeps.ok hq
        · refine Keeps.bind (hk.object ?_ n _ hr) fun q _ hq => Keeps.ok hq
          intro i a r' hr'
          exact Keeps.err
        · exact Keeps.err
      · split
        · refine Keeps.bind (hk.object ?_ n _ hr) fun q _ hq => Keeps.ok hq
          intro i a r' hr'
          dsimp only
          split
          · exact Keeps.bind (hk.skip n r' hr') fun q _ hq => Keeps.ok hq
          · split
            · exact Keeps.err
            · split
              · exact Keeps.err
              · exact Keeps.bind (ih _ _ _ hr') fun q _ hq => Keeps.ok hq
        · exact Keeps.err
      · split
        · exact Keeps.err
        · split
          · exact Keeps.err
          · rename_i f hfn
            exact hf _ _ _ v r hfn hr
      · exact hk.untyped n v r hr

end Reflect.Json

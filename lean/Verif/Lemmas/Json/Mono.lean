import Verif.Model.Json.Typed
/- More fuel does not change an outcome. -/
namespace Reflect.Json.Mono

/-- `a` ran out of fuel, or is `b` -/
def FLe {α : Type} (a b : Res α) : Prop := a = .error .diverge ∨ a = b

theorem FLe.refl {α : Type} (a : Res α) : FLe a a := Or.inr rfl

theorem FLe.bind {α β : Type} {a b : Res α} {f g : α → Res β} (h : FLe a b) (hf : ∀ x, FLe (f x) (g x)) :
    FLe (a >>= f) (b >>= g) := by
  rcases h with h | h
  · left; rw [h]; rfl
  · subst h
    cases a with
    | error e => right; rfl
    | ok x => exact hf x

theorem FLe.bind_same {α β : Type} {a : Res α} {f g : α → Res β} (hf : ∀ x, FLe (f x) (g x)) :
    FLe (a >>= f) (a >>= g) := FLe.bind (FLe.refl a) hf

theorem FLe.ite {α : Type} {c : Prop} [Decidable c] {a b a' b' : Res α} (h1 : c → FLe a a') (h2 : ¬ c → FLe b b') :
    FLe (if c then a else b) (if c then a' else b') := by
  by_cases h : c
  · rw [if_pos h, if_pos h]; exact h1 h
  · rw [if_neg h, if_neg h]; exact h2 h

theorem FLe.use {α : Type} {a b : Res α} (h : FLe a b) (hd : a ≠ .error .diverge) : b = a := (h.resolve_left hd).symm

/-! ### Reading -/

theorem objLoop_le {σ : Type} {f g : Bytes → σ → Reader → Res (σ × Reader)} (hf : ∀ k a r, FLe (f k a r) (g k a r)) :
    ∀ (n m : Nat), n ≤ m → ∀ (a : σ) (r : Reader), FLe (objLoop f n a r) (objLoop g m a r)
  | 0, _, _, _, _ => Or.inl rfl
  | n + 1, m, h, a, r => by
    obtain ⟨m, rfl⟩ : ∃ k, m = k + 1 := ⟨m - 1, by omega⟩
    rw [objLoop, objLoop]
    refine FLe.ite (fun _ => ?_) (fun _ => FLe.refl _)
    refine FLe.bind_same fun p => FLe.bind_same fun _ => FLe.bind_same fun q => FLe.bind (hf _ _ _) fun c => ?_
    refine FLe.bind_same fun e => FLe.ite (fun _ => FLe.refl _) (fun _ => FLe.bind_same fun _ => ?_)
    exact objLoop_le hf n m (by omega) _ _

theorem parseObject_le {σ : Type} {f g : Bytes → σ → Reader → Res (σ × Reader)} (hf : ∀ k a r, FLe (f k a r) (g k a r))
    {n m : Nat} (h : n ≤ m) (a : σ) (r : Reader) : FLe (parseObject f n a r) (parseObject g m a r) := by
  unfold parseObject
  refine FLe.bind_same fun p => FLe.ite (fun _ => FLe.refl _) (fun _ => FLe.bind_same fun _ => FLe.bind_same fun q => ?_)
  exact FLe.ite (fun _ => FLe.refl _) (fun _ => objLoop_le hf n m h _ _)

theorem arrLoop_le {σ : Type} {f g : Nat → σ → Reader → Res (σ × Reader)} (hf : ∀ k a r, FLe (f k a r) (g k a r)) :
    ∀ (n m : Nat), n ≤ m → ∀ (i : Nat) (a : σ) (r : Reader), FLe (arrLoop f n i a r) (arrLoop g m i a r)
  | 0, _, _, _, _, _ => Or.inl rfl
  | n + 1, m, h, i, a, r => by
    obtain ⟨m, rfl⟩ : ∃ k, m = k + 1 := ⟨m - 1, by omega⟩
    rw [arrLoop, arrLoop]
    refine FLe.ite (fun _ => ?_) (fun _ => FLe.refl _)
    refine FLe.bind (hf _ _ _) fun c => ?_
    refine FLe.bind_same fun e => FLe.ite (fun _ => FLe.refl _) (fun _ => FLe.bind_same fun _ => ?_)
    exact arrLoop_le hf n m (by omega) _ _ _

theorem parseArray_le {σ : Type} {f g : Nat → σ → Reader → Res (σ × Reader)} (hf : ∀ k a r, FLe (f k a r) (g k a r))
    {n m : Nat} (h : n ≤ m) (a : σ) (r : Reader) : FLe (parseArray f n a r) (parseArray g m a r) := by
  unfold parseArray
  refine FLe.bind_same fun p => FLe.ite (fun _ => FLe.refl _) (fun _ => FLe.bind_same fun _ => FLe.bind_same fun q => ?_)
  exact FLe.ite (fun _ => FLe.refl _) (fun _ => arrLoop_le hf n m h _ _ _)

theorem skip_le : ∀ (n m : Nat), n ≤ m → ∀ (r : Reader), FLe (skip n r) (skip m r)
  | 0, _, _, _ => Or.inl rfl
  | n + 1, m, h, r => by
    obtain ⟨m, rfl⟩ : ∃ k, m = k + 1 := ⟨m - 1, by omega⟩
    rw [skip, skip]
    refine FLe.bind_same fun p => FLe.ite (fun _ => ?_) (fun _ => FLe.refl _)
    have hle : n ≤ m := by omega
    have hf : ∀ (r : Reader), FLe (skip n r) (skip m r) := skip_le n m hle
    cases p.1.type <;> try exact FLe.refl _
    · exact FLe.bind (parseObject_le (fun _ _ _ => FLe.bind (hf _) fun _ => FLe.refl _) hle _ _) fun _ => FLe.refl _
    · exact FLe.bind (parseArray_le (fun _ _ _ => FLe.bind (hf _) fun _ => FLe.refl _) hle _ _) fun _ => FLe.refl _

theorem parseUntyped_le (env : Env) : ∀ (n m : Nat), n ≤ m → ∀ (v : JV) (r : Reader),
    FLe (parseUntyped env n v r) (parseUntyped env m v r)
  | 0, _, _, _, _ => Or.inl rfl
  | n + 1, m, h, v, r => by
    obtain ⟨m, rfl⟩ : ∃ k, m = k + 1 := ⟨m - 1, by omega⟩
    rw [parseUntyped, parseUntyped]
    refine FLe.bind_same fun p => ?_
    have hle : n ≤ m := by omega
    have hf := parseUntyped_le env n m hle
    cases p.1.type <;> try exact FLe.refl _
    · exact FLe.bind (parseObject_le (fun _ _ _ => FLe.bind (hf _ _) fun _ => FLe.refl _) hle _ _) fun _ => FLe.refl _
    · exact FLe.bind (parseArray_le (fun _ _ _ => FLe.bind (hf _ _) fun _ => FLe.refl _) hle _ _) fun _ => FLe.refl _

theorem parseV_le (env : Env) (c : PCache) : ∀ (n m : Nat), n ≤ m → ∀ (ty : TyId) (v : JV) (r : Reader),
    FLe (parseV env c n ty v r) (parseV env c m ty v r)
  | 0, _, _, _, _, _ => Or.inl rfl
  | n + 1, m, h, ty, v, r => by
    obtain ⟨m, rfl⟩ : ∃ k, m = k + 1 := ⟨m - 1, by omega⟩
    have hle : n ≤ m := by omega
    have hf := parseV_le env c n m hle
    rw [parseV, parseV]
    cases Assoc.get c ty with
    | none => exact FLe.refl _
    | some st =>
      simp only
      cases st.kind <;> try exact FLe.refl _
      · refine FLe.bind_same fun p => FLe.ite (fun _ => FLe.refl _) fun _ => ?_
        split <;> try exact FLe.refl _
        · exact FLe.bind (hf _ _ _) fun _ => FLe.refl _
        · exact FLe.bind_same fun _ => FLe.bind (hf _ _ _) fun _ => FLe.refl _
      · simp only
        split <;> try exact FLe.refl _
        · exact FLe.bind (parseObject_le (fun _ _ _ => FLe.bind_same fun _ => FLe.bind (hf _ _ _) fun _ => FLe.refl _) hle _ _)
            fun _ => FLe.refl _
        · exact FLe.bind (parseObject_le (fun _ _ _ => FLe.refl _) hle _ _) fun _ => FLe.refl _
      · simp only
        split <;> try exact FLe.refl _
        · exact FLe.bind (parseArray_le (fun _ _ _ => FLe.bind_same fun _ => FLe.bind (hf _ _ _) fun _ => FLe.refl _) hle _ _)
            fun _ => FLe.refl _
        · exact FLe.bind (parseArray_le (fun _ _ _ => FLe.refl _) hle _ _) fun _ => FLe.refl _
      · exact parseUntyped_le env n m hle v r
      · simp only
        split <;> try exact FLe.refl _
        refine FLe.bind (parseObject_le (fun a fs r => ?_) hle _ _) fun _ => FLe.refl _
        split
        · exact FLe.bind (skip_le n m hle _) fun _ => FLe.refl _
        · split <;> try exact FLe.refl _
          split <;> try exact FLe.refl _
          exact FLe.bind (hf _ _ _) fun _ => FLe.refl _

mutual
theorem getParser_le (env : Env) : ∀ (n m : Nat), n ≤ m → ∀ (ty : TyId) (c : PCache),
    (getParser env n ty c).1 = .error .diverge ∨ getParser env n ty c = getParser env m ty c
  | 0, _, _, _, _ => by rw [getParser]; exact Or.inl rfl
  | n + 1, m, h, ty, c => by
    obtain ⟨m, rfl⟩ : ∃ k, m = k + 1 := ⟨m - 1, by omega⟩
    rw [getParser, getParser]
    cases Assoc.get c ty with
    | some st => exact Or.inr rfl
    | none =>
      simp only
      cases env.types[ty]? with
      | none => exact Or.inr rfl
      | some d =>
        simp only
        cases d.parserKind <;> try exact Or.inr rfl
        · exact initInner_le env n m (by omega) ..
        · exact initInner_le env n m (by omega) ..
        · exact initInner_le env n m (by omega) ..
        · exact initFields_le env n m (by omega) ..
termination_by n _ _ _ _ => (n, 0)
theorem initInner_le (env : Env) : ∀ (n m : Nat), n ≤ m → ∀ (ty : TyId) (st : PState) (ot : Option TyId) (c : PCache),
    (initInner env n ty st ot c).1 = .error .diverge ∨ initInner env n ty st ot c = initInner env m ty st ot c
  | n, m, h, ty, st, none, c => by rw [initInner, initInner]; exact Or.inr rfl
  | n, m, h, ty, st, some t, c => by
    rw [initInner, initInner]
    rcases getParser_le env n m h t c with e | e
    · left; rw [e]
    · right; rw [e]
termination_by n _ _ _ _ _ _ => (n, 1)
theorem initFields_le (env : Env) : ∀ (n m : Nat), n ≤ m → ∀ (ty : TyId) (fs : List FieldD) (st : PState) (c : PCache),
    (initFields env n ty fs st c).1 = .error .diverge ∨ initFields env n ty fs st c = initFields env m ty fs st c
  | n, m, h, ty, [], st, c => by rw [initFields, initFields]; exact Or.inr rfl
  | n, m, h, ty, f :: fs, st, c => by
    rw [initFields, initFields]
    cases f.alias? with
    | none => exact initFields_le env n m h ty fs st c
    | some a =>
      simp only
      split
      · exact Or.inr rfl
      · rcases getParser_le env n m h f.type (Assoc.set c ty { st with keys := Assoc.set st.keys a f.name }) with e | e
        · left; rw [e]
        · rw [e]
          split
          · exact Or.inr rfl
          · exact initFields_le env n m h ..
termination_by n _ _ _ fs _ _ => (n, fs.length + 1)
end

/-- An outcome of parsing other than running out of fuel is the outcome with any more fuel. -/
theorem parse_le (env : Env) {n m : Nat} (h : n ≤ m) (c : PCache) (ty : TyId) (v : JV) (r : Reader) :
    (parse env n c ty v r).1 = .error .diverge ∨ parse env n c ty v r = parse env m c ty v r := by
  unfold parse
  rcases getParser_le env n m h ty c with e | e
  · left; simp only [e]
  · rw [e]
    simp only
    split
    · exact Or.inr rfl
    · rcases parseV_le env (getParser env m ty c).2 n m h ty v r with e | e
      · left; exact e
      · right; rw [e]

/-! ### Printing -/

theorem printItems_le {α : Type} {f g : α → Writer → Res Writer} (hf : ∀ x w, FLe (f x w) (g x w)) :
    ∀ (xs : List α) (first : Bool) (w : Writer), FLe (printItems f xs first w) (printItems g xs first w)
  | [], _, _ => FLe.refl _
  | x :: xs, first, w => by
    rw [printItems, printItems]
    refine FLe.ite (fun _ => ?_) (fun _ => FLe.refl _)
    exact FLe.bind_same fun _ => FLe.bind (hf _ _) fun _ => printItems_le hf xs _ _

theorem printArray_le {α : Type} {f g : α → Writer → Res Writer} (hf : ∀ x w, FLe (f x w) (g x w)) (xs : List α) (w : Writer) :
    FLe (printArray f xs w) (printArray g xs w) := by
  unfold printArray
  exact FLe.bind_same fun _ => FLe.bind (printItems_le hf _ _ _) fun _ => FLe.refl _

theorem printMembers_le {f g : Bytes → Writer → Res Writer} (hf : ∀ x w, FLe (f x w) (g x w)) (skip : Bytes → Res Bool) :
    ∀ (ks : List Bytes) (first : Bool) (w : Writer), FLe (printMembers f skip ks first w) (printMembers g skip ks first w)
  | [], _, _ => FLe.refl _
  | k :: ks, first, w => by
    rw [printMembers, printMembers]
    refine FLe.ite (fun _ => ?_) (fun _ => FLe.refl _)
    refine FLe.bind_same fun s => FLe.ite (fun _ => printMembers_le hf skip ks _ _) fun _ => ?_
    exact FLe.bind_same fun _ => FLe.bind_same fun _ => FLe.bind (hf _ _) fun _ => printMembers_le hf skip ks _ _

theorem printObject_le {f g : Bytes → Writer → Res Writer} (hf : ∀ x w, FLe (f x w) (g x w)) (skip : Bytes → Res Bool)
    (ks : List Bytes) (w : Writer) : FLe (printObject f skip ks w) (printObject g skip ks w) := by
  unfold printObject
  exact FLe.bind_same fun _ => FLe.bind (printMembers_le hf _ _ _ _) fun _ => FLe.refl _

theorem printV_le (env : Env) (c : WCache) : ∀ (n m : Nat), n ≤ m → ∀ (ty : TyId) (v : JV) (w : Writer),
    FLe (printV env c n ty v w) (printV env c m ty v w)
  | 0, _, _, _, _, _ => Or.inl rfl
  | n + 1, m, h, ty, v, w => by
    obtain ⟨m, rfl⟩ : ∃ k, m = k + 1 := ⟨m - 1, by omega⟩
    have hle : n ≤ m := by omega
    have hf := printV_le env c n m hle
    unfold printV
    cases Assoc.get c ty with
    | none => exact FLe.refl _
    | some st =>
      simp only
      cases st.kind <;> try exact FLe.refl _
      · simp only
        split <;> try exact FLe.refl _
        split <;> try exact FLe.refl _
        exact hf _ _ _
      · simp only
        split <;> try exact FLe.refl _
        refine printObject_le (fun k w => ?_) _ _ _
        split <;> try exact FLe.refl _
        split <;> try exact FLe.refl _
        exact hf _ _ _
      · simp only
        split <;> try exact FLe.refl _
        split <;> try exact FLe.refl _
        exact printArray_le (fun _ _ => hf _ _ _) _ _
      · simp only
        split <;> try exact FLe.refl _
        exact printObject_le (fun k w => FLe.bind_same fun _ => hf _ _ _) _ _ _

mutual
theorem getPrinter_le (env : Env) : ∀ (n m : Nat), n ≤ m → ∀ (ty : TyId) (c : WCache),
    (getPrinter env n ty c).1 = .error .diverge ∨ getPrinter env n ty c = getPrinter env m ty c
  | 0, _, _, _, _ => by rw [getPrinter]; exact Or.inl rfl
  | n + 1, m, h, ty, c => by
    obtain ⟨m, rfl⟩ : ∃ k, m = k + 1 := ⟨m - 1, by omega⟩
    rw [getPrinter, getPrinter]
    cases Assoc.get c ty with
    | some st => exact Or.inr rfl
    | none =>
      simp only
      cases env.types[ty]? with
      | none => exact Or.inr rfl
      | some d =>
        simp only
        cases d.printerKind with
        | none => exact Or.inr rfl
        | some k =>
          simp only
          cases k <;> try exact Or.inr rfl
          · exact initInnerW_le env n m (by omega) ..
          · exact initInnerW_le env n m (by omega) ..
          · exact initInnerW_le env n m (by omega) ..
          · exact initFieldsW_le env n m (by omega) ..
termination_by n _ _ _ _ => (n, 0)
theorem initInnerW_le (env : Env) : ∀ (n m : Nat), n ≤ m → ∀ (ty : TyId) (st : WState) (ot : Option TyId) (c : WCache),
    (initInnerW env n ty st ot c).1 = .error .diverge ∨ initInnerW env n ty st ot c = initInnerW env m ty st ot c
  | n, m, h, ty, st, none, c => by rw [initInnerW, initInnerW]; exact Or.inr rfl
  | n, m, h, ty, st, some t, c => by
    rw [initInnerW, initInnerW]
    rcases getPrinter_le env n m h t c with e | e
    · left; rw [e]
    · right; rw [e]
termination_by n _ _ _ _ _ _ => (n, 1)
theorem initFieldsW_le (env : Env) : ∀ (n m : Nat), n ≤ m → ∀ (ty : TyId) (fs : List FieldD) (st : WState) (c : WCache),
    (initFieldsW env n ty fs st c).1 = .error .diverge ∨ initFieldsW env n ty fs st c = initFieldsW env m ty fs st c
  | n, m, h, ty, [], st, c => by rw [initFieldsW, initFieldsW]; exact Or.inr rfl
  | n, m, h, ty, f :: fs, st, c => by
    rw [initFieldsW, initFieldsW]
    cases f.alias? with
    | none => exact initFieldsW_le env n m h ty fs st c
    | some a =>
      simp only
      split
      · exact Or.inr rfl
      · rcases getPrinter_le env n m h f.type (Assoc.set c ty { st with
            keys := Assoc.set st.keys a f.name, sortedKeys := st.sortedKeys ++ [a],
            skipEmpty := if env.skipEmpty ty f then a :: st.skipEmpty else st.skipEmpty }) with e | e
        · left; rw [e]
        · rw [e]
          split
          · exact Or.inr rfl
          · exact initFieldsW_le env n m h ..
termination_by n _ _ _ fs _ _ => (n, fs.length + 1)
end

/-- An outcome of printing other than running out of fuel is the outcome with any more fuel. -/
theorem print_le (env : Env) {n m : Nat} (h : n ≤ m) (c : WCache) (ty : TyId) (v : JV) (w : Writer) :
    (print env n c ty v w).1 = .error .diverge ∨ print env n c ty v w = print env m c ty v w := by
  unfold print
  rcases getPrinter_le env n m h ty c with e | e
  · left; simp only [e]
  · rw [e]
    simp only
    split
    · exact Or.inr rfl
    · rcases printV_le env (getPrinter env m ty c).2 n m h ty v w with e | e
      · left; exact e
      · right; rw [e]

theorem print_fun (env : Env) {n m : Nat} {c : WCache} {ty : TyId} {v : JV} {w w1 w2 : Writer}
    (h1 : (print env n c ty v w).1 = .ok w1) (h2 : (print env m c ty v w).1 = .ok w2) : w1 = w2 := by
  rcases Nat.le_total n m with h | h
  · rcases print_le env h c ty v w with e | e
    · rw [h1] at e; cases e
    · rw [e, h2] at h1; injection h1 with h1; exact h1.symm
  · rcases print_le env h c ty v w with e | e
    · rw [h2] at e; cases e
    · rw [e, h1] at h2; injection h2

theorem parse_fun (env : Env) {n m : Nat} {c : PCache} {ty : TyId} {v : JV} {r : Reader} {p q : JV × Reader}
    (h1 : (parse env n c ty v r).1 = .ok p) (h2 : (parse env m c ty v r).1 = .ok q) : p = q := by
  rcases Nat.le_total n m with h | h
  · rcases parse_le env h c ty v r with e | e
    · rw [h1] at e; cases e
    · rw [e, h2] at h1; injection h1 with h1; exact h1.symm
  · rcases parse_le env h c ty v r with e | e
    · rw [h2] at e; cases e
    · rw [e, h1] at h2; injection h2

end Reflect.Json.Mono

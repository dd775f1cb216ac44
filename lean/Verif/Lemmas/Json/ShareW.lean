import Verif.Lemmas.Json.ShareP
import Verif.Lemmas.Json.CacheW
/-
  Printers satisfy what the machine needs.
-/
namespace Reflect.Json.Share

mutual
/-- the writes are those of `getPrinter` -/
theorem getPrinterP_eq (env : Env) : ∀ (n : Nat) (ty : TyId) (c : WCache),
    getPrinter env n ty c = ((getPrinterP env n ty c).1, after c (getPrinterP env n ty c).2)
  | 0, ty, c => by rw [getPrinter, getPrinterP]; rfl
  | n + 1, ty, c => by
    rw [getPrinter, getPrinterP]
    cases Assoc.get c ty with
    | some st => rfl
    | none =>
      simp only
      cases env.types[ty]? with
      | none => rfl
      | some d =>
        simp only
        cases d.printerKind with
        | none => rfl
        | some k =>
          simp only
          cases k <;> try rfl
          · simp only; rw [initInnerWP_eq env n]; rfl
          · simp only; rw [initInnerWP_eq env n]; rfl
          · simp only; rw [initInnerWP_eq env n]; rfl
          · simp only; cases env.printFn ty d.customPrinter <;> rfl
          · simp only; rw [initFieldsWP_eq env n]; rfl
termination_by n _ _ => (n, 0)
theorem initInnerWP_eq (env : Env) : ∀ (n : Nat) (ty : TyId) (st : WState) (ot : Option TyId) (c : WCache),
    initInnerW env n ty st ot c = ((initInnerWP env n ty st ot c).1, after c (initInnerWP env n ty st ot c).2)
  | n, ty, st, none, c => by rw [initInnerW, initInnerWP]; rfl
  | n, ty, st, some t, c => by
    rw [initInnerW, initInnerWP, getPrinterP_eq env n t c]
    cases (getPrinterP env n t c).1 with
    | error e => rfl
    | ok u => simp only [after_append]; rfl
termination_by n _ _ _ _ => (n, 1)
theorem initFieldsWP_eq (env : Env) : ∀ (n : Nat) (ty : TyId) (fs : List FieldD) (st : WState) (c : WCache),
    initFieldsW env n ty fs st c = ((initFieldsWP env n ty fs st c).1, after c (initFieldsWP env n ty fs st c).2)
  | n, ty, [], st, c => by rw [initFieldsW, initFieldsWP]; rfl
  | n, ty, f :: fs, st, c => by
    rw [initFieldsW, initFieldsWP]
    cases f.alias? with
    | none => exact initFieldsWP_eq env n ty fs st c
    | some a =>
      simp only
      split
      · rfl
      · rw [getPrinterP_eq env n f.type]
        simp only
        generalize hst1 : ({ st with keys := Assoc.set st.keys a f.name, sortedKeys := st.sortedKeys ++ [a], skipEmpty := if env.skipEmpty ty f then a :: st.skipEmpty else st.skipEmpty } : WState) = st1
        cases (getPrinterP env n f.type (Assoc.set c ty st1)).1 with
        | error e => rfl
        | ok u =>
          simp only
          rw [initFieldsWP_eq env n ty fs]
          subst hst1
          simp only [after_append, after_cons]
termination_by n _ fs _ _ => (n, fs.length + 1)
end

mutual
/-- no printer object that was there is written to -/
theorem getPrinterP_fresh (env : Env) : ∀ (n : Nat) (ty : TyId) (c : WCache), ∀ w ∈ (getPrinterP env n ty c).2, Assoc.get c w.1 = none
  | 0, ty, c => by rw [getPrinterP]; intro w h; cases h
  | n + 1, ty, c => by
    rw [getPrinterP]
    cases hc : Assoc.get c ty with
    | some st => intro w h; cases h
    | none =>
      simp only
      cases env.types[ty]? with
      | none => intro w h; cases h
      | some d =>
        simp only
        have low : ∀ (ws : Writes WState) (st : WState), (∀ w ∈ ws, w.1 = ty ∨ Assoc.get (Assoc.set c ty st) w.1 = none) →
            ∀ w ∈ (ty, st) :: ws, Assoc.get c w.1 = none := by
          intro ws st h w hw
          rcases List.mem_cons.1 hw with rfl | hw
          · exact hc
          · rcases h w hw with e | e
            · rw [e]; exact hc
            · exact none_set e
        cases d.printerKind with
        | none => intro w h; cases h
        | some k =>
          simp only
          cases k with
          | pointer => exact low _ _ (initInnerWP_fresh env n ty _ _ _)
          | map => exact low _ _ (initInnerWP_fresh env n ty _ _ _)
          | list => exact low _ _ (initInnerWP_fresh env n ty _ _ _)
          | custom =>
            simp only
            cases env.printFn ty d.customPrinter with
            | none => exact low _ _ (by intro w h; cases h)
            | some f => exact low _ _ (by intro w h; simp only [List.mem_singleton] at h; subst h; exact Or.inl rfl)
          | object => exact low _ _ (initFieldsWP_fresh env n ty _ _ _ (by rw [Assoc.get_set, if_pos rfl]; rfl))
          | _ => exact low _ _ (by intro w h; cases h)
termination_by n _ _ => (n, 0)
theorem initInnerWP_fresh (env : Env) : ∀ (n : Nat) (ty : TyId) (st : WState) (ot : Option TyId) (c : WCache),
    ∀ w ∈ (initInnerWP env n ty st ot c).2, w.1 = ty ∨ Assoc.get c w.1 = none
  | n, ty, st, none, c => by rw [initInnerWP]; intro w h; cases h
  | n, ty, st, some t, c => by
    rw [initInnerWP]
    have hf := getPrinterP_fresh env n t c
    cases (getPrinterP env n t c).1 with
    | error e => intro w hw; exact Or.inr (hf w hw)
    | ok u =>
      intro w hw
      rcases List.mem_append.1 hw with h | h
      · exact Or.inr (hf w h)
      · simp only [List.mem_singleton] at h; subst h; exact Or.inl rfl
termination_by n _ _ _ _ => (n, 1)
theorem initFieldsWP_fresh (env : Env) : ∀ (n : Nat) (ty : TyId) (fs : List FieldD) (st : WState) (c : WCache), (Assoc.get c ty).isSome →
    ∀ w ∈ (initFieldsWP env n ty fs st c).2, w.1 = ty ∨ Assoc.get c w.1 = none
  | n, ty, [], st, c, _ => by rw [initFieldsWP]; intro w h; simp only [List.mem_singleton] at h; subst h; exact Or.inl rfl
  | n, ty, f :: fs, st, c, hin => by
    rw [initFieldsWP]
    cases f.alias? with
    | none => exact initFieldsWP_fresh env n ty fs st c hin
    | some a =>
      simp only
      split
      · intro w h; cases h
      · generalize hst1 : ({ st with keys := Assoc.set st.keys a f.name, sortedKeys := st.sortedKeys ++ [a], skipEmpty := if env.skipEmpty ty f then a :: st.skipEmpty else st.skipEmpty } : WState) = st1
        have hf := getPrinterP_fresh env n f.type (Assoc.set c ty st1)
        have hg : ∀ w ∈ (getPrinterP env n f.type (Assoc.set c ty st1)).2,
            w.1 = ty ∨ Assoc.get c w.1 = none := fun w hw => Or.inr (none_set (hf w hw))
        cases (getPrinterP env n f.type (Assoc.set c ty st1)).1 with
        | error e =>
          intro w hw
          rcases List.mem_cons.1 hw with rfl | hw
          · exact Or.inl rfl
          · exact hg w hw
        | ok u =>
          simp only
          intro w hw
          rcases List.mem_cons.1 hw with rfl | hw
          · exact Or.inl rfl
          · rcases List.mem_append.1 hw with hw | hw
            · exact hg w hw
            · rcases List.mem_cons.1 hw with rfl | hw
              · exact Or.inl rfl
              · rcases initFieldsWP_fresh env n ty fs _ _ (isSome_set _ _ _ _ (isSome_after _ _ _ (isSome_set _ _ _ _ hin))) w hw with e | e
                · exact Or.inl e
                · exact Or.inr (none_set (none_of (none_set e)))
termination_by n _ fs _ _ _ => (n, fs.length + 1)
end

/-- the printers that a printer object refers to -/
def WState.Refs (st : WState) (t : TyId) : Prop := st.inner = some t ∨ ∃ k, Assoc.get st.fields k = some t

/-- printers refer to printers that have been made -/
def ClosedW (c : WCache) : Prop := ∀ ty st t, Assoc.get c ty = some st → WState.Refs st t → (Assoc.get c t).isSome

theorem ClosedW.set {c : WCache} (h : ClosedW c) (ty : TyId) (st : WState) (hst : ∀ t, WState.Refs st t → t = ty ∨ (Assoc.get c t).isSome) :
    ClosedW (Assoc.set c ty st) := by
  intro ty' st' t hx hr
  rw [Assoc.get_set] at hx
  split at hx
  · cases hx
    rcases hst t hr with rfl | e
    · rw [Assoc.get_set, if_pos rfl]; rfl
    · exact isSome_set _ _ _ _ e
  · exact isSome_set _ _ _ _ (h ty' st' t hx hr)

mutual
theorem getPrinter_closed (env : Env) : ∀ (n : Nat) (ty : TyId) (c : WCache), ClosedW c → ClosedW (getPrinter env n ty c).2 ∧
    ((getPrinter env n ty c).1 = .ok () → (Assoc.get (getPrinter env n ty c).2 ty).isSome)
  | 0, ty, c, h => by rw [getPrinter]; exact ⟨h, fun e => by cases e⟩
  | n + 1, ty, c, h => by
    rw [getPrinter]
    cases hc : Assoc.get c ty with
    | some st => exact ⟨h, fun _ => by rw [hc]; rfl⟩
    | none =>
      simp only
      cases env.types[ty]? with
      | none => exact ⟨h, fun e => by cases e⟩
      | some d =>
        simp only
        have hin : ∀ st : WState, (Assoc.get (Assoc.set c ty st) ty).isSome := fun st => by rw [Assoc.get_set, if_pos rfl]; rfl
        have hnew : ∀ (k : WKind) (fn : Option Bytes), ClosedW (Assoc.set c ty { kind := k, fn := fn }) := fun k fn => h.set ty _ (by
          rintro t (e | ⟨k, e⟩)
          · cases e
          · cases e)
        have hno : ∀ (k : WKind) t, ¬ WState.Refs { kind := k } t := by
          rintro k t (e | ⟨k, e⟩)
          · cases e
          · cases e
        cases d.printerKind with
        | none => exact ⟨h, fun e => by cases e⟩
        | some k =>
          simp only
          cases k with
          | pointer => exact initInnerW_closed env n ty _ _ _ (hnew _ _) (hin _) (hno _)
          | map => exact initInnerW_closed env n ty _ _ _ (hnew _ _) (hin _) (hno _)
          | list => exact initInnerW_closed env n ty _ _ _ (hnew _ _) (hin _) (hno _)
          | custom =>
            simp only
            cases env.printFn ty d.customPrinter with
            | none => exact ⟨hnew _ _, fun e => by cases e⟩
            | some f =>
              refine ⟨(hnew .custom none).set ty _ ?_, fun _ => by rw [Assoc.get_set, if_pos rfl]; rfl⟩
              rintro t (e | ⟨k, e⟩)
              · cases e
              · cases e
          | object => exact initFieldsW_closed env n ty _ _ _ (hnew _ _) (hin _) (fun t e => absurd e (hno _ t)) rfl
          | _ => exact ⟨hnew _ _, fun _ => hin _⟩
termination_by n _ _ _ => (n, 0)
theorem initInnerW_closed (env : Env) : ∀ (n : Nat) (ty : TyId) (st : WState) (ot : Option TyId) (c : WCache), ClosedW c →
    (Assoc.get c ty).isSome → (∀ t, ¬ WState.Refs st t) → ClosedW (initInnerW env n ty st ot c).2 ∧
    ((initInnerW env n ty st ot c).1 = .ok () → (Assoc.get (initInnerW env n ty st ot c).2 ty).isSome)
  | n, ty, st, none, c, h, hin, hno => by rw [initInnerW]; exact ⟨h, fun _ => hin⟩
  | n, ty, st, some t, c, h, hin, hno => by
    rw [initInnerW]
    obtain ⟨h1, h2⟩ := getPrinter_closed env n t c h
    cases hx : (getPrinter env n t c).1 with
    | error e => exact ⟨h1, fun e => by cases e⟩
    | ok u =>
      simp only
      refine ⟨h1.set ty _ ?_, fun _ => by rw [Assoc.get_set, if_pos rfl]; rfl⟩
      rintro t' (e | ⟨k, e⟩)
      · cases e; exact Or.inr (h2 hx)
      · exact absurd (Or.inr ⟨k, e⟩) (hno t')
termination_by n _ _ _ _ _ _ _ => (n, 1)
theorem initFieldsW_closed (env : Env) : ∀ (n : Nat) (ty : TyId) (fs : List FieldD) (st : WState) (c : WCache), ClosedW c →
    (Assoc.get c ty).isSome → (∀ t, WState.Refs st t → (Assoc.get c t).isSome) → st.inner = none → ClosedW (initFieldsW env n ty fs st c).2 ∧
    ((initFieldsW env n ty fs st c).1 = .ok () → (Assoc.get (initFieldsW env n ty fs st c).2 ty).isSome)
  | n, ty, [], st, c, h, hin, hst, hi => by
    rw [initFieldsW]
    exact ⟨h.set ty _ (fun t e => Or.inr (hst t e)), fun _ => by rw [Assoc.get_set, if_pos rfl]; rfl⟩
  | n, ty, f :: fs, st, c, h, hin, hst, hi => by
    rw [initFieldsW]
    cases f.alias? with
    | none => exact initFieldsW_closed env n ty fs st c h hin hst hi
    | some a =>
      simp only
      split
      · exact ⟨h, fun _ => hin⟩
      · generalize hst1 : ({ st with keys := Assoc.set st.keys a f.name, sortedKeys := st.sortedKeys ++ [a], skipEmpty := if env.skipEmpty ty f then a :: st.skipEmpty else st.skipEmpty } : WState) = st1
        have hfi : st1.fields = st.fields ∧ st1.inner = st.inner := by subst hst1; exact ⟨rfl, rfl⟩
        have href1 : ∀ t, WState.Refs st1 t → WState.Refs st t := by
          intro t e
          unfold WState.Refs at e ⊢
          rw [hfi.1, hfi.2] at e; exact e
        have h0 : ClosedW (Assoc.set c ty st1) := h.set ty _ (fun t e => Or.inr (hst t (href1 t e)))
        obtain ⟨h1, h2⟩ := getPrinter_closed env n f.type _ h0
        have hk := getPrinter_kept env n f.type (Assoc.set c ty st1)
        have hk' : ∀ t, (Assoc.get c t).isSome → (Assoc.get (getPrinter env n f.type (Assoc.set c ty st1)).2 t).isSome := by
          intro t ht
          obtain ⟨x, hx⟩ := Option.isSome_iff_exists.mp (isSome_set c ty st1 t ht)
          rw [hk t x hx]; rfl
        cases hx : (getPrinter env n f.type (Assoc.set c ty st1)).1 with
        | error e => exact ⟨h1, fun e => by cases e⟩
        | ok u =>
          simp only
          have href : ∀ t, WState.Refs { st1 with fields := Assoc.emplace st1.fields f.name f.type } t →
              (Assoc.get (getPrinter env n f.type (Assoc.set c ty st1)).2 t).isSome := by
            rintro t (e | ⟨k, e⟩)
            · simp only at e; rw [hfi.2, hi] at e; cases e
            · simp only at e
              rw [Assoc.get_emplace] at e
              cases hg : Assoc.get st1.fields k with
              | some y =>
                rw [hg] at e; cases e
                exact hk' t (hst t (href1 t (Or.inr ⟨k, hg⟩)))
              | none =>
                rw [hg] at e
                simp only at e
                split at e
                · cases e; exact h2 hx
                · cases e
          subst hst1
          refine initFieldsW_closed env n ty fs _ _ (h1.set ty _ fun t e => Or.inr (href t e)) ?_ ?_ (hfi.2.trans hi)
          · rw [Assoc.get_set, if_pos rfl]; rfl
          · intro t e
            exact isSome_set _ _ _ _ (href t e)
termination_by n _ fs _ _ _ _ _ _ => (n, fs.length + 1)
end

theorem isEmptyS_near (env : Env) (look : JV × TyId → WCache) (c : WCache) (hc : ClosedW c) (hk : ∀ x, Keeps c (look x)) :
    ∀ (v : JV) (ty : TyId), (Assoc.get c ty).isSome → isEmptyS env look v ty = isEmptyV env c v ty
  | v, ty, hty => by
    rw [isEmptyS.eq_def, isEmptyV.eq_def]
    simp only
    cases hx : Assoc.get c ty with
    | none => rw [hx] at hty; cases hty
    | some st =>
      rw [hk (v, ty) ty st hx]
      simp only
      cases hki : st.kind <;> try rfl
      simp only
      cases v <;> try rfl
      rename_i w
      simp only
      cases hin : st.inner with
      | none => rfl
      | some t => exact isEmptyS_near env look c hc hk w t (hc ty st t hx (Or.inl hin))

/-- A printer in use depends only on the printers that were there when it was obtained. -/
theorem printS_near (env : Env) (look : Nat × TyId × JV × Writer × Option Bytes → WCache) (c : WCache) (hc : ClosedW c)
    (hk : ∀ x, Keeps c (look x)) :
    ∀ (n : Nat) (ty : TyId) (v : JV) (w : Writer), (Assoc.get c ty).isSome → printS env look n ty v w = printV env c n ty v w
  | 0, _, _, _, _ => by rw [printS, printV]
  | n + 1, ty, v, w, hty => by
    have ih := printS_near env look c hc hk n
    rw [printS.eq_def, printV.eq_def]
    simp only
    cases hx : Assoc.get c ty with
    | none => rw [hx] at hty; cases hty
    | some st =>
      rw [hk (n, ty, v, w, none) ty st hx]
      have href := fun t => hc ty st t hx
      simp only
      cases hki : st.kind <;> try rfl
      · simp only
        cases v <;> try rfl
        simp only
        cases hin : st.inner with
        | none => rfl
        | some t => exact ih t _ _ (href t (Or.inl hin))
      · simp only
        cases v <;> try rfl
        rename_i kvs
        simp only
        congr 1; funext k w'
        cases Assoc.get kvs k with
        | none => rfl
        | some x =>
          cases hin : st.inner with
          | none => rfl
          | some t => exact ih t _ _ (href t (Or.inl hin))
      · simp only
        cases v <;> try rfl
        simp only
        cases hin : st.inner with
        | none => rfl
        | some t =>
          simp only
          congr 1; funext x w'
          exact ih t _ _ (href t (Or.inl hin))
      · simp only
        cases v <;> try rfl
        rename_i kvs
        simp only
        congr 1
        · funext a w'
          cases Assoc.get st.keys a with
          | none => rfl
          | some k =>
            simp only
            cases hf : Assoc.get st.fields k with
            | none => rfl
            | some t =>
              simp only
              cases Assoc.get kvs k with
              | none => rfl
              | some x => exact ih t _ _ (href t (Or.inr ⟨k, hf⟩))
        · funext a
          split
          · rfl
          · cases Assoc.get st.keys a with
            | none => rfl
            | some k =>
              simp only
              cases hf : Assoc.get st.fields k with
              | none => rfl
              | some t =>
                simp only
                cases Assoc.get kvs k with
                | none => rfl
                | some x => exact isEmptyS_near env _ c hc (fun x => hk _) _ t (href t (Or.inr ⟨k, hf⟩))

/-- printers -/
theorem printers_sound (env : Env) (n : Nat) : Sound (printers env n) ClosedW (print1 env n) where
  closed := by
    intro k c h
    have := (getPrinter_closed env n k.1 c h).1
    rw [getPrinterP_eq] at this
    exact this
  fresh := fun k c => getPrinterP_fresh env n k.1 c
  made := by
    intro k c h e
    have := (getPrinter_closed env n k.1 c h).2
    rw [getPrinterP_eq] at this
    exact this e
  near := by
    intro k c look hc hty hk
    have hty' : (Assoc.get c k.1).isSome := hty
    show printS env look n _ _ _ = printS env _ n _ _ _
    rw [printS_near env look c hc hk n _ _ _ hty', printS_near env _ c hc (fun _ => Keeps.refl _) n _ _ _ hty']
  call := by
    intro k c h
    have h1 := (getPrinter_closed env n k.1 c h)
    rw [getPrinterP_eq] at h1
    show print env n c k.1 k.2.1 k.2.2 = (_, after c (getPrinterP env n k.1 c).2)
    unfold print
    rw [getPrinterP_eq]
    simp only
    cases hx : (getPrinterP env n k.1 c).1 with
    | error e =>
      have : ((printers env n).make k c).1 = .error e := hx
      simp only [this]
    | ok u =>
      have : ((printers env n).make k c).1 = .ok u := hx
      simp only [this]
      have e : (printers env n).use k (fun _ => after c ((printers env n).make k c).2) =
        printS env (fun _ => after c (getPrinterP env n k.1 c).2) n k.1 k.2.1 k.2.2 := rfl
      rw [e, printS_near env _ _ h1.1 (fun _ => Keeps.refl _) n _ _ _ (h1.2 hx)]

end Reflect.Json.Share

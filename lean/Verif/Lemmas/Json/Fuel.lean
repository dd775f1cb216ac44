import Verif.Lemmas.Json.CacheW
/- The lookup of parsers and printers does not depend on the fuel once there is enough. -/
namespace Reflect.Json

variable {env : Env}

mutual
theorem getParser_fuel : ∀ (n : Nat) (ty : TyId) (c : PCache), missing env c < n →
    getParser env (n + 1) ty c = getParser env n ty c
  | 0, ty, c, h => by omega
  | n + 1, ty, c, h => by
    rw [getParser.eq_def env (n + 1 + 1), getParser.eq_def env (n + 1)]
    cases hnone : Assoc.get c ty with
    | some st => simp only [hnone]
    | none =>
      cases hd : env.types[ty]? with
      | none => simp only [hnone, hd]
      | some d =>
        have hl : ty < env.types.length := (List.getElem?_eq_some_iff.mp hd).1
        have hm := missing_set (env := env) hnone hl { kind := d.parserKind }
        simp only [hnone, hd]
        cases hk : d.parserKind with
        | pointer => rw [hk] at hm; exact initInner_fuel n ty _ _ _ (by omega)
        | map => rw [hk] at hm; exact initInner_fuel n ty _ _ _ (by omega)
        | list => rw [hk] at hm; exact initInner_fuel n ty _ _ _ (by omega)
        | object => rw [hk] at hm; exact initFields_fuel n ty _ _ _ (by omega)
        | _ => rfl
theorem initInner_fuel : ∀ (n : Nat) (ty : TyId) (st : PState) (t : Option TyId) (c : PCache), missing env c < n →
    initInner env (n + 1) ty st t c = initInner env n ty st t c
  | n, ty, st, none, c, h => by unfold initInner; rfl
  | n, ty, st, some t, c, h => by
    unfold initInner
    rw [getParser_fuel n t c h]
theorem initFields_fuel : ∀ (n : Nat) (ty : TyId) (fs : List FieldD) (st : PState) (c : PCache), missing env c < n →
    initFields env (n + 1) ty fs st c = initFields env n ty fs st c
  | n, ty, [], st, c, h => by unfold initFields; rfl
  | n, ty, f :: fs, st, c, h => by
    rw [initFields.eq_def env (n + 1), initFields.eq_def env n]
    cases ha : f.alias? with
    | none => simp only [ha]; exact initFields_fuel n ty fs st c h
    | some a =>
      simp only [ha]
      split
      · rfl
      · have h1 := missing_mono (env := env) (keptBut_set c ty { st with keys := Assoc.set st.keys a f.name })
        rw [getParser_fuel n f.type _ (Nat.lt_of_le_of_lt h1 h)]
        split
        · rfl
        · refine initFields_fuel n ty fs _ _ ?_
          refine Nat.lt_of_le_of_lt ?_ h
          exact missing_mono (((keptBut_set c ty _).trans ((getParser_kept env n f.type _).but ty)).trans (keptBut_set _ ty _))
end

theorem getParser_enough {ty : TyId} {c : PCache} {n : Nat} (h : missing env c < n) :
    getParser env n ty c = getParser env (missing env c + 1) ty c := by
  obtain ⟨k, rfl⟩ : ∃ k, n = missing env c + 1 + k := ⟨n - (missing env c + 1), by omega⟩
  clear h
  induction k with
  | zero => rfl
  | succ k ih => rw [← Nat.add_assoc, getParser_fuel _ ty c (by omega), ih]

mutual
theorem getPrinter_fuel : ∀ (n : Nat) (ty : TyId) (c : WCache), missingW env c < n →
    getPrinter env (n + 1) ty c = getPrinter env n ty c
  | 0, ty, c, h => by omega
  | n + 1, ty, c, h => by
    rw [getPrinter.eq_def env (n + 1 + 1), getPrinter.eq_def env (n + 1)]
    cases hnone : Assoc.get c ty with
    | some st => simp only [hnone]
    | none =>
      cases hd : env.types[ty]? with
      | none => simp only [hnone, hd]
      | some d =>
        have hl : ty < env.types.length := (List.getElem?_eq_some_iff.mp hd).1
        have hm := missingW_set (env := env) hnone hl
        simp only [hnone, hd]
        cases hk : d.printerKind with
        | none => rfl
        | some k =>
          simp only
          cases k with
          | pointer => exact initInnerW_fuel n ty _ _ _ (Nat.lt_of_lt_of_le (hm _) (by omega))
          | map => exact initInnerW_fuel n ty _ _ _ (Nat.lt_of_lt_of_le (hm _) (by omega))
          | list => exact initInnerW_fuel n ty _ _ _ (Nat.lt_of_lt_of_le (hm _) (by omega))
          | object => exact initFieldsW_fuel n ty _ _ _ (Nat.lt_of_lt_of_le (hm _) (by omega))
          | _ => rfl
theorem initInnerW_fuel : ∀ (n : Nat) (ty : TyId) (st : WState) (t : Option TyId) (c : WCache), missingW env c < n →
    initInnerW env (n + 1) ty st t c = initInnerW env n ty st t c
  | n, ty, st, none, c, h => by unfold initInnerW; rfl
  | n, ty, st, some t, c, h => by
    unfold initInnerW
    rw [getPrinter_fuel n t c h]
theorem initFieldsW_fuel : ∀ (n : Nat) (ty : TyId) (fs : List FieldD) (st : WState) (c : WCache), missingW env c < n →
    initFieldsW env (n + 1) ty fs st c = initFieldsW env n ty fs st c
  | n, ty, [], st, c, h => by unfold initFieldsW; rfl
  | n, ty, f :: fs, st, c, h => by
    rw [initFieldsW.eq_def env (n + 1), initFieldsW.eq_def env n]
    cases ha : f.alias? with
    | none => simp only [ha]; exact initFieldsW_fuel n ty fs st c h
    | some a =>
      simp only [ha]
      split
      · rfl
      · have h1 := missingW_mono (env := env) (keptButW_set c ty { st with keys := Assoc.set st.keys a f.name, sortedKeys := st.sortedKeys ++ [a], skipEmpty := if env.skipEmpty ty f then a :: st.skipEmpty else st.skipEmpty })
        rw [getPrinter_fuel n f.type _ (Nat.lt_of_le_of_lt h1 h)]
        split
        · rfl
        · refine initFieldsW_fuel n ty fs _ _ ?_
          refine Nat.lt_of_le_of_lt ?_ h
          exact missingW_mono (((keptButW_set c ty _).trans ((getPrinter_kept env n f.type _).but ty)).trans (keptButW_set _ ty _))
end

theorem getPrinter_enough {ty : TyId} {c : WCache} {n : Nat} (h : missingW env c < n) :
    getPrinter env n ty c = getPrinter env (missingW env c + 1) ty c := by
  obtain ⟨k, rfl⟩ : ∃ k, n = missingW env c + 1 + k := ⟨n - (missingW env c + 1), by omega⟩
  clear h
  induction k with
  | zero => rfl
  | succ k ih => rw [← Nat.add_assoc, getPrinter_fuel _ ty c (by omega), ih]

end Reflect.Json

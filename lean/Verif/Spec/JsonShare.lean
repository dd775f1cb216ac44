import Verif.Model.Json.Share
/-
  What C84 says: calls made one after the other, and what it is to disturb one another.
-/
namespace Reflect.Json.Share

variable {σ κ ρ ι : Type}

/-- The outcomes of calls made one after the other, by one thread; `call k c` is the outcome of `k` on finding the
cache `c`, and the cache it leaves. -/
def serial (call : κ → Assoc TyId σ → Res ρ × Assoc TyId σ) : List (Nat × κ) → Assoc TyId σ → List (Nat × κ × Res ρ)
  | [], _ => []
  | (i, k) :: ks, c => (i, k, (call k c).1) :: serial call ks (call k c).2

/-- those of thread `i` -/
def of {α : Type} (i : Nat) (l : List (Nat × α)) : List α := (l.filter fun p => p.1 == i).map (·.2)

/-- Everything has been done. -/
def State.over (s : State σ κ ρ) : Prop := ∀ th ∈ s.threads, th.todo = [] ∧ th.phase = .idle

/-- `json::parse`, for one thread -/
def parse1 (env : Env) (n : Nat) (k : TyId × JV × Reader) (c : PCache) : Res (JV × Reader) × PCache := parse env n c k.1 k.2.1 k.2.2

/-- `json::print`, for one thread -/
def print1 (env : Env) (n : Nat) (k : TyId × JV × Writer) (c : WCache) : Res Writer × WCache := print env n c k.1 k.2.1 k.2.2

/-- `UsesP c ty t`: using the parser of `ty` may enter the parser of `t`. -/
inductive UsesP (c : PCache) : TyId → TyId → Prop where
  | refl (ty : TyId) : UsesP c ty ty
  | inner (ty t u : TyId) (st : PState) : Assoc.get c ty = some st → st.inner = some t → UsesP c t u → UsesP c ty u
  | field (ty t u : TyId) (st : PState) (k : Bytes) : Assoc.get c ty = some st → Assoc.get st.fields k = some t → UsesP c t u → UsesP c ty u

/-- `UsesW c ty t`: using the printer of `ty` may enter the printer of `t`. -/
inductive UsesW (c : WCache) : TyId → TyId → Prop where
  | refl (ty : TyId) : UsesW c ty ty
  | inner (ty t u : TyId) (st : WState) : Assoc.get c ty = some st → st.inner = some t → UsesW c t u → UsesW c ty u
  | field (ty t u : TyId) (st : WState) (k : Bytes) : Assoc.get c ty = some st → Assoc.get st.fields k = some t → UsesW c t u → UsesW c ty u

end Reflect.Json.Share

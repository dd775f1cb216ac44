import Verif.Model.Json.PlacePrint
import Verif.Spec.JsonPlace
/-
  What a printer sees of an object in memory: its value. Unlike `Rep` (Spec/JsonPlace.lean) nothing is said of who owns what, as
  reading does not need it: two pointers may point to one object.
-/
namespace Reflect.Json

/-- the order in which the map type `ty` goes through its keys -/
def Env.orderOf (env : Env) (ty : TyId) (ks : List Bytes) : List Bytes :=
  match env.types[ty]? with
  | none => ks
  | some d => d.order ks

/-- `Shows p N L order h t a v`: the object of type `t` at `a` has the value `v`; maps of type `t` are gone through in the order
`order t` of their keys. -/
inductive Shows (p : Prog) (N : Native) (L : Layout) (order : Ty → List Bytes → List Bytes) (h : Heap) : Ty → Nat → JV → Prop where
  | scalar (t : Ty) (a : Nat) (v : JV) (cells : JV → Option (Nat → Nat)) (cs : Nat → Nat) :
      L t = .scalar cells → cells v = some cs → h.Ok a (p.size t) → (∀ j < p.size t, h.mem (a + j) = cs j) → Shows p N L order h t a v
  | list (t : Ty) (a : Nat) (e : Ty) (vs : List JV) :
      L t = .list e → h.IsVec (p.size e) a → h.mem (a + 1) = vs.length →
      (∀ (i : Nat) (v : JV), vs[i]? = some v → Shows p N L order h e (h.mem a + p.size e * i) v) → Shows p N L order h t a (.list vs)
  | map (t : Ty) (a : Nat) (e : Ty) (K : MapKind) (m : List (Bytes × JV)) :
      L t = .map e K → h.IsMap K a → (m.map (·.1)).Nodup → (order t (m.map (·.1))).Perm (m.map (·.1)) →
      (h.nodes a).map (fun d => h.cells d K.key) = (order t (m.map (·.1))).map (keyCells p N) →
      (∀ k x b, Assoc.get m k = some x → h.ValueAt K a (keyCells p N k) b → Shows p N L order h e b x) → Shows p N L order h t a (.map m)
  | obj (t : Ty) (a : Nat) (field : Bytes → Option (Ty × Nat)) (fs : List (Bytes × JV)) :
      L t = .obj field → h.Ok a (p.size t) → (∀ k f, field k = some f → ∃ x, Assoc.get fs k = some x) →
      (∀ k x f, Assoc.get fs k = some x → field k = some f → Shows p N L order h f.1 (a + f.2) x) → Shows p N L order h t a (.obj fs)
  | null (t : Ty) (a : Nat) (e : Ty) (n : Nat) : L t = .ptr e n → h.Ok a (p.size t) → h.mem a = 0 → Shows p N L order h t a .null
  | ptr (t : Ty) (a : Nat) (e : Ty) (n : Nat) (v : JV) : L t = .ptr e n → h.Ok a (p.size t) → h.mem a ≠ 0 →
      Shows p N L order h e (h.mem a) v → Shows p N L order h t a (.ptr v)

/-- The same value; but the entries of maps may be listed in another order. -/
inductive Shuffled : JV → JV → Prop where
  | same (v : JV) : Shuffled v v
  | ptr (v v' : JV) : Shuffled v v' → Shuffled (.ptr v) (.ptr v')
  | list (vs vs' : List JV) : vs'.length = vs.length →
      (∀ (i : Nat) (v v' : JV), vs[i]? = some v → vs'[i]? = some v' → Shuffled v v') → Shuffled (.list vs) (.list vs')
  | map (m m' : List (Bytes × JV)) : (m'.map (·.1)).Perm (m.map (·.1)) →
      (∀ k x x', Assoc.get m k = some x → Assoc.get m' k = some x' → Shuffled x x') → Shuffled (.map m) (.map m')
  | obj (fs fs' : List (Bytes × JV)) : fs'.map (·.1) = fs.map (·.1) →
      (∀ k x x', Assoc.get fs k = some x → Assoc.get fs' k = some x' → Shuffled x x') → Shuffled (.obj fs) (.obj fs')

end Reflect.Json

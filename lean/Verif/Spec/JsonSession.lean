import Verif.Model.Json.Session
import Verif.Spec.JsonPlace
import Verif.Model.Json.Typed
/-
  Specification for C94: the same sequences of calls on values instead of objects, and memories that hold several objects.
-/
namespace Reflect.Json

/-- The calls of a program on `k` values (Model/Json/Typed.lean): each call of `parse` gives one of them a new value, and calls of `print`
none. It ends with the first exception; otherwise the values at the end are returned. -/
def runValues {k : Nat} (env : Env) (n : Nat) (ty : Fin k → Ty) : List (Call k) → (Fin k → JV) → PCache → WCache → List Out →
    List Out × Option (Fin k → JV)
  | [], vs, _, _, outs => (outs, some vs)
  | .parse i f :: cs, vs, c, cw, outs =>
    match parse env n c (ty i) (vs i) (Reader.open ROpts.default (f outs)) with
    | (.error e, _) => (outs ++ [.raised e], none)
    | (.ok (v, r), c') => runValues env n ty cs (fun j => if j = i then v else vs j) c' cw (outs ++ [.parsed r.err])
  | .print i o :: cs, vs, c, cw, outs =>
    match print env n cw (ty i) (vs i) { opts := o } with
    | (.error e, _) => (outs ++ [.raised e], none)
    | (.ok w, cw') => runValues env n ty cs vs c cw' (outs ++ [.printed w.out w.err])

/-- `k` objects in memory, with the values `vs`, none of which is part of another. `Os i` is what the object `i` consists of besides
its own cells. -/
structure Side (p : Prog) (N : Native) (L : Layout) {k : Nat} (objs : Fin k → Ty × Nat) (h : Heap) (vs : Fin k → JV) (Os : Fin k → Nat → Prop) : Prop where
  rep : ∀ i, Rep p N L h (objs i).1 (objs i).2 (vs i) (Os i)
  apart : ∀ i j, i ≠ j → ∀ y, OwnCell p (objs i).1 (objs i).2 y ∨ Os i y → ¬ (OwnCell p (objs j).1 (objs j).2 y ∨ Os j y)

end Reflect.Json

import Verif.Spec.JsonPlacePrint
/- Types whose maps go through their keys in alphabetic order. -/
namespace Reflect.Json

/-- All maps of the layout are `std::map`s that compare their keys as `std::string` does. -/
def Alphabetic (p : Prog) (N : Native) (L : Layout) : Prop :=
  ∀ t e K, L t = .map e K → ∃ l, K.less = some l ∧ ∀ k k', l (keyCells p N k) (keyCells p N k') = bytesLt k k'

end Reflect.Json

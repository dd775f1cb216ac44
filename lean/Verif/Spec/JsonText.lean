import Verif.Spec.JsonLex
/-
  Strings as sequences of code points, and decimal numerals.
-/
namespace Reflect.Json

/-- `Text m s`: the bytes `s` are the UTF-8 encoding of some numbers below `m`. -/
def Text (m : Nat) (s : Bytes) : Prop := ∃ ns : List Nat, (∀ n ∈ ns, n < m) ∧ s = ns.flatMap utf8

/-- `Dec ds n`: the ASCII digits `ds`, leading zeros allowed, spell `n` in base ten. -/
inductive Dec : Bytes → Nat → Prop where
  | nil : Dec [] 0
  | snoc (ds : Bytes) (n d : Nat) : Dec ds n → d < 10 → Dec (ds ++ [UInt8.ofNat (48 + d)]) (10 * n + d)

/-- the bytes that may continue a number -/
def numCont : Bytes := [48, 49, 50, 51, 52, 53, 54, 55, 56, 57, 46, 101, 69, 43, 45]

/-- `Stops y`: the text `y` does not begin with a byte that may continue a number. -/
def Stops (y : Bytes) : Prop := ∀ c, y.head? = some c → c ∉ numCont

end Reflect.Json

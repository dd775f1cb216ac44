import Verif.Spec.JsonBack
/-
  What a printed text is: when its strings are strings of the JSON grammar, and what they mean.
-/
namespace Reflect.Json

/-- no control characters but those with an escape of their own: \b, \t, \n, \f, \r -/
def Printable (s : Bytes) : Prop := ∀ c ∈ s, 0x20 ≤ c.toNat ∨ c ∈ ([8, 9, 10, 12, 13] : Bytes)

/-- `Stands wo m t`: the text `t` between quotes is a string of the JSON grammar if `m` is printable, and reads
as `m` with any reader that can read it back. -/
def Stands (wo : WOpts) (m t : Bytes) : Prop :=
  (Printable m → StrGram t) ∧ ∀ ro, Survives wo ro m → StrBody ro t m

/-- `Grammatical s`: the bytes are a JSON text of some document. -/
def Grammatical (s : Bytes) : Prop := ∃ x, JsonText (fun _ t => StrGram t) x s

end Reflect.Json

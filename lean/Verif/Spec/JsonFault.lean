import Verif.Spec.JsonText
import Verif.Model.Json.Writer
/-
  What the JSON writer can write: stated by the bytes of the strings and the options alone.
-/
namespace Reflect.Json

/-- A string cut into ASCII bytes and sequences of a header byte (two to four bytes announced) with as many
continuation bytes as it announces; the code points need not be spelled the shortest way. -/
inductive Sequenced : Bytes → Prop where
  | nil : Sequenced []
  | ascii (c : Byte) (s : Bytes) : c.toNat < 0x80 → Sequenced s → Sequenced (c :: s)
  | two (c c1 : Byte) (s : Bytes) : 0xC0 ≤ c.toNat ∧ c.toNat < 0xE0 → 0x80 ≤ c1.toNat ∧ c1.toNat < 0xC0 →
      Sequenced s → Sequenced (c :: c1 :: s)
  | three (c c1 c2 : Byte) (s : Bytes) : 0xE0 ≤ c.toNat ∧ c.toNat < 0xF0 → 0x80 ≤ c1.toNat ∧ c1.toNat < 0xC0 →
      0x80 ≤ c2.toNat ∧ c2.toNat < 0xC0 → Sequenced s → Sequenced (c :: c1 :: c2 :: s)
  | four (c c1 c2 c3 : Byte) (s : Bytes) : 0xF0 ≤ c.toNat ∧ c.toNat < 0xF8 → 0x80 ≤ c1.toNat ∧ c1.toNat < 0xC0 →
      0x80 ≤ c2.toNat ∧ c2.toNat < 0xC0 → 0x80 ≤ c3.toNat ∧ c3.toNat < 0xC0 → Sequenced s →
      Sequenced (c :: c1 :: c2 :: c3 :: s)

/-- The strings written without an error: with `EscapeUnicode`, those cut into sequences; without it but with
`ValidateUnicode`, UTF-8; with neither, all. -/
def Writable (wo : WOpts) (s : Bytes) : Prop :=
  (wo.escapeUnicode = true → Sequenced s) ∧
  (wo.escapeUnicode = false → wo.validateUnicode = true → Text 0x200000 s)

end Reflect.Json

import Verif.Model.Basic
/-
  Bytes, and numbers as `printf` writes them.
-/
namespace Reflect.Json

/-- a C++ `char` -/
abbrev Byte := UInt8
abbrev Bytes := List UInt8

/-- the bytes of a literal of the source text; for ASCII -/
def ascii (s : String) : Bytes := s.toList.map fun c => UInt8.ofNat c.toNat

/-- decimal digits of a number, as `%ld` writes them -/
def decDigits (n : Nat) : Bytes :=
  if n < 10 then [UInt8.ofNat (48 + n)] else decDigits (n / 10) ++ [UInt8.ofNat (48 + n % 10)]

/-- the digit `%x` writes for a value below sixteen -/
def hexDigit (n : Nat) : Byte := if n < 10 then UInt8.ofNat (48 + n) else UInt8.ofNat (87 + n)

/-- digits as `%x` writes them -/
def hexDigits (n : Nat) : Bytes :=
  if n < 16 then [hexDigit n] else hexDigits (n / 16) ++ [hexDigit (n % 16)]

end Reflect.Json

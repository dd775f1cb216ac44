import Verif.Spec.JsonTree
/-
  The texts on which the JSON reader and parsers can run into undefined behaviour.
-/
namespace Reflect.Json

/-- Strings are validated, and the text ends, or has a byte 0xFF, inside a string. -/
def BrokenString (o : ROpts) (s : Bytes) : Prop :=
  o.validateUnicode = true ∧ ∃ ts w t v z, Reads o s ts (w ++ 34 :: (t ++ z)) ∧ Sep o w ∧ StrBody o t v ∧
    (z = [] ∨ ∃ z', z = 255 :: z')

/-- A token that `error` cannot write about (error.cpp:24): a string or a number of more than 969 bytes, or more than
968 bytes after the opening quote of a string that is not one. -/
def LongToken (o : ROpts) (s : Bytes) : Prop :=
  (∃ ts t x y, Reads o s (ts ++ [(t, some x)]) y ∧ 969 < x.length) ∨
  (∃ ts w z, Reads o s ts (w ++ 34 :: z) ∧ Sep o w ∧ (∀ t v z', StrBody o t v → z ≠ t ++ 34 :: z') ∧ 968 < z.length)

/-- `Misplaced a b`: the token `b` cannot come right after `a`, where a value is due: `,`, `:`, `]` or `}`
after `:` or `,`, or after `[`, except for `[]`. -/
def Misplaced (a b : Tok) : Prop :=
  (a = Tok.colon ∨ a = Tok.comma ∨ (a = Tok.lbrack ∧ b ≠ Tok.rbrack)) ∧
    (b = Tok.comma ∨ b = Tok.colon ∨ b = Tok.rbrack ∨ b = Tok.rbrace)

/-- somewhere in the text, a value is missing -/
def ValueMissing (o : ROpts) (s : Bytes) : Prop :=
  ∃ ts a b y, Reads o s (ts ++ [a, b]) y ∧ Misplaced a b

end Reflect.Json

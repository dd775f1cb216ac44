import Verif.Spec.JsonLines
/-
  Columns: how many bytes there are since the last line break, newlines in comments not counting as line
  breaks.
-/
namespace Reflect.Json

/-- `After o w c c'`: `w` is separators; if `c` bytes lie between the last line break and `w`, then `c'` lie
between the last line break and the end of `w`. -/
inductive After (o : ROpts) : Bytes → Nat → Nat → Prop where
  | nil (c : Nat) : After o [] c c
  | newline (w : Bytes) (c c' : Nat) : After o w 0 c' → After o (10 :: w) c c'
  | ws (d : Byte) (w : Bytes) (c c' : Nat) : d ∈ wsBytes → d ≠ 10 → After o w (c + 1) c' →
      After o (d :: w) c c'
  | comment (body w : Bytes) (c c' : Nat) : o.allowComments = true → (10 : Byte) ∉ body →
      After o w (c + ([47, 47] ++ body ++ [10]).length) c' → After o ([47, 47] ++ body ++ [10] ++ w) c c'

/-- `ReadsC o s ts y c c'`: the text `s` is the lexemes of `ts`, with separators before each, and then `y`;
if `c` bytes lie between the last line break and `s`, then `c'` lie between the last line break and `y`. -/
inductive ReadsC (o : ROpts) : Bytes → List (Token × Option Bytes) → Bytes → Nat → Nat → Prop where
  | nil (y : Bytes) (c : Nat) : ReadsC o y [] y c c
  | cons (w a s y : Bytes) (t : Token) (v : Option Bytes) (ts : List (Token × Option Bytes)) (c c1 c' : Nat) :
      After o w c c1 → Lexeme o a t v → Follows a t s → ReadsC o s ts y (c1 + a.length) c' →
      ReadsC o (w ++ a ++ s) ((t, v) :: ts) y c c'

end Reflect.Json

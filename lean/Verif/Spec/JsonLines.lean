import Verif.Spec.JsonLex
/-
  Counting lines: newlines outside comments.
-/
namespace Reflect.Json

/-- `Breaks o w k`: `w` is white space and complete comments, with `k` newlines outside the comments
(the newline that ends a comment belongs to it). -/
inductive Breaks (o : ROpts) : Bytes → Nat → Prop where
  | nil : Breaks o [] 0
  | newline (w : Bytes) (k : Nat) : Breaks o w k → Breaks o (10 :: w) (k + 1)
  | ws (c : Byte) (w : Bytes) (k : Nat) : c ∈ wsBytes → c ≠ 10 → Breaks o w k → Breaks o (c :: w) k
  | comment (body w : Bytes) (k : Nat) : o.allowComments = true → (10 : Byte) ∉ body → Breaks o w k →
      Breaks o ([47, 47] ++ body ++ [10] ++ w) k

/-- `ReadsL o s ts y k`: the text `s` is the lexemes of `ts`, with separators before each, and then `y`;
before `y` there are `k` newlines outside comments (tokens contain none). -/
inductive ReadsL (o : ROpts) : Bytes → List (Token × Option Bytes) → Bytes → Nat → Prop where
  | nil (y : Bytes) : ReadsL o y [] y 0
  | cons (w a s y : Bytes) (t : Token) (v : Option Bytes) (ts : List (Token × Option Bytes)) (j k : Nat) :
      Breaks o w j → Lexeme o a t v → Follows a t s → ReadsL o s ts y k →
      ReadsL o (w ++ a ++ s) ((t, v) :: ts) y (j + k)

/-- `NoSep o x`: no separator at the start of `x`. -/
def NoSep (o : ROpts) (x : Bytes) : Prop := ∀ w x', x = w ++ x' → Sep o w → w = []

end Reflect.Json

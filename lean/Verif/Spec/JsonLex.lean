import Verif.Model.Json.Reader
/-
  What the lexical level of the JSON reader is meant to accept, written without reference to how the
  tokenizer works: UTF-8 by arithmetic on code points, separators, string bodies with their meaning,
  numbers, and the lexemes of each token.
-/
namespace Reflect.Json

/-- The UTF-8 encoding of a number below 2^21 (RFC 3629 section 3, without the exclusion of
surrogates and of numbers above 0x10FFFF). -/
def utf8 (n : Nat) : Bytes :=
  if n < 0x80 then [UInt8.ofNat n]
  else if n < 0x800 then [UInt8.ofNat (0xC0 + n / 64), UInt8.ofNat (0x80 + n % 64)]
  else if n < 0x10000 then
    [UInt8.ofNat (0xE0 + n / 4096), UInt8.ofNat (0x80 + n / 64 % 64), UInt8.ofNat (0x80 + n % 64)]
  else
    [UInt8.ofNat (0xF0 + n / 262144), UInt8.ofNat (0x80 + n / 4096 % 64),
      UInt8.ofNat (0x80 + n / 64 % 64), UInt8.ofNat (0x80 + n % 64)]

/-- white space: space, \t, \n, \v, \f, \r -/
def wsBytes : Bytes := [32, 9, 10, 11, 12, 13]

/-- `Sep o w`: `w` is white space, with complete line comments `//...\n` when `o` allows them. -/
inductive Sep (o : ROpts) : Bytes → Prop where
  | nil : Sep o []
  | ws (c : Byte) (w : Bytes) : c ∈ wsBytes → Sep o w → Sep o (c :: w)
  | comment (body w : Bytes) : o.allowComments = true → (10 : Byte) ∉ body → Sep o w →
      Sep o ([47, 47] ++ body ++ [10] ++ w)

/-- `IsHex c v`: the byte `c` is a hexadecimal digit, in either case, of value `v`. -/
inductive IsHex : Byte → Nat → Prop where
  | digit (k : Nat) : k < 10 → IsHex (UInt8.ofNat (48 + k)) k
  | lower (k : Nat) : k < 6 → IsHex (UInt8.ofNat (97 + k)) (10 + k)
  | upper (k : Nat) : k < 6 → IsHex (UInt8.ofNat (65 + k)) (10 + k)

/-- The one-letter escapes of JSON and the byte each stands for. -/
def escapes : List (Byte × Byte) :=
  [(34, 34), (47, 47), (92, 92), (98, 8), (102, 12), (110, 10), (114, 13), (116, 9)]

/-- `StrBody o t v`: between quotes, the text `t` is accepted under the options `o` and means the
bytes `v`. -/
inductive StrBody (o : ROpts) : Bytes → Bytes → Prop where
  | nil : StrBody o [] []
  /-- a byte standing for itself: not a quote, a backslash or a newline, and - if bytes are to be
  validated - ASCII -/
  | plain (c : Byte) (t v : Bytes) : c ≠ 34 → c ≠ 92 → c ≠ 10 →
      (c.toNat < 0x80 ∨ o.validateUnicode = false) → StrBody o t v → StrBody o (c :: t) (c :: v)
  /-- when validating: the shortest UTF-8 form of a number that needs two to four bytes -/
  | utf8 (n : Nat) (t v : Bytes) : o.validateUnicode = true → 0x80 ≤ n → n < 0x200000 →
      StrBody o t v → StrBody o (utf8 n ++ t) (utf8 n ++ v)
  | escape (c e : Byte) (t v : Bytes) : (c, e) ∈ escapes → StrBody o t v →
      StrBody o (92 :: c :: t) (e :: v)
  /-- `\uXXXX` stands for the UTF-8 encoding of its value -/
  | unicode (a b c d : Byte) (i j k l : Nat) (t v : Bytes) : o.unescapeUnicode = true →
      IsHex a i → IsHex b j → IsHex c k → IsHex d l → StrBody o t v →
      StrBody o (92 :: 117 :: a :: b :: c :: d :: t)
        (Json.utf8 (4096 * i + 256 * j + 16 * k + l) ++ v)
  /-- with unescaping off, `\uXXXX` stands for its own six bytes -/
  | rawUnicode (a b c d : Byte) (i j k l : Nat) (t v : Bytes) : o.unescapeUnicode = false →
      IsHex a i → IsHex b j → IsHex c k → IsHex d l → StrBody o t v →
      StrBody o (92 :: 117 :: a :: b :: c :: d :: t) (92 :: 117 :: a :: b :: c :: d :: v)

/-- ASCII decimal digits -/
def Digits (s : Bytes) : Prop := ∀ c ∈ s, 48 ≤ c.toNat ∧ c.toNat ≤ 57

/-- `IntText s`: `-` or a digit, followed by digits (this is laxer than JSON: `-`, `007`). -/
def IntText (s : Bytes) : Prop :=
  ∃ c ds, s = c :: ds ∧ (c = 45 ∨ Digits [c]) ∧ Digits ds

/-- an optional fraction: nothing, or `.` and digits -/
def FracText (s : Bytes) : Prop := s = [] ∨ ∃ ds, s = 46 :: ds ∧ Digits ds

/-- an optional exponent: nothing, or `e`/`E`, an optional sign, and digits -/
def ExpText (s : Bytes) : Prop :=
  s = [] ∨ ∃ e sg ds, s = e :: (sg ++ ds) ∧ (e = 101 ∨ e = 69) ∧ (sg = [] ∨ sg = [43] ∨ sg = [45])
    ∧ Digits ds

/-- `FloatText s`: an integer text followed by a fraction, an exponent, or both. -/
def FloatText (s : Bytes) : Prop :=
  ∃ i f x, s = i ++ f ++ x ∧ IntText i ∧ FracText f ∧ ExpText x ∧ (f ≠ [] ∨ x ≠ [])

/-- `Lexeme o a t v`: the bytes `a` spell the token `t`; for string and number tokens `v` is the
text the token carries. -/
inductive Lexeme (o : ROpts) : Bytes → Token → Option Bytes → Prop where
  | objectStart : Lexeme o [123] ⟨.objectStart, .none⟩ none
  | objectEnd : Lexeme o [125] ⟨.objectEnd, .none⟩ none
  | arrayStart : Lexeme o [91] ⟨.arrayStart, .none⟩ none
  | arrayEnd : Lexeme o [93] ⟨.arrayEnd, .none⟩ none
  | separator : Lexeme o [44] ⟨.separator, .none⟩ none
  | keySeparator : Lexeme o [58] ⟨.keySeparator, .none⟩ none
  | null : Lexeme o [110, 117, 108, 108] ⟨.null, .none⟩ none
  | true : Lexeme o [116, 114, 117, 101] ⟨.bool, .bool true⟩ none
  | false : Lexeme o [102, 97, 108, 115, 101] ⟨.bool, .bool false⟩ none
  | string (t v : Bytes) : StrBody o t v → Lexeme o ([34] ++ t ++ [34]) ⟨.string, .buffer⟩ (some v)
  | int (s : Bytes) : IntText s → Lexeme o s ⟨.int, .buffer⟩ (some s)
  | float (s : Bytes) : FloatText s → Lexeme o s ⟨.float, .buffer⟩ (some s)

/-- `NumText s`: an integer or floating point text -/
def NumText (s : Bytes) : Prop := IntText s ∨ FloatText s

/-- `Follows a t s`: the text `s` may come right after the lexeme `a` of the token `t`.  Only numbers
are delimited by what follows them: the next byte must not make the number longer. -/
def Follows (a : Bytes) (t : Token) (s : Bytes) : Prop :=
  t.type = .int ∨ t.type = .float → ∀ c, s.head? = some c → ¬ NumText (a ++ [c])

/-- `Trailing o s`: nothing but separators to the end, the last comment possibly unterminated. -/
def Trailing (o : ROpts) (s : Bytes) : Prop :=
  ∃ w, Sep o w ∧ (s = w ∨ (o.allowComments = true ∧ ∃ body, (10 : Byte) ∉ body ∧ s = w ++ [47, 47] ++ body))

/-- `Reads o s ts y`: the text `s` is the lexemes of the tokens `ts` in order, each with separators
before it, and then the text `y`. -/
inductive Reads (o : ROpts) : Bytes → List (Token × Option Bytes) → Bytes → Prop where
  | nil (y : Bytes) : Reads o y [] y
  | cons (w a s y : Bytes) (t : Token) (v : Option Bytes) (ts : List (Token × Option Bytes)) :
      Sep o w → Lexeme o a t v → Follows a t s → Reads o s ts y → Reads o (w ++ a ++ s) ((t, v) :: ts) y

/-- `Spells o s ts`: the whole text `s` is the lexemes of the tokens `ts`, with separators before each
of them and after the last. -/
def Spells (o : ROpts) (s : Bytes) (ts : List (Token × Option Bytes)) : Prop :=
  ∃ y, Reads o s ts y ∧ Trailing o y

end Reflect.Json

import Verif.Spec.JsonLex
/-
  JSON documents as trees, and the tokens a document consists of.
-/
namespace Reflect.Json

/-- a token together with the text it carries -/
abbrev Tok := Token × Option Bytes

/-- A JSON document: numbers are kept as text, strings as the bytes they mean, members in order. -/
inductive JTree where
  | null
  | bool (b : Bool)
  | int (s : Bytes)
  | float (s : Bytes)
  | str (s : Bytes)
  | arr (xs : List JTree)
  | obj (ms : List (Bytes × JTree))

namespace Tok
def lbrack : Tok := (⟨.arrayStart, .none⟩, none)
def rbrack : Tok := (⟨.arrayEnd, .none⟩, none)
def lbrace : Tok := (⟨.objectStart, .none⟩, none)
def rbrace : Tok := (⟨.objectEnd, .none⟩, none)
def comma : Tok := (⟨.separator, .none⟩, none)
def colon : Tok := (⟨.keySeparator, .none⟩, none)
def null : Tok := (⟨.null, .none⟩, none)
def bool (b : Bool) : Tok := (⟨.bool, .bool b⟩, none)
def int (s : Bytes) : Tok := (⟨.int, .buffer⟩, some s)
def float (s : Bytes) : Tok := (⟨.float, .buffer⟩, some s)
def str (s : Bytes) : Tok := (⟨.string, .buffer⟩, some s)
end Tok

/-- `commas xss`: the token lists `xss`, with commas between them. -/
def commas : List (List Tok) → List Tok
  | [] => []
  | [x] => x
  | x :: y :: l => x ++ Tok.comma :: commas (y :: l)

mutual
/-- the tokens of a document -/
def JTree.toks : JTree → List Tok
  | .null => [Tok.null]
  | .bool b => [Tok.bool b]
  | .int s => [Tok.int s]
  | .float s => [Tok.float s]
  | .str s => [Tok.str s]
  | .arr xs => Tok.lbrack :: (commas (JTree.elems xs) ++ [Tok.rbrack])
  | .obj ms => Tok.lbrace :: (commas (JTree.members ms) ++ [Tok.rbrace])
/-- the tokens of each element -/
def JTree.elems : List JTree → List (List Tok)
  | [] => []
  | x :: xs => x.toks :: JTree.elems xs
/-- the tokens of each member: key, colon, value -/
def JTree.members : List (Bytes × JTree) → List (List Tok)
  | [] => []
  | (k, x) :: ms => (Tok.str k :: Tok.colon :: x.toks) :: JTree.members ms
end

end Reflect.Json

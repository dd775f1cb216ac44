import Verif.Spec.JsonTree
/-
  Texts of arrays and objects that stop too early and are nevertheless accepted.
-/
namespace Reflect.Json

/-- in the text of a number, an `e` comes last if at all -/
def NoExp (k : Bytes) : Prop := ∀ c ∈ k.dropLast, c ≠ 101 ∧ c ≠ 69

/-- `Early o p s`: the text is the token `p` and nothing more, or nothing more than a number, without exponent,
that goes up to the last byte. -/
def Early (o : ROpts) (p : Tok) (s : Bytes) : Prop :=
  Spells o s [p] ∨ ∃ q k, (q = Tok.int k ∨ q = Tok.float k) ∧ NoExp k ∧ Reads o s [p, q] []

/-- `Cut o x s`: `x` is an empty array or object, and `s` stops too early behind the opening bracket. -/
def Cut (o : ROpts) (x : JTree) (s : Bytes) : Prop :=
  (x = .arr [] ∧ Early o Tok.lbrack s) ∨ (x = .obj [] ∧ Early o Tok.lbrace s)

end Reflect.Json

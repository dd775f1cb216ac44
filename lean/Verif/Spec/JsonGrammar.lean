import Verif.Spec.JsonTree
/-
  The JSON grammar (RFC 8259), on bytes.  Strings are left to a parameter: `Str m t` says that the text
  `t` between quotes stands for `m`.
-/
namespace Reflect.Json

/-- white space -/
def Ws (w : Bytes) : Prop := ∀ c ∈ w, c = 32 ∨ c = 9 ∨ c = 10 ∨ c = 13

/-- `int = [ "-" ] ( "0" / digit1-9 *DIGIT )` -/
def IntGram (s : Bytes) : Prop :=
  ∃ sg c ds, s = sg ++ c :: ds ∧ (sg = [] ∨ sg = [45]) ∧ Digits (c :: ds) ∧ (c = 48 → ds = [])

/-- `[ "." 1*DIGIT ]` -/
def FracGram (s : Bytes) : Prop := s = [] ∨ ∃ ds, s = 46 :: ds ∧ ds ≠ [] ∧ Digits ds

/-- `[ ("e" / "E") [ "-" / "+" ] 1*DIGIT ]` -/
def ExpGram (s : Bytes) : Prop :=
  s = [] ∨ ∃ e sg ds, s = e :: (sg ++ ds) ∧ (e = 101 ∨ e = 69) ∧ (sg = [] ∨ sg = [43] ∨ sg = [45]) ∧ ds ≠ [] ∧ Digits ds

/-- a number with a fraction or an exponent -/
def FloatGram (s : Bytes) : Prop :=
  ∃ i f x, s = i ++ f ++ x ∧ IntGram i ∧ FracGram f ∧ ExpGram x ∧ (f ≠ [] ∨ x ≠ [])

/-- the characters between the quotes of a string -/
inductive StrGram : Bytes → Prop where
  | nil : StrGram []
  | unescaped (c : Byte) (t : Bytes) : 0x20 ≤ c.toNat → c ≠ 34 → c ≠ 92 → StrGram t → StrGram (c :: t)
  | escape (c e : Byte) (t : Bytes) : (c, e) ∈ escapes → StrGram t → StrGram (92 :: c :: t)
  | unicode (a b c d : Byte) (i j k l : Nat) (t : Bytes) : IsHex a i → IsHex b j → IsHex c k → IsHex d l →
      StrGram t → StrGram (92 :: 117 :: a :: b :: c :: d :: t)

variable (Str : Bytes → Bytes → Prop)

mutual
/-- `value`, without the white space around it -/
inductive Gram : JTree → Bytes → Prop where
  | null : Gram .null [110, 117, 108, 108]
  | true : Gram (.bool true) [116, 114, 117, 101]
  | false : Gram (.bool false) [102, 97, 108, 115, 101]
  | int (s : Bytes) : IntGram s → Gram (.int s) s
  | float (s : Bytes) : FloatGram s → Gram (.float s) s
  | str (m t : Bytes) : Str m t → Gram (.str m) ([34] ++ t ++ [34])
  | arrNil (w : Bytes) : Ws w → Gram (.arr []) ([91] ++ w ++ [93])
  | arr (xs : List JTree) (s : Bytes) : Elems xs s → Gram (.arr xs) ([91] ++ s ++ [93])
  | objNil (w : Bytes) : Ws w → Gram (.obj []) ([123] ++ w ++ [125])
  | obj (ms : List (Bytes × JTree)) (s : Bytes) : Members ms s → Gram (.obj ms) ([123] ++ s ++ [125])
/-- `value *( value-separator value )` -/
inductive Elems : List JTree → Bytes → Prop where
  | one (x : JTree) (w s w' : Bytes) : Ws w → Gram x s → Ws w' → Elems [x] (w ++ s ++ w')
  | cons (x : JTree) (xs : List JTree) (w s w' s' : Bytes) : Ws w → Gram x s → Ws w' → Elems xs s' →
      Elems (x :: xs) (w ++ s ++ w' ++ [44] ++ s')
/-- `member *( value-separator member )` with `member = string name-separator value` -/
inductive Members : List (Bytes × JTree) → Bytes → Prop where
  | one (m : Bytes) (x : JTree) (w t w1 w2 s w' : Bytes) : Ws w → Str m t → Ws w1 → Ws w2 → Gram x s → Ws w' →
      Members [(m, x)] (w ++ ([34] ++ t ++ [34]) ++ w1 ++ [58] ++ w2 ++ s ++ w')
  | cons (m : Bytes) (x : JTree) (ms : List (Bytes × JTree)) (w t w1 w2 s w' s' : Bytes) : Ws w → Str m t → Ws w1 →
      Ws w2 → Gram x s → Ws w' → Members ms s' →
      Members ((m, x) :: ms) (w ++ ([34] ++ t ++ [34]) ++ w1 ++ [58] ++ w2 ++ s ++ w' ++ [44] ++ s')
end

/-- The text `s` is a JSON text of the document `x`: `ws value ws`. -/
def JsonText (x : JTree) (s : Bytes) : Prop := ∃ w t w', s = w ++ t ++ w' ∧ Ws w ∧ Ws w' ∧ Gram Str x t

end Reflect.Json

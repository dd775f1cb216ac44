import Verif.Model.Json.Writer
/-
  Configuration paths.

  Code modelled: src/utils/config/path.{h,cpp}, `Path` only (the accessors of values, path.cpp:148-195,
  call functions that no longer exist and are not modelled).  The library `reflect_config` is commented out of CMakeLists.txt
  (118-121), but the sources are there.

  * A path is its member `items`.
  * `char` is signed, as with the compilers the project is built with.
-/
namespace Reflect.Config
open Json (Byte Bytes)

/-- `Path`, path.h:18-49: the member `items` -/
abbrev Path := List Bytes

/-- The loop of `Path::parse`, path.cpp:25-35, on `path.substr(i)`: `path.find(sep, i) - i` is the length of
the longest prefix without the separator, whether one follows or not, and `i = j + 1` past the end of the
string ends the loop as well. -/
def parseLoop (sep : Byte) (rest : Bytes) (items : Path) : Res Path :=
  if _h : rest = [] then .ok items
  else
    let item := rest.takeWhile (· ≠ sep)
    if item = [] then .error .err
    else parseLoop sep (rest.drop (item.length + 1)) (items ++ [item])
termination_by rest.length
decreasing_by
  cases rest with
  | nil => exact absurd rfl _h
  | cons c r => simp only [List.length_drop, List.length_cons]; omega

/-- `Path(path, sep)`, path.cpp:53-63 -/
def Path.ofText (path : Bytes) (sep : Byte := 46) : Res Path := parseLoop sep path []

/-- `Path(prefix, path, sep)`, path.cpp:65-70 -/
def Path.append (pre : Path) (path : Bytes) (sep : Byte := 46) : Res Path := parseLoop sep path pre

/-- `Path(prefix, index)`, path.cpp:72-77 -/
def Path.at (pre : Path) (index : Nat) : Path := pre ++ [Json.decDigits index]

/-- the loop of `Path::toString`, path.cpp:44-47, from the item `i` on -/
def toTextLoop (sep : Byte) : Nat → List Bytes → Bytes → Bytes
  | _, [], path => path
  | i, item :: items, path => toTextLoop sep (i + 1) items ((if i ≠ 0 then path ++ [sep] else path) ++ item)

/-- `Path::toString`, path.cpp:38-50 -/
def Path.toText (p : Path) (sep : Byte := 46) : Bytes := toTextLoop sep 0 p []

/-- `std::isdigit(c)` of a `char`: undefined for a negative one other than `EOF` -/
def isDigit (c : Byte) : Res Bool :=
  if 0x80 ≤ c.toNat ∧ c ≠ 0xFF then .error .ub else .ok (decide (48 ≤ c.toNat ∧ c.toNat ≤ 57))

/-- the loop of `isIndex` and of `index`, path.cpp:85-88, 97-100 -/
def allDigits : Bytes → Res Bool
  | [] => .ok true
  | c :: s =>
    match isDigit c with
    | .error e => .error e
    | .ok false => .ok false
    | .ok true => allDigits s

/-- `Path::isIndex`, path.cpp:79-89 -/
def Path.isIndex (p : Path) (i : Nat) : Res Bool :=
  match p[i]? with
  | none => .error .ub
  | some item => allDigits item

/-- `std::stoull` of a string of digits: raises if there are none or the number is too large -/
def stoull (s : Bytes) : Res Nat :=
  if s = [] then .error .std
  else
    let n := s.foldl (fun a d => a * 10 + (d.toNat - 48)) 0
    if n < 2 ^ 64 then .ok n else .error .std

/-- `Path::index`, path.cpp:91-103 -/
def Path.index (p : Path) (i : Nat) : Res Nat :=
  match p[i]? with
  | none => .error .ub
  | some item =>
    match allDigits item with
    | .error e => .error e
    | .ok false => .error .err
    | .ok true => stoull item

/-- `Path::popFront`, path.cpp:105-114 -/
def Path.popFront (p : Path) : Res Path :=
  match p with
  | [] => .error .err
  | _ :: p => .ok p

/-- `Path::popBack`, path.cpp:116-125 -/
def Path.popBack (p : Path) : Res Path :=
  match p with
  | [] => .error .err
  | _ :: _ => .ok p.dropLast

/-- `std::string::compare`: the first different bytes, as unsigned numbers, decide, then the lengths -/
def compare : Bytes → Bytes → Int
  | [], [] => 0
  | [], _ :: _ => -1
  | _ :: _, [] => 1
  | a :: as, b :: bs => if a.toNat < b.toNat then -1 else if b.toNat < a.toNat then 1 else compare as bs

/-- the loop of `Path::operator<`, path.cpp:131-138, from the item `i` on; `ps`, `qs` are the items from
there on -/
def ltLoop (p q : Path) : Path → Path → Bool
  | a :: ps, b :: qs =>
    let res := compare a b
    if res = 0 then ltLoop p q ps qs else decide (res < 0)
  | _, _ => decide (p.length < q.length)

/-- `Path::operator<`, path.cpp:127-139 -/
def Path.lt (p q : Path) : Bool := ltLoop p q p q

end Reflect.Config

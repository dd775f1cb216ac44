import Verif.Model.Traits
import Verif.Model.Scope
/-
  Printing: `print` of arguments (src/argument.cpp:135-147), signatures (src/function.cpp:114-137), overload
  sets (src/overloads.cpp:71-84), traits (src/traits.cpp:46-58), fields (src/field.cpp:26-38), types
  (src/type.cpp:276-337) and scopes (src/scope.cpp:105-141).

  * The hash tables `traits_`, `fields_`, `fns_`, `functions_`, `types_` and `scopes_` are gone through in the
    order of the lists that model them; the order in C++ is that of the hash table.
  * `std::sort` on the fields is a stable sort here; C++ leaves the order of fields with one offset open.
  * The traits of scopes and of the overload sets of scopes are not modelled (as in Model/Scope): they print
    as if there were none.
-/
namespace Reflect

/-- `std::string(n, ' ')` -/
def spaces (n : Nat) : Name := List.replicate n ' '

/-- `Argument::print`, argument.cpp:135-147; `ids` gives `Type::id`. -/
def Arg.text (ids : Ty → Name) (a : Arg) : Name :=
  ids a.type ++ (if a.isConst then " const".toList else []) ++
    (if a.ref = .lvalue then "&".toList else []) ++ (if a.ref = .rvalue then "&&".toList else [])

/-- the loop of `signature`, function.cpp:131-133, from the second argument on -/
def restText (ids : Ty → Name) : List Arg → Name
  | [] => []
  | a :: as => ", ".toList ++ a.text ids ++ restText ids as

/-- the loop of `signature`, function.cpp:131-133 -/
def argsText (ids : Ty → Name) : List Arg → Name
  | [] => []
  | a :: as => a.text ids ++ restText ids as

/-- `signature(ret, args)`, function.cpp:125-137. -/
def sigText (ids : Ty → Name) (ret : Arg) (args : List Arg) : Name :=
  ret.text ids ++ "(".toList ++ argsText ids args ++ ")".toList

/-- `Traits::print`, traits.cpp:46-58. -/
def Traits.text (m : Traits) : Name :=
  "[ ".toList ++ m.names.flatMap (fun n => n ++ " ".toList) ++ "]".toList

/-- `Overloads::print`, overloads.cpp:71-84. -/
def overloadsText (ids : Ty → Name) (indent : Nat) (traits : Traits) (o : Overloads) : Name :=
  (if traits ≠ [] then spaces indent ++ traits.text ++ "\n".toList else []) ++
    o.flatMap fun f => spaces indent ++ sigText ids f.ret f.args ++ "\n".toList

/-- a digit as `std::hex` prints it -/
def hexChar (d : Nat) : Char := "0123456789abcdef".toList.getD d '?'

/-- a number as `std::hex` prints it -/
def hexText (n : Nat) : Name :=
  if h : n < 16 then [hexChar n] else hexText (n / 16) ++ [hexChar (n % 16)]
termination_by n
decreasing_by omega

/-- `Field::print`, field.cpp:26-38. -/
def fieldText (ids : Ty → Name) (name : Name) (f : FieldD) (traits : Traits) : Name :=
  "0x".toList ++ hexText f.offset ++ ": ".toList ++ ids f.arg.type ++ " ".toList ++ name ++
    (if traits ≠ [] then " ".toList ++ traits.text else [])

/-- `sortedFields`, type.cpp:276-291. -/
def sortedFields (m : Assoc Name FieldD) : List (Name × FieldD) :=
  List.mergeSort m fun a b => a.2.offset ≤ b.2.offset

/-- the lambda `sep`, type.cpp:309-313, given whether something was printed before; what it prints -/
def sepText (indent : Nat) (before next : Bool) : Name :=
  if next && before then spaces indent ++ "\n".toList else []

/-- `Type::print`, type.cpp:295-337. -/
def typeTextF (tbl : Ty → Noted) : (fuel : Nat) → Ty → (indent : Nat) → Res Name
  | 0, _, _ => .error .diverge
  | fuel + 1, t, indent =>
    let ids := fun u => (tbl u).d.id
    let d := (tbl t).d
    let pad0 := spaces indent
    let pad1 := spaces (indent + 4)
    let parent : Res Name := match d.parent with
      | none => .ok []
      | some p => match typeTextF tbl fuel p (indent + 4) with
        | .error x => .error x
        | .ok s => .ok (s ++ "\n".toList)
    match parent with
    | .error x => .error x
    | .ok parent =>
      let hasTraits := decide ((tbl t).own ≠ [])
      let before1 := d.parent.isSome
      let before2 := before1 || hasTraits
      let before3 := before2 || decide (d.fields ≠ [])
      .ok (pad0 ++ "type ".toList ++ d.id ++ "\n".toList ++ pad0 ++ "{\n".toList ++
        parent ++
        sepText (indent + 4) before1 hasTraits ++
        (if hasTraits then pad1 ++ (tbl t).own.text ++ "\n".toList else []) ++
        sepText (indent + 4) before2 (decide (d.fields ≠ [])) ++
        (sortedFields d.fields).flatMap (fun f =>
          pad1 ++ fieldText ids f.1 f.2 ((tbl t).fieldTraits f.1) ++ "\n".toList) ++
        sepText (indent + 4) before3 (decide (d.fns ≠ [])) ++
        d.fns.flatMap (fun f => pad1 ++ f.1 ++ ":\n".toList ++
          overloadsText ids (indent + 8) ((tbl t).fnTraits f.1) f.2) ++
        pad0 ++ "}".toList)

mutual
/-- `Scope::print`, scope.cpp:105-141. -/
def scopeText (ids : Ty → Name) : Scope.Tree Fn → (indent : Nat) → Name
  | .mk name types fns kids, indent =>
    spaces indent ++ "scope ".toList ++ name ++ "\n".toList ++ spaces indent ++ "{\n".toList ++
    fns.flatMap (fun f => spaces (indent + 4) ++ f.1 ++ ":\n".toList ++
      overloadsText ids (indent + 8) [] f.2) ++
    (if fns ≠ [] ∧ (types ≠ [] ∨ kids.keys ≠ []) then spaces indent ++ "\n".toList else []) ++
    types.flatMap (fun n => spaces (indent + 4) ++ "type ".toList ++ n ++ ";\n".toList) ++
    (if types ≠ [] ∧ kids.keys ≠ [] then spaces indent ++ "\n".toList else []) ++
    kidsText ids kids (indent + 4) ++
    spaces indent ++ "}\n".toList
/-- the loop over `scopes_`, scope.cpp:136-137 -/
def kidsText (ids : Ty → Name) : Scope.Kids Fn → (indent : Nat) → Name
  | .nil, _ => []
  | .cons _ t rest, indent => scopeText ids t indent ++ "\n".toList ++ kidsText ids rest indent
end

end Reflect

/-
  Shared vocabulary of the model.

  Strings.  C++ `std::string` values are modelled as `List Char`; no operation modelled over this
  type looks at anything but equality of characters and the four characters `<`, `>`, `:` and the
  separator, so the alphabet is irrelevant.  The JSON modules, which look at bytes, use their own
  byte strings.

  Errors.  `reflectError` (src/error.h:35-43) throws `reflect::Error` when the library is built with
  `REFLECT_USE_EXCEPTIONS` and prints and aborts otherwise.  The model keeps it as the outcome
  `Fault.err`: it carries the state at the point of the throw where the state matters.
  Undefined behaviour is the separate outcome `Fault.ub`, never a value.
-/
namespace Reflect

/-- A C++ `std::string` used as a name. -/
abbrev Name := List Char

/-- How a modelled operation can end abnormally. -/
inductive Fault where
  /-- `reflectError(...)`, src/error.h:35-43: a reported, catchable error -/
  | err
  /-- an exception thrown by the C++ standard library rather than by `reflectError` -/
  | std
  /-- C++ undefined behaviour: the model makes no claim past this point -/
  | ub
  /-- the C++ code would recurse or loop without end -/
  | diverge
  deriving DecidableEq, Repr

/-- Result of a modelled operation. -/
abbrev Res (α : Type) := Except Fault α

deriving instance DecidableEq for Except

end Reflect

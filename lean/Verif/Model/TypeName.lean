import Verif.Model.Basic
/-
  How a C++ type is turned into the name it is registered under: `CleanType` (clean_type.h),
  `typeId<T>()` (registry.h:73-78) and the `Reflect<T>::id()` of plain types (dsl/type.h, a string
  literal), pointers (types/pointer.h:28), one-parameter templates (dsl/template.h:37) and the two maps
  (types/std/map.h:70-73, 92-95).

  Arrays and function types (which `std::decay` turns into pointers) and `volatile` are not modelled.
-/
namespace Reflect.TypeName

/-- A C++ type as it may be written in `type<T>()`. -/
inductive CTy where
  /-- a plain type, reflected under the text `n` (`reflectType(n)`) -/
  | plain (n : Name)
  /-- `const T` -/
  | cst (t : CTy)
  /-- `T&` -/
  | lref (t : CTy)
  /-- `T&&` -/
  | rref (t : CTy)
  /-- `T*` -/
  | ptr (t : CTy)
  /-- `n<T>`: `std::vector`, `std::shared_ptr`, `std::unique_ptr` or a user's `reflectTemplate` -/
  | app1 (n : Name) (t : CTy)
  /-- `n<S,T>`: `std::map`, `std::unordered_map` -/
  | app2 (n : Name) (s t : CTy)
  deriving DecidableEq, Repr

/-- The number of type constructors (only used to show that names are finite). -/
def CTy.size : CTy → Nat
  | .plain _ => 1
  | .cst t | .lref t | .rref t | .ptr t | .app1 _ t => t.size + 1
  | .app2 _ s t => s.size + t.size + 1

/-- `std::decay` of an object or reference type, clean_type.h:20: the reference is removed, then the
    `const` under it. Types such as `T& &` or `T& const`, which C++ collapses when a template forms
    them, are collapsed here by removing every outermost `const` and reference. -/
def CTy.decay : CTy → CTy
  | .cst t | .lref t | .rref t => t.decay
  | t => t

/-- No `const` or reference is left outermost (what `Reflect` can be specialised on). -/
def CTy.topClean : CTy → Bool
  | .cst _ | .lref _ | .rref _ => false
  | _ => true

theorem CTy.size_decay (t : CTy) : t.decay.size ≤ t.size := by
  induction t <;> simp only [CTy.decay, CTy.size] <;> omega

/-- `CleanType<T>`, clean_type.h:17-28: the specialisation for `T*` (25-28) also cleans the pointee,
    and is only chosen when the pointer itself is neither `const` nor a reference. -/
def CTy.clean : CTy → CTy
  | .ptr t => .ptr (t.decay).clean
  | t => t.decay
  termination_by t => t.size
  decreasing_by simp only [CTy.size]; exact Nat.lt_succ_of_le (CTy.size_decay _)

theorem CTy.size_clean : (t : CTy) → t.clean.size ≤ t.size
  | .ptr t => by
      rw [CTy.clean]
      have h1 := CTy.size_decay t
      have h2 := CTy.size_clean t.decay
      simp only [CTy.size]; omega
  | .plain _ => by rw [CTy.clean]; exact CTy.size_decay _; simp
  | .cst t => by rw [CTy.clean]; exact CTy.size_decay _; simp
  | .lref t => by rw [CTy.clean]; exact CTy.size_decay _; simp
  | .rref t => by rw [CTy.clean]; exact CTy.size_decay _; simp
  | .app1 .. => by rw [CTy.clean]; exact CTy.size_decay _; simp
  | .app2 .. => by rw [CTy.clean]; exact CTy.size_decay _; simp
  termination_by t => t.size
  decreasing_by simp only [CTy.size]; omega

/-- `typeId<T>()`, registry.h:73-78: the type is cleaned and `Reflect<CleanT>::id()` is asked. There is
    no `Reflect` for a type with an outermost `const` or reference; cleaning never leaves one
    (`topClean_clean`), so the last case is never reached on a real type. -/
def typeId (t : CTy) : Name :=
  match h : t.clean with
  | .plain n => n
  | .ptr u => typeId u ++ ['*']
  | .app1 n u => n ++ ['<'] ++ typeId u ++ ['>']
  | .app2 n u v => n ++ ['<'] ++ typeId u ++ [','] ++ typeId v ++ ['>']
  | .cst _ | .lref _ | .rref _ => []
  termination_by t.size
  decreasing_by
    all_goals
      have hs := CTy.size_clean t
      rw [h] at hs
      simp only [CTy.size] at hs
      omega

end Reflect.TypeName

import Verif.Spec.JsonData
/-
  Which values come back when they are printed and read back: `Back` in general, into any given value, and
  `Plain`, `Fresh` for the ordinary case of plain data read into newly constructed values.
-/
namespace Reflect.Json

/-- `Survives wo ro s`: the string `s` can be written with the options `wo` so that reading with the options
`ro` gives it back: UTF-8 of the basic plane if characters are escaped, UTF-8 if they are copied and either
side validates, and any bytes otherwise. -/
def Survives (wo : WOpts) (ro : ROpts) (s : Bytes) : Prop :=
  (wo.escapeUnicode = true → ro.unescapeUnicode = true ∧ Text 0x10000 s) ∧
  (wo.escapeUnicode = false → wo.validateUnicode = true ∨ ro.validateUnicode = true → Text 0x200000 s)

/-- a pointer, or chain of pointers, to nothing -/
def JV.isNull : JV → Bool
  | .null => true
  | .ptr v => v.isNull
  | _ => false

/-- the entries of a map: in strictly increasing order of keys -/
def Ordered (m : List (Bytes × JV)) : Prop := (m.map (·.1)).Pairwise fun a b => bytesLt a b = true

mutual
/-- `Back env Q compact ty u v`: the value `v` of type `ty`, printed - in compact form or not - and read into
the value `u`, comes back.  `Q` says which strings do. -/
inductive Back (env : Env) (Q : Bytes → Prop) (compact : Bool) : TyId → JV → JV → Prop where
  | bool (ty : TyId) (d : TyD) (u : JV) (b : Bool) : env.Has ty d .bool → d.exact = true →
      Back env Q compact ty u (.bool b)
  | int (ty : TyId) (d : TyD) (u : JV) (i : Int) : env.Has ty d .int → d.exact = true →
      -(2 ^ 63 : Int) ≤ i → i < 2 ^ 63 → Back env Q compact ty u (.int i)
  /-- the text of a `double` must look like one, and stand for it -/
  | flt (ty : TyId) (d : TyD) (u : JV) (x : UInt64) : env.Has ty d .float → d.exact = true →
      FloatGram (env.fmtG x) → env.stod (env.fmtG x) = .ok x → Back env Q compact ty u (.flt x)
  | str (ty : TyId) (d : TyD) (u : JV) (s : Bytes) : env.Has ty d .string → d.exact = true → Q s →
      Back env Q compact ty u (.str s)
  | null (ty : TyId) (d : TyD) (t : TyId) (u : JV) : env.Has ty d (.ptr t) → Back env Q compact ty u .null
  | ptr (ty : TyId) (d : TyD) (t : TyId) (u v : JV) : env.Has ty d (.ptr t) → v.isNull = false →
      Back env Q compact t u v → Back env Q compact ty (.ptr u) (.ptr v)
  | ptrNew (ty : TyId) (d : TyD) (t : TyId) (e : TyD) (u v : JV) : env.Has ty d (.ptr t) → v.isNull = false →
      env.types[t]? = some e → e.alloc = true → e.make = some u → Back env Q compact t u v →
      Back env Q compact ty .null (.ptr v)
  | list (ty : TyId) (d : TyD) (t : TyId) (vs : List JV) : env.Has ty d (.list t) → BackElems env Q compact t vs →
      Back env Q compact ty (.list []) (.list vs)
  | map (ty : TyId) (d : TyD) (t : TyId) (m : List (Bytes × JV)) : env.Has ty d (.map t) → Ordered m →
      (d.order (m.map (·.1))).Perm (m.map (·.1)) → BackEntries env Q compact t m →
      Back env Q compact ty (.map []) (.map m)
  | obj (ty : TyId) (d : TyD) (us vs : List (Bytes × JV)) : env.Has ty d .object → d.keys.Nodup →
      (d.fields.map (·.name)).Nodup → (vs.map (·.1)).Nodup →
      (∀ f ∈ d.fields, f.key ≠ none → f.name ∈ vs.map (·.1)) → BackFields env Q compact ty d us vs →
      Back env Q compact ty (.obj us) (.obj vs)
/-- the elements of a list: each into a new element -/
inductive BackElems (env : Env) (Q : Bytes → Prop) (compact : Bool) : TyId → List JV → Prop where
  | nil (t : TyId) : BackElems env Q compact t []
  | cons (t : TyId) (e : TyD) (u v : JV) (vs : List JV) : env.types[t]? = some e → e.make = some u →
      Back env Q compact t u v → BackElems env Q compact t vs → BackElems env Q compact t (v :: vs)
/-- the entries of a map: each into a new value -/
inductive BackEntries (env : Env) (Q : Bytes → Prop) (compact : Bool) : TyId → List (Bytes × JV) → Prop where
  | nil (t : TyId) : BackEntries env Q compact t []
  | cons (t : TyId) (e : TyD) (u : JV) (k : Bytes) (v : JV) (m : List (Bytes × JV)) : env.types[t]? = some e →
      e.make = some u → Q k → Back env Q compact t u v → BackEntries env Q compact t m →
      BackEntries env Q compact t ((k, v) :: m)
/-- the fields of an object: each into the same field; those left out must be equal already -/
inductive BackFields (env : Env) (Q : Bytes → Prop) (compact : Bool) :
    TyId → TyD → List (Bytes × JV) → List (Bytes × JV) → Prop where
  | nil (ty : TyId) (d : TyD) : BackFields env Q compact ty d [] []
  /-- a member with no key is neither printed nor read -/
  | hidden (ty : TyId) (d : TyD) (n : Bytes) (v : JV) (us vs : List (Bytes × JV)) :
      (∀ f ∈ d.fields, f.name = n → f.key = none) → BackFields env Q compact ty d us vs →
      BackFields env Q compact ty d ((n, v) :: us) ((n, v) :: vs)
  /-- an empty member that is left out -/
  | omitted (ty : TyId) (d : TyD) (f : FieldD) (a : Bytes) (v : JV) (us vs : List (Bytes × JV)) :
      f ∈ d.fields → f.key = some a → (compact = true ∨ env.Skips ty d a) → Empty env f.type v →
      BackFields env Q compact ty d us vs →
      BackFields env Q compact ty d ((f.name, v) :: us) ((f.name, v) :: vs)
  | shown (ty : TyId) (d : TyD) (f : FieldD) (a : Bytes) (u v : JV) (us vs : List (Bytes × JV)) :
      f ∈ d.fields → f.key = some a → Q a → ¬ ((compact = true ∨ env.Skips ty d a) ∧ Empty env f.type v) →
      Back env Q compact f.type u v → BackFields env Q compact ty d us vs →
      BackFields env Q compact ty d ((f.name, u) :: us) ((f.name, v) :: vs)
end

/-! ### Plain data -/

mutual
/-- `Plain env Q ty v`: `v` is plain data of type `ty`: 64-bit integers, `double`s that look like `double`s,
strings with `Q`, pointers to nothing or to something that is not itself nothing, lists, ordered maps and
objects with all the fields of their type. -/
inductive Plain (env : Env) (Q : Bytes → Prop) : TyId → JV → Prop where
  | bool (ty : TyId) (d : TyD) (b : Bool) : env.Has ty d .bool → d.exact = true → Plain env Q ty (.bool b)
  | int (ty : TyId) (d : TyD) (i : Int) : env.Has ty d .int → d.exact = true → -(2 ^ 63 : Int) ≤ i → i < 2 ^ 63 →
      Plain env Q ty (.int i)
  | flt (ty : TyId) (d : TyD) (x : UInt64) : env.Has ty d .float → d.exact = true → FloatGram (env.fmtG x) →
      env.stod (env.fmtG x) = .ok x → Plain env Q ty (.flt x)
  | str (ty : TyId) (d : TyD) (s : Bytes) : env.Has ty d .string → d.exact = true → Q s → Plain env Q ty (.str s)
  | null (ty : TyId) (d : TyD) (t : TyId) : env.Has ty d (.ptr t) → Plain env Q ty .null
  | ptr (ty : TyId) (d : TyD) (t : TyId) (v : JV) : env.Has ty d (.ptr t) → v.isNull = false → Plain env Q t v →
      Plain env Q ty (.ptr v)
  | list (ty : TyId) (d : TyD) (t : TyId) (vs : List JV) : env.Has ty d (.list t) → PlainElems env Q t vs →
      Plain env Q ty (.list vs)
  | map (ty : TyId) (d : TyD) (t : TyId) (m : List (Bytes × JV)) : env.Has ty d (.map t) → Ordered m →
      PlainEntries env Q t m → Plain env Q ty (.map m)
  | obj (ty : TyId) (d : TyD) (vs : List (Bytes × JV)) : env.Has ty d .object → PlainFields env Q d.fields vs →
      Plain env Q ty (.obj vs)
inductive PlainElems (env : Env) (Q : Bytes → Prop) : TyId → List JV → Prop where
  | nil (t : TyId) : PlainElems env Q t []
  | cons (t : TyId) (v : JV) (vs : List JV) : Plain env Q t v → PlainElems env Q t vs → PlainElems env Q t (v :: vs)
inductive PlainEntries (env : Env) (Q : Bytes → Prop) : TyId → List (Bytes × JV) → Prop where
  | nil (t : TyId) : PlainEntries env Q t []
  | cons (t : TyId) (k : Bytes) (v : JV) (m : List (Bytes × JV)) : Q k → Plain env Q t v → PlainEntries env Q t m →
      PlainEntries env Q t ((k, v) :: m)
inductive PlainFields (env : Env) (Q : Bytes → Prop) : List FieldD → List (Bytes × JV) → Prop where
  | nil : PlainFields env Q [] []
  | cons (f : FieldD) (v : JV) (fs : List FieldD) (vs : List (Bytes × JV)) : Plain env Q f.type v →
      PlainFields env Q fs vs → PlainFields env Q (f :: fs) ((f.name, v) :: vs)
end

mutual
/-- `Fresh env ty u`: `u` is like a newly constructed value of type `ty`: containers are empty, pointers
null; numbers and strings are anything. -/
inductive Fresh (env : Env) : TyId → JV → Prop where
  | bool (ty : TyId) (d : TyD) (u : JV) : env.Has ty d .bool → Fresh env ty u
  | int (ty : TyId) (d : TyD) (u : JV) : env.Has ty d .int → Fresh env ty u
  | flt (ty : TyId) (d : TyD) (u : JV) : env.Has ty d .float → Fresh env ty u
  | str (ty : TyId) (d : TyD) (u : JV) : env.Has ty d .string → Fresh env ty u
  | ptr (ty : TyId) (d : TyD) (t : TyId) : env.Has ty d (.ptr t) → Fresh env ty .null
  | list (ty : TyId) (d : TyD) (t : TyId) : env.Has ty d (.list t) → Fresh env ty (.list [])
  | map (ty : TyId) (d : TyD) (t : TyId) : env.Has ty d (.map t) → Fresh env ty (.map [])
  | obj (ty : TyId) (d : TyD) (us : List (Bytes × JV)) : env.Has ty d .object → FreshFields env d.fields us →
      Fresh env ty (.obj us)
inductive FreshFields (env : Env) : List FieldD → List (Bytes × JV) → Prop where
  | nil : FreshFields env [] []
  | cons (f : FieldD) (u : JV) (fs : List FieldD) (us : List (Bytes × JV)) : Fresh env f.type u →
      FreshFields env fs us → FreshFields env (f :: fs) ((f.name, u) :: us)
end

/-- `env.Ordinary Q T`: the types `T` can be constructed and allocated, and are fresh when they are; no field
is skipped, empty or not; keys have `Q`; and maps list each of their keys once. -/
structure Env.Ordinary (env : Env) (Q : Bytes → Prop) (T : TyId → Prop) : Prop where
  make : ∀ (ty : TyId) (d : TyD), T ty → env.types[ty]? = some d → d.alloc = true ∧ ∃ u, d.make = some u ∧ Fresh env ty u
  fields : ∀ (ty : TyId) (d : TyD) (f : FieldD), T ty → env.Has ty d .object → f ∈ d.fields →
    ∃ a, f.key = some a ∧ Q a ∧ ¬ env.Skips ty d a
  order : ∀ (ty : TyId) (d : TyD) (t : TyId) (ks : List Bytes), T ty → env.Has ty d (.map t) → (d.order ks).Perm ks

end Reflect.Json

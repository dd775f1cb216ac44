import Verif.Model.StdTypes
/-
  What a user of the library finds in the types it describes: the signatures of their functions and
  their traits. Written as a table per type, from the documentation of the C++ classes.
-/
namespace Reflect.Spec

/-- result and parameters -/
abbrev Sig := Arg × List Arg

/-- the signatures found under a name, in order -/
def signatures (t : Noted) (n : Name) : List Sig :=
  ((t.d.fns.get n).getD []).map fun f => (f.ret, f.args)

/-- the rows of a table under a name -/
def rows (table : List (String × Sig)) (n : Name) : List Sig :=
  (table.filter fun r => r.1.toList = n).map (·.2)

/-- the constructors and assignments a class of the given capabilities has -/
def constructors (t : Ty) (c : Caps) : List Sig :=
  (if c.defaultConstructible && c.moveConstructible then [(t.val, [])] else []) ++
  (if c.copyConstructible && c.moveConstructible then [(t.val, [t.cref])] else []) ++
  (if c.moveConstructible then [(t.val, [t.rref])] else [])

def assignments (t : Ty) (c : Caps) : List Sig :=
  (if c.copyAssignable then [(t.lref, [t.lref, t.cref])] else []) ++
  (if c.moveAssignable then [(t.lref, [t.lref, t.rref])] else [])

/-- The type described is a root without fields; it has the constructors, assignments and further
    functions listed, and no other; and the traits listed with their values, and no other. -/
structure Offers (t' : Noted) (id : Name) (cons assign : List Sig) (table : List (String × Sig))
    (marks : List (String × Handle)) (ptr : Option (String × Ty)) : Prop where
  named : t'.d.id = id
  root : t'.d.parent = none ∧ t'.d.fields = []
  construct : signatures t' id = cons
  assigned : signatures t' "operator=".toList = assign
  functions : ∀ n, n ≠ id → n ≠ "operator=".toList → signatures t' n = rows table n
  noEmptySet : ∀ n, t'.d.fns.get n ≠ some []
  traits : ∀ n v, t'.own.get n = some v ↔ ∃ m ∈ marks, m.1.toList = n ∧ m.2 = v
  pointer : t'.d.ptr = ptr.map fun p => (p.1.toList, p.2)

def pointerTable (l : Lib) (t inner : Ty) (innerConst : Bool) : List (String × Sig) :=
  [("operator bool()", l.boolT.val, [t.val]),
   ("operator*", ⟨inner, .lvalue, innerConst⟩, [t.lref]),
   ("operator*", inner.cref, [t.cref])]

def vectorTable (l : Lib) (t elem : Ty) : List (String × Sig) :=
  [("size", l.sizeT.val, [t.cref]),
   ("clear", l.voidT.val, [t.lref]),
   ("resize", l.voidT.val, [t.lref, l.sizeT.val]),
   ("push_back", l.voidT.val, [t.lref, elem.cref]),
   ("push_back", l.voidT.val, [t.lref, elem.rref]),
   ("operator[]", elem.lref, [t.lref, l.sizeT.val]),
   ("at", elem.cref, [t.cref, l.sizeT.val])]

def mapTable (l : Lib) (t key elem keys : Ty) : List (String × Sig) :=
  [("size", l.sizeT.val, [t.cref]),
   ("count", l.sizeT.val, [t.cref, key.cref]),
   ("operator[]", elem.lref, [t.lref, key.cref]),
   ("at", elem.cref, [t.cref, key.cref]),
   ("keys", keys.val, [t.cref])]

def smartTable (l : Lib) (t inner raw : Ty) (innerConst : Bool) : List (String × Sig) :=
  [("get", raw.val, [t.cref]),
   ("operator bool()", l.boolT.val, [t.cref]),
   ("operator*", ⟨inner, .lvalue, innerConst⟩, [t.cref]),
   ("operator==", l.boolT.val, [t.cref, t.cref])]

def sharedTable (l : Lib) (t inner raw : Ty) (innerConst : Bool) : List (String × Sig) :=
  smartTable l t inner raw innerConst ++
  [("reset", l.voidT.val, [t.lref]),
   ("reset", l.voidT.val, [t.lref, raw.val])]

def uniqueTable (l : Lib) (t inner raw : Ty) (innerConst : Bool) : List (String × Sig) :=
  smartTable l t inner raw innerConst ++
  [("release", raw.val, [t.lref]),
   ("reset", l.voidT.val, [t.lref, raw.val]),
   ("reset", l.voidT.val, [t.lref])]

def numberTable (t raw sum : Ty) : List (String × Sig) :=
  [("new", raw.val, []), ("operator+", sum.val, [t.cref, t.val])]

/-- the flags given, whose value is void -/
def flags (l : Lib) (names : List String) : List (String × Handle) := names.map fun n => (n, l.void)

/-- the traits that carry a value of their own -/
def valued (l : Lib) (t : Ty) (names : List String) : List (String × Handle) :=
  names.map fun n => (n, l.traitVal t n.toList)

/-- exactly one of bool, integer (signed or unsigned) and float -/
def kindNames : NumKind → List String
  | .bool => ["bool"]
  | .integer true => ["integer", "signed"]
  | .integer false => ["integer", "unsigned"]
  | .float => ["float"]

def stringTable (l : Lib) (t raw : Ty) : List (String × Sig) :=
  [("new", raw.val, []), ("size", l.sizeT.val, [t.cref])]

def vectorTraits (l : Lib) (t : Ty) : List (String × Handle) :=
  valued l t ["sizeof"] ++ flags l ["list"] ++ valued l t ["valueType"]
def mapTraits (l : Lib) (t : Ty) : List (String × Handle) :=
  valued l t ["sizeof"] ++ flags l ["map"] ++ valued l t ["keyType", "valueType"]
def pointerTraits (l : Lib) (t : Ty) : List (String × Handle) :=
  valued l t ["sizeof"] ++ flags l ["primitive", "pointer"]
def smartTraits (l : Lib) (t : Ty) : List (String × Handle) :=
  flags l ["pointer"] ++ valued l t ["sizeof"] ++ flags l ["smartPtr"]
def numberTraits (l : Lib) (t : Ty) (k : NumKind) : List (String × Handle) :=
  valued l t ["sizeof", "min", "max"] ++ flags l (["primitive"] ++ kindNames k)
def stringTraits (l : Lib) (t : Ty) : List (String × Handle) :=
  valued l t ["sizeof"] ++ flags l ["string"]

end Reflect.Spec

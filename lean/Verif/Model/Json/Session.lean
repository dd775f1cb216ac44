import Verif.Model.Json.PlacePrint
/-
  `json::parse(text, object)` and `json::print(writer, object)`, the functions a program calls with an object of its own
  (src/utils/json/parser.tcc:131-150, printer.tcc:105-110), and sequences of such calls.

  `json::print(std::ostream&, object)` and `json::print(object)` (printer.tcc:112-125) are not here: the former calls
  `parse` on the output stream, which no overload of `parse` takes, so that neither can be instantiated.
-/
namespace Reflect.Json
variable (p : Prog)

/-- `json::parse(str, value)`, parser.tcc:145-150, with the overloads it calls, parser.tcc:131-143: a `Reader` with the default
options on the text, `cast<Value>` of the object (cast.h:110-119), parsing; the result is the error of the reader. -/
def parseText (N : Native) (smart : Ty → Bool) (other : Other) (env : Env) (F n : Nat) (c : PCache) (t : Ty) (a : Nat) (hp : Heap)
    (s : Bytes) : Res (Heap × Option JError) × PCache :=
  match p.wrap hp t.lref a with
  | .error e => (.error e, c)
  | .ok (h, v) =>
    let q := parseMem p N smart other env F n c v.arg.type v h (Reader.open ROpts.default s)
    (q.1.map fun x => (x.2.1, x.2.2.err), q.2)

/-- `json::print(writer, value)`, printer.tcc:105-110, on a new writer: `cast<Value>` of the object, which is const here,
printing; the result is the text and the error of the writer. -/
def printText (N : NativeW) (other : OtherW) (env : Env) (F E n : Nat) (c : WCache) (t : Ty) (a : Nat) (hp : Heap) (o : WOpts) :
    Res (Heap × Bytes × Option WMsg) × WCache :=
  match p.wrap hp t.cref a with
  | .error e => (.error e, c)
  | .ok (h, v) =>
    let q := printMem p N other env F E n c v.arg.type v h { opts := o }
    (q.1.map fun x => (x.1, x.2.out, x.2.err), q.2)

/-- what a program learns from a call -/
inductive Out where
  /-- `json::parse` returned: the error, if any -/
  | parsed (e : Option JError)
  /-- `json::print` returned: the text, and the error, if any -/
  | printed (text : Bytes) (e : Option WMsg)
  /-- the call did not return normally -/
  | raised (e : Fault)

/-- A call on one of `k` objects. The text to parse may depend on all that the program has learnt before. -/
inductive Call (k : Nat) where
  | parse (i : Fin k) (text : List Out → Bytes)
  | print (i : Fin k) (o : WOpts)

/-- A program that makes the calls `cs` on the objects `objs` (a type and an address each). It ends with the first exception. -/
def runMem {k : Nat} (N : NativeW) (smart : Ty → Bool) (other : Other) (otherW : OtherW) (env : Env) (F E n : Nat)
    (objs : Fin k → Ty × Nat) : List (Call k) → Heap → PCache → WCache → List Out → List Out × Option Heap
  | [], hp, _, _, outs => (outs, some hp)
  | .parse i f :: cs, hp, c, cw, outs =>
    let q := parseText p N.toNative smart other env F n c (objs i).1 (objs i).2 hp (f outs)
    match q.1 with
    | .error e => (outs ++ [.raised e], none)
    | .ok x => runMem N smart other otherW env F E n objs cs x.1 q.2 cw (outs ++ [.parsed x.2])
  | .print i o :: cs, hp, c, cw, outs =>
    let q := printText p N otherW env F E n cw (objs i).1 (objs i).2 hp o
    match q.1 with
    | .error e => (outs ++ [.raised e], none)
    | .ok x => runMem N smart other otherW env F E n objs cs x.1 c q.2 (outs ++ [.printed x.2.1 x.2.2])

end Reflect.Json

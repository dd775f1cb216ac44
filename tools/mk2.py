parts=open('/tmp/w/share_parts.txt').read().split('\n@@@\n')
pv,ie,pr=parts
pr=pr.replace("def printV (env : Env) (c : WCache) :","def printS (env : Env) (look : Nat × TyId × JV × Writer × Option Bytes → WCache) :")
pr=pr.replace("match Assoc.get c ty with","match Assoc.get (look (n, ty, v, w, none)) ty with").replace("printV env c","printS env look").replace("isEmptyV env c p.2 p.1","isEmptyS env (fun q => look (n, q.2, q.1, w, some a)) p.2 p.1")
assert 'env c' not in pr and 'env c' not in pv and 'env c' not in ie
out='''import Verif.Model.Json.Typed
/-
  `json::parse` and `json::print` called by several threads: parser.cpp:334-381, printer.cpp:341-389.

  `getParserLocked` (parser.cpp:363-369) holds a mutex for the whole look-up, including the making of every
  parser that is missing (unlike the registry, whose guard is a temporary, see `Model/RegistryConc.lean`). What
  it writes, it writes one parser object at a time; `parse` then uses the parser it was given, and those this
  refers to, without the mutex, while other threads may be inside `getParserLocked`.

  The machine below has one step per write, and a call in use may read each parser object as it was at any
  moment since the call got its parser, whatever the order of the reads. Simplifications: what `init` writes to a
  parser object at once (a key, then a field) is one write, as in `Model/Json/Typed.lean`; a call reads a parser
  object once each time it is entered; values and readers are the calling thread's own; a static local
  (`parsers`, `mutex`) is made before the threads start. Custom functions are functions of what they are handed.
-/
namespace Reflect.Json.Share

/-! ### what `getParser` and `getPrinter` write -/

/-- the writes, in order -/
abbrev Writes (σ : Type) := List (TyId × σ)

/-- the cache after these writes -/
def after {σ : Type} (c : Assoc TyId σ) (ws : Writes σ) : Assoc TyId σ :=
  ws.foldl (fun c w => Assoc.set c w.1 w.2) c

mutual
/-- `getParser`, parser.cpp:334-361: the outcome, and what it writes on finding the cache `c` -/
def getParserW (env : Env) : Nat → TyId → PCache → Res Unit × Writes PState
  | 0, _, _ => (.error .diverge, [])
  | n + 1, ty, c =>
    match Assoc.get c ty with
    | some _ => (.ok (), [])
    | none =>
      match env.types[ty]? with
      | none => (.error .ub, [])
      | some d =>
        let st : PState := { kind := d.parserKind }
        let c := Assoc.set c ty st
        match d.parserKind with
        | .bool | .float | .int | .string | .value => (.ok (), [(ty, st)])
        | .pointer => let p := initInnerP env n ty st d.pointee c; (p.1, (ty, st) :: p.2)
        | .map | .list => let p := initInnerP env n ty st d.valueType c; (p.1, (ty, st) :: p.2)
        | .custom =>
          match env.parseFn ty d.customParser with
          | none => (.error .err, [(ty, st)])
          | some _ => (.ok (), [(ty, st), (ty, { st with fn := some d.customParser })])
        | .object => let p := initFieldsP env n ty d.fields st c; (p.1, (ty, st) :: p.2)
/-- `inner.init(...)`, parser.cpp:40-44, 97, 141, 171 -/
def initInnerP (env : Env) : Nat → TyId → PState → Option TyId → PCache → Res Unit × Writes PState
  | _, _, _, none, _ => (.error .err, [])
  | n, ty, st, some t, c =>
    let p := getParserW env n t c
    match p.1 with
    | .error e => (.error e, p.2)
    | .ok _ => (.ok (), p.2 ++ [(ty, { st with inner := some t })])
/-- the loop of `ObjectParser::init`, parser.cpp:204-221 -/
def initFieldsP (env : Env) : Nat → TyId → List FieldD → PState → PCache → Res Unit × Writes PState
  | _, _, [], _, _ => (.ok (), [])
  | n, ty, f :: fs, st, c =>
    match f.alias? with
    | none => initFieldsP env n ty fs st c
    | some a =>
      if (Assoc.get st.keys a).isSome then (.error .err, [])
      else
        let st1 := { st with keys := Assoc.set st.keys a f.name }
        let p := getParserW env n f.type (Assoc.set c ty st1)
        match p.1 with
        | .error e => (.error e, (ty, st1) :: p.2)
        | .ok _ =>
          let st2 := { st1 with fields := Assoc.emplace st1.fields f.name f.type }
          let q := initFieldsP env n ty fs st2 (Assoc.set (after (Assoc.set c ty st1) p.2) ty st2)
          (q.1, (ty, st1) :: (p.2 ++ (ty, st2) :: q.2))
end

mutual
/-- `getPrinter`, printer.cpp:341-369 -/
def getPrinterP (env : Env) : Nat → TyId → WCache → Res Unit × Writes WState
  | 0, _, _ => (.error .diverge, [])
  | n + 1, ty, c =>
    match Assoc.get c ty with
    | some _ => (.ok (), [])
    | none =>
      match env.types[ty]? with
      | none => (.error .ub, [])
      | some d =>
        match d.printerKind with
        | none => (.error .err, [])
        | some k =>
          let st : WState := { kind := k }
          let c := Assoc.set c ty st
          match k with
          | .bool | .float | .int | .string => (.ok (), [(ty, st)])
          | .pointer => let p := initInnerWP env n ty st d.pointee c; (p.1, (ty, st) :: p.2)
          | .map | .list => let p := initInnerWP env n ty st d.valueType c; (p.1, (ty, st) :: p.2)
          | .custom =>
            match env.printFn ty d.customPrinter with
            | none => (.error .err, [(ty, st)])
            | some _ => (.ok (), [(ty, st), (ty, { st with fn := some d.customPrinter })])
          | .object => let p := initFieldsWP env n ty d.fields st c; (p.1, (ty, st) :: p.2)
/-- `inner.init(...)`, printer.cpp:79-82, 147, 178, 208 -/
def initInnerWP (env : Env) : Nat → TyId → WState → Option TyId → WCache → Res Unit × Writes WState
  | _, _, _, none, _ => (.error .err, [])
  | n, ty, st, some t, c =>
    let p := getPrinterP env n t c
    match p.1 with
    | .error e => (.error e, p.2)
    | .ok _ => (.ok (), p.2 ++ [(ty, { st with inner := some t })])
/-- the loop of `ObjectPrinter::init` and the final sort, printer.cpp:240-265 -/
def initFieldsWP (env : Env) : Nat → TyId → List FieldD → WState → WCache → Res Unit × Writes WState
  | _, ty, [], st, _ => (.ok (), [(ty, { st with sortedKeys := sortKeys st.sortedKeys })])
  | n, ty, f :: fs, st, c =>
    match f.alias? with
    | none => initFieldsWP env n ty fs st c
    | some a =>
      if (Assoc.get st.fields f.name).isSome then (.error .err, [])
      else
        let st1 := { st with keys := Assoc.set st.keys a f.name, sortedKeys := st.sortedKeys ++ [a],
                             skipEmpty := if env.skipEmpty ty f then a :: st.skipEmpty else st.skipEmpty }
        let p := getPrinterP env n f.type (Assoc.set c ty st1)
        match p.1 with
        | .error e => (.error e, (ty, st1) :: p.2)
        | .ok _ =>
          let st2 := { st1 with fields := Assoc.emplace st1.fields f.name f.type }
          let q := initFieldsWP env n ty fs st2 (Assoc.set (after (Assoc.set c ty st1) p.2) ty st2)
          (q.1, (ty, st1) :: (p.2 ++ (ty, st2) :: q.2))
end

/-! ### using parsers and printers while others are being made -/

/-- `parser->parse(reader, value)`, parser.cpp:56-327: `parseV` of `Model/Json/Typed.lean`, except that each
entry into a parser reads the parser object as `look` says it is at that moment -/
'''+pv+'''
/-- `printer->isEmpty(value)`: `isEmptyV` in the same way -/
'''+ie+'''
/-- `printer->print(writer, value)`, printer.cpp:93-334: `printV` in the same way -/
'''+pr+'''
/-! ### the machine -/

/-- What parsers and printers have in common: calls of type `κ` with results in `ρ`, objects of type `σ`. -/
structure Shop (σ κ ρ ι : Type) where
  /-- `value.type()` -/
  type : κ → TyId
  /-- `getParser` or `getPrinter`: the outcome and the writes -/
  make : κ → Assoc TyId σ → Res Unit × Writes σ
  /-- the use of the parser or printer; `ι` tells the reads apart -/
  use : κ → (ι → Assoc TyId σ) → Res ρ

/-- where a thread is in `json::parse` or `json::print` -/
inductive Phase (σ κ : Type) where
  /-- between two calls -/
  | idle
  /-- in `getParserLocked`, with these writes to come -/
  | making (k : κ) (ws : Writes σ) (end_ : Res Unit)
  /-- past it; the states of the parser objects since -/
  | using (k : κ) (seen : List (Assoc TyId σ))

structure Thread (σ κ ρ : Type) where
  phase : Phase σ κ
  /-- the calls still to make -/
  todo : List κ
  /-- the calls made, with their outcomes -/
  out : List (κ × Res ρ)

structure State (σ κ ρ : Type) where
  cache : Assoc TyId σ
  /-- the thread that holds the mutex -/
  lock : Option Nat
  threads : List (Thread σ κ ρ)
  /-- which thread got the mutex for which call, in order -/
  order : List (Nat × κ)

variable {σ κ ρ ι : Type}

/-- a write is seen by the threads that are using parsers -/
def Thread.see (c : Assoc TyId σ) (th : Thread σ κ ρ) : Thread σ κ ρ :=
  match th.phase with
  | .using k seen => { th with phase := .using k (seen ++ [c]) }
  | _ => th

/-- the thread `i` replaced -/
def State.put (s : State σ κ ρ) (i : Nat) (th : Thread σ κ ρ) : State σ κ ρ := { s with threads := s.threads.set i th }

/-- One step of thread `i`. -/
inductive Step (sh : Shop σ κ ρ ι) (i : Nat) (s : State σ κ ρ) : State σ κ ρ → Prop where
  /-- `std::lock_guard<std::mutex> guard(mutex)`, parser.cpp:366 -/
  | acquire (th : Thread σ κ ρ) (k : κ) (ks : List κ) (h : s.threads[i]? = some th) (hp : th.phase = .idle)
      (ht : th.todo = k :: ks) (hl : s.lock = none) :
      Step sh i s { (s.put i { th with phase := .making k (sh.make k s.cache).2 (sh.make k s.cache).1, todo := ks }) with
        lock := some i, order := s.order ++ [(i, k)] }
  /-- a write of `getParser` -/
  | write (th : Thread σ κ ρ) (k : κ) (w : TyId × σ) (ws : Writes σ) (e : Res Unit) (h : s.threads[i]? = some th)
      (hp : th.phase = .making k (w :: ws) e) :
      Step sh i s { s with
        cache := Assoc.set s.cache w.1 w.2
        threads := (s.threads.map (Thread.see (Assoc.set s.cache w.1 w.2))).set i { th with phase := .making k ws e } }
  /-- `getParser` raised: the guard's destructor releases the mutex -/
  | raise (th : Thread σ κ ρ) (k : κ) (e : Fault) (h : s.threads[i]? = some th) (hp : th.phase = .making k [] (.error e)) :
      Step sh i s { (s.put i { th with phase := .idle, out := th.out ++ [(k, .error e)] }) with lock := none }
  /-- `getParserLocked` returns -/
  | release (th : Thread σ κ ρ) (k : κ) (h : s.threads[i]? = some th) (hp : th.phase = .making k [] (.ok ())) :
      Step sh i s { (s.put i { th with phase := .using k [s.cache] }) with lock := none }
  /-- the parser has been used: each read saw one of the states there have been -/
  | finish (th : Thread σ κ ρ) (k : κ) (seen : List (Assoc TyId σ)) (look : ι → Assoc TyId σ) (h : s.threads[i]? = some th)
      (hp : th.phase = .using k seen) (hlook : ∀ x, look x ∈ seen) :
      Step sh i s (s.put i { th with phase := .idle, out := th.out ++ [(k, sh.use k look)] })

/-- threads that have not started, each with the calls it will make -/
def start (c : Assoc TyId σ) (works : List (List κ)) : State σ κ ρ :=
  { cache := c, lock := none, threads := works.map fun ks => { phase := .idle, todo := ks, out := [] }, order := [] }

/-- the states that schedules lead to -/
inductive Run (sh : Shop σ κ ρ ι) (s : State σ κ ρ) : State σ κ ρ → Prop where
  | refl : Run sh s s
  | step {a b : State σ κ ρ} (i : Nat) (h : Run sh s a) (h2 : Step sh i a b) : Run sh s b

/-- `json::parse(reader, value)`: the type, the value and the reader -/
def parsers (env : Env) (n : Nat) : Shop PState (TyId × JV × Reader) (JV × Reader) (Nat × TyId × JV × Reader) where
  type k := k.1
  make k c := getParserW env n k.1 c
  use k look := parseS env look n k.1 k.2.1 k.2.2

/-- `json::print(writer, value)` -/
def printers (env : Env) (n : Nat) : Shop WState (TyId × JV × Writer) Writer (Nat × TyId × JV × Writer × Option Bytes) where
  type k := k.1
  make k c := getPrinterP env n k.1 c
  use k look := printS env look n k.1 k.2.1 k.2.2

end Reflect.Json.Share
'''
open('/verif/lean/Verif/Model/Json/Share.lean','w').write(out)

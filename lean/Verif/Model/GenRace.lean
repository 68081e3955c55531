import Verif.Model.OGen

/-!
# Several generations of Go types at once

`codegen.Generate`, which `GenerateTypesOpenAPI` calls, keeps its options, the specification and
the mapping of imports in variables of the package, and writes into a map of the package.  Files
are in `internal/deepmap/oapi-codegen/pkg/codegen`.

Every read and write of such a variable is one step, and steps of calls on different goroutines
may follow each other in any order.  (Reads and writes of variables are atomic here, which Go does
not promise.)  For the map, this is how Go's runtime finds concurrent writes: a write sets a flag
at its beginning and clears it at its end; both fail, as reads do, if the flag is not as it
should be.
-/

namespace Thema.GenRace

/-- The parts of `Configuration` that are read: the options for compatibility, imports to be
added, and the name of client types. -/
structure Conf where
  compat : Nat
  imports : List Str
  client : Str

/-- The schemas of the specification, each with the Go name given by an extension, if any. -/
abbrev Spec := List (Str × Option Str)

/-- The variables of the package: `globalState` (`codegen.go:37-43`), `importMapping`
(`codegen.go:69`), and the flag of the map `TemplateFunctions`. -/
structure Glob where
  conf : Conf
  spec : Spec
  mapping : List Str
  writing : Bool

/-- Accesses to the variables of the package. -/
inductive Op
  | setConf
  | setSpec
  | setMapping
  | testClient
  | setClient
  | mapBegin
  | mapEnd
  | mapNext
  | compat
  | lookup (name : Str)
  | mapping
  | imports
  deriving DecidableEq

/-- What a call reads. -/
inductive Obs
  | compat (c : Nat)
  | name (n : Str)
  | mapping (m : List Str)
  | imports (l : List Str)
  deriving DecidableEq

/-- The arguments of a call; `mapping` is the result of `constructImportMapping`; `reads` are the
accesses while types are generated, `mapping` the accesses at the end. -/
structure Call where
  conf : Conf
  spec : Spec
  mapping : List Str
  reads : List Op

/-- Reads that happen while types are generated and imports are written. -/
def Op.isRead : Op → Bool
  | .compat | .lookup _ | .mapping | .imports => true
  | _ => false

/-- `codegen.go:102-122`: `globalState`, `importMapping`, the name of client types, the
assignment to `TemplateFunctions["opts"]`, and `Funcs`, which ranges over the map (of which the
number of entries is a parameter). -/
def prologue (entries : Nat) : List Op :=
  [.setConf, .setSpec, .setMapping, .testClient, .setClient, .mapBegin, .mapEnd] ++
    List.replicate (entries + 1) .mapNext

/-- `codegen.go:100-342`, `Generate`. -/
def Call.ops (entries : Nat) (c : Call) : List Op :=
  prologue entries ++ c.reads.filter Op.isRead

/-- A call that is going on; `flag` is the result of its last test. -/
structure Thread where
  call : Call
  todo : List Op
  flag : Bool
  seen : List Obs

/-- `utils.go:337-349,825-846` and `renameSchema`: the Go name for a reference. -/
def goName (typeName : Str → Str) (spec : Spec) (name : Str) : Str :=
  match spec.find? fun e => e.1 == name with
  | some (_, some n) => n
  | _ => typeName name

/-- `defaultClientTypeName`. -/
def defaultClient : Str := "Client".toList

/-- One access; `none` if Go ends the program. -/
def exec (typeName : Str → Str) (g : Glob) (t : Thread) : Op → Option (Glob × Thread)
  | .setConf => some ({ g with conf := t.call.conf }, t)
  | .setSpec => some ({ g with spec := t.call.spec }, t)
  | .setMapping => some ({ g with mapping := t.call.mapping }, t)
  | .testClient => some (g, { t with flag := g.conf.client.isEmpty })
  | .setClient =>
    some (if t.flag then { g with conf := { g.conf with client := defaultClient } } else g, t)
  | .mapBegin => if g.writing then none else some ({ g with writing := true }, t)
  | .mapEnd => if g.writing then some ({ g with writing := false }, t) else none
  | .mapNext => if g.writing then none else some (g, t)
  | .compat => some (g, { t with seen := t.seen ++ [.compat g.conf.compat] })
  | .lookup n => some (g, { t with seen := t.seen ++ [.name (goName typeName g.spec n)] })
  | .mapping => some (g, { t with seen := t.seen ++ [.mapping g.mapping] })
  | .imports => some (g, { t with seen := t.seen ++ [.imports g.conf.imports] })

/-- All calls, and whether the program still runs. -/
structure State where
  glob : Glob
  threads : List Thread
  alive : Bool

/-- The next access of call number `i`. -/
def stepAt (typeName : Str → Str) (s : State) (i : Nat) : State :=
  if s.alive then
    match s.threads[i]? with
    | none => s
    | some t =>
      match t.todo with
      | [] => s
      | op :: rest =>
        match exec typeName s.glob { t with todo := rest } op with
        | none => { s with alive := false }
        | some (g, t') => { s with glob := g, threads := s.threads.set i t' }
  else s

/-- A schedule: whose turn it is. -/
def run (typeName : Str → Str) : State → List Nat → State
  | s, [] => s
  | s, i :: is => run typeName (stepAt typeName s i) is

/-- Calls that have not begun. -/
def start (entries : Nat) (g : Glob) (calls : List Call) : State :=
  ⟨g, calls.map fun c => ⟨c, c.ops entries, false, []⟩, true⟩

end Thema.GenRace

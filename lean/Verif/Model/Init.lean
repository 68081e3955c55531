import Verif.Model.Lit
import Verif.Model.CliData

/-!
# The commands `thema lineage init ...`

`encoding/cue/encode.go:22-50` and `102-118` (`NewLineage` and its template), and
`cmd/thema/lineage_init.go`.

CUE, its parsers and printers and its converters from JSON Schema and OpenAPI are external.
-/

namespace Thema.Init

/-! ### `NewLineage` -/

/-- The lines of the template up to the name. -/
def beforeName (pkg : Str) : Str :=
  (if pkg ≠ [] then "package ".toList ++ pkg ++ ['\n'] else []) ++
    "import \"github.com/grafana/thema\"\n\nthema.#Lineage\nname: ".toList

/-- The lines after the name, up to the schema. -/
def afterName : Str :=
  "\nschemas: [\n    {\n        version: [0, 0]\n        schema: {\n            ".toList

/-- The lines after the schema. -/
def afterSchema : Str := "\n        }\n    }\n]\n".toList

/-- `encode.go:102-118`, `emptyLineage`, executed (`text/template` does not escape). -/
def lineageText (name pkg sch : Str) : Str :=
  beforeName pkg ++ Lit.inQuotes name ++ afterName ++ sch ++ afterSchema

/-- The encoding of a file, as far as it matters. -/
inductive Enc
  | yaml | json | other
  deriving DecidableEq

/-- What is left open. -/
structure Ext (F : Type) where
  /-- `parser.ParseFile`, then `FmtNode` of the file. -/
  print : Str → Option Str
  /-- `ast.IsValidIdent`. -/
  validIdent : Str → Bool
  /-- The text of the schema of `init empty`. -/
  emptySch : Str
  /-- `lineage_init.go:204-233`: a JSON Schema is compiled, converted from `srcpath` on,
  evaluated and printed. -/
  jsonSchema : Bytes → Str → Option Str
  /-- `binsts[0].OrphanedFiles` of what `load.Instances` returns for arguments and standard
  input, by their encodings; `none` is a nil pointer. -/
  orphaned : List Str → Bytes → List (Option Enc)
  /-- `yaml.Extract`. -/
  yaml : Bytes → Option F
  /-- `json.Extract`. -/
  json : Bytes → Option F
  /-- `lineage_init.go:302-345`: an OpenAPI document is compiled and converted, `info` is
  removed, `srcpath` looked up, and the result printed. -/
  openAPI : F → Str → Option Str

variable {F : Type}

/-- `encode.go:22-50`, `NewLineage`, given the text of the schema, and `FmtNode` of the file
that it returns (`lineage_init.go:186-192`, `241-247`, `355-361`; `--cue-path` does not
exist, so that `toSubpath` changes nothing). -/
def newLineage (X : Ext F) (sch name pkg : Str) : Option Str :=
  X.print (lineageText name pkg sch)

/-! ### The commands -/

/-- The flags (`lineage_init.go:35-53`). -/
structure Flags where
  name : Str := []
  pkgname : Str := []
  nopkg : Bool := false
  srcpath : Str := []

/-- The subcommands. -/
inductive Sub
  | empty | openapi | jsonschema
  deriving DecidableEq

/-- How a command ends: it prints something and exits with 0; it prints an error and exits
with 1; or it panics. -/
inductive Out
  | printed (text : Str)
  | failed
  | panicked (k : PanicKind)
  deriving DecidableEq

/-- `lineage_init.go:122-140`, `processPackageArgs`: the package name, `none` for an error. -/
def processPackageArgs (X : Ext F) (f : Flags) : Option Str :=
  if f.name = [] then none
  else if f.nopkg then (if f.pkgname ≠ [] then none else some f.pkgname)
  else
    let p := if f.pkgname = [] then f.name else f.pkgname
    if X.validIdent p then some p else none

/-- `lineage_init.go:253-288`, `inputToFile`.  The result `none` is a nil file without an
error: in the branch for JSON, `err` is a new variable. -/
def inputToFile (X : Ext F) (input : Bytes) (args : List Str) : Res (Option F) :=
  match X.orphaned (if args = [] then [['-']] else args) input with
  | [] => .panic .indexOutOfRange
  | none :: _ => .err ⟨[]⟩
  | some e :: _ =>
    match e with
    | .yaml =>
      match X.yaml input with
      | some f => .ok (some f)
      | none => .err ⟨[]⟩
    | .json => .ok (X.json input)
    | .other => .err ⟨[]⟩

/-- Printing a lineage. -/
def finish (X : Ext F) (name pkg : Str) (sch : Option Str) : Out :=
  match sch with
  | none => .failed
  | some s =>
    match newLineage X s name pkg with
    | some t => .printed t
    | none => .failed

/-- `lineage_init.go:294-362`, `runOpenAPI`.  `CompileFile` of a nil file panics. -/
def runOpenAPI (X : Ext F) (f : Flags) (input : Bytes) (args : List Str) : Out :=
  match inputToFile X input args with
  | .ok (some file) => finish X f.name f.pkgname (X.openAPI file f.srcpath)
  | .ok none => .panicked .nilDeref
  | .err _ => .failed
  | .panic k => .panicked k
  | .fuel => .failed

/-- `lineage_init.go:34-56` and `95-119`: a subcommand.  The number of arguments is checked
first (`Args`), then its own `PreRunE` runs. -/
def run (X : Ext F) (stdin : Cli.Stdin) (fs : Str → Cli.FileState) (sub : Sub) (f : Flags)
    (args : List Str) : Out :=
  match sub with
  | .empty =>
    if args.length > 0 then .failed
    else
      match processPackageArgs X f with
      | none => .failed
      | some p => finish X f.name p (some X.emptySch)
  | .openapi =>
    if args.length > 1 then .failed
    else
      match Cli.pathOrStdin stdin fs args with
      | .error _ => .failed
      | .ok b => runOpenAPI X f b args
  | .jsonschema =>
    if args.length > 1 then .failed
    else
      match Cli.pathOrStdin stdin fs args with
      | .error _ => .failed
      | .ok b => finish X f.name f.pkgname (X.jsonSchema b f.srcpath)

end Thema.Init

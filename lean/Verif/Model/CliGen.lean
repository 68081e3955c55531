import Verif.Model.CliLoad
import Verif.Model.Printf

/-!
# The commands `thema lineage gen ...`

`cmd/thema/lineage_subgen.go:25-138` (flags and dispatch), `166-273` (documents and Go
types), `300-382` (bindings).
-/

namespace Thema.Cli

/-! ### Flags -/

/-- The variables that the flags of `gen` are bound to (fields of `genCommand` and of
its `lineageLoadArgs`). -/
inductive GVar
  | verstr | format | pkgname | noembed | nofsfunc | stdout | quiet | bindtype | suffix | private_
  deriving DecidableEq, Repr

/-- A subcommand of `gen`. -/
inductive GCmd
  | openapi | jsonschema | gotypes | gobindings
  deriving DecidableEq, Repr

/-- A flag: the command it is for, its name, its variable, its default (as shown by
`--help`). -/
structure Reg where
  cmd : GCmd
  flag : Str
  var : GVar
  dflt : Str
  deriving DecidableEq, Repr

/-- The value of a boolean flag that is not set. -/
def off : Str := "false".toList
/-- The value of a boolean flag that is set. -/
def on : Str := "true".toList

/-- `lineage_subgen.go:62-97`: the flags, in the order in which they are registered. -/
def genRegs : List Reg :=
  [⟨.openapi, "version".toList, .verstr, []⟩,
   ⟨.openapi, "format".toList, .format, "yaml".toList⟩,
   ⟨.jsonschema, "version".toList, .verstr, []⟩,
   ⟨.jsonschema, "format".toList, .format, "json".toList⟩,
   ⟨.gotypes, "version".toList, .verstr, []⟩,
   ⟨.gotypes, "pkgname".toList, .pkgname, []⟩,
   ⟨.gotypes, "stdout".toList, .noembed, off⟩,
   ⟨.gotypes, "quiet".toList, .quiet, off⟩,
   ⟨.gobindings, "bind-type".toList, .bindtype, []⟩,
   ⟨.gobindings, "version".toList, .verstr, []⟩,
   ⟨.gobindings, "pkgname".toList, .pkgname, []⟩,
   ⟨.gobindings, "suffix".toList, .suffix, off⟩,
   ⟨.gobindings, "private".toList, .private_, off⟩,
   ⟨.gobindings, "no-embed".toList, .noembed, off⟩,
   ⟨.gobindings, "no-fs-func".toList, .nofsfunc, off⟩,
   ⟨.gobindings, "stdout".toList, .stdout, off⟩,
   ⟨.gobindings, "quiet".toList, .quiet, off⟩]

/-- The variables. -/
abbrev Vars := GVar → Str

/-- Set a variable. -/
def Vars.set (e : Vars) (v : GVar) (x : Str) : Vars := fun w => if w = v then x else e w

/-- pflag's `StringVarP` and `BoolVarP` write the default to the variable when the flag is
registered (`newStringValue`, `newBoolValue`). -/
def register (regs : List Reg) (e : Vars) : Vars :=
  regs.foldl (fun e r => e.set r.var r.dflt) e

/-- `strconv.ParseBool`, used by pflag's `boolValue.Set`. -/
def parseBool (x : Str) : Option Bool :=
  if x ∈ ["1", "t", "T", "TRUE", "true", "True"].map String.toList then some true
  else if x ∈ ["0", "f", "F", "FALSE", "false", "False"].map String.toList then some false
  else none

/-- The value of a flag from its text, `none` if it is refused (pflag's `stringValue.Set` and
`boolValue.Set`).  The flags with the default `false` are those registered by `BoolVar` and
`BoolVarP`. -/
def Reg.parse (r : Reg) (x : Str) : Option Str :=
  if r.dflt = off then (parseBool x).map fun b => if b then on else off else some x

/-- The flags of a command line are looked up among those of the command that runs; an
unknown flag and a value that cannot be parsed are errors (`none`).  (A boolean flag
without a value has the value `true`; the flags `-l` and `-p` of all subcommands are left
out.) -/
def setFlags (regs : List Reg) (cmd : GCmd) : List (Str × Str) → Vars → Option Vars
  | [], e => some e
  | (f, x) :: rest, e =>
    match regs.find? fun r => decide (r.cmd = cmd) && decide (r.flag = f) with
    | none => none
    | some r =>
      match r.parse x with
      | none => none
      | some y => setFlags regs cmd rest (e.set r.var y)

/-- The variables when the command runs. -/
def genVars (cmd : GCmd) (given : List (Str × Str)) : Option Vars :=
  setFlags genRegs cmd given (register genRegs fun _ => [])

/-! ### What a command does -/

/-- The effects of a command: what it writes to standard output and standard error, the
files it writes, and its exit status. -/
structure Effect where
  stdout : Str
  stderr : Str
  files : List (Str × Str)
  status : Nat
  deriving DecidableEq, Repr

/-- `lineage_subgen.go:134-137`: a command that returned an error.  (The line feed after the
message is left out.) -/
def failWith (msg : Str) : Effect := ⟨[], msg, [], 1⟩

/-- An error, by its text. -/
abbrev Errs (α : Type) := Except Str α

/-- A generated document (`*ast.File`) and what becomes of it: the result of
`MarshalJSON` (`json`, `none` for nil bytes) and its error, `json.Indent`, and
`yaml.Marshal`. -/
structure Doc where
  json : Option Str
  jsonErr : Option Str
  indent : Str → Errs Str
  yaml : Errs Str

/-- `lineage_subgen.go:174-186` and `212-224`: the text and the error, and what is written
to standard error on the way; of that message only the first words and the format stand here,
without quotes. -/
def renderDoc (format : Str) (d : Doc) : Errs Str × Str :=
  if format = "json".toList then
    (match d.json with
      | some b => d.indent b
      | none =>
        match d.jsonErr with
        | some e => .error e
        | none => .ok [], [])
  else if format = "yaml".toList ∨ format = "yml".toList then (d.yaml, [])
  else (.ok [], "unrecognized output format ".toList ++ format)

/-- `lineage_subgen.go:167-192` `runOpenAPI` and `205-230` `runJSONSchema`; `d` is what
`GenerateSchema` returns.  The text is written by `fmt.Fprintf(cmd.OutOrStdout(), str)`. -/
def runDoc (format : Str) (d : Errs Doc) : Effect :=
  match d with
  | .error e => failWith e
  | .ok d =>
    match renderDoc format d with
    | (.error e, w) => ⟨[], w ++ e, [], 1⟩
    | (.ok str, w) => ⟨Printf.fprintf str, w, [], 0⟩

/-- `lineage_subgen.go:467-480`, `goheader` and, with the name of the source,
`goheaderp`. -/
def goheader : Str :=
  "// THIS FILE IS GENERATED. EDITING IS FUTILE.\n//\n// Generated by \"thema lineage gen\"\n\n".toList

/-- `fmt.Sprintf(goheaderp, epath)`. -/
def goheaderp (epath : Str) : Str :=
  "// THIS FILE IS GENERATED. EDITING IS FUTILE.\n//\n// Generated by \"thema lineage gen\" from lineage defined in ".toList
    ++ epath ++ "\n\n".toList

/-- What a command of `gen` is run on: the directory of the lineage, the name of its file
(`*.cue` for a directory, `lineage_subgen.go:103-117`), the name of the lineage and the same
in lower case (`strings.ToLower`); the error of `findModRoot` and of `os.WriteFile`, if
they fail. -/
structure GenEnv where
  dir : Str
  epath : Str
  name : Str
  lname : Str
  rootErr : Option Str := none
  writeErr : Option Str := none

/-- `filepath.Join` of an absolute directory and the name of a generated file. -/
def genFile (E : GenEnv) (suffix : Str) : Str := E.dir ++ '/' :: (E.lname ++ suffix)

/-- `lineage_subgen.go:248-273`, `runGoTypes`; `code` is what `GenerateTypesOpenAPI`
returns. -/
def runGoTypes (E : GenEnv) (vars : Vars) (code : Errs Str) : Effect :=
  let header := if vars .stdout = on then goheader else Printf.fprintf (goheaderp E.epath)
  match code with
  | .error e => failWith e
  | .ok b =>
    if vars .stdout = on then ⟨header ++ b, [], [], 0⟩
    else
      match E.writeErr with
      | some e => failWith e
      | none => ⟨[], [], [(genFile E "_types_gen.go".toList, header ++ b)], 0⟩

/-- `lineage_subgen.go:306-382`, `runGoBindings`; `code` is what `GenerateLineageBinding`
returns.  (Its configuration is `GoGen.cliConfig`.  A file that could not be written is
counted as not written.) -/
def runGoBindings (E : GenEnv) (vars : Vars) (code : Errs Str) : Effect :=
  match if vars .stdout = on then none else E.rootErr with
  | some e => failWith e
  | none =>
    match code with
    | .error e => failWith e
    | .ok b =>
      if vars .stdout = on then ⟨goheader ++ b, [], [], 0⟩
      else
        let path := genFile E "_bindings_gen.go".toList
        match E.writeErr with
        | some e => failWith e
        | none =>
          ⟨if vars .quiet = on then []
            else "generated go bindings for ".toList ++ E.name ++ " at ".toList ++ path ++ ['\n'], [],
            [(path, Printf.fprintf (goheaderp E.epath) ++ b)], 0⟩

/-- `lineage_subgen.go:119-132`: the subcommand is selected by name. -/
def dispatch (E : GenEnv) (cmd : GCmd) (vars : Vars) (doc : Errs Doc) (code : Errs Str) : Effect :=
  match cmd with
  | .openapi => runDoc (vars .format) doc
  | .jsonschema => runDoc (vars .format) doc
  | .gotypes => runGoTypes E vars code
  | .gobindings => runGoBindings E vars code

/-- `lineage_subgen.go:102-138`, `run`: `none` is a usage error. -/
def runGen (E : GenEnv) (cmd : GCmd) (given : List (Str × Str)) (doc : Errs Doc)
    (code : Errs Str) : Option Effect :=
  (genVars cmd given).map fun vars => dispatch E cmd vars doc code

/-! ### Where bindings load the lineage from -/

/-- The components of a path joined by slashes. -/
def slashed : List Str → Str
  | [] => []
  | [c] => c
  | c :: cs => c ++ '/' :: slashed cs

/-- `lineage_subgen.go:314-341`: `cfg.CueModName`, for a lineage in the directory `dir`;
empty if it is not set.  `dir` is the root directory of the module or below it
(`filepath.Rel`, `path.Join`, for a module name without empty, `.` or `..` components). -/
def bindModName (r : Rootfind) (nofsfunc : Bool) (dir : Dir) : Str :=
  if !r.exists_ || nofsfunc then []
  else
    let rel := dir.take (dir.length - (r.modpath.getD []).length)
    if !r.cuemod.isEmpty && !rel.isEmpty then r.modname ++ '/' :: slashed rel.reverse
    else r.modname

end Thema.Cli

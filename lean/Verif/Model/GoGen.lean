import Verif.Model.Lit
import Verif.Model.CliGen
import Verif.Model.Mux

/-!
# Generating Go bindings

`encoding/gocode/gen.go` (`GenerateLineageBinding` and the configuration of
`GenerateTypesOpenAPI`), `encoding/gocode/binding.tmpl`, and
`cmd/thema/lineage_subgen.go:306-346`, which fills in the configuration.
-/

namespace Thema.GoGen

/-- `gen.go:194-269`, `BindingConfig`.  `CuePath` is given by its text, `Assignee` by the
text of the identifier; `ApplyFuncs` and `IgnoreDiscoveredImports` are left out. -/
structure BindingConfig where
  embedPath : Str := []
  loadDir : Str := []
  cueModName : Str := []
  titleName : Str := []
  cuePath : Str := []
  factoryNameSuffix : Bool := false
  privateFactory : Bool := false
  assignee : Option Str := none
  targetSchemaVersion : SV := ⟨0, 0⟩
  packageName : Str := []
  deriving Repr

/-- Functions of the standard library: `strings.Title`, `strings.ToLower` and
`strconv.IsPrint`, and `unicode.IsLetter`, `unicode.IsDigit`, `unicode.IsUpper`. -/
structure Std where
  title : Str → Str
  lower : Str → Str
  isPrint : Char → Bool
  isLetter : Char → Bool
  isDigit : Char → Bool
  isUpper : Char → Bool

/-- `gen.go:343-386`, `bindingVars`. -/
structure BindingVars where
  name : Str
  packageName : Str
  embedPath : Str
  loadDir : Str
  cuePath : Str
  cueModName : Str
  baseFactoryFuncName : Str
  genEmbed : Bool
  genFSFunc : Bool
  genLoaderFunc : Bool
  factoryFuncName : Str
  isConvergent : Bool
  assignee : Str
  assigneeInit : Str
  targetSchemaVersion : SV
  deriving Repr

/-- `gen.go:311-319`: the title case name of the lineage, as a suffix. -/
def suffixOf (S : Std) (name : Str) (cfg : BindingConfig) : Str :=
  if cfg.factoryNameSuffix then (if cfg.titleName = [] then S.title name else cfg.titleName)
  else []

/-- `gen.go:323-327`. -/
def assigneeInit (a : Str) : Str :=
  match a with
  | '*' :: rest => "new(".toList ++ rest ++ [')']
  | _ => a ++ "{}".toList

/-- `gen.go:289-334`: the variables of the template, for a lineage called `name`. -/
def bindingVars (S : Std) (name : Str) (cfg : BindingConfig) : BindingVars :=
  let lineage := "Lineage".toList ++ suffixOf S name cfg
  { name := name
    packageName := if cfg.packageName = [] then S.lower name else cfg.packageName
    embedPath := cfg.embedPath
    loadDir := cfg.loadDir
    cuePath := Lit.goQuote S.isPrint cfg.cuePath
    cueModName := cfg.cueModName
    baseFactoryFuncName :=
      if cfg.assignee.isSome then "base".toList ++ lineage
      else if cfg.privateFactory then "do".toList ++ lineage
      else lineage
    genEmbed := !cfg.embedPath.isEmpty
    genFSFunc := !cfg.cueModName.isEmpty
    genLoaderFunc := !cfg.loadDir.isEmpty
    factoryFuncName :=
      if cfg.assignee.isSome && cfg.privateFactory then "do".toList ++ lineage else lineage
    isConvergent := cfg.assignee.isSome
    assignee := cfg.assignee.getD []
    assigneeInit := (cfg.assignee.map assigneeInit).getD []
    targetSchemaVersion := cfg.targetSchemaVersion }

/-- A package-level declaration: its name, the package-level names of the same package that
it uses, and the texts of the string literals in it.  (The type `Assignee` is declared
elsewhere by design and is not counted.) -/
structure Decl where
  name : Str
  uses : List Str
  lits : List Str
  deriving DecidableEq, Repr

/-- `themaFSFor{{ .Name }}`. -/
def fsVar (name : Str) : Str := "themaFSFor".toList ++ name
/-- `getThemaFSFor{{ .Name }}`. -/
def fsFunc (name : Str) : Str := "getThemaFSFor".toList ++ name
/-- `loadInstanceFor{{ .Name }}`. -/
def loadFunc (name : Str) : Str := "loadInstanceFor".toList ++ name

/-- `binding.tmpl`: the declarations.  The condition `if .CUEPath` always holds, as
`CUEPath` is a quoted string. -/
def decls (v : BindingVars) : List Decl :=
  (if v.isConvergent then [⟨v.factoryFuncName, [v.baseFactoryFuncName], []⟩] else []) ++
  [⟨v.baseFactoryFuncName, [loadFunc v.name], [v.cuePath]⟩] ++
  (if v.genEmbed then
    ⟨fsVar v.name, [], []⟩ ::
      (if v.genFSFunc then [⟨fsFunc v.name, [fsVar v.name], [Lit.inQuotes v.cueModName]⟩] else [])
   else []) ++
  (if v.genLoaderFunc then [⟨loadFunc v.name, [fsFunc v.name], [Lit.inQuotes v.loadDir]⟩] else [])

/-- The file that `GenerateLineageBinding` (`gen.go:284-341`) makes from the template,
before `PostprocessGoFile`, which fails if this is not Go and changes only imports and
layout otherwise. -/
structure GoFile where
  package : Str
  decls : List Decl
  deriving Repr

/-- `gen.go:287-351`, `GenerateLineageBinding`. -/
def generateBinding (S : Std) (name : Str) (cfg : BindingConfig) : GoFile :=
  { package := (bindingVars S name cfg).packageName
    decls := decls (bindingVars S name cfg) }

/-! ### The command line -/

/-- The flags of `gen gobindings` that matter here, and what the command found out:
`epath` (`lineage_subgen.go:107-113`), the module (`findModRoot`), the directory of the
lineage and the path in it. -/
structure CliBind where
  suffix : Bool
  private_ : Bool
  noembed : Bool
  nofsfunc : Bool
  stdout : Bool
  bindtype : Str
  pkgname : Str
  version : SV
  epath : Str
  roots : Cli.Rootfind
  dir : Cli.Dir
  cuepath : Str

/-- `lineage_subgen.go:306-346`: the configuration that `runGoBindings` makes. -/
def cliConfig (B : CliBind) : BindingConfig :=
  { factoryNameSuffix := B.suffix
    privateFactory := B.private_
    targetSchemaVersion := B.version
    packageName := B.pkgname
    cuePath := B.cuepath
    embedPath := if !B.stdout && !B.noembed then B.epath else []
    loadDir := if !B.stdout && B.roots.exists_ && !B.nofsfunc then ['.'] else []
    cueModName := if B.stdout then [] else Cli.bindModName B.roots B.nofsfunc B.dir
    assignee := if B.bindtype = [] then none else some B.bindtype }

/-! ### Types -/

/-- `gen.go:36-65`, `TypeConfigOpenAPI`, as far as names are concerned. -/
structure TypeConfig where
  packageName : Str
  deriving DecidableEq, Repr

/-- `gen.go:97-99`: the package name that `GenerateTypesOpenAPI` uses and the
configuration that it leaves to the caller. -/
def typesPackage (name : Str) (cfg : TypeConfig) : Str × TypeConfig :=
  let cfg := if cfg.packageName = [] then { cfg with packageName := name } else cfg
  (cfg.packageName, cfg)

/-- Generating types for several lineages with one configuration: the package names. -/
def typesPackages : List Str → TypeConfig → List Str
  | [], _ => []
  | n :: ns, cfg => (typesPackage n cfg).1 :: typesPackages ns (typesPackage n cfg).2

/-! ### The generated factories -/

variable {V T : Type}

/-- `binding.tmpl:30-47`: the generated convergent factory.  `base` is what the base
factory (`binding.tmpl:63-98`) returns; `bindType` is `thema.BindType` on the schema at a
position; the result is the typed schema of the convergent lineage. -/
def convergentFactory (target : SV) (base : Res (Lineage V))
    (bindType : Lineage V → Nat → Res (TypedSchema V T)) : Res (TypedSchema V T) :=
  base.bind fun L => (L.schemaP target).bind fun p => bindType L p

end Thema.GoGen

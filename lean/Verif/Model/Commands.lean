import Verif.Model.CliGen

/-!
# The command tree

`cmd/thema/main.go:14-39`, `data.go:31-75`, `lineage.go:23-36`, `lineage_init.go:33-57`,
`lineage_bump.go:26-40`, `lineage_subgen.go:56-103`, `lineage_fix.go:25-37`: the calls that set
up the commands, and what cobra 1.4.0 and pflag 1.0.5 do with them.

cobra and pflag are external: `addFlag`, `markRequired`, `merge` and `execute` say what they are
trusted to do.  A command line is given after splitting: the command that it names, its flags
with their values in order, and the other arguments.  What the functions of the commands do is
modelled elsewhere (`CliData`, `CliGen`, `Init`, `Fix`); here only whether they are called.
-/

namespace Thema.Cmds

open Cli (parseBool)

/-- The commands (`main.go:42-63`; `srv` and `http` are not added to the tree). -/
inductive CId
  | root
  | data | validate | validateAny | translate | hydrate | dehydrate
  | lineage
  | init | initEmpty | initOpenapi | initJsonschema
  | bump
  | gen | genOpenapi | genJsonschema | genGotypes | genGobindings
  | fix
  deriving DecidableEq, Repr

/-- A registered flag. -/
structure Flag where
  name : Str
  short : Option Char
  isBool : Bool
  required : Bool := false
  deriving DecidableEq, Repr

/-- The functions called before a command runs: `validateLineageInput`,
`validateVersionInputOptional`, `validateVersionInput` (`load.go:213-236`), `validateDataInput`
(`data.go:349-404`), `processPackageArgs`, `processInput` (`lineage_init.go:122-151`). -/
inductive Step
  | lineage | versionOptional | version | dataInput | packageArgs | input
  deriving DecidableEq, Repr

/-- What is known about a command: the fields of `cobra.Command` that are used. -/
structure Command where
  parent : Option CId := none
  flags : List Flag := []
  persistent : List Flag := []
  /-- `Args`: `cobra.MaximumNArgs(n)`; without it every number is allowed. -/
  maxArgs : Option Nat := none
  /-- `PersistentPreRunE`, by the functions given to `mergeCobraefuncs`. -/
  persistentPreRun : Option (List Step) := none
  /-- `PreRunE`. -/
  preRun : Option (List Step) := none
  /-- Whether there is a `Run` or `RunE`. -/
  runnable : Bool := false
  deriving DecidableEq, Repr

/-- All commands. -/
abbrev Tree := CId → Command

def Tree.set (t : Tree) (c : CId) (x : Command) : Tree := fun d => if d = c then x else t d

/-- pflag's `FlagSet.AddFlag`: panics (`none`) if the name or the shorthand is taken. -/
def addFlag (fs : List Flag) (f : Flag) : Option (List Flag) :=
  if fs.any (fun g => g.name == f.name) then none
  else if f.short.isSome && fs.any (fun g => g.short == f.short) then none
  else some (fs ++ [f])

/-- cobra's `MarkFlagRequired(flags, name)`: annotates the flag of that name in this set; if
there is none the returned error is ignored by all callers. -/
def markRequired (fs : List Flag) (n : Str) : List Flag :=
  fs.map fun f => if f.name = n then { f with required := true } else f

/-- The calls that set up the commands. -/
inductive Call
  | addCommand (parent child : CId)
  | flag (c : CId) (f : Flag)                -- `c.Flags().…Var…`
  | persistentFlag (c : CId) (f : Flag)      -- `c.PersistentFlags().…Var…`
  | markFlagRequired (c : CId) (n : Str)
  | markPersistentFlagRequired (c : CId) (n : Str)
  | args (c : CId) (max : Nat)
  | persistentPreRunE (c : CId) (steps : List Step)
  | preRunE (c : CId) (steps : List Step)
  | run (c : CId)

/-- The effect of a call; `none` is a panic. -/
def Call.apply (t : Tree) : Call → Option Tree
  | .addCommand p c => some (t.set c { t c with parent := some p })
  | .flag c f => (addFlag (t c).flags f).map fun fs => t.set c { t c with flags := fs }
  | .persistentFlag c f =>
    (addFlag (t c).persistent f).map fun fs => t.set c { t c with persistent := fs }
  | .markFlagRequired c n => some (t.set c { t c with flags := markRequired (t c).flags n })
  | .markPersistentFlagRequired c n =>
    some (t.set c { t c with persistent := markRequired (t c).persistent n })
  | .args c m => some (t.set c { t c with maxArgs := some m })
  | .persistentPreRunE c s => some (t.set c { t c with persistentPreRun := some s })
  | .preRunE c s => some (t.set c { t c with preRun := some s })
  | .run c => some (t.set c { t c with runnable := true })

def applyAll : List Call → Tree → Option Tree
  | [], t => some t
  | c :: cs, t => (c.apply t).bind (applyAll cs)

def str (n : String) (s : Option Char) : Flag := ⟨n.toList, s, false, false⟩
def bool (n : String) (s : Option Char) : Flag := ⟨n.toList, s, true, false⟩

/-- `main.go:35-39`, `addLinPathVars`. -/
def addLinPathVars (c : CId) : List Call :=
  [.persistentFlag c (str "lineage" 'l'),
   .markFlagRequired c "lineage".toList,
   .persistentFlag c (str "path" 'p')]

/-- `data.go:31-75`.  (The `Args` of the commands are in their literals: lines 102, 129, 170, 229
and 273.) -/
def setupData : List Call :=
  [.addCommand .root .data] ++ addLinPathVars .data ++
  [.markPersistentFlagRequired .data "lineage".toList,
   .addCommand .data .validate,
   .flag .validate (str "version" 'v'), .flag .validate (str "format" 'e'),
   .flag .validate (bool "quiet" 'q'),
   .persistentPreRunE .validate [.lineage, .versionOptional, .dataInput],
   .run .validate, .args .validate 1,
   .addCommand .data .validateAny,
   .flag .validateAny (str "version" 'v'), .flag .validateAny (str "format" 'e'),
   .flag .validateAny (bool "quiet" 'q'),
   .persistentPreRunE .validateAny [.lineage, .versionOptional, .dataInput],
   .run .validateAny, .args .validateAny 1,
   .addCommand .data .translate,
   .flag .translate (str "to" 'v'), .markFlagRequired .translate "to".toList,
   .flag .translate (str "format" 'e'),
   .persistentPreRunE .translate [.lineage, .version, .dataInput],
   .run .translate, .args .translate 1,
   .addCommand .data .hydrate,
   .flag .hydrate (str "version" 'v'), .flag .hydrate (str "format" 'e'),
   .persistentPreRunE .hydrate [.lineage, .versionOptional, .dataInput],
   .run .hydrate, .args .hydrate 1,
   .addCommand .data .dehydrate,
   .flag .dehydrate (str "version" 'v'), .flag .dehydrate (str "format" 'e'),
   .persistentPreRunE .dehydrate [.lineage, .versionOptional, .dataInput],
   .run .dehydrate, .args .dehydrate 1]

/-- `lineage_init.go:33-57`, with the `Args` of lines 70, 82 and 94. -/
def setupInit : List Call :=
  [.addCommand .lineage .init,
   .persistentFlag .init (str "name" 'n'),
   .persistentFlag .init (str "package-name" none),
   .persistentFlag .init (bool "no-package" none),
   .addCommand .init .initEmpty, .run .initEmpty, .preRunE .initEmpty [.packageArgs],
   .args .initEmpty 0,
   .addCommand .init .initOpenapi, .flag .initOpenapi (str "src-subpath" none),
   .run .initOpenapi, .preRunE .initOpenapi [.input], .args .initOpenapi 1,
   .addCommand .init .initJsonschema, .flag .initJsonschema (str "src-subpath" none),
   .run .initJsonschema, .preRunE .initJsonschema [.input], .args .initJsonschema 1]

/-- `lineage_bump.go:9-40`. -/
def setupBump : List Call :=
  [.addCommand .lineage .bump] ++ addLinPathVars .bump ++
  [.flag .bump (bool "major" none), .flag .bump (bool "no-fill" none),
   .preRunE .bump [.lineage], .run .bump, .args .bump 0]

/-- `lineage_subgen.go:56-103`. -/
def setupGen : List Call :=
  [.addCommand .lineage .gen] ++ addLinPathVars .gen ++
  [.persistentPreRunE .gen [.lineage, .versionOptional],
   .addCommand .gen .genOpenapi,
   .flag .genOpenapi (str "version" 'v'), .flag .genOpenapi (str "format" 'f'),
   .run .genOpenapi,
   .addCommand .gen .genJsonschema,
   .flag .genJsonschema (str "version" 'v'), .flag .genJsonschema (str "format" 'f'),
   .run .genJsonschema,
   .addCommand .gen .genGotypes,
   .flag .genGotypes (str "version" 'v'), .flag .genGotypes (str "pkgname" none),
   .flag .genGotypes (bool "stdout" none), .flag .genGotypes (bool "quiet" 'q'),
   .run .genGotypes,
   .addCommand .gen .genGobindings,
   .flag .genGobindings (str "bind-type" none), .flag .genGobindings (str "version" 'v'),
   .flag .genGobindings (str "pkgname" none), .flag .genGobindings (bool "suffix" none),
   .flag .genGobindings (bool "private" none), .flag .genGobindings (bool "no-embed" none),
   .flag .genGobindings (bool "no-fs-func" none), .flag .genGobindings (bool "stdout" none),
   .flag .genGobindings (bool "quiet" 'q'),
   .run .genGobindings]

/-- `lineage_fix.go:13-37`. -/
def setupFix : List Call :=
  [.addCommand .lineage .fix,
   .persistentFlag .fix (str "lineage" 'l'),
   .markFlagRequired .fix "lineage".toList,
   .persistentFlag .fix (str "path" 'p'),
   .preRunE .fix [.lineage], .run .fix, .args .fix 0]

/-- `main.go:15-16` with `lineage.go:23-36`: all calls, in order. -/
def setup : List Call :=
  setupData ++ [.addCommand .root .lineage] ++ setupInit ++ setupBump ++ setupGen ++ setupFix

/-- The commands after the setup; `none` if it panics. -/
def tree : Option Tree := applyAll setup fun _ => {}

/-! ### Running a command -/

/-- A flag as it is given: by its name or by its shorthand. -/
inductive Key
  | long (n : Str)
  | short (c : Char)
  deriving DecidableEq, Repr

def Flag.is (f : Flag) : Key → Bool
  | .long n => f.name == n
  | .short c => f.short == some c

/-- pflag's `AddFlagSet`: adds the flags whose names are not taken; `none` is a panic of
`AddFlag`. -/
def merge : List Flag → List Flag → Option (List Flag)
  | fs, [] => some fs
  | fs, f :: gs =>
    if fs.any (fun g => g.name == f.name) then merge fs gs
    else (addFlag fs f).bind fun fs => merge fs gs

/-- The commands above a command, nearest first (`n` bounds the depth). -/
def parents (t : Tree) : Nat → CId → List CId
  | 0, _ => []
  | n + 1, c =>
    match (t c).parent with
    | none => []
    | some p => p :: parents t n p

/-- The depth of the tree: `thema lineage gen openapi`. -/
def depth : Nat := 3

def helpFlag : Flag := bool "help" 'h'

/-- cobra's `mergePersistentFlags` and `InitDefaultHelpFlag`: the flags of a command are its own,
its persistent ones, those of its parents, and `--help`. -/
def allFlags (t : Tree) (c : CId) : Option (List Flag) :=
  (merge (t c).flags (t c).persistent).bind fun fs =>
    (merge fs ((parents t depth c).flatMap fun p => (t p).persistent)).bind fun fs =>
      merge fs [helpFlag]

/-- pflag's parsing of the flags: each has to be known, and the value of a boolean one has to be
a boolean. -/
def parses (fs : List Flag) (given : List (Key × Str)) : Bool :=
  given.all fun g =>
    match fs.find? (·.is g.1) with
    | none => false
    | some f => !f.isBool || (parseBool g.2).isSome

/-- The value of `--help`: the one given last. -/
def helpAsked (fs : List Flag) : List (Key × Str) → Bool → Bool
  | [], b => b
  | g :: rest, b =>
    match fs.find? (·.is g.1) with
    | none => helpAsked fs rest b
    | some f => helpAsked fs rest (if f.name = helpFlag.name then (parseBool g.2).getD b else b)

/-- pflag's `Changed`. -/
def changed (fs : List Flag) (given : List (Key × Str)) (f : Flag) : Bool :=
  given.any fun g => fs.find? (·.is g.1) == some f

/-- `main.go:85-95`, `mergeCobraefuncs`: the functions in order, until one fails.  The first
component are those that were called, the second is the one that failed. -/
def runSteps (fails : Step → Bool) : List Step → List Step × Option Step
  | [] => ([], none)
  | s :: ss =>
    if fails s then ([s], some s)
    else
      match runSteps fails ss with
      | (done, r) => (s :: done, r)

/-- How a command line ends. -/
inductive End
  | panicked
  | badFlags
  | help
  | badArgs
  | failed (s : Step)
  | missing (names : List Str)
  | ran
  deriving DecidableEq, Repr

/-- pflag's `VisitAll` visits flags in the order of their names. -/
def insertName (n : Str) : List Str → List Str
  | [] => [n]
  | m :: ms => if n < m then n :: m :: ms else m :: insertName n ms

def sortNames : List Str → List Str
  | [] => []
  | n :: ns => insertName n (sortNames ns)

/-- cobra's loop over the parents: the nearest `PersistentPreRunE`. -/
def nearestPreRun (t : Tree) : List CId → List Step
  | [] => []
  | c :: cs =>
    match (t c).persistentPreRun with
    | some s => s
    | none => nearestPreRun t cs

/-- cobra's `Command.execute`: the functions that were called before the command, and how it
ends.  `fails` says which of these functions fail.  (The check of the arguments of `thema` itself
is in `Command.Find`, with `legacyArgs`.  The commands `help` and `completion` that cobra adds are
left out.) -/
def execute (t : Tree) (fails : Step → Bool) (c : CId) (given : List (Key × Str))
    (args : List Str) : List Step × End :=
  if c = .root ∧ args ≠ [] then ([], .badArgs)
  else
  match allFlags t c with
  | none => ([], .panicked)
  | some fs =>
    if !parses fs given then ([], .badFlags)
    else if helpAsked fs given false then ([], .help)
    else if !(t c).runnable then ([], .help)
    else if (t c).maxArgs.any (fun m => decide (m < args.length)) then ([], .badArgs)
    else
      match runSteps fails (nearestPreRun t (c :: parents t depth c) ++ ((t c).preRun.getD [])) with
      | (done, some s) => (done, .failed s)
      | (done, none) =>
        match sortNames ((fs.filter fun f => f.required && !changed fs given f).map (·.name)) with
        | [] => (done, .ran)
        | ns => (done, .missing ns)

/-- `thema …`: set up, and execute. -/
def thema (fails : Step → Bool) (c : CId) (given : List (Key × Str)) (args : List Str) :
    List Step × End :=
  match tree with
  | none => ([], .panicked)
  | some t => execute t fails c given args

end Thema.Cmds

import Verif.Model.Commands

/-!
# The commands of thema, as tables

What each command takes, needs and checks, and how a command line ends.
-/

namespace Thema.Cmds.Spec

/-- A flag in the tables: its name, its shorthand, whether it is boolean. -/
structure Row where
  name : Str
  short : Option Char
  isBool : Bool
  deriving DecidableEq, Repr

def text (n : String) (s : Option Char := none) : Row := ⟨n.toList, s, false⟩
def switch (n : String) (s : Option Char := none) : Row := ⟨n.toList, s, true⟩

/-- `--help` is a flag of all commands. -/
def helpRow : Row := switch "help" 'h'

/-- The flags of the commands, apart from `--help`. -/
def takes : CId → List Row
  | .root | .lineage => []
  | .data | .gen | .fix => [text "lineage" 'l', text "path" 'p']
  | .validate | .validateAny =>
    [text "version" 'v', text "format" 'e', switch "quiet" 'q', text "lineage" 'l', text "path" 'p']
  | .translate => [text "to" 'v', text "format" 'e', text "lineage" 'l', text "path" 'p']
  | .hydrate | .dehydrate =>
    [text "version" 'v', text "format" 'e', text "lineage" 'l', text "path" 'p']
  | .init | .initEmpty => [text "name" 'n', text "package-name", switch "no-package"]
  | .initOpenapi | .initJsonschema =>
    [text "src-subpath", text "name" 'n', text "package-name", switch "no-package"]
  | .bump => [switch "major", switch "no-fill", text "lineage" 'l', text "path" 'p']
  | .genOpenapi | .genJsonschema =>
    [text "version" 'v', text "format" 'f', text "lineage" 'l', text "path" 'p']
  | .genGotypes =>
    [text "version" 'v', text "pkgname", switch "stdout", switch "quiet" 'q', text "lineage" 'l',
     text "path" 'p']
  | .genGobindings =>
    [text "bind-type", text "version" 'v', text "pkgname", switch "suffix", switch "private",
     switch "no-embed", switch "no-fs-func", switch "stdout", switch "quiet" 'q',
     text "lineage" 'l', text "path" 'p']

/-- The flags that have to be given. -/
def needs : CId → List Str
  | .data | .validate | .validateAny | .hydrate | .dehydrate => ["lineage".toList]
  | .translate => ["lineage".toList, "to".toList]
  | _ => []

/-- The commands that only group others. -/
def Group : CId → Prop
  | .root | .data | .lineage | .init | .gen => True
  | _ => False

/-- Whether so many arguments are too many. -/
def TooMany : CId → Nat → Prop
  | .root, n | .initEmpty, n | .bump, n | .fix, n => 0 < n
  | .validate, n | .validateAny, n | .translate, n | .hydrate, n | .dehydrate, n
  | .initOpenapi, n | .initJsonschema, n => 1 < n
  | _, _ => False

/-- What is done before the command runs. -/
def checks : CId → List Step
  | .validate | .validateAny | .hydrate | .dehydrate => [.lineage, .versionOptional, .dataInput]
  | .translate => [.lineage, .version, .dataInput]
  | .gen | .genOpenapi | .genJsonschema | .genGotypes | .genGobindings =>
    [.lineage, .versionOptional]
  | .initEmpty => [.packageArgs]
  | .initOpenapi | .initJsonschema => [.input]
  | .bump | .fix => [.lineage]
  | _ => []

/-- The words for yes and no. -/
def yes : List Str := ["1", "t", "T", "TRUE", "true", "True"].map String.toList
def no : List Str := ["0", "f", "F", "FALSE", "false", "False"].map String.toList

/-- The key means the flag. -/
def Means (k : Key) (r : Row) : Prop :=
  k = .long r.name ∨ ∃ c, r.short = some c ∧ k = .short c

/-- A flag that the command accepts. -/
def Accepted (c : CId) (g : Key × Str) : Prop :=
  ∃ r ∈ helpRow :: takes c, Means g.1 r ∧ (r.isBool = true → g.2 ∈ yes ∨ g.2 ∈ no)

/-- The last `--help` says yes. -/
def HelpAsked (given : List (Key × Str)) : Prop :=
  ∃ pre g post, given = pre ++ g :: post ∧ Means g.1 helpRow ∧ g.2 ∈ yes ∧
    ∀ h ∈ post, ¬ Means h.1 helpRow

/-- A flag of the command is given, by its name or its shorthand. -/
def Given (c : CId) (given : List (Key × Str)) (n : Str) : Prop :=
  ∃ r ∈ takes c, r.name = n ∧ ∃ g ∈ given, Means g.1 r

/-- The command line says what is to be done: the flags are accepted, no help is asked for, the
command does something, and there are not too many arguments. -/
structure Proper (c : CId) (given : List (Key × Str)) (args : List Str) : Prop where
  flags : ∀ g ∈ given, Accepted c g
  noHelp : ¬ HelpAsked given
  command : ¬ Group c
  arguments : ¬ TooMany c args.length

open Classical in
/-- How a command line ends: the checks done, and the end. -/
inductive Ends (fails : Step → Bool) (c : CId) (given : List (Key × Str)) (args : List Str) :
    List Step → End → Prop
  | unknown : c = .root → args ≠ [] → Ends fails c given args [] .badArgs
  | badFlags : (c = .root → args = []) → (∃ g ∈ given, ¬ Accepted c g) →
      Ends fails c given args [] .badFlags
  | help : (c = .root → args = []) → (∀ g ∈ given, Accepted c g) → (HelpAsked given ∨ Group c) →
      Ends fails c given args [] .help
  | badArgs : (∀ g ∈ given, Accepted c g) → ¬ HelpAsked given → ¬ Group c →
      TooMany c args.length → Ends fails c given args [] .badArgs
  | failed (pre : List Step) (s : Step) (post : List Step) : Proper c given args →
      checks c = pre ++ s :: post → (∀ x ∈ pre, fails x = false) → fails s = true →
      Ends fails c given args (pre ++ [s]) (.failed s)
  | missing (ns : List Str) : Proper c given args → (∀ x ∈ checks c, fails x = false) →
      ns ≠ [] → ns = (needs c).filter (fun n => decide (¬ Given c given n)) →
      Ends fails c given args (checks c) (.missing ns)
  | ran : Proper c given args → (∀ x ∈ checks c, fails x = false) →
      (∀ n ∈ needs c, Given c given n) → Ends fails c given args (checks c) .ran

/-! ### The usage lines -/

/-- A flag in a usage line: how it is written, and whether it is in brackets. -/
structure Shown where
  key : Key
  optional : Bool
  deriving DecidableEq, Repr

def must (c : Char) : Shown := ⟨.short c, false⟩
def may (c : Char) : Shown := ⟨.short c, true⟩
def mayL (n : String) : Shown := ⟨.long n.toList, true⟩

/-- The flags in the usage lines: `data.go:95,118,159,218,262`, `lineage_subgen.go:76,85`. -/
def usage : CId → List Shown
  | .validate => [must 'l', must 'v', may 'p', may 'q', may 'e']
  | .validateAny => [must 'l', may 'p', may 'v', may 'q', may 'e']
  | .translate => [must 'l', may 'p', mayL "to", may 'e']
  | .hydrate | .dehydrate => [must 'l', may 'p', may 'e', may 'v']
  | .genGotypes => [must 'l', may 'p', may 'v', mayL "pkgname", mayL "stdout"]
  | .genGobindings =>
    [must 'l', may 'p', mayL "bind-type", mayL "bindversion", mayL "suffix", mayL "private",
     mayL "no-embed"]
  | _ => []

end Thema.Cmds.Spec

import Verif.Model.Exemplars
import Verif.Model.Surface

/-!
# The map of exemplars

`exemplars/exemplars.go`: `All` and the functions for single exemplars, for every package of
exemplars.  Loading the package (`buildAll`, `buildExemplarsPackage`) is the caller's
`load.Instances` with the embedded files; both functions load the same files, and the package is
what CUE makes of them.
-/

namespace Thema.Exemplars

variable {V : Type}

/-- The regular fields of the package `exemplars`, each with its `l`.  A `RawLineage` is the
value of `l`, unified with `name: N` (`exemplars/constraint.cue:17-19`). -/
abbrev Pkg (V : Type) := List (Str × RawLineage V)

/-- `exemplars/exemplars.go:39-46`, `nameOpts`; the zero value for other names. -/
def nameOpts (n : Str) : List (BindOption V) :=
  if n = "defaultchange".toList ∨ n = "disjunct".toList then [.skipBuggyChecks] else []

/-- `exemplars/exemplars.go:25-34`: the loop of `All`.  The key is the name of the lineage. -/
def allLoop (C : Cue V) (force : Bool) : Pkg V → List (Str × Lineage V) →
    Res (List (Str × Lineage V))
  | [], m => .ok m
  | e :: rest, m =>
    match bindLineage C force e.2 (nameOpts e.2.name) with
    | .ok L => allLoop C force rest (mapPut m e.2.name L)
    | .err _ => .panic .explicit
    | .panic k => .panic k
    | .fuel => .fuel

/-- `exemplars/exemplars.go:18-37`, `All`. -/
def allMap (C : Cue V) (force : Bool) (P : Pkg V) : Res (List (Str × Lineage V)) :=
  allLoop C force P []

/-- `exemplars/exemplars.go:133-142`, `harnessForExemplar`. -/
def harnessFor (P : Pkg V) (n : Str) : Res (RawLineage V) :=
  match P.lookup n with
  | some r => .ok r
  | none => .panic .explicit

/-- `exemplars/exemplars.go:145-151`, `lineageForExemplar`. -/
def lineageFor (C : Cue V) (force : Bool) (P : Pkg V) (n : Str) (o : List (BindOption V)) :
    Res (Lineage V) :=
  let o := if n = "defaultchange".toList ∨ n = "narrowing".toList ∨ n = "rename".toList
    then o ++ [.skipBuggyChecks] else o
  (harnessFor P n).bind fun r => bindLineage C force r o

/-- `exemplars/exemplars.go:102-104`, `NarrowingLineage`. -/
def narrowingLineage (C : Cue V) (force : Bool) (P : Pkg V) (o : List (BindOption V)) :
    Res (Lineage V) := lineageFor C force P "narrowing".toList o

/-- `exemplars/exemplars.go:107-109`, `RenameLineage`. -/
def renameLineage (C : Cue V) (force : Bool) (P : Pkg V) (o : List (BindOption V)) :
    Res (Lineage V) := lineageFor C force P "rename".toList o

/-- `exemplars/exemplars.go:112-114`, `DefaultChangeLineage`. -/
def defaultChangeLineage (C : Cue V) (force : Bool) (P : Pkg V) (o : List (BindOption V)) :
    Res (Lineage V) := lineageFor C force P "defaultchange".toList o

/-- `exemplars/exemplars.go:117-119`, `ExpandLineage`. -/
def expandLineage (C : Cue V) (force : Bool) (P : Pkg V) (o : List (BindOption V)) :
    Res (Lineage V) := lineageFor C force P "expand".toList o

/-- `exemplars/exemplars.go:122-124`, `SingleLineage`. -/
def singleLineage (C : Cue V) (force : Bool) (P : Pkg V) (o : List (BindOption V)) :
    Res (Lineage V) := lineageFor C force P "single".toList o

/-- The package as it is (`exemplars/*.cue`). -/
def pkg : Pkg Val :=
  [("defaultchange".toList, defaultchange), ("disjunct".toList, disjunct),
   ("expand".toList, expand), ("narrowing".toList, narrowing), ("rename".toList, rename),
   ("single".toList, single)]

end Thema.Exemplars

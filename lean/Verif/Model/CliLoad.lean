import Verif.Model.Bind

/-!
# Loading a lineage on the command line

`cmd/thema/load.go` (`findCueMod`, `buildInsts`, `loadone`) and
`cmd/thema/lineage_subgen.go:385-455` (`findModRoot`).
-/

namespace Thema.Cli

/-- An absolute path, as its components from the deepest one up; the root is `[]`.
`filepath.Dir` drops the first component and maps the root to itself. -/
abbrev Dir := List Str

/-- The outcome of `os.ReadFile`. -/
inductive ReadRes (α : Type)
  | content (a : α)
  | notExist
  | failed
  deriving DecidableEq, Repr

/-- What is in the file system, per directory: `cue.mod/module.cue` with the string value
of its field `module` (`none` if that is not a string), and `go.mod` with its module
path. -/
structure Fs where
  cueMod : Dir → ReadRes (Option Str)
  goMod : Dir → ReadRes Str

/-- How a search ends. -/
inductive Found (α : Type)
  | found (a : α)
  | notFound
  | failed
  deriving DecidableEq, Repr

/-- `load.go:74-79`, `parentCueMod`. -/
structure ParentCueMod where
  dir : Dir
  modname : Str
  deriving DecidableEq, Repr

/-- `load.go:250-267`: the loop of `findCueMod`. -/
def findCueModLoop (fs : Fs) : Dir → Found ParentCueMod
  | [] => .notFound
  | c :: up =>
    match fs.cueMod (c :: up) with
    | .content (some m) => .found ⟨c :: up, m⟩
    | .content none => .failed
    | .failed => .failed
    | .notExist => findCueModLoop fs up

/-- `load.go:240-268`, `findCueMod`, on a path that exists. -/
def findCueMod (fs : Fs) (path : Dir) (isDir : Bool) : Found ParentCueMod :=
  findCueModLoop fs (if isDir then path else path.tail)

/-- `lineage_subgen.go:426-429`, `rootfind`; an empty `dir` string is `none`. -/
structure Rootfind where
  cuemod : Str
  cuemodpath : Option Dir
  gomod : Str
  gomodpath : Option Dir
  deriving DecidableEq, Repr

/-- `lineage_subgen.go:408-416`: the search for `go.mod` in one directory; `none` is the
error return. -/
def lookGoMod (fs : Fs) (p : Dir) (r : Rootfind) : Option Rootfind :=
  match r.gomodpath with
  | some _ => some r
  | none =>
    match fs.goMod p with
    | .content m => some { r with gomod := m, gomodpath := some p }
    | .notExist => some r
    | .failed => none

/-- `lineage_subgen.go:397-423`: the loop of `findModRoot`; `none` is the error return.  A
`cue.mod/module.cue` that cannot be read counts as absent. -/
def findModRootLoop (fs : Fs) : Dir → Rootfind → Option Rootfind
  | [], r =>
    match fs.cueMod [] with
    | .content (some m) => some { r with cuemod := m, cuemodpath := some [] }
    | .content none => none
    | .notExist => lookGoMod fs [] r
    | .failed => lookGoMod fs [] r
  | c :: up, r =>
    match fs.cueMod (c :: up) with
    | .content (some m) => some { r with cuemod := m, cuemodpath := some (c :: up) }
    | .content none => none
    | .notExist => (lookGoMod fs (c :: up) r).bind (findModRootLoop fs up)
    | .failed => (lookGoMod fs (c :: up) r).bind (findModRootLoop fs up)

/-- `lineage_subgen.go:385-424`, `findModRoot`, on a path that exists. -/
def findModRoot (fs : Fs) (path : Dir) (isDir : Bool) : Option Rootfind :=
  findModRootLoop fs (if isDir then path else path.tail) ⟨[], none, [], none⟩

/-- `lineage_subgen.go:431-433`, `Exists`. -/
def Rootfind.exists_ (r : Rootfind) : Bool := !r.cuemod.isEmpty || !r.gomod.isEmpty

/-- `lineage_subgen.go:435-444`, `Modname`. -/
def Rootfind.modname (r : Rootfind) : Str :=
  if !r.exists_ then [] else if !r.cuemod.isEmpty then r.cuemod else r.gomod

/-- `lineage_subgen.go:446-455`, `Modpath`. -/
def Rootfind.modpath (r : Rootfind) : Option Dir :=
  if !r.exists_ then none
  else match r.cuemodpath with
    | some p => some p
    | none => r.gomodpath

/-! ### Building instances -/

/-- A CUE package (`build.Instance`) and what there is at the requested path in it, as
`loadone` sees it. -/
inductive Pkg (V : Type)
  /-- `binst.Err != nil` (`load.go:313-315`) -/
  | broken (e : GoErr)
  /-- there is no value, or none at the path, or the path is not one (`load.go:317-331`) -/
  | noValue
  /-- a value -/
  | value (r : RawLineage V)

variable {V : Type}

/-- `load.go:312-338`, `loadone`; `skip` is whether `THEMA_SKIP_BUGGY` is set, `force`
the environment variable read by `SkipBuggyChecks`. -/
def loadone (C : Cue V) (force skip : Bool) (p : Pkg V) : Res (Lineage V) :=
  match p with
  | .broken e => .err e
  | .noValue => .err ⟨[]⟩
  | .value r => bindLineage C force r (if skip then [.skipBuggyChecks] else [])

/-- `load.go:280-283`: `loadone` on every package, numbered from `i` on.  A panic ends
the loop. -/
def loadAll (C : Cue V) (force skip : Bool) :
    Nat → List (Pkg V) → Res (List (Nat × Except GoErr (Lineage V)))
  | _, [] => .ok []
  | i, p :: ps =>
    match loadone C force skip p with
    | .ok L => (loadAll C force skip (i + 1) ps).map fun rs => (i, .ok L) :: rs
    | .err e => (loadAll C force skip (i + 1) ps).map fun rs => (i, .error e) :: rs
    | .panic k => .panic k
    | .fuel => .fuel

/-- `load.go:293-308`: the loop over the results; `cur` is `(lin, binst)`. -/
def pickLoop : Option (Nat × Lineage V) → List (Nat × Except GoErr (Lineage V)) →
    Except GoErr (Option (Nat × Lineage V))
  | cur, [] => .ok cur
  | cur, (i, .ok L) :: rest =>
    match cur with
    | some _ => .error ⟨[]⟩
    | none => pickLoop (some (i, L)) rest
  | cur, (_, .error _) :: rest => pickLoop cur rest

/-- The first error of the results (`rets[0].err`); nil if there is none. -/
def firstErr : List (Nat × Except GoErr (Lineage V)) → Option GoErr
  | (_, .error e) :: _ => some e
  | _ => none

/-- `load.go:274-310`, `buildInsts`: the lineage and the index of its package.  The last
case, nil without error, is a nil lineage. -/
def buildInsts (C : Cue V) (force skip : Bool) (ps : List (Pkg V)) :
    Res (Except GoErr (Option (Nat × Lineage V))) :=
  (loadAll C force skip 0 ps).map fun
    | [] => .error ⟨[]⟩
    | [(i, .ok L)] => .ok (some (i, L))
    | [(_, .error e)] => .error e
    | rs =>
      match pickLoop none rs with
      | .error e => .error e
      | .ok (some x) => .ok (some x)
      | .ok none =>
        match firstErr rs with
        | some e => .error e
        | none => .ok none

end Thema.Cli

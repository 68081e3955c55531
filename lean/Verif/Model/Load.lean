import Verif.Model.Lit

/-!
# Loading lineages from a file system

`load/load.go` and `util.ToOverlay` (`internal/util/util.go:13-47`).

A path is the list of its elements.  An `fs.FS` is given by the entries of a walk over it, in
the order of the walk; the content of a file is `none` if it cannot be opened or read.  The
system is not Windows.  `load.Instances` is external: what is modelled is the configuration
that it gets.
-/

namespace Thema.Load

abbrev Path := List Str

/-- An entry of a file system. -/
inductive Entry
  | dir
  | file (content : Option Str)
  deriving DecidableEq, Repr

/-- A file system. -/
abbrev FS := List (Path × Entry)

/-- The entry at a path; `none` is `fs.ErrNotExist`. -/
def stat : FS → Path → Option Entry
  | [], _ => none
  | (p, e) :: fs, q => if p = q then some e else stat fs q

def cueMod : Path := ["cue.mod".toList]
def moduleCue : Path := ["cue.mod".toList, "module.cue".toList]
/-- `load.go:50`. -/
def themaModPath : Path :=
  ["cue.mod".toList, "pkg".toList, "github.com".toList, "grafana".toList, "thema".toList]

/-- `"github.com/grafana/thema"`. -/
def themaMod : Str := "github.com/grafana/thema".toList

/-! ### `AsModFS` -/

/-- `load.go:42`: the content of the injected file. -/
def moduleText (modname : Str) : Str := "module: ".toList ++ Lit.inQuotes modname

/-- All prefixes of a path. -/
def prefixes : Path → List Path
  | [] => [[]]
  | c :: p => [] :: (prefixes p).map (c :: ·)

/-- Whether an entry is a file. -/
def isFile : Option Entry → Bool
  | some (.file _) => true
  | _ => false

/-- `merged_fs.NewMergedFS`: what is found at a path of two merged file systems.  Files of
the first hide everything of the same path and below in the second; a directory of the
first hides a file of the second. -/
def mergedStat (a b : Path → Option Entry) (p : Path) : Option Entry :=
  match a p with
  | some e => some e
  | none =>
    if (prefixes p).any fun q => isFile (a q) then none
    else b p

/-- `load.go:41-43`: the file system with only the injected file. -/
def injected (modname : Str) (p : Path) : Option Entry :=
  if p = [] then some .dir
  else if p = cueMod then some .dir
  else if p = moduleCue then some (.file (some (moduleText modname)))
  else none

/-- `load.go:38-48`, `AsModFS`, by what is found at each path.  (`fs.Stat` fails only if
there is nothing.) -/
def asModFS (fs : FS) (modname : Str) (p : Path) : Option Entry :=
  match stat fs moduleCue with
  | none => mergedStat (injected modname) (stat fs) p
  | some _ => stat fs p

/-! ### `InstanceWithThema` -/

/-- The errors of `InstanceWithThema` before `load.Instances` is called. -/
inductive LoadErr
  | noCueMod
  | themaExists
  | readFailed
  | badModule
  | emptyName
  | overlayFailed
  deriving DecidableEq, Repr

/-- Whether `a` is a prefix of `b`. -/
def under : Path → Path → Bool
  | [], _ => true
  | _, [] => false
  | a :: as, b :: bs => a == b && under as bs

/-- `load.go:86-117`: the walk over `cue.mod`, with the module name found so far.
`parse` is the evaluation of the field `module` of a file as a string (line 108).  The
directories `cue.mod/gen` and `cue.mod/usr` are skipped. -/
def walkMod (parse : Str → Option Str) : FS → Str → Except LoadErr Str
  | [], m => .ok m
  | (p, e) :: fs, m =>
    if !under cueMod p || under ["cue.mod".toList, "gen".toList] p ||
        under ["cue.mod".toList, "usr".toList] p then walkMod parse fs m
    else
      match e with
      | .dir => if p = themaModPath then .error .themaExists else walkMod parse fs m
      | .file c =>
        if p = moduleCue then
          match c with
          | none => .error .readFailed
          | some b =>
            match parse b with
            | none => .error .badModule
            | some n => if n = [] then .error .emptyName else walkMod parse fs n
        else walkMod parse fs m

/-- `filepath.Clean` of an absolute path that is given by its elements, with `acc` the
elements already cleaned, last first. -/
def cleanAbs : List Str → List Str → List Str
  | [], acc => acc.reverse
  | s :: ss, acc =>
    if s = [] then cleanAbs ss acc
    else if s = ['.'] then cleanAbs ss acc
    else if s = ['.', '.'] then cleanAbs ss acc.tail
    else cleanAbs ss (s :: acc)

/-- `strings.Split(s, "/")`. -/
def splitSlash : Str → List Str
  | [] => [[]]
  | c :: s =>
    if c = '/' then [] :: splitSlash s
    else
      match splitSlash s with
      | [] => [[c]]
      | x :: xs => (c :: x) :: xs

/-- `filepath.Join(root, s)` for an absolute `root`. -/
def joinAbs (root : Path) (s : Str) : Path := cleanAbs (splitSlash s) root.reverse

/-- An overlay: absolute paths and contents.  A later entry replaces an earlier one with the
same path. -/
abbrev Overlay := List (Path × Str)

/-- What an overlay has at a path. -/
def Overlay.get : Overlay → Path → Option Str
  | [], _ => none
  | (p, c) :: o, q =>
    match Overlay.get o q with
    | some d => some d
    | none => if p = q then some c else none

/-- `util.go:15-49`, `ToOverlay`; `none` is the error of a file that cannot be read.  The
prefix is absolute. -/
def toOverlay (pfx : Path) : FS → Overlay → Option Overlay
  | [], o => some o
  | (_, .dir) :: fs, o => toOverlay pfx fs o
  | (_, .file none) :: _, _ => none
  | (p, .file (some c)) :: fs, o => toOverlay pfx fs (o ++ [(pfx ++ p, c)])

/-- What `load.Instances` gets (`load.go:143-161`). -/
structure Cfg where
  overlay : Overlay
  moduleRoot : Path
  module : Str
  dir : Path
  package : Str
  deriving Repr

/-- `filepath.Base` of the element list of a cleaned absolute path. -/
def baseAbs (p : Path) : Str := (p.getLast?).getD ['/']

/-- Drops trailing slashes. -/
def dropSlashes (s : Str) : Str := (s.reverse.dropWhile (· == '/')).reverse

/-- `filepath.Base` of a string. -/
def baseStr (s : Str) : Str :=
  if s = [] then ['.']
  else if dropSlashes s = [] then ['/']
  else ((splitSlash (dropSlashes s)).getLast?).getD []

/-- `load.go:82-175`, `InstanceWithThema`, up to the call of `load.Instances`.  `cueFS` and
`jointFS` are `thema.CueFS` and `thema.CueJointFS`; `pkg` is the last `Package` option. -/
def instanceWithThema (parse : Str → Option Str) (cueFS jointFS : FS) (modFS : FS) (dir : Str)
    (pkg : Option Str) : Except LoadErr Cfg :=
  if stat modFS cueMod = none then .error .noCueMod
  else
    match walkMod parse modFS [] with
    | .error e => .error e
    | .ok modname =>
      if modname = [] then .error .emptyName
      else
        let modroot := joinAbs [] modname
        match toOverlay modroot modFS [] with
        | none => .error .overlayFailed
        | some o =>
          match (if modname = themaMod then toOverlay modroot jointFS o
            else toOverlay (modroot ++ themaModPath) cueFS o) with
          | none => .error .overlayFailed
          | some o =>
            .ok {
              overlay := o
              moduleRoot := modroot
              module := modname
              dir := if dir = [] ∨ dir = ['.'] then modroot else joinAbs modroot dir
              package := pkg.getD
                (if dir = [] ∨ dir = ['.'] then baseAbs modroot else baseStr dir) }

/-! ### The command line -/

/-- `cmd/thema/load.go:128-169`: the overlay that the command line uses for a lineage in a
directory `root`: with a module called `mod` there, or without one.  The rest of the files
is read from disk. -/
def cliOverlay (cueFS : FS) (root : Path) (mod : Option Str) : Option Overlay :=
  match mod with
  | none => toOverlay (root ++ themaModPath) cueFS [(root ++ moduleCue, "module: \"\"".toList)]
  | some m => if m = themaMod then some [] else toOverlay (root ++ themaModPath) cueFS []

end Thema.Load

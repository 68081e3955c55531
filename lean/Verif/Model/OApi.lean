import Verif.Model.Path
import Verif.Model.Version

/-!
# OpenAPI documents

`encoding/openapi/oapi.go`.  Evaluating CUE and CUE's own OpenAPI encoder are external.
-/

namespace Thema.OApi

open Path

variable {V : Type}

/-- The operations of CUE that are used here. -/
structure OCue (V : Type) where
  /-- `Value.Allows`. -/
  allows : V → Sel → Bool
  /-- `Value.LookupPath`. -/
  lookup : V → P → V
  /-- `CompileString("#name: _").FillPath(#name, v)`, evaluated. -/
  define : Str → V → V
  /-- `Fields(cue.Definitions(true), cue.Optional(true))`. -/
  fields : V → List (Sel × V)
  /-- The values for which CUE's encoder asks `NameFunc` for a name, with their paths. -/
  visits : V → List (V × P)
  /-- The failure of CUE's encoder. -/
  genErr : V → Option GoErr

/-- `openapi.Config.NameFunc`. -/
abbrev NameFunc (V : Type) := V → P → Str

/-- CUE's `openapi.Generate`, as far as names are concerned: a component for each value that
`NameFunc` does not map to the empty string. -/
def generate (C : OCue V) (nf : NameFunc V) (v : V) : Res (List (Str × V)) :=
  match C.genErr v with
  | some e => .err e
  | none => .ok ((C.visits v).filterMap fun x =>
      if nf x.1 x.2 = [] then none else some (nf x.1 x.2, x.1))

/-- `oapi.go:18-46`, `Config`, with the fields of `openapi.Config` that are used:
`NameFunc`, and the title in `Info`. -/
structure Config (V : Type) where
  group : Bool := false
  rootName : Str := []
  subpath : P := []
  splitSchema : Bool := false
  nameFunc : Option (NameFunc V) := none
  info : Option Str := none

/-- What is used of a `thema.Schema`. -/
structure Sch (V : Type) where
  lineage : Str
  version : SV
  schdef : V
  schraw : V
  join : V
  bpath : P

/-- The text of a selector. -/
def Sel.str (s : Sel) : Str := if s.opt then s.text ++ ['?'] else s.text

/-- `Path.String`. -/
def pathStr : P → Str
  | [] => []
  | [s] => Sel.str s
  | s :: ss => Sel.str s ++ '.' :: pathStr ss

/-- `strings.Trim(s, "?#")`. -/
def trimMarks (s : Str) : Str :=
  ((s.dropWhile fun c => c == '?' || c == '#').reverse.dropWhile
    fun c => c == '?' || c == '#').reverse

/-- `cue.Def(name)`. -/
def defSel (name : Str) : Sel := ⟨'#' :: name, false⟩

/-- `oapi.go:224-240`, `nfSingle`; `onf` is the original `NameFunc`. -/
def nfSingle [DecidableEq V] (s : Sch V) (onf : Option (NameFunc V)) (defpath : P) (name : Str) :
    NameFunc V := fun val path =>
  let tpath := trimPathPrefix (trimThemaPathPrefix path s.bpath) defpath
  if pathStr path = [] ∨ pathStr tpath = pathStr defpath then name
  else if val = s.schraw ∨ val = s.join then []
  else if val = s.schdef then name
  else
    match onf with
    | some f => f val tpath
    | none => trimMarks (pathStr tpath)

/-- `oapi.go:173-180`: the name of the root. -/
def rootNameOf (s : Sch V) (cfg : Config V) : Str :=
  if cfg.rootName ≠ [] then cfg.rootName
  else
    match cfg.subpath.getLast? with
    | some sel => Sel.str sel
    | none => sanitizeLabelString s.lineage

/-- The error of `oapi.go:185` and `251`. -/
def notPresent : GoErr := ⟨[]⟩

/-- `oapi.go:183-191`: the checks and the lookup of the subpath. -/
def atSubpath (C : OCue V) (s : Sch V) (cfg : Config V) (val : V) : Res V :=
  if cfg.subpath = [] then .ok val
  else if cfg.subpath.any fun sel => !C.allows val sel then .err notPresent
  else if cfg.subpath.any fun sel => !C.allows s.join sel then .err notPresent
  else .ok (C.lookup val cfg.subpath)

/-- `oapi.go:172-217`, `genSchema`; `onf` is `gen.onf`.  Returns the components and the
configuration, which belongs to the caller. -/
def genSchema [DecidableEq V] (C : OCue V) (s : Sch V) (onf : Option (NameFunc V))
    (cfg : Config V) (val : V) : Res (List (Str × V)) × Config V :=
  match atSubpath C s cfg val with
  | .ok v =>
    let nf := nfSingle s onf [defSel (rootNameOf s cfg)] (rootNameOf s cfg)
    (generate C nf (C.define (rootNameOf s cfg) v),
      { cfg with nameFunc := some nf, info := some (trimMarks (rootNameOf s cfg)) })
  | .err e => (.err e, cfg)
  | .panic k => (.panic k, cfg)
  | .fuel => (.fuel, cfg)

/-- `oapi.go:159-170`, `genSingle`. -/
def genSingle [DecidableEq V] (C : OCue V) (s : Sch V) (onf : Option (NameFunc V)) :
    Config V → List V → Res (List (Str × V)) × Config V
  | cfg, [] => (.ok [], cfg)
  | cfg, v :: vs =>
    match genSchema C s onf cfg v with
    | (.ok ds, cfg') =>
      match genSingle C s onf cfg' vs with
      | (.ok es, cfg'') => (.ok (ds ++ es), cfg'')
      | r => r
    | r => r

/-- `oapi.go:125-155`, `genGroup`. -/
def genGroup [DecidableEq V] (C : OCue V) (s : Sch V) (onf : Option (NameFunc V)) :
    List (Sel × V) → Res (List (Str × V))
  | [] => .ok []
  | (sel, v) :: fs =>
    let name := trimMarks (Sel.str sel)
    (generate C (nfSingle s onf [defSel name] name) (C.define name v)).bind fun ds =>
      (genGroup C s onf fs).bind fun es => .ok (ds ++ es)

/-- A document. -/
structure Doc (V : Type) where
  title : Str
  version : SV
  components : List (Str × V)

/-- `oapi.go:54-103`, `GenerateSchema`: the result and what the caller's configuration is
afterwards. -/
def generateSchema [DecidableEq V] (C : OCue V) (s : Sch V) (cfg : Config V) :
    Res (Doc V) × Config V :=
  let onf := cfg.nameFunc
  if cfg.group then
    ((genGroup C s onf (C.fields s.schdef)).bind fun ds =>
      .ok ⟨sanitizeLabelString s.lineage, s.version, ds⟩, cfg)
  else
    match genSingle C s onf cfg (if cfg.splitSchema then [s.schraw, s.join] else [s.schdef]) with
    | (.ok ds, cfg') => (.ok ⟨rootNameOf s cfg, s.version, ds⟩, cfg')
    | (.err e, cfg') => (.err e, cfg')
    | (.panic k, cfg') => (.panic k, cfg')
    | (.fuel, cfg') => (.fuel, cfg')

/-! ### A concrete evaluator -/

/-- A closed struct as the list of the paths of its fields. -/
abbrev Paths := List P

/-- The part of `v` below `p`. -/
def below (v : Paths) (p : P) : Paths :=
  v.filterMap fun q => if p <+: q ∧ q ≠ p then some (q.drop p.length) else none

/-- Whether a selector is that of a definition. -/
def isDef (s : Sel) : Bool := s.text.head? == some '#'

/-- Structs given by paths.  Every definition gets a component. -/
def pathsCue : OCue Paths where
  allows := fun v s => v.contains [s]
  lookup := below
  define := fun n v => [defSel n] :: v.map (defSel n :: ·)
  fields := fun v => v.filterMap fun p => match p with
    | [s] => some (s, below v [s])
    | _ => none
  visits := fun v => v.filterMap fun p =>
    match p.getLast? with
    | some s => if isDef s then some (below v p, p) else none
    | none => none
  genErr := fun _ => none

end Thema.OApi

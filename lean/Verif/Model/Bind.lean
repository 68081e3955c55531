import Verif.Model.Lineage
import Verif.Model.FlatIdx

/-!
# BindLineage

`lineage.go:53-153`, `bind.go`.
-/

namespace Thema

/-- What `LookupPath` finds for a field: nothing, a non-concrete value, or a
concrete value. -/
inductive FieldState
  | absent
  | nonConcrete
  | concrete
  deriving DecidableEq, Repr

/-- An element of the `schemas` list of the value to bind, unified with
`#SchemaDef`.  `version` is `none` when a component of it is not concrete. -/
structure RawSchema (V : Type) where
  version : Option SV
  schema : V
  body : V
  examples : List (Str × V)

/-- An element of the `lenses` list of the value to bind.  `to`/`frm` are `none`
when decoding the version fails. -/
structure RawLens (V : Type) where
  to : Option SV
  frm : Option SV
  run : V → V
  lacunas : V → List Lac
  bad : V → Bool

/-- The value passed to `BindLineage`, reduced to what the checks look at.  The
three `..Err` flags are verdicts of CUE's `Validate` on aspects that are not
modelled; the aspects that are modelled (`_counts`, at least one schema) are
computed below. -/
structure RawLineage (V : Type) where
  /-- `ml.raw.Exists()` -/
  exists_ : Bool
  /-- `raw.LookupPath("name")`, `raw.LookupPath("schemas")` -/
  nameField : FieldState
  schemasField : FieldState
  /-- the name, when it is a string -/
  name : Str
  /-- `ml.uni.Validate(cue.Final())` fails (`bind.go:167`) for another reason -/
  finalErr : Bool
  /-- `ml.raw.Validate(cue.Concrete(false))` fails (`bind.go:178`) -/
  rawErr : Bool
  /-- `ml.uni.Validate(cue.Concrete(false))` fails (`bind.go:181`) -/
  uniErr : Bool
  schemas : List (RawSchema V)
  /-- `none`: `lenses` is not a list -/
  lenses : Option (List (RawLens V))

/-- `surface.go:92-95`, `ImperativeLens`; a nil `Mapper` is `none`. -/
structure ImperativeLens (V : Type) where
  to : SV
  frm : SV
  mapper : Option (Mapper V)

/-- `surface.go:165-168`, `bindConfig`. -/
structure BindConfig (V : Type) where
  skipbuggychecks : Bool
  implens : List (ImperativeLens V)

/-- `surface.go:157-220`, the two bind options. -/
inductive BindOption (V : Type)
  | skipBuggyChecks
  | imperativeLenses (lenses : List (ImperativeLens V))

/-- `surface.go:189-196` and `216-220`: the effect of one option; `force` is the
environment variable `envvars.ForceVerify`. -/
def BindOption.apply {V : Type} (force : Bool) (c : BindConfig V) : BindOption V → BindConfig V
  | .skipBuggyChecks => if !force then { c with skipbuggychecks := true } else c
  | .imperativeLenses ls => { c with implens := c.implens ++ ls }

/-- `lineage.go:59-62`. -/
def bindConfig {V : Type} (force : Bool) (opts : List (BindOption V)) : BindConfig V :=
  opts.foldl (BindOption.apply force) { skipbuggychecks := false, implens := [] }

variable {V : Type}

/-- `bind.go:117-127`, `checkSchemasOrder`. -/
def checkSchemasOrder (prev : Option (SchemaDef V)) (currv : SV) : Res Unit :=
  match prev with
  | none => .ok ()
  | some p => if currv.less p.v then .err ⟨[.invalidSchemasOrder]⟩ else .ok ()

/-- `bind.go:97-107`: the compatibility check.  `compat.ThemaCompatible(p, s)`
is `s.Subsume(p, Raw, All)` (`internal/compat/compat.go:12-15`). -/
def checkCompat (C : Cue V) (skip : Bool) (prev : Option (SchemaDef V)) (v : SV) (body : V) :
    Res Unit :=
  match prev with
  | none => .ok ()
  | some p =>
    if skip then .ok ()
    else if v.minor = 0 && C.subsumeAll body p.body then .err ⟨[.invalidLineage]⟩
    else if v.minor ≠ 0 && !(C.subsumeAll body p.body) then .err ⟨[.invalidLineage]⟩
    else .ok ()

/-- `bind.go:65-115`: the loop of `checkGoValidity`, returning `schlist`. -/
def checkGoValidityLoop (C : Cue V) (skip : Bool) :
    Option (SchemaDef V) → List (RawSchema V) → Res (List (SchemaDef V))
  | _, [] => .ok []
  | prev, s :: rest =>
    match s.version with
    | none => .err ⟨[.invalidLineage]⟩
    | some v =>
      (checkSchemasOrder prev v).bind fun _ =>
        (checkCompat C skip prev v s.body).bind fun _ =>
          let sch : SchemaDef V :=
            { v := v, schema := s.schema, body := s.body, examples := s.examples }
          (checkGoValidityLoop C skip (some sch) rest).bind fun l => .ok (sch :: l)

/-- `bind.go:65-115`, `checkGoValidity`. -/
def checkGoValidity (C : Cue V) (cfg : BindConfig V) (r : RawLineage V) :
    Res (List (SchemaDef V)) :=
  checkGoValidityLoop C cfg.skipbuggychecks none r.schemas

/-- `bind.go:129-141`, `checkExists`. -/
def checkExists (r : RawLineage V) : Res Unit :=
  if !r.exists_ then .err ⟨[.valueNotExist]⟩ else .ok ()

/-- `bind.go:146-154`: the check of one of the fields. -/
def checkField (f : FieldState) : Res Unit :=
  match f with
  | .absent => .err ⟨[.valueNotALineage]⟩
  | .nonConcrete => .err ⟨[.invalidLineage]⟩
  | .concrete => .ok ()

/-- The declared versions, if all are concrete. -/
def concreteVersions (schemas : List (RawSchema V)) : Option (List SV) :=
  schemas.mapM (·.version)

/-- The part of "`uni` is an instance of `#Lineage`" that is modelled: at least
one schema (`lineage.cue:42`), and `_counts` a list of `uint64`
(`lineage.cue:115`; not evaluated, hence no error, while a version is not
concrete). -/
def lineageConstraints (r : RawLineage V) : Bool :=
  !r.schemas.isEmpty &&
    (match concreteVersions r.schemas with
      | some vs => countsOk vs
      | none => true)

/-- `bind.go:143-172`, `checkLineageShape`. -/
def checkLineageShape (r : RawLineage V) : Res Unit :=
  (checkField r.nameField).bind fun _ =>
    (checkField r.schemasField).bind fun _ =>
      if r.finalErr || !(lineageConstraints r) then .err ⟨[.invalidLineage]⟩ else .ok ()

/-- `bind.go:175-186`, `checkNativeValidity`. -/
def checkNativeValidity (r : RawLineage V) : Res Unit :=
  if r.rawErr then .err ⟨[.invalidLineage]⟩
  else if r.uniErr then .err ⟨[.invalidLineage]⟩
  else .ok ()

/-! ### CUE lens order -/

/-- `bind.go:310-313`, `lensVersionDef`. -/
structure LensVersionDef where
  to : SV
  frm : SV
  deriving DecidableEq, Repr

/-- `bind.go:315-328` and `354-364`, `newLensVersionDef`. -/
def newLensVersionDef (l : RawLens V) : Res LensVersionDef :=
  match l.to with
  | none => .err ⟨[.invalidLineage]⟩
  | some t =>
    match l.frm with
    | none => .err ⟨[.invalidLineage]⟩
    | some f => .ok ⟨t, f⟩

/-- `bind.go:330-352`, `doCheck` (`curr` is never nil at the only call). -/
def doCheck (prev : Option LensVersionDef) (curr : LensVersionDef) : Res Unit :=
  match prev with
  | none => .ok ()
  | some p =>
    if curr.to.less p.to then .err ⟨[.invalidLensesOrder]⟩
    else if p.to = curr.to && curr.frm.less p.frm then .err ⟨[.invalidLensesOrder]⟩
    else .ok ()

/-- `bind.go:200-214`: the loop of `checkLensesOrder`. -/
def checkCueLensLoop : Option LensVersionDef → List (RawLens V) → Res Unit
  | _, [] => .ok ()
  | prev, l :: rest =>
    (newLensVersionDef l).bind fun curr =>
      (doCheck prev curr).bind fun _ => checkCueLensLoop (some curr) rest

/-! ### Go lens completeness -/

/-- `bind.go:57-59`, `lid`. -/
def ImperativeLens.id (l : ImperativeLens V) : LensID := ⟨l.frm, l.to⟩

/-- `bind.go:219-229`: the first loop of `checkGoLensCompleteness`.  The map
`all` is the list of its keys (without repetition). -/
def collectLenses : List LensID → List (ImperativeLens V) → Res (List LensID)
  | all, [] => .ok all
  | all, l :: rest =>
    if all.contains l.id then .err ⟨[]⟩
    else if l.mapper.isNone then .err ⟨[]⟩
    else collectLenses (all ++ [l.id]) rest

/-- `delete(all, id)`. -/
def mapDelete (all : List LensID) (id : LensID) : List LensID := all.filter (· ≠ id)

/-- `bind.go:239-243` and `248-252`: look for a required lens. -/
def takeLens (id : LensID) (s : List LensID × List LensID) : List LensID × List LensID :=
  if !(s.1.contains id) then (s.1, s.2 ++ [id]) else (mapDelete s.1 id, s.2)

/-- `bind.go:231-255`: the second loop; the state is `(all, missing)`. -/
def requireLoop : SV → List SV → List LensID × List LensID → List LensID × List LensID
  | _, [], s => s
  | prior, v :: rest, s =>
    let s := takeLens ⟨v, prior⟩ s
    let s := if v.major ≠ prior.major then takeLens ⟨prior, v⟩ s else s
    requireLoop v rest s

/-- The reason given in the report on a superfluous lens (`bind.go:279-297`). -/
inductive Reason
  | noSuchSchema (v : SV)
  | selfMigration
  | predecessorIs (p of_ notIt : SV)
  | minorAutomatic
  | successorIs (s of_ notIt : SV)
  deriving DecidableEq, Repr

/-- `bind.go:279-297`: the line of the report for one superfluous lens. -/
def erroneousReason (allv : List SV) (id : LensID) : Res Reason :=
  if !(synvExists allv id.to) then .ok (.noSuchSchema id.to)
  else if !(synvExists allv id.frm) then .ok (.noSuchSchema id.frm)
  else if id.to = id.frm then .ok .selfMigration
  else if id.to.less id.frm then
    if searchSynv allv id.frm = 0 then .panic .indexOutOfRange
    else (goIdx allv (searchSynv allv id.frm - 1)).map fun p => .predecessorIs p id.frm id.to
  else if id.to.major ≠ id.frm.major then .ok .minorAutomatic
  else (goIdx allv (searchSynv allv id.frm + 1)).map fun s => .successorIs s id.frm id.to

/-- `bind.go:273-298`: composing the report. -/
def erroneousReport (allv : List SV) (left : List LensID) :
    List (ImperativeLens V) → Res (List (LensID × Reason))
  | [] => .ok []
  | l :: rest =>
    if !(left.contains l.id) then erroneousReport allv left rest
    else (erroneousReason allv l.id).bind fun r =>
      (erroneousReport allv left rest).bind fun t => .ok ((l.id, r) :: t)

/-- `bind.go:302-305`: the lens map. -/
def buildLensMap (implens : List (ImperativeLens V)) : List (LensID × Mapper V) :=
  implens.filterMap fun l => l.mapper.map fun m => (l.id, m)

/-- `bind.go:217-308`, `checkGoLensCompleteness`, returning `lensmap`.
`ml.schlist[1:]` panics when the list is empty. -/
def checkGoLensCompleteness (schlist : List (SchemaDef V)) (implens : List (ImperativeLens V)) :
    Res (List (LensID × Mapper V)) :=
  (collectLenses [] implens).bind fun all =>
    (goDrop 1 schlist).bind fun rest =>
      match requireLoop synv0 (rest.map (·.v)) (all, []) with
      | (left, missing) =>
        if missing.length > 0 then .err ⟨[.missingLenses]⟩
        else if left.length > 0 then
          (erroneousReport (schlist.map (·.v)) left implens).bind fun _ =>
            .err ⟨[.erroneousLenses]⟩
        else .ok (buildLensMap implens)

/-- `bind.go:188-215`, `checkLensesOrder`, returning `lensmap`. -/
def checkLensesOrder (r : RawLineage V) (schlist : List (SchemaDef V))
    (implens : List (ImperativeLens V)) : Res (List (LensID × Mapper V)) :=
  if implens.length > 0 then checkGoLensCompleteness schlist implens
  else
    match r.lenses with
    | none => .ok []
    | some ls => (checkCueLensLoop none ls).map fun _ => []

/-- A lens (`lineage.cue:246-276`) whose versions decode, as the CUE runtime sees
it. -/
def RawLens.cue? (l : RawLens V) : Option (CueLens V) :=
  match l.frm, l.to with
  | some f, some t => some { frm := f, to := t, run := l.run, lacunas := l.lacunas, bad := l.bad }
  | _, _ => none

/-- The lenses as the CUE runtime sees them in `lin.uni` (`lineage.cue:79-96`)
when translating.  Lenses whose versions do not decode are dropped here; binding
without Go lenses rejects them, and with Go lenses the CUE lenses are never
used. -/
def cueLenses (r : RawLineage V) : List (CueLens V) := (r.lenses.getD []).filterMap RawLens.cue?

/-- `lineage.go:53-153`, `BindLineage` after the choice of `raw` and `uni`
(`Verif/Model/Split.lean`). -/
def bindLineage (C : Cue V) (force : Bool) (r : RawLineage V) (opts : List (BindOption V)) :
    Res (Lineage V) :=
  let cfg := bindConfig force opts
  (checkExists r).bind fun _ =>
    (checkLineageShape r).bind fun _ =>
      (checkNativeValidity r).bind fun _ =>
        (checkGoValidity C cfg r).bind fun schlist =>
          (checkLensesOrder r schlist cfg.implens).bind fun lensmap =>
            .ok { name := r.name, allsch := schlist, lenses := cueLenses r, lensmap := lensmap }

end Thema

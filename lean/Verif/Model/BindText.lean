import Verif.Model.BindReport
import Verif.Model.LensText
import Verif.Model.Printf

/-!
# What `BindLineage` says about a lineage that it rejects, and where

`bind.go:65-214`, `330-364` and `lineage.go:177-183` (`mkerror`).

The errors of `Model/Bind.lean` with their texts and positions.  The text and the positions of
errors that come from CUE's `Validate` are left out, as is the text that a value does not exist.
-/

namespace Thema

/-- The values that `mkerror` is called with: the lineage, a field of it, the first component of the
version of schema `k` that is not concrete, schema `k`, lens `k`. -/
inductive Place
  | lineage
  | field (name : Str)
  | version (k : Nat)
  | schema (k : Nat)
  | lens (k : Nat)
  deriving DecidableEq

/-- What CUE says about these values. -/
structure Source (π : Type) where
  /-- `val.Source().Pos()`, none if `Source` returns nil. -/
  pos : Place → Option π
  /-- `cerrors.Details`: why schema `k` is not compatible with the one before it. -/
  details : Nat → Str
  /-- What `%s` prints for lens `k`. -/
  lensText : Nat → Str
  /-- What `%s` prints for the field `to` or `from` of lens `k`. -/
  fieldText : Nat → Str → Str

/-- An error: its position, if it has one, and its text. -/
structure Report (π : Type) where
  pos : Option π
  text : Str
  deriving DecidableEq

variable {V π : Type}

/-- `lineage.go:177-183`, `mkerror`: without a source the error has no position. -/
def mkerror (src : Option π) (text : Str) : Report π := ⟨src, text⟩

/-- `bind.go:82`, `101`, `105` and `123`.  In the third line of this function the value is that of
`curr.ref`, which is assigned only after the call of `checkSchemasOrder` (`bind.go:91` and `95`): it
is the zero `cue.Value`, of which `LookupPath` makes the zero value and `Source` nil. -/
def schemaReport (S : Source π) (k : Nat) : SchemaProblem → Report π
  | .versionNotConcrete => mkerror (S.pos (.version k))
      "#SchemaDef.version must have concrete major and minor versions".toList
  | .notGreater v p => mkerror none
      ("schema version ".toList ++ v.str ++ " is not greater than previous schema version ".toList ++
        p.str)
  | .mustBreak v p x => mkerror (S.pos (.schema k))
      ("schema ".toList ++ v.str ++ " must be backwards incompatible with schema ".toList ++ p.str ++
        ": introduce a breaking change, or redeclare as version ".toList ++ x.str)
  | .notCompatible v p => mkerror (S.pos (.schema k))
      ("schema ".toList ++ v.str ++ " is not backwards compatible with schema ".toList ++ p.str ++
        ':' :: '\n' :: S.details k)

/-- The errors of `checkLensesOrder` for lenses in CUE. -/
inductive LensProblem
  | undecodable (field : Str)
  | notGreater (to frm prevTo prevFrm : SV)
  deriving DecidableEq

/-- `bind.go:202-211`, with `315-364`: the error that the loop of `checkLensesOrder` returns, with the
position of the lens that it is about. -/
def lensProblem : Option LensVersionDef → List (RawLens V) → Option (Nat × LensProblem)
  | _, [] => none
  | prev, l :: rest =>
    match l.to with
    | none => some (0, .undecodable "to".toList)
    | some t =>
      match l.frm with
      | none => some (0, .undecodable "from".toList)
      | some f =>
        let next := (lensProblem (some ⟨t, f⟩) rest).map fun p => (p.1 + 1, p.2)
        match prev with
        | none => next
        | some p =>
          if t.less p.to || (p.to = t && f.less p.frm) then
            some (0, .notGreater t f p.to p.frm)
          else next

/-- `[to: %s, from: %s]` of `bind.go:341` and `347`. -/
def lensVersionStr (t f : SV) : Str :=
  "[to: ".toList ++ t.str ++ ", from: ".toList ++ f.str ++ "]".toList

/-- `bind.go:341`, `347` (`errors.Errorf`, without position) and `360`, where the text is formatted and
then used as a format string without operands. -/
def lensReport (S : Source π) (k : Nat) : LensProblem → Report π
  | .undecodable n => mkerror (S.pos (.lens k))
      (Printf.fprintf ("failed to decode lens version ".toList ++ S.fieldText k n ++
        " from: ".toList ++ S.lensText k))
  | .notGreater t f pt pf => ⟨none,
      "lens version ".toList ++ lensVersionStr t f ++
        " is not greater than previous lens version ".toList ++ lensVersionStr pt pf⟩

/-- What `BindLineage` says: nothing, as it succeeds; that there is no value; what CUE says; or an
error of its own. -/
inductive Said (π : Type)
  | nothing
  | notExist
  | cue
  | report (r : Report π)

/-- `bind.go:146-154`: the check of one of the fields. -/
def fieldReport (S : Source π) (n : Str) : FieldState → Option (Report π)
  | .absent => some (mkerror (S.pos .lineage) ("not a lineage, missing #Lineage.".toList ++ n))
  | .nonConcrete => some (mkerror (S.pos (.field n))
      ("invalid lineage, #Lineage.".toList ++ n ++ " must be concrete".toList))
  | .concrete => none

/-- `bind.go:188-215`, `checkLensesOrder`, for a lineage with the versions `vs`. -/
def lensesSay (S : Source π) (vs : List SV) (lenses : Option (List (RawLens V)))
    (implens : List (ImperativeLens V)) : Res (Said π) :=
  if implens.length > 0 then
    (goLensProblem vs implens).map fun
      | some p => .report ⟨none, p.str⟩
      | none => .nothing
  else
    match lenses with
    | none => .ok .nothing
    | some ls =>
      match lensProblem none ls with
      | some (k, p) => .ok (.report (lensReport S k p))
      | none => .ok .nothing

/-- `lineage.go:53-153`: what `BindLineage` says, with the checks in the same order as in
`bindLineage`. -/
def bindSays (C : Cue V) (force : Bool) (r : RawLineage V) (opts : List (BindOption V))
    (S : Source π) : Res (Said π) :=
  let cfg := bindConfig force opts
  if !r.exists_ then .ok .notExist
  else
    match fieldReport S "name".toList r.nameField with
    | some e => .ok (.report e)
    | none =>
      match fieldReport S "schemas".toList r.schemasField with
      | some e => .ok (.report e)
      | none =>
        if r.finalErr || !(lineageConstraints r) || r.rawErr || r.uniErr then .ok .cue
        else
          match schemaProblem C cfg.skipbuggychecks none r.schemas with
          | some (k, p) => .ok (.report (schemaReport S k p))
          | none => lensesSay S (r.schemas.filterMap (·.version)) r.lenses cfg.implens

end Thema

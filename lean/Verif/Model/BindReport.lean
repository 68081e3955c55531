import Verif.Model.Bind

/-!
# What `BindLineage` says about schemas it rejects

`Model/Bind.lean` keeps the classification of errors only; this is what they say.
-/

namespace Thema

/-- The errors of `checkGoValidity` and `checkSchemasOrder` with what is printed in them
(`bind.go:80,100,104,123`).  The text of the CUE error in the third is left out. -/
inductive SchemaProblem
  | versionNotConcrete
  | notGreater (v prev : SV)
  | mustBreak (v prev redeclareAs : SV)
  | notCompatible (v prev : SV)
  deriving DecidableEq, Repr

variable {V : Type}

/-- `bind.go:72-113`: the error that the loop of `checkGoValidity` returns, with the position of the
schema that it is about. -/
def schemaProblem (C : Cue V) (skip : Bool) :
    Option (SchemaDef V) → List (RawSchema V) → Option (Nat × SchemaProblem)
  | _, [] => none
  | prev, s :: rest =>
    match s.version with
    | none => some (0, .versionNotConcrete)
    | some v =>
      let next := (schemaProblem C skip
        (some { v := v, schema := s.schema, body := s.body, examples := s.examples }) rest).map
          fun p => (p.1 + 1, p.2)
      match prev with
      | none => next
      | some p =>
        if v.less p.v then some (0, .notGreater v p.v)
        else if !skip && (v.minor = 0 && C.subsumeAll s.body p.body) then
          some (0, .mustBreak v p.v ⟨p.v.major, p.v.minor + 1⟩)
        else if !skip && (v.minor ≠ 0 && !(C.subsumeAll s.body p.body)) then
          some (0, .notCompatible v p.v)
        else next

end Thema

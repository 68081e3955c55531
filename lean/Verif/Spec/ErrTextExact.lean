import Verif.Model.Validate
import Verif.Model.ErrText

/-!
# What the text of a validation failure shows
-/

namespace Thema.ErrText

/-- All that is shown of the problem fits on one line each. -/
def OneLine (pos : Str → Str) : FieldErr → Prop
  | .oneSided sp dp _ path val =>
    (∀ p ∈ sp ++ dp, '\n' ∉ pos p) ∧ (∀ l ∈ path, '\n' ∉ l) ∧ '\n' ∉ val
  | .twoSided sp dp _ path sv dv =>
    (∀ p ∈ sp ++ dp, '\n' ∉ pos p) ∧ (∀ l ∈ path, '\n' ∉ l) ∧ '\n' ∉ sv ∧ '\n' ∉ dv

/-- The two problems are of the same sort, at the same place (names joined by dots), with the same
values, and at the same positions of the schema and of the data. -/
def SameShown (pos : Str → Str) : FieldErr → FieldErr → Prop
  | .oneSided sp dp code path val, .oneSided sp' dp' code' path' val' =>
    joinWith ['.'] path = joinWith ['.'] path' ∧
      ((code = .missingField ∧ code' = .missingField ∨ code = .excessField ∧ code' = .excessField) ∧
          val = val' ∧ sp.map pos = sp'.map pos ∧ dp.map pos = dp'.map pos ∨
        (code ≠ .missingField ∧ code ≠ .excessField) ∧ (code' ≠ .missingField ∧ code' ≠ .excessField))
  | .twoSided sp dp _ path sv dv, .twoSided sp' dp' _ path' sv' dv' =>
    joinWith ['.'] path = joinWith ['.'] path' ∧ sv = sv' ∧ dv = dv' ∧
      sp.map pos = sp'.map pos ∧ dp.map pos = dp'.map pos
  | _, _ => False

end Thema.ErrText

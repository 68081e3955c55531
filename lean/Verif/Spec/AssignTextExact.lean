import Verif.Spec.Assign
import Verif.Spec.AssignText

/-!
# Which discrepancies the error of `AssignableTo` shows
-/

namespace Thema.Spec.Assign

open Thema.Assign

variable {V : Type}

/-- A field of the Go type, that the schema does not have, is in a field `j` of the schema that comes
after `k`, perhaps deep inside, and has the name `k`. -/
def Overwritten (O : Obs V) (g s : V) (k : Str) : Prop :=
  ∃ fs pre post j q, O.fields s = some fs ∧ fs.map (·.1) = pre ++ k :: post ∧ j ∈ post ∧
    Disc O g s (some j :: q ++ [some k]) .absentInSchema

/-- The text speaks of place `x` and says `m`: either this discrepancy is there, and it is not
overwritten; or a field with the name `x` is only in the Go type, anywhere, and no other discrepancy is
at the top-level field `x`, or it is overwritten. -/
def Told (O : Obs V) (g s : V) (x : P) (m : Msg) : Prop :=
  (m ≠ .absentInSchema ∧ Disc O g s x m ∧ ∀ k, x = [some k] → ¬ Overwritten O g s k) ∨
  (m = .absentInSchema ∧ ∃ q k, x = [some k] ∧ Disc O g s (q ++ [some k]) .absentInSchema ∧
    ∀ m', m' ≠ .absentInSchema → Disc O g s [some k] m' → Overwritten O g s k)

end Thema.Spec.Assign

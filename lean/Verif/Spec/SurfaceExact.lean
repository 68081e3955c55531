import Verif.Spec.Surface

/-!
# Specification vocabulary for C178-C181
-/

namespace Thema.Spec

/-- The reason that is printed for the superfluous migration `id`. -/
def PrintedReason (vs : List SV) (id : LensID) : Reason → Prop
  | .noSuchSchema v =>
    (id.to ∉ vs ∧ v = id.to) ∨ (id.to ∈ vs ∧ id.frm ∉ vs ∧ v = id.frm)
  | .selfMigration => id.to ∈ vs ∧ id.frm = id.to
  | .predecessorIs p f t =>
    id.frm ∈ vs ∧ id.to ∈ vs ∧ Before id.to id.frm ∧ f = id.frm ∧ t = id.to ∧ Neighbours vs p f
  | .minorAutomatic =>
    id.frm ∈ vs ∧ id.to ∈ vs ∧ Before id.frm id.to ∧ id.frm.major ≠ id.to.major
  | .successorIs s f t =>
    id.frm ∈ vs ∧ id.to ∈ vs ∧ Before id.frm id.to ∧ id.frm.major = id.to.major ∧
      f = id.frm ∧ t = id.to ∧ Neighbours vs f s

end Thema.Spec

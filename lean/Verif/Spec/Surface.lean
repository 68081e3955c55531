import Verif.Model.Surface
import Verif.Spec.Lineage

/-!
# Specification vocabulary for reports on Go migrations
-/

namespace Thema.Spec

/-- `a` and `b` are neighbours in the list of versions. -/
def Neighbours (vs : List SV) (a b : SV) : Prop :=
  ∃ i, ∃ _ : i + 1 < vs.length, vs[i] = a ∧ vs[i + 1] = b

/-- What a reason says about the migration `id` in a lineage with the versions `vs`. -/
def TrueReason (vs : List SV) (id : LensID) : Reason → Prop
  | .noSuchSchema v => (v = id.to ∨ v = id.frm) ∧ v ∉ vs
  | .selfMigration => id.to = id.frm
  | .predecessorIs p f t => f = id.frm ∧ t = id.to ∧ Neighbours vs p f ∧ p ≠ t
  | .minorAutomatic => Before id.frm id.to ∧ id.frm.major = id.to.major
  | .successorIs s f t => f = id.frm ∧ t = id.to ∧ Neighbours vs f s ∧ s ≠ t

end Thema.Spec

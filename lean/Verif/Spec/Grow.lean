import Verif.Spec.Lineage

/-!
# Specification vocabulary for lineages that grow
-/

namespace Thema.Spec

variable {V : Type}

/-- A lens that touches a version not declared in `r`. -/
def TouchesNew (r : RawLineage V) (l : RawLens V) : Prop :=
  l.frm ∉ r.schemas.map (·.version) ∨ l.to ∉ r.schemas.map (·.version)

/-- `r'` is `r` with schemas added at the end, and with lenses added at the end that each touch
a new version. -/
structure Extends (r r' : RawLineage V) : Prop where
  schemas : r.schemas <+: r'.schemas
  lenses : ∃ more, r'.lenses.getD [] = r.lenses.getD [] ++ more ∧ ∀ l ∈ more, TouchesNew r l

end Thema.Spec

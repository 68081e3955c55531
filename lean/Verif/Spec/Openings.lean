import Verif.Spec.VersionLists

/-!
# Where the major versions of a list open

The positions at which a major version opens, and the sums by which the computed
positions of versions of higher majors fall short.
-/

namespace Thema.Spec

/-- The positions at which a major version opens, in order. -/
def openings (vs : List SV) : List Nat :=
  (List.range vs.length).filter (fun k => decide (Opens vs k))

/-- The sum, over all `m` less than `M`, of the positions at which the first `m` major
versions open. -/
def shortfall (vs : List SV) (M : Nat) : Nat :=
  ((List.range M).map (fun m => ((openings vs).take m).sum)).sum

end Thema.Spec

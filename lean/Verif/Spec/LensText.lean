import Verif.Model.LensText
import Verif.Spec.SurfaceExact
import Verif.Spec.AssignText

/-!
# Specification vocabulary for C201 and C202
-/

namespace Thema.Spec

variable {V : Type}

/-- No pair of versions is given twice and no function is nil. -/
def Proper (ls : List (ImperativeLens V)) : Prop :=
  (ls.map pairOf).Nodup ∧ ∀ l ∈ ls, l.mapper ≠ none

/-- How a pair of versions is shown. -/
def shownPair (frm to : SV) : Str := frm.str ++ [' ', '-', '>', ' '] ++ to.str

end Thema.Spec

import Verif.Model.Typed

/-!
# Data written over data

What remains of the defaults of a schema if the data of an instance are decoded over them.
-/

namespace Thema.Spec.Typed

open Thema.Typed

mutual
/-- `new` written over `old`: fields of a struct one by one, and the fields that `new` does not have
stay; a list is replaced as a whole, but if the decoder reuses slices (`reuse`) and the old list is
not empty and not shorter, its first elements are written over one by one. -/
def overlay (reuse : Bool) : D → D → D
  | .list os, .list ns =>
    if reuse = true ∧ os ≠ [] ∧ ns.length ≤ os.length then .list (overlayL reuse os ns)
    else .list ns
  | .st os, .st ns =>
    .st (overlayF reuse os ns ++ os.filter (fun f => (ns.lookup f.1).isNone))
  | _, d => d
/-- The elements of a list, one by one. -/
def overlayL (reuse : Bool) : List D → List D → List D
  | o :: os, n :: ns => overlay reuse o n :: overlayL reuse os ns
  | _, _ => []
/-- The fields of the new struct, written over those of the old one. -/
def overlayF (reuse : Bool) : List (Str × D) → List (Str × D) → List (Str × D)
  | _, [] => []
  | os, (n, d) :: ns =>
    (n, match os.lookup n with
      | some o => overlay reuse o d
      | none => d) :: overlayF reuse os ns
end

end Thema.Spec.Typed

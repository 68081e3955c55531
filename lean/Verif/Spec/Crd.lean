import Verif.Model.Crd

/-!
# Specification vocabulary for custom resource definitions
-/

namespace Thema.Spec

open Thema

/-- The versions that a custom resource definition should have: one for each schema, in order, named
after the version, served if it is among those to be served, stored if it is the one to be stored. -/
def wantedVersions {V : Type} (served : List SV) (storage : SV) (seqs : List (List V)) :
    List (Crd.CrdVersion V) :=
  seqs.zipIdx.flatMap fun x => x.1.zipIdx.map fun y =>
    { name := 'v' :: SV.str ⟨x.2, y.2⟩, served := decide (⟨x.2, y.2⟩ ∈ served),
      storage := decide (⟨x.2, y.2⟩ = storage), schema := y.1 }

end Thema.Spec

import Verif.Spec.Mux

/-!
# Lineages with repeated versions

`BindLineage` accepts lineages in which consecutive schemas have the same version
(C09).  These definitions say where such a lineage can be walked.
-/

namespace Thema.Spec

variable {V : Type}

/-- `q` is the first schema with version `v`. -/
def FirstWith (L : Lineage V) (v : SV) (q : Nat) : Prop :=
  q < L.allsch.length ∧ L.ver q = v ∧ ∀ k < q, L.ver k ≠ v

/-- No version occurs twice among the schemas up to `p`. -/
def DistinctUpTo (L : Lineage V) (p : Nat) : Prop :=
  p < L.allsch.length ∧ ∀ j k, j < k → k ≤ p → L.ver j ≠ L.ver k

/-- The first version that is repeated is not the latest one. -/
def RepeatsEarly (L : Lineage V) : Prop :=
  ∃ i, DistinctUpTo L i ∧ i + 1 < L.allsch.length ∧ L.ver i = L.ver (i + 1) ∧
    L.ver (L.allsch.length - 1) ≠ L.ver i

end Thema.Spec

import Verif.Spec.Translate

/-!
# Where a translation with CUE lenses fails
-/

namespace Thema.Spec

variable {V : Type}

/-- The walk from `p` to `q` with data `x` arrives at some schema in between from where
the next step cannot be made. -/
def Stuck (C : Cue V) (L : Lineage V) (p : Nat) (x : V) (q : Nat) : Prop :=
  (∃ k y, p ≤ k ∧ k < q ∧ Ascend C L p x k y ∧ ∀ z, ¬ StepUp C L k y z) ∨
  (∃ k y, q ≤ k ∧ k < p ∧ Descend C L p x (k + 1) y ∧ ∀ z, ¬ StepDown C L k y z)

/-- The errors of the evaluator are CUE errors. -/
def OnlyCueErrors (C : Cue V) : Prop := ∀ v m, C.validate v ≠ some (.notCue m)

end Thema.Spec

import Verif.Model.FixFile
import Verif.Spec.Fix

/-!
# Specification vocabulary for the place that `thema lineage fix` changes
-/

namespace Thema.Spec

open Thema.Rewrite Thema.Fix Thema.FixFile

/-- Neither place is inside of the other. -/
def Apart (p q : List Nat) : Prop := ¬ p <+: q ∧ ¬ q <+: p

/-- An operand of a unification, of operands of it and so on, all with a field `seqs`. -/
inductive OperandOf : View → View → Prop
  | refl (v) : OperandOf v v
  | step {s l ops w u} : w ∈ ops → w.legacy.isSome → OperandOf u w → OperandOf u (.mk s l ops)

/-- The value is written as a struct literal (or a field with one) somewhere inside of a file. -/
def Literal (W : World) (v : View) : Prop :=
  ∃ l ds, v.src = some l ∧ l.pos ≠ [] ∧ W.get l = some (.struct ds)

end Thema.Spec

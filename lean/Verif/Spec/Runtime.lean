import Verif.Model.Runtime

/-!
# What C208 says
-/

namespace Thema.Runtime

variable {β : Type}

/-- An execution of some length, by any schedule. -/
inductive Run (o : Load β) (ctxs : List Bool) : Nat → St β → Prop
  | init : Run o ctxs 0 (Runtime.init ctxs)
  | step {n s i t} : Run o ctxs n s → step o s i = some t → Run o ctxs (n + 1) t

/-- No call can go on. -/
def Over (o : Load β) (s : St β) : Prop := ∀ i, step o s i = none

/-- A call has ended. -/
def Pc.ended : Pc β → Prop
  | .returned _ => True
  | .panicked _ => True
  | _ => False

end Thema.Runtime

import Verif.Spec.TranslateGo

/-!
# Specification vocabulary for translating step by step
-/

namespace Thema.Spec

variable {V : Type}

/-- `AsSuccessor` called `k` times, up to the first failure; the lacunas of the last call. -/
def climb (C : Cue V) (H : Heap V) (n : Nat) : Nat → Inst V → Res (Inst V × List Lac)
  | 0, i => .ok (i, [])
  | k + 1, i => (asSuccessor H (translate C H n) i).bind fun x => climb C H n k x.1

/-- `AsPredecessor` called `k` times, up to the first failure. -/
def descendBy (C : Cue V) (H : Heap V) (n : Nat) : Nat → Inst V → Res (Inst V × List Lac)
  | 0, i => .ok (i, [])
  | k + 1, i => (asPredecessor H (translate C H n) i).bind fun x => descendBy C H n k x.1

end Thema.Spec

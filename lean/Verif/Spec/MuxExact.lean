import Verif.Spec.Exact

/-!
# Which schemas a multiplexer tries
-/

namespace Thema.Spec

variable {V : Type}

/-- A multiplexer to the schema at position `s` can read data as schema `p`: `p` is the
first schema with its version and has another version than `s`. -/
def Tried (L : Lineage V) (s p : Nat) : Prop :=
  FirstWith L (L.ver p) p ∧ L.ver p ≠ L.ver s

/-- `p` is the newest schema the multiplexer tries that accepts the data. -/
def NewestTried (C : Cue V) (L : Lineage V) (s : Nat) (d : V) (p : Nat) : Prop :=
  Tried L s p ∧ Admits C L p d ∧ ∀ q, p < q → Tried L s q → ¬ Admits C L q d

end Thema.Spec

import Verif.Model.Mux

/-!
# What multiplexers are supposed to do
-/

namespace Thema.Spec

variable {V : Type}

/-- The schema at position `p` accepts the data. -/
def Admits (C : Cue V) (L : Lineage V) (p : Nat) (d : V) : Prop :=
  ∃ s, L.allsch[p]? = some s ∧ C.accepts s.body d

/-- `p` is the newest schema other than `s` that accepts the data. -/
def NewestOther (C : Cue V) (L : Lineage V) (s : Nat) (d : V) (p : Nat) : Prop :=
  p ≠ s ∧ Admits C L p d ∧ ∀ q, p < q → q ≠ s → ¬ Admits C L q d

/-- The data `d` as an instance of schema `p` of the lineage at `lin`. -/
def asInstance (lin p : Nat) (d : V) : Inst V :=
  { raw := d, name := [], sch := ⟨lin, p⟩, valid := true }

end Thema.Spec

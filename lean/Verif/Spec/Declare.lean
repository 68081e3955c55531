import Verif.Model.Declare
import Verif.Spec.AppendOnly

/-!
# Specification vocabulary for declared lineages
-/

namespace Thema.Spec

variable {V : Type}

/-- What is relied on about unifying a join with a schema, and closing it: concrete data that the
result accepts is accepted by both, and the result depends on the schema up to mutual subsumption
only. -/
structure JoinLaws (C : Cue V) (close : V → V) : Prop where
  both : ∀ j s d, C.marshals d = true → C.accepts (close (C.unify j s)) d →
    C.accepts j d ∧ C.accepts s d
  same : ∀ j s t, SameValue C s t → SameBody C (close (C.unify j s)) (close (C.unify j t))

/-- The same lineage with the join schema written out in every schema instead. -/
def writtenOut (C : Cue V) (d : DeclLineage V) : DeclLineage V :=
  match d.join with
  | none => d
  | some j => { d with
      join := none
      schemas := d.schemas.map fun s => { s with schema := C.unify j s.schema } }

/-- Nothing is left of `top` after unifying it with a schema of the lineage that already has its join
schema. -/
def TopNeutral (C : Cue V) (top : V) (d : DeclLineage V) : Prop :=
  ∀ s ∈ (writtenOut C d).schemas, C.unify top s.schema = s.schema

end Thema.Spec

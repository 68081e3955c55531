import Verif.Model.AppendOnly
import Verif.Spec.Lineage

/-!
# Specification vocabulary for append-only checks
-/

namespace Thema.Spec

variable {V : Type}

/-- Two values subsume each other. -/
def SameValue (C : Cue V) (a b : V) : Prop := C.subsumeRaw a b = true ∧ C.subsumeRaw b a = true

/-- `new` keeps the literal `schema` of every schema of `old`, position by
position. -/
def KeepsLiterals (C : Cue V) (old new : List (SchemaDef V)) : Prop :=
  ∀ (i : Nat) (s : SchemaDef V), old[i]? = some s →
    ∃ t : SchemaDef V, new[i]? = some t ∧ SameValue C s.schema t.schema

/-- Two complete schemas (literal plus join) subsume each other under the options
of the compatibility check. -/
def SameBody (C : Cue V) (a b : V) : Prop := C.subsumeAll a b = true ∧ C.subsumeAll b a = true

/-- The complete schema is a function of the literal, up to equality: `old` and
`new` join the same thing to their schemas. -/
def SameJoin (C : Cue V) (old new : List (SchemaDef V)) : Prop :=
  ∀ s ∈ old, ∀ t ∈ new, SameValue C s.schema t.schema → SameBody C s.body t.body

/-- `x.Subsume(y)` is reflexive and transitive. -/
structure PreorderLaws (sub : V → V → Bool) : Prop where
  refl : ∀ a, sub a a = true
  trans : ∀ a b c, sub a b = true → sub b c = true → sub a c = true

end Thema.Spec

import Verif.Model.Rewrite
import Verif.Spec.Lineage

/-!
# Specification vocabulary for rewriting legacy lineages
-/

namespace Thema.Spec

open Thema.Rewrite

variable {α β : Type}

/-- A legacy lineage as its definition allows it (no empty sequence), of a size
that fits into memory. -/
structure LegacyOk (seqs : List (Seq α β)) : Prop where
  nonempty : ∀ s ∈ seqs, s.schemas ≠ []
  fewSeqs : seqs.length < 2 ^ 64
  fewSchemas : ∀ s ∈ seqs, s.schemas.length < 2 ^ 64

/-- The (from, to) pair of a rewritten lens. -/
def pairOfLLens (l : LLens β) : LensID := ⟨l.frm, l.to⟩

/-- Rename the legacy references `from` and `to`, wherever they occur in an
expression. -/
def renameRefs : Ast → Ast
  | .ident n =>
    if n = "from".toList then .ident "input".toList
    else if n = "to".toList then .ident "result".toList
    else .ident n
  | .leaf => .leaf
  | .sel x l => .sel (renameRefs x) l
  | .pair l r => .pair (renameRefs l) (renameRefs r)

/-- `from` or `to` occurs as an expression. -/
def Mentions : Ast → Prop
  | .ident n => n = "from".toList ∨ n = "to".toList
  | .leaf => False
  | .sel x _ => Mentions x
  | .pair l r => Mentions l ∨ Mentions r

/-- References to `from` and `to` occur only as `from.x`, `to.x` that are not
themselves selected from. -/
def ShallowRefs : Ast → Prop
  | .ident n => ¬ Mentions (.ident n)
  | .leaf => True
  | .sel (.ident _) _ => True
  | .sel x _ => ¬ Mentions x
  | .pair l r => ShallowRefs l ∧ ShallowRefs r

end Thema.Spec

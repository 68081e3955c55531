import Verif.Model.Migrate
import Verif.Spec.Rewrite
import Verif.Spec.Translate

/-!
# Specification vocabulary for rewritten legacy lineages
-/

namespace Thema.Spec

open Thema.Rewrite Thema.Migrate

variable {V : Type}

/-- The expression uses this name. -/
def Uses (n : Str) : Ast → Prop
  | .ident m => m = n
  | .leaf => False
  | .sel x _ => Uses n x
  | .pair l r => Uses n l ∨ Uses n r

/-- A legacy lens of the form that keeps its meaning: `from` is used only as in `from.x`; `to` and
the names that the new form has for it are not used. -/
def Plain (rel : Ast) : Prop :=
  ShallowRefs rel ∧ ¬ Uses "to".toList rel ∧ ¬ Uses "input".toList rel ∧
    ¬ Uses "result".toList rel

/-- Every sequence of the legacy lineage has one schema, and every one but the first has both
lenses. -/
structure Complete (seqs : List (Seq V Ast)) : Prop where
  one : ∀ s ∈ seqs, ∃ b, s.schemas = [b]
  lenses : ∀ i s, seqs[i + 1]? = some s → s.forward.isSome = true ∧ s.reverse.isSome = true

/-- This is the body of a lens of the legacy lineage that leads to or from one of its sequences. -/
def LensBody (seqs : List (Seq V Ast)) (rel : Ast) : Prop :=
  ∃ i s, seqs[i + 1]? = some s ∧ (s.forward = some rel ∨ s.reverse = some rel)

/-- No schema accepts all data of the one before it. -/
def Breaking (C : Cue V) (body : V → V) (seqs : List (Seq V Ast)) : Prop :=
  ∀ i s t a b, seqs[i]? = some s → seqs[i + 1]? = some t → s.schemas = [a] → t.schemas = [b] →
    C.subsumeAll (body b) (body a) = false

/-- Going up in the legacy lineage, from sequence to sequence, with its forward lenses. -/
inductive LegacyUp (C : Cue V) (K : Ctx V) (body : V → V) (seqs : List (Seq V Ast)) :
    Nat → V → Nat → V → Prop
  | refl (p : Nat) (x : V) : LegacyUp C K body seqs p x p x
  | step {p q : Nat} {x y : V} {s : Seq V Ast} {rel : Ast} {b : V} (hs : seqs[p + 1]? = some s)
      (hr : s.forward = some rel) (hb : s.schemas = [b])
      (hok : C.isErr (C.embed (legacyRun K b rel x) (body b)) = false)
      (t : LegacyUp C K body seqs (p + 1) (C.embed (legacyRun K b rel x) (body b)) q y) :
      LegacyUp C K body seqs p x q y

/-- Going down in the legacy lineage with its reverse lenses. -/
inductive LegacyDown (C : Cue V) (K : Ctx V) (body : V → V) (seqs : List (Seq V Ast)) :
    Nat → V → Nat → V → Prop
  | refl (p : Nat) (x : V) : LegacyDown C K body seqs p x p x
  | step {p q : Nat} {x y : V} {s t : Seq V Ast} {rel : Ast} {b : V}
      (hs : seqs[p + 1]? = some s) (ht : seqs[p]? = some t)
      (hr : s.reverse = some rel) (hb : t.schemas = [b])
      (hok : C.isErr (C.embed (legacyRun K b rel x) (body b)) = false)
      (t : LegacyDown C K body seqs p (C.embed (legacyRun K b rel x) (body b)) q y) :
      LegacyDown C K body seqs (p + 1) x q y

end Thema.Spec

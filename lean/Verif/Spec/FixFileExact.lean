import Verif.Spec.FixFile
import Verif.Spec.FixExact

/-!
# Specification vocabulary for C188
-/

namespace Thema.Spec

open Thema.Rewrite Thema.Fix Thema.FixFile

/-- The first value written as a struct literal: the value itself, or that of the first operand, from
left to right, which has a field `seqs` and such a value. -/
inductive FirstLiteral (W : World) : View → View → Prop
  | here {v} : Literal W v → FirstLiteral W v v
  | later {s l pre w post u} : ¬ Literal W (.mk s l (pre ++ w :: post)) → w.legacy.isSome →
      (∀ x ∈ pre, x.legacy.isSome → ∀ y, OperandOf y x → ¬ Literal W y) →
      FirstLiteral W w u → FirstLiteral W (.mk s l (pre ++ w :: post)) u

/-- The value that is rewritten: the first written as a struct literal; if there is none and the path
is empty, the value at the path. -/
def Picked (W : World) (root : Bool) (v u : View) : Prop :=
  FirstLiteral W v u ∨ (root = true ∧ u = v ∧ ∀ w, OperandOf w v → ¬ Literal W w)

/-- The second tree is the first with what is at the end of the way replaced. -/
inductive Put (x : Syn) : List Nat → Syn → Syn → Prop
  | here {t} : Put x [] t x
  | decl {p l d d' pre post} : Put x p d d' →
      Put x (pre.length :: p) (.struct (pre ++ (l, d) :: post)) (.struct (pre ++ (l, d') :: post))
  | elem {p d d' pre post} : Put x p d d' →
      Put x (pre.length :: p) (.list (pre ++ d :: post)) (.list (pre ++ d' :: post))
  | part {k p d d' pre post} : Put x p d d' →
      Put x (pre.length :: p) (.expr k (pre ++ d :: post)) (.expr k (pre ++ d' :: post))

/-- What stands at the end of a way down a tree: replacing it by itself changes nothing. -/
def StandsAt (p : List Nat) (t x : Syn) : Prop := Put x p t t

/-- Bodies and lacunas that stand in file `i` are renamed, one after the other. -/
inductive RenamedIn (rw : Syn → Syn) (i : Nat) : List Loc → Syn → Syn → Prop
  | done {f} : RenamedIn rw i [] f f
  | elsewhere {b bs f g} : b.file ≠ i ∨ (¬ ∃ t, StandsAt b.pos f t) → RenamedIn rw i bs f g →
      RenamedIn rw i (b :: bs) f g
  | change {b bs f t f' g} : b.file = i → StandsAt b.pos f t → Put (rw t) b.pos f f' →
      RenamedIn rw i bs f' g → RenamedIn rw i (b :: bs) f g

/-- Renaming leaves the shape of syntax alone. -/
def KeepsShape (rw : Syn → Syn) : Prop := ∀ p t, (∃ x, StandsAt p (rw t) x) ↔ ∃ x, StandsAt p t x

/-- A legacy lineage that can be rewritten. -/
def Rewritable (seqs : List (Seq Source Lens)) : Prop :=
  SchemasWritten seqs ∧ ∀ x ∈ usedLenses seqs, Lens.Good x

/-- The value at the path is a legacy lineage, of which `u` is rewritten: it has the parts `lin`. -/
def Rewrites (W : World) (root : Bool) (v : Option View) (u : View) (lin : Legacy) : Prop :=
  ∃ w, v = some w ∧ w.legacy.isSome ∧ Picked W root w u ∧ u.legacy = some lin

/-- The literal stands at `l` in a file of the package; `g` is this file with references renamed, and
`t` is what then stands at the place. -/
def Stands (rw : Syn → Syn) (W : World) (u : View) (lin : Legacy) (l : Loc) (g t : Syn) : Prop :=
  u.src = some l ∧ ∃ f, W.files[l.file]? = some f ∧ RenamedIn rw l.file lin.bodies f g ∧
    StandsAt l.pos g t

/-- Both a schema and what is to be replaced have a field `seqs`. -/
def Loops (lin : Legacy) (t : Syn) : Prop :=
  InSchemas "seqs".toList lin.seqs ∧ HasField "seqs".toList t

/-- What file `i` becomes. -/
def Becomes (rw : Syn → Syn) (W : World) (root : Bool) (v : Option View) (i : Nat) (c : Syn) : Prop :=
  ∃ u lin l g t, Rewrites W root v u lin ∧ Rewritable lin.seqs ∧ Stands rw W u lin l g t ∧
    ¬ Loops lin t ∧ l.file = i ∧
    Put (replaceSeqs (newSchemas lin.seqs) (newLenses rw lin.seqs) t) l.pos g c

end Thema.Spec

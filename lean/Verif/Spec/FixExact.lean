import Verif.Spec.Fix

/-!
# Specification vocabulary for C182 and C183
-/

namespace Thema.Spec

open Thema.Rewrite Thema.Fix

mutual
/-- Every field `seqs`, at whatever depth, is replaced by the two fields. -/
def replaceSeqs (S L : Syn) : Syn → Syn
  | .leaf t => .leaf t
  | .struct ds => .struct (replaceDecls S L ds)
  | .list es => .list (replaceEach S L es)
  | .expr k es => .expr k (replaceEach S L es)

/-- In declarations. -/
def replaceDecls (S L : Syn) : List (Option Str × Syn) → List (Option Str × Syn)
  | [] => []
  | (l, v) :: ds =>
    (if l = some "seqs".toList then [(some "schemas".toList, S), (some "lenses".toList, L)]
      else [(l, replaceSeqs S L v)]) ++ replaceDecls S L ds

/-- In parts of an expression. -/
def replaceEach (S L : Syn) : List Syn → List Syn
  | [] => []
  | e :: es => replaceSeqs S L e :: replaceEach S L es
end

/-- The declarations of a schema that is written as a struct literal. -/
def declsOf : Source → List (Option Str × Syn)
  | .lit ds => ds
  | _ => []

/-- The new schemas: the `j`-th of the `i`-th sequence as version `i.j`. -/
def newSchemas (seqs : List (Seq Source Lens)) : Syn :=
  .list (seqs.zipIdx.flatMap fun s => s.1.schemas.zipIdx.map fun x =>
    writtenSchema ⟨s.2, x.2⟩ (declsOf x.1))

/-- The body of a lens, with references renamed; `{_|_}` if there is none. -/
def newBody (rw : Syn → Syn) : Option Lens → Syn
  | some ⟨some (.field v), _⟩ => rw v
  | _ => .struct [(none, .leaf "_|_".toList)]

/-- The lacunas of a lens, with references renamed. -/
def newLacunas (rw : Syn → Syn) : Option Lens → Syn
  | some ⟨_, some (.field v)⟩ => rw v
  | _ => .list []

/-- The new lenses of sequence `i`: between its first version and the last of the sequence before
it (which has `last + 1` schemas), back and forth; then back within the sequence. -/
def newLensesOf (rw : Syn → Syn) (i last : Nat) (s : Seq Source Lens) : List Syn :=
  (if i = 0 then [] else
    [writtenLens ⟨⟨i, 0⟩, ⟨i - 1, last⟩⟩ (newBody rw s.reverse) (newLacunas rw s.reverse),
     writtenLens ⟨⟨i - 1, last⟩, ⟨i, 0⟩⟩ (newBody rw s.forward) (newLacunas rw s.forward)]) ++
  (List.range (s.schemas.length - 1)).map fun j =>
    writtenLens ⟨⟨i, j + 1⟩, ⟨i, j⟩⟩ (newBody rw none) (newLacunas rw none)

/-- The new lenses of all sequences, the first of which has number `i`. -/
def newLensesFrom (rw : Syn → Syn) : Nat → Nat → List (Seq Source Lens) → List Syn
  | _, _, [] => []
  | i, last, s :: rest =>
    newLensesOf rw i last s ++ newLensesFrom rw (i + 1) (s.schemas.length - 1) rest

/-- The new lenses. -/
def newLenses (rw : Syn → Syn) (seqs : List (Seq Source Lens)) : Syn :=
  .list (newLensesFrom rw 0 0 seqs)

/-- The lenses that are looked at, in order: those of all sequences but the first. -/
def usedLenses (seqs : List (Seq Source Lens)) : List Lens :=
  seqs.tail.flatMap fun s => s.reverse.toList ++ s.forward.toList

/-- A lens that can be carried over: body and lacunas are written as struct and list literals, if
there are any. -/
def Lens.Good (l : Lens) : Prop := Lens.MapperOk l ∧ Lens.LacunasOk l

/-- A lens that is reported: CUE has no source of its body, or it is a field with something other
than a struct literal. -/
def Lens.Reported (l : Lens) : Prop :=
  l.mapper = some .nil ∨ ∃ v, l.mapper = some (.field v) ∧ ∀ ds, v ≠ .struct ds

/-- A lens that crashes: the body has a source that is no field, or the body is good and the
lacunas have a source that is no field with a list literal. -/
def Lens.Crashes (l : Lens) : Prop :=
  (∃ m, l.mapper = some m ∧ m ≠ .nil ∧ ∀ v, m ≠ .field v) ∨
  (Lens.MapperOk l ∧ ¬ Lens.LacunasOk l)

end Thema.Spec

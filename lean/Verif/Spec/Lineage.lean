import Verif.Model.Bind
import Verif.Spec.Version

/-!
# Specification vocabulary for lineages

Stated by positions in the list of declared versions.
-/

namespace Thema.Spec

variable {V : Type}

/-- Versions never go down. -/
def NonDecreasing (vs : List SV) : Prop :=
  ∀ i j (_ : i < j) (_ : j < vs.length), NotAfter vs[i] vs[j]

/-- Versions always go up (in particular there are no repetitions). -/
def StrictlyIncreasing (vs : List SV) : Prop :=
  ∀ i j (_ : i < j) (_ : j < vs.length), Before vs[i] vs[j]

/-- `b` is the next minor version after `a`, or opens the next major version. -/
def NextVersion (a b : SV) : Prop :=
  b = ⟨a.major, a.minor + 1⟩ ∨ b = ⟨a.major + 1, 0⟩

/-- The versions start at 0.0 and have no gaps. -/
def Contiguous (vs : List SV) : Prop :=
  vs.head? = some ⟨0, 0⟩ ∧ ∀ i (_ : i + 1 < vs.length), NextVersion vs[i] vs[i + 1]

/-- The (from, to) pairs for which an author must write a lens: backward between
any two neighbours, forward between neighbours of different major versions. -/
def Required (vs : List SV) (id : LensID) : Prop :=
  ∃ i, ∃ _ : i + 1 < vs.length,
    id = ⟨vs[i + 1], vs[i]⟩ ∨ (vs[i].major ≠ vs[i + 1].major ∧ id = ⟨vs[i], vs[i + 1]⟩)

/-- Every non-zero minor version subsumes its immediate predecessor, every
minor version zero does not. -/
def CompatRule (C : Cue V) (schemas : List (SchemaDef V)) : Prop :=
  ∀ i (_ : i + 1 < schemas.length),
    (schemas[i + 1].v.minor ≠ 0 ↔ C.subsumeAll schemas[i + 1].body schemas[i].body = true)

/-- A list of (to, from) pairs sorted by `to`, then by `from`. -/
def LensSorted (ps : List (SV × SV)) : Prop :=
  ∀ i j (_ : i < j) (_ : j < ps.length),
    Before ps[i].1 ps[j].1 ∨ (ps[i].1 = ps[j].1 ∧ NotAfter ps[i].2 ps[j].2)

end Thema.Spec

namespace Thema.Spec

variable {V : Type}

/-- The Go lenses among the bind options, in order. -/
def goLenses (opts : List (BindOption V)) : List (ImperativeLens V) :=
  opts.flatMap fun
    | .imperativeLenses ls => ls
    | .skipBuggyChecks => []

/-- The (from, to) pair of a Go lens. -/
def pairOf (l : ImperativeLens V) : LensID := ⟨l.frm, l.to⟩

/-- Compatibility checks are in force. -/
def ChecksOn (force : Bool) (opts : List (BindOption V)) : Prop :=
  force = true ∨ BindOption.skipBuggyChecks ∉ opts

/-- Everything `BindLineage` requires apart from lenses, for declared versions
`vs`: the value exists, `name` and `schemas` are concrete, CUE finds no error in
it, there is at least one schema, versions never go down, and compatibility
matches the version numbers (unless that check is skipped). -/
structure SchemasAcceptable (C : Cue V) (force : Bool) (r : RawLineage V)
    (opts : List (BindOption V)) (vs : List SV) : Prop where
  present : r.exists_ = true
  name : r.nameField = .concrete
  schemas : r.schemasField = .concrete
  noFinalErr : r.finalErr = false
  noRawErr : r.rawErr = false
  noUniErr : r.uniErr = false
  versions : r.schemas.map (·.version) = vs.map some
  nonempty : vs ≠ []
  counts : countsOk vs = true
  order : NonDecreasing vs
  compat : ChecksOn force opts → ∀ i (_ : i + 1 < r.schemas.length) (_ : i + 1 < vs.length),
    (vs[i + 1].minor ≠ 0 ↔ C.subsumeAll r.schemas[i + 1].body r.schemas[i].body = true)

/-- The required pairs in lineage order (a list, to count repetitions): for each
further version, back to the one before it, and forward if the major changed. -/
def requiredList : List SV → List LensID
  | a :: b :: rest =>
    ⟨b, a⟩ :: ((if b.major ≠ a.major then [⟨a, b⟩] else []) ++ requiredList (b :: rest))
  | _ => []

end Thema.Spec

import Verif.Model.Fix
import Verif.Spec.Rewrite

/-!
# Specification vocabulary for `thema lineage fix`
-/

namespace Thema.Spec

open Thema.Rewrite Thema.Fix

/-- Somewhere in a piece of syntax, at whatever depth, is a field with this name. -/
inductive HasField (name : Str) : Syn → Prop
  | here {ds v} : (some name, v) ∈ ds → HasField name (.struct ds)
  | decl {ds l v} : (l, v) ∈ ds → HasField name v → HasField name (.struct ds)
  | elem {es e} : e ∈ es → HasField name e → HasField name (.list es)
  | part {k es e} : e ∈ es → HasField name e → HasField name (.expr k es)

/-- The lens has a body that is a struct literal, or none. -/
def Lens.MapperOk (l : Lens) : Prop :=
  ∀ s, l.mapper = some s → ∃ ds, s = .field (.struct ds)

/-- The lacunas of the lens are written as a list, or there are none. -/
def Lens.LacunasOk (l : Lens) : Prop :=
  ∀ s, l.lacunas = some s → s = .nil ∨ ∃ es, s = .field (.list es)

/-- Every schema is written as a struct literal. -/
def SchemasWritten (seqs : List (Seq Source Lens)) : Prop :=
  ∀ s ∈ seqs, ∀ x ∈ s.schemas, ∃ ds, x = .lit ds

/-- Every lens body is written as a struct literal. -/
def MappersWritten (seqs : List (Seq Source Lens)) : Prop :=
  ∀ s ∈ seqs, ∀ l, (s.forward = some l ∨ s.reverse = some l) → Lens.MapperOk l

/-- Every lens body is written as the value of a field. -/
def MappersFields (seqs : List (Seq Source Lens)) : Prop :=
  ∀ s ∈ seqs, ∀ l, (s.forward = some l ∨ s.reverse = some l) →
    ∀ m, l.mapper = some m → m = .nil ∨ ∃ v, m = .field v

/-- All lacunas are written as lists. -/
def LacunasWritten (seqs : List (Seq Source Lens)) : Prop :=
  ∀ s ∈ seqs, ∀ l, (s.forward = some l ∨ s.reverse = some l) → Lens.LacunasOk l

/-- Some schema has, at whatever depth, a field with this name. -/
def InSchemas (name : Str) (seqs : List (Seq Source Lens)) : Prop :=
  ∃ s ∈ seqs, ∃ ds, Source.lit ds ∈ s.schemas ∧ HasField name (.struct ds)

/-- The number of a version, written as a list. -/
def writtenVersion (v : SV) : Syn :=
  .list [.leaf (toString v.major).toList, .leaf (toString v.minor).toList]

/-- `{version: [i, j], schema: {...}}`. -/
def writtenSchema (v : SV) (ds : List (Option Str × Syn)) : Syn :=
  .struct [(some "version".toList, writtenVersion v), (some "schema".toList, .struct ds)]

/-- `{to: .., from: .., input: _, result: .., lacunas: ..}`. -/
def writtenLens (id : LensID) (body lacunas : Syn) : Syn :=
  .struct [(some "to".toList, writtenVersion id.to), (some "from".toList, writtenVersion id.frm),
    (some "input".toList, .leaf "_".toList), (some "result".toList, body),
    (some "lacunas".toList, lacunas)]

/-- Body and lacunas of the new lens are those of the legacy lens, with references renamed; a
lens that there was not has the body `{_|_}` and no lacunas. -/
def SameLens (rw : Syn → Syn) (l : Option Lens) (body lacunas : Syn) : Prop :=
  (∀ x ds, l = some x → x.mapper = some (.field (.struct ds)) → body = rw (.struct ds)) ∧
  (∀ x es, l = some x → x.lacunas = some (.field (.list es)) → lacunas = rw (.list es)) ∧
  ((∀ x, l = some x → x.mapper = none) → body = .struct [(none, .leaf "_|_".toList)]) ∧
  ((∀ x, l = some x → x.lacunas = none) → lacunas = .list [])

end Thema.Spec

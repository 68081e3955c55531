import Verif.Model.Bind

/-!
# Lineages as their authors declare them

`lineage.cue:11-47,192-241`: what `#Lineage` and `#SchemaDef` make of a declaration before
`BindLineage` looks at it.
-/

namespace Thema

/-- An element of `schemas` as written (`lineage.cue:207-241`).  `version` is `none` if it is left
out, and `some none` if it is there but not concrete. -/
structure DeclSchema (V : Type) where
  version : Option (Option SV)
  schema : V
  examples : List (Str × V)

/-- A lineage as written: `joinSchema` may be left out.  The other fields are those of
`RawLineage`. -/
structure DeclLineage (V : Type) where
  exists_ : Bool
  nameField : FieldState
  schemasField : FieldState
  name : Str
  finalErr : Bool
  rawErr : Bool
  uniErr : Bool
  join : Option V
  schemas : List (DeclSchema V)
  lenses : Option (List (RawLens V))

variable {V : Type}

/-- `lineage.cue:207-241`, `#SchemaDef`, with `_join` filled in: a version that is left out is the
default `[0, 0]` (`lineage.cue:221`); `_#schema` is `_join & schema`, closed since it is a definition
(`lineage.cue:234`; `close`); examples are unified with it (`lineage.cue:240`). -/
def DeclSchema.raw (C : Cue V) (close : V → V) (join : V) (s : DeclSchema V) : RawSchema V :=
  { version := s.version.getD (some ⟨0, 0⟩)
    schema := s.schema
    body := close (C.unify join s.schema)
    examples := s.examples.map fun e => (e.1, C.unify (close (C.unify join s.schema)) e.2) }

/-- `lineage.cue:11-47`: a `joinSchema` that is left out is `top` (`lineage.cue:31`), and it is the
`_join` of all schemas (`lineage.cue:45-47`). -/
def DeclLineage.raw (C : Cue V) (close : V → V) (top : V) (d : DeclLineage V) : RawLineage V :=
  { exists_ := d.exists_, nameField := d.nameField, schemasField := d.schemasField,
    name := d.name, finalErr := d.finalErr, rawErr := d.rawErr, uniErr := d.uniErr,
    schemas := d.schemas.map (DeclSchema.raw C close (d.join.getD top)),
    lenses := d.lenses }

end Thema

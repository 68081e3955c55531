import Verif.Model.OGen

/-!
# Merging the members of `allOf`

`internal/deepmap/oapi-codegen/pkg/codegen/merge_schemas.go` and the use of it in
`schema.go:255-284`: what `GenerateGoSchema` makes of schemas with `allOf` if not all members of
it are references.  The result is a schema as `OGen.gen` takes it.  (Two definitions with the same
Go name are the same if the schemas before merging are, `schema.go:266`; here those after merging
are compared.)

Files without a directory are in `internal/deepmap/oapi-codegen/pkg/codegen`.
-/

namespace Thema.OMerge

open Thema.OGen

/-- `Schema.Type`; the first is the empty string. -/
inductive Typ
  | none | object | array
  | prim (kind : Kind)
  deriving DecidableEq

/-- The fields of `openapi3.Schema` that have to be the same for two schemas to be merged
(`merge_schemas.go:152-192`). -/
structure Flags where
  uniqueItems : Bool := false
  exclusiveMin : Bool := false
  exclusiveMax : Bool := false
  nullable : Bool := false
  readOnly : Bool := false
  writeOnly : Bool := false
  allowEmptyValue : Bool := false
  deriving DecidableEq

mutual
/-- `openapi3.SchemaRef`: a reference to `#/components/schemas/<name>`, or a schema. -/
inductive MS
  | ref (name : Str)
  | val (h : MH)
/-- `openapi3.Schema`: the type; the format; the allowed values, as `fmt.Sprintf("%v")` has them;
whether there is a default; the flags; the names of the required properties; the properties; the
additional properties; the items; the alternatives of `oneOf` and `anyOf`; the members of `allOf`.

Left out: extensions; discriminators; descriptions but for alternatives; bounds and patterns, which
merging drops and no Go type has; allowed values of arrays. -/
inductive MH
  | mk (typ : Typ) (format : Str) (enum : List Str) (dflt : Bool) (flags : Flags)
      (required : List Str) (props : MPs) (addl : MAs) (items : MIs) (one any : MEs)
      (parts : MParts)
/-- Properties, in the order of their names: the name; whether it is nullable (for a reference,
what it refers to). -/
inductive MPs
  | nil
  | cons (name : Str) (nullable : Bool) (s : MS) (rest : MPs)
/-- Additional properties: none, any, or those of a schema. -/
inductive MAs
  | no
  | free
  | of (s : MS)
/-- The schema of the elements of an array, if there is one. -/
inductive MIs
  | no
  | of (s : MS)
/-- Alternatives: whether they have a description. -/
inductive MEs
  | nil
  | cons (described : Bool) (s : MS) (rest : MEs)
/-- Members of `allOf`: the name if it is a reference; the schema, for references what they refer
to (`SchemaRef.Value`).  So no schema is a member of itself: the code would not end. -/
inductive MParts
  | nil
  | cons (ref : Option Str) (h : MH) (rest : MParts)
end

/-- `openapi3.Schema` without `allOf`, where the schemas in it are as `gen` takes them, or the
error that they give when they are looked at. -/
structure RH where
  typ : Typ := .none
  format : Str := []
  enum : List Str := []
  dflt : Bool := false
  flags : Flags := {}
  required : List Str := []
  props : List (Str × Bool × Res OS) := []
  /-- `AdditionalProperties.Has` -/
  has : Bool := false
  /-- `AdditionalProperties.Schema` -/
  addl : Option (Res OS) := none
  items : Option (Res OS) := none
  one : List (Bool × Res OS) := []
  any : List (Bool × Res OS) := []

/-- The assignment `m[k] = v`, and the place of the key among the others. -/
def setProp (k : Str) (v : Bool × Res OS) :
    List (Str × Bool × Res OS) → List (Str × Bool × Res OS)
  | [] => [(k, v)]
  | e :: es =>
    if k = e.1 then (k, v) :: es
    else if strLt k e.1 then (k, v) :: e :: es
    else e :: setProp k v es

/-- `utils.go:665-674`, `SchemaHasAdditionalProperties`. -/
def RH.hasAddl (h : RH) : Bool := h.has || h.addl.isSome

/-- `merge_schemas.go:82-223`, `mergeOpenapiSchemas`, of schemas without `allOf`. -/
def merge2 (a b : RH) : Res RH :=
  if a.typ ≠ .none ∧ b.typ ≠ .none ∧ a.typ ≠ b.typ then .err ⟨[]⟩
  else if a.format ≠ b.format then .err ⟨[]⟩
  else if a.dflt ∨ b.dflt then .err ⟨[]⟩
  else if a.flags ≠ b.flags then .err ⟨[]⟩
  else if a.hasAddl ∧ b.hasAddl then .err ⟨[]⟩
  else .ok
    { typ := a.typ, format := a.format, enum := a.enum ++ b.enum, flags := a.flags,
      required := a.required ++ b.required,
      props := b.props.foldl (fun m e => setProp e.1 e.2 m) a.props,
      addl := b.addl.or a.addl, one := a.one ++ b.one }

/-- Whether there is a member that is not a reference. -/
def MParts.inline : MParts → Bool
  | .nil => false
  | .cons none _ _ => true
  | .cons (some _) _ rest => rest.inline

/-- The names of the references. -/
def MParts.refs : MParts → List Str
  | .nil => []
  | .cons none _ rest => rest.refs
  | .cons (some n) _ rest => n :: rest.refs

/-- The names of the references before the first member that is none. -/
def MParts.before : MParts → List Str
  | .cons (some n) _ rest => n :: rest.before
  | _ => []

/-- `schema.go:270-281`: the references before the first other member become properties, but for
those with an underscore in their name. -/
def embedRefs (ns : List Str) (m : List (Str × Bool × Res OS)) : List (Str × Bool × Res OS) :=
  ns.foldl (fun m n => if n.contains '_' then m else setProp n (false, .ok .inner) m) m

/-- The properties in a list; the first error, if there is one. -/
def toPs (required : List Str) : List (Str × Bool × Res OS) → Res OPs
  | [] => .ok .nil
  | (n, nl, s) :: ps => s.bind fun s => (toPs required ps).bind fun ps =>
      .ok (.cons n (required.contains n) nl s ps)

/-- The alternatives in a list; the first error, if there is one. -/
def toEs : List (Bool × Res OS) → Res OEs
  | [] => .ok .nil
  | (d, s) :: es => s.bind fun s => (toEs es).bind fun es => .ok (.cons d s es)

/-- A schema without other members of `allOf` than references to `refs`. -/
def RH.toOS (h : RH) (refs : List Str) : Res OS :=
  match h.typ with
  | .prim k => .ok (.prim k h.format h.enum)
  | .array => match h.items with
    | none => .ok (.arr (.obj false [] .nil .no .nil))
    | some s => s.bind fun s => .ok (.arr s)
  | t => (toPs h.required h.props).bind fun ps => (toEs (h.any ++ h.one)).bind fun es =>
      match h.addl with
      | some s => s.bind fun s => .ok (.obj (t = .object) refs ps (.of s) es)
      | none => .ok (.obj (t = .object) refs ps (if h.has then .free else .no) es)

/-- `additionalProperties: true`. -/
def MAs.isFree : MAs → Bool
  | .free => true
  | .no => false
  | .of _ => false

mutual
/-- What `GenerateGoSchema` makes of a schema before it looks at its type. -/
def conv : MS → Res OS
  | .ref n => .ok (.ref n)
  | .val h => convH h
/-- `schema.go:255-284`: references stay; if there is another member, all are merged
(`merge_schemas.go:22-41`, `mergeSchemas`; the base has no `allOf` there). -/
def convH : MH → Res OS
  | .mk typ format enum dflt flags required props addl items one any parts =>
    let h : RH := ⟨typ, format, enum, dflt, flags, required, convPs props,
      addl.isFree, convA addl, convI items, convEs one, convEs any⟩
    if parts.inline then
      (mergeParts { h with props := embedRefs parts.before h.props } parts).bind (·.toOS [])
    else h.toOS parts.refs
/-- The properties, each with its own result. -/
def convPs : MPs → List (Str × Bool × Res OS)
  | .nil => []
  | .cons n nl s ps => (n, nl, conv s) :: convPs ps
/-- The schema of the additional properties. -/
def convA : MAs → Option (Res OS)
  | .no => none
  | .free => none
  | .of s => some (conv s)
/-- The schema of the items. -/
def convI : MIs → Option (Res OS)
  | .no => none
  | .of s => some (conv s)
/-- The alternatives. -/
def convEs : MEs → List (Bool × Res OS)
  | .nil => []
  | .cons d s es => (d, conv s) :: convEs es
/-- `merge_schemas.go:29-39` and `70-76`, the loops of `mergeSchemas` and `mergeAllOf`. -/
def mergeParts (acc : RH) : MParts → Res RH
  | .nil => .ok acc
  | .cons _ h rest => (flat h).bind fun f => (merge2 acc f).bind fun r => mergeParts r rest
/-- A member: one with `allOf` itself is replaced by what its own members are merged to
(`merge_schemas.go:104-119`), but its own alternatives of `oneOf` are kept
(`merge_schemas.go:99`).  The first of the two schemas never has `allOf`. -/
def flat : MH → Res RH
  | .mk typ format enum dflt flags required props addl items one any parts =>
    match parts with
    | .nil => .ok ⟨typ, format, enum, dflt, flags, required, convPs props,
        addl.isFree, convA addl, convI items, convEs one, convEs any⟩
    | .cons r h rest => (mergeParts {} (.cons r h rest)).bind fun m =>
        .ok { m with one := convEs one }
end

/-- All components, as `OGen.goTypes` takes them. -/
def convAll : List (Str × MH) → Res (List (Str × OS))
  | [] => .ok []
  | (n, h) :: cs => (convH h).bind fun s => (convAll cs).bind fun cs => .ok ((n, s) :: cs)

end Thema.OMerge

import Verif.Model.JSchema

/-!
# What OpenAPI 3.0.0 and JSON Schema (Draft 4) schemas accept

An independent semantics of schema documents, used to say what the rewriting must
preserve.  It only shares the syntax trees with the model.
-/

namespace Thema.JSchema

/-- JSON data. -/
inductive J
  | null
  | bool (b : Bool)
  | int (i : Int)
  | float (digits : String)
  | str (s : String)
  | arr (xs : List J)
  | obj (ms : List (String × J))

/-- Which standard a document is read by. -/
inductive Dialect
  | openapi
  | draft4
  deriving DecidableEq

/-- The value of the first field with the given literal label. -/
def lookupLit : List Node → String → Option Node
  | [], _ => none
  | .field (.str s) x :: es, k => if s = k then some x else lookupLit es k
  | _ :: es, k => lookupLit es k

def J.isNull : J → Bool
  | .null => true
  | _ => false

/-- The primitive types; the same names in both standards. -/
def J.hasType : J → String → Bool
  | .null, t => t == "null"
  | .bool _, t => t == "boolean"
  | .int _, t => t == "integer" || t == "number"
  | .float _, t => t == "number"
  | .str _, t => t == "string"
  | .arr _, t => t == "array"
  | .obj _, t => t == "object"

/-- Keyword `type`: one name, or (Draft 4) a list of names. -/
def typeOk (x : Node) (v : J) : Bool :=
  match x with
  | .str t => v.hasType t
  | .list ts => ts.any fun t => match t with
    | .str t => v.hasType t
    | _ => false
  | _ => false

/-- Keyword `properties`: members that are present satisfy their schema. -/
def propsOk (V : Node → J → Bool) (x : Node) (v : J) : Bool :=
  match x, v with
  | .struct ps, .obj ms => ms.all fun m => match lookupLit ps m.1 with
    | some s => V s m.2
    | none => true
  | _, _ => true

/-- The names given by the sibling keyword `properties`. -/
def propNames (es : List Node) : List String :=
  match lookupLit es "properties" with
  | some (.struct ps) => ps.filterMap fun p => match p with
    | .field (.str s) _ => some s
    | _ => none
  | _ => []

/-- Keyword `additionalProperties`: the other members satisfy its schema. -/
def additionalOk (V : Node → J → Bool) (es : List Node) (x : Node) (v : J) : Bool :=
  match v with
  | .obj ms => ms.all fun m => m.1 ∈ propNames es || V x m.2
  | _ => true

/-- Keyword `items`. -/
def itemsOk (V : Node → J → Bool) (x : Node) (v : J) : Bool :=
  match v with
  | .arr xs => xs.all (V x)
  | _ => true

/-- Keywords `oneOf`, `anyOf`, `allOf`, `not`. -/
def logicOk (V : Node → J → Bool) (k : String) (x : Node) (v : J) : Bool :=
  match x with
  | .list ss =>
    if k = "oneOf" then (ss.filter (V · v)).length == 1
    else if k = "anyOf" then ss.any (V · v)
    else ss.all (V · v)
  | x => !(V x v)

def logicKeys : List String := ["oneOf", "anyOf", "allOf", "not"]

/-- Keyword `$ref`, for references to components. -/
def refOk (C : String → Option Node) (V : Node → J → Bool) (x : Node) (v : J) : Bool :=
  match x with
  | .str r => match C r with
    | some s => V s v
    | none => false
  | _ => false

/-- Keywords that say nothing about which data is accepted: the annotations of
OpenAPI, which JSON Schema does not know, and `$schema`.  `nullable` is dealt with
separately. -/
def annotations : List String :=
  ["deprecated", "discriminator", "example", "externalDocs", "readOnly", "writeOnly", "xml",
   "nullable", "$schema"]

/-- One keyword of a schema holds of the data.  The keywords not listed (`required`,
`enum`, `minimum`, `pattern`, …) are left to an arbitrary function, as their values
contain no schemas. -/
def keyword (C : String → Option Node) (other : String → Node → J → Bool)
    (V : Node → J → Bool) (es : List Node) (e : Node) (v : J) : Bool :=
  match e with
  | .field (.str k) x =>
    if k = "type" then typeOk x v
    else if k = "properties" then propsOk V x v
    else if k = "additionalProperties" then additionalOk V es x v
    else if k = "items" then itemsOk V x v
    else if k ∈ logicKeys then logicOk V k x v
    else if k = "$ref" then refOk C V x v
    else if k ∈ annotations then true
    else other k x v
  | _ => true

/-- OpenAPI 3.0.0: "nullable: Allows sending a null value for the defined schema". -/
def nullable (es : List Node) : Bool :=
  match lookupLit es "nullable" with
  | some (.lit t) => t == "true"
  | _ => false

/-- `accepts d C other n s v`: schema `s` accepts `v`, unfolding at most `n` levels
of schemas and references (a reference may be recursive).  `C` finds the component
that a reference means. -/
def accepts (d : Dialect) (C : String → Option Node) (other : String → Node → J → Bool) :
    Nat → Node → J → Bool
  | n + 1, .struct es, v =>
    (d == .openapi && nullable es && v.isNull) ||
      es.all fun e => keyword C other (accepts d C other n) es e v
  | _, .lit t, _ => t != "false"
  | _, _, _ => true

/-! ## Documents -/

/-- The OpenAPI document that `openapi.GenerateSchema` returns,
`encoding/openapi/oapi.go:88-102`: the schemas are under `components.schemas`. -/
def document (title version : String) (schemas : List Node) : Node :=
  .file [.struct [
    .field (.str "openapi") (.str "3.0.0"),
    .field (.str "info") (.struct [
      .field (.str "title") (.str title),
      .field (.str "version") (.str version)]),
    .field (.str "paths") (.struct []),
    .field (.str "components") (.struct [
      .field (.str "schemas") (.struct schemas)])]]

/-- The component that a reference `#/components/schemas/<name>` means. -/
def component (pre : String) (schemas : List Node) (ref : String) : Option Node :=
  schemas.findSome? fun e => match e with
    | .field (.str s) x => if ref = pre ++ s then some x else none
    | _ => none

/-! ## Documents for which the rewriting is right -/

mutual
/-- No field with the given label anywhere inside. -/
def lacks (label : String) : Node → Bool
  | .str _ => true
  | .lit _ => true
  | .list es => lacksL label es
  | .struct es => lacksL label es
  | .file es => lacksL label es
  | .field l x => (l != .str label) && lacks label x
def lacksL (label : String) : List Node → Bool
  | [] => true
  | e :: es => lacks label e && lacksL label es
end

mutual
/-- Every field `type` inside with a literal value names a known type. -/
def typesKnown : Node → Bool
  | .str _ => true
  | .lit _ => true
  | .list es => typesKnownL es
  | .struct es => typesKnownL es
  | .file es => typesKnownL es
  | .field l x =>
    (match l, x with
      | .str k, .str t => k != "type" ||
          (t ∈ ["object", "array", "integer", "number", "boolean", "string"])
      | .str k, .lit _ => k != "type"
      | _, _ => true) && typesKnown x
def typesKnownL : List Node → Bool
  | [] => true
  | e :: es => typesKnown e && typesKnownL es
end

/-- The label of a field. -/
def labelOf : Node → Option String
  | .field (.str s) _ => some s
  | _ => none

def isStruct : Node → Bool
  | .struct _ => true
  | _ => false

/-- The types of JSON Schema other than `null`. -/
def knownTypes : List String := ["object", "array", "integer", "number", "boolean", "string"]

/-- Keywords whose values are schemas of the node's parts, by the node's type. -/
def partKeys (t : String) : List String :=
  if t = "object" then ["properties", "additionalProperties"]
  else if t = "array" then ["items"]
  else []

/-- The value of `properties`: a struct of named struct schemas. -/
def PropsShape (x : Node) : Prop :=
  ∃ ps, x = .struct ps ∧ ∀ p ∈ ps, ∃ k es, p = .field (.str k) (.struct es)

/-- The value of a logic operator: a list of schemas, or (for `not`) a schema. -/
def LogicShape (x : Node) : Prop := (∃ ss, x = .list ss) ∨ (∃ es, x = .struct es)

/-- Keywords whose values are or contain schemas. -/
def schemaKeys : List String := logicKeys ++ ["properties", "additionalProperties", "items"]

/-- A schema (of the kind that CUE generates) whose rewriting is right.  Labels are
distinct string literals, properties are structs.

* With a type: the type is a known one; the schemas under logic operators (and under
  `properties`, … if they do not go with the type) do not say `nullable`; if the node
  itself is nullable it has no logic operators, references or `enum`.
* Without a type: the node is not nullable; the values of the keywords which are not
  schemas do not look like schemas (they have no field `type`). -/
inductive Good : Node → Prop
  | lit (t : String) : Good (.lit t)
  | typed (es : List Node) (t : String)
      (lab : ∀ e ∈ es, ∃ k x, e = .field (.str k) x)
      (nodup : (es.map labelOf).Nodup)
      (hty : lookupLit es "type" = some (.str t)) (ht : t ∈ knownTypes)
      (parts : ∀ k x, .field (.str k) x ∈ es → k ∈ partKeys t → k ≠ "properties" → Good x)
      (shape : ∀ x, .field (.str "properties") x ∈ es → "properties" ∈ partKeys t → PropsShape x)
      (props : ∀ ps k x, .field (.str "properties") (.struct ps) ∈ es →
        "properties" ∈ partKeys t → .field (.str k) x ∈ ps → Good x)
      (rest : ∀ k x, .field (.str k) x ∈ es → k ∈ schemaKeys → k ∉ partKeys t →
        lacks "nullable" x = true)
      (null : nullable es = true → ∀ k x, .field (.str k) x ∈ es →
        k ∉ logicKeys ++ ["$ref", "enum"]) : Good (.struct es)
  | untyped (es : List Node)
      (lab : ∀ e ∈ es, ∃ k x, e = .field (.str k) x)
      (nodup : (es.map labelOf).Nodup)
      (hty : ∀ x, lookupLit es "type" = some x → ∃ ts, x = .list ts)
      (hnull : nullable es = false)
      (alts : ∀ k x, .field (.str k) x ∈ es → k ∈ logicKeys → LogicShape x)
      (altsL : ∀ k ss s, .field (.str k) (.list ss) ∈ es → k ∈ logicKeys → s ∈ ss → Good s)
      (altsS : ∀ k fs, .field (.str k) (.struct fs) ∈ es → k ∈ logicKeys → Good (.struct fs))
      (parts : ∀ k x, .field (.str k) x ∈ es → k ∈ ["additionalProperties", "items"] → Good x)
      (shape : ∀ x, .field (.str "properties") x ∈ es → PropsShape x)
      (props : ∀ ps k x, .field (.str "properties") (.struct ps) ∈ es →
        .field (.str k) x ∈ ps → Good x)
      (data : ∀ k x, .field (.str k) x ∈ es → k ∉ schemaKeys → lacks "type" x = true) :
      Good (.struct es)

end Thema.JSchema

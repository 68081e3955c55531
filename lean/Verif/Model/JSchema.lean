import Verif.Model.Basic

/-!
# From OpenAPI to JSON Schema

`encoding/jsonschema/jschema.go`: the rewriting of an OpenAPI syntax tree into a
JSON Schema one.
-/

namespace Thema.JSchema

/-- Labels of CUE AST fields.  `ast.NewString` labels are string literals; a
string literal is given by its content (`strconv.Unquote` of what
`strconv.Quote` wrote), since none of the labels the code asks for contains a
quotation mark the second test `str == lit.Value` of `strEq`
(`jschema.go:91-97`) can then not succeed. -/
inductive Lab
  | str (s : String)
  | ident (s : String)
  deriving DecidableEq, Repr

/-- The CUE AST nodes that occur in an OpenAPI document.  The tree is assumed not
to share nodes, so that changing a node in place changes it in one place. -/
inductive Node
  | str (s : String)                       -- `*ast.BasicLit` of kind STRING
  | lit (tok : String)                     -- any other `*ast.BasicLit`: `true`, `null`, `12`
  | list (es : List Node)                  -- `*ast.ListLit`
  | struct (es : List Node)                -- `*ast.StructLit`
  | field (l : Lab) (v : Node)             -- `*ast.Field`
  | file (ds : List Node)                  -- `*ast.File`

/-- `getFieldWithLabel`, `jschema.go:106-116`; the value of the field. -/
def getField : List Node → String → Option Node
  | [], _ => none
  | .field (.str s) v :: es, label => if s == label then some v else getField es label
  | _ :: es, label => getField es label

/-- `getSchemaType`, `jschema.go:118-129`; `none` is `errNotASchema`.  (An empty
string and a literal of another kind give back the source text of the literal,
which is not one of the known types.) -/
def schemaType (es : List Node) : Option String :=
  match getField es "type" with
  | some (.str s) => some (if s = "" then "\"\"" else s)
  | some (.lit t) => some t
  | _ => none

/-- `checkNull`, `jschema.go:210-217`. -/
def checkNull (es : List Node) : Bool :=
  match getField es "nullable" with
  | some (.lit "true") => true
  | _ => false

/-- The keywords deleted at `jschema.go:238`. -/
def dropped : List String :=
  ["deprecated", "discriminator", "example", "externalDocs", "nullable", "readOnly", "writeOnly", "xml"]

/-- `typeContains`, `jschema.go:65-80`, for the value of a field `type`. -/
def typeContains (v : Node) (t : String) : Bool :=
  match v with
  | .str s => s == t
  | _ => false

/-- What `astutil.Apply` does with a direct child of the schema node,
`jschema.go:224-248`: delete it, change its type, or leave it.  Only literal labels count
(`isFieldWithLabel`, `jschema.go:82-89`). -/
def fixElt (ensureNull : Bool) (e : Node) : Option Node :=
  match e with
  | .field (.str k) v =>
    if k ∈ dropped then none
    else if k = "type" ∧ ensureNull = true ∧ typeContains v "null" = false then
      some (.field (.str k) (.list [v, .str "null"]))
    else some e
  | _ => some e

/-- The field added to root schemas, `jschema.go:251-256`. -/
def schemaField : Node :=
  .field (.str "$schema") (.str "http://json-schema.org/draft-04/schema#")

/-- The second half of `process`, `jschema.go:224-256`. -/
def cleanup (nested ensureNull : Bool) (es : List Node) : List Node :=
  let es' := es.filterMap (fixElt ensureNull)
  if nested then es' else es' ++ [schemaField]

/-- The fields whose schemas a node of the given type has scanned,
`jschema.go:156-195`; `none`: "unrecognized schema node type". -/
def childLabels (typ : String) : Option (List String) :=
  if typ = "object" then some ["properties", "additionalProperties"]
  else if typ = "array" then some ["items"]
  else if typ = "integer" ∨ typ = "number" ∨ typ = "boolean" ∨ typ = "string" then some []
  else none

/-- `process`: an error while scanning the children is a panic, `jschema.go:219-222`. -/
def orPanic {α : Type} : Res α → Res α
  | .err _ => .panic .explicit
  | r => r

mutual
/-- `scan(p, n)`, `jschema.go:259-284`, with `newSchemaNode` and `process`
(`jschema.go:142-257`); `nested` says whether `p != nil`.  `ast.Walk` visits the
node and, unless told otherwise, its children. -/
def scan (nested : Bool) : Node → Res Node
  | .struct es =>
    match schemaType es with
    | none => (scanList nested es).map .struct
    | some typ =>
      match childLabels typ with
      | none => .err ⟨[]⟩
      | some ls =>
        (orPanic (scanChildren ls es)).map
          (fun es' => .struct (cleanup nested (checkNull es) es'))
  | .list es => (scanList nested es).map .list
  | .file ds => (scanList nested ds).map .file
  | .field l v => (scan nested v).map (.field l)
  | .str s => .ok (.str s)
  | .lit t => .ok (.lit t)
/-- `ast.Walk` over the elements of a list, struct or file, in order. -/
def scanList (nested : Bool) : List Node → Res (List Node)
  | [] => .ok []
  | e :: es => (scan nested e).bind fun e' => (scanList nested es).map (e' :: ·)
/-- The `scanf` closures, `jschema.go:158-192`: of the fields of a schema node, the
first one with each of the given labels is scanned.  (The code takes `properties`
before `additionalProperties` whatever their order; the fields are independent and
any failure is a panic, so the order does not matter.) -/
def scanChildren (ls : List String) : List Node → Res (List Node)
  | [] => .ok []
  | .field (.str k) v :: es =>
    if k ∈ ls then
      (scan true v).bind fun v' =>
        (scanChildren (ls.filter (· ≠ k)) es).map (.field (.str k) v' :: ·)
    else (scanChildren ls es).map (.field (.str k) v :: ·)
  | e :: es => (scanChildren ls es).map (e :: ·)
end

/-- `oapiToJSchema`, `jschema.go:40-43`. -/
def oapiToJSchema (f : Node) : Res Node := scan false f

/-- `GenerateSchema`, `jschema.go:17-28`, from the outcome of
`openapi.GenerateSchema(sch, nil)`. -/
def generateSchema (oapi : Res Node) : Res Node := oapi.bind oapiToJSchema

end Thema.JSchema

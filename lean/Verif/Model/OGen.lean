import Verif.Model.GoTypes

/-!
# Generating Go types from OpenAPI schemas

The fork of `oapi-codegen` in `internal/deepmap/oapi-codegen/pkg/codegen`, with the
configuration of `encoding/gocode/gen.go:101-118` (only models; the names of the constants of
an enumeration are always prefixed by that of its type), and what `GenerateTypesOpenAPI` then
does with the file (`gen.go:125-130`).

Files without a directory are in `internal/deepmap/oapi-codegen/pkg/codegen`.
-/

namespace Thema.OGen

open Thema.GoTypes

/-! ### Names -/

/-- Functions of the package `unicode`, and `strings.ToUpper` of one rune. -/
structure Uni where
  isUpper : Char → Bool
  isLower : Char → Bool
  isDigit : Char → Bool
  isLetter : Char → Bool
  isNumber : Char → Bool
  toUpper : Char → Char

/-- `utils.go:83-87`, `separatorSet`. -/
def isSep (c : Char) : Bool := "-#@!$&=.+:;_~ (){}[]".toList.contains c

/-- `utils.go:143-163`: the loop of `ToCamelCase`. -/
def camelGo (U : Uni) : Bool → Str → Str
  | _, [] => []
  | capNext, v :: s =>
    (if U.isUpper v then [v] else []) ++ (if U.isDigit v then [v] else [])
      ++ (if U.isLower v then [if capNext then U.toUpper v else v] else [])
      ++ camelGo U (isSep v) s

/-- `strings.Trim(str, " ")`. -/
def trimSpaces (s : Str) : Str :=
  ((s.dropWhile (· == ' ')).reverse.dropWhile (· == ' ')).reverse

/-- `utils.go:140-162`, `ToCamelCase`. -/
def camel (U : Uni) (s : Str) : Str := camelGo U true (trimSpaces s)

/-- `utils.go:611-638`: the words for signs. -/
def signWord (c : Char) : Option Str :=
  if c == '-' then some "Minus".toList
  else if c == '+' then some "Plus".toList
  else if c == '&' then some "And".toList
  else if c == '|' then some "Or".toList
  else if c == '~' then some "Tilde".toList
  else if c == '=' then some "Equal".toList
  else if c == '#' then some "Hash".toList
  else if c == '.' then some "Dot".toList
  else if c == '*' then some "Asterisk".toList
  else if c == '^' then some "Caret".toList
  else if c == '%' then some "Percent".toList
  else none

/-- `utils.go:611-650`: the loop of `typeNamePrefix`; `one` says that the name has one
byte. -/
def prefixGo (U : Uni) (one : Bool) : Str → Str → Str
  | pre, [] => pre
  | pre, r :: s =>
    if r == '$' then if one then "DollarSign".toList else prefixGo U one pre s
    else match signWord r with
      | some w => prefixGo U one (pre ++ w) s
      | none => if pre.isEmpty && U.isDigit r then "N".toList else pre

/-- `utils.go:607-651`, `typeNamePrefix`. -/
def typeNamePrefix (U : Uni) (name : Str) : Str :=
  if name.isEmpty then "Empty".toList else prefixGo U (name == ['$']) [] name

/-- `utils.go:655-657`, `SchemaNameToTypeName`. -/
def typeName (U : Uni) (name : Str) : Str := typeNamePrefix U name ++ camel U name

/-- `utils.go:678-683`, `PathToTypeName`.  (The code also replaces the elements of the path
themselves.  Below the third level, where `append` does not copy, this is seen by the caller,
and `ToCamelCase` is applied twice.  Left out: that this gives something else for elements such
as `/foo`, which become first `foo` and then `Foo`.) -/
def pathName (U : Uni) (path : List Str) : Str := "_".toList.intercalate (path.map (camel U))

/-- `strings.Join(path, ".")`, of the path as `PathToTypeName` left it; it is only used in
comments.  (Where `append` copied, the path of additional properties and of items is as it
was.) -/
def jsonName (U : Uni) (path : List Str) : Str := ".".toList.intercalate (path.map (camel U))

/-- `utils.go:98-105`, `UppercaseFirstCharacter`. -/
def upperFirst (U : Uni) : Str → Str
  | [] => []
  | c :: s => U.toUpper c :: s

/-! ### Enumerations -/

/-- `token.IsKeyword`. -/
def keywords : List Str :=
  ["break", "case", "chan", "const", "continue", "default", "defer", "else", "fallthrough",
   "for", "func", "go", "goto", "if", "import", "interface", "map", "package", "range",
   "return", "select", "struct", "switch", "type", "var"].map String.toList

/-- `utils.go:39-79`, `predeclaredIdentifiers`. -/
def predeclared : List Str :=
  ["bool", "byte", "complex64", "complex128", "error", "float32", "float64", "int", "int8",
   "int16", "int32", "int64", "rune", "string", "uint", "uint8", "uint16", "uint32", "uint64",
   "uintptr", "true", "false", "iota", "nil", "append", "cap", "close", "complex", "copy",
   "delete", "imag", "len", "make", "new", "panic", "print", "println", "real",
   "recover"].map String.toList

/-- `utils.go:528-534`, `isValidRuneForGoID`; `first` is for index 0. -/
def validRune (U : Uni) (first : Bool) (c : Char) : Bool :=
  if first && U.isNumber c then false else U.isLetter c || c == '_' || U.isNumber c

/-- `utils.go:551-557`: the runes that cannot be are replaced. -/
def sanRunes (U : Uni) : Bool → Str → Str
  | _, [] => []
  | first, c :: s => (if validRune U first c then c else '_') :: sanRunes U false s

/-- `utils.go:548-570`, `SanitizeGoIdentity`.  (The panic is not reached.) -/
def sanitize (U : Uni) (s : Str) : Str :=
  let s := sanRunes U true s
  if keywords.contains s || predeclared.contains s then '_' :: s else s

/-- A Go map with strings as keys. -/
abbrev SMap := List (Str × Str)

/-- The assignment `m[k] = v`. -/
def SMap.set (m : SMap) (k v : Str) : SMap := m.filter (fun e => e.1 != k) ++ [(k, v)]

/-- `fmt.Sprint(i)`. -/
def digits (i : Nat) : Str := Nat.toDigits 10 i

/-- `utils.go:592-604`: the second loop of `SanitizeEnumNames`.  `seen` are the names met so
far, so that the number of times a name is there is what `dupCheck` has for it. -/
def sanGo (U : Uni) : List Str → SMap → List Str → SMap
  | _, m, [] => m
  | seen, m, v :: vs =>
    let n := sanitize U (typeName U v)
    let k := if seen.contains n then n ++ digits (seen.count n) else n
    sanGo U (n :: seen) (m.set k v) vs

/-- The elements of a list without those that were there before: the first loop of
`SanitizeEnumNames`, `utils.go:578-587`. -/
def firsts : List Str → List Str → List Str
  | _, [] => []
  | seen, v :: vs => if seen.contains v then firsts seen vs else v :: firsts (v :: seen) vs

/-- `utils.go:574-605`, `SanitizeEnumNames`, with the values as names (there are no
`x-enum-varnames`). -/
def enumNames (U : Uni) (values : List Str) : SMap := sanGo U [] [] (firsts [] values)

/-- `schema.go:457-472`: the constants, without the prefix, when the map that
`SanitizeEnumNames` returned is iterated over in the order of `entries`. -/
def enumValues (U : Uni) (entries : List (Str × Str)) : SMap :=
  entries.foldl (fun m e => m.set (typeName U e.1) e.2) []

/-- `schema.go:127-139`, `GetValues`, when the constants are iterated over in the order of
`entries`; `GenerateEnums` (`codegen.go:633-708`) asks for the prefix always. -/
def constants (U : Uni) (ty : Str) (entries : List (Str × Str)) : SMap :=
  entries.foldl (fun m e => m.set (ty ++ upperFirst U e.1) e.2) []

/-- `templates/constants.tmpl:11-13`: the text of the expression of a constant;
`codegen.go:648-651`: quotes for strings. -/
def constExpr (string : Bool) (v : Str) : Str :=
  if string then '"' :: v ++ ['"'] else v

/-! ### Schemas -/

/-- The types of values that are not objects or arrays. -/
inductive Kind
  | string | integer | number | boolean
  deriving DecidableEq

mutual
/-- `openapi3.SchemaRef`.  A reference to `#/components/schemas/<name>`; a value of a simple
type with a format and the allowed values, as `fmt.Sprintf("%v")` has them; an array (without
`items`: of values of `obj false`); the type `"inner"`, made by `schema.go:275-281`; an object,
or a schema without type.  An object has the names of the definitions that `allOf` refers to,
its properties by name, its additional properties and the alternatives of `anyOf` or `oneOf`.

Left out: other members of `allOf` than references (`Model/OMerge.lean`); extensions; `readOnly` and `writeOnly`;
discriminators; `anyOf` together with `oneOf`. -/
inductive OS
  | ref (name : Str)
  | prim (kind : Kind) (format : Str) (enum : List Str)
  | arr (items : OS)
  | inner
  | obj (typed : Bool) (allOf : List Str) (props : OPs) (addl : OAs) (alts : OEs)
  deriving DecidableEq
/-- Properties, in the order of their names: the name; whether it is required; whether it is
nullable (for a reference, what it refers to). -/
inductive OPs
  | nil
  | cons (name : Str) (required nullable : Bool) (s : OS) (rest : OPs)
  deriving DecidableEq
/-- Additional properties: none, any, or those of a schema. -/
inductive OAs
  | no
  | free
  | of (s : OS)
  deriving DecidableEq
/-- Alternatives: whether they have a description. -/
inductive OEs
  | nil
  | cons (described : Bool) (s : OS) (rest : OEs)
  deriving DecidableEq
end

/-- `schema.go:159-169`, `TypeDefinition`, with what of its `Schema` is used. -/
structure TD where
  name : Str
  json : Str
  described : Bool := false
  decl : GT
  addl : Bool := false
  union : Bool := false
  enum : List Str := []
  src : Option OS

/-- `schema.go:13-40`, `Schema`.  `nested` are the definitions that `GetAdditionalTypeDefs`
(`schema.go:69-76`) finds with the properties, and `own` are `AdditionalTypes`.  `inner` says
that `GoType` is empty. -/
structure GSch where
  goType : GT
  refType : Option Str := none
  inner : Bool := false
  addl : Bool := false
  union : Bool := false
  skipPtr : Bool := false
  enum : List Str := []
  nested : List TD := []
  own : List TD := []
  src : Option OS

/-- `schema.go:46-51`, `TypeDecl`. -/
def GSch.typeDecl (s : GSch) : GT :=
  match s.refType with
  | some n => .ident n
  | none => s.goType

/-- `schema.go:69-76`, `GetAdditionalTypeDefs`. -/
def GSch.defs (s : GSch) : List TD := s.nested ++ s.own

/-- The definition of a type with a given name. -/
def GSch.td (s : GSch) (name json : Str) : TD :=
  { name := name, json := json, decl := s.typeDecl, addl := s.addl, union := s.union,
    enum := s.enum, src := s.src }

/-- `schema.go:346-352`, `391-398` and `524-531`: the type is given a name. -/
def GSch.named (s : GSch) (name json : Str) : GSch :=
  { s with refType := some name, own := s.own ++ [s.td name json] }

/-- The type named `n`. -/
def id' (n : String) : GT := .ident n.toList

/-- `schema.go:505-609`, `oapiSchemaToGoType`, for values that are not arrays: the type, and
whether an optional field of the type has no pointer. -/
def primType (k : Kind) (f : Str) : Res (GT × Bool) :=
  match k with
  | .integer =>
    if (["int64", "int32", "int16", "int8", "int", "uint64", "uint32", "uint16", "uint8",
        "uint"].map String.toList).contains f then .ok (.ident f, false)
    else .ok (id' "int", false)
  | .number =>
    if f == "double".toList then .ok (id' "float64", false)
    else if f == "float".toList || f == [] then .ok (id' "float32", false)
    else .err ⟨[]⟩
  | .boolean => if f != [] then .err ⟨[]⟩ else .ok (id' "bool", false)
  | .string =>
    if f == "byte".toList || f == "binary".toList then .ok (.arr (id' "byte"), false)
    else if f == "email".toList then .ok (.sel "openapi_types".toList "Email".toList, false)
    else if f == "date".toList then .ok (.sel "openapi_types".toList "Date".toList, false)
    else if f == "date-time".toList then .ok (.sel "time".toList "Time".toList, false)
    else if f == "json".toList then .ok (.sel "json".toList "RawMessage".toList, true)
    else if f == "uuid".toList then .ok (.sel "openapi_types".toList "UUID".toList, false)
    else .ok (id' "string", false)

/-- `<` of strings. -/
def strLt : Str → Str → Bool
  | _, [] => false
  | [], _ :: _ => true
  | a :: s, b :: t => if a.toNat < b.toNat then true else if a = b then strLt s t else false

/-- A field and what comes with it. -/
structure Prop' where
  name : Str
  required : Bool
  nullable : Bool
  s : GSch

/-- `schema.go:95-107`, `GoTypeDef`, and `schema.go:628-714`, `GenFieldsFromProperties`. -/
def Prop'.field (U : Uni) (p : Prop') : Field × GT :=
  if p.s.inner then
    (⟨[], if p.required || p.nullable then .key p.name false else .none⟩,
      .ident (typeName U p.name))
  else
    (⟨typeName U p.name, .key p.name (!(p.required || p.nullable))⟩,
      if !p.s.skipPtr && (!p.required || p.nullable) then .star p.s.typeDecl else p.s.typeDecl)

/-- The fields for a list of properties, followed by others. -/
def fieldsOf (U : Uni) (last : GFs) : List Prop' → GFs
  | [] => last
  | p :: ps => .cons (p.field U).1 (p.field U).2 (fieldsOf U last ps)

/-- `json.RawMessage`. -/
def rawMessage : GT := .sel "json".toList "RawMessage".toList

/-- `schema.go:724-740`, `GenStructFromSchema`; `a` is the type of additional properties if
there are any. -/
def genStruct (U : Uni) (ps : List Prop') (a : Option GT) (union : Bool) : GT :=
  let u : GFs := if union then .cons ⟨"union".toList, .none⟩ rawMessage .nil else .nil
  .struct (fieldsOf U (match a with
    | some t => .cons ⟨"AdditionalProperties".toList, .ignored⟩ (.map (id' "string") t) u
    | none => u) ps)

/-- `schema.go:432-493`: a type of values that are not objects or arrays. -/
def genPrim (U : Uni) (path : List Str) (k : Kind) (f : Str) (enum : List Str) : Res GSch :=
  (primType k f).bind fun (t, skip) =>
    let s : GSch := { goType := t, skipPtr := skip, enum := enum, src := some (.prim k f enum) }
    if !enum.isEmpty && 1 < path.length then
      .ok (s.named (typeName U (pathName U path)) (jsonName U path))
    else .ok s

/-- `schema.go:510-537`: an array, from the schema of its elements. -/
def genArr (U : Uni) (path : List Str) (src : OS) (a : GSch) : GSch :=
  let p := path ++ ["Item".toList]
  let a := if (a.addl || a.union) && a.refType.isNone then
    a.named (pathName U p) (jsonName U p) else a
  { goType := .arr a.typeDecl, nested := a.nested, own := a.own, src := some src }

/-- `schema.go:384-399`: a property. -/
def genProp (U : Uni) (path : List Str) (p : GSch) : GSch :=
  if (p.addl || p.union) && p.refType.isNone then
    p.named (pathName U path) (jsonName U path) else p

/-- `schema.go:334-356`: the schema of the additional properties. -/
def genAddl (U : Uni) (path : List Str) (a : GSch) : GSch :=
  let p := path ++ ["AdditionalProperties".toList]
  if a.addl || a.union then a.named (pathName U p) (jsonName U p) else a

/-- The schema of a reference of `allOf`. -/
def innerSch : GSch := { goType := .ident [], inner := true, src := some .inner }

/-- `schema.go:275-281`: the assignment `schema.Properties[n] = {Type: "inner"}`, and the place
of the property among the others. -/
def setInner (n : Str) : List Prop' → List Prop'
  | [] => [⟨n, false, false, innerSch⟩]
  | p :: ps =>
    if n = p.name then ⟨n, p.required, false, innerSch⟩ :: ps
    else if strLt n p.name then ⟨n, false, false, innerSch⟩ :: p :: ps
    else p :: setInner n ps

/-- `schema.go:261-284`: the references of `allOf` become properties, but for those with an
underscore in their name. -/
def embed : List Str → List Prop' → List Prop'
  | [], ps => ps
  | n :: ns, ps => embed ns (if n.contains '_' then ps else setInner n ps)

mutual
/-- `schema.go:223-501`, `GenerateGoSchema`.  A property that a reference of `allOf` replaces
is still looked at here.  (The map of the properties is never nil: `schema.go:232-234`.) -/
def gen (U : Uni) (path : List Str) : OS → Res GSch
  | .ref n => .ok { goType := .ident (typeName U n), src := none }
  | .prim k f enum => genPrim U path k f enum
  | .arr items => (gen U path items).bind fun a => .ok (genArr U path (.arr items) a)
  | .inner => .ok innerSch
  | .obj typed allOf props addl alts =>
    let src := OS.obj typed allOf props addl alts
    let noProps := props = .nil ∧ allOf.all (·.contains '_') = true
    if noProps ∧ addl = .no ∧ alts = .nil then
      .ok { goType := if typed then .map (id' "string") (id' "any") else id' "any",
            src := some src }
    else (genA U path addl).bind fun a =>
      if noProps ∧ alts = .nil then
        .ok { goType := .map (id' "string") a.typeDecl, own := a.own, src := some src }
      else (genPs U path props).bind fun ps =>
        (genEs U path 0 alts).bind fun es =>
          let ps := embed allOf ps
          .ok { goType := genStruct U ps (if addl = .no then none else some a.typeDecl)
                  (alts ≠ .nil),
                addl := addl ≠ .no, union := alts ≠ .nil,
                nested := ps.flatMap fun p => p.s.defs, own := a.own ++ es, src := some src }
/-- `schema.go:328-356`: additional properties; `any` if there are none or no schema for
them. -/
def genA (U : Uni) (path : List Str) : OAs → Res GSch
  | .no => .ok { goType := id' "any", src := none }
  | .free => .ok { goType := id' "any", src := none }
  | .of s => (gen U path s).bind fun a => .ok (genAddl U path a)
/-- `schema.go:374-416`: properties. -/
def genPs (U : Uni) (path : List Str) : OPs → Res (List Prop')
  | .nil => .ok []
  | .cons n r nl s rest => (gen U (path ++ [n]) s).bind fun p =>
      (genPs U path rest).bind fun ps => .ok (⟨n, r, nl, genProp U (path ++ [n]) p⟩ :: ps)
/-- `schema.go:778-828`, `generateUnion`: the definitions for the alternatives that are not
references. -/
def genEs (U : Uni) (path : List Str) (i : Nat) : OEs → Res (List TD)
  | .nil => .ok []
  | .cons described s rest => (gen U path s).bind fun e =>
      (genEs U path (i + 1) rest).bind fun es =>
        match s with
        | .ref _ => .ok es
        | _ => .ok ({ e.td (typeName U (pathName U (path ++ [digits i]))) [] with
            described := described } :: es)
end

/-- `codegen.go:442-474`, `GenerateTypesForSchemas`; the definitions come in the order of
their names and have no descriptions. -/
def typesFor (U : Uni) : List (Str × OS) → Res (List TD)
  | [] => .ok []
  | (n, s) :: cs => (gen U [n] s).bind fun g =>
      (typesFor U cs).bind fun ts => .ok (g.td (typeName U n) n :: (g.defs ++ ts))

/-- `codegen.go:602-630`, `GenerateTypes`: the definitions that are written; `seen` are those
before.  `reflect.DeepEqual` compares the schemas, and all references, which have none, are
equal (`utils.go:904-909`). -/
def dedupe : List TD → List TD → Res (List TD)
  | _, [] => .ok []
  | seen, t :: ts =>
    match seen.find? (fun p => p.name = t.name) with
    | some p => if p.src = t.src then dedupe seen ts else .err ⟨[]⟩
    | none => (dedupe (seen ++ [t]) ts).bind fun r => .ok (t :: r)

/-- The definitions without those whose name was there before: `codegen.go:640-645` and
`750-755`. -/
def firstTDs : List Str → List TD → List TD
  | _, [] => []
  | seen, t :: ts =>
    if seen.contains t.name then firstTDs seen ts else t :: firstTDs (t.name :: seen) ts

/-- `templates/typedef.tmpl:2`: the comment.  Of the text of a description only that it is
something else is of interest. -/
def TD.doc (t : TD) : List Str :=
  [if t.described then "// ".toList ++ t.name ++ " is described".toList
   else "// ".toList ++ t.name ++ " defines model for ".toList ++ t.json ++ ".".toList]

/-- `codegen.go:344-412`, `GenerateTypeDefinitions`, and the imports, which come first: the
constants of the enumerations, the types, and the methods of the types that have additional
properties or alternatives. -/
def file (U : Uni) (comps : List (Str × OS)) : Res (List Decl) :=
  (typesFor U comps).bind fun ts => (dedupe [] ts).bind fun ts' =>
    .ok (.consts [] ::
      (((firstTDs [] ts).filter (fun t => !t.enum.isEmpty)).map (fun t => Decl.consts [t.name])
       ++ ts'.map (fun t => Decl.typ t.doc t.name t.decl)
       ++ ((firstTDs [] ts).filter (·.addl)).flatMap (fun t =>
            [Decl.func (some t.name) "Get".toList, Decl.func (some t.name) "Set".toList])
       ++ (ts.filter (·.union)).map (fun t => Decl.func (some t.name) "MarshalJSON".toList)))

/-- `encoding/gocode/gen.go:66-131`, `GenerateTypesOpenAPI`, after the OpenAPI document was
made: the rewritings of `gen.go:76`, in this order.  `noPtr` is `NoOptionalPointers`;
`replace` the replacement in the comments. -/
def goTypes (U : Uni) (replace : Str → Str) (noPtr : Bool) (comps : List (Str × OS)) :
    Res (List Decl) :=
  (file U comps).bind fun ds => (fixRawData (ds.map (depDecl noPtr))).bind fun ds =>
    fixUnderscores replace ds

end Thema.OGen

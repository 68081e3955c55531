import Verif.Model.OGen

/-!
# The text of generated Go types

What the fork of `oapi-codegen` writes for a type: names, descriptions and tags, before the file
is formatted.  Files without a directory are in `internal/deepmap/oapi-codegen/pkg/codegen`.
-/

namespace Thema.GoText

/-! ### Comments -/

/-- `strings.Replace(in, "\r\n", "\n", -1)`. -/
def crlf : Str → Str
  | '\r' :: '\n' :: cs => '\n' :: crlf cs
  | c :: cs => c :: crlf cs
  | [] => []

/-- `strings.Replace(in, "\r", "\n", -1)`. -/
def cr : Str → Str
  | [] => []
  | c :: cs => (if c = '\r' then '\n' else c) :: cr cs

/-- `strings.Split(in, "\n")`. -/
def split : Str → List Str
  | [] => [[]]
  | c :: cs =>
    if c = '\n' then [] :: split cs
    else match split cs with
      | [] => [[c]]
      | l :: ls => (c :: l) :: ls

/-- `strings.Join(lines, "\n")`. -/
def join : List Str → Str
  | [] => []
  | [l] => l
  | l :: ls => l ++ '\n' :: join ls

/-- `strings.TrimSuffix`. -/
def trimSuffix (s suf : Str) : Str :=
  if suf.isSuffixOf s then s.take (s.length - suf.length) else s

/-- `utils.go:718-725`: the lines with `//`; the first one has the prefix. -/
def prefixed (pre : Str) (lines : List Str) : List Str :=
  match lines with
  | [] => []
  | l :: ls =>
    ("//".toList ++ (if pre.length > 0 then ' ' :: pre else []) ++ ' ' :: l) ::
      ls.map fun l => "// ".toList ++ l

/-- `utils.go:707-731`, `stringToGoCommentWithPrefix`; `space` is `unicode.IsSpace`. -/
def goComment (space : Char → Bool) (text pre : Str) : Str :=
  if text.all space then []
  else trimSuffix (join (prefixed pre (split (cr (crlf text))))) "\n// ".toList

/-! ### Types -/

mutual
/-- The declaration of a type: text that depends on nothing but Go names and brackets
(`ToCamelCase` and the like leave letters and digits only, `Model/OGen.lean`), such text before
another declaration (`[]`, `map[string]`: `schema.go:460-500,568-577`), or a struct. -/
inductive Ty
  | plain (text : Str)
  | wrap (before : Str) (ty : Ty)
  | struct (fields : Fields)
/-- Fields: the Go name, the description, `*` or nothing, the type, and the name in JSON with
`,omitempty` if it is there; an embedded type has no tag.  Left out: deprecated fields,
extensions. -/
inductive Fields
  | nil
  | cons (name description star : Str) (ty : Ty) (tag : Option Str) (rest : Fields)
end

/-- `schema.go:640-648`: the comment of field number `i`. -/
def fieldComment (space : Char → Bool) (i : Nat) (name description : Str) : Str :=
  if description ≠ [] then
    (if i ≠ 0 then ['\n'] else []) ++ goComment space description name ++ ['\n']
  else []

/-- `schema.go:701-711`: the tag. -/
def fieldTag : Option Str → Str
  | none => []
  | some tag => '`' :: "json:\"".toList ++ tag ++ "\"`".toList

mutual
/-- `schema.go:724-740`, `GenStructFromSchema`, without additional properties and unions, which
add constant text. -/
def tyText (space : Char → Bool) : Ty → Str
  | .plain t => t
  | .wrap b t => b ++ tyText space t
  | .struct fs => "struct {".toList ++ '\n' :: fieldsText space 0 fs ++ "}".toList
/-- `schema.go:628-714`, `GenFieldsFromProperties`, each field with the line break that follows. -/
def fieldsText (space : Char → Bool) : Nat → Fields → Str
  | _, .nil => []
  | i, .cons name d star ty tag rest =>
    fieldComment space i name d ++ "    ".toList ++ name ++ ' ' :: star ++ tyText space ty ++
      fieldTag tag ++ '\n' :: fieldsText space (i + 1) rest
end

/-- A type definition: the Go name, the name in JSON, the description and whether it is an
alias. -/
structure Def where
  name : Str
  json : Str
  description : Str
  isAlias : Bool
  ty : Ty

/-- `templates/typedef.tmpl:2-3`. -/
def defText (space : Char → Bool) (d : Def) : Str :=
  '\n' :: (if d.description ≠ [] then goComment space d.description d.name
    else "// ".toList ++ d.name ++ " defines model for ".toList ++ d.json ++ ".".toList) ++
  '\n' :: "type ".toList ++ d.name ++ ' ' :: (if d.isAlias then ['='] else []) ++ ' ' ::
    tyText space d.ty ++ ['\n']

/-- `templates/typedef.tmpl:1-4`. -/
def defsText (space : Char → Bool) : List Def → Str
  | [] => ['\n']
  | d :: ds => defText space d ++ defsText space ds

/-! ### How Go reads it -/

/-- States of the scanner: in code; after a slash; in a comment to the end of the line; in a
general comment, and after a star in it; in a raw string; in a string or rune literal, and after
a backslash in it. -/
inductive St
  | code | slash | line | block | star | raw | lit (q : Char) | esc (q : Char)
  deriving DecidableEq

/-- `go/scanner`: what one character of code begins, and what of it is code. -/
def codeStep (c : Char) : St × Str :=
  if c = '/' then (.slash, [])
  else if c = '`' then (.raw, [c])
  else if c = '"' ∨ c = '\'' then (.lit c, [c])
  else (.code, [c])

/-- `go/scanner`, one character: the next state, and what of the text is code.  NUL is an error
everywhere, and a line break is one in a string.  Byte order marks are removed before
(`codegen.go:328,814-818`, `SanitizeCode`). -/
def step (s : St) (c : Char) : Option (St × Str) :=
  if c = Char.ofNat 0 then none
  else if c = Char.ofNat 0xFEFF then some (s, [])
  else match s with
    | .code => some (codeStep c)
    | .slash =>
      if c = '/' then some (.line, [])
      else if c = '*' then some (.block, [])
      else some ((codeStep c).1, '/' :: (codeStep c).2)
    | .line => if c = '\n' then some (.code, ['\n']) else some (.line, [])
    | .block => if c = '*' then some (.star, []) else some (.block, [])
    | .star =>
      if c = '/' then some (.code, []) else if c = '*' then some (.star, []) else some (.block, [])
    | .raw => if c = '`' then some (.code, [c]) else some (.raw, if c = '\r' then [] else [c])
    | .lit q =>
      if c = '\n' then none
      else if c = q then some (.code, [c])
      else if c = '\\' then some (.esc q, [c])
      else some (.lit q, [c])
    | .esc q => if c = '\n' then none else some (.lit q, [c])

/-- The text from a state on. -/
def scan : St → Str → Option (St × Str)
  | s, [] => some (s, [])
  | s, c :: cs =>
    (step s c).bind fun p => (scan p.1 cs).map fun q => (q.1, p.2 ++ q.2)

/-- What is left of a text without comments, if it can be read. -/
def code (t : Str) : Option Str :=
  match scan .code t with
  | some (.code, o) => some o
  | some (.line, o) => some o
  | some (.slash, o) => some (o ++ ['/'])
  | _ => none

/-- Blank lines do not count. -/
def squeeze : Str → Str
  | [] => []
  | c :: cs => if c = '\n' ∧ cs.head? = some '\n' then squeeze cs else c :: squeeze cs

end Thema.GoText

import Verif.Model.Validate

/-!
# Rewriting generated Go types

`encoding/gocode/decorators.go`: the rewritings that `GenerateTypesOpenAPI` applies to the Go
file that `oapi-codegen` generates.

A file is the list of its declarations.  A type declaration is a `GenDecl` with one
`TypeSpec`, as generated.  `dstutil.Apply` calls the function on all nodes, parents first,
and goes on with what the function left.
-/

namespace Thema.GoTypes

/-- What the tag of a field says to `encoding/json`: the key and whether empty values are
omitted; that the field is ignored (`json:"-"`); nothing. -/
inductive Tag
  | key (name : Str) (omitempty : Bool)
  | ignored
  | none
  deriving DecidableEq

/-- The name (empty if the field is embedded) and the tag of a field. -/
structure Field where
  go : Str
  tag : Tag := .none
  deriving DecidableEq

mutual
/-- Type expressions. -/
inductive GT
  | ident (name : Str)
  | sel (pkg name : Str)
  | star (t : GT)
  | arr (elt : GT)
  | map (key value : GT)
  | struct (fields : GFs)
  deriving DecidableEq
/-- The fields of a struct: names and tags, and types. -/
inductive GFs
  | nil
  | cons (name : Field) (t : GT) (rest : GFs)
  deriving DecidableEq
end

/-- Declarations: of a type, with the lines of its comment; of a function, with the name of
the type of the receiver if it has one; of constants, with the names of their types. -/
inductive Decl
  | typ (doc : List Str) (name : Str) (t : GT)
  | func (recv : Option Str) (name : Str)
  | consts (types : List Str)
  deriving DecidableEq

/-! ### Pointers -/

mutual
/-- `decorators.go:15-32`, `depointerizer`, on a type that is not that of a field. -/
def dep (all : Bool) : GT → GT
  | .ident n => .ident n
  | .sel p n => .sel p n
  | .star t => .star (dep all t)
  | .arr e => .arr (dep all e)
  | .map k v => .map (dep all k) (dep all v)
  | .struct fs => .struct (depFs all fs)
/-- `decorators.go:18-28`: on the type of a field. -/
def depField (all : Bool) : GT → GT
  | .ident n => .ident n
  | .sel p n => .sel p n
  | .star (.arr e) => .arr (dep all e)
  | .star (.map k v) => .map (dep all k) (dep all v)
  | .star (.ident n) => if all then .ident n else .star (.ident n)
  | .star (.sel p n) => if all then .sel p n else .star (.sel p n)
  | .star (.star t) => if all then .star (dep all t) else .star (.star (dep all t))
  | .star (.struct fs) => if all then .struct (depFs all fs) else .star (.struct (depFs all fs))
  | .arr e => .arr (dep all e)
  | .map k v => .map (dep all k) (dep all v)
  | .struct fs => .struct (depFs all fs)
def depFs (all : Bool) : GFs → GFs
  | .nil => .nil
  | .cons n t r => .cons n (depField all t) (depFs all r)
end

/-- `depointerizer` on a declaration.  (Functions are deleted afterwards.) -/
def depDecl (all : Bool) : Decl → Decl
  | .typ d n t => .typ d n (dep all t)
  | d => d

/-! ### Iterating over names -/

mutual
/-- `decorators.go:236-249`, `iterateStruct`. -/
def iterFs (fn : Str → Str) : GFs → GFs
  | .nil => .nil
  | .cons n t r => .cons n (iterField fn t) (iterFs fn r)
/-- The body of `iterateStruct`; `depoint` removes one pointer. -/
def iterField (fn : Str → Str) : GT → GT
  | .ident n => .ident (fn n)
  | .sel p n => .sel p n
  | .arr e => .arr (iterArr fn e)
  | .map k v => .map k (iterMap fn v)
  | .struct fs => .struct (iterFs fn fs)
  | .star (.ident n) => .star (.ident (fn n))
  | .star (.arr e) => .star (.arr (iterArr fn e))
  | .star (.map k v) => .star (.map k (iterMap fn v))
  | .star (.struct fs) => .star (.struct (iterFs fn fs))
  | .star (.sel p n) => .star (.sel p n)
  | .star (.star t) => .star (.star t)
/-- `decorators.go:251-260`, `iterateMap`, on the value type. -/
def iterMap (fn : Str → Str) : GT → GT
  | .ident n => .ident (fn n)
  | .arr e => .arr (iterArr fn e)
  | .map k v => .map k (iterMap fn v)
  | .sel p n => .sel p n
  | .star t => .star t
  | .struct fs => .struct fs
/-- `decorators.go:262-271`, `iterateArray`, on the element type. -/
def iterArr (fn : Str → Str) : GT → GT
  | .ident n => .ident (fn n)
  | .arr e => .arr (iterArr fn e)
  | .struct fs => .struct (iterFs fn fs)
  | .map k v => .map k v
  | .sel p n => .sel p n
  | .star t => .star t
end

/-- `decorators.go:159-168` and `190-198`: on the type of a declaration. -/
def iterTop (fn : Str → Str) : GT → GT
  | .struct fs => .struct (iterFs fn fs)
  | .map k v => .map k (iterMap fn v)
  | .arr e => .arr (iterArr fn e)
  | .ident n => .ident n
  | .sel p n => .sel p n
  | .star t => .star t

/-! ### Underscores -/

/-- `strings.ReplaceAll(n, "_", "")`; `withoutUnderscore` (`decorators.go:222-226`). -/
def ren (n : Str) : Str := n.filter (· != '_')

/-- `decorators.go:207-220`, `findFieldsWithUnderscores`, on the type of one field. -/
def visitField : GT → GT
  | .ident n => .ident (ren n)
  | .star (.ident n) => .star (.ident (ren n))
  | .arr e => .arr (iterArr ren e)
  | .map k v => .map k (iterMap ren v)
  | t => t

mutual
/-- `dstutil.Apply` below the declaration: the visit of every field of every struct.  The
function is called on a field before its type is visited; here the type is visited first,
which makes no difference as the two rename different occurrences or to the same name. -/
def visit : GT → GT
  | .ident n => .ident n
  | .sel p n => .sel p n
  | .star t => .star (visit t)
  | .arr e => .arr (visit e)
  | .map k v => .map (visit k) (visit v)
  | .struct fs => .struct (visitFs fs)
def visitFs : GFs → GFs
  | .nil => .nil
  | .cons n t r => .cons n (visitField (visit t)) (visitFs r)
end

/-- `decorators.go:185-189`: the comment of a renamed declaration; `x.Decs.Start[0]` panics if
there is none.  Of the text only that it changes is of interest. -/
def renDoc (replace : Str → Str) (n : Str) : List Str → Res (List Str)
  | [] => if '_' ∈ n then .panic .indexOutOfRange else .ok []
  | d :: ds => .ok (if '_' ∈ n then replace d :: ds else d :: ds)

/-- `decorators.go:180-205`, `fixUnderscoreInTypeName`, on a declaration.  `replace` is the
replacement in the comment. -/
def usDecl (replace : Str → Str) : Decl → Res Decl
  | .typ d n t => (renDoc replace n d).bind fun d' => .ok (.typ d' (ren n) (visit (iterTop ren t)))
  | d => .ok d

/-- On a file. -/
def fixUnderscores (replace : Str → Str) : List Decl → Res (List Decl)
  | [] => .ok []
  | d :: ds => (usDecl replace d).bind fun d' =>
      (fixUnderscores replace ds).bind fun ds' => .ok (d' :: ds')

/-! ### Raw data -/

/-- `decorators.go:115-127`: a struct with only a `json.RawMessage`. -/
def isRaw : GT → Bool
  | .struct (.cons _ (.sel p n) .nil) => p == "json".toList && n == "RawMessage".toList
  | _ => false

/-- `decorators.go:111-137`: the structs with only a `json.RawMessage` that have a method;
`raw` are those without the condition, found so far.  Panics for functions that are not
methods (`x.Recv` is nil). -/
def scan : List Decl → List Str → List Str → Res (List Str)
  | [], _, ex => .ok ex
  | .typ _ n t :: ds, raw, ex => scan ds (if isRaw t then n :: raw else raw) ex
  | .func none _ :: _, _, _ => .panic .nilDeref
  | .func (some r) _ :: ds, raw, ex => scan ds raw (if raw.contains r then r :: ex else ex)
  | .consts _ :: ds, raw, ex => scan ds raw ex

/-- `decorators.go:228-234`, `withoutRawData`. -/
def rawName (ex : List Str) (n : Str) : Str := if ex.contains n then "any".toList else n

/-- `decorators.go:146-148`: `strings.HasSuffix(comments[0], "defines model for .")`. -/
def unnamed : List Str → Bool
  | [] => false
  | d :: _ => "defines model for .".toList.reverse.isPrefixOf d.reverse

/-- `decorators.go:139-173`: the deletions and replacements; `first` says that this is the
first declaration.  A declaration that is deleted twice takes the next one with it: the
second `c.Delete()` deletes the declaration that has moved to its place, and panics if there
is none.  The iteration then goes back by one, which panics at the first declaration and
otherwise visits again a declaration that has been visited, without effect. -/
def sweep (ex : List Str) : Bool → List Decl → Res (List Decl)
  | _, [] => .ok []
  | first, .func _ _ :: ds => sweep ex first ds
  | _, .consts ts :: ds => (sweep ex false ds).bind fun ds' => .ok (.consts ts :: ds')
  | first, .typ d n t :: ds =>
    if unnamed d && ex.contains n then
      match ds with
      | [] => .panic .indexOutOfRange
      | _ :: ds => if first then .panic .indexOutOfRange else sweep ex first ds
    else if unnamed d || ex.contains n then sweep ex first ds
    else (sweep ex false ds).bind fun ds' => .ok (.typ d n (iterTop (rawName ex) t) :: ds')

/-- `decorators.go:104-177`, `fixRawData`.  The declaration of imports comes first. -/
def fixRawData (ds : List Decl) : Res (List Decl) :=
  (scan ds [] []).bind fun ex => sweep ex false ds

end Thema.GoTypes

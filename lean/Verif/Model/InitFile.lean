import Verif.Model.Validate

/-!
# The schema in a new lineage

`internal/astutil/get.go:180-211` (`ToExpr`) and `encoding/cue/encode.go:22-50` and `102-118`
(`NewLineage`), over syntax trees: `Model/Init.lean` is about the text around the schema, this about
the schema itself.  That CUE prints a tree so that it can be read again is taken for granted.
-/

namespace Thema.InitFile

/-- CUE expressions, as far as their references matter: an expression with its operands, and the
struct.  An element of a struct is an embedding (`none`) or a field with a label. -/
inductive Node where
  | ident (name : Str)
  | op (kind : Str) (args : List Node)
  | struct (elts : List (Option Str × Node))

/-- The declarations of a file (`ast.Decl`). -/
inductive Decl where
  | package (name : Str)
  /-- An import declaration, with the names it brings into scope. -/
  | imports (names : List Str)
  | comment (text : Str)
  | attribute (text : Str)
  | elt (label : Option Str) (value : Node)

/-- What `Format` returns (`get.go:149-158`): a file or an expression. -/
inductive Syntax where
  | file (decls : List Decl)
  | expr (e : Node)

/-- The elements of a struct made from declarations; comments and attributes have no references. -/
def elts : List Decl → List (Option Str × Node)
  | [] => []
  | .elt l v :: rest => (l, v) :: elts rest
  | _ :: rest => elts rest

/-- `get.go:190-201`: the loop that finds where the declarations start that are kept: behind the last
package clause or import before the first other declaration.  `i` is the index, `start` the variable. -/
def startLoop (i start : Nat) : List Decl → Nat
  | [] => start
  | .package _ :: rest => startLoop (i + 1) (i + 1) rest
  | .imports _ :: rest => startLoop (i + 1) (i + 1) rest
  | .comment _ :: rest => startLoop (i + 1) start rest
  | .attribute _ :: rest => startLoop (i + 1) start rest
  | .elt _ _ :: _ => start

/-- `get.go:180-211`, `ToExpr`. -/
def toExpr : Syntax → Node
  | .expr e => e
  | .file ds =>
    match ds.drop (startLoop 0 0 ds) with
    | [.elt none e] => e
    | decls => .struct (elts decls)

/-- `encode.go:22-50` and `102-118`, `NewLineage`: the declarations of the file. -/
def newLineage (sch : Syntax) (name pkg : Str) : List Decl :=
  (if pkg ≠ [] then [Decl.package pkg] else []) ++
    [.imports ["thema".toList],
     .elt none (.op "#Lineage".toList [.ident "thema".toList]),
     .elt (some "name".toList) (.op name []),
     .elt (some "schemas".toList) (.op "[]".toList [.struct
       [(some "version".toList, .op "[0, 0]".toList []),
        (some "schema".toList, .struct [(none, toExpr sch)])]])]

end Thema.InitFile

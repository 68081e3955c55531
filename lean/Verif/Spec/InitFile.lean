import Verif.Model.InitFile

/-! # Which names a file leaves without meaning (C150) -/

namespace Thema.InitFile

/-- The labels of a struct: the names that its fields bring into scope. -/
def labels (es : List (Option Str × Node)) : List Str := es.filterMap (·.1)


/-- The name `n` occurs in the expression, and no struct around the occurrence has such a field. -/
inductive Free (n : Str) : Node → Prop
  | ident : Free n (.ident n)
  | op {kind : Str} {args : List Node} {a : Node} (h : a ∈ args) (hf : Free n a) :
      Free n (.op kind args)
  | struct {es : List (Option Str × Node)} {l : Option Str} {v : Node} (h : (l, v) ∈ es)
      (hf : Free n v) (hl : n ∉ labels es) : Free n (.struct es)


/-- The names that the imports of a file bring into scope. -/
def imported : List Decl → List Str
  | [] => []
  | .imports ns :: rest => ns ++ imported rest
  | _ :: rest => imported rest

/-- The name is used in the file and has no meaning in it: it is neither imported nor a field around
the place where it is used.  CUE refuses such a file (`reference "n" not found`). -/
def Dangling (ds : List Decl) (n : Str) : Prop := Free n (.struct (elts ds)) ∧ n ∉ imported ds

/-- A schema all of whose references have a meaning. -/
def Complete : Syntax → Prop
  | .file ds => ∀ n, ¬ Dangling ds n
  | .expr e => ∀ n, ¬ Free n e

/-- The expression at version 0.0 of the file of a lineage. -/
inductive FirstSchema : List Decl → Node → Prop
  | here {ds : List Decl} {e v : Node} {k l : Str}
      (h : .elt (some "schemas".toList)
        (.op k [.struct [(some "version".toList, v), (some l, .struct [(none, e)])]]) ∈ ds)
      (hl : l = "schema".toList) (hv : v = .op "[0, 0]".toList []) : FirstSchema ds e

end Thema.InitFile

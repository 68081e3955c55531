import Verif.Model.OGen

/-!
# The order of properties and definitions in generated Go types

In Go, the properties of a schema and the definitions of a document are maps; the generator
iterates over them in the order that `SortedSchemaKeys` gives.  Here documents have them in any
order: the order in which CUE writes them, or in which Go happens to iterate over the map.
-/

namespace Thema.OGen

open GoTypes

/-- `utils.go:168-175`, `SortedSchemaKeys` (and `sort.Strings`), for properties: the place of a
property among others. -/
def insP (n : Str) (r nl : Bool) (s : OS) : OPs → OPs
  | .nil => .cons n r nl s .nil
  | .cons m r' nl' s' rest =>
    if strLt n m then .cons n r nl s (.cons m r' nl' s' rest)
    else .cons m r' nl' s' (insP n r nl s rest)

mutual
/-- `schema.go:374-376`: a schema with its properties, and those of the schemas in it, in the
order in which the generator goes through them. -/
def sortOS : OS → OS
  | .ref n => .ref n
  | .prim k f e => .prim k f e
  | .arr items => .arr (sortOS items)
  | .inner => .inner
  | .obj typed allOf props addl alts =>
    .obj typed allOf (sortPs props) (sortAs addl) (sortEs alts)
/-- Properties. -/
def sortPs : OPs → OPs
  | .nil => .nil
  | .cons n r nl s rest => insP n r nl (sortOS s) (sortPs rest)
/-- Additional properties. -/
def sortAs : OAs → OAs
  | .no => .no
  | .free => .free
  | .of s => .of (sortOS s)
/-- Alternatives. -/
def sortEs : OEs → OEs
  | .nil => .nil
  | .cons d s rest => .cons d (sortOS s) (sortEs rest)
end

/-- `utils.go:168-175`, `SortedSchemaKeys`, for definitions. -/
def insC (n : Str) (s : OS) : List (Str × OS) → List (Str × OS)
  | [] => [(n, s)]
  | e :: rest => if strLt n e.1 then (n, s) :: e :: rest else e :: insC n s rest

/-- `codegen.go:449-453`: the definitions in the order in which the generator goes through
them. -/
def sortComps : List (Str × OS) → List (Str × OS)
  | [] => []
  | e :: rest => insC e.1 (sortOS e.2) (sortComps rest)

/-- `encoding/gocode/gen.go:66-131`, `GenerateTypesOpenAPI`, of a document with properties and
definitions in any order. -/
def goTypesAny (U : Uni) (replace : Str → Str) (noPtr : Bool) (comps : List (Str × OS)) :
    Res (List Decl) :=
  goTypes U replace noPtr (sortComps comps)

end Thema.OGen

import Verif.Spec.PlainTypes
import Verif.Spec.GoNames

/-!
# The Go types of schemas with enumerations in any place
-/

namespace Thema.NestedTypes

open GoTypes OGen GoNames PlainTypes

/-- A type that is declared: its name, the name in its comment, its type, whether it has
constants, and the schema it is for (none for a reference). -/
structure Entry where
  name : Str
  json : Str
  type : GT
  enum : Bool
  src : Option OS
  deriving DecidableEq

/-- The name of the type of an enumeration: the names on the path to it, without their signs. -/
def nestedName (U : Uni) (path : List Str) : Str :=
  goName U ("_".toList.intercalate (path.map (letters U)))

/-- The name in the comment. -/
def nestedJson (U : Uni) (path : List Str) : Str := ".".toList.intercalate (path.map (letters U))

/-- The elements of arrays and maps are structs. -/
def OfStructs : OS → Prop
  | .arr s => OfStructs s
  | .obj _ _ .nil (.of s) _ => OfStructs s
  | .obj _ _ (.cons _ _ _ _ _) _ _ => True
  | _ => False

/-- Strings of format `json`. -/
def rawJson : OS → Bool
  | .prim .string f _ => f = "json".toList
  | _ => false

/-- The type of a field of a property: a pointer for what may be absent or null, but not for
slices, maps and raw JSON. -/
def fieldType (noPtr required nullable : Bool) (s : OS) (t : GT) : GT :=
  if noPtr = false ∧ (required = false ∨ nullable = true) ∧ nilable t = false ∧
    rawJson s = false then .star t else t

mutual
/-- The type of a schema at a path, and the enumerations that are declared for it. -/
inductive TypeAt (U : Uni) (noPtr : Bool) : List Str → OS → GT → List Entry → Prop
  | ref {path n} : TypeAt U noPtr path (.ref n) (.ident (goName U n)) []
  | basic {path k f t} : BasicType k f t → TypeAt U noPtr path (.prim k f []) t []
  /-- An enumeration of a property, or of the elements of one. -/
  | enum {path k f v e t} : BasicType k f t → 1 < path.length →
      TypeAt U noPtr path (.prim k f (v :: e)) (.ident (nestedName U path))
        [⟨nestedName U path, nestedJson U path, t, true, some (.prim k f (v :: e))⟩]
  /-- An enumeration that is a component, or the elements of one: it gets no type of its own. -/
  | bare {path k f v e t} : BasicType k f t → path.length ≤ 1 →
      TypeAt U noPtr path (.prim k f (v :: e)) t []
  | arr {path s t es} : TypeAt U noPtr path s t es → TypeAt U noPtr path (.arr s) (.arr t) es
  | any {path} : TypeAt U noPtr path (.obj false [] .nil .no .nil) (.ident "any".toList) []
  | object {path} : TypeAt U noPtr path (.obj true [] .nil .no .nil)
      (.map (.ident "string".toList) (.ident "any".toList)) []
  | free {path typed} : TypeAt U noPtr path (.obj typed [] .nil .free .nil)
      (.map (.ident "string".toList) (.ident "any".toList)) []
  | map {path typed s t es} : TypeAt U noPtr path s t es → ¬ OfStructs s →
      TypeAt U noPtr path (.obj typed [] .nil (.of s) .nil) (.map (.ident "string".toList) t) es
  /-- The enumerations in structs that are the elements of maps are not declared. -/
  | mapOfStructs {path typed s t es} : TypeAt U noPtr path s t es → OfStructs s →
      TypeAt U noPtr path (.obj typed [] .nil (.of s) .nil) (.map (.ident "string".toList) t) []
  | struct {path typed n r nl s ps fs es} : FieldsAt U noPtr path (.cons n r nl s ps) fs es →
      TypeAt U noPtr path (.obj typed [] (.cons n r nl s ps) .no .nil) (.struct fs) es
/-- The fields of properties, and the enumerations that are declared for them. -/
inductive FieldsAt (U : Uni) (noPtr : Bool) : List Str → OPs → GFs → List Entry → Prop
  | nil {path} : FieldsAt U noPtr path .nil .nil []
  | cons {path n r nl s ps t fs es es'} : TypeAt U noPtr (path ++ [n]) s t es →
      FieldsAt U noPtr path ps fs es' →
      FieldsAt U noPtr path (.cons n r nl s ps)
        (.cons ⟨goName U n, .key n (!r && !nl)⟩ (fieldType noPtr r nl s t) fs) (es ++ es')
end

/-- An enumeration. -/
def isEnum : OS → Bool
  | .prim _ _ (_ :: _) => true
  | _ => false

/-- The schema, none for a reference. -/
def source : OS → Option OS
  | .ref _ => none
  | s => some s

/-- The types that components ask for: each its own and those of its enumerations. -/
inductive EntriesAs (U : Uni) (noPtr : Bool) : List (Str × OS) → List Entry → Prop
  | nil : EntriesAs U noPtr [] []
  | cons {n s t cs es es'} : TypeAt U noPtr [n] s t es → EntriesAs U noPtr cs es' →
      EntriesAs U noPtr ((n, s) :: cs) (⟨goName U n, n, t, isEnum s, source s⟩ :: (es ++ es'))

/-- The first entry of every name. -/
def firstOfName : List Entry → List Entry
  | [] => []
  | e :: es => e :: (firstOfName es).filter fun x => x.name ≠ e.name

/-- The file for a list of types: what they have constants for, and their declarations. -/
def fileOf (es : List Entry) : List Decl :=
  .consts [] :: (((firstOfName es).filter (·.enum)).map (fun e => Decl.consts [e.name]) ++
    (firstOfName es).map fun e => .typ [comment e.name e.json] e.name e.type)

mutual
/-- References, simple values and enumerations, arrays, maps, and structs. -/
def Simple : OS → Prop
  | .ref _ => True
  | .prim _ _ _ => True
  | .arr s => Simple s
  | .inner => False
  | .obj _ allOf ps a es => allOf = [] ∧ es = .nil ∧ SimpleA a ∧ SimplePs ps ∧ (ps = .nil ∨ a = .no)
def SimplePs : OPs → Prop
  | .nil => True
  | .cons _ _ _ s ps => Simple s ∧ SimplePs ps
def SimpleA : OAs → Prop
  | .no => True
  | .free => True
  | .of s => Simple s
end

end Thema.NestedTypes

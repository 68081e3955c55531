import Verif.Spec.GoJson

/-!
# The Go types of plain schemas
-/

namespace Thema.PlainTypes

open GoTypes OGen

/-- The Go types of simple values, by their format.  Numbers and truth values of other formats
have no type. -/
inductive BasicType : Kind → Str → GT → Prop
  | sized {f} : f ∈ ["int", "int8", "int16", "int32", "int64", "uint", "uint8", "uint16", "uint32",
      "uint64"].map String.toList → BasicType .integer f (.ident f)
  | int {f} : f ∉ ["int", "int8", "int16", "int32", "int64", "uint", "uint8", "uint16", "uint32",
      "uint64"].map String.toList → BasicType .integer f (.ident "int".toList)
  | double : BasicType .number "double".toList (.ident "float64".toList)
  | float : BasicType .number "float".toList (.ident "float32".toList)
  | number : BasicType .number [] (.ident "float32".toList)
  | bool : BasicType .boolean [] (.ident "bool".toList)
  | byte : BasicType .string "byte".toList (.arr (.ident "byte".toList))
  | binary : BasicType .string "binary".toList (.arr (.ident "byte".toList))
  | email : BasicType .string "email".toList (.sel "openapi_types".toList "Email".toList)
  | date : BasicType .string "date".toList (.sel "openapi_types".toList "Date".toList)
  | uuid : BasicType .string "uuid".toList (.sel "openapi_types".toList "UUID".toList)
  | time : BasicType .string "date-time".toList (.sel "time".toList "Time".toList)
  | json : BasicType .string "json".toList (.sel "json".toList "RawMessage".toList)
  | string {f} : f ∉ ["byte", "binary", "email", "date", "uuid", "date-time", "json"].map
      String.toList → BasicType .string f (.ident "string".toList)

/-- A value of the type can be nil. -/
def nilable : GT → Bool
  | .arr _ => true
  | .map _ _ => true
  | _ => false

/-- The type of a field of a property with the schema `s` of type `t`. -/
def fieldType (noPtr required nullable : Bool) (s : OS) (t : GT) : GT :=
  if noPtr = false ∧ (required = false ∨ nullable = true) ∧ nilable t = false ∧
    s ≠ .prim .string "json".toList [] then .star t else t

mutual
/-- The type of a schema. -/
inductive TypeAs (U : Uni) (noPtr : Bool) : OS → GT → Prop
  | ref {n} : TypeAs U noPtr (.ref n) (.ident (typeName U n))
  | basic {k f t} : BasicType k f t → TypeAs U noPtr (.prim k f []) t
  | arr {s t} : TypeAs U noPtr s t → TypeAs U noPtr (.arr s) (.arr t)
  | any : TypeAs U noPtr (.obj false [] .nil .no .nil) (.ident "any".toList)
  | object : TypeAs U noPtr (.obj true [] .nil .no .nil)
      (.map (.ident "string".toList) (.ident "any".toList))
  | free {typed} : TypeAs U noPtr (.obj typed [] .nil .free .nil)
      (.map (.ident "string".toList) (.ident "any".toList))
  | of {typed s t} : TypeAs U noPtr s t → TypeAs U noPtr (.obj typed [] .nil (.of s) .nil)
      (.map (.ident "string".toList) t)
  | struct {typed n r nl s ps fs} : FieldsAs U noPtr (.cons n r nl s ps) fs →
      TypeAs U noPtr (.obj typed [] (.cons n r nl s ps) .no .nil) (.struct fs)
/-- The fields of properties. -/
inductive FieldsAs (U : Uni) (noPtr : Bool) : OPs → GFs → Prop
  | nil : FieldsAs U noPtr .nil .nil
  | cons {n r nl s ps t fs} : TypeAs U noPtr s t → FieldsAs U noPtr ps fs →
      FieldsAs U noPtr (.cons n r nl s ps)
        (.cons ⟨typeName U n, .key n (!r && !nl)⟩ (fieldType noPtr r nl s t) fs)
end

/-- The comment of a type. -/
def comment (go name : Str) : Str :=
  "// ".toList ++ go ++ " defines model for ".toList ++ name ++ ".".toList

/-- The declarations of types. -/
inductive DeclsAs (U : Uni) (noPtr : Bool) : List (Str × OS) → List Decl → Prop
  | nil : DeclsAs U noPtr [] []
  | type {n s t cs ds} : TypeAs U noPtr s t → DeclsAs U noPtr cs ds →
      DeclsAs U noPtr ((n, s) :: cs) (.typ [comment (typeName U n) n] (typeName U n) t :: ds)
  | enum {n k f v e t cs ds} : BasicType k f t → DeclsAs U noPtr cs ds →
      DeclsAs U noPtr ((n, .prim k f (v :: e)) :: cs)
        (.typ [comment (typeName U n) n] (typeName U n) t :: ds)

/-- The types that have constants. -/
def enums (U : Uni) : List (Str × OS) → List Decl
  | [] => []
  | (n, .prim _ _ (_ :: _)) :: cs => .consts [typeName U n] :: enums U cs
  | _ :: cs => enums U cs

mutual
/-- References, simple values, arrays, maps, and structs without anything else; no
enumerations. -/
def Plain : OS → Prop
  | .ref _ => True
  | .prim _ _ e => e = []
  | .arr s => Plain s
  | .inner => False
  | .obj _ allOf ps a es => allOf = [] ∧ es = .nil ∧ PlainA a ∧ PlainPs ps ∧ (ps = .nil ∨ a = .no)
def PlainPs : OPs → Prop
  | .nil => True
  | .cons _ _ _ s ps => Plain s ∧ PlainPs ps
def PlainA : OAs → Prop
  | .no => True
  | .free => True
  | .of s => Plain s
end

/-- Components that are plain, or enumerations. -/
def PlainTop : OS → Prop
  | .prim _ _ _ => True
  | s => Plain s

end Thema.PlainTypes

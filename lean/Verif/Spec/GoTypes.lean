import Verif.Model.GoTypes

/-!
# What can be said about Go types
-/

namespace Thema.GoTypes

mutual
/-- The names of types that occur in a type. -/
def refs : GT → List Str
  | .ident n => [n]
  | .sel _ _ => []
  | .star t => refs t
  | .arr e => refs e
  | .map k v => refs k ++ refs v
  | .struct fs => refsFs fs
def refsFs : GFs → List Str
  | .nil => []
  | .cons _ t r => refs t ++ refsFs r
end

mutual
/-- Replaces every name. -/
def mapNames (f : Str → Str) : GT → GT
  | .ident n => .ident (f n)
  | .sel p n => .sel p n
  | .star t => .star (mapNames f t)
  | .arr e => .arr (mapNames f e)
  | .map k v => .map (mapNames f k) (mapNames f v)
  | .struct fs => .struct (mapNamesFs f fs)
def mapNamesFs (f : Str → Str) : GFs → GFs
  | .nil => .nil
  | .cons n t r => .cons n (mapNames f t) (mapNamesFs f r)
end

mutual
/-- The type without any pointers. -/
def strip : GT → GT
  | .ident n => .ident n
  | .sel p n => .sel p n
  | .star t => strip t
  | .arr e => .arr (strip e)
  | .map k v => .map (strip k) (strip v)
  | .struct fs => .struct (stripFs fs)
def stripFs : GFs → GFs
  | .nil => .nil
  | .cons n t r => .cons n (strip t) (stripFs r)
end

mutual
/-- The names and types of all fields, of inner structs too. -/
def allFields : GT → List (Field × GT)
  | .ident _ => []
  | .sel _ _ => []
  | .star t => allFields t
  | .arr e => allFields e
  | .map k v => allFields k ++ allFields v
  | .struct fs => allFieldsFs fs
def allFieldsFs : GFs → List (Field × GT)
  | .nil => []
  | .cons n t r => (n, t) :: (allFields t ++ allFieldsFs r)
end

mutual
/-- The names of types of which the type contains a value directly: a type cannot contain
itself (specification, "Type declarations").  (Slices, maps and pointers contain none.) -/
def contained : GT → List Str
  | .ident n => [n]
  | .sel _ _ => []
  | .star _ => []
  | .arr _ => []
  | .map _ _ => []
  | .struct fs => containedFs fs
def containedFs : GFs → List Str
  | .nil => []
  | .cons _ t r => contained t ++ containedFs r
end

/-- A pointer to something that can be nil itself. -/
def Redundant (t : GT) : Prop := (∃ e, t = .star (.arr e)) ∨ ∃ k v, t = .star (.map k v)

/-- A pointer to something that cannot be nil. -/
def isOptional : GT → Bool
  | .star (.ident _) => true
  | .star (.sel _ _) => true
  | .star (.struct _) => true
  | _ => false

/-- The fields with such pointers. -/
def optionals (t : GT) : List Field := ((allFields t).filter fun f => isOptional f.2).map (·.1)

/-- The declared types. -/
def declared (ds : List Decl) : List Str :=
  ds.filterMap fun d => match d with
    | .typ _ n _ => some n
    | _ => none

/-- The names of types that a declaration uses. -/
def Decl.uses : Decl → List Str
  | .typ _ _ t => refs t
  | .func _ _ => []
  | .consts ts => ts

/-- `ds` uses the type `n`, which is not declared and not predeclared. -/
def UndefinedType (pre : List Str) (ds : List Decl) (n : Str) : Prop :=
  (∃ d ∈ ds, n ∈ d.uses) ∧ n ∉ declared ds ∧ n ∉ pre

/-- A key type: a name that `P` allows, or a type of another package. -/
def KeyOK (P : Str → Prop) : GT → Prop
  | .ident n => P n
  | .sel _ _ => True
  | _ => False

mutual
/-- The positions in which the rewritings find names: fields, directly or with a pointer;
elements of slices; values of maps; inner structs.  Not: pointers in slices and maps, maps in
slices, pointers to slices and maps; keys and (if not `s`) structs in maps.  `P` says which
names may occur in other positions. -/
def FieldOK (s : Bool) (P : Str → Prop) : GT → Prop
  | .ident _ => True
  | .sel _ _ => True
  | .star (.ident _) => True
  | .star (.sel _ _) => True
  | .star (.struct fs) => FieldsIn s P fs
  | .star (.star _) => False
  | .star (.arr _) => False
  | .star (.map _ _) => False
  | .arr e => EltOK s P e
  | .map k v => KeyOK P k ∧ ValOK s P v
  | .struct fs => FieldsIn s P fs
def FieldsIn (s : Bool) (P : Str → Prop) : GFs → Prop
  | .nil => True
  | .cons _ t r => FieldOK s P t ∧ FieldsIn s P r
def EltOK (s : Bool) (P : Str → Prop) : GT → Prop
  | .ident _ => True
  | .sel _ _ => True
  | .arr e => EltOK s P e
  | .struct fs => FieldsIn s P fs
  | .map _ _ => False
  | .star _ => False
def ValOK (s : Bool) (P : Str → Prop) : GT → Prop
  | .ident _ => True
  | .sel _ _ => True
  | .arr e => EltOK s P e
  | .map k v => KeyOK P k ∧ ValOK s P v
  | .struct fs => s = true ∧ FieldsIn s P fs
  | .star _ => False
end

/-- The same for a declared type. -/
def TopOK (s : Bool) (P : Str → Prop) : GT → Prop
  | .ident n => P n
  | .sel _ _ => True
  | .star _ => False
  | .arr e => EltOK s P e
  | .map k v => KeyOK P k ∧ ValOK s P v
  | .struct fs => FieldsIn s P fs

/-- The same for a declaration. -/
def DeclOK (s : Bool) (P : Str → Prop) : Decl → Prop
  | .typ _ _ t => TopOK s P t
  | .func _ _ => True
  | .consts ts => ∀ n ∈ ts, P n

/-- `n` is a struct with only a `json.RawMessage`, with a method after it. -/
def RawType (ds : List Decl) (n : Str) : Prop :=
  ∃ a d fld b f c, ds = a ++ .typ d n (.struct (.cons fld (.sel "json".toList "RawMessage".toList) .nil))
    :: (b ++ .func (some n) f :: c)

/-- The first line of the comment ends in "defines model for .". -/
def Unnamed (d : List Str) : Prop := ∃ x r, d = (x ++ "defines model for .".toList) :: r

end Thema.GoTypes

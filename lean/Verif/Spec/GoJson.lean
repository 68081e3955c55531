import Verif.Model.GoJson
import Verif.Spec.GoTypes
import Verif.Spec.OGen

/-!
# Data, schemas and Go types
-/

namespace Thema.GoJson

open GoTypes OGen

/-- The keys of an object. -/
def JMs.keys : JMs → List Str
  | .nil => []
  | .cons k _ ms => k :: ms.keys

/-- The member with a key. -/
def JMs.get (k : Str) : JMs → Option J
  | .nil => none
  | .cons k' x ms => if k' = k then some x else ms.get k

mutual
/-- The same data, whatever the order of the members of objects. -/
def jeq : J → J → Bool
  | .arr xs, .arr ys => jeqs xs ys
  | .obj a, .obj b => jeqMs a b && b.keys.all fun k => a.keys.contains k
  | .null, .null => true
  | .bool a, .bool b => a == b
  | .num a, .num b => a == b
  | .str a, .str b => a == b
  | _, _ => false
def jeqs : Js → Js → Bool
  | .nil, .nil => true
  | .cons x xs, .cons y ys => jeq x y && jeqs xs ys
  | _, _ => false
def jeqMs : JMs → JMs → Bool
  | .nil, _ => true
  | .cons k x a, b => (match b.get k with
      | some y => jeq x y
      | none => false) && jeqMs a b
end

mutual
/-- All numbers are of type `float64`, and no key is there twice. -/
def Exact (S : Std) : J → Prop
  | .num q => S.r64 q = some q
  | .arr xs => Exacts S xs
  | .obj ms => ms.keys.Nodup ∧ ExactMs S ms
  | .null => True
  | .bool _ => True
  | .str _ => True
def Exacts (S : Std) : Js → Prop
  | .nil => True
  | .cons x xs => Exact S x ∧ Exacts S xs
def ExactMs (S : Std) : JMs → Prop
  | .nil => True
  | .cons _ x ms => Exact S x ∧ ExactMs S ms
end

/-- The property with a name: whether it is required and nullable, and its schema. -/
def findProp (n : Str) : OPs → Option (Bool × Bool × OS)
  | .nil => none
  | .cons m r nl s ps => if m = n then some (r, nl, s) else findProp n ps

/-- The integers of a format (all, if it is none of OpenAPI's). -/
def InFormat (f : Str) (i : Int) : Prop :=
  (f = "int32".toList → -2 ^ 31 ≤ i ∧ i ≤ 2 ^ 31 - 1) ∧
  (f = "int64".toList → -2 ^ 63 ≤ i ∧ i ≤ 2 ^ 63 - 1)

/-- The integers that a Go type for the format has. -/
def InGo (f : Str) (i : Int) : Prop :=
  if f = "int32".toList then -2 ^ 31 ≤ i ∧ i ≤ 2 ^ 31 - 1
  else if f = "int16".toList then -2 ^ 15 ≤ i ∧ i ≤ 2 ^ 15 - 1
  else if f = "int8".toList then -2 ^ 7 ≤ i ∧ i ≤ 2 ^ 7 - 1
  else if f = "uint64".toList ∨ f = "uint".toList then 0 ≤ i ∧ i ≤ 2 ^ 64 - 1
  else if f = "uint32".toList then 0 ≤ i ∧ i ≤ 2 ^ 32 - 1
  else if f = "uint16".toList then 0 ≤ i ∧ i ≤ 2 ^ 16 - 1
  else if f = "uint8".toList then 0 ≤ i ∧ i ≤ 2 ^ 8 - 1
  else -2 ^ 63 ≤ i ∧ i ≤ 2 ^ 63 - 1

/-- The numbers that a Go type for the format has. -/
def InFloat (S : Std) (f : Str) (q : Rat) : Prop :=
  (if f = "double".toList then S.r64 q else S.r32 q) = some q

/-- A value that an optional property of the schema may have: not `null`, and no empty array
or object for what becomes a slice or a map. -/
def Visible : OS → J → Prop
  | _, .null => False
  | .arr _, .arr .nil => False
  | .obj true [] .nil _ .nil, .obj .nil => False
  | .obj _ [] .nil .free .nil, .obj .nil => False
  | .obj _ [] .nil (.of _) .nil, .obj .nil => False
  | _, _ => True

/-- A property of a schema or of one of its parts, the schemas that it refers to with `allOf`,
and theirs; `path` says in which. -/
inductive At (comps : List (Str × OS)) : OS → List Str → Str → Bool × Bool × OS → Prop
  | own {typed allOf props addl alts k v} : findProp k props = some v →
      At comps (.obj typed allOf props addl alts) [] k v
  | part {typed allOf props addl alts m s path k v} : m ∈ allOf → comps.lookup m = some s →
      At comps s path k v → At comps (.obj typed allOf props addl alts) (m :: path) k v

/-- A property that counts: it is not in a part with an underscore in its name, and of the other
places of properties with the same name it is in one of least depth, and all of the same depth are
in the same part, and that in the same part. -/
def Counts (comps : List (Str × OS)) (s : OS) (k : Str) (v : Bool × Bool × OS) : Prop :=
  ∃ p, At comps s p k v ∧ (∀ m ∈ p, '_' ∉ m) ∧ ∀ q w, At comps s q k w → (∀ m ∈ q, '_' ∉ m) →
    p.length < q.length ∨ p.length = q.length ∧ q.reverse.take 2 = p.reverse.take 2

/-- A schema all parts of which are objects, without additional properties and alternatives. -/
inductive Objects (comps : List (Str × OS)) : OS → Prop
  | intro {typed allOf props} : (∀ m ∈ allOf, (comps.lookup m).isSome = true) →
      (∀ m s, m ∈ allOf → comps.lookup m = some s → Objects comps s) →
      Objects comps (.obj typed allOf props .no .nil)

mutual
/-- The data that a schema accepts (OpenAPI 3.0; without `additionalProperties` an object with
properties has no others, as it comes from a closed struct; of schemas with `allOf` only those
all parts of which are objects and agree on the properties that several have).  If `strict`,
some data is left out:

* numbers that the Go type does not have, and numbers where anything is allowed that are not
  of type `float64`;
* for properties that are neither required nor nullable: `null`, and empty arrays and objects
  where the schema is one of arrays or maps;
* nullable properties that are absent;
* objects of schemas with `allOf` not all properties of which count. -/
inductive Valid (S : Std) (strict : Bool) (comps : List (Str × OS)) : OS → J → Prop
  | ref {n s j} : comps.lookup n = some s → Valid S strict comps s j →
      Valid S strict comps (.ref n) j
  | str {f enum s} : (enum = [] ∨ s ∈ enum) → Valid S strict comps (.prim .string f enum) (.str s)
  | bool {f enum b} : Valid S strict comps (.prim .boolean f enum) (.bool b)
  | int {f enum q} : q.den = 1 → InFormat f q.num → (strict = true → InGo f q.num) →
      Valid S strict comps (.prim .integer f enum) (.num q)
  | num {f enum q} : (strict = true → InFloat S f q) →
      Valid S strict comps (.prim .number f enum) (.num q)
  | arr {s xs} : Valids S strict comps s xs → Valid S strict comps (.arr s) (.arr xs)
  | any {j} : (strict = true → Exact S j) → Valid S strict comps (.obj false [] .nil .no .nil) j
  | free {ms} : (strict = true → Exact S (.obj ms)) →
      Valid S strict comps (.obj true [] .nil .no .nil) (.obj ms)
  | obj {typed props addl alts ms} : (props ≠ .nil ∨ addl ≠ .no) → ms.keys.Nodup →
      (∀ n r nl s, findProp n props = some (r, nl, s) → (r = true ∨ strict = true ∧ nl = true) →
        n ∈ ms.keys) →
      ValidMs S strict comps props addl ms → ValidAlts S strict comps alts (.obj ms) →
      Valid S strict comps (.obj typed [] props addl alts) (.obj ms)
  | union {typed d s es j} : ValidAlts S strict comps (.cons d s es) j →
      Valid S strict comps (.obj typed [] .nil .no (.cons d s es)) j
  | all {typed allOf props ms} : allOf ≠ [] →
      Objects comps (.obj typed allOf props .no .nil) →
      (∀ p q k v w, At comps (.obj typed allOf props .no .nil) p k v →
        At comps (.obj typed allOf props .no .nil) q k w → v = w) →
      (strict = true → ∀ p k v, At comps (.obj typed allOf props .no .nil) p k v →
        ∃ w, Counts comps (.obj typed allOf props .no .nil) k w) → ms.keys.Nodup →
      (∀ p k r nl s, At comps (.obj typed allOf props .no .nil) p k (r, nl, s) →
        (r = true ∨ strict = true ∧ nl = true) → k ∈ ms.keys) →
      ValidParts S strict comps (.obj typed allOf props .no .nil) ms →
      Valid S strict comps (.obj typed allOf props .no .nil) (.obj ms)
inductive Valids (S : Std) (strict : Bool) (comps : List (Str × OS)) : OS → Js → Prop
  | nil {s} : Valids S strict comps s .nil
  | cons {s x xs} : Valid S strict comps s x → Valids S strict comps s xs →
      Valids S strict comps s (.cons x xs)
/-- The members of an object: of the properties, or additional. -/
inductive ValidMs (S : Std) (strict : Bool) (comps : List (Str × OS)) : OPs → OAs → JMs → Prop
  | nil {props addl} : ValidMs S strict comps props addl .nil
  | prop {props addl k x ms r nl s} : findProp k props = some (r, nl, s) →
      (strict = true → r = false → nl = false → Visible s x) → Valid S strict comps s x →
      ValidMs S strict comps props addl ms → ValidMs S strict comps props addl (.cons k x ms)
  | null {props addl k ms r s} : findProp k props = some (r, true, s) →
      ValidMs S strict comps props addl ms → ValidMs S strict comps props addl (.cons k .null ms)
  | free {props k x ms} : findProp k props = none → (strict = true → Exact S x) →
      ValidMs S strict comps props .free ms → ValidMs S strict comps props .free (.cons k x ms)
  | addl {props k x ms s} : findProp k props = none → Valid S strict comps s x →
      ValidMs S strict comps props (.of s) ms →
      ValidMs S strict comps props (.of s) (.cons k x ms)
/-- The members of an object: of the properties of a schema and its parts. -/
inductive ValidParts (S : Std) (strict : Bool) (comps : List (Str × OS)) : OS → JMs → Prop
  | nil {root} : ValidParts S strict comps root .nil
  | prop {root path k x ms r nl s} : At comps root path k (r, nl, s) →
      (strict = true → r = false → nl = false → Visible s x) → Valid S strict comps s x →
      ValidParts S strict comps root ms → ValidParts S strict comps root (.cons k x ms)
  | null {root path k ms r s} : At comps root path k (r, true, s) →
      ValidParts S strict comps root ms → ValidParts S strict comps root (.cons k .null ms)
/-- One of the alternatives, if there are any. -/
inductive ValidAlts (S : Std) (strict : Bool) (comps : List (Str × OS)) : OEs → J → Prop
  | none {j} : ValidAlts S strict comps .nil j
  | here {d s es j} : Valid S strict comps s j → ValidAlts S strict comps (.cons d s es) j
  | there {d s d' s' es j} : ValidAlts S strict comps (.cons d' s' es) j →
      ValidAlts S strict comps (.cons d s (.cons d' s' es)) j
end

/-- The formats of strings that do not become strings of Go. -/
def stringFormats : List Str :=
  ["byte", "binary", "email", "date", "date-time", "json", "uuid"].map String.toList

mutual
/-- No enumeration. -/
def NoEnum : OS → Prop
  | .ref _ => True
  | .prim _ _ e => e = []
  | .arr s => NoEnum s
  | .inner => True
  | .obj _ _ ps a es => NoEnumPs ps ∧ NoEnumA a ∧ NoEnumEs es
def NoEnumPs : OPs → Prop
  | .nil => True
  | .cons _ _ _ s ps => NoEnum s ∧ NoEnumPs ps
def NoEnumA : OAs → Prop
  | .of s => NoEnum s
  | .no => True
  | .free => True
def NoEnumEs : OEs → Prop
  | .nil => True
  | .cons _ s es => NoEnum s ∧ NoEnumEs es
end

/-- No enumeration below a property. -/
def FlatEnum : OS → Prop
  | .arr s => FlatEnum s
  | .obj _ _ ps a es => NoEnumPs ps ∧ NoEnumA a ∧ NoEnumEs es
  | _ => True

/-- Names that begin with a letter that has an upper case form, and do not end in a space. -/
def Cased (U : Uni) (n : Str) : Prop :=
  (∃ c r, n = c :: r ∧ (U.isUpper c ∨ U.isLower c ∧ U.isUpper (U.toUpper c))) ∧
    n.getLast? ≠ some ' '

/-- Names that a tag can have. -/
def TagName (U : Uni) (n : Str) : Prop :=
  n ≠ [] ∧ n ≠ ['-'] ∧
    ∀ c ∈ n, c ∈ "!#$%&()*+-./:;<=>?@[]^_{|}~ ".toList ∨ U.isLetter c = true ∨ U.isDigit c = true

/-- There are properties, or references that are embedded. -/
def HasFields (allOf : List Str) (ps : OPs) : Prop := ps ≠ .nil ∨ ∃ m ∈ allOf, '_' ∉ m

/-- A schema for a struct. -/
def IsStruct : OS → Prop
  | .obj _ allOf ps .no .nil => HasFields allOf ps
  | _ => False

/-- The parts of a schema are structs, with names that are not those of its properties. -/
def Parts (comps : List (Str × OS)) (allOf : List Str) (ps : OPs) : Prop :=
  allOf.Nodup ∧ ∀ m ∈ allOf, m ∉ propNames ps ∧ ∃ s, comps.lookup m = some s ∧ IsStruct s

mutual
/-- Schemas that are generated without loss: references to what is there; simple types, but
strings that are not strings of Go, and no bytes; arrays; maps without enumerations below
properties; structs of which the properties have good and distinct names, with `allOf`
references to such structs, not all of them with underscores in their names if there are no
properties.  No alternatives, and not properties or references together with additional
properties. -/
def Tame (U : Uni) (comps : List (Str × OS)) : OS → Prop
  | .ref n => (comps.lookup n).isSome
  | .prim .string f _ => f ∉ stringFormats
  | .prim .integer f _ => f ≠ "uint8".toList
  | .prim .number f _ => f = "double".toList ∨ f = "float".toList ∨ f = []
  | .prim .boolean f _ => f = []
  | .arr s => Tame U comps s
  | .inner => False
  | .obj _ allOf ps a es => Parts comps allOf ps ∧ es = .nil ∧
      TameA U comps a ∧ TamePs U comps ps ∧ ((ps = .nil ∧ allOf = []) ∨ (HasFields allOf ps ∧ a = .no)) ∧
      (propNames ps).Nodup ∧ ((propNames ps).map (typeName U)).Nodup
def TamePs (U : Uni) (comps : List (Str × OS)) : OPs → Prop
  | .nil => True
  | .cons n _ _ s ps => TagName U n ∧ GoodName U n ∧ Tame U comps s ∧ TamePs U comps ps
def TameA (U : Uni) (comps : List (Str × OS)) : OAs → Prop
  | .no => True
  | .free => True
  | .of s => Tame U comps s ∧ FlatEnum s
end

/-- Components that are generated without loss. -/
structure TameAll (U : Uni) (comps : List (Str × OS)) : Prop where
  names : ∀ n s, (n, s) ∈ comps → Cased U n
  distinct : (comps.map fun c => typeName U c.1).Nodup
  tame : ∀ n s, (n, s) ∈ comps → Tame U comps s
  /-- No schema is a part of itself. -/
  acyclic : ∃ rank : Str → Nat, ∀ n typed allOf ps a es, (n, OS.obj typed allOf ps a es) ∈ comps →
    ∀ m ∈ allOf, rank m < rank n

/-- The predeclared types that are used. -/
def basicTypes : List Str :=
  ["string", "bool", "any", "int", "int64", "int32", "int16", "int8", "uint", "uint64", "uint32",
   "uint16", "float32", "float64"].map String.toList

/-- `j` read into the type `t` and written again gives `j'`. -/
def Becomes (U : Uni) (S : Std) (ds : List Decl) (t : GT) (j j' : J) : Prop :=
  ∃ v k, ∀ m, k ≤ m → dec U S ds m t j = some v ∧ jeq (enc U S v) j' = true

/-- `j` read into the type `t` and written again gives the same. -/
def RoundTrip (U : Uni) (S : Std) (ds : List Decl) (t : GT) (j : J) : Prop :=
  Becomes U S ds t j j

/-- `j` cannot be read into the type `t`. -/
def Unreadable (U : Uni) (S : Std) (ds : List Decl) (t : GT) (j : J) : Prop :=
  ∃ k, ∀ m, k ≤ m → dec U S ds m t j = none

end Thema.GoJson

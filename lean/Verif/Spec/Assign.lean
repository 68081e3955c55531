import Verif.Model.Assign

/-!
# Vocabulary for assignability

The rules of `docs/invariants.md:16-60` as a relation between (the CUE encoding of) a Go
type and a schema; data; and which data a Go type can represent.
-/

namespace Thema.Spec.Assign

open Thema.Assign

variable {V : Type}

/-- The Go type without the null that CUE adds for pointers and slices: the first
alternative that is not null. -/
def Core (O : Obs V) (g g' : V) : Prop :=
  (O.isOr g = false ∧ g' = g) ∨
  (O.isOr g = true ∧ ∃ pre post, O.alts g = pre ++ g' :: post ∧
    (∀ x ∈ pre, O.isNull x = true) ∧ O.isNull g' = false) ∨
  (O.isOr g = true ∧ (∀ x ∈ O.alts g, O.isNull x = true) ∧ g' = g)

/-- Go's `any`. -/
def AnyType (O : Obs V) (g : V) : Prop := (O.kind g).noNull = Kinds.topNoNull

/-- The list type of a schema that may have a default: the only alternative beside the
default. -/
def ListType (O : Obs V) (s b : V) : Prop :=
  (O.hasDefault s = false ∧ b = s) ∨
  (O.hasDefault s = true ∧ ∃ rest, O.alts s = b :: rest ∧ rest.length ≤ 1)

/-- All of the list have the same type: neighbours subsume each other. -/
def SameTypes (O : Obs V) : List V → Prop
  | x :: y :: rest => O.sub x y = true ∧ O.sub y x = true ∧ SameTypes O (y :: rest)
  | _ => True

/-- A basic type: bool, string, bytes, int, float, or number. -/
def Basic (k : Kinds) : Prop :=
  k = { bool := true } ∨ k = { str := true } ∨ k = { bytes := true } ∨ k = { int := true } ∨
  k = { float := true } ∨ k = { int := true, float := true }

/-- The rules.  `Rules O single g s`: schema `s` is assignable to Go type `g`.  `single`
says whether closed lists of one element are assignable to arrays. -/
inductive Rules (O : Obs V) (single : Prop) : V → V → Prop
  /-- `any` takes everything -/
  | any {g s} : AnyType O g → Rules O single g s
  /-- basic types: the Go type, with its null if the schema has null, allows all values -/
  | basicNull {g s} : (O.kind s).noNull = (O.kind g).noNull → Basic (O.kind s).noNull →
      (O.kind s).null = true → O.sub g s = true → Rules O single g s
  | basic {g g' s} : (O.kind s).noNull = (O.kind g).noNull → Basic (O.kind s).noNull →
      (O.kind s).null = false → Core O g g' → O.sub g' s = true → Rules O single g s
  /-- structs: the same fields on both sides, and no disjunction in the schema -/
  | struct {g g' s fs gs} : (O.kind s).noNull = { struct := true } →
      (O.kind g).noNull = { struct := true } → O.isOr s = false → Core O g g' →
      O.fields s = some fs → O.fields g' = some gs →
      (∀ k, k ∈ fs.map (·.1) ↔ k ∈ gs.map (·.1)) →
      (∀ k sv gv, (k, sv) ∈ fs → (k, gv) ∈ gs → Rules O single gv sv) → Rules O single g s
  /-- open lists: a slice, and one type -/
  | openList {g g' s b} : (O.kind s).noNull = { list := true } →
      (O.kind g).noNull = { list := true } → Core O g g' → ListType O s b →
      O.len g' = none → O.len b = none → O.lenSub g' b = true →
      SameTypes O (O.elems b ++ [O.anyIdx b]) →
      Rules O single (O.anyIdx g') (O.anyIdx b) → Rules O single g s
  /-- closed lists: an array of compatible length, and one type -/
  | closedList {g g' s b n m x e} : (O.kind s).noNull = { list := true } →
      (O.kind g).noNull = { list := true } → Core O g g' → ListType O s b →
      O.len g' = some n → O.len b = some m → O.lenSub g' b = true →
      SameTypes O (O.elems b) → (O.elems g').head? = some x →
      (O.elems b).getLast? = some e → (single ∨ (O.elems b).length ≠ 1) →
      Rules O single x e → Rules O single g s
  | closedListAny {g g' s b n m x} : (O.kind s).noNull = { list := true } →
      (O.kind g).noNull = { list := true } → Core O g g' → ListType O s b →
      O.len g' = some n → O.len b = some m → O.lenSub g' b = true →
      SameTypes O (O.elems b) → (O.elems g').head? = some x → AnyType O x → Rules O single g s
  | closedListEmpty {g g' s b n m} : (O.kind s).noNull = { list := true } →
      (O.kind g).noNull = { list := true } → Core O g g' → ListType O s b →
      O.len g' = some n → O.len b = some m → O.lenSub g' b = true →
      SameTypes O (O.elems b) → O.elems g' = [] → Rules O single g s

/-- `Disc O g s q m`: comparing Go type `g` with schema `s`, there is a discrepancy of sort
`m` at path `q` (from `g` and `s`).  A closed list with fewer than two elements is compared
like the zero value (see `Rules` for what is intended). -/
inductive Disc (O : Obs V) : V → V → P → Msg → Prop
  | kind {g s} : ¬ AnyType O g → (O.kind s).noNull ≠ (O.kind g).noNull → Disc O g s [] .kindMismatch
  | basicNull {g s} : (O.kind s).noNull = (O.kind g).noNull → Basic (O.kind s).noNull →
      (O.kind s).null = true → O.sub g s = false → Disc O g s [] .notSubsumed
  | basic {g g' s} : (O.kind s).noNull = (O.kind g).noNull → Basic (O.kind s).noNull →
      (O.kind s).null = false → Core O g g' → O.sub g' s = false → Disc O g s [] .notSubsumed
  | kinds {g s} : ¬ AnyType O g → (O.kind s).noNull = (O.kind g).noNull →
      ¬ Basic (O.kind s).noNull → (O.kind s).list = false → (O.kind s).struct = false →
      Disc O g s [] .multipleKinds
  | structOr {g s} : (O.kind s).noNull = { struct := true } →
      (O.kind g).noNull = { struct := true } → O.isOr s = true → Disc O g s [] .structDisjunction
  | missing {g g' s fs gs k} : (O.kind s).noNull = { struct := true } →
      (O.kind g).noNull = { struct := true } → O.isOr s = false → Core O g g' →
      O.fields s = some fs → O.fields g' = some gs → k ∈ fs.map (·.1) → k ∉ gs.map (·.1) →
      Disc O g s [some k] .absentInGo
  | excess {g g' s fs gs k} : (O.kind s).noNull = { struct := true } →
      (O.kind g).noNull = { struct := true } → O.isOr s = false → Core O g g' →
      O.fields s = some fs → O.fields g' = some gs → k ∈ gs.map (·.1) → k ∉ fs.map (·.1) →
      Disc O g s [some k] .absentInSchema
  | field {g g' s fs gs k sv gv q m} : (O.kind s).noNull = { struct := true } →
      (O.kind g).noNull = { struct := true } → O.isOr s = false → Core O g g' →
      O.fields s = some fs → O.fields g' = some gs → (k, sv) ∈ fs → (k, gv) ∈ gs →
      Disc O gv sv q m → Disc O g s (some k :: q) m
  | listDisjunction {g s} : (O.kind s).noNull = { list := true } →
      (O.kind g).noNull = { list := true } → O.hasDefault s = true → 2 < (O.alts s).length →
      Disc O g s [] .complexListDisjunction
  | closed {g g' s b m} : (O.kind s).noNull = { list := true } →
      (O.kind g).noNull = { list := true } → Core O g g' → ListType O s b →
      O.len g' = none → O.len b = some m → Disc O g s [] .closedInSchema
  | open_ {g g' s b n} : (O.kind s).noNull = { list := true } →
      (O.kind g).noNull = { list := true } → Core O g g' → ListType O s b →
      O.len g' = some n → O.len b = none → Disc O g s [] .openInSchema
  | lengths {g g' s b} : (O.kind s).noNull = { list := true } →
      (O.kind g).noNull = { list := true } → Core O g g' → ListType O s b →
      (O.len g').isSome = (O.len b).isSome → O.lenSub g' b = false → Disc O g s [] .lengths
  | types {g g' s b} : (O.kind s).noNull = { list := true } →
      (O.kind g).noNull = { list := true } → Core O g g' → ListType O s b →
      (O.len g').isSome = (O.len b).isSome → O.lenSub g' b = true →
      ¬ SameTypes O (O.elems b ++ (if O.len b = none then [O.anyIdx b] else [])) →
      Disc O g s [] .multipleTypes
  | openElem {g g' s b q m} : (O.kind s).noNull = { list := true } →
      (O.kind g).noNull = { list := true } → Core O g g' → ListType O s b →
      O.len g' = none → O.len b = none → O.lenSub g' b = true →
      SameTypes O (O.elems b ++ [O.anyIdx b]) → Disc O (O.anyIdx g') (O.anyIdx b) q m →
      Disc O g s (none :: q) m
  | closedElem {g g' s b n k x e q m} : (O.kind s).noNull = { list := true } →
      (O.kind g).noNull = { list := true } → Core O g g' → ListType O s b →
      O.len g' = some n → O.len b = some k → O.lenSub g' b = true →
      SameTypes O (O.elems b) → (O.elems g').head? = some x →
      (2 ≤ (O.elems b).length ∧ (O.elems b).getLast? = some e ∨
        (O.elems b).length < 2 ∧ e = O.zero) →
      Disc O x e q m → Disc O g s (none :: q) m

/-- Facts about CUE: a struct has a field once, and the zero `cue.Value` has no kind. -/
structure Coherent (O : Obs V) : Prop where
  nodup : ∀ v fs, O.fields v = some fs → (fs.map (·.1)).Nodup
  zero : O.kind O.zero = Kinds.bottom

/-- The basic kinds of data. -/
inductive BasicKind
  | bool
  | int
  | float
  | str
  | bytes
  deriving DecidableEq, Repr

/-- Concrete data. -/
inductive Data
  | null
  | scalar (k : BasicKind) (content : Nat)
  | list (l : List Data)
  | obj (fs : List (Str × Data))

/-- The kind of the data is among `k`. -/
def Data.kindIn (k : Kinds) : Data → Prop
  | .null => k.null = true
  | .scalar .bool _ => k.bool = true
  | .scalar .int _ => k.int = true
  | .scalar .float _ => k.float = true
  | .scalar .str _ => k.str = true
  | .scalar .bytes _ => k.bytes = true
  | .list _ => k.list = true
  | .obj _ => k.struct = true

/-- What is relied on about the relation "`d` is an instance of `v`".  `S` are the
schemas. -/
structure Sem (O : Obs V) (inst : V → Data → Prop) (S : V → Prop) : Prop where
  /-- parts of schemas are schemas -/
  fieldS : ∀ v fs k w, S v → O.fields v = some fs → (k, w) ∈ fs → S w
  elemS : ∀ v w, S v → w ∈ O.elems v → S w
  anyS : ∀ v, S v → O.len v = none → S (O.anyIdx v)
  altS : ∀ v w, S v → w ∈ O.alts v → S w
  kind : ∀ v d, inst v d → d.kindIn (O.kind v)
  /-- in schemas null only occurs beside basic types (`docs/invariants.md:52`) -/
  nullBasic : ∀ v, S v → (O.kind v).null = true →
    (O.kind v).noNull ≠ Kinds.listK ∧ (O.kind v).noNull ≠ Kinds.structK
  /-- structs are closed -/
  struct : ∀ v fs ds, S v → O.isOr v = false → O.fields v = some fs → inst v (.obj ds) →
    ∀ k x, (k, x) ∈ ds → ∃ w, (k, w) ∈ fs ∧ inst w x
  /-- the default of a list is an instance of the other alternative -/
  dflt : ∀ v w rest d, S v → O.hasDefault v = true → O.alts v = w :: rest →
    rest.length ≤ 1 → inst v d → inst w d
  closed : ∀ v n l, S v → O.len v = some n → inst v (.list l) →
    l.length = n ∧ (O.elems v).length = n ∧
      ∀ (i : Nat) (x : Data) (w : V), l[i]? = some x → (O.elems v)[i]? = some w → inst w x
  open_ : ∀ v l, S v → O.len v = none → inst v (.list l) →
    ∀ (i : Nat) (x : Data), l[i]? = some x →
      (∀ w, (O.elems v)[i]? = some w → inst w x) ∧
      ((O.elems v)[i]? = none → inst (O.anyIdx v) x)
  sub : ∀ a b d, O.sub a b = true → inst b d → inst a d
  lenSub : ∀ g s n m, O.lenSub g s = true → O.len g = some n → O.len s = some m → n = m
  /-- the elements of an array type are listed -/
  arr : ∀ v n, O.len v = some n → (O.elems v).length = n

/-- A Go type can represent the data. -/
inductive Represents (O : Obs V) (inst : V → Data → Prop) : V → Data → Prop
  | any {g d} : AnyType O g → Represents O inst g d
  /-- a basic value in the range of the type, or nil for a pointer to one -/
  | nilPtr {g} : inst g .null → Represents O inst g .null
  | basic {g k c} : inst g (.scalar k c) → Represents O inst g (.scalar k c)
  | pointee {g g' k c} : Core O g g' → inst g' (.scalar k c) →
      Represents O inst g (.scalar k c)
  /-- a list of the array's length -/
  | array {g g' n x l} : Core O g g' → O.len g' = some n → (O.elems g').head? = some x →
      l.length = n → (∀ d ∈ l, Represents O inst x d) → Represents O inst g (.list l)
  | emptyArray {g g'} : Core O g g' → O.len g' = some 0 → Represents O inst g (.list [])
  /-- a list of any length -/
  | slice {g g' l} : Core O g g' → O.len g' = none →
      (∀ d ∈ l, Represents O inst (O.anyIdx g') d) → Represents O inst g (.list l)
  /-- a struct all of whose fields the Go type has; others keep their zero value -/
  | struct {g g' gs ds} (gv : Str → Data → V) : Core O g g' → O.fields g' = some gs →
      (∀ k d, (k, d) ∈ ds → (k, gv k d) ∈ gs) →
      (∀ k d, (k, d) ∈ ds → Represents O inst (gv k d) d) → Represents O inst g (.obj ds)

end Thema.Spec.Assign

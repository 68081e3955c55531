import Verif.Model.Assign

/-!
# Go types bound to schemas

`BindType`, `NewT` (`schema.go:166-248`) and `Value` (`instance.go:158-181`): values of a
schema and data decoded into Go values.

CUE's `Value.Decode` is modelled for structs, open lists and basic types with a default, and
Go structs, slices, pointers and basic types.  Left out: `any`, maps, arrays, null, bytes,
types with `UnmarshalJSON` or `UnmarshalText`, embedded Go structs, and the match of field
names regardless of case if there is no exact match (with an assignable type there always is
one).  Go values are trees: pointers and slices that a decoder makes are new ones, and the
capacity of a slice is its length.
-/

namespace Thema.Typed

/-- Basic kinds. -/
inductive BK
  | bool
  | int
  | float
  | str
  deriving DecidableEq, Repr

/-- Concrete data. -/
inductive D
  | con (k : BK) (c : Nat)
  | list (l : List D)
  | st (fs : List (Str × D))

mutual
/-- A schema: a constant, a basic type (the contents up to `max`) perhaps with a default, an
open list with the elements of its default (none without a default: CUE's default of an open
list is then the empty list), a struct. -/
inductive S
  | con (k : BK) (c : Nat)
  | typ (k : BK) (max : Nat) (dflt : Option Nat)
  | olist (e : S) (dflt : List D)
  | st (fs : SF)
/-- Fields of a struct: name, whether optional, type. -/
inductive SF
  | nil
  | cons (n : Str) (opt : Bool) (s : S) (rest : SF)
end

mutual
/-- A Go type: a basic type (the contents up to `max`), pointer, slice, struct. -/
inductive GT
  | scal (k : BK) (max : Nat)
  | ptr (t : GT)
  | slice (t : GT)
  | st (fs : GF)
/-- Fields of a Go struct, with the names that CUE uses (from the json tags). -/
inductive GF
  | nil
  | cons (n : Str) (t : GT) (rest : GF)
end

/-- A Go value.  (A content of 0 is the zero value.) -/
inductive GV
  | scal (c : Nat)
  | ptr (p : Option GV)
  | slice (l : Option (List GV))
  | st (fs : List (Str × GV))

mutual
/-- The zero value of a type. -/
def zero : GT → GV
  | .scal _ _ => .scal 0
  | .ptr _ => .ptr none
  | .slice _ => .slice none
  | .st fs => .st (zeroF fs)
def zeroF : GF → List (Str × GV)
  | .nil => []
  | .cons n t rest => (n, zero t) :: zeroF rest
end

/-- The errors of `Decode`, as far as `BindType` tells them apart: whether the text has
"cannot convert non-concrete". -/
inductive DErr
  | nonConcrete
  | other
  deriving DecidableEq, Repr

/-- What a pointer points to. -/
def GV.deref : GV → Option GV
  | .ptr p => p
  | _ => none

/-- The elements of a slice. -/
def GV.elems : GV → List GV
  | .slice (some l) => l
  | _ => []

/-- The field of a struct. -/
def GV.field (n : Str) : GV → Option GV
  | .st fs => fs.lookup n
  | _ => none

/-- The elements that the elements of a list are decoded into: CUE's decoder makes a new
slice if the old one has no capacity or too little, and else sets the length of the old
one, whose elements stay (if `reuse`, which is what CUE v0.5 does). -/
def slots (reuse : Bool) (z : GV) (n : Nat) (old : List GV) : List GV :=
  if reuse && old.length ≠ 0 && decide (n ≤ old.length) then old.take n else List.replicate n z

mutual
/-- CUE's `decoder.decode` of concrete data into a Go value: the value afterwards and the
errors. -/
def decodeD (reuse : Bool) : GT → D → GV → GV × List DErr
  | .ptr t, d, x =>
    let r := decodeD reuse t d (x.deref.getD (zero t))
    (.ptr (some r.1), r.2)
  | .scal k max, .con k' c, x =>
    if k = k' ∧ c ≤ max then (.scal c, []) else (x, [.other])
  | .slice t, .list l, x =>
    let r := List.zipWith (fun d y => decodeD reuse t d y) l
      (slots reuse (zero t) l.length x.elems)
    (.slice (some (r.map (·.1))), (r.map (·.2)).flatten)
  | .st fs, .st ds, x =>
    let r := decodeDF reuse fs ds x
    (.st r.1, r.2)
  | .scal _ _, _, x => (x, [.other])
  | .slice _, _, x => (x, [.other])
  | .st _, _, x => (x, [.other])
/-- `decoder.convertStruct`: the fields of the data that the Go struct has.  (The code goes
through the fields of the data; each goes to another field of the struct.) -/
def decodeDF (reuse : Bool) : GF → List (Str × D) → GV → List (Str × GV) × List DErr
  | .nil, _, _ => ([], [])
  | .cons n t rest, ds, x =>
    let y := (x.field n).getD (zero t)
    let r := match ds.lookup n with
      | some d => decodeD reuse t d y
      | none => (y, [])
    let q := decodeDF reuse rest ds x
    ((n, r.1) :: q.1, r.2 ++ q.2)
end

/-- The regular field of a name: `v.Fields()` leaves out optional ones. -/
def SF.regular : SF → Str → Option S
  | .nil, _ => none
  | .cons n opt s rest, m => if n = m then (if opt then none else some s) else rest.regular m

mutual
/-- CUE's `decoder.decode` of a schema: defaults are used; basic types without a default
clear a pointer and are an error for a basic Go type. -/
def decodeS (reuse : Bool) : GT → S → GV → GV × List DErr
  | t, .con k c, x => decodeD reuse t (.con k c) x
  | t, .typ k _ (some c), x => decodeD reuse t (.con k c) x
  | .ptr _, .typ _ _ none, _ => (.ptr none, [])
  | .slice _, .typ _ _ none, _ => (.slice none, [])
  | .scal _ _, .typ _ _ none, x => (x, [.nonConcrete])
  | .st _, .typ _ _ none, x => (x, [.nonConcrete])
  | t, .olist _ l, x => decodeD reuse t (.list l) x
  | .ptr t, .st fs, x =>
    let r := decodeS reuse t (.st fs) (x.deref.getD (zero t))
    (.ptr (some r.1), r.2)
  | .st gs, .st fs, x =>
    let r := decodeSF reuse gs fs x
    (.st r.1, r.2)
  | .scal _ _, .st _, x => (x, [.other])
  | .slice _, .st _, x => (x, [.other])
/-- `decoder.convertStruct` for a schema. -/
def decodeSF (reuse : Bool) : GF → SF → GV → List (Str × GV) × List DErr
  | .nil, _, _ => ([], [])
  | .cons n t rest, fs, x =>
    let y := (x.field n).getD (zero t)
    let r := match fs.regular n with
      | some s => decodeS reuse t s y
      | none => (y, [])
    let q := decodeSF reuse rest fs x
    ((n, r.1) :: q.1, r.2 ++ q.2)
end

/-- `Value.Decode(x)`: "An error is returned if x is nil or not a pointer." -/
def decodeTop (reuse : Bool) (t : GT) (s : S) (x : GV) : GV × List DErr :=
  match t, x with
  | .ptr t, .ptr (some y) =>
    let r := decodeS reuse t s y
    (.ptr (some r.1), r.2)
  | _, x => (x, [.other])

/-! ## Schemas and Go types as CUE values, for `AssignableTo` -/

/-- CUE values: a Go type as `ctx.EncodeType` encodes it (pointers as `*null | t`, slices as
`*null | [...t]`), the list type of a slice, a schema, null, the zero `cue.Value`. -/
inductive W
  | go (t : GT)
  | lst (t : GT)
  | sch (s : S)
  | null
  | zero

open Thema.Assign (Kinds Obs)

/-- One basic kind. -/
def BK.kinds : BK → Kinds
  | .bool => { bool := true }
  | .int => { int := true }
  | .float => { float := true }
  | .str => { str := true }

/-- `EncodeType(t).IncompleteKind()`. -/
def goKind : GT → Kinds
  | .scal k _ => k.kinds
  | .ptr t => { goKind t with null := true }
  | .slice _ => { list := true, null := true }
  | .st _ => { struct := true }

/-- The alternatives of the encoding of a Go type. -/
def goAlts : GT → List W
  | .ptr t => .null :: goAlts t
  | .slice t => [.null, .lst t]
  | t => [.go t]

/-- The fields of a Go struct, each name once. -/
def GF.list : GF → List (Str × W)
  | .nil => []
  | .cons n t rest => (n, .go t) :: rest.list.filter (fun f => decide (f.1 ≠ n))

/-- The fields of a schema with optional ones, each name once. -/
def SF.list : SF → List (Str × W)
  | .nil => []
  | .cons n _ s rest => (n, .sch s) :: rest.list.filter (fun f => decide (f.1 ≠ n))

/-- Subsumption between basic types.  (`g` is never a pointer here but for schemas with
null, which are left out.) -/
def basicSub : W → W → Bool
  | .go (.scal k m), .sch (.typ k' m' _) => decide (k = k') && decide (m' ≤ m)
  | .go (.scal k m), .sch (.con k' c) => decide (k = k') && decide (c ≤ m)
  | _, _ => false

/-- The observations of `assignable.go`.  A list has a default (CUE closes it); `Expr` of a
list disjunction leaves the marked default out, says `assignable.go:180-182`. -/
def obs : Obs W where
  kind
    | .go t => goKind t
    | .lst _ => { list := true }
    | .sch (.con k _) => k.kinds
    | .sch (.typ k _ _) => k.kinds
    | .sch (.olist _ _) => { list := true }
    | .sch (.st _) => { struct := true }
    | .null => { null := true }
    | .zero => {}
  isOr
    | .go (.ptr _) => true
    | .go (.slice _) => true
    | _ => false
  alts
    | .go t => goAlts t
    | .sch (.olist e _) => [.sch (.olist e [])]
    | w => [w]
  isNull
    | .null => true
    | _ => false
  hasDefault
    | .sch (.typ _ _ d) => d.isSome
    | .sch (.olist _ _) => true
    | .lst _ => true
    | _ => false
  fields
    | .go (.st fs) => some fs.list
    | .sch (.st fs) => some fs.list
    | _ => none
  len _ := none
  lenSub _ _ := true
  elems _ := []
  anyIdx
    | .lst t => .go t
    | .sch (.olist e _) => .sch e
    | _ => .zero
  sub := basicSub
  zero := .zero

/-- The argument as `reflect` sees it (`assignable.go:46-57`). -/
def goVal : GT → GV → Assign.GoVal W
  | .ptr t, .ptr (some x) => .ptr (goVal t x)
  | .ptr _, _ => .ptr .other
  | .st fs, _ => .struct (.go (.st fs))
  | _, _ => .other

/-- `schema.go:239-243`, `unaryTypedSchema`: the schema and the Go type. -/
structure TypedSch where
  sch : S
  typ : GT

/-- `schema.go:172-226`, `BindType`: the result, and the argument `t` afterwards. `n` bounds
the recursion of `AssignableTo`. -/
def bindType (reuse : Bool) (n : Nat) (s : S) (T : GT) (t : GV) : Res TypedSch × GV :=
  match Assign.assignable obs n (.sch s) (goVal T t) with
  | .ok .nil =>
    let r := decodeTop reuse T s t
    if (r.2.filter (fun e => decide (e ≠ .nonConcrete))).length > 0 then (.err ⟨[]⟩, r.1)
    else (.ok ⟨s, T⟩, r.1)
  | .ok _ => (.err ⟨[]⟩, t)
  | .err e => (.err e, t)
  | .panic k => (.panic k, t)
  | .fuel => (.fuel, t)

/-- `schema.go:211-217`, `newfn`, and `schema.go:246-248`, `NewT`: errors are ignored. -/
def TypedSch.newT (reuse : Bool) (ts : TypedSch) : GV :=
  (decodeS reuse ts.typ ts.sch (zero ts.typ)).1

/-- `instance.go:163-170`, `Value`, of an instance with the given raw data: the Go value
and whether the error is nil. -/
def TypedSch.value (reuse : Bool) (ts : TypedSch) (raw : D) : GV × Bool :=
  let r := decodeD reuse ts.typ raw (ts.newT reuse)
  (r.1, r.2.isEmpty)

end Thema.Typed

import Verif.Model.Validate

/-!
# Assignability of schemas to Go types

`assignable.go`.
-/

namespace Thema.Assign

/-- `cue.Kind`: a set of basic kinds.  (CUE's internal function kind is left out.) -/
structure Kinds where
  null : Bool := false
  bool : Bool := false
  int : Bool := false
  float : Bool := false
  str : Bool := false
  bytes : Bool := false
  list : Bool := false
  struct : Bool := false
  deriving DecidableEq, Repr

/-- `k &^ cue.NullKind`. -/
def Kinds.noNull (k : Kinds) : Kinds := { k with null := false }

/-- `cue.TopKind ^ cue.NullKind`. -/
def Kinds.topNoNull : Kinds :=
  { bool := true, int := true, float := true, str := true, bytes := true, list := true,
    struct := true }

/-- `cue.BottomKind`. -/
def Kinds.bottom : Kinds := {}
/-- `cue.ListKind`. -/
def Kinds.listK : Kinds := { list := true }
/-- `cue.StructKind`. -/
def Kinds.structK : Kinds := { struct := true }
/-- `cue.NullKind`. -/
def Kinds.nullK : Kinds := { null := true }

/-- `assignable.go:117`: the kinds compared by subsumption. -/
def Kinds.isScalar (k : Kinds) : Bool :=
  k == { float := true } || k == { int := true } || k == { str := true } ||
  k == { bytes := true } || k == { bool := true } || k == { int := true, float := true }

/-- `assignable.go:132`: `k & scalarKinds == k`. -/
def Kinds.scalarOnly (k : Kinds) : Bool := !k.list && !k.struct

/-- What `assignable.go` observes of `cue.Value`s.  All arbitrary functions. -/
structure Obs (V : Type) where
  /-- `v.IncompleteKind()` -/
  kind : V → Kinds
  /-- the operator of `v.Expr()` is `OrOp` -/
  isOr : V → Bool
  /-- the values of `v.Expr()` -/
  alts : V → List V
  /-- `v.Null() == nil` -/
  isNull : V → Bool
  /-- second result of `v.Default()` -/
  hasDefault : V → Bool
  /-- `v.Fields(cue.Optional(true))`: selectors and values; `none` is an error -/
  fields : V → Option (List (Str × V))
  /-- `v.Len()`: the number, if it is concrete -/
  len : V → Option Nat
  /-- `g.Len().Subsume(s.Len()) == nil` -/
  lenSub : V → V → Bool
  /-- the values of `v.List()` -/
  elems : V → List V
  /-- `v.LookupPath(cue.MakePath(cue.AnyIndex))` -/
  anyIdx : V → V
  /-- `a.Subsume(b, cue.Schema()) == nil` -/
  sub : V → V → Bool
  /-- `cue.Value{}` -/
  zero : V

/-- A selector of a path: a field, or `cue.AnyIndex`. -/
abbrev Sel := Option Str

/-- A `cue.Path`.  The code uses `p.String()` as the key of an error; paths stand for
their strings. -/
abbrev P := List Sel

/-- The messages, without texts (`assignable.go:106,125,130,133,158,171,185,195,197,204,
231,256,273`). -/
inductive Msg
  | kindMismatch
  | structDisjunction
  | nullSchema
  | multipleKinds
  | absentInGo
  | absentInSchema
  | complexListDisjunction
  | closedInSchema
  | openInSchema
  | lengths
  | multipleTypes
  | notSubsumed
  deriving DecidableEq, Repr

/-- The assignments `errs[key] = msg`, in order. -/
abbrev Errs := List (P × Msg)

variable {V : Type}

/-- `assignable.go:286-297`, `stripLeadNull`. -/
def stripLeadNull (O : Obs V) (v : V) : V :=
  if O.isOr v then
    match (O.alts v).find? (fun x => !O.isNull x) with
    | some x => x
    | none => v
  else v

/-- `assignable.go:266-275`, `checkscalar`. -/
def checkScalar (O : Obs V) (g s : V) (p : P) : Errs :=
  if O.sub g s then [] else [(p, .notSubsumed)]

/-- `assignable.go:148-172`: the loop over the fields of the schema, with the fields of
the Go type still unmatched; and the loop over those that are left over.  The path of a
left-over field is `vp.Path`, which is the field's selector alone.  (Go iterates over the
map `gmap` in any order; the keys of the left-over fields differ, so that the
assignments commute.) -/
def structLoop (rec : V → V → P → Res Errs) (p : P) : List (Str × V) → List (Str × V) → Res Errs
  | [], gmap => .ok (gmap.map fun f => ([some f.1], .absentInSchema))
  | (k, sv) :: rest, gmap =>
    match gmap.lookup k with
    | none => (structLoop rec p rest gmap).map ((p ++ [some k], .absentInGo) :: ·)
    | some gv =>
      (rec gv sv (p ++ [some k])).bind fun es =>
        (structLoop rec p rest (gmap.filter (fun f => decide (f.1 ≠ k)))).map (es ++ ·)

/-- `assignable.go:142-173`, `checkstruct`, with `structToSlice` and `structToMap`; `Fields`
failing is a panic (`assignable.go:310,330`). -/
def checkStruct (O : Obs V) (rec : V → V → P → Res Errs) (g s : V) (p : P) : Res Errs :=
  match O.fields s with
  | none => .panic .explicit
  | some ss =>
    match O.fields g with
    | none => .panic .explicit
    | some gs => structLoop rec p ss gs

/-- The types subsume each other (`assignable.go:229,254`). -/
def mutual_ (O : Obs V) (a b : V) : Bool := O.sub a b && O.sub b a

/-- `assignable.go:224-236`: the loop over the elements after the first.  The state is
`(lastval, los)`; `none`: elements of different types. -/
def elemLoop (O : Obs V) : V → V → List V → Option (V × V)
  | last, los, [] => some (last, los)
  | last, _, x :: rest => if mutual_ O last x then elemLoop O x x rest else none

/-- `assignable.go:218-237`: the type of the last element (if any) and `los`; `none`:
elements of different types. -/
def elemTypes (O : Obs V) (s : V) : Option (Option V × V) :=
  match O.elems s with
  | [] => some (none, O.zero)
  | x :: rest => (elemLoop O x O.zero rest).map fun r => (some r.1, r.2)

/-- `assignable.go:191-264`: `checklist` after the treatment of defaults. -/
def checkListBody (O : Obs V) (rec : V → V → P → Res Errs) (g s : V) (p : P) : Res Errs :=
  if (O.len g).isSome ≠ (O.len s).isSome then
    if (O.len s).isSome then .ok [(p, .closedInSchema)] else .ok [(p, .openInSchema)]
  else if !O.lenSub g s then .ok [(p, .lengths)]
  else
    match elemTypes O s with
    | none => .ok [(p, .multipleTypes)]
    | some (last, los) =>
      if (O.len g).isSome then
        match O.elems g with
        | [] => .ok []
        | x :: _ => rec x los (p ++ [none])
      else
        match last with
        | some l =>
          if mutual_ O l (O.anyIdx s) then rec (O.anyIdx g) (O.anyIdx s) (p ++ [none])
          else .ok [(p, .multipleTypes)]
        | none => rec (O.anyIdx g) (O.anyIdx s) (p ++ [none])

/-- `assignable.go:175-264`, `checklist`. -/
def checkList (O : Obs V) (rec : V → V → P → Res Errs) (g s : V) (p : P) : Res Errs :=
  if O.hasDefault s then
    if (O.alts s).length > 2 then .ok [(p, .complexListDisjunction)]
    else
      match O.alts s with
      | [] => .panic .indexOutOfRange
      | s' :: _ => checkListBody O rec g s' p
  else checkListBody O rec g s p

/-- `assignable.go:89-140`, `check`, with a bound on the depth of recursion. -/
def check (O : Obs V) : Nat → V → V → P → Res Errs
  | 0, _, _, _ => .fuel
  | n + 1, g, s, p =>
    let sk := (O.kind s).noNull
    let gk := (O.kind g).noNull
    if sk ≠ gk ∧ gk ≠ .topNoNull then .ok [(p, .kindMismatch)]
    else if gk = .topNoNull then .ok []
    else if sk = .listK then checkList O (check O n) (stripLeadNull O g) s p
    else if sk.isScalar then
      .ok (checkScalar O (if (O.kind s).null then g else stripLeadNull O g) s p)
    else if sk = .structK then
      if O.isOr s then .ok [(p, .structDisjunction)]
      else checkStruct O (check O n) (stripLeadNull O g) s p
    else if sk = .nullK then .ok [(p, .nullSchema)]
    else if sk.scalarOnly then .ok [(p, .multipleKinds)]
    else .panic .explicit

/-- The Go value passed as `T`, as far as `reflect` sees it (`assignable.go:46-57`);
a nil pointer is a pointer to `other`. -/
inductive GoVal (V : Type)
  | ptr (elem : GoVal V)
  | struct (encoded : V)
  | other

/-- The outcome of `AssignableTo`. -/
inductive Verdict
  | nil
  | pointerDepth
  | notAStruct
  | errs (es : Errs)
  deriving DecidableEq, Repr

/-- `assignable.go:48-50`: one pointer is dereferenced. -/
def GoVal.deref : GoVal V → GoVal V
  | .ptr e => e
  | v => v

/-- `assignable.go:45-284`, `assignable`.  `ctx.EncodeType` is part of `GoVal.struct`. -/
def assignable (O : Obs V) (n : Nat) (s : V) (t : GoVal V) : Res Verdict :=
  match t.deref with
  | .ptr _ => .ok .pointerDepth
  | .other => .ok .notAStruct
  | .struct g => (check O n g s []).map fun es => if es.length > 0 then .errs es else .nil

end Thema.Assign

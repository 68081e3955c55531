import Verif.Model.Lineage
import Verif.Model.Cue

/-!
# Hydration and dehydration

`hydrate.go` and `instance.go:54-95`.
-/

namespace Thema.Hydrate

/-- `IncompleteKind()`, as far as `hydrate.go` distinguishes kinds. -/
inductive HKind
  | list
  | struct
  | bottom
  | other
  deriving DecidableEq, Repr

/-- The CUE calls of `hydrate.go`.  All arbitrary functions. -/
structure HCue (V : Type) where
  /-- `v.IncompleteKind()` -/
  kind : V → HKind
  /-- `v.Fields(cue.Optional(true))`: labels, values and `IsOptional`; `none` is an error -/
  fields : V → Option (List (Str × V × Bool))
  /-- `v.Fields()`; empty after an error -/
  regular : V → List (Str × V)
  /-- `v.LookupPath(cue.MakePath(cue.Str(l)))`; `none`: it does not exist -/
  lookup : V → Str → Option V
  /-- `v.LookupPath(cue.MakePath(cue.AnyIndex))`; `none`: it does not exist -/
  anyIdx : V → Option V
  /-- `v.List()`; `none` is an error -/
  elems : V → Option (List V)
  /-- `a.Unify(b)` -/
  unify : V → V → V
  /-- `v.FillPath(cue.MakePath(cue.Str(l)), x)` -/
  fill : V → Str → V → V
  /-- `v.Eval()` -/
  eval : V → V
  /-- `ctx.NewList(vs...)` -/
  newList : List V → V
  /-- `v.Err() != nil` -/
  isErr : V → Bool
  /-- the operator of `v.Expr()` is `OrOp` -/
  isOr : V → Bool
  /-- the values of `v.Expr()` -/
  alts : V → List V
  /-- `v.Validate(cue.Concrete(true)) == nil` -/
  concrete : V → Bool
  /-- `a.Subsume(b) == nil` -/
  subsume : V → V → Bool
  /-- `v.Default()`; `none`: the second result is false -/
  dflt : V → Option V
  /-- `v.Kind() == cue.ListKind` -/
  isList : V → Bool
  /-- `v.Len().Int64()`; `none` is an error (the number is then 0) -/
  len : V → Option Int
  /-- `ctx.CompileString("")` -/
  empty : V

variable {V : Type}

/-- An error without sentinels. -/
def anErr : GoErr := ⟨[]⟩

/-- `hydrate.go:248-261`, `getBranch`. -/
def getBranch (H : HCue V) (sch data : V) : Res V :=
  if H.isOr sch then
    match (H.alts sch).find? (fun d => H.concrete (H.unify d data)) with
    | some d => .ok d
    | none => .err anErr
  else .ok sch

/-- `hydrate.go:28-37`: the loop over the elements of a list; an element whose hydration
fails is left out. -/
def hydrateElems (H : HCue V) (rec : V → V → Res V) (ele : V) : List V → Res (List V)
  | [] => .ok []
  | x :: rest =>
    (getBranch H ele x).bind fun ref =>
      match rec x ref with
      | .ok re => (hydrateElems H rec ele rest).map (re :: ·)
      | .err _ => hydrateElems H rec ele rest
      | .panic k => .panic k
      | .fuel => .fuel

/-- `hydrate.go:50-65`: the loop over the fields of the schema; `data` is the variable
that is updated. -/
def hydrateFields (H : HCue V) (rec : V → V → Res V) : List (Str × V × Bool) → V → Res V
  | [], data => .ok data
  | (label, v, opt) :: rest, data =>
    match H.lookup data label with
    | some lv =>
      match rec lv v with
      | .ok res => hydrateFields H rec rest (H.fill data label res)
      | .err _ => hydrateFields H rec rest data
      | .panic k => .panic k
      | .fuel => .fuel
    | none =>
      if opt then hydrateFields H rec rest data
      else hydrateFields H rec rest (H.fill data label (H.eval v))

/-- `hydrate.go:12-71`, `doHydrate`, with a bound on the depth of recursion.  The value
returned beside an error is never used by a caller and is left out. -/
def doHydrate (H : HCue V) : Nat → V → V → Res V
  | 0, _, _ => .fuel
  | n + 1, sch, data =>
    match H.kind sch with
    | .list =>
      match H.anyIdx sch with
      | some ele =>
        if H.kind ele = .bottom then .panic .explicit
        else
          match H.elems data with
          | none => .panic .explicit
          | some xs =>
            (hydrateElems H (doHydrate H n) ele xs).bind fun l =>
              if H.isErr (H.newList l) then .err anErr else .ok (H.newList l)
      | none => .ok (H.unify data sch)
    | .struct =>
      match H.fields sch with
      | none => .err anErr
      | some fs => hydrateFields H (doHydrate H n) fs data
    | _ => .ok (H.unify data sch)

/-- `hydrate.go:86-113`, `getDefault`; `none`: the second result is false. -/
def getDefault (H : HCue V) (v : V) : Option V :=
  match H.dflt v with
  | none => none
  | some d =>
    if H.isList d then
      match H.len d with
      | none => none
      | some len =>
        if len ≤ 0 then
          if H.isOr v then
            if (H.alts v).any (fun x => H.isList x && decide ((H.len x).getD 0 ≤ 0)) then some d
            else none
          else none
        else some d
    else some d

/-- `hydrate.go:115-121`, `isCueValueEqual`. -/
def isCueValueEqual (H : HCue V) (sch data : V) : Bool :=
  match getDefault H sch with
  | some d => H.subsume data d && H.subsume d data
  | none => false

/-- `hydrate.go:182-192`: the loop over the fields of the schema; `rv` is the variable that
is updated. -/
def dehydrateFields (H : HCue V) (rec : V → V → Res (V × Bool)) (data : V) :
    List (Str × V × Bool) → V → Res V
  | [], rv => .ok rv
  | (label, v, _) :: rest, rv =>
    match H.lookup data label with
    | none => dehydrateFields H rec data rest rv
    | some lv =>
      match rec v lv with
      | .ok (re, false) => dehydrateFields H rec data rest (H.fill rv label re)
      | .ok (_, true) => dehydrateFields H rec data rest rv
      | .err _ => dehydrateFields H rec data rest rv
      | .panic k => .panic k
      | .fuel => .fuel

/-- `hydrate.go:221-233`: the loop over the elements of a list. -/
def dehydrateElems (H : HCue V) (rec : V → V → Res (V × Bool)) (ele : V) :
    List V → Res (List V)
  | [] => .ok []
  | x :: rest =>
    match getBranch H ele x with
    | .ok ref =>
      match rec ref x with
      | .ok (re, false) => (dehydrateElems H rec ele rest).map (re :: ·)
      | .ok (_, true) => (dehydrateElems H rec ele rest).map (x :: ·)
      | .err _ => (dehydrateElems H rec ele rest).map (x :: ·)
      | .panic k => .panic k
      | .fuel => .fuel
    | _ => (dehydrateElems H rec ele rest).map (x :: ·)

/-- `hydrate.go:194-200`: the loop over the fields of the data that the schema lacks. -/
def copyOthers (H : HCue V) (labels : List Str) : List (Str × V) → V → V
  | [], rv => rv
  | (l, v) :: rest, rv => copyOthers H labels rest (if l ∈ labels then rv else H.fill rv l v)

/-- `hydrate.go:169-246`, `doDehydrate`, with a bound on the depth of recursion.  Compiling
the empty string does not fail. -/
def doDehydrate (H : HCue V) : Nat → V → V → Res (V × Bool)
  | 0, _, _ => .fuel
  | n + 1, sch, data =>
    match H.kind sch with
    | .struct =>
      let fs := (H.fields sch).getD []
      (dehydrateFields H (doDehydrate H n) data fs H.empty).map fun rv =>
        (copyOthers H (fs.map (·.1)) (H.regular data) rv, false)
    | .list =>
      if isCueValueEqual H sch data then .ok (H.empty, true)
      else
        match H.anyIdx sch with
        | some ele =>
          if H.kind ele = .bottom then .ok (H.empty, true)
          else
            match H.elems data with
            | none => .ok (H.empty, true)
            | some xs =>
              (dehydrateElems H (doDehydrate H n) ele xs).bind fun l =>
                if H.isErr (H.newList l) then .err anErr else .ok (H.newList l, false)
        | none => .ok (data, false)
    | _ => if isCueValueEqual H sch data then .ok (data, true) else .ok (data, false)

/-- `instance.go:59-75`, `Hydrate`.  `ref` is `i.sch.Underlying()`, the whole `#SchemaDef`
(`schema.go:150-152`). -/
def hydrate (H : HCue V) (n : Nat) (ref : V) (i : Inst V) : Res (Inst V) :=
  if !i.valid then .panic .explicit
  else
    match doHydrate H n ref i.raw with
    | .ok ni => .ok { valid := true, raw := ni, name := i.name, sch := i.sch }
    | .err _ => .ok i
    | .panic k => .panic k
    | .fuel => .fuel

/-- `instance.go:82-95`, `Dehydrate`. -/
def dehydrate (H : HCue V) (n : Nat) (ref : V) (i : Inst V) : Res (Inst V) :=
  if !i.valid then .panic .explicit
  else
    match doDehydrate H n ref i.raw with
    | .ok (ni, _) => .ok { valid := true, raw := ni, name := i.name, sch := i.sch }
    | .err _ => .ok i
    | .panic k => .panic k
    | .fuel => .fuel

end Thema.Hydrate

import Verif.Model.BindText
import Verif.Model.Lit
import Verif.Model.OApi
import Verif.Model.Split
import Verif.Model.Validate

/-!
# What `GenerateSchema` says about a subpath that is not there, and where

`encoding/openapi/oapi.go:171-192`, `248-256` and `internal/cuetil/split.go:60-82`.
-/

namespace Thema.OApi

open Path

variable {V α : Type}

/-- `token.Pos`: the name of the file, and the line. -/
structure FilePos where
  file : Str
  line : Nat
  deriving DecidableEq

/-- What CUE says about how values are written. -/
structure Written (V α : Type) where
  /-- The value with what `Value.Expr` returns for it. -/
  expr : V → CVal α
  /-- Two values subsume each other. -/
  same : CVal α → CVal α → Bool
  /-- `Value.Pos`, none for `token.NoPos`. -/
  pos : CVal α → Option FilePos
  /-- `strconv.IsPrint`, for `%q`. -/
  isPrint : Char → Bool

/-- The text in `split.go:67`. -/
def themaModule : Str := "github.com/grafana/thema".toList

/-- `split.go:62-72`, `PoslistWithoutThema`. -/
def poslistWithoutThema (W : Written V α) (v : V) : List FilePos :=
  (appendSplit W.same .and (W.expr v)).filterMap fun d =>
    match W.pos d with
    | none => none
    | some p => if containsStr p.file themaModule then none else some p

/-- `split.go:76-82`, `FirstNonThemaPos`. -/
def firstNonThemaPos (W : Written V α) (v : V) : Option FilePos :=
  match poslistWithoutThema W v with
  | [] => none
  | p :: _ => some p

/-- The loops of `oapi.go:183-187` and `248-256`, from selector `i` on: the index of the first selector
that the value does not allow. -/
def absentFrom (C : OCue V) (v : V) : Nat → P → Option Nat
  | _, [] => none
  | i, sel :: rest => if !C.allows v sel then some i else absentFrom C v (i + 1) rest

/-- The text of the errors of `oapi.go:185` and `251`. -/
def absentText (W : Written V α) (p : P) (i : Nat) : Str :=
  "subpath ".toList ++ Lit.goQuote W.isPrint (pathStr (p.take (i + 1))) ++
    " not present in schema".toList

/-- `oapi.go:248-256`, `pathAllowed`. -/
def pathAllowed (C : OCue V) (W : Written V α) (v : V) (p : P) : Option (Report FilePos) :=
  match absentFrom C v 0 p with
  | some i => some ⟨W.pos (W.expr v), absentText W p i⟩
  | none => none

/-- `oapi.go:182-190`: the error of `genSchema` about the subpath. -/
def genSchemaSays (C : OCue V) (W : Written V α) (s : Sch V) (cfg : Config V) (val : V) :
    Option (Report FilePos) :=
  if cfg.subpath.length > 0 then
    match absentFrom C val 0 cfg.subpath with
    | some i => some ⟨firstNonThemaPos W val, absentText W cfg.subpath i⟩
    | none => pathAllowed C W s.join cfg.subpath
  else none

/-- `oapi.go:159-170`, `genSingle`: the same for several values, of which each is encoded before the
next is looked at. -/
def genSingleSays [DecidableEq V] (C : OCue V) (W : Written V α) (s : Sch V)
    (onf : Option (NameFunc V)) : Config V → List V → Option (Report FilePos)
  | _, [] => none
  | cfg, v :: vs =>
    match genSchemaSays C W s cfg v with
    | some r => some r
    | none =>
      match genSchema C s onf cfg v with
      | (.ok _, cfg') => genSingleSays C W s onf cfg' vs
      | _ => none

/-- `oapi.go:54-103`: the error of `GenerateSchema` about the subpath, none if it returns no such
error. -/
def generateSays [DecidableEq V] (C : OCue V) (W : Written V α) (s : Sch V) (cfg : Config V) :
    Option (Report FilePos) :=
  if cfg.group then none
  else genSingleSays C W s cfg.nameFunc cfg
    (if cfg.splitSchema then [s.schraw, s.join] else [s.schdef])

end Thema.OApi

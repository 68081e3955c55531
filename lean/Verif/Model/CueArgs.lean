import Verif.Model.Cue

/-!
# Calling CUE functions

`runtime.go:127-183`, `cueArgs.make` and `cueArgs.call`.
-/

namespace Thema.CueArgs

/-- The CUE calls made by `cueArgs.make`. -/
structure Fill (V : Type) where
  /-- `step.Allows(selector)` -/
  allows : V → Str → Bool
  /-- `step.FillPath(path, val)` -/
  fillPath : V → Str → V → V
  /-- `v.LookupPath(path).Err() != nil` -/
  argErr : V → Str → Bool
  /-- `v.LookupPath("out")` -/
  out : V → V

variable {V : Type}

/-- `runtime.go:147-156`: the loop over the arguments.  Go iterates over a map in
any order; the order is that of the list. -/
def fillLoop (F : Fill V) : V → List (Str × V) → Res V
  | step, [] => .ok step
  | step, (a, x) :: rest =>
    if !F.allows step a then .panic .explicit
    else fillLoop F (F.fillPath step a x) rest

/-- `runtime.go:161-170`: the check of the arguments; the second iteration over
the map may have another order. -/
def checkLoop (F : Fill V) (last : V) : List Str → Option Str
  | [] => none
  | a :: rest => if F.argErr last a then some a else checkLoop F last rest

/-- `runtime.go:129-172`, `make`.  `func` is what is at the function's path (`none`:
nothing), `isErr` whether that is an error.  `Sum.inr a` is an
`errInvalidCUEFuncArg` about `a`.  `args` and `args2` are the orders of the two
loops. -/
def make (F : Fill V) (isErr : V → Bool) (func : Option V) (args : List (Str × V))
    (args2 : List Str) : Res (V ⊕ Str) :=
  match func with
  | none => .panic .explicit
  | some f =>
    if isErr f then .panic .explicit
    else
      (fillLoop F f args).bind fun last =>
        match checkLoop F last args2 with
        | some a => .ok (.inr a)
        | none => .ok (.inl last)

/-- `runtime.go:174-183`, `call`. -/
def call (F : Fill V) (isErr : V → Bool) (func : Option V) (args : List (Str × V))
    (args2 : List Str) : Res (V ⊕ Str) :=
  (make F isErr func args args2).map fun
    | .inl v => .inl (F.out v)
    | .inr a => .inr a

end Thema.CueArgs

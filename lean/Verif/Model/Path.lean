import Verif.Model.Basic
import Verif.Model.Validate

/-!
# CUE path helpers and label sanitising

`internal/cuetil/path.go`, `internal/util/util.go:81-98`,
`encoding/openapi/oapi.go:224-240,272-287`.
-/

namespace Thema.Path

/-- A `cue.Selector`: its text without the optionality marker, and whether it
carries that marker.  Go's `==` on selectors compares both. -/
structure Sel where
  text : Str
  opt : Bool
  deriving DecidableEq, Repr

/-- CUE's `Selector.Optional`: the optional form of a selector. -/
def Sel.optional (s : Sel) : Sel := { s with opt := true }

/-- A `cue.Path` (without error) is the list of its selectors. -/
abbrev P := List Sel

/-- `internal/cuetil/path.go:79-81`, `SelEq`. -/
def selEq (a b : Sel) : Bool := a == b || a.optional == b.optional

/-- `internal/cuetil/path.go:16-20`: the loop of `TrimPathPrefix`, returning the
final `i`. -/
def trimLoop : P → P → Nat
  | p :: ps, s :: ss => if !selEq p s then 0 else trimLoop ps ss + 1
  | _, _ => 0

/-- `internal/cuetil/path.go:10-22`, `TrimPathPrefix`. -/
def trimPathPrefix (path pre : P) : P :=
  if path.length = 1 then path else path.drop (trimLoop pre path)

/-- `internal/cuetil/path.go:51-56`: the loop of `pathsAreEq`, at equal lengths. -/
def pathsEqLoop : P → P → Bool
  | a :: as, b :: bs => if !selEq b a then false else pathsEqLoop as bs
  | _, _ => true

/-- `internal/cuetil/path.go:43-57`, `PathsAreEq` and `pathsAreEq`. -/
def pathsAreEq (a b : P) : Bool := if a.length ≠ b.length then false else pathsEqLoop a b

/-- `internal/cuetil/path.go:25-39`, `ReplacePathPrefix`. -/
def replacePathPrefix (p old new : P) : P :=
  if old.length ≥ p.length then p
  else if !pathsAreEq (p.take old.length) old then p
  else new ++ p.drop old.length

/-- `internal/cuetil/path.go:60-66`, `PathHasPrefix`. -/
def pathHasPrefix (p pre : P) : Bool :=
  if pre.length > p.length then false else pathsAreEq (p.take pre.length) pre

/-- `internal/cuetil/path.go:71-75`, `LastSelectorEq`. -/
def lastSelectorEq (p : P) (s : Sel) : Res Bool :=
  match p.getLast? with
  | none => .panic .indexOutOfRange
  | some l => .ok (selEq l s)

/-- `encoding/openapi/oapi.go:281-282`. -/
def isSchemaField (s : Sel) : Bool :=
  !s.opt && (s.text == "schema".toList || s.text == "_#schema".toList ||
    s.text == "_join".toList || s.text == "joinSchema".toList)

/-- `encoding/openapi/oapi.go:272-287`, `trimThemaPathPrefix`. -/
def trimThemaPathPrefix (p base : P) : P :=
  if !pathHasPrefix p base then p
  else
    match p.drop base.length with
    | [] => []
    | s :: rest => if isSchemaField s then rest else s :: rest

/-- `internal/util/util.go:85-93`: the runes that are kept. -/
def keepRune (c : Char) : Bool :=
  ('a' ≤ c && c ≤ 'z') || ('A' ≤ c && c ≤ 'Z') || ('0' ≤ c && c ≤ '9') || c == '_'

/-- `internal/util/util.go:83-98`, `SanitizeLabelString`.  `strings.Map` drops the
runes mapped to -1 and keeps the others here. -/
def sanitizeLabelString (s : Str) : Str :=
  s.filterMap fun c => if keepRune c then some c else none

end Thema.Path

/-!
# Basic vocabulary of the model

Outcomes of Go calls and the sentinel errors of `errors/errors.go`.
-/

namespace Thema

/-- The sentinel errors of `errors/errors.go:44-132` (those that some code path
can attach to an error, plus `ErrDuplicateLenses` and the four sentinels for classes
of invalid data, which none does).  A Go
error value is modelled by the set of sentinels for which `errors.Is` is true. -/
inductive Sentinel
  | invalidData            -- errors/errors.go:48
  | invalidExcessField     -- errors/errors.go:52
  | invalidMissingField    -- errors/errors.go:56
  | invalidKindConflict    -- errors/errors.go:61
  | invalidOutOfBounds     -- errors/errors.go:66
  | invalidLens            -- errors/errors.go:76
  | lensIncomplete         -- errors/errors.go:81
  | lensResultIsInvalidData -- errors/errors.go:87
  | valueNotExist          -- errors/errors.go:93
  | valueNotALineage       -- errors/errors.go:98
  | invalidLineage         -- errors/errors.go:102
  | invalidSchemasOrder    -- errors/errors.go:106
  | invalidLensesOrder     -- errors/errors.go:109
  | duplicateLenses        -- errors/errors.go:113
  | missingLenses          -- errors/errors.go:118
  | erroneousLenses        -- errors/errors.go:123
  | versionNotExist        -- errors/errors.go:127
  | malformedSyntacticVersion -- errors/errors.go:131
  deriving DecidableEq, Repr

/-- A non-nil Go error.  `marks` are the sentinels it is marked with
(cockroachdb `errors.Mark`) or wraps (`%w` / `Unwrap`).  Texts are not
modelled. -/
structure GoErr where
  marks : List Sentinel
  deriving DecidableEq, Repr

/-- `errors.Is(err, s)` for a sentinel `s`.  The sentinels are independent
`errors.New` values (`errors/errors.go:44-132`), none wraps another. -/
def GoErr.is (e : GoErr) (s : Sentinel) : Prop := s ∈ e.marks

instance (e : GoErr) (s : Sentinel) : Decidable (e.is s) :=
  inferInstanceAs (Decidable (s ∈ e.marks))

/-- Why a Go call panicked. -/
inductive PanicKind
  | indexOutOfRange
  | nilDeref
  | explicit   -- a `panic(..)` written in thema
  | typeAssertion -- `x.(T)` of another type
  deriving DecidableEq, Repr

/-- Outcome of a Go call returning `(α, error)`: a value with nil error, a
non-nil error, a panic, or (for loops only) "not finished within the given
number of iterations". -/
inductive Res (α : Type) where
  | ok (a : α)
  | err (e : GoErr)
  | panic (k : PanicKind)
  | fuel
  deriving Repr

namespace Res

/-- Sequencing: continue only from a value. -/
def bind {α β : Type} (x : Res α) (f : α → Res β) : Res β :=
  match x with
  | ok a => f a
  | err e => err e
  | panic k => panic k
  | fuel => fuel

/-- Apply a function to the value, if there is one. -/
def map {α β : Type} (f : α → β) (x : Res α) : Res β := x.bind (fun a => ok (f a))

instance : Monad Res where
  pure := ok
  bind := Res.bind

@[simp] theorem bind_ok {α β : Type} (a : α) (f : α → Res β) : (ok a).bind f = f a := rfl
@[simp] theorem bind_err {α β : Type} (e : GoErr) (f : α → Res β) : (err e).bind f = err e := rfl
@[simp] theorem bind_panic {α β : Type} (k : PanicKind) (f : α → Res β) :
    (panic k).bind f = panic k := rfl
@[simp] theorem bind_fuel {α β : Type} (f : α → Res β) : (fuel : Res α).bind f = fuel := rfl
@[simp] theorem map_ok {α β : Type} (a : α) (f : α → β) : (ok a).map f = ok (f a) := rfl
@[simp] theorem map_err {α β : Type} (e : GoErr) (f : α → β) :
    (err e : Res α).map f = err e := rfl
@[simp] theorem map_panic {α β : Type} (k : PanicKind) (f : α → β) :
    (panic k : Res α).map f = panic k := rfl
@[simp] theorem map_fuel {α β : Type} (f : α → β) : (fuel : Res α).map f = fuel := rfl
@[simp] theorem pure_eq {α : Type} (a : α) : (pure a : Res α) = ok a := rfl
@[simp] theorem bind_eq {α β : Type} (x : Res α) (f : α → Res β) : (x >>= f) = x.bind f := rfl

theorem bind_eq_ok' {α β : Type} {x : Res α} {f : α → Res β} {b : β} :
    x.bind f = ok b ↔ ∃ a, x = ok a ∧ f a = ok b := by
  cases x <;> simp

/-- The call returned normally (value or error). -/
def Returns {α : Type} (x : Res α) : Prop :=
  match x with
  | ok _ => True
  | err _ => True
  | _ => False

/-- The call panicked. -/
def Panics {α : Type} (x : Res α) : Prop :=
  match x with
  | panic _ => True
  | _ => False

end Res

/-- Slice indexing `xs[i]` in Go: panics when out of range. -/
def goIdx {α : Type} (xs : List α) (i : Nat) : Res α :=
  match xs[i]? with
  | some a => .ok a
  | none => .panic .indexOutOfRange

theorem goIdx_lt {α : Type} {xs : List α} {i : Nat} (h : i < xs.length) :
    goIdx xs i = .ok xs[i] := by
  simp [goIdx, h]

theorem goIdx_ge {α : Type} {xs : List α} {i : Nat} (h : xs.length ≤ i) :
    goIdx xs i = .panic .indexOutOfRange := by
  simp [goIdx, h]

end Thema

import Verif.Model.Lock

/-!
# Specification vocabulary for locking
-/

namespace Thema.Spec

open Thema.Lock

/-- Goroutine programs made of public calls, each possibly returning early. -/
inductive CallProg : List Act → Prop
  | nil : CallProg []
  | call {a : Api} {pre p : List Act} : pre <+: a.acts → CallProg p → CallProg (pre ++ p)

/-- All goroutines are at the start of a program of public calls. -/
def Initial (s : St) : Prop := ∀ t ∈ s, t.st = .out ∧ CallProg t.prog

/-- Goroutine programs made of some of the public calls, each possibly returning early. -/
inductive CallsOf (S : List Api) : List Act → Prop
  | nil : CallsOf S []
  | call {a : Api} {pre p : List Act} : a ∈ S → pre <+: a.acts → CallsOf S p →
      CallsOf S (pre ++ p)

/-- All goroutines are at the start of a program of some of the public calls. -/
def InitialOf (S : List Api) (s : St) : Prop := ∀ t ∈ s, t.st = .out ∧ CallsOf S t.prog

/-- Reachable by any number of steps. -/
inductive Steps (block : St → Nat → Prop) (mayPanic : Bool) : St → St → Prop
  | refl {s} : Steps block mayPanic s s
  | tail {s t u} : Steps block mayPanic s t → Step block mayPanic t u → Steps block mayPanic s u

/-- A mutex that keeps readers out only when a writer waits (Go's does). -/
def WriterPreference (block : St → Nat → Prop) : Prop :=
  ∀ s i, block s i → ∃ t ∈ s, ∃ d, t.st = .waiting d

/-- The goroutine is evaluating CUE values of the runtime. -/
def Evaluates (t : Thr) : Prop := (∃ k d, t.st = .inside k d) ∨ t.st = .evaluating

end Thema.Spec

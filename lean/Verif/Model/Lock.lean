/-!
# Runtime locking

`runtime.go:61-106,127-183` and its users.  A goroutine is a list of actions; an
interleaving is a sequence of steps of any of them.  `sync.RWMutex` is modelled by
its documentation: writers exclude everybody, readers exclude writers, and a
waiting writer may keep new readers out (a parameter).
-/

namespace Thema.Lock

/-- Reading (`rl`/`ru`) or writing (`l`/`u`), `runtime.go:90-106`. -/
inductive Kind
  | r
  | w
  deriving DecidableEq, Repr

/-- What a goroutine does next: enter a critical section (and leave it; `deferred`
says whether the unlock is deferred and so happens in a panic), or evaluate CUE
values without holding the lock. -/
inductive Act
  | sec (k : Kind) (deferred : Bool)
  | free
  deriving DecidableEq, Repr

/-- The public calls. -/
inductive Api
  | bindLineage
  | validate
  | assignableTo
  | bindType
  | newT
  | typedValue
  | translate
  | hydrate
  deriving DecidableEq, Repr

/-- The actions of each call that returns after its last check; a call that
returns early does a prefix of them.
`BindLineage` `lineage.go:56-57`; `Validate` `schema.go:75-76`; `AssignableTo`
`assignable.go:30-31`; `BindType` `schema.go:173-182` (`Decode` outside of the
lock); `NewT` `schema.go:213-218` (no defer); `TypedInstance.Value`
`instance.go:163-170` (`NewT`, then `Decode` outside of the lock); `Translate`
with CUE lenses `instance.go:220-252`: `cueArgs.make` `runtime.go:130-131`,
`cueArgs.call` `runtime.go:179-181` (no defer), then `Err`, `Decode`, `Default`,
`Marshal` outside of the lock, then `Validate`; `Hydrate`, `Dehydrate`
`instance.go:59-96` (no lock).  Go mappers called by `translateGo` run without
lock (`instance.go:277`); what they call is part of the goroutine's list. -/
def Api.acts : Api → List Act
  | .bindLineage => [.sec .w true]
  | .validate => [.sec .r true]
  | .assignableTo => [.sec .r true]
  | .bindType => [.sec .r true, .free]
  | .newT => [.sec .r false]
  | .typedValue => [.sec .r false, .free]
  | .translate => [.sec .w true, .sec .r false, .free, .sec .r true]
  | .hydrate => [.free]

/-- Where a goroutine is.  `stuck k` has ended by a panic with the lock held. -/
inductive Status
  | out
  | waiting (deferred : Bool)
  | inside (k : Kind) (deferred : Bool)
  | evaluating
  | stuck (k : Kind)
  deriving DecidableEq, Repr

/-- A goroutine: where it is and what remains to do. -/
structure Thr where
  st : Status
  prog : List Act
  deriving DecidableEq, Repr

/-- All goroutines. -/
abbrev St := List Thr

/-- The goroutine holds the lock for `k`. -/
def Thr.holds (t : Thr) (k : Kind) : Prop :=
  (∃ d, t.st = .inside k d) ∨ t.st = .stuck k

/-- Nobody holds the lock for `k`. -/
def noHolder (s : St) (k : Kind) : Prop := ∀ t ∈ s, ¬ t.holds k

/-- One step of goroutine `i`.  `block s i` says that the mutex keeps goroutine `i`
from entering as a reader although no writer is inside; `mayPanic` whether CUE
evaluation may panic. -/
inductive Step (block : St → Nat → Prop) (mayPanic : Bool) : St → St → Prop
  | enterR {s i d p} : s[i]? = some ⟨.out, .sec .r d :: p⟩ → noHolder s .w → ¬ block s i →
      Step block mayPanic s (s.set i ⟨.inside .r d, p⟩)
  | callLock {s i d p} : s[i]? = some ⟨.out, .sec .w d :: p⟩ →
      Step block mayPanic s (s.set i ⟨.waiting d, p⟩)
  | enterW {s i d p} : s[i]? = some ⟨.waiting d, p⟩ → noHolder s .w → noHolder s .r →
      Step block mayPanic s (s.set i ⟨.inside .w d, p⟩)
  | leave {s i k d p} : s[i]? = some ⟨.inside k d, p⟩ →
      Step block mayPanic s (s.set i ⟨.out, p⟩)
  | beginFree {s i p} : s[i]? = some ⟨.out, .free :: p⟩ →
      Step block mayPanic s (s.set i ⟨.evaluating, p⟩)
  | endFree {s i p} : s[i]? = some ⟨.evaluating, p⟩ →
      Step block mayPanic s (s.set i ⟨.out, p⟩)
  | panicDeferred {s i k p} : mayPanic = true → s[i]? = some ⟨.inside k true, p⟩ →
      Step block mayPanic s (s.set i ⟨.out, []⟩)
  | panicHeld {s i k p} : mayPanic = true → s[i]? = some ⟨.inside k false, p⟩ →
      Step block mayPanic s (s.set i ⟨.stuck k, []⟩)

/-- The goroutine has finished. -/
def Thr.done (t : Thr) : Prop := t.st = .out ∧ t.prog = []

end Thema.Lock

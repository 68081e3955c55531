import Verif.Model.Basic

/-!
# Making runtimes

`runtime.go:16-54` (`loadRuntime`, with the variables `rtOnce` and `themaBI`) and `71-88`
(`NewRuntime`).

Any number of goroutines call `NewRuntime`; a step is one access to what they share, and steps of
different goroutines may follow each other in any order.  `sync.Once` is given by its source (Go
1.19, `sync/once.go`): a flag, looked at first without and then with a mutex, and set at the end of
the function, also if that panics.  What the files of the package are and whether they can be loaded
does not change, since they are embedded.  What CUE does when several contexts build the same
instance at once is left out.
-/

namespace Thema.Runtime

/-- The outcome of `runtime.go:21-50`, the function given to `rtOnce.Do`: the files cannot be put
into an overlay; the instance that is loaded is not valid; or it is. -/
inductive Load (β : Type)
  | noOverlay
  | invalid (b : β)
  | valid (b : β)

variable {β : Type}

/-- `runtime.go:38`: what is assigned to `themaBI`, if this is reached. -/
def Load.inst : Load β → Option β
  | .noOverlay => none
  | .invalid b => some b
  | .valid b => some b

/-- Why a call panics: `runtime.go:79`; `29` or `49`; or nil given to `BuildInstance` (`81`). -/
inductive Why
  | nilContext | load | nilInstance
  deriving DecidableEq

/-- Where a call of `NewRuntime` is. -/
inductive Pc (β : Type)
  /-- At the beginning, with a context or with nil. -/
  | start (ctx : Bool)
  /-- In `Once.Do`, before `o.m.Lock()`. -/
  | slow
  /-- Behind it. -/
  | locked
  /-- In the function, before `ToOverlay`. -/
  | overlay
  /-- Before `load.Instances`. -/
  | instances
  /-- Before `Validate`. -/
  | validating
  /-- Before the deferred `StoreUint32(&o.done, 1)`, with the function panicking or not. -/
  | storing (panics : Bool)
  /-- Before the deferred `o.m.Unlock()`. -/
  | unlocking (panics : Bool)
  /-- Before `return themaBI`. -/
  | reading
  /-- Before `BuildInstance`. -/
  | building (bi : Option β)
  /-- The call has returned a runtime that is made from this instance. -/
  | returned (b : β)
  /-- The call has panicked. -/
  | panicked (w : Why)

/-- What the goroutines share: the flag and the mutex of `rtOnce`, and `themaBI`; and who called the
function given to `Do`, in order. -/
structure St (β : Type) where
  done : Bool := false
  holder : Option Nat := none
  bi : Option β := none
  loads : List Nat := []
  pcs : List (Pc β)

/-- The next step of call `i`, which is at `pc`; none if it waits or has ended. -/
def next (o : Load β) (s : St β) (i : Nat) : Pc β → Option (St β × Pc β)
  | .start false => some (s, .panicked .nilContext)
  | .start true => some (s, if s.done then .reading else .slow)
  | .slow => if s.holder.isSome then none else some ({ s with holder := some i }, .locked)
  | .locked =>
    if s.done then some (s, .unlocking false)
    else some ({ s with loads := s.loads ++ [i] }, .overlay)
  | .overlay =>
    match o with
    | .noOverlay => some (s, .storing true)
    | _ => some (s, .instances)
  | .instances => some ({ s with bi := o.inst }, .validating)
  | .validating =>
    match o with
    | .valid _ => some (s, .storing false)
    | _ => some (s, .storing true)
  | .storing p => some ({ s with done := true }, .unlocking p)
  | .unlocking p => some ({ s with holder := none }, if p then .panicked .load else .reading)
  | .reading => some (s, .building s.bi)
  | .building none => some (s, .panicked .nilInstance)
  | .building (some b) => some (s, .returned b)
  | .returned _ => none
  | .panicked _ => none

/-- A step of call `i`. -/
def step (o : Load β) (s : St β) (i : Nat) : Option (St β) :=
  match s.pcs[i]? with
  | none => none
  | some pc => (next o s i pc).map fun r => { r.1 with pcs := r.1.pcs.set i r.2 }

/-- The beginning: calls with these contexts (false is nil). -/
def init (ctxs : List Bool) : St β := { pcs := ctxs.map .start }

end Thema.Runtime

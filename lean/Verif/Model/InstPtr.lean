import Verif.Model.Translate
import Verif.Model.Hydrate

/-!
# Instances as objects in memory

The API hands out pointers to instances (`*Instance`).  In `Model/Translate.lean` instances are values;
here the functions of `instance.go` that make and overwrite `Instance` objects are modelled with a memory.
-/

namespace Thema.Ptr

variable {V σ α β : Type}

/-- Memory: the `Instance` objects made so far (a pointer is a position), and whatever the program
itself keeps. -/
structure Mem (V σ : Type) where
  cells : List (Inst V)
  prog : σ

/-- A `*Instance` that is not nil. -/
abbrev IPtr := Nat

/-- The object a pointer points to. -/
def Mem.load (m : Mem V σ) (i : IPtr) : Option (Inst V) := m.cells[i]?

/-- A Go call, with its effect on the memory. -/
abbrev PM (V σ α : Type) := Mem V σ → Res α × Mem V σ

/-- Sequencing: continue only from a value. -/
def PM.bind (x : PM V σ α) (f : α → PM V σ β) : PM V σ β := fun m =>
  match x m with
  | (.ok a, m') => f a m'
  | (.err e, m') => (.err e, m')
  | (.panic k, m') => (.panic k, m')
  | (.fuel, m') => (.fuel, m')

/-- No effect on the memory. -/
def PM.ret (x : Res α) : PM V σ α := fun m => (x, m)

/-- Reading `*i`. -/
def read (i : IPtr) : PM V σ (Inst V) := fun m =>
  match m.load i with
  | some x => (.ok x, m)
  | none => (.panic .nilDeref, m)

/-- A new object, `&Instance{...}` or `new(Instance)` with an assignment to all of it. -/
def new (x : Inst V) : PM V σ IPtr := fun m => (.ok m.cells.length, { m with cells := m.cells ++ [x] })

/-- `*i = x`. -/
def write (i : IPtr) (x : Inst V) : PM V σ Unit := fun m =>
  (.ok (), { m with cells := m.cells.set i x })

/-- `surface.go:92-95`, the `Mapper` of an `ImperativeLens`: an arbitrary function of the pointer it is
given, the schema, and the memory. -/
abbrev PMapper (V σ : Type) := IPtr → SchPtr → PM V σ (Option IPtr)

/-- The Go lenses of each lineage, `lensmap` in `lineage.go:25-50`. -/
abbrev Lenses (V σ : Type) := Nat → List (LensID × PMapper V σ)

/-- `instance.go:101-113`, `AsSuccessor`; `tr` is `Translate`. -/
def asSuccessor (H : Heap V) (tr : IPtr → SV → PM V σ (IPtr × List Lac)) (i : IPtr) :
    PM V σ (IPtr × List Lac) :=
  PM.bind (read i) fun x =>
    PM.bind (.ret x.check) fun _ =>
      PM.bind (.ret (derefSch ((H x.sch.lin).successor x.sch.pos))) fun q =>
        if ((H x.sch.lin).ver q).major = ((H x.sch.lin).ver x.sch.pos).major then
          PM.bind (new { x with sch := ⟨x.sch.lin, q⟩ }) fun ni => .ret (.ok (ni, []))
        else tr i ((H x.sch.lin).ver q)

/-- `instance.go:117-120`, `AsPredecessor`. -/
def asPredecessor (H : Heap V) (tr : IPtr → SV → PM V σ (IPtr × List Lac)) (i : IPtr) :
    PM V σ (IPtr × List Lac) :=
  PM.bind (read i) fun x =>
    PM.bind (.ret x.check) fun _ =>
      PM.bind (.ret (derefSch ((H x.sch.lin).predecessor x.sch.pos))) fun q =>
        tr i ((H x.sch.lin).ver q)

/-- `instance.go:277-292`: an explicit Go lens step from the schema at `p` to that at `q` of lineage
`lin`: the function is given the pointer `ti`. -/
def goLensStep (H : Heap V) (G : Lenses V σ) (lin p q : Nat) (ti : IPtr) : PM V σ IPtr :=
  match (G lin).lookup ⟨(H lin).ver p, (H lin).ver q⟩ with
  | none => .ret (.panic .nilDeref)
  | some f =>
    PM.bind (f ti ⟨lin, q⟩) fun
      | none => .ret (.err ⟨[]⟩)
      | some rti =>
        PM.bind (read rti) fun x =>
          PM.bind (.ret x.check) fun _ =>
            if (H x.sch.lin).ver x.sch.pos ≠ (H lin).ver q then .ret (.err ⟨[]⟩)
            else .ret (.ok rti)

/-- `instance.go:293-299`: a minor step up with `AsSuccessor`; an error there is reported by a panic. -/
def goMinorStep (H : Heap V) (tr : IPtr → SV → PM V σ (IPtr × List Lac)) (ti : IPtr) :
    PM V σ IPtr := fun m =>
  match asSuccessor H tr ti m with
  | (.ok (rti, _), m') => (.ok rti, m')
  | (.err _, m') => (.panic .explicit, m')
  | (.panic k, m') => (.panic k, m')
  | (.fuel, m') => (.fuel, m')

/-- `instance.go:267-304`: the loop of `translateGo`, at schema `p` of lineage `lin`.  The object at `ti`
is overwritten in each iteration (line 301). -/
def goLoop (H : Heap V) (G : Lenses V σ) (tr : IPtr → SV → PM V σ (IPtr × List Lac)) (lin : Nat)
    (frm to : SV) (ti : IPtr) : Nat → Nat → PM V σ Unit
  | 0, _ => .ret .fuel
  | n + 1, p =>
    if (H lin).ver p = to then .ret (.ok ())
    else
      PM.bind (.ret (derefSch (if to.less frm then (H lin).predecessor p else (H lin).successor p)))
        fun q =>
          PM.bind (if to.less frm || ((H lin).ver p).major ≠ ((H lin).ver q).major then
              goLensStep H G lin p q ti
            else goMinorStep H tr ti) fun rti =>
              PM.bind (read rti) fun x =>
                PM.bind (write ti x) fun _ => goLoop H G tr lin frm to ti n q

/-- `instance.go:256-305`, `translateGo`. -/
def translateGo (H : Heap V) (G : Lenses V σ) (tr : IPtr → SV → PM V σ (IPtr × List Lac)) (n : Nat)
    (i : IPtr) (to : SV) : PM V σ (IPtr × List Lac) :=
  PM.bind (read i) fun x =>
    if to = (H x.sch.lin).ver x.sch.pos then .ret (.ok (i, []))
    else
      PM.bind (new x) fun ti =>
        PM.bind (goLoop H G tr x.sch.lin ((H x.sch.lin).ver x.sch.pos) to ti n x.sch.pos) fun _ =>
          .ret (.ok (ti, []))

/-- A call that makes a new object for its result. -/
def alloc (v : Res (Inst V × List Lac)) : PM V σ (IPtr × List Lac) :=
  PM.bind (.ret v) fun x => PM.bind (new x.1) fun j => .ret (.ok (j, x.2))

/-- `instance.go:207-254`, `Translate`, with a budget for loops and recursion.  With CUE lenses the
result is the new object that `Validate` makes (`schema.go:91-99`). -/
def translate (C : Cue V) (H : Heap V) (G : Lenses V σ) :
    Nat → IPtr → SV → PM V σ (IPtr × List Lac)
  | 0, _, _ => .ret .fuel
  | n + 1, i, to =>
    PM.bind (read i) fun x =>
      PM.bind (.ret x.check) fun _ =>
        if (G x.sch.lin).length > 0 then translateGo H G (translate C H G n) n i to
        else alloc (translateCue C H x to)

/-- `instance.go:59-75`, `Hydrate`: a new object, or on an error the given pointer. -/
def hydrate (D : Hydrate.HCue V) (n : Nat) (ref : V) (i : IPtr) : PM V σ IPtr :=
  PM.bind (read i) fun x =>
    PM.bind (.ret x.check) fun _ => fun m =>
      match Hydrate.doHydrate D n ref x.raw with
      | .ok ni => new { valid := true, raw := ni, name := x.name, sch := x.sch } m
      | .err _ => (.ok i, m)
      | .panic k => (.panic k, m)
      | .fuel => (.fuel, m)

/-- `instance.go:82-95`, `Dehydrate`. -/
def dehydrate (D : Hydrate.HCue V) (n : Nat) (ref : V) (i : IPtr) : PM V σ IPtr :=
  PM.bind (read i) fun x =>
    PM.bind (.ret x.check) fun _ => fun m =>
      match Hydrate.doDehydrate D n ref x.raw with
      | .ok (ni, _) => new { valid := true, raw := ni, name := x.name, sch := x.sch } m
      | .err _ => (.ok i, m)
      | .panic k => (.panic k, m)
      | .fuel => (.fuel, m)

/-- `schema.go:74-100`, `Validate`: a new object if the data is valid. -/
def validate (C : Cue V) (H : Heap V) (s : SchPtr) (d : V) : PM V σ IPtr :=
  PM.bind (.ret (Thema.validate C H s d)) new

/-- `lineage.go:242-250`, `ValidateAny`: nil, or the new object that `Validate` makes. -/
def validateAny (C : Cue V) (H : Heap V) (lin : Nat) (d : V) (n : Nat) : PM V σ (Option IPtr) :=
  PM.bind (.ret (Thema.validateAny C H lin d n)) fun
    | none => .ret (.ok none)
    | some x => PM.bind (new x) fun i => .ret (.ok (some i))

/-- `schema.go:40-59`, `Examples`: a new object for each example. -/
def examples (H : Heap V) (s : SchPtr) : PM V σ Unit := fun m =>
  match (H s.lin).allsch[s.pos]? with
  | none => (.panic .nilDeref, m)
  | some sch =>
    (.ok (), { m with cells := m.cells ++
      sch.examples.map fun e => { raw := e.2, name := e.1, sch := s, valid := true } })

end Thema.Ptr

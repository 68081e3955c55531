import Verif.Model.Bind

/-!
# Translation

`translate.cue` (`#Translate`) and `instance.go:99-120,183-319`.
-/

namespace Thema

variable {V : Type}

/-- Outcome of evaluating a CUE expression: a value, a final error, or an
incomplete value. -/
inductive Eval (α : Type) where
  | ok (a : α)
  | error
  | incomplete
  deriving Repr

namespace Eval

/-- Sequencing. -/
def bind {α β : Type} (x : Eval α) (f : α → Eval β) : Eval β :=
  match x with
  | ok a => f a
  | error => error
  | incomplete => incomplete

@[simp] theorem bind_ok {α β : Type} (a : α) (f : α → Eval β) : (ok a).bind f = f a := rfl
@[simp] theorem bind_error {α β : Type} (f : α → Eval β) : (error : Eval α).bind f = error := rfl
@[simp] theorem bind_incomplete {α β : Type} (f : α → Eval β) :
    (incomplete : Eval α).bind f = incomplete := rfl

theorem bind_eq_ok {α β : Type} {x : Eval α} {f : α → Eval β} {b : β} :
    x.bind f = ok b ↔ ∃ a, x = ok a ∧ f a = ok b := by
  cases x <;> simp

/-- A failed lookup is an error. -/
def ofOption {α : Type} : Option α → Eval α
  | some a => ok a
  | none => error

@[simp] theorem ofOption_some {α : Type} (a : α) : ofOption (some a) = ok a := rfl
@[simp] theorem ofOption_none {α : Type} : ofOption (none : Option α) = error := rfl

theorem ofOption_eq_ok {α : Type} {o : Option α} {a : α} : ofOption o = ok a ↔ o = some a := by
  cases o <;> simp [ofOption]

end Eval

/-- Indexing a list with a CUE integer. -/
def cueIdx {α : Type} (xs : List α) (i : Int) : Option α :=
  if 0 ≤ i then xs[i.toNat]? else none

/-- One element of `steps` (`translate.cue:6-11,53-76,89-122`): the fields
`from`, `to`, `result`, the hidden field `_lens` (absent for a minor step), and the
lacunas of that lens whose condition holds. -/
structure Step (V : Type) where
  frm : SV
  to : SV
  result : V
  lens : Option (CueLens V)
  emitted : List Lac

/-- `lineage.cue:95`, `_forwardLenses`. -/
def forwardLenses (ls : List (CueLens V)) : List (CueLens V) :=
  ls.filter (fun l => decide (l.to.major > l.frm.major))

/-- `lineage.cue:96`, `_backwardLenses`. -/
def backwardLenses (ls : List (CueLens V)) : List (CueLens V) :=
  ls.filter (fun l => decide (l.to.major ≤ l.frm.major))

/-- `translate.cue:61-75` and `104-118`: apply the lens at index `idx` of `ls` to
the prior result, with the guards on `from` and `to`, and embed the result with the
schema.  An index out of range, a guard that does not match, an error inside the
lens and a conflict with the schema are errors; so is a reference to the undeclared
field `lacuna` of an emitted lacuna, if `lacunaRefFatal`. -/
def applyLens (C : Cue V) (ls : List (CueLens V)) (idx : Int) (priorTo : SV) (priorResult : V)
    (sch : SchemaDef V) : Eval (Step V) :=
  (Eval.ofOption (cueIdx ls idx)).bind fun l =>
    if l.frm ≠ priorTo then .error
    else if l.to ≠ sch.v then .error
    else if l.bad priorResult then .error
    else if C.isErr (C.embed (l.run priorResult) sch.body) then .error
    else if C.lacunaRefFatal && (l.lacunas priorResult).any (·.condition) then .error
    else .ok { frm := l.frm, to := l.to, result := C.embed (l.run priorResult) sch.body,
               lens := some l, emitted := (l.lacunas priorResult).filter (·.condition) }

/-- `translate.cue:53-76`: the comprehension of the backward branch over the
positions still to visit. -/
def backSteps (C : Cue V) (L : Lineage V) : List Int → SV → V → Eval (List (Step V))
  | [], _, _ => .ok []
  | pos :: rest, priorTo, priorResult =>
    (Eval.ofOption (cueIdx L.allsch pos)).bind fun sch =>
      (Eval.ofOption (flatidx L.allv sch.v)).bind fun idx =>
        (applyLens C (backwardLenses L.lenses) idx priorTo priorResult sch).bind fun s =>
          (backSteps C L rest s.to s.result).bind fun ss => .ok (s :: ss)

/-- `translate.cue:89-122`: the body of the comprehension of the forward branch: a
minor step is a unification, a major step applies the forward lens for the major; when
the prior version has a larger major neither conditional holds and the element stays
incomplete. -/
def fwdStep (C : Cue V) (L : Lineage V) (priorTo : SV) (priorResult : V) (sch : SchemaDef V) :
    Eval (Step V) :=
  if priorTo.major = sch.v.major then
    if C.isErr (C.embed priorResult sch.body) then .error
    else .ok { frm := priorTo, to := sch.v, result := C.embed priorResult sch.body,
               lens := none, emitted := [] }
  else if priorTo.major < sch.v.major then
    applyLens C (forwardLenses L.lenses) ((sch.v.major : Int) - 1) priorTo priorResult sch
  else .incomplete

/-- `translate.cue:89-122`: the comprehension of the forward branch. -/
def fwdSteps (C : Cue V) (L : Lineage V) : List (SchemaDef V) → SV → V → Eval (List (Step V))
  | [], _, _ => .ok []
  | sch :: rest, priorTo, priorResult =>
    (fwdStep C L priorTo priorResult sch).bind fun s =>
      (fwdSteps C L rest s.to s.result).bind fun ss => .ok (s :: ss)

/-- CUE `list.Range(hi-1, lo-1, -1)`: an error when the start is below the limit,
otherwise `hi-1, ..., lo`. -/
def rangeDown (hi lo : Int) : Option (List Int) :=
  if hi - 1 < lo - 1 then none
  else some ((List.range (hi - lo).toNat).map (fun (k : Nat) => hi - 1 - (k : Int)))

/-- CUE `list.Slice(xs, i, j)`: an error when `i < 0`, `i > j` or `j > len(xs)`. -/
def cueSlice {α : Type} (xs : List α) (i j : Int) : Option (List α) :=
  if i < 0 ∨ i > j ∨ j > xs.length then none
  else some ((xs.drop i.toNat).take (j - i).toNat)

/-- `translate.cue:32,44-129`: `out.steps` of `#Translate`. -/
def translateSteps (C : Cue V) (L : Lineage V) (inst : V) (frm to : SV) : Eval (List (Step V)) :=
  if to.less frm then
    (Eval.ofOption (flatidx L.allv frm)).bind fun hi =>
      (Eval.ofOption (flatidx L.allv to)).bind fun lo =>
        (Eval.ofOption (rangeDown hi lo)).bind fun ps => backSteps C L ps frm inst
  else if frm.less to then
    (Eval.ofOption (flatidx L.allv frm)).bind fun lo =>
      (Eval.ofOption (flatidx L.allv to)).bind fun hi =>
        (Eval.ofOption (cueSlice L.allsch (lo + 1) (hi + 1))).bind fun schs =>
          fwdSteps C L schs frm inst
  else .ok []

/-- `translate.cue:41`: `*steps[len(steps)-1].result | I`. -/
def translateResult (inst : V) (steps : List (Step V)) : V :=
  match steps.getLast? with
  | some s => s.result
  | none => inst

/-- `instance.go:214-253`: the part of `Translate` for CUE lenses.  The returned
lacunas are decoded from `out.lacunas`, a field that `out` does not have
(`translate.cue:36-43`), so that the decoding fails, the error is ignored, and the
slice stays empty.  An argument that cannot be filled in (`runtime.go:161-170`)
makes `Translate` panic (`instance.go:226-229`); the other arguments always can. -/
def translateCue (C : Cue V) (H : Heap V) (i : Inst V) (to : SV) : Res (Inst V × List Lac) :=
  let L := H i.sch.lin
  match L.Schema to with
  | .ok newpos =>
    if !(C.isStruct i.raw) then .panic .explicit
    else
      match translateSteps C L i.raw (L.ver i.sch.pos) to with
      | .error => .err ⟨[.invalidLens]⟩
      | .incomplete => .err ⟨[.lensIncomplete]⟩
      | .ok steps =>
        let raw := C.dflt (translateResult i.raw steps)
        if C.marshals raw then
          match validate C H ⟨i.sch.lin, newpos⟩ raw with
          | .ok inst => .ok (inst, [])
          | .err e => .err ⟨.lensResultIsInvalidData :: e.marks⟩
          | .panic k => .panic k
          | .fuel => .fuel
        else .err ⟨[.lensIncomplete]⟩
  | .err _ => .panic .explicit
  | .panic k => .panic k
  | .fuel => .fuel

/-- `instance.go:48-52`, `check`. -/
def Inst.check (i : Inst V) : Res Unit := if i.valid then .ok () else .panic .explicit

/-- A nil `Schema` interface dereferenced. -/
def derefSch : Res (Option Nat) → Res Nat
  | .ok (some p) => .ok p
  | .ok none => .panic .nilDeref
  | .err e => .err e
  | .panic k => .panic k
  | .fuel => .fuel

/-- `instance.go:101-113`, `AsSuccessor`; `tr` is `Translate`. -/
def asSuccessor (H : Heap V) (tr : Inst V → SV → Res (Inst V × List Lac)) (i : Inst V) :
    Res (Inst V × List Lac) :=
  i.check.bind fun _ =>
    (derefSch ((H i.sch.lin).successor i.sch.pos)).bind fun q =>
      if ((H i.sch.lin).ver q).major = ((H i.sch.lin).ver i.sch.pos).major then
        .ok ({ i with sch := ⟨i.sch.lin, q⟩ }, [])
      else tr i ((H i.sch.lin).ver q)

/-- `instance.go:117-120`, `AsPredecessor`. -/
def asPredecessor (H : Heap V) (tr : Inst V → SV → Res (Inst V × List Lac)) (i : Inst V) :
    Res (Inst V × List Lac) :=
  i.check.bind fun _ =>
    (derefSch ((H i.sch.lin).predecessor i.sch.pos)).bind fun q => tr i ((H i.sch.lin).ver q)

/-- `instance.go:277-292`: an explicit Go lens step from the schema at `p` to that at
`q` of lineage `lin`. -/
def goLensStep (H : Heap V) (lin p q : Nat) (ti : Inst V) : Res (Inst V) :=
  match (H lin).lensmap.lookup ⟨(H lin).ver p, (H lin).ver q⟩ with
  | none => .panic .nilDeref
  | some m =>
    (m ti ⟨lin, q⟩).bind fun
      | none => .err ⟨[]⟩
      | some rti =>
        rti.check.bind fun _ =>
          if (H rti.sch.lin).ver rti.sch.pos ≠ (H lin).ver q then .err ⟨[]⟩ else .ok rti

/-- `instance.go:293-299`: a minor step up with `AsSuccessor`; an error there is
reported by a panic. -/
def goMinorStep (H : Heap V) (tr : Inst V → SV → Res (Inst V × List Lac)) (ti : Inst V) :
    Res (Inst V) :=
  match asSuccessor H tr ti with
  | .ok (rti, _) => .ok rti
  | .err _ => .panic .explicit
  | .panic k => .panic k
  | .fuel => .fuel

/-- `instance.go:267-304`: the loop of `translateGo`, at schema `p` of lineage `lin`,
with `n` iterations allowed. -/
def goLoop (H : Heap V) (tr : Inst V → SV → Res (Inst V × List Lac)) (lin : Nat) (frm to : SV) :
    Nat → Nat → Inst V → Res (Inst V)
  | 0, _, _ => .fuel
  | n + 1, p, ti =>
    if (H lin).ver p = to then .ok ti
    else
      (derefSch (if to.less frm then (H lin).predecessor p else (H lin).successor p)).bind fun q =>
        (if to.less frm || ((H lin).ver p).major ≠ ((H lin).ver q).major then
            goLensStep H lin p q ti
          else goMinorStep H tr ti).bind fun rti => goLoop H tr lin frm to n q rti

/-- `instance.go:256-305`, `translateGo`. -/
def translateGo (H : Heap V) (tr : Inst V → SV → Res (Inst V × List Lac)) (n : Nat) (i : Inst V)
    (to : SV) : Res (Inst V × List Lac) :=
  let frm := (H i.sch.lin).ver i.sch.pos
  if to = frm then .ok (i, [])
  else (goLoop H tr i.sch.lin frm to n i.sch.pos i).map fun ti => (ti, [])

/-- `instance.go:207-254`, `Translate`, with a budget for loops and recursion. -/
def translate (C : Cue V) (H : Heap V) : Nat → Inst V → SV → Res (Inst V × List Lac)
  | 0, _, _ => .fuel
  | n + 1, i, to =>
    i.check.bind fun _ =>
      if (H i.sch.lin).lensmap.length > 0 then translateGo H (translate C H n) n i to
      else translateCue C H i to

end Thema

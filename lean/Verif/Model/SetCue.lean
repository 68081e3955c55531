import Verif.Model.Bind

/-!
# A small concrete evaluator

Used to show that hypotheses about CUE are satisfiable and for witnesses.  A
value is a finite set of atoms: the set of data it admits.  Data are singletons.
It models no thema code.
-/

namespace Thema.SetCue

/-- Sets of atoms as lists. -/
abbrev Val := List Nat

/-- A validation error with a path as CUE reports it for the first schema. -/
def errAt (msg : String) : ValErr :=
  .cue [{ path := ["schemas".toList, "0".toList, "_#schema".toList, "f".toList],
          msg := msg.toList, vals := [.str "1".toList, .str "2".toList], positions := [] }]

/-- Unification is intersection, subsumption is inclusion, a value is concrete
when it has exactly one element (possibly listed repeatedly) and an error when it
is empty. -/
def cue : Cue Val where
  unify a b := a.filter (fun x => b.contains x)
  validate v := match v with
    | [] => some (errAt "conflicting values")
    | x :: xs => if xs.all (fun y => y == x) then none else some (errAt "incomplete value")
  subsumeAll a b := b.all (fun x => a.contains x)
  subsumeRaw a b := b.all (fun x => a.contains x)
  embed a b := a.filter (fun x => b.contains x)
  isErr v := v.isEmpty
  dflt v := v
  marshals v := match v with
    | [] => false
    | x :: xs => xs.all (fun y => y == x)
  isStruct _ := true
  lacunaRefFatal := true

/-- A schema declaration. -/
def sch (major minor : Nat) (body : Val) : RawSchema Val :=
  { version := some ⟨major, minor⟩, schema := body, body := body, examples := [] }

/-- A well-formed lineage value with the given schemas and lenses. -/
def lin (schemas : List (RawSchema Val)) (lenses : List (RawLens Val) := []) :
    RawLineage Val :=
  { exists_ := true, nameField := .concrete, schemasField := .concrete, name := "toy".toList,
    finalErr := false, rawErr := false, uniErr := false, schemas := schemas,
    lenses := some lenses }

/-- A CUE lens that maps everything to `out`. -/
def lens (frm to : SV) (out : Val) (lacs : List Lac := []) : RawLens Val :=
  { frm := some frm, to := some to, run := fun _ => out, lacunas := fun _ => lacs,
    bad := fun _ => false }

/-- Replace the lenses of a lineage value. -/
def withLenses (r : RawLineage Val) (ls : List (RawLens Val)) : RawLineage Val :=
  { r with lenses := some ls }

/-- Bind without options. -/
def bind (r : RawLineage Val) : Res (Lineage Val) := bindLineage cue false r []

end Thema.SetCue

import Verif.Model.Bind

/-!
# A small concrete evaluator with defaults

Used for witnesses that depend on defaults.  A value is a pair of finite sets: the data it
admits and, among them, the preferred ones (all of them if there is no default), as in the
section on default values of the CUE specification.  It models no thema code.
-/

namespace Thema.DefCue

/-- The allowed and the preferred atoms. -/
abbrev Val := List Nat × List Nat

/-- What is left when defaults are chosen: the preferred atoms, or all if none is left. -/
def chosen (v : Val) : List Nat := if v.2.isEmpty then v.1 else v.2

/-- One atom, possibly listed repeatedly. -/
def single : List Nat → Bool
  | [] => false
  | x :: xs => xs.all (fun y => y == x)

/-- An error as CUE reports it. -/
def errAt (msg : String) : ValErr :=
  .cue [{ path := ["schemas".toList, "0".toList, "_#schema".toList, "f".toList],
          msg := msg.toList, vals := [.str "1".toList, .str "2".toList], positions := [] }]

/-- Unification goes by components: `⟨v1, d1⟩ & ⟨v2, d2⟩ = ⟨v1 & v2, d1 & d2⟩`. -/
def meet (a b : Val) : Val :=
  (a.1.filter (fun x => b.1.contains x), a.2.filter (fun x => b.2.contains x))

/-- The evaluator. -/
def cue : Cue Val where
  unify := meet
  validate v :=
    if v.1.isEmpty then some (errAt "conflicting values")
    else if single (chosen v) then none else some (errAt "incomplete value")
  subsumeAll a b := b.1.all (fun x => a.1.contains x)
  subsumeRaw a b := b.1.all (fun x => a.1.contains x)
  embed := meet
  isErr v := v.1.isEmpty
  dflt v := (chosen v, chosen v)
  marshals v := single (chosen v)
  isStruct _ := true
  lacunaRefFatal := true

end Thema.DefCue

import Verif.Model.DefCue

/-!
# A small concrete evaluator with fields and defaults

Used for witnesses in which the data lack a field that a schema gives a default for.  A value is
a struct with up to two fields, each with a value of `DefCue`.  It models no thema code.
-/

namespace Thema.RecCue

/-- The fields `a` and `b`; `none` if a field is not mentioned. -/
structure Val where
  a : Option DefCue.Val
  b : Option DefCue.Val
  deriving DecidableEq, Repr

/-- Unify a field. -/
def meetF : Option DefCue.Val → Option DefCue.Val → Option DefCue.Val
  | none, y => y
  | x, none => x
  | some x, some y => some (DefCue.meet x y)

/-- Unify. -/
def meet (x y : Val) : Val := ⟨meetF x.a y.a, meetF x.b y.b⟩

/-- A property of the fields that are mentioned. -/
def allF (p : DefCue.Val → Bool) (v : Val) : Bool := v.a.all p && v.b.all p

/-- The first subsumes the second: a field that the second lacks must have a default. -/
def subF : Option DefCue.Val → Option DefCue.Val → Bool
  | none, none => true
  | none, some _ => false
  | some x, none => DefCue.single x.2
  | some x, some y => y.1.all (fun n => x.1.contains n)

/-- The evaluator. -/
def cue : Cue Val where
  unify := meet
  validate v :=
    if v.a.any (fun f => f.1.isEmpty) || v.b.any (fun f => f.1.isEmpty) then
      some (DefCue.errAt "conflicting values")
    else if allF (fun f => DefCue.single (DefCue.chosen f)) v then none
    else some (DefCue.errAt "incomplete value")
  subsumeAll x y := subF x.a y.a && subF x.b y.b
  subsumeRaw x y := subF x.a y.a && subF x.b y.b
  embed := meet
  isErr v := v.a.any (fun f => f.1.isEmpty) || v.b.any (fun f => f.1.isEmpty)
  dflt v := ⟨v.a.map (fun f => (DefCue.chosen f, DefCue.chosen f)),
    v.b.map (fun f => (DefCue.chosen f, DefCue.chosen f))⟩
  marshals := allF (fun f => DefCue.single (DefCue.chosen f))
  isStruct _ := true
  lacunaRefFatal := true

end Thema.RecCue

import Verif.Model.Validate

/-!
# The CUE evaluator, abstractly

Each field is a CUE API call made by thema.  Nothing is assumed about them here;
theorems that need a law state it as a hypothesis.
-/

namespace Thema

/-- The calls into CUE.  `V` is `cue.Value`. -/
structure Cue (V : Type) where
  /-- `a.Unify(b)` -/
  unify : V → V → V
  /-- `v.Validate(cue.Concrete(true))`; `none` is nil -/
  validate : V → Option ValErr
  /-- `a.Subsume(b, cue.Raw(), cue.All()) == nil` (`internal/compat/compat.go:14`) -/
  subsumeAll : V → V → Bool
  /-- `a.Subsume(b, cue.Raw()) == nil` (`internal/cuetil/equal.go:9,13`) -/
  subsumeRaw : V → V → Bool
  /-- the CUE embedding `{a, b}` of `translate.cue:74,99,117` -/
  embed : V → V → V
  /-- the value is a (non-incomplete) error -/
  isErr : V → Bool
  /-- first result of `v.Default()` -/
  dflt : V → V
  /-- `json.Marshal(v)` returns a nil error -/
  marshals : V → Bool
  /-- `v` can be filled into `inst: {...}` (`translate.cue:28`) without error, i.e. it
  is a struct -/
  isStruct : V → Bool
  /-- `translate.cue:75,118` selects the field `lacuna` of a `#Lacuna`, which
  `lacuna.cue:17-48` does not declare: whether that is a final error (as opposed
  to an incomplete value) -/
  lacunaRefFatal : Bool

/-- `d` passes `sch.def.Unify(d).Validate(cue.Concrete(true))` for the schema
body `b`. -/
def Cue.accepts {V : Type} (C : Cue V) (b d : V) : Prop := C.validate (C.unify b d) = none

instance {V : Type} (C : Cue V) (b d : V) : Decidable (C.accepts b d) :=
  inferInstanceAs (Decidable (_ = none))

end Thema

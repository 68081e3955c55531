import Verif.Model.BindReport

namespace Thema.Spec

variable {V : Type}

/-- What a report about the schema at position `k` says is the case. -/
def Describes (C : Cue V) (raws : List (RawSchema V)) (k : Nat) : SchemaProblem → Prop
  | .versionNotConcrete => ∃ s, raws[k]? = some s ∧ s.version = none
  | .notGreater v pv => ∃ j s t, k = j + 1 ∧ raws[j]? = some t ∧ raws[k]? = some s ∧
      s.version = some v ∧ t.version = some pv ∧
      (v.major < pv.major ∨ v.major = pv.major ∧ v.minor < pv.minor)
  | .mustBreak v pv x => ∃ j s t, k = j + 1 ∧ raws[j]? = some t ∧ raws[k]? = some s ∧
      s.version = some v ∧ t.version = some pv ∧ v.minor = 0 ∧
      C.subsumeAll s.body t.body = true ∧ x.major = pv.major ∧ x.minor = pv.minor + 1
  | .notCompatible v pv => ∃ j s t, k = j + 1 ∧ raws[j]? = some t ∧ raws[k]? = some s ∧
      s.version = some v ∧ t.version = some pv ∧ v.minor ≠ 0 ∧ C.subsumeAll s.body t.body = false

end Thema.Spec

import Verif.Model.BindText
import Verif.Spec.Lineage

/-!
# What C209 says
-/

namespace Thema.Spec

variable {V : Type}

/-- The schema at position `k` has a version that does not come before that of the schema before it,
and, if checks are in force, is of a new major exactly if it is not backwards compatible. -/
def Fits (C : Cue V) (skip : Bool) (raws : List (RawSchema V)) (k : Nat) : Prop :=
  ∃ s v, raws[k]? = some s ∧ s.version = some v ∧
    ∀ j t u, k = j + 1 → raws[j]? = some t → t.version = some u →
      ¬ Before v u ∧ (skip = false → (v.minor ≠ 0 ↔ C.subsumeAll s.body t.body = true))

/-- What is wrong with the schema at position `k`, where all before it fit. -/
def Misfit (C : Cue V) (skip : Bool) (raws : List (RawSchema V)) (k : Nat) : SchemaProblem → Prop
  | .versionNotConcrete => ∃ s, raws[k]? = some s ∧ s.version = none
  | .notGreater v u => ∃ j s t, k = j + 1 ∧ raws[j]? = some t ∧ raws[k]? = some s ∧
      s.version = some v ∧ t.version = some u ∧ Before v u
  | .mustBreak v u x => ∃ j s t, k = j + 1 ∧ raws[j]? = some t ∧ raws[k]? = some s ∧
      s.version = some v ∧ t.version = some u ∧ ¬ Before v u ∧ skip = false ∧ v.minor = 0 ∧
      C.subsumeAll s.body t.body = true ∧ x = ⟨u.major, u.minor + 1⟩
  | .notCompatible v u => ∃ j s t, k = j + 1 ∧ raws[j]? = some t ∧ raws[k]? = some s ∧
      s.version = some v ∧ t.version = some u ∧ ¬ Before v u ∧ skip = false ∧ v.minor ≠ 0 ∧
      C.subsumeAll s.body t.body = false

/-- The lens at position `k` has versions, and comes after the one before it or is for the same two. -/
def LensFits (ls : List (RawLens V)) (k : Nat) : Prop :=
  ∃ l t f, ls[k]? = some l ∧ l.to = some t ∧ l.frm = some f ∧
    ∀ j m t' f', k = j + 1 → ls[j]? = some m → m.to = some t' → m.frm = some f' →
      ¬ Before t t' ∧ (t = t' → ¬ Before f f')

/-- What is wrong with the lens at position `k`, where all before it fit. -/
def LensMisfit (ls : List (RawLens V)) (k : Nat) : LensProblem → Prop
  | .undecodable n => ∃ l, ls[k]? = some l ∧
      (n = "to".toList ∧ l.to = none ∨ n = "from".toList ∧ l.to ≠ none ∧ l.frm = none)
  | .notGreater t f t' f' => ∃ j l m, k = j + 1 ∧ ls[j]? = some m ∧ ls[k]? = some l ∧
      l.to = some t ∧ l.frm = some f ∧ m.to = some t' ∧ m.frm = some f' ∧
      (Before t t' ∨ t = t' ∧ Before f f')

/-- Everything that is looked at before schemas and lenses is as it should be. -/
def Sound (r : RawLineage V) : Prop :=
  r.exists_ = true ∧ r.nameField = .concrete ∧ r.schemasField = .concrete ∧ r.finalErr = false ∧
    lineageConstraints r = true ∧ r.rawErr = false ∧ r.uniErr = false

end Thema.Spec

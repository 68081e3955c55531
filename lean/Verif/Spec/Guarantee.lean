import Verif.Spec.Translate
import Verif.Spec.TranslateGo

/-!
# Specification vocabulary for the guarantee that everything is translatable

What an author of lenses is responsible for: one lens at a time.
-/

namespace Thema.Spec

variable {V : Type}

/-- Every CUE lens does its job: whatever concrete data the schema it leads from accepts, the lens
applies to it, and its result under the schema it leads to is concrete and accepted. -/
def LensesWork (C : Cue V) (L : Lineage V) : Prop :=
  ∀ l ∈ L.lenses, ∀ p q (hp : p < L.allsch.length) (hq : q < L.allsch.length),
    L.ver p = l.frm → L.ver q = l.to → ∀ x, C.accepts L.allsch[p].body x → C.marshals x = true →
      LensWorks C l x L.allsch[q].body ∧
      C.accepts L.allsch[q].body (C.embed (l.run x) L.allsch[q].body) ∧
      C.marshals (C.embed (l.run x) L.allsch[q].body) = true

/-- Every supplied function does its job: given a genuine instance of the version it leads from and
the schema it leads to, it returns a genuine instance of this schema. -/
def FunctionsWork (C : Cue V) (H : Heap V) (lin : Nat) (ls : List (ImperativeLens V)) : Prop :=
  ∀ l ∈ ls, ∀ m, l.mapper = some m → ∀ i, Genuine C H i → i.sch.lin = lin →
    versionOf H i = l.frm → ∀ p, p < (H lin).allsch.length → (H lin).ver p = l.to →
      ∃ j, m i ⟨lin, p⟩ = .ok (some j) ∧ Genuine C H j ∧ j.sch = ⟨lin, p⟩

end Thema.Spec

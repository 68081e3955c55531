import Verif.Lemmas.Bind2

/-! Lemmas about `Validate`. -/

namespace Thema

open Spec

variable {V : Type} {C : Cue V} {L : Lineage V}

/-- Success of `Validate`: the evaluator accepts, and the instance is the data
with the schema. -/
theorem validate_ok_iff {H : Heap V} {lin p : Nat} (hH : H lin = L) (hp : p < L.allsch.length)
    {d : V} {x : Inst V} :
    validate C H ⟨lin, p⟩ d = .ok x ↔
      C.accepts L.allsch[p].body d ∧ x = { raw := d, name := [], sch := ⟨lin, p⟩, valid := true } := by
  unfold validate validateFull
  simp only [hH, Lineage.body?, List.getElem?_eq_getElem hp, Option.map_some]
  unfold Cue.accepts
  cases hv : C.validate (C.unify L.allsch[p].body d) with
  | none => simp [eq_comm]
  | some e =>
    simp only [reduceCtorEq, false_and, iff_false]
    cases mungeValidateErr e <;> simp

end Thema

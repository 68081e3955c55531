import Verif.Spec.TranslateGo

/-!
# Specification vocabulary for translating there and back
-/

namespace Thema.Spec

variable {V : Type}

/-- What the functions return depends on the data and the schema of the instance they are given,
not on its name. -/
def DataOnly (ls : List (ImperativeLens V)) : Prop :=
  ∀ l ∈ ls, ∀ m, l.mapper = some m → ∀ i i' s k, i.sch = i'.sch → i.raw = i'.raw →
    i.valid = i'.valid → m i s = .ok (some k) →
    ∃ k', m i' s = .ok (some k') ∧ k'.raw = k.raw ∧ k'.sch = k.sch ∧ k'.valid = k.valid

/-- `P` holds of every result of `Translate` to a version of the lineage for instances with `P`. -/
def ClosedUnderTranslate (C : Cue V) (H : Heap V) (n : Nat) (P : Inst V → Prop) : Prop :=
  ∀ i j q lacs, P i → q < (H i.sch.lin).allsch.length →
    translate C H n i ((H i.sch.lin).ver q) = .ok (j, lacs) → P j

/-- `Translate` from the schema at `a` to that at `b` of lineage `lin`, for instances with `P`,
can be undone: translating the result back succeeds and gives the data of the instance. -/
def Undone (C : Cue V) (H : Heap V) (n lin : Nat) (P : Inst V → Prop) (a b : Nat) : Prop :=
  ∀ i j lacs, P i → i.valid = true → i.sch = ⟨lin, a⟩ →
    translate C H n i ((H lin).ver b) = .ok (j, lacs) →
    ∃ k lacs', translate C H n j ((H lin).ver a) = .ok (k, lacs') ∧ k.sch = i.sch ∧ k.raw = i.raw

end Thema.Spec

import Verif.Model.Version

/-!
# Version lists that can be bound

When a list of versions opens a major version, and what that asks of the list.
-/

namespace Thema.Spec

/-- The schema at position `i` is the first of its major version: it is the first of
all, or the one before it has a smaller major number. -/
def Opens (vs : List SV) (i : Nat) : Prop :=
  i = 0 ∨ ∃ a b, vs[i - 1]? = some a ∧ vs[i]? = some b ∧ a.major < b.major

instance (vs : List SV) (i : Nat) : Decidable (Opens vs i) :=
  if h0 : i = 0 then isTrue (.inl h0) else
    match ha : vs[i - 1]?, hb : vs[i]? with
    | some a, some b =>
      if h : a.major < b.major then isTrue (.inr ⟨a, b, ha, hb, h⟩)
      else isFalse (by
        rintro (h' | ⟨x, y, hx, hy, h'⟩)
        · exact h0 h'
        · rw [ha] at hx; rw [hb] at hy; cases hx; cases hy; exact h h')
    | none, _ => isFalse (by
        rintro (h' | ⟨x, y, hx, _, _⟩)
        · exact h0 h'
        · rw [ha] at hx; cases hx)
    | some _, none => isFalse (by
        rintro (h' | ⟨x, y, _, hy, _⟩)
        · exact h0 h'
        · rw [hb] at hy; cases hy)

/-- The sum of the positions before `i` at which a major version opens. -/
def openedBefore (vs : List SV) (i : Nat) : Nat :=
  ((List.range i).filter (fun k => decide (Opens vs k))).sum

end Thema.Spec

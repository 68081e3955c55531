import Verif.Props.Path

/-!
# C160: what `TrimPathPrefix` removes, exactly
-/

namespace Thema.Props

open Thema.Path Thema.Spec

/-- The paths agree, up to optionality, in their first `k` selectors. -/
def AgreeUpTo (path pre : P) (k : Nat) : Prop :=
  k ≤ path.length ∧ k ≤ pre.length ∧ PathSame (path.take k) (pre.take k)

theorem agree_at {path pre : P} {k m : Nat} (hkm : k < m) (h : AgreeUpTo path pre m) :
    ∃ a b, pre[k]? = some a ∧ path[k]? = some b ∧ SelSame a b := by
  obtain ⟨h1, h2, h3⟩ := h
  have := congrArg (fun l => l[k]?) h3
  have e1 : k < path.length := by omega
  have e2 : k < pre.length := by omega
  refine ⟨pre[k], path[k], List.getElem?_eq_getElem e2, List.getElem?_eq_getElem e1, ?_⟩
  simp only [List.getElem?_map, List.getElem?_take, hkm, if_true, List.getElem?_eq_getElem e1,
    List.getElem?_eq_getElem e2, Option.map_some, Option.some.injEq] at this
  exact this.symm

theorem trimLoop_greatest (path pre : P) : AgreeUpTo path pre (trimLoop pre path) ∧
    ∀ m, AgreeUpTo path pre m → m ≤ trimLoop pre path := by
  obtain ⟨h1, h2, h3, h4⟩ := trimLoop_spec pre path
  refine ⟨⟨h2, h1, h3⟩, fun m hm => ?_⟩
  rcases Nat.lt_or_ge (trimLoop pre path) m with h | h
  · obtain ⟨a, b, ha, hb, hs⟩ := agree_at h hm
    exact absurd hs (h4 a b ha hb)
  · exact h

/-- **C160**.  `TrimPathPrefix` returns a path of one selector as it is; of any other it
removes the longest beginning that it has in common with the prefix, up to optionality,
whether or not the prefix is a prefix of it. -/
theorem C160_trim_exact (path pre out : P) :
    trimPathPrefix path pre = out ↔
      (path.length = 1 ∧ out = path) ∨
      (path.length ≠ 1 ∧ ∃ k, AgreeUpTo path pre k ∧ (∀ m, AgreeUpTo path pre m → m ≤ k) ∧
        out = path.drop k) := by
  obtain ⟨hg, hm⟩ := trimLoop_greatest path pre
  unfold trimPathPrefix
  by_cases hl : path.length = 1
  · simp only [hl, if_true, true_and, ne_eq, not_true_eq_false, false_and, or_false]
    exact eq_comm
  · simp only [hl, if_false, false_and, false_or, ne_eq, not_false_eq_true, true_and]
    constructor
    · rintro rfl; exact ⟨_, hg, hm, rfl⟩
    · rintro ⟨k, h1, h2, rfl⟩
      rw [Nat.le_antisymm (hm k h1) (h2 _ hg)]

/-- **C160**.  It leaves exactly those paths unchanged that have one selector, or whose
first selector is not that of the prefix. -/
theorem C160_unchanged_iff (path pre : P) :
    trimPathPrefix path pre = path ↔
      path.length = 1 ∨ ∀ a b, pre[0]? = some a → path[0]? = some b → ¬ SelSame a b := by
  constructor
  · intro h
    rcases (C160_trim_exact path pre path).1 h with ⟨h1, _⟩ | ⟨_, k, h1, h2, h3⟩
    · exact .inl h1
    · refine .inr fun a b ha hb hs => ?_
      have hk : k = 0 := by
        have := congrArg List.length h3
        rw [List.length_drop] at this
        have := h1.1
        have : 0 < path.length := (List.getElem?_eq_some_iff.1 hb).1
        omega
      subst hk
      have : AgreeUpTo path pre 1 := by
        obtain ⟨x, path, rfl⟩ : ∃ x xs, path = x :: xs := by
          cases path with
          | nil => cases hb
          | cons x xs => exact ⟨_, _, rfl⟩
        obtain ⟨y, pre, rfl⟩ : ∃ x xs, pre = x :: xs := by
          cases pre with
          | nil => cases ha
          | cons x xs => exact ⟨_, _, rfl⟩
        cases ha; cases hb
        exact ⟨by simp, by simp, by simpa [PathSame, SelSame] using hs.symm⟩
      have := h2 1 this
      omega
  · rintro (h | h)
    · exact (C160_trim_exact path pre path).2 (.inl ⟨h, rfl⟩)
    · by_cases hl : path.length = 1
      · exact (C160_trim_exact path pre path).2 (.inl ⟨hl, rfl⟩)
      · refine (C160_trim_exact path pre path).2 (.inr ⟨hl, 0, ⟨by omega, by omega, rfl⟩, ?_, rfl⟩)
        intro m hm
        rcases Nat.eq_zero_or_pos m with h0 | h0
        · omega
        · obtain ⟨a, b, ha, hb, hs⟩ := agree_at h0 hm
          exact absurd hs (h a b ha hb)

/-- `a.b?.c` and the prefix `a.b.x`: `c` is left. -/
example : trimPathPrefix [⟨"a".toList, false⟩, ⟨"b".toList, true⟩, ⟨"c".toList, false⟩]
    [⟨"a".toList, false⟩, ⟨"b".toList, false⟩, ⟨"x".toList, false⟩] = [⟨"c".toList, false⟩] := by
  refine (C160_trim_exact _ _ _).2 (.inr ⟨by decide, 2, ⟨by decide, by decide, rfl⟩, ?_, rfl⟩)
  intro m hm
  rcases Nat.lt_or_ge 2 m with h | h
  · obtain ⟨a, b, ha, hb, hs⟩ := agree_at h hm
    cases ha; cases hb; cases hs
  · exact h

example : trimPathPrefix [⟨"a".toList, false⟩, ⟨"b".toList, true⟩] [⟨"b".toList, false⟩] =
    [⟨"a".toList, false⟩, ⟨"b".toList, true⟩] :=
  (C160_unchanged_iff _ _).2 (.inr fun a b ha hb hs => by cases ha; cases hb; cases hs)

end Thema.Props

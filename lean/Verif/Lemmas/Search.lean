import Verif.Model.Search
import Verif.Lemmas.Version

/-! Correctness of Go's binary search, and consequences for `searchSynv`. -/

namespace Thema

open Spec

/-- Invariant of the loop of `sort.Search` for a monotone predicate. -/
theorem searchLoop_spec {f : Nat → Bool} {n : Nat}
    (mono : ∀ a b, a ≤ b → b < n → f a = true → f b = true) :
    ∀ (fuel i j : Nat), j - i ≤ fuel → i ≤ j → j ≤ n →
      (∀ k, k < i → f k = false) → (∀ k, j ≤ k → k < n → f k = true) →
      i ≤ searchLoop f fuel i j ∧ searchLoop f fuel i j ≤ j ∧
      (∀ k, k < searchLoop f fuel i j → f k = false) ∧
      (∀ k, searchLoop f fuel i j ≤ k → k < n → f k = true) := by
  intro fuel
  induction fuel with
  | zero =>
    intro i j hf hij hjn hlo hhi
    have : i = j := by omega
    subst this
    exact ⟨Nat.le_refl _, Nat.le_refl _, hlo, hhi⟩
  | succ fuel ih =>
    intro i j hfuel hij hjn hlo hhi
    simp only [searchLoop]
    split
    · rename_i hlt
      split
      · rename_i hf
        have hf' : f ((i + j) / 2) = false := by simpa using hf
        have := ih ((i + j) / 2 + 1) j (by omega) (by omega) hjn
          (by
            intro k hk
            cases hfk : f k with
            | false => rfl
            | true =>
              have := mono k ((i + j) / 2) (by omega) (by omega) hfk
              simp [hf'] at this)
          hhi
        obtain ⟨a, b, c, d⟩ := this
        exact ⟨by omega, b, c, d⟩
      · rename_i hf
        have hf' : f ((i + j) / 2) = true := by simpa using hf
        have := ih i ((i + j) / 2) (by omega) (by omega) (by omega) hlo
          (by
            intro k hk hkn
            exact mono ((i + j) / 2) k hk hkn hf')
        obtain ⟨a, b, c, d⟩ := this
        exact ⟨a, by omega, c, d⟩
    · rename_i hge
      have : i = j := by omega
      subst this
      exact ⟨Nat.le_refl _, Nat.le_refl _, hlo, hhi⟩

theorem goSearch_spec {f : Nat → Bool} {n : Nat}
    (mono : ∀ a b, a ≤ b → b < n → f a = true → f b = true) :
    goSearch n f ≤ n ∧ (∀ k, k < goSearch n f → f k = false) ∧
      (∀ k, goSearch n f ≤ k → k < n → f k = true) := by
  have := searchLoop_spec mono n 0 n (by omega) (Nat.zero_le _) (Nat.le_refl _)
    (fun k h => absurd h (Nat.not_lt_zero _)) (fun k h h' => by omega)
  exact ⟨this.2.1, this.2.2.1, this.2.2.2⟩

/-- Versions in non-decreasing order. -/
def SortedV (a : List SV) : Prop := a.Pairwise (fun x y => y.less x = false)

/-- Versions in strictly increasing order. -/
def StrictV (a : List SV) : Prop := a.Pairwise (fun x y => x.less y = true)

theorem StrictV.sorted {a : List SV} (h : StrictV a) : SortedV a :=
  List.Pairwise.imp (fun h => less_asymm h) h

theorem SortedV.get {a : List SV} (h : SortedV a) {i j : Nat} (hij : i ≤ j) (hj : j < a.length) :
    (a[j]).less (a[i]'(by omega)) = false := by
  rcases Nat.lt_or_eq_of_le hij with hlt | heq
  · exact (List.pairwise_iff_getElem.1 h) i j (by omega) hj hlt
  · subst heq; exact less_irrefl _

theorem StrictV.get {a : List SV} (h : StrictV a) {i j : Nat} (hij : i < j) (hj : j < a.length) :
    (a[i]'(by omega)).less (a[j]) = true :=
  (List.pairwise_iff_getElem.1 h) i j (by omega) hj hij

theorem StrictV.inj {a : List SV} (h : StrictV a) {i j : Nat} (hi : i < a.length)
    (hj : j < a.length) (he : a[i] = a[j]) : i = j := by
  rcases Nat.lt_trichotomy i j with hlt | heq | hgt
  · have := h.get hlt hj; rw [he, less_irrefl] at this; cases this
  · exact heq
  · have := h.get hgt hi; rw [he, less_irrefl] at this; cases this

/-- `searchSynv` on a sorted list is the number of versions before `x`. -/
theorem searchSynv_spec {a : List SV} (h : SortedV a) (x : SV) :
    searchSynv a x ≤ a.length ∧
    (∀ k (hk : k < a.length), k < searchSynv a x → (a[k]).less x = true) ∧
    (∀ k (hk : k < a.length), searchSynv a x ≤ k → (a[k]).less x = false) := by
  have mono : ∀ i j, i ≤ j → j < a.length →
      (match a[i]? with | some v => !(v.less x) | none => false) = true →
      (match a[j]? with | some v => !(v.less x) | none => false) = true := by
    intro i j hij hj hi
    have hi' : i < a.length := by omega
    simp only [List.getElem?_eq_getElem hi', List.getElem?_eq_getElem hj] at *
    simp only [Bool.not_eq_true'] at *
    exact not_less_trans hi (h.get hij hj)
  obtain ⟨h1, h2, h3⟩ := goSearch_spec mono
  refine ⟨h1, ?_, ?_⟩
  · intro k hk hlt
    have := h2 k hlt
    simp only [List.getElem?_eq_getElem hk] at this
    simpa using this
  · intro k hk hge
    have := h3 k hge hk
    simp only [List.getElem?_eq_getElem hk] at this
    simpa using this

/-- In a strictly increasing list the search finds the position of a version. -/
theorem searchSynv_getElem {a : List SV} (h : StrictV a) {i : Nat} (hi : i < a.length) :
    searchSynv a a[i] = i := by
  obtain ⟨h1, h2, h3⟩ := searchSynv_spec h.sorted a[i]
  rcases Nat.lt_trichotomy (searchSynv a a[i]) i with hlt | heq | hgt
  · have hx : searchSynv a a[i] < a.length := by omega
    have e1 := h.get hlt hi
    have e2 := h3 (searchSynv a a[i]) hx (Nat.le_refl _)
    rw [e1] at e2; cases e2
  · exact heq
  · have := h2 i hi hgt
    rw [less_irrefl] at this; cases this

/-- On a sorted list, `synvExists` decides membership. -/
theorem synvExists_iff {a : List SV} (h : SortedV a) (x : SV) :
    synvExists a x = true ↔ x ∈ a := by
  obtain ⟨h1, h2, h3⟩ := searchSynv_spec h x
  constructor
  · intro hx
    unfold synvExists at hx
    simp only at hx
    split at hx
    · rename_i v hv
      have : v = x := by simpa using hx
      subst this
      exact List.mem_of_getElem? hv
    · cases hx
  · intro hx
    obtain ⟨k, hk, hkx⟩ := List.getElem_of_mem hx
    have hle : searchSynv a x ≤ k := by
      apply Nat.le_of_not_lt
      intro hlt
      have := h2 k hk hlt
      rw [hkx, less_irrefl] at this; cases this
    have hs : searchSynv a x < a.length := by omega
    have e1 := h3 _ hs (Nat.le_refl _)
    have e2 := h.get hle hk
    rw [hkx] at e2
    have e3 := eq_of_not_less e1 e2
    unfold synvExists
    simp only [List.getElem?_eq_getElem hs, e3]
    simp

/-- On a sorted list, if `x` occurs then the search returns a position of it. -/
theorem searchSynv_found {a : List SV} (h : SortedV a) {x : SV} (hx : x ∈ a) :
    ∃ hs : searchSynv a x < a.length, a[searchSynv a x] = x := by
  have := (synvExists_iff h x).2 hx
  unfold synvExists at this
  simp only at this
  split at this
  · rename_i v hv
    have e : v = x := by simpa using this
    subst e
    obtain ⟨hs, he⟩ := List.getElem?_eq_some_iff.1 hv
    exact ⟨hs, he⟩
  · cases this

end Thema

import Verif.Lemmas.FlatIdx
import Verif.Lemmas.Bind

/-! `_flatidx` and `_counts` for contiguous version lists. -/

namespace Thema

open Spec

theorem take_sum_le {ns : List Nat} {M : Nat} (hM : M < ns.length) {k : Nat} (hk : k < ns[M]) :
    (ns.take M).sum + k < ns.sum := by
  have h : ns.sum = (ns.take M).sum + (ns[M] + (ns.drop (M + 1)).sum) := by
    rw [← List.sum_cons, List.getElem_cons_drop, ← List.sum_append, List.take_append_drop]
  omega

/-- Position of `M.k`. -/
theorem blocks_pos {ns : List Nat} (hs : StrictV (blocks 0 ns)) {i : Nat}
    (hi : i < (blocks 0 ns).length) {M : Nat} (hM : M < ns.length)
    (hmaj : (blocks 0 ns)[i].major = M) (hk : (blocks 0 ns)[i].minor < ns[M]) :
    i = (ns.take M).sum + (blocks 0 ns)[i].minor := by
  have h := blocks_getElem ns 0 M _ hM hk
  have hlt := take_sum_le hM hk
  rw [← blocks_length ns 0] at hlt
  rw [List.getElem?_eq_getElem hlt] at h
  refine hs.inj hi hlt ?_
  simp only [Option.some.injEq, Nat.zero_add] at h
  rw [h, ← hmaj]

theorem blocks_pos' {ns : List Nat} {i : Nat}
    (hs : StrictV (blocks 0 ns)) (hi : i < (blocks 0 ns).length) :
    ∃ hM : (blocks 0 ns)[i].major < ns.length, (blocks 0 ns)[i].minor < ns[(blocks 0 ns)[i].major] ∧
      i = (ns.take (blocks 0 ns)[i].major).sum + (blocks 0 ns)[i].minor := by
  obtain ⟨M, hM, h1, h2⟩ := mem_blocks.1 (List.getElem_mem hi)
  simp only [Nat.zero_add] at h1
  have h3 := blocks_pos hs hi hM h1 h2
  subst h1
  exact ⟨hM, h2, h3⟩

theorem innerSums_length (ns : List Nat) : ∀ i, (innerSums i ns).length = ns.length - 1 := by
  induction ns with
  | nil => intro i; rfl
  | cons n ns ih =>
    intro i
    cases ns with
    | nil => rfl
    | cons m ns =>
      simp only [innerSums, List.length_cons, ih]
      simp

theorem innerSums_getElem (ns : List Nat) : ∀ (i j : Nat), j + 1 < ns.length →
    (innerSums i ns)[j]? = some ((i + (ns.take (j + 1)).sum : Nat) : Int) := by
  induction ns with
  | nil => intro i j h; simp at h
  | cons n ns ih =>
    intro i j hj
    cases ns with
    | nil => simp at hj
    | cons m ns =>
      simp only [innerSums]
      cases j with
      | zero => simp
      | succ j =>
        rw [List.getElem?_cons_succ, ih (i + n) j (by simpa using hj)]
        simp only [List.take_succ_cons, List.sum_cons]
        congr 2; omega

theorem posList_getElem {ns : List Nat} {j : Nat} (hj : j < ns.length) :
    (0 :: innerSums 0 ns)[j]? = some (((ns.take j).sum : Nat) : Int) := by
  cases j with
  | zero => simp
  | succ j => rw [List.getElem?_cons_succ, innerSums_getElem ns 0 j hj]; simp

theorem posList_eq {ns : List Nat} (hne : ns ≠ []) :
    0 :: innerSums 0 ns = (List.range ns.length).map (fun j => (((ns.take j).sum : Nat) : Int)) := by
  apply List.ext_getElem?
  intro j
  by_cases hj : j < ns.length
  · rw [posList_getElem hj]; simp [hj]
  · have : 0 < ns.length := List.length_pos_iff.2 hne
    rw [List.getElem?_eq_none (by simp [innerSums_length]; omega),
      List.getElem?_eq_none (by simp; omega)]

/-- The counts are non-negative iff no first position exceeds the next. -/
theorem countsOk_blocks {ns : List Nat} (hpos : ∀ x ∈ ns, 0 < x) (hne : ns ≠ []) :
    countsOk (blocks 0 ns) = true ↔
      ∀ M, M + 1 < ns.length →
        ((List.range (M + 1)).map (fun j => (ns.take j).sum)).sum ≤ (ns.take (M + 1)).sum := by
  unfold countsOk
  match ns, hne with
  | [n], _ =>
    constructor
    · intro _ M hM; simp at hM
    · intro _
      unfold counts
      rw [posList_blocks [n] hpos]
      split
      · rfl
      · simp [innerSums, countsInit]
  | n :: m :: ns, hne =>
    rw [counts_blocks hpos, posList_eq hne]
    generalize hl : n :: m :: ns = l at hpos
    have hl2 : 2 ≤ l.length := by rw [← hl]; simp
    have hlast : 0 ≤ ((l.sum : Int) -
        ((List.range l.length).map (fun j => (((l.take j).sum : Nat) : Int))).getLastD 0) := by
      rw [List.getLastD_eq_getLast?, List.getLast?_eq_getElem?]
      simp only [List.length_map, List.length_range]
      rw [List.getElem?_map, List.getElem?_range (by omega)]
      simp only [Option.map_some, Option.getD_some]
      have : (l.take (l.length - 1)).sum ≤ l.sum := by
        have h := congrArg List.sum (List.take_append_drop (l.length - 1) l)
        rw [List.sum_append] at h
        omega
      omega
    simp only [List.all_append, Bool.and_eq_true, List.all_eq_true, decide_eq_true_eq,
      List.mem_singleton, forall_eq, hlast, and_true]
    unfold countsInit
    simp only [List.length_map, List.length_range, List.mem_map, List.mem_range,
      forall_exists_index, and_imp, forall_apply_eq_imp_iff₂]
    have key : ∀ M, M < l.length - 1 →
        ((0 ≤ ((List.range l.length).map (fun j => (((l.take j).sum : Nat) : Int))).getD (M + 1) 0 -
          (((List.range l.length).map (fun j => (((l.take j).sum : Nat) : Int))).take (M + 1)).sum) ↔
        ((List.range (M + 1)).map (fun j => (l.take j).sum)).sum ≤ (l.take (M + 1)).sum) := by
      intro M hM
      rw [List.getD_eq_getElem?_getD, List.getElem?_map, List.getElem?_range (by omega)]
      simp only [Option.map_some, Option.getD_some]
      rw [← List.map_take, List.take_range, Nat.min_eq_left (by omega)]
      have : (List.map (fun j => (((l.take j).sum : Nat) : Int)) (List.range (M + 1))).sum =
          ((((List.range (M + 1)).map (fun j => (l.take j).sum)).sum : Nat) : Int) := by
        generalize List.range (M + 1) = rs
        induction rs with
        | nil => rfl
        | cons r rs ih => simp only [List.map_cons, List.sum_cons, ih]; omega
      rw [this]
      omega
    constructor
    · intro h M hM
      exact (key M (by omega)).1 (h M (by omega))
    · intro h M hM
      exact (key M hM).2 (h M (by omega))

theorem blocks_idxOf {ns : List Nat} (hpos : ∀ x ∈ ns, 0 < x) (hs : StrictV (blocks 0 ns)) {j : Nat}
    (hj : j < ns.length) : (blocks 0 ns).idxOf ⟨j, 0⟩ = (ns.take j).sum := by
  have h0 : 0 < ns[j] := hpos _ (List.getElem_mem hj)
  have h := blocks_getElem ns 0 j 0 hj h0
  have hlt := take_sum_le hj h0
  rw [← blocks_length ns 0] at hlt
  rw [List.getElem?_eq_getElem hlt] at h
  simp only [Option.some.injEq, Nat.zero_add, Nat.add_zero] at h
  rw [← h]
  exact hs.nodup.idxOf_getElem _ _

/-- Position of the first schema of major `j`. -/
def preSum (ns : List Nat) (j : Nat) : Int := (((ns.take j).sum : Nat) : Int)

/-- The derived count of major `i`. -/
def cdiff (ns : List Nat) (i : Nat) : Int :=
  preSum ns (i + 1) - ((List.range (i + 1)).map (preSum ns)).sum

theorem countsInit_posList {ns : List Nat} (hne : ns ≠ []) :
    countsInit (0 :: innerSums 0 ns) = (List.range (ns.length - 1)).map (cdiff ns) := by
  rw [posList_eq hne]
  unfold countsInit
  simp only [List.length_map, List.length_range]
  apply List.map_congr_left
  intro M hM
  rw [List.mem_range] at hM
  rw [List.getD_eq_getElem?_getD, List.getElem?_map, List.getElem?_range (by omega)]
  simp only [Option.map_some, Option.getD_some]
  rw [← List.map_take, List.take_range, Nat.min_eq_left (by omega)]
  rfl

theorem basis_getElem {ns : List Nat} (hpos : ∀ x ∈ ns, 0 < x) (h2 : 2 ≤ ns.length) {M : Nat}
    (hM : M < ns.length) :
    (basis (blocks 0 ns))[M]? = some (((List.range M).map (cdiff ns)).sum) := by
  match ns, h2 with
  | n :: m :: ns, _ =>
    generalize hl : n :: m :: ns = l at *
    have hne : l ≠ [] := by rw [← hl]; simp
    have hcounts : ∃ lst, counts (blocks 0 l) = (List.range (l.length - 1)).map (cdiff l) ++ [lst] := by
      subst hl
      rw [counts_blocks hpos, countsInit_posList hne]
      exact ⟨_, rfl⟩
    obtain ⟨lst, hc⟩ := hcounts
    unfold basis
    rw [hc]
    cases M with
    | zero => simp
    | succ M =>
      rw [List.getElem?_cons_succ, List.getElem?_map]
      simp only [List.length_append, List.length_map, List.length_range, List.length_singleton,
        Nat.add_sub_cancel]
      rw [List.getElem?_range (by omega)]
      simp only [Option.map_some, Option.some.injEq]
      rw [List.take_append_of_le_length (by simp; omega), ← List.map_take, List.take_range,
        Nat.min_eq_left (by omega)]

theorem preSum_nonneg (ns : List Nat) (j : Nat) : 0 ≤ preSum ns j := by unfold preSum; omega

theorem preSum_range_ge (ns : List Nat) : ∀ (M : Nat), 2 ≤ M →
    preSum ns M + preSum ns 1 ≤ ((List.range (M + 1)).map (preSum ns)).sum := by
  intro M
  induction M with
  | zero => intro h; omega
  | succ M ih =>
    intro h
    rw [List.range_succ, List.map_append, List.sum_append]
    simp only [List.map_cons, List.map_nil, List.sum_cons, List.sum_nil]
    by_cases hM : 2 ≤ M
    · have := ih hM
      have := preSum_nonneg ns M
      omega
    · obtain rfl : M = 1 := by omega
      have : ((List.range (1 + 1)).map (preSum ns)).sum = preSum ns 0 + preSum ns 1 := by
        simp [List.range_succ]
      have := preSum_nonneg ns 0
      omega

/-- From the fourth major on the basis is too small. -/
theorem basis_small (ns : List Nat) : ∀ (M : Nat), 3 ≤ M →
    ((List.range M).map (cdiff ns)).sum + preSum ns 1 ≤ preSum ns M := by
  intro M
  induction M with
  | zero => intro h; omega
  | succ M ih =>
    intro h
    rw [List.range_succ, List.map_append, List.sum_append]
    simp only [List.map_cons, List.map_nil, List.sum_cons, List.sum_nil]
    have hM : 2 ≤ M := by omega
    have h1 := preSum_range_ge ns M hM
    have hc : cdiff ns M = preSum ns (M + 1) - ((List.range (M + 1)).map (preSum ns)).sum := rfl
    have hp := preSum_nonneg ns 1
    by_cases h3 : 3 ≤ M
    · have := ih h3
      omega
    · obtain rfl : M = 2 := by omega
      have : ((List.range 2).map (cdiff ns)).sum = preSum ns 2 := by
        have h00 : preSum ns 0 = 0 := by simp [preSum]
        simp [List.range_succ, cdiff, h00]
        omega
      omega

end Thema

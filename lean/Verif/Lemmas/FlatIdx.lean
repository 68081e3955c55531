import Verif.Spec.Lineage
import Verif.Lemmas.Version

/-! Contiguous version lists are concatenations of majors; `_counts` and `_basis`
for them. -/

namespace Thema

open Spec

/-- The versions `major.k`, ..., `major.(n-1)`. -/
def majorBlock (major k n : Nat) : List SV := (List.range' k n).map (fun m => ⟨major, m⟩)

/-- Majors `m`, `m+1`, ... with the given numbers of schemas. -/
def blocks : Nat → List Nat → List SV
  | _, [] => []
  | m, n :: ns => majorBlock m 0 n ++ blocks (m + 1) ns

theorem majorBlock_succ (m k n : Nat) : majorBlock m k (n + 1) = ⟨m, k⟩ :: majorBlock m (k + 1) n := by
  simp [majorBlock, List.range'_succ]

theorem majorBlock_zero (m k : Nat) : majorBlock m k 0 = [] := rfl

@[simp] theorem majorBlock_length (m k n : Nat) : (majorBlock m k n).length = n := by
  simp [majorBlock]

theorem nextVersion_chain (vs : List SV) : ∀ (a : SV),
    (∀ i (_ : i + 1 < (a :: vs).length), NextVersion (a :: vs)[i] (a :: vs)[i + 1]) →
    ∃ n ns, (∀ x ∈ ns, 0 < x) ∧
      a :: vs = majorBlock a.major a.minor (n + 1) ++ blocks (a.major + 1) ns := by
  induction vs with
  | nil => intro a _; exact ⟨0, [], by simp, by simp [majorBlock, blocks]⟩
  | cons b vs ih =>
    intro a h
    obtain ⟨n, ns, hpos, heq⟩ := ih b (fun i hi => h (i + 1) (by simpa using hi))
    rcases h 0 (by simp) with hb | hb <;> simp only [List.getElem_cons_zero, List.getElem_cons_succ] at hb
    · refine ⟨n + 1, ns, hpos, ?_⟩
      rw [heq, hb, majorBlock_succ a.major a.minor]
      simp
    · refine ⟨0, (n + 1) :: ns, ?_, ?_⟩
      · intro x hx
        rcases List.mem_cons.1 hx with rfl | hx
        · omega
        · exact hpos x hx
      · rw [heq, hb, majorBlock_succ a.major a.minor 0, majorBlock_zero]
        simp [blocks]

/-- A contiguous version list is a list of majors. -/
theorem contiguous_blocks {vs : List SV} (h : Contiguous vs) :
    ∃ ns, (∀ x ∈ ns, 0 < x) ∧ ns ≠ [] ∧ vs = blocks 0 ns := by
  obtain ⟨h0, h1⟩ := h
  cases vs with
  | nil => simp at h0
  | cons a vs =>
    simp only [List.head?_cons, Option.some.injEq] at h0
    subst h0
    obtain ⟨n, ns, hpos, heq⟩ := nextVersion_chain vs ⟨0, 0⟩ h1
    refine ⟨(n + 1) :: ns, ?_, by simp, by simpa [blocks] using heq⟩
    intro x hx
    rcases List.mem_cons.1 hx with rfl | hx
    · omega
    · exact hpos x hx

theorem blocks_length (ns : List Nat) : ∀ m, (blocks m ns).length = ns.sum := by
  induction ns with
  | nil => intro m; rfl
  | cons n ns ih => intro m; simp [blocks, ih]

/-- The element at `sum of the first M sizes + k` is `M.k`. -/
theorem blocks_getElem (ns : List Nat) : ∀ (m M k : Nat) (hM : M < ns.length) (_ : k < ns[M]),
    (blocks m ns)[(ns.take M).sum + k]? = some ⟨m + M, k⟩ := by
  induction ns with
  | nil => intro m M k hM; simp at hM
  | cons n ns ih =>
    intro m M k hM hk
    cases M with
    | zero =>
      simp only [List.getElem_cons_zero] at hk
      simp only [blocks, List.take_zero, List.sum_nil, Nat.zero_add, Nat.add_zero]
      rw [List.getElem?_append_left (by simpa using hk)]
      simp [majorBlock, hk]
    | succ M =>
      simp only [List.getElem_cons_succ] at hk
      simp only [blocks, List.take_succ_cons, List.sum_cons]
      rw [List.getElem?_append_right (by simp; omega)]
      simp only [majorBlock_length]
      have : n + (List.take M ns).sum + k - n = (ns.take M).sum + k := by omega
      rw [this, ih (m + 1) M k (by simpa using hM) hk]
      congr 2; omega

/-- Every element is of this form. -/
theorem mem_blocks {ns : List Nat} {m : Nat} {v : SV} :
    v ∈ blocks m ns ↔ ∃ M, ∃ hM : M < ns.length, v.major = m + M ∧ v.minor < ns[M] := by
  induction ns generalizing m with
  | nil => simp [blocks]
  | cons n ns ih =>
    simp only [blocks, List.mem_append, ih]
    constructor
    · rintro (h | ⟨M, hM, h1, h2⟩)
      · simp only [majorBlock, List.mem_map, List.mem_range'_1] at h
        obtain ⟨k, hk, rfl⟩ := h
        exact ⟨0, by simp, by simp, by simpa using hk⟩
      · exact ⟨M + 1, by simpa using hM, by rw [h1]; omega, by simpa using h2⟩
    · rintro ⟨M, hM, h1, h2⟩
      cases M with
      | zero =>
        left
        simp only [majorBlock, List.mem_map, List.mem_range'_1]
        refine ⟨v.minor, by simpa using h2, ?_⟩
        cases v; simp only [Nat.add_zero] at h1; subst h1; rfl
      | succ M =>
        right
        exact ⟨M, by simpa using hM, by rw [h1]; omega, by simpa using h2⟩

theorem bumps_majorBlock (m : Nat) (rest : List SV) (hrest : ∀ v ∈ rest.head?, v.major = m + 1) :
    ∀ (n k i : Nat),
    bumps i (majorBlock m k (n + 1) ++ rest) =
      if rest = [] then [] else ((i + n + 1 : Nat) : Int) :: bumps (i + n + 1) rest := by
  intro n
  induction n with
  | zero =>
    intro k i
    rw [majorBlock_succ, majorBlock_zero]
    cases rest with
    | nil => simp [bumps]
    | cons b rest =>
      have : b.major = m + 1 := hrest b (by simp)
      simp [bumps, this]
  | succ n ih =>
    intro k i
    rw [majorBlock_succ, majorBlock_succ]
    have h := ih (k + 1) (i + 1)
    rw [majorBlock_succ] at h
    simp only [List.cons_append, bumps, Nat.lt_irrefl, if_false]
    simp only [List.cons_append] at h
    rw [h]
    have : i + 1 + n + 1 = i + (n + 1) + 1 := by omega
    rw [this]

/-- Partial sums of sizes, starting from `i`, without the first and the last. -/
def innerSums : Nat → List Nat → List Int
  | i, n :: m :: ns => ((i + n : Nat) : Int) :: innerSums (i + n) (m :: ns)
  | _, _ => []

theorem blocks_head (m : Nat) (n : Nat) (ns : List Nat) (hn : 0 < n) :
    (blocks m (n :: ns)).head? = some ⟨m, 0⟩ := by
  obtain ⟨k, rfl⟩ : ∃ k, n = k + 1 := ⟨n - 1, by omega⟩
  simp [blocks, majorBlock_succ]

theorem bumps_blocks (ns : List Nat) (hpos : ∀ x ∈ ns, 0 < x) : ∀ (m i : Nat),
    bumps i (blocks m ns) = innerSums i ns := by
  induction ns with
  | nil => intro m i; rfl
  | cons n ns ih =>
    intro m i
    obtain ⟨k, rfl⟩ : ∃ k, n = k + 1 := ⟨n - 1, by have := hpos n (by simp); omega⟩
    have ih' := ih (fun x hx => hpos x (by simp [hx])) (m + 1)
    simp only [blocks]
    rw [bumps_majorBlock]
    · cases ns with
      | nil => simp [blocks, innerSums]
      | cons n2 ns =>
        have hne : blocks (m + 1) (n2 :: ns) ≠ [] := by
          intro h
          have := blocks_head (m + 1) n2 ns (hpos n2 (by simp))
          rw [h] at this; cases this
        rw [if_neg hne, ih']
        simp only [innerSums]
        rfl
    · intro v hv
      cases ns with
      | nil => simp [blocks] at hv
      | cons n2 ns =>
        rw [blocks_head (m + 1) n2 ns (hpos n2 (by simp))] at hv
        simp at hv; rw [← hv]

theorem posList_blocks (ns : List Nat) (hpos : ∀ x ∈ ns, 0 < x) :
    posList (blocks 0 ns) = 0 :: innerSums 0 ns := by
  rw [posList, bumps_blocks ns hpos]

theorem basis_one {n : Nat} (hn : 0 < n) : basis (blocks 0 [n]) = [0] := by
  unfold basis counts
  rw [posList_blocks [n] (by simpa using hn)]
  split
  · rfl
  · simp [innerSums, countsInit]

theorem counts_blocks {n m : Nat} {ns : List Nat} (hpos : ∀ x ∈ n :: m :: ns, 0 < x) :
    counts (blocks 0 (n :: m :: ns)) =
      countsInit (0 :: innerSums 0 (n :: m :: ns)) ++
        [((n :: m :: ns).sum : Int) - (0 :: innerSums 0 (n :: m :: ns)).getLastD 0] := by
  unfold counts
  have h1 := hpos n (by simp)
  have h2 := hpos m (by simp)
  rw [if_neg (by rw [blocks_length]; simp only [List.sum_cons]; omega), posList_blocks _ hpos,
    blocks_length]

theorem basis_two {a b : Nat} (ha : 0 < a) (hb : 0 < b) :
    basis (blocks 0 [a, b]) = [0, (a : Int)] := by
  unfold basis
  rw [counts_blocks (by simp [ha, hb])]
  simp [innerSums, countsInit, List.range_succ]

theorem basis_three {a b c : Nat} (ha : 0 < a) (hb : 0 < b) (hc : 0 < c) :
    basis (blocks 0 [a, b, c]) = [0, (a : Int), ((a + b : Nat) : Int)] := by
  unfold basis
  rw [counts_blocks (by simp [ha, hb, hc])]
  simp [innerSums, countsInit, List.range_succ]
  omega

theorem countsInit_four (p1 p2 p3 : Int) (tl : List Int) :
    ∃ tl', countsInit (0 :: p1 :: p2 :: p3 :: tl) = p1 :: (p2 - p1) :: (p3 - (p1 + p2)) :: tl' := by
  unfold countsInit
  simp only [List.length_cons, Nat.add_sub_cancel, List.range_succ_eq_map, List.map_cons]
  generalize List.map (fun i => _) (List.map Nat.succ _) = t
  exact ⟨t, by simp⟩

theorem sums_four (c0 c1 c2 x : Int) (tl : List Int) :
    ∃ tl', 0 :: (List.range ((c0 :: c1 :: c2 :: x :: tl).length - 1)).map
        (fun maj => ((c0 :: c1 :: c2 :: x :: tl).take (maj + 1)).sum) =
      0 :: c0 :: (c0 + c1) :: (c0 + (c1 + c2)) :: tl' := by
  simp only [List.length_cons, Nat.add_sub_cancel, List.range_succ_eq_map, List.map_cons]
  generalize List.map (fun i => _) (List.map Nat.succ _) = t
  exact ⟨t, by simp⟩

theorem basis_four {a b c d : Nat} {ns : List Nat} (hpos : ∀ x ∈ a :: b :: c :: d :: ns, 0 < x) :
    ∃ tl, basis (blocks 0 (a :: b :: c :: d :: ns)) =
      0 :: (a : Int) :: ((a + b : Nat) : Int) :: ((b + c : Nat) : Int) :: tl := by
  unfold basis
  rw [counts_blocks hpos]
  simp only [innerSums]
  obtain ⟨t1, h1⟩ := countsInit_four ((0 + a : Nat) : Int) ((0 + a + b : Nat) : Int)
    ((0 + a + b + c : Nat) : Int) (innerSums (0 + a + b + c) (d :: ns))
  rw [h1]
  generalize (↑(a :: b :: c :: d :: ns).sum - _ : Int) = lst
  simp only [List.cons_append]
  obtain ⟨x, tl, hx⟩ : ∃ x tl, t1 ++ [lst] = x :: tl := by cases t1 <;> simp
  rw [hx]
  obtain ⟨t2, h2⟩ := sums_four ((0 + a : Nat) : Int)
    (((0 + a + b : Nat) : Int) - ((0 + a : Nat) : Int))
    (((0 + a + b + c : Nat) : Int) - (((0 + a : Nat) : Int) + ((0 + a + b : Nat) : Int))) x tl
  rw [h2]
  refine ⟨t2, ?_⟩
  simp only [List.cons.injEq, true_and, and_true]
  refine ⟨?_, ?_, ?_⟩ <;> omega

end Thema

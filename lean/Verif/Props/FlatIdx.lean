import Verif.Lemmas.FlatIdx2
import Verif.Lemmas.Bind2
import Verif.Model.SetCue

/-!
# The version-to-position index of #Lineage (C26, C27)

Both claims are about contiguous version lists `vs`.
-/

namespace Thema.Props

open Spec

variable {vs : List SV}

/-- Versions of contiguous lists with majors up to 2 come from at most three sizes. -/
theorem blocks_at_most_three {ns : List Nat} (hpos : ∀ x ∈ ns, 0 < x) (hne : ns ≠ [])
    (h : ∀ v ∈ blocks 0 ns, v.major ≤ 2) :
    (∃ a, ns = [a]) ∨ (∃ a b, ns = [a, b]) ∨ ∃ a b c, ns = [a, b, c] := by
  match ns, hne with
  | [a], _ => exact Or.inl ⟨a, rfl⟩
  | [a, b], _ => exact Or.inr (Or.inl ⟨a, b, rfl⟩)
  | [a, b, c], _ => exact Or.inr (Or.inr ⟨a, b, c, rfl⟩)
  | a :: b :: c :: d :: ns, _ =>
    exfalso
    have := h ⟨3, 0⟩ (mem_blocks.2 ⟨3, by simp, rfl, hpos d (by simp)⟩)
    simp at this

theorem flatidx_three {ns : List Nat} (hpos : ∀ x ∈ ns, 0 < x) {M k : Nat} (hM : M < ns.length)
    (h2 : M ≤ 2) :
    flatidx (blocks 0 ns) ⟨M, k⟩ = some (((ns.take M).sum + k : Nat) : Int) := by
  unfold flatidx
  match ns, hM with
  | [a], hM =>
    rw [basis_one (hpos a (by simp))]
    have : M = 0 := by simpa using hM
    subst this; simp
  | [a, b], hM =>
    rw [basis_two (hpos a (by simp)) (hpos b (by simp))]
    match M, hM with
    | 0, _ => simp
    | 1, _ => simp
  | [a, b, c], hM =>
    rw [basis_three (hpos a (by simp)) (hpos b (by simp)) (hpos c (by simp))]
    match M, hM with
    | 0, _ => simp
    | 1, _ => simp
    | 2, _ => simp
  | a :: b :: c :: d :: ns, hM =>
    obtain ⟨tl, htl⟩ := basis_four hpos
    rw [htl]
    match M, h2 with
    | 0, _ => simp
    | 1, _ => simp
    | 2, _ => simp

/-- **C26** (partial).  The index CUE computes is right for the versions of the
first three majors of a contiguous lineage.  Missing: later majors
(`C26_index_wrong`). -/
theorem C26_index_partial (hc : Contiguous vs) {i : Nat} (hi : i < vs.length)
    (h3 : vs[i].major ≤ 2) : flatidx vs vs[i] = some (i : Int) := by
  have hs := Contiguous.strictV hc
  obtain ⟨ns, hpos, hne, rfl⟩ := contiguous_blocks hc
  obtain ⟨hM, _, hi'⟩ := blocks_pos' hs hi
  conv_rhs => rw [hi']
  rw [← flatidx_three hpos hM h3]

example : Contiguous [⟨0, 0⟩, ⟨0, 1⟩, ⟨1, 0⟩, ⟨2, 0⟩, ⟨2, 1⟩] ∧
    flatidx [⟨0, 0⟩, ⟨0, 1⟩, ⟨1, 0⟩, ⟨2, 0⟩, ⟨2, 1⟩] ⟨2, 1⟩ = some 4 := by
  refine ⟨⟨rfl, ?_⟩, by decide⟩
  intro i hi
  match i, hi with
  | 0, _ => exact Or.inl rfl
  | 1, _ => exact Or.inr rfl
  | 2, _ => exact Or.inr rfl
  | 3, _ => exact Or.inl rfl

theorem countP_major_zero {a : Nat} {ns : List Nat} :
    (blocks 0 (a :: ns)).countP (fun v => v.major = 0) = a := by
  simp only [blocks, List.countP_append]
  have h1 : (majorBlock 0 0 a).countP (fun v => v.major = 0) = a := by
    rw [List.countP_eq_length.2]
    · simp
    · intro v hv; simp only [majorBlock, List.mem_map] at hv
      obtain ⟨_, _, rfl⟩ := hv; simp
  have h2 : (blocks 1 ns).countP (fun v => v.major = 0) = 0 := by
    rw [List.countP_eq_zero]
    intro v hv
    obtain ⟨M, _, hm, _⟩ := mem_blocks.1 hv
    simp [hm]
  rw [h1]; simp only [Nat.zero_add]; omega

/-- **C26** (refutation).  In *every* contiguous lineage the index of *every*
version of major 3 is too small, by the number of schemas of major 0. -/
theorem C26_index_wrong (hc : Contiguous vs) {i : Nat} (hi : i < vs.length)
    (h3 : vs[i].major = 3) :
    flatidx vs vs[i] = some ((i : Int) - (vs.countP (fun v => v.major = 0) : Int)) ∧
      0 < vs.countP (fun v => v.major = 0) := by
  have hs := Contiguous.strictV hc
  obtain ⟨ns, hpos, hne, rfl⟩ := contiguous_blocks hc
  obtain ⟨hM, _, hi'⟩ := blocks_pos' hs hi
  rw [h3] at hM hi'
  match ns, hM with
  | a :: b :: c :: d :: ns, _ =>
    rw [countP_major_zero]
    refine ⟨?_, hpos a (by simp)⟩
    obtain ⟨tl, htl⟩ := basis_four hpos
    unfold flatidx
    rw [htl, h3]
    simp only [List.getElem?_cons_succ, List.getElem?_cons_zero, Option.map_some,
      Option.some.injEq]
    simp only [List.take_succ_cons, List.take_zero, List.sum_cons, List.sum_nil] at hi'
    omega

/-- **C26** (refutation).  In every contiguous lineage the index of *every* version
of major 3 or above is too small, by at least the number of schemas of major 0: the
index is right exactly for the first three majors. -/
theorem C26_index_exact (hc : Contiguous vs) {i : Nat} (hi : i < vs.length) :
    (flatidx vs vs[i] = some (i : Int) ↔ vs[i].major ≤ 2) ∧
    (3 ≤ vs[i].major → ∃ j, flatidx vs vs[i] = some j ∧
      j + (vs.countP (fun v => v.major = 0) : Int) ≤ i ∧ 0 < vs.countP (fun v => v.major = 0)) := by
  have hbig : 3 ≤ vs[i].major → ∃ j, flatidx vs vs[i] = some j ∧
      j + (vs.countP (fun v => v.major = 0) : Int) ≤ i ∧
      0 < vs.countP (fun v => v.major = 0) := by
    intro h3
    have hs := Contiguous.strictV hc
    obtain ⟨ns, hpos, hne, rfl⟩ := contiguous_blocks hc
    obtain ⟨hM, _, hi'⟩ := blocks_pos' hs hi
    refine ⟨_, by unfold flatidx; rw [basis_getElem hpos (by omega) hM, Option.map_some], ?_⟩
    have hsm := basis_small ns _ h3
    have h1 : preSum ns 1 = ((blocks 0 ns).countP (fun v => v.major = 0) : Int) ∧
        0 < (blocks 0 ns).countP (fun v => v.major = 0) := by
      match ns, hne with
      | a :: ns, _ =>
        rw [countP_major_zero]
        exact ⟨by simp [preSum], hpos a (by simp)⟩
    have h2 : preSum ns (blocks 0 ns)[i].major + (blocks 0 ns)[i].minor = (i : Int) := by
      unfold preSum; omega
    refine ⟨?_, h1.2⟩
    rw [← h1.1]
    omega
  refine ⟨⟨?_, C26_index_partial hc hi⟩, hbig⟩
  intro he
  apply Nat.le_of_not_lt
  intro h3
  obtain ⟨j, hj, hle, hpos⟩ := hbig h3
  rw [he] at hj
  injection hj with hj
  omega

/-- The four singleton majors 0.0, 1.0, 2.0, 3.0. -/
theorem four_contiguous : Contiguous [⟨0, 0⟩, ⟨1, 0⟩, ⟨2, 0⟩, ⟨3, 0⟩] := by
  refine ⟨rfl, ?_⟩
  intro i hi
  match i, hi with
  | 0, _ => exact Or.inr rfl
  | 1, _ => exact Or.inr rfl
  | 2, _ => exact Or.inr rfl

theorem three_contiguous : Contiguous [⟨0, 0⟩, ⟨0, 1⟩, ⟨1, 0⟩] := by
  refine ⟨rfl, ?_⟩
  intro i hi
  match i, hi with
  | 0, _ => exact Or.inl rfl
  | 1, _ => exact Or.inr rfl

example : Contiguous [⟨0, 0⟩, ⟨1, 0⟩, ⟨2, 0⟩, ⟨3, 0⟩] ∧
    flatidx [⟨0, 0⟩, ⟨1, 0⟩, ⟨2, 0⟩, ⟨3, 0⟩] ⟨3, 0⟩ = some 2 :=
  ⟨four_contiguous, by decide⟩

/-! ### C27 -/

/-- The number of schemas of major `M`. -/
def countMajor (vs : List SV) (M : Nat) : Nat := vs.countP (fun v => v.major = M)

theorem countMajor_blocks (ns : List Nat) : ∀ (m M : Nat) (hM : M < ns.length),
    countMajor (blocks m ns) (m + M) = ns[M] := by
  unfold countMajor
  induction ns with
  | nil => intro m M hM; simp at hM
  | cons n ns ih =>
    intro m M hM
    simp only [blocks, List.countP_append]
    cases M with
    | zero =>
      have h1 : (majorBlock m 0 n).countP (fun v => v.major = m + 0) = n := by
        rw [List.countP_eq_length.2]
        · simp
        · intro v hv; simp only [majorBlock, List.mem_map] at hv
          obtain ⟨_, _, rfl⟩ := hv; simp
      have h2 : (blocks (m + 1) ns).countP (fun v => v.major = m + 0) = 0 := by
        rw [List.countP_eq_zero]
        intro v hv
        obtain ⟨M, _, hm, _⟩ := mem_blocks.1 hv
        simp only [hm, decide_eq_true_eq]; omega
      rw [h1, h2]; rfl
    | succ M =>
      have h1 : (majorBlock m 0 n).countP (fun v => v.major = m + (M + 1)) = 0 := by
        rw [List.countP_eq_zero]
        intro v hv
        simp only [majorBlock, List.mem_map] at hv
        obtain ⟨_, _, rfl⟩ := hv; simp
      have h2 := ih (m + 1) M (by simpa using hM)
      rw [show m + 1 + M = m + (M + 1) by omega] at h2
      rw [h1, h2]; simp

/-- **C27** (partial).  For a contiguous lineage of at least two schemas and at
most three majors, the derived counts are the true ones. -/
theorem C27_counts_partial (hc : Contiguous vs) (h2 : 2 ≤ vs.length)
    (h3 : ∀ v ∈ vs, v.major ≤ 2) :
    ∃ majors, (∀ M, M < majors ↔ ∃ v ∈ vs, v.major = M) ∧
      counts vs = (List.range majors).map (fun M => (countMajor vs M : Int)) := by
  obtain ⟨ns, hpos, hne, rfl⟩ := contiguous_blocks hc
  refine ⟨ns.length, ?_, ?_⟩
  · intro M
    constructor
    · intro hM
      exact ⟨⟨M, 0⟩, mem_blocks.2 ⟨M, hM, by simp, hpos _ (List.getElem_mem hM)⟩, rfl⟩
    · rintro ⟨v, hv, rfl⟩
      obtain ⟨M, hM, h1, _⟩ := mem_blocks.1 hv
      rw [h1]; simpa using hM
  · have hcm : (List.range ns.length).map (fun M => (countMajor (blocks 0 ns) M : Int)) =
        ns.map Int.ofNat := by
      apply List.ext_getElem
      · simp
      · intro i h1 h2
        have hi : i < ns.length := by simpa using h1
        have := countMajor_blocks ns 0 i hi
        rw [Nat.zero_add] at this
        simp [this]
    rw [hcm]
    rcases blocks_at_most_three hpos hne h3 with ⟨a, rfl⟩ | ⟨a, b, rfl⟩ | ⟨a, b, c, rfl⟩
    · unfold counts
      rw [if_neg (by omega), posList_blocks _ hpos, blocks_length]
      simp [innerSums, countsInit]
    · rw [counts_blocks hpos]
      simp [innerSums, countsInit, List.range_succ]
      omega
    · rw [counts_blocks hpos]
      simp [innerSums, countsInit, List.range_succ]
      omega

/-- **C27**.  Exactly when the derived counts do not stand in the way of binding
a contiguous lineage: the position at which each further major opens must be at
least the *sum* of the positions at which all earlier majors open. -/
theorem C27_counts_exact (hc : Contiguous vs) :
    countsOk vs = true ↔
      ∀ M, (⟨M + 1, 0⟩ : SV) ∈ vs →
        ((List.range (M + 1)).map (fun j => vs.idxOf ⟨j, 0⟩)).sum ≤ vs.idxOf ⟨M + 1, 0⟩ := by
  have hs := Contiguous.strictV hc
  obtain ⟨ns, hpos, hne, rfl⟩ := contiguous_blocks hc
  rw [countsOk_blocks hpos hne]
  have hmem : ∀ M, (⟨M + 1, 0⟩ : SV) ∈ blocks 0 ns ↔ M + 1 < ns.length := by
    intro M
    rw [mem_blocks]
    constructor
    · rintro ⟨M', hM', h1, _⟩
      simp only [Nat.zero_add] at h1; omega
    · intro h; exact ⟨M + 1, h, by simp, hpos _ (List.getElem_mem h)⟩
  have key : ∀ M, M + 1 < ns.length →
      ((List.range (M + 1)).map (fun j => (blocks 0 ns).idxOf ⟨j, 0⟩)).sum =
        ((List.range (M + 1)).map (fun j => (ns.take j).sum)).sum := by
    intro M hM
    congr 1
    apply List.map_congr_left
    intro j hj
    exact blocks_idxOf hpos hs (by have := List.mem_range.1 hj; omega)
  constructor
  · intro h M hM
    rw [hmem] at hM
    rw [key M hM, blocks_idxOf hpos hs hM]
    exact h M hM
  · intro h M hM
    have := h M ((hmem M).2 hM)
    rwa [key M hM, blocks_idxOf hpos hs hM] at this

/-- **C27** (partial).  A contiguous lineage of at most three majors is never
rejected because of the counts: everything else being acceptable, it is
acceptable. -/
theorem C27_never_rejected_partial (hc : Contiguous vs) (h3 : ∀ v ∈ vs, v.major ≤ 2) :
    countsOk vs = true := by
  obtain ⟨ns, hpos, hne, rfl⟩ := contiguous_blocks hc
  rw [countsOk_blocks hpos hne]
  intro M hM
  rcases blocks_at_most_three hpos hne h3 with ⟨a, rfl⟩ | ⟨a, b, rfl⟩ | ⟨a, b, c, rfl⟩
  · simp at hM
  · match M, hM with
    | 0, _ => simp
  · match M, hM with
    | 0, _ => simp
    | 1, _ => simp [List.range_succ]

/-- **C27** (refutation).  A contiguous lineage in which every major has the same
number of schemas is rejected with `ErrInvalidLineage`, whatever its schemas and
lenses are, as soon as it has five majors. -/
theorem C27_uniform_rejected {V : Type} {C : Cue V} {force : Bool} {r : RawLineage V}
    {opts : List (BindOption V)} (hc : Contiguous vs)
    (hr : r.schemas.map (·.version) = vs.map some) (h4 : (⟨4, 0⟩ : SV) ∈ vs) {n : Nat}
    (hn : ∀ M, (⟨M, 0⟩ : SV) ∈ vs → countMajor vs M = n)
    (hex : r.exists_ = true) (hname : r.nameField = .concrete)
    (hsch : r.schemasField = .concrete) :
    bindLineage C force r opts = .err ⟨[.invalidLineage]⟩ := by
  have hbad : countsOk vs = false := by
    rw [← Bool.not_eq_true]
    obtain ⟨ns, hpos, hne, rfl⟩ := contiguous_blocks hc
    rw [countsOk_blocks hpos hne]
    intro hall
    have hlen : 4 < ns.length := by
      obtain ⟨M, hM, h1, _⟩ := mem_blocks.1 h4
      simp only [Nat.zero_add] at h1; omega
    have hall' : ∀ M (hM : M < ns.length), ns[M] = n := by
      intro M hM
      rw [← hn M (mem_blocks.2 ⟨M, hM, by simp, hpos _ (List.getElem_mem hM)⟩),
        ← countMajor_blocks ns 0 M hM, Nat.zero_add]
    clear hn hr h4 hc hne
    match ns, hlen, hpos, hall, hall' with
    | a :: b :: c :: d :: e :: ns, _, hpos, hall, hall' =>
      have h0 : a = n := hall' 0 (by simp)
      have h1 : b = n := hall' 1 (by simp)
      have h2 : c = n := hall' 2 (by simp)
      have h3 : d = n := hall' 3 (by simp)
      have := hall 3 (by simp)
      have ha := hpos a (by simp)
      simp [List.range_succ] at this
      omega
  have hlc : lineageConstraints r = false := by
    unfold lineageConstraints
    rw [(concreteVersions_eq _ _).2 hr]
    simp [hbad]
  simp [bindLineage, checkExists, hex, checkLineageShape, hname, hsch, checkField, hlc,
    Res.bind]

/-- Five majors of one schema each. -/
def fiveMajors : RawLineage SetCue.Val :=
  SetCue.lin [SetCue.sch 0 0 [0], SetCue.sch 1 0 [1], SetCue.sch 2 0 [2], SetCue.sch 3 0 [3],
    SetCue.sch 4 0 [4]]

theorem five_contiguous : Contiguous [⟨0, 0⟩, ⟨1, 0⟩, ⟨2, 0⟩, ⟨3, 0⟩, ⟨4, 0⟩] := by
  refine ⟨rfl, ?_⟩
  intro i hi
  match i, hi with
  | 0, _ => exact Or.inr rfl
  | 1, _ => exact Or.inr rfl
  | 2, _ => exact Or.inr rfl
  | 3, _ => exact Or.inr rfl

example : ∃ majors, (∀ M, M < majors ↔ ∃ v ∈ [(⟨0, 0⟩ : SV), ⟨0, 1⟩, ⟨1, 0⟩], v.major = M) ∧
    counts [⟨0, 0⟩, ⟨0, 1⟩, ⟨1, 0⟩] =
      (List.range majors).map (fun M => (countMajor [⟨0, 0⟩, ⟨0, 1⟩, ⟨1, 0⟩] M : Int)) :=
  C27_counts_partial three_contiguous (by decide) (by decide)

example : countsOk [⟨0, 0⟩, ⟨0, 1⟩, ⟨1, 0⟩] = true :=
  C27_never_rejected_partial three_contiguous (by decide)

/-- Five major versions of one schema each break the condition at M = 3. -/
example : countsOk [⟨0, 0⟩, ⟨1, 0⟩, ⟨2, 0⟩, ⟨3, 0⟩, ⟨4, 0⟩] ≠ true := fun h => by
  have := (C27_counts_exact five_contiguous).1 h 3 (by decide)
  revert this
  decide

/-- **C27** (refutation, witness).  0.0, 1.0, 2.0, 3.0, 4.0 cannot be bound. -/
theorem C27_five_majors_rejected :
    SetCue.bind fiveMajors = .err ⟨[.invalidLineage]⟩ := by rfl

/-- It satisfies the hypotheses of `C27_uniform_rejected`. -/
example : SetCue.bind fiveMajors = .err ⟨[.invalidLineage]⟩ := by
  refine C27_uniform_rejected five_contiguous rfl (by decide) (n := 1) ?_ rfl rfl rfl
  intro M hM
  simp at hM
  rcases hM with rfl | rfl | rfl | rfl | rfl <;> decide

end Thema.Props

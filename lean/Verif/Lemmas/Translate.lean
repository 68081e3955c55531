import Verif.Spec.Translate
import Verif.Lemmas.Validate
import Verif.Lemmas.FlatIdx2

/-! Lens lists of exact lineages, and the two comprehensions of `#Translate` as
walks. -/

namespace Thema

open Spec

variable {V : Type} {C : Cue V} {L : Lineage V}

/-! ### sorted lists -/

/-- Two lists that are pairwise in a strict order and have the same members are
equal. -/
theorem eq_of_pairwise_of_mem {α : Type} {R : α → α → Prop} (irr : ∀ a, ¬ R a a)
    (asy : ∀ a b, R a b → ¬ R b a) : ∀ {xs ys : List α}, xs.Pairwise R → ys.Pairwise R →
    (∀ a, a ∈ xs ↔ a ∈ ys) → xs = ys := by
  intro xs
  induction xs with
  | nil =>
    intro ys _ _ h
    cases ys with
    | nil => rfl
    | cons y ys => exact absurd ((h y).2 (by simp)) (by simp)
  | cons x xs ih =>
    intro ys h1 h2 h
    cases ys with
    | nil => exact absurd ((h x).1 (by simp)) (by simp)
    | cons y ys =>
      rw [List.pairwise_cons] at h1 h2
      have hxy : x = y := by
        rcases List.mem_cons.1 ((h x).1 (by simp)) with e | hx
        · exact e
        · rcases List.mem_cons.1 ((h y).2 (by simp)) with e | hy
          · exact e.symm
          · exact absurd (h2.1 x hx) (asy _ _ (h1.1 y hy))
      subst hxy
      congr 1
      refine ih h1.2 h2.2 ?_
      intro a
      constructor
      · intro ha
        rcases List.mem_cons.1 ((h a).1 (by simp [ha])) with e | e
        · subst e; exact absurd (h1.1 a ha) (irr a)
        · exact e
      · intro ha
        rcases List.mem_cons.1 ((h a).2 (by simp [ha])) with e | e
        · subst e; exact absurd (h2.1 a ha) (irr a)
        · exact e

/-- `(to, from)` strictly before. -/
def PairLt (a b : SV × SV) : Prop := a.1.less b.1 = true ∨ (a.1 = b.1 ∧ a.2.less b.2 = true)

theorem pairLt_irrefl (a : SV × SV) : ¬ PairLt a a := by
  rintro (h | ⟨_, h⟩) <;> rw [less_irrefl] at h <;> cases h

theorem pairLt_asymm (a b : SV × SV) (h : PairLt a b) : ¬ PairLt b a := by
  rcases h with h | ⟨h1, h2⟩
  · rintro (h' | ⟨h1', _⟩)
    · rw [less_asymm h] at h'; cases h'
    · rw [h1', less_irrefl] at h; cases h
  · rintro (h' | ⟨_, h2'⟩)
    · rw [h1, less_irrefl] at h'; cases h'
    · rw [less_asymm h2] at h2'; cases h2'

theorem lensSorted_strict {ps : List (SV × SV)} (h : LensSorted ps) (hn : ps.Nodup) :
    ps.Pairwise PairLt := by
  rw [List.pairwise_iff_getElem]
  intro i j hi hj hij
  rcases h i j hij hj with h1 | ⟨h1, h2⟩
  · exact .inl (less_iff_before.2 h1)
  · right
    refine ⟨h1, ?_⟩
    rw [notAfter_iff] at h2
    rcases less_total ps[i].2 ps[j].2 with h | h | h
    · exact h
    · exfalso
      have : ps[i] = ps[j] := Prod.ext h1 h
      have := (List.getElem_inj hn).1 this
      omega
    · rw [h2] at h; cases h

/-! ### the lens lists -/

/-- The `(to, from)` pair of a CUE lens. -/
def pairTF (l : CueLens V) : SV × SV := (l.to, l.frm)

theorem mem_pairs {l : CueLens V} {ls : List (CueLens V)} :
    pairTF l ∈ ls.map pairTF ↔ (⟨l.frm, l.to⟩ : LensID) ∈ ls.map (fun l => (⟨l.frm, l.to⟩ : LensID)) := by
  simp only [List.mem_map, pairTF, Prod.mk.injEq, LensID.mk.injEq]
  constructor
  · rintro ⟨a, h1, h2, h3⟩; exact ⟨a, h1, h3, h2⟩
  · rintro ⟨a, h1, h2, h3⟩; exact ⟨a, h1, h3, h2⟩

theorem mem_pairs' {t f : SV} {ls : List (CueLens V)} :
    (t, f) ∈ ls.map pairTF ↔ (⟨f, t⟩ : LensID) ∈ ls.map (fun l => (⟨l.frm, l.to⟩ : LensID)) := by
  simp only [List.mem_map, pairTF, Prod.mk.injEq, LensID.mk.injEq]
  constructor
  · rintro ⟨a, h1, h2, h3⟩; exact ⟨a, h1, h3, h2⟩
  · rintro ⟨a, h1, h2, h3⟩; exact ⟨a, h1, h3, h2⟩

theorem exactLenses_nodup (h : ExactLenses L) : (L.lenses.map pairTF).Nodup := by
  have := h.1
  have e : L.lenses.map pairTF =
      (L.lenses.map (fun l => (⟨l.frm, l.to⟩ : LensID))).map (fun i => (i.to, i.frm)) := by
    rw [List.map_map]; rfl
  rw [e]
  refine List.Pairwise.map _ ?_ this
  intro a b hab he
  apply hab
  cases a; cases b; simp only [Prod.mk.injEq] at he; simp [he]

/-- The lens for a pair is unique. -/
theorem exactLenses_unique (h : ExactLenses L) {l l' : CueLens V} (hl : l ∈ L.lenses)
    (hl' : l' ∈ L.lenses) (h1 : l.frm = l'.frm) (h2 : l.to = l'.to) : l = l' := by
  obtain ⟨i, hi, rfl⟩ := List.getElem_of_mem hl
  obtain ⟨j, hj, rfl⟩ := List.getElem_of_mem hl'
  have : (L.lenses.map pairTF)[i]'(by simpa using hi) = (L.lenses.map pairTF)[j]'(by simpa using hj) := by
    simp [pairTF, h1, h2]
  have := (List.getElem_inj (exactLenses_nodup h)).1 this
  subst this; rfl

theorem backward_filter (ls : List (CueLens V)) : (backwardLenses ls).map pairTF =
    (ls.map pairTF).filter (fun p => decide (p.1.major ≤ p.2.major)) := by
  unfold backwardLenses
  rw [List.filter_map]; rfl

theorem forward_filter (ls : List (CueLens V)) : (forwardLenses ls).map pairTF =
    (ls.map pairTF).filter (fun p => decide (p.1.major > p.2.major)) := by
  unfold forwardLenses
  rw [List.filter_map]; rfl

theorem ver_mono (hs : StrictV L.allv) {i : Nat} (hi : i + 1 < L.allsch.length) :
    (L.ver i).less (L.ver (i + 1)) = true := by
  rw [ver_lt (by omega : i < L.allsch.length), ver_lt hi]
  exact hs.get (Nat.lt_succ_self i) (by simpa using hi)

theorem major_mono (hs : StrictV L.allv) {i : Nat} (hi : i + 1 < L.allsch.length) :
    (L.ver i).major ≤ (L.ver (i + 1)).major := by
  have := less_iff.1 (ver_mono hs hi); omega

theorem ver_inj (hs : StrictV L.allv) {i j : Nat} (hi : i < L.allsch.length)
    (hj : j < L.allsch.length) (h : L.ver i = L.ver j) : i = j := by
  rw [ver_lt hi, ver_lt hj] at h
  exact hs.inj (by simpa using hi) (by simpa using hj) h

theorem ver_less_iff (hs : StrictV L.allv) {i j : Nat} (hi : i < L.allsch.length)
    (hj : j < L.allsch.length) : (L.ver i).less (L.ver j) = true ↔ i < j := by
  constructor
  · intro h
    apply Nat.lt_of_not_le
    intro hji
    rcases Nat.lt_or_eq_of_le hji with h' | h'
    · have : (L.ver j).less (L.ver i) = true := by
        rw [ver_lt hi, ver_lt hj]; exact hs.get h' (by simpa using hi)
      rw [less_asymm this] at h; cases h
    · subst h'; rw [less_irrefl] at h; cases h
  · intro h
    rw [ver_lt hi, ver_lt hj]; exact hs.get h (by simpa using hj)

theorem required_ver {id : LensID} : Required L.allv id ↔
    ∃ i, i + 1 < L.allsch.length ∧ (id = ⟨L.ver (i + 1), L.ver i⟩ ∨
      ((L.ver i).major ≠ (L.ver (i + 1)).major ∧ id = ⟨L.ver i, L.ver (i + 1)⟩)) := by
  unfold Required
  constructor
  · rintro ⟨i, hi, h⟩
    have hi' : i + 1 < L.allsch.length := by simpa using hi
    refine ⟨i, hi', ?_⟩
    rw [ver_lt hi', ver_lt (by omega : i < L.allsch.length)]; exact h
  · rintro ⟨i, hi, h⟩
    refine ⟨i, by simpa using hi, ?_⟩
    rw [ver_lt hi, ver_lt (by omega : i < L.allsch.length)] at h; exact h

/-- The backward lenses, in order, lead to 0.0, to the next version, and so on. -/
theorem backward_pairs (hs : StrictV L.allv) (he : ExactLenses L)
    (hso : LensSorted (L.lenses.map pairTF)) :
    (backwardLenses L.lenses).map pairTF =
      (List.range (L.allsch.length - 1)).map (fun k => (L.ver k, L.ver (k + 1))) := by
  refine eq_of_pairwise_of_mem pairLt_irrefl pairLt_asymm ?_ ?_ ?_
  · rw [backward_filter]
    exact List.Pairwise.filter _ (lensSorted_strict hso (exactLenses_nodup he))
  · rw [List.pairwise_map]
    refine List.Pairwise.imp_of_mem ?_ (List.pairwise_lt_range)
    intro a b ha hb hab
    rw [List.mem_range] at ha hb
    exact .inl ((ver_less_iff hs (by omega) (by omega)).2 hab)
  · rintro ⟨t, f⟩
    rw [backward_filter, List.mem_filter, mem_pairs', he.2, required_ver]
    simp only [LensID.mk.injEq, decide_eq_true_eq, List.mem_map, List.mem_range, Prod.mk.injEq]
    constructor
    · rintro ⟨⟨i, hi, ⟨rfl, rfl⟩ | ⟨hne, rfl, rfl⟩⟩, hle⟩
      · exact ⟨i, by omega, rfl, rfl⟩
      · have := major_mono hs hi
        omega
    · rintro ⟨k, hk, rfl, rfl⟩
      exact ⟨⟨k, by omega, .inl ⟨rfl, rfl⟩⟩, major_mono hs (by omega)⟩

/-- The major changes after position `k`. -/
def bump (L : Lineage V) (k : Nat) : Bool := decide ((L.ver k).major ≠ (L.ver (k + 1)).major)

/-- The forward lenses, in order, cross the first change of major, the second, and
so on. -/
theorem forward_pairs (hs : StrictV L.allv) (he : ExactLenses L)
    (hso : LensSorted (L.lenses.map pairTF)) :
    (forwardLenses L.lenses).map pairTF =
      ((List.range (L.allsch.length - 1)).filter (bump L)).map (fun k => (L.ver (k + 1), L.ver k)) := by
  refine eq_of_pairwise_of_mem pairLt_irrefl pairLt_asymm ?_ ?_ ?_
  · rw [forward_filter]
    exact List.Pairwise.filter _ (lensSorted_strict hso (exactLenses_nodup he))
  · rw [List.pairwise_map]
    refine List.Pairwise.imp_of_mem ?_ (List.Pairwise.filter _ List.pairwise_lt_range)
    intro a b ha hb hab
    rw [List.mem_filter, List.mem_range] at ha hb
    exact .inl ((ver_less_iff hs (by omega) (by omega)).2 (by omega))
  · rintro ⟨t, f⟩
    rw [forward_filter, List.mem_filter, mem_pairs', he.2, required_ver]
    simp only [LensID.mk.injEq, decide_eq_true_eq, List.mem_map, List.mem_filter, List.mem_range,
      Prod.mk.injEq, bump]
    constructor
    · rintro ⟨⟨i, hi, ⟨rfl, rfl⟩ | ⟨hne, rfl, rfl⟩⟩, hlt⟩
      · have := major_mono hs hi
        omega
      · exact ⟨i, ⟨by omega, hne⟩, rfl, rfl⟩
    · rintro ⟨k, ⟨hk, hne⟩, rfl, rfl⟩
      refine ⟨⟨k, by omega, .inr ⟨hne, rfl, rfl⟩⟩, ?_⟩
      have := major_mono hs (by omega : k + 1 < L.allsch.length)
      omega

theorem range_split {n k : Nat} (hk : k < n) :
    List.range n = List.range k ++ k :: List.range' (k + 1) (n - k - 1) := by
  rw [List.range_eq_range', List.range_eq_range', ← List.range'_succ]
  have : n - k - 1 + 1 = n - k := by omega
  rw [this]
  have := List.range'_append (s := 0) (m := k) (n := n - k) (step := 1)
  simp only [Nat.zero_add, Nat.one_mul] at this
  rw [this]
  congr 1; omega

/-- In a filtered range, `k` sits behind the earlier elements that pass. -/
theorem filter_range_getElem {f : Nat → Bool} {n k : Nat} (hk : k < n) (hf : f k = true) :
    ((List.range n).filter f)[(List.range k).countP f]? = some k := by
  rw [range_split hk, List.filter_append, List.filter_cons, if_pos hf,
    List.getElem?_append_right (by rw [List.countP_eq_length_filter])]
  simp [List.countP_eq_length_filter]

theorem contiguous_major (hc : Contiguous L.allv) : ∀ {k : Nat}, k < L.allsch.length →
    (List.range k).countP (bump L) = (L.ver k).major := by
  intro k
  induction k with
  | zero =>
    intro hk
    have h0 := hc.1
    rw [List.head?_eq_getElem?, List.getElem?_eq_getElem (by simpa using hk)] at h0
    rw [ver_lt hk, Option.some.inj h0]
    rfl
  | succ k ih =>
    intro hk
    rw [List.range_succ, List.countP_append, ih (by omega)]
    have hn := hc.2 k (by simpa using hk)
    rw [← ver_lt hk, ← ver_lt (by omega : k < L.allsch.length)] at hn
    simp only [List.countP_cons, List.countP_nil, bump, Nat.zero_add]
    rcases hn with e | e <;> simp [e]

/-- The backward lens CUE picks for position `k`. -/
theorem backward_getElem (hs : StrictV L.allv) (he : ExactLenses L)
    (hso : LensSorted (L.lenses.map pairTF)) {k : Nat} (hk : k + 1 < L.allsch.length) :
    ∃ l ∈ L.lenses, (backwardLenses L.lenses)[k]? = some l ∧ l.to = L.ver k ∧
      l.frm = L.ver (k + 1) := by
  have h := congrArg (fun (x : List (SV × SV)) => x[k]?) (backward_pairs hs he hso)
  simp only [List.getElem?_map] at h
  rw [List.getElem?_range (by omega)] at h
  simp only [Option.map_some, Option.map_eq_some_iff] at h
  obtain ⟨l, h1, h2⟩ := h
  refine ⟨l, ?_, h1, ?_⟩
  · exact (List.mem_filter.1 (List.mem_of_getElem? h1)).1
  · simp only [pairTF, Prod.mk.injEq] at h2; exact h2

/-- The forward lens CUE picks for the major change after position `k`. -/
theorem forward_getElem (hc : Contiguous L.allv) (he : ExactLenses L)
    (hso : LensSorted (L.lenses.map pairTF)) {k : Nat} (hk : k + 1 < L.allsch.length)
    (hb : (L.ver k).major ≠ (L.ver (k + 1)).major) :
    ∃ l ∈ L.lenses, (forwardLenses L.lenses)[(L.ver k).major]? = some l ∧
      l.to = L.ver (k + 1) ∧ l.frm = L.ver k := by
  have hs := Contiguous.strictV hc
  have h := congrArg (fun (x : List (SV × SV)) => x[(List.range k).countP (bump L)]?)
    (forward_pairs hs he hso)
  simp only [List.getElem?_map] at h
  rw [filter_range_getElem (by omega) (by simpa [bump] using hb),
    contiguous_major hc (by omega)] at h
  simp only [Option.map_some, Option.map_eq_some_iff] at h
  obtain ⟨l, h1, h2⟩ := h
  refine ⟨l, ?_, h1, ?_⟩
  · exact (List.mem_filter.1 (List.mem_of_getElem? h1)).1
  · simp only [pairTF, Prod.mk.injEq] at h2; exact h2

/-! ### single steps -/

theorem ver_sch {k : Nat} (hk : k < L.allsch.length) : L.allsch[k].v = L.ver k := by
  rw [ver_lt hk]; simp [Lineage.allv]

theorem applyLens_ok {ls : List (CueLens V)} {idx : Int} {priorTo : SV} {x : V}
    {sch : SchemaDef V} {s : Step V} :
    applyLens C ls idx priorTo x sch = .ok s ↔
      ∃ l, cueIdx ls idx = some l ∧ l.frm = priorTo ∧ l.to = sch.v ∧ LensWorks C l x sch.body ∧
        s = ⟨l.frm, l.to, C.embed (l.run x) sch.body, some l, (l.lacunas x).filter (·.condition)⟩ := by
  unfold applyLens
  rw [Eval.bind_eq_ok]
  constructor
  · rintro ⟨l, hl, h⟩
    refine ⟨l, Eval.ofOption_eq_ok.1 hl, ?_⟩
    by_cases h1 : l.frm = priorTo
    · by_cases h2 : l.to = sch.v
      · simp only [h1, h2, ne_eq, not_true, if_false] at h
        split at h
        · cases h
        · rename_i h3
          split at h
          · cases h
          · rename_i h4
            split at h
            · cases h
            · rename_i h5
              refine ⟨h1, h2, ⟨by simpa using h3, by simpa using h4, ?_⟩, ?_⟩
              · intro hf lac hlac
                simp only [hf, Bool.true_and, List.any_eq_true, not_exists, not_and,
                  Bool.not_eq_true] at h5
                exact h5 lac hlac
              · injection h with h; rw [← h, h1, h2]
      · simp [h1, h2] at h
    · simp [h1] at h
  · rintro ⟨l, hl, h1, h2, ⟨h3, h4, h5⟩, rfl⟩
    refine ⟨l, Eval.ofOption_eq_ok.2 hl, ?_⟩
    simp only [h1, h2, ne_eq, not_true, if_false, h3, h4, Bool.false_eq_true]
    rw [if_neg]
    simp only [Bool.and_eq_true, List.any_eq_true, not_and, not_exists, Bool.not_eq_true]
    exact h5

theorem cueIdx_nat {α : Type} (xs : List α) (k : Nat) : cueIdx xs (k : Int) = xs[k]? := by
  simp [cueIdx]

/-- The minor branch of a forward step. -/
theorem fwdStep_iff (hc : Contiguous L.allv) (he : ExactLenses L)
    (hso : LensSorted (L.lenses.map pairTF)) {p : Nat} (hp : p + 1 < L.allsch.length) {x y : V} :
    (∃ s, fwdStep C L (L.ver p) x L.allsch[p + 1] = .ok s ∧ s.result = y) ↔ StepUp C L p x y := by
  have hs := Contiguous.strictV hc
  have hmono := major_mono hs hp
  unfold fwdStep
  rw [ver_sch hp]
  by_cases hm : (L.ver p).major = (L.ver (p + 1)).major
  · rw [if_pos hm]
    constructor
    · rintro ⟨s, h, rfl⟩
      split at h
      · cases h
      · rename_i h1
        injection h with h; rw [← h]
        exact .minor hp hm (by simpa using h1)
    · intro h
      cases h with
      | minor _ _ hok => simp [hok]
      | major _ hm' => exact absurd hm hm'
  · rw [if_neg hm, if_pos (by omega)]
    obtain ⟨l, hl, hget, hto, hfrm⟩ := forward_getElem hc he hso hp hm
    have hidx : ((L.ver (p + 1)).major : Int) - 1 = ((L.ver p).major : Int) := by
      have hn := hc.2 p (by simpa using hp)
      rw [← ver_lt hp, ← ver_lt (by omega : p < L.allsch.length)] at hn
      rcases hn with e | e
      · rw [e] at hm; simp at hm
      · rw [e]; simp
    rw [hidx]
    constructor
    · rintro ⟨s, h, rfl⟩
      obtain ⟨l', h1, h2, h3, h4, rfl⟩ := applyLens_ok.1 h
      rw [cueIdx_nat, hget] at h1
      cases h1
      exact .major hp hm l hl hfrm hto h4
    · intro h
      cases h with
      | minor _ hm' => exact absurd hm' hm
      | major _ _ l' hl' hf' ht' hw' =>
        have : l' = l := exactLenses_unique he hl' hl (by rw [hf', hfrm]) (by rw [ht', hto])
        subst this
        exact ⟨_, applyLens_ok.2 ⟨l', by rw [cueIdx_nat, hget], hf', by rw [ht', ver_sch hp], hw', rfl⟩,
          rfl⟩

theorem fwdStep_to {sch : SchemaDef V} {v : SV} {x : V} {s : Step V}
    (h : fwdStep C L v x sch = .ok s) : s.to = sch.v ∧ s.frm = v := by
  unfold fwdStep at h
  split at h
  · split at h
    · cases h
    · injection h with h; rw [← h]; exact ⟨rfl, rfl⟩
  · split at h
    · obtain ⟨l, _, h1, h2, _, rfl⟩ := applyLens_ok.1 h
      exact ⟨h2, h1⟩
    · cases h

theorem translateResult_cons (x : V) (s : Step V) (ss : List (Step V)) :
    translateResult x (s :: ss) = translateResult s.result ss := by
  cases ss with
  | nil => rfl
  | cons t ss =>
    unfold translateResult
    rw [List.getLast?_cons_cons, List.getLast?_cons]

theorem take_drop_cons {α : Type} (xs : List α) (p d : Nat) (hp : p < xs.length) :
    (xs.drop p).take (d + 1) = xs[p] :: (xs.drop (p + 1)).take d := by
  rw [List.drop_eq_getElem_cons hp, List.take_succ_cons]

/-- The forward comprehension is the walk up. -/
theorem fwdSteps_iff (hc : Contiguous L.allv) (he : ExactLenses L)
    (hso : LensSorted (L.lenses.map pairTF)) : ∀ (d : Nat) {p : Nat} {x y : V},
    p + d < L.allsch.length →
    ((∃ ss, fwdSteps C L ((L.allsch.drop (p + 1)).take d) (L.ver p) x = .ok ss ∧
      translateResult x ss = y) ↔ Ascend C L p x (p + d) y) := by
  intro d
  induction d with
  | zero =>
    intro p x y _
    simp only [List.take_zero, fwdSteps, Nat.add_zero]
    constructor
    · rintro ⟨ss, h, rfl⟩
      injection h with h; subst h
      exact .refl p x
    · intro h
      have key : ∀ {p q : Nat} {x y : V}, Ascend C L p x q y → p ≤ q := by
        intro p q x y h
        induction h with
        | refl => exact Nat.le_refl _
        | step _ _ ih => omega
      cases h with
      | refl => exact ⟨[], rfl, rfl⟩
      | step _ t => have := key t; omega
  | succ d ih =>
    intro p x y hlt
    rw [take_drop_cons _ _ _ (by omega : p + 1 < L.allsch.length)]
    simp only [fwdSteps]
    have e : p + (d + 1) = (p + 1) + d := by omega
    constructor
    · rintro ⟨ss, h, rfl⟩
      obtain ⟨s, h1, h2⟩ := Eval.bind_eq_ok.1 h
      obtain ⟨ss', h3, h4⟩ := Eval.bind_eq_ok.1 h2
      injection h4 with h4; subst h4
      have hto : s.to = L.ver (p + 1) := by rw [(fwdStep_to h1).1, ver_sch]
      rw [hto] at h3
      rw [translateResult_cons, e]
      exact .step ((fwdStep_iff hc he hso (by omega)).1 ⟨s, h1, rfl⟩)
        ((ih (by omega)).1 ⟨ss', h3, rfl⟩)
    · intro h
      rw [e] at h
      generalize hq : p + 1 + d = q at h
      cases h with
      | refl => omega
      | step hst t =>
        subst hq
        obtain ⟨s, h1, rfl⟩ := (fwdStep_iff hc he hso (by omega)).2 hst
        obtain ⟨ss', h3, h4⟩ := (ih (by omega)).2 t
        refine ⟨s :: ss', ?_, by rw [translateResult_cons, h4]⟩
        have hto : s.to = L.ver (p + 1) := by rw [(fwdStep_to h1).1, ver_sch]
        rw [h1, Eval.bind_ok, hto, h3, Eval.bind_ok]

/-- One backward step, when the index of the target is right. -/
theorem backStep_iff (hs : StrictV L.allv) (he : ExactLenses L)
    (hso : LensSorted (L.lenses.map pairTF)) {p : Nat} (hp : p + 1 < L.allsch.length) {x y : V} :
    (∃ s, applyLens C (backwardLenses L.lenses) (p : Int) (L.ver (p + 1)) x
        (L.allsch[p]'(by omega)) = .ok s ∧ s.result = y) ↔ StepDown C L p x y := by
  obtain ⟨l, hl, hget, hto, hfrm⟩ := backward_getElem hs he hso hp
  constructor
  · rintro ⟨s, h, rfl⟩
    obtain ⟨l', h1, h2, h3, h4, rfl⟩ := applyLens_ok.1 h
    rw [cueIdx_nat, hget] at h1
    cases h1
    exact .lens hp l hl hfrm hto h4
  · intro h
    cases h with
    | lens _ l' hl' hf' ht' hw' =>
      have : l' = l := exactLenses_unique he hl' hl (by rw [hf', hfrm]) (by rw [ht', hto])
      subst this
      exact ⟨_, applyLens_ok.2 ⟨l', by rw [cueIdx_nat, hget], hf', by rw [ht', ver_sch], hw', rfl⟩,
        rfl⟩

theorem range_map_succ (a : Int) (d : Nat) :
    (List.range (d + 1)).map (fun (k : Nat) => a - (k : Int)) =
      a :: (List.range d).map (fun (k : Nat) => (a - 1) - (k : Int)) := by
  rw [List.range_succ_eq_map, List.map_cons, List.map_map]
  congr 1
  · simp
  · apply List.map_congr_left
    intro k _
    simp only [Function.comp_apply, Nat.succ_eq_add_one]
    omega

/-- The backward comprehension is the walk down, as long as the indexes of all
targets are right. -/
theorem backSteps_iff (hs : StrictV L.allv) (he : ExactLenses L)
    (hso : LensSorted (L.lenses.map pairTF)) : ∀ (d : Nat) {q : Nat} {x y : V},
    q + d < L.allsch.length →
    (∀ k, q ≤ k → k < q + d → flatidx L.allv (L.ver k) = some (k : Int)) →
    ((∃ ss, backSteps C L ((List.range d).map (fun (k : Nat) => ((q + d : Nat) : Int) - 1 - (k : Int)))
        (L.ver (q + d)) x = .ok ss ∧ translateResult x ss = y) ↔ Descend C L (q + d) x q y) := by
  intro d
  induction d with
  | zero =>
    intro q x y _ _
    simp only [List.range_zero, List.map_nil, backSteps, Nat.add_zero]
    have key : ∀ {p q : Nat} {x y : V}, Descend C L p x q y → q ≤ p := by
      intro p q x y h
      induction h with
      | refl => exact Nat.le_refl _
      | step _ _ ih => omega
    constructor
    · rintro ⟨ss, h, rfl⟩
      injection h with h; subst h
      exact .refl q x
    · intro h
      generalize hp : q = p at h
      cases h with
      | refl => exact ⟨[], rfl, rfl⟩
      | step _ t => have := key t; omega
  | succ d ih =>
    intro q x y hlt hidx
    have e1 : ((q + (d + 1) : Nat) : Int) - 1 = ((q + d : Nat) : Int) := by omega
    rw [e1, range_map_succ]
    simp only [backSteps]
    have hg : cueIdx L.allsch ((q + d : Nat) : Int) = some (L.allsch[q + d]'(by omega)) := by
      rw [cueIdx_nat, List.getElem?_eq_getElem]
    have hfi := hidx (q + d) (by omega) (by omega)
    rw [hg, Eval.ofOption_some, Eval.bind_ok, ver_sch (by omega), hfi, Eval.ofOption_some,
      Eval.bind_ok]
    have ih' := fun {x y : V} => ih (q := q) (x := x) (y := y) (by omega)
      (fun k h1 h2 => hidx k h1 (by omega))
    have hto : ∀ {s : Step V}, applyLens C (backwardLenses L.lenses) ((q + d : Nat) : Int)
        (L.ver (q + (d + 1))) x (L.allsch[q + d]'(by omega)) = .ok s → s.to = L.ver (q + d) := by
      intro s h
      obtain ⟨l', _, _, h3, _, rfl⟩ := applyLens_ok.1 h
      rw [h3, ver_sch]
    constructor
    · rintro ⟨ss, h, rfl⟩
      obtain ⟨s, h1, h2⟩ := Eval.bind_eq_ok.1 h
      obtain ⟨ss', h3, h4⟩ := Eval.bind_eq_ok.1 h2
      injection h4 with h4; subst h4
      rw [hto h1] at h3
      rw [translateResult_cons]
      exact .step ((backStep_iff hs he hso (by omega)).1 ⟨s, h1, rfl⟩) (ih'.1 ⟨ss', h3, rfl⟩)
    · intro h
      generalize hp : q + (d + 1) = p at h
      cases h with
      | refl => omega
      | step hst t =>
        rename_i p' _
        obtain rfl : p' = q + d := by omega
        obtain ⟨s, h1, rfl⟩ := (backStep_iff hs he hso (by omega)).2 hst
        obtain ⟨ss', h3, h4⟩ := ih'.2 t
        refine ⟨s :: ss', ?_, by rw [translateResult_cons, h4]⟩
        rw [← hp]
        have h1' : applyLens C (backwardLenses L.lenses) ((q + d : Nat) : Int)
          (L.ver (q + (d + 1))) x (L.allsch[q + d]'(by omega)) = .ok s := h1
        rw [h1', Eval.bind_ok, hto h1', h3, Eval.bind_ok]

end Thema

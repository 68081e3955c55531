import Verif.Spec.Exact
import Verif.Props.Mux

/-!
# Walking any lineage that binds (C152 - C154)

No assumption is made on the versions: `BindLineage` accepts lineages that repeat
versions, have gaps, or do not start at 0.0 (C09, C10).
-/

namespace Thema.Props

open Spec

variable {V T : Type} {C : Cue V} {force : Bool} {r : RawLineage V} {opts : List (BindOption V)}
  {L : Lineage V} {H : Heap V} {s : SchPtr} {dec : Decoder V}

theorem ver_sorted (hs : SortedV L.allv) {p q : Nat} (hpq : p ≤ q) (hq : q < L.allsch.length) :
    (L.ver q).less (L.ver p) = false := by
  rw [ver_lt hq, ver_lt (by omega)]
  exact hs.get hpq (by simpa using hq)

theorem firstWith_search (hs : SortedV L.allv) {p : Nat} (hp : p < L.allsch.length) :
    FirstWith L (L.ver p) (searchSynv L.allv (L.ver p)) := by
  have hmem : L.ver p ∈ L.allv := by rw [ver_lt hp]; exact List.getElem_mem _
  obtain ⟨h1, h2⟩ := searchSynv_found hs hmem
  have h1' : searchSynv L.allv (L.ver p) < L.allsch.length := by simpa using h1
  refine ⟨h1', by rw [ver_lt h1']; exact h2, fun k hk he => ?_⟩
  have := (searchSynv_spec hs (L.ver p)).2.1 k (by simp; omega) hk
  rw [← ver_lt (by omega), he, less_irrefl] at this
  cases this

theorem firstWith_unique {v : SV} {p q : Nat} (hp : FirstWith L v p) (hq : FirstWith L v q) :
    p = q := by
  rcases Nat.lt_trichotomy p q with h | h | h
  · exact absurd hp.2.1 (hq.2.2 p h)
  · exact h
  · exact absurd hq.2.1 (hp.2.2 q h)

theorem schema_ver_search (hs : SortedV L.allv) {p : Nat} (hp : p < L.allsch.length) :
    L.schema (L.ver p) = .ok (searchSynv L.allv (L.ver p)) := by
  unfold Lineage.schema
  rw [if_pos (firstWith_search hs hp).1]

theorem getLast_ver (hpos : 0 < L.allsch.length) :
    L.allv.getLast? = some (L.ver (L.allsch.length - 1)) := by
  rw [List.getLast?_eq_getElem?, allv_length, List.getElem?_eq_getElem (by simp; omega),
    ver_lt (by omega)]

/-- **C152**.  In every lineage that binds, `Successor` of a schema with the latest
version is nil; for any other schema it is the first schema with the version of the
one that follows the first schema of the receiver's version. -/
theorem C152_successor (h : bindLineage C force r opts = .ok L) {p : Nat}
    (hp : p < L.allsch.length) :
    (L.ver p = L.ver (L.allsch.length - 1) → L.successor p = .ok none) ∧
    (L.ver p ≠ L.ver (L.allsch.length - 1) →
      ∃ f q, FirstWith L (L.ver p) f ∧ FirstWith L (L.ver (f + 1)) q ∧
        L.successor p = .ok (some q)) := by
  have hs := bind_sorted h
  have hf := firstWith_search hs hp
  unfold Lineage.successor
  rw [getLast_ver (by omega)]
  simp only
  refine ⟨fun he => by rw [if_pos he.symm], fun hne => ?_⟩
  have hlt : searchSynv L.allv (L.ver p) + 1 < L.allsch.length := by
    apply Nat.lt_of_not_le
    intro hle
    have : searchSynv L.allv (L.ver p) = L.allsch.length - 1 := by have := hf.1; omega
    exact hne (by rw [← hf.2.1, this])
  refine ⟨_, _, hf, firstWith_search hs hlt, ?_⟩
  rw [if_neg (fun he => hne he.symm), goIdx_lt (by simpa using hlt)]
  simp only [Res.bind_ok]
  rw [← ver_lt hlt, schema_ver_search hs hlt]
  rfl

/-- **C152**.  In every lineage that binds, `Predecessor` is nil for schemas with
version 0.0, panics for schemas with the smallest version if that is not 0.0, and is
otherwise the first schema with the version before. -/
theorem C152_predecessor (h : bindLineage C force r opts = .ok L) {p : Nat}
    (hp : p < L.allsch.length) :
    (L.ver p = ⟨0, 0⟩ → L.predecessor p = .ok none) ∧
    (L.ver p = L.ver 0 → L.ver 0 ≠ ⟨0, 0⟩ → (L.predecessor p).Panics) ∧
    (L.ver p ≠ L.ver 0 →
      ∃ f q, FirstWith L (L.ver p) (f + 1) ∧ FirstWith L (L.ver f) q ∧
        L.predecessor p = .ok (some q)) := by
  have hs := bind_sorted h
  have hf := firstWith_search hs hp
  unfold Lineage.predecessor
  refine ⟨fun he => by rw [if_pos (by simpa [synv0] using he)], fun he h0 => ?_, fun hne => ?_⟩
  · have hz : searchSynv L.allv (L.ver p) = 0 := by
      refine firstWith_unique hf ⟨by omega, he.symm, fun k hk => absurd hk (Nat.not_lt_zero _)⟩
    rw [if_neg (by rw [he]; simpa [synv0] using h0), if_pos hz]
    simp [Res.Panics]
  · have hnz : searchSynv L.allv (L.ver p) ≠ 0 := fun hz => by
      rw [hz] at hf; exact hne hf.2.1.symm
    have hn0 : L.ver p ≠ synv0 := fun he => by
      have h1 := ver_sorted hs (Nat.zero_le p) hp
      rw [he] at h1 hne
      rcases less_total (L.ver 0) synv0 with h2 | h2 | h2
      · simp [SV.less, synv0] at h2
      · exact hne h2.symm
      · rw [h2] at h1; cases h1
    have hlt : searchSynv L.allv (L.ver p) - 1 < L.allsch.length := by have := hf.1; omega
    refine ⟨searchSynv L.allv (L.ver p) - 1, _, ?_, firstWith_search hs hlt, ?_⟩
    · rw [Nat.sub_add_cancel (Nat.pos_of_ne_zero hnz)]; exact hf
    · rw [if_neg hn0, if_neg hnz, goIdx_lt (by simpa using hlt)]
      simp only [Res.bind_ok]
      rw [← ver_lt hlt, schema_ver_search hs hlt]
      rfl

/-- **C152**.  `Successor` never panics; `Predecessor` panics for some schema exactly
if the lineage does not start at 0.0. -/
theorem C152_panics (h : bindLineage C force r opts = .ok L) :
    (∀ p < L.allsch.length, ∃ q, L.successor p = .ok q) ∧
    ((∃ p < L.allsch.length, (L.predecessor p).Panics) ↔ L.ver 0 ≠ ⟨0, 0⟩) := by
  refine ⟨fun p hp => ?_, ⟨fun ⟨p, hp, hpan⟩ h0 => ?_, fun h0 =>
    ⟨0, bind_pos h, (C152_predecessor h (bind_pos h)).2.1 rfl h0⟩⟩⟩
  · by_cases he : L.ver p = L.ver (L.allsch.length - 1)
    · exact ⟨_, (C152_successor h hp).1 he⟩
    · obtain ⟨_, q, _, _, hq⟩ := (C152_successor h hp).2 he
      exact ⟨_, hq⟩
  · by_cases he : L.ver p = L.ver 0
    · rw [(C152_predecessor h hp).1 (he.trans h0)] at hpan
      cases hpan
    · obtain ⟨_, _, _, _, hq⟩ := (C152_predecessor h hp).2.2 he
      rw [hq] at hpan
      cases hpan

/-- Adjacent schemas with the same version exist wherever a version is repeated. -/
theorem adjacent_of_not_nodup (hs : SortedV L.allv) (hd : ¬ L.allv.Nodup) :
    ∃ i, i + 1 < L.allsch.length ∧ L.ver i = L.ver (i + 1) := by
  obtain ⟨i, j, hj, hij, he⟩ : ∃ i j, j < L.allsch.length ∧ i < j ∧ L.ver i = L.ver j := by
    rw [List.nodup_iff_pairwise_ne, List.pairwise_iff_getElem] at hd
    simp only [not_forall, Classical.not_not] at hd
    obtain ⟨i, j, hi, hj, hij, he⟩ := hd
    refine ⟨i, j, by simpa using hj, hij, ?_⟩
    rw [ver_lt (by simpa using hi), ver_lt (by simpa using hj), he]
  refine ⟨i, by omega, eq_of_not_less ?_ (ver_sorted hs (Nat.le_succ i) (by omega))⟩
  have := ver_sorted hs (p := i + 1) (q := j) (by omega) hj
  rwa [← he] at this

/-- **C152**.  `Successor` walks the schemas one by one exactly if no version is
repeated, and so does `Predecessor` exactly if moreover the lineage starts at 0.0. -/
theorem C152_walks_iff (h : bindLineage C force r opts = .ok L) :
    ((∀ p < L.allsch.length,
        L.successor p = .ok (if p + 1 < L.allsch.length then some (p + 1) else none)) ↔
      L.allv.Nodup) ∧
    ((∀ p < L.allsch.length, L.predecessor p = .ok (if p = 0 then none else some (p - 1))) ↔
      L.allv.Nodup ∧ L.ver 0 = ⟨0, 0⟩) := by
  have hs := bind_sorted h
  have hpos := bind_pos h
  refine ⟨⟨fun hw => Classical.byContradiction fun hd => ?_,
    fun hd p hp => successor_eq (hs.strict hd) hp⟩,
    ⟨fun hw => ⟨Classical.byContradiction fun hd => ?_, Classical.byContradiction fun h0 => ?_⟩,
    fun ⟨hd, h0⟩ p hp => predecessor_eq (hs.strict hd) ?_ hp⟩⟩
  · obtain ⟨i, hi, he⟩ := adjacent_of_not_nodup hs hd
    have h1 := hw i (by omega)
    rw [if_pos hi] at h1
    by_cases hl : L.ver i = L.ver (L.allsch.length - 1)
    · rw [(C152_successor h (by omega)).1 hl] at h1
      simp at h1
    · obtain ⟨f, q, hf, hq, hs'⟩ := (C152_successor h (by omega)).2 hl
      rw [hs'] at h1
      simp only [Res.ok.injEq, Option.some.injEq] at h1
      subst h1
      -- `i + 1` would be the first schema with its version, but `i` has the same one
      exact hq.2.2 i (Nat.lt_succ_self i) (by rw [he, hq.2.1])
  · obtain ⟨i, hi, he⟩ := adjacent_of_not_nodup hs hd
    have h1 := hw (i + 1) hi
    rw [if_neg (by omega)] at h1
    by_cases hl : L.ver (i + 1) = L.ver 0
    · by_cases h0 : L.ver 0 = ⟨0, 0⟩
      · rw [(C152_predecessor h hi).1 (hl.trans h0)] at h1
        simp at h1
      · have := (C152_predecessor h hi).2.1 hl h0
        rw [h1] at this
        cases this
    · obtain ⟨f, q, hf, hq, hs'⟩ := (C152_predecessor h hi).2.2 hl
      rw [hs'] at h1
      simp only [Res.ok.injEq, Option.some.injEq, Nat.add_sub_cancel] at h1
      subst h1
      -- the first schema with the version of `i + 1` is at most `i`
      have h2 : f + 1 ≤ q := by
        apply Nat.le_of_not_lt
        intro hlt
        exact hf.2.2 q hlt he
      have h3 := hq.2.2 f (by omega)
      exact h3 rfl
  · have := (C152_predecessor h hpos).2.1 rfl h0
    rw [hw 0 hpos] at this
    cases this
  · rw [List.head?_eq_getElem?, List.getElem?_eq_getElem (by simpa using hpos), ← ver_lt hpos, h0]

/-- The lineage bound from `dupVersions`: 0.0, 0.1, 0.1, 0.2. -/
def dupBound : Lineage SetCue.Val :=
  { name := "toy".toList,
    allsch := [⟨⟨0, 0⟩, [1], [1], []⟩, ⟨⟨0, 1⟩, [1, 2], [1, 2], []⟩,
      ⟨⟨0, 1⟩, [1, 2, 3], [1, 2, 3], []⟩, ⟨⟨0, 2⟩, [1, 2, 3, 4], [1, 2, 3, 4], []⟩],
    lenses := [], lensmap := [] }

theorem dupBound_eq : SetCue.bind dupVersions = .ok dupBound := rfl

example : dupBound.ver 2 ≠ dupBound.ver 3 ∧
    ∃ f q, FirstWith dupBound (dupBound.ver 2) f ∧ FirstWith dupBound (dupBound.ver (f + 1)) q ∧
      dupBound.successor 2 = .ok (some q) :=
  ⟨by decide, (C152_successor dupBound_eq (p := 2) (by decide)).2 (by decide)⟩

example : dupBound.successor 2 = .ok (some 1) ∧ dupBound.predecessor 3 = .ok (some 1) := ⟨rfl, rfl⟩

example : (∃ f q, FirstWith dupBound (dupBound.ver 3) (f + 1) ∧
      FirstWith dupBound (dupBound.ver f) q ∧ dupBound.predecessor 3 = .ok (some q)) ∧
    dupBound.predecessor 0 = .ok none :=
  ⟨(C152_predecessor dupBound_eq (p := 3) (by decide)).2.2 (by decide),
    (C152_predecessor dupBound_eq (p := 0) (by decide)).1 rfl⟩

example : ¬ ∃ p < dupBound.allsch.length, (dupBound.predecessor p).Panics :=
  fun hp => (C152_panics dupBound_eq).2.1 hp rfl

example : ¬ ∀ p < dupBound.allsch.length,
    dupBound.successor p = .ok (if p + 1 < dupBound.allsch.length then some (p + 1) else none) :=
  fun hw => absurd ((C152_walks_iff dupBound_eq).1.1 hw) (by decide)

example : ∀ p < threeBound.allsch.length,
    threeBound.predecessor p = .ok (if p = 0 then none else some (p - 1)) :=
  (C152_walks_iff threeBound_eq).2.2 ⟨by decide, rfl⟩

/-! ### C153: `ValidateAny` -/

theorem distinct_le {p q : Nat} (h : DistinctUpTo L q) (hpq : p ≤ q) : DistinctUpTo L p :=
  ⟨by have := h.1; omega, fun j k hjk hk => h.2 j k hjk (by omega)⟩

theorem distinct_succ (hs : SortedV L.allv) {p : Nat} (h : DistinctUpTo L p)
    (hp : p + 1 < L.allsch.length) (hne : L.ver p ≠ L.ver (p + 1)) : DistinctUpTo L (p + 1) := by
  refine ⟨hp, fun j k hjk hk he => ?_⟩
  rcases Nat.lt_or_ge k (p + 1) with hlt | hge
  · exact h.2 j k hjk (by omega) he
  · have hk' : k = p + 1 := by omega
    subst hk'
    have h1 := ver_sorted hs (p := j) (q := p) (by omega) (by omega)
    have h2 := ver_sorted hs (p := p) (q := p + 1) (by omega) hp
    rw [he] at h1
    exact hne (eq_of_not_less h1 h2)

/-- A schema up to which versions are distinct, and after which one is repeated or
nothing follows. -/
theorem distinct_last (hs : SortedV L.allv) : ∀ (m p : Nat), L.allsch.length - p ≤ m →
    DistinctUpTo L p → ∃ q, p ≤ q ∧ DistinctUpTo L q ∧
      (q + 1 = L.allsch.length ∨ q + 1 < L.allsch.length ∧ L.ver q = L.ver (q + 1)) := by
  intro m
  induction m with
  | zero => intro p hm h; have := h.1; omega
  | succ m ih =>
    intro p hm h
    have hlt := h.1
    by_cases hp : p + 1 < L.allsch.length
    · by_cases he : L.ver p = L.ver (p + 1)
      · exact ⟨p, Nat.le_refl _, h, .inr ⟨hp, he⟩⟩
      · obtain ⟨q, h1, h2⟩ := ih (p + 1) (by omega) (distinct_succ hs h hp he)
        exact ⟨q, by omega, h2⟩
    · exact ⟨p, Nat.le_refl _, h, .inl (by omega)⟩

theorem distinct_zero (h : bindLineage C force r opts = .ok L) : DistinctUpTo L 0 :=
  ⟨bind_pos h, fun j k hjk hk => by omega⟩

/-- The last schema that a walk with `Successor` reaches, if it ends. -/
theorem walk_end (h : bindLineage C force r opts = .ok L) (hr : ¬ RepeatsEarly L) :
    ∃ m, DistinctUpTo L m ∧ L.ver m = L.ver (L.allsch.length - 1) := by
  obtain ⟨m, _, hm, hend | ⟨hlt, hdup⟩⟩ :=
    distinct_last (bind_sorted h) _ 0 (Nat.le_refl _) (distinct_zero h)
  · exact ⟨m, hm, by rw [← hend]; simp⟩
  · refine ⟨m, hm, Classical.byContradiction fun hne => hr ⟨m, hm, hlt, hdup, fun he => hne he.symm⟩⟩

theorem successor_distinct (h : bindLineage C force r opts = .ok L) {p : Nat}
    (hp : DistinctUpTo L (p + 1)) : L.successor p = .ok (some (p + 1)) := by
  have hs := bind_sorted h
  have hlt := hp.1
  have hf : FirstWith L (L.ver p) p := ⟨by omega, rfl, fun k hk => hp.2 k p hk (by omega)⟩
  have hf' : FirstWith L (L.ver (p + 1)) (p + 1) :=
    ⟨hlt, rfl, fun k hk => hp.2 k (p + 1) hk (Nat.le_refl _)⟩
  have hne : L.ver p ≠ L.ver (L.allsch.length - 1) := fun he => by
    have h1 := ver_sorted hs (p := p + 1) (q := L.allsch.length - 1) (by omega) (by omega)
    rw [← he] at h1
    exact hp.2 p (p + 1) (Nat.lt_succ_self p) (Nat.le_refl _)
      (eq_of_not_less h1 (ver_sorted hs (Nat.le_succ p) hlt))
  obtain ⟨f, q, h1, h2, h3⟩ := (C152_successor h (by omega)).2 hne
  have e1 := firstWith_unique h1 hf
  subst e1
  rw [h3, firstWith_unique h2 hf']

theorem validateAnyLoop_finds (hP : PathsOk C) (h : bindLineage C force r opts = .ok L)
    {lin : Nat} (hH : H lin = L) {d : V} {q : Nat} (hq : DistinctUpTo L q)
    (ha : Admits C L q d) (hno : ∀ p < q, ¬ Admits C L p d) :
    ∀ n p, p ≤ q → q < n + p → validateAnyLoop C H lin d n p = .ok (some (asInstance lin q d)) := by
  intro n
  induction n with
  | zero => intro p hp hn; omega
  | succ n ih =>
    intro p hp hn
    have hlt := hq.1
    simp only [validateAnyLoop]
    rcases validate_cases hP hH (show p < L.allsch.length by omega) d with ⟨hacc, hv⟩ | ⟨hna, e, hv⟩
    · have : p = q := by
        rcases Nat.lt_or_ge p q with h1 | h1
        · exact absurd ((admits_iff (by omega)).2 hacc) (hno p h1)
        · omega
      subst this
      rw [hv]
      rfl
    · have hne : p ≠ q := fun he => by
        subst he; exact hna ((admits_iff (by omega)).1 ha)
      rw [hv]
      simp only
      rw [hH, successor_distinct h (distinct_le hq (by omega))]
      simp only [Res.bind_ok]
      exact ih (p + 1) (by omega) (by omega)

theorem validateAnyLoop_none (hP : PathsOk C) (h : bindLineage C force r opts = .ok L)
    {lin : Nat} (hH : H lin = L) {d : V} {m : Nat} (hm : DistinctUpTo L m)
    (hend : L.ver m = L.ver (L.allsch.length - 1)) (hno : ∀ p ≤ m, ¬ Admits C L p d) :
    ∀ n p, p ≤ m → m < n + p → validateAnyLoop C H lin d n p = .ok none := by
  intro n
  induction n with
  | zero => intro p hp hn; omega
  | succ n ih =>
    intro p hp hn
    have hlt := hm.1
    simp only [validateAnyLoop]
    rcases validate_cases hP hH (show p < L.allsch.length by omega) d with ⟨hacc, hv⟩ | ⟨hna, e, hv⟩
    · exact absurd ((admits_iff (by omega)).2 hacc) (hno p hp)
    · rw [hv]
      simp only
      rw [hH]
      rcases Nat.lt_or_ge p m with h1 | h1
      · rw [successor_distinct h (distinct_le hm (by omega))]
        simp only [Res.bind_ok]
        exact ih (p + 1) (by omega) (by omega)
      · have : p = m := by omega
        subst this
        rw [(C152_successor h hlt).1 hend]
        rfl

/-- **C153**.  In every lineage that binds, `ValidateAny` returns the oldest schema
that accepts the data, provided no version is repeated up to it. -/
theorem C153_finds (hP : PathsOk C) (h : bindLineage C force r opts = .ok L) {lin : Nat}
    (hH : H lin = L) {d : V} {q : Nat} (hq : DistinctUpTo L q) (ha : Admits C L q d)
    (hno : ∀ p < q, ¬ Admits C L p d) {n : Nat} (hn : L.allsch.length ≤ n) :
    validateAny C H lin d n = .ok (some (asInstance lin q d)) := by
  unfold validateAny
  rw [hH, schema_zero h]
  simp only [Res.bind_ok]
  exact validateAnyLoop_finds hP h hH hq ha hno n 0 (Nat.zero_le _) (by have := hq.1; omega)

/-- **C153**.  Otherwise it returns nil, if the first repeated version is the latest
one or none is repeated, though a schema after the repetition may accept the data. -/
theorem C153_none (hP : PathsOk C) (h : bindLineage C force r opts = .ok L) {lin : Nat}
    (hH : H lin = L) {d : V} (hno : ∀ p, DistinctUpTo L p → ¬ Admits C L p d)
    (hr : ¬ RepeatsEarly L) {n : Nat} (hn : L.allsch.length ≤ n) :
    validateAny C H lin d n = .ok none := by
  obtain ⟨m, hm, hend⟩ := walk_end h hr
  unfold validateAny
  rw [hH, schema_zero h]
  simp only [Res.bind_ok]
  exact validateAnyLoop_none hP h hH hm hend (fun p hp => hno p (distinct_le hm hp)) n 0
    (Nat.zero_le _) (by have := hm.1; omega)

/-- **C153**.  If the first repeated version is not the latest one, it then never
returns. -/
theorem C153_never (hP : PathsOk C) (h : bindLineage C force r opts = .ok L) {lin : Nat}
    (hH : H lin = L) {d : V} (hno : ∀ p, DistinctUpTo L p → ¬ Admits C L p d)
    (hr : RepeatsEarly L) (n : Nat) : validateAny C H lin d n = .fuel := by
  obtain ⟨i, hi, hlt, hdup, hlast⟩ := hr
  unfold validateAny
  rw [hH, schema_zero h]
  simp only [Res.bind_ok]
  exact validateAnyLoop_diverges hP (bind_sorted h) hH hlt hi.2 hdup hlast
    (fun j hj hji ha => hno j (distinct_le hi hji) ((admits_iff hj).2 ha)) n 0 (Nat.zero_le _)

/-- The first of the schemas up to `p` that accept the data. -/
theorem first_admits {d : V} : ∀ p, Admits C L p d →
    ∃ q ≤ p, Admits C L q d ∧ ∀ k < q, ¬ Admits C L k d := by
  intro p
  induction p using Nat.strongRecOn with
  | ind p ih =>
    intro ha
    by_cases hex : ∃ k < p, Admits C L k d
    · obtain ⟨k, hk, hka⟩ := hex
      obtain ⟨q, hq, h1, h2⟩ := ih k hk hka
      exact ⟨q, by omega, h1, h2⟩
    · exact ⟨p, Nat.le_refl _, ha, fun k hk hka => hex ⟨k, hk, hka⟩⟩

/-- **C153**.  `ValidateAny` returns exactly if a schema before the first repetition
accepts the data, or the first repeated version is the latest one, or none is
repeated. -/
theorem C153_returns_iff (hP : PathsOk C) (h : bindLineage C force r opts = .ok L) {lin : Nat}
    (hH : H lin = L) (d : V) :
    (∃ n x, validateAny C H lin d n = .ok x) ↔
      (∃ p, DistinctUpTo L p ∧ Admits C L p d) ∨ ¬ RepeatsEarly L := by
  constructor
  · rintro ⟨n, x, hx⟩
    by_cases hex : ∃ p, DistinctUpTo L p ∧ Admits C L p d
    · exact .inl hex
    · refine .inr fun hr => ?_
      rw [C153_never hP h hH (fun p hp ha => hex ⟨p, hp, ha⟩) hr n] at hx
      cases hx
  · rintro hor
    by_cases hex : ∃ p, DistinctUpTo L p ∧ Admits C L p d
    · obtain ⟨p, hp, ha⟩ := hex
      obtain ⟨q, hq, h1, h2⟩ := first_admits p ha
      exact ⟨_, _, C153_finds hP h hH (distinct_le hp hq) h1 h2 (Nat.le_refl _)⟩
    · exact ⟨_, _, C153_none hP h hH (fun p hp ha => hex ⟨p, hp, ha⟩)
        (hor.resolve_left hex) (Nat.le_refl _)⟩

theorem dupBound_distinct : DistinctUpTo dupBound 1 := by
  refine ⟨by decide, fun j k hjk hk => ?_⟩
  obtain ⟨rfl, rfl⟩ : j = 0 ∧ k = 1 := by omega
  decide

theorem dupBound_repeats : RepeatsEarly dupBound :=
  ⟨1, dupBound_distinct, by decide, rfl, by decide⟩

theorem dupBound_only {p : Nat} (h : DistinctUpTo dupBound p) : p ≤ 1 :=
  Nat.le_of_not_lt fun hlt => h.2 1 2 (by omega) (by omega) rfl

example : validateAny SetCue.cue (fun _ => dupBound) 0 [2] 4 =
    .ok (some (asInstance 0 1 [2])) :=
  C153_finds setCue_pathsOk dupBound_eq rfl dupBound_distinct ⟨_, rfl, by rfl⟩
    (fun p hp ha => by
      obtain rfl : p = 0 := by omega
      obtain ⟨_, h1, h2⟩ := ha
      cases h1
      cases h2) (by decide)

example : ∀ n, validateAny SetCue.cue (fun _ => dupBound) 0 [4] n = .fuel :=
  C153_never setCue_pathsOk dupBound_eq rfl (fun p hp ha => by
    have := dupBound_only hp
    obtain ⟨_, h1, h2⟩ := ha
    match p, this with
    | 0, _ => cases h1; cases h2
    | 1, _ => cases h1; cases h2) dupBound_repeats

example : validateAny SetCue.cue (fun _ => threeBound) 0 [9] 3 = .ok none :=
  C153_none setCue_pathsOk threeBound_eq rfl (fun p hp ha => by
    have := hp.1
    obtain ⟨_, h1, h2⟩ := ha
    match p, this with
    | 0, _ => cases h1; cases h2
    | 1, _ => cases h1; cases h2
    | 2, _ => cases h1; cases h2)
    (fun ⟨i, _, h1, h2, _⟩ => by
      match i, h1 with
      | 0, _ => revert h2; decide
      | 1, _ => revert h2; decide) (by decide)

example : ∃ n x, validateAny SetCue.cue (fun _ => dupBound) 0 [2] n = .ok x :=
  (C153_returns_iff setCue_pathsOk dupBound_eq rfl [2]).2
    (.inl ⟨1, dupBound_distinct, _, rfl, by rfl⟩)

/-! ### C154: making multiplexers -/

theorem allvstrLoop_ends (h : bindLineage C force r opts = .ok L) {m : Nat}
    (hm : DistinctUpTo L m) (hend : L.ver m = L.ver (L.allsch.length - 1)) :
    ∀ n p, p ≤ m → m < n + p → ∃ vs, allvstrLoop L n p = .ok vs := by
  intro n
  induction n with
  | zero => intro p hp hn; omega
  | succ n ih =>
    intro p hp hn
    have hlt := hm.1
    rw [allvstrLoop]
    rcases Nat.lt_or_ge p m with h1 | h1
    · rw [successor_distinct h (distinct_le hm (by omega))]
      obtain ⟨vs, hvs⟩ := ih (p + 1) (by omega) (by omega)
      exact ⟨_, by simp only [Res.bind_ok]; rw [hvs]; rfl⟩
    · have : p = m := by omega
      subst this
      rw [(C152_successor h hlt).1 hend]
      exact ⟨_, rfl⟩

/-- **C154**.  A multiplexer of any kind is made exactly for lineages that start at 0.0
and in which the first repeated version, if there is one, is the latest. -/
theorem C154_made_iff (h : bindLineage C force r opts = .ok L) (hH : H s.lin = L)
    (enc : Encoder V) {ts : TypedSchema V T} (hts : ts.sch.ptr = s) {n : Nat}
    (hn : L.allsch.length ≤ n) :
    ((∃ f, newUntypedMux C H s dec n = .ok f) ↔ L.ver 0 = ⟨0, 0⟩ ∧ ¬ RepeatsEarly L) ∧
    ((∃ f, newTypedMux C H ts dec n = .ok f) ↔ L.ver 0 = ⟨0, 0⟩ ∧ ¬ RepeatsEarly L) ∧
    ((∃ f, newByteMux C H s dec enc n = .ok f) ↔ L.ver 0 = ⟨0, 0⟩ ∧ ¬ RepeatsEarly L) ∧
    ((∃ f, newValueMux C H ts dec n = .ok f) ↔ L.ver 0 = ⟨0, 0⟩ ∧ ¬ RepeatsEarly L) := by
  subst hts
  have key : (∃ vs, allvstr L n = .ok vs) ↔ L.ver 0 = ⟨0, 0⟩ ∧ ¬ RepeatsEarly L := by
    constructor
    · rintro ⟨vs, hvs⟩
      have h0 : L.ver 0 = ⟨0, 0⟩ := Classical.byContradiction fun h0 => by
        have := C56_construction_panics (dec := dec) h h0 hH n
        simp [newUntypedMux, hH, hvs, Res.Panics] at this
      refine ⟨h0, fun ⟨i, hi, hlt, hdup, hlast⟩ => ?_⟩
      have := C56_construction_hangs (dec := dec) h h0 hH hlt hi.2 hdup hlast n
      simp [newUntypedMux, hH, hvs] at this
    · rintro ⟨h0, hr⟩
      obtain ⟨m, hm, hend⟩ := walk_end h hr
      have hmem : synv0 ∈ L.allv := by
        rw [show synv0 = L.ver 0 from h0.symm, ver_lt (bind_pos h)]; exact List.getElem_mem _
      have hsp : L.schemaP synv0 = .ok 0 := by
        unfold Lineage.schemaP Lineage.Schema
        rw [if_pos ((synvExists_iff (bind_sorted h) _).2 hmem), schema_zero h]
      unfold allvstr
      rw [hsp]
      exact allvstrLoop_ends h hm hend n 0 (Nat.zero_le _) (by have := hm.1; omega)
  have h1 : ∀ {β γ : Type} (x : Res β) (g : β → γ), (∃ f, x.map g = .ok f) ↔ ∃ y, x = .ok y := by
    intro β γ x g
    cases x <;> simp
  refine ⟨?_, ?_, ?_, ?_⟩
  · rw [newUntypedMux, h1, hH, key]
  · rw [newTypedMux, h1, hH, key]
  · rw [newByteMux, h1, newUntypedMux, h1, hH, key]
  · rw [newValueMux, h1, newTypedMux, h1, hH, key]

/-- **C154**.  Otherwise making one panics (if the lineage does not start at 0.0) or
never ends. -/
theorem C154_otherwise (h : bindLineage C force r opts = .ok L) (hH : H s.lin = L)
    (enc : Encoder V) {ts : TypedSchema V T} (hts : ts.sch.ptr = s) (n : Nat) :
    (L.ver 0 ≠ ⟨0, 0⟩ → (newUntypedMux C H s dec n).Panics ∧ (newTypedMux C H ts dec n).Panics ∧
      (newByteMux C H s dec enc n).Panics ∧ (newValueMux C H ts dec n).Panics) ∧
    (L.ver 0 = ⟨0, 0⟩ → RepeatsEarly L → newUntypedMux C H s dec n = .fuel ∧
      newTypedMux C H ts dec n = .fuel ∧ newByteMux C H s dec enc n = .fuel ∧
      newValueMux C H ts dec n = .fuel) := by
  subst hts
  have hpan : ∀ {β γ : Type} (x : Res β) (g : β → γ), (x.map g).Panics ↔ x.Panics := by
    intro β γ x g
    cases x <;> simp [Res.Panics]
  have hfuel : ∀ {β γ : Type} (x : Res β) (g : β → γ), x.map g = .fuel ↔ x = .fuel := by
    intro β γ x g
    cases x <;> simp
  refine ⟨fun h0 => ?_, fun h0 ⟨_, hi, hlt, hdup, hlast⟩ => ?_⟩
  · have hu := C56_construction_panics (dec := dec) h h0 hH n
    have ha : (allvstr L n).Panics := by rwa [newUntypedMux, hpan, hH] at hu
    refine ⟨hu, ?_, ?_, ?_⟩
    · rwa [newTypedMux, hpan, hH]
    · rwa [newByteMux, hpan]
    · rwa [newValueMux, hpan, newTypedMux, hpan, hH]
  · have hu := C56_construction_hangs (dec := dec) h h0 hH hlt hi.2 hdup hlast n
    have ha : allvstr L n = .fuel := by rwa [newUntypedMux, hfuel, hH] at hu
    refine ⟨hu, ?_, ?_, ?_⟩
    · rwa [newTypedMux, hfuel, hH]
    · rwa [newByteMux, hfuel]
    · rwa [newValueMux, hfuel, newTypedMux, hfuel, hH]

example : (∃ f, newUntypedMux SetCue.cue (fun _ => threeBound) ⟨0, 1⟩ toyDecoder 3 = .ok f) ∧
    ¬ ∃ f, newUntypedMux SetCue.cue (fun _ => dupBound) ⟨0, 1⟩ toyDecoder 9 = .ok f := by
  refine ⟨⟨_, rfl⟩, fun hf => ?_⟩
  have := (C154_made_iff (T := Unit) (dec := toyDecoder) (s := ⟨0, 1⟩) dupBound_eq
    (H := fun _ => dupBound) rfl (fun _ => .ok []) (ts := ⟨.def_ ⟨0, 1⟩, (), fun _ _ => .ok ()⟩) rfl
    (n := 9) (by decide)).1.1 hf
  exact this.2 dupBound_repeats

example : newByteMux SetCue.cue (fun _ => dupBound) ⟨0, 1⟩ toyDecoder (fun _ => .ok []) 9 = .fuel :=
  ((C154_otherwise (T := Unit) (dec := toyDecoder) (s := ⟨0, 1⟩) dupBound_eq
    (H := fun _ => dupBound) rfl (fun _ => .ok []) (ts := ⟨.def_ ⟨0, 1⟩, (), fun _ _ => .ok ()⟩) rfl
    9).2 rfl dupBound_repeats).2.2.1

end Thema.Props

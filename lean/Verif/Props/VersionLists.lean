import Verif.Spec.VersionLists
import Verif.Props.Bind
import Verif.Props.Grow

/-!
# C157: version lists that can be bound, exactly
-/

namespace Thema.Props

open Thema.Spec

/-- Each element after the first is at least the sum of those before it. -/
def SumsOk (l : List Int) : Prop := ∀ k, k + 1 < l.length → (l.take (k + 1)).sum ≤ l.getD (k + 1) 0

theorem sumsOk_snoc {l : List Int} {n : Int} (hl : l ≠ []) :
    SumsOk (l ++ [n]) ↔ SumsOk l ∧ l.sum ≤ n := by
  have hpos : 0 < l.length := List.length_pos_iff.2 hl
  constructor
  · intro h
    refine ⟨fun k hk => ?_, ?_⟩
    · have := h k (by simp; omega)
      rw [List.take_append_of_le_length (by omega)] at this
      simpa [List.getD_eq_getElem?_getD, List.getElem?_append_left hk] using this
    · have := h (l.length - 1) (by simp; omega)
      rw [(by omega : l.length - 1 + 1 = l.length), List.take_append_of_le_length (by omega)] at this
      simpa [List.getD_eq_getElem?_getD] using this
  · rintro ⟨h, hs⟩ k hk
    simp only [List.length_append, List.length_singleton] at hk
    rcases Nat.lt_or_ge (k + 1) l.length with hk' | hk'
    · rw [List.take_append_of_le_length (by omega)]
      simpa [List.getD_eq_getElem?_getD, List.getElem?_append_left hk'] using h k hk'
    · have : k + 1 = l.length := by omega
      rw [this, List.take_append_of_le_length (by omega)]
      simpa [List.getD_eq_getElem?_getD] using hs

theorem bumps_snoc (xs : List SV) (a b : SV) : ∀ i, bumps i (xs ++ [a, b]) =
    bumps i (xs ++ [a]) ++ (if a.major < b.major then [((i + xs.length + 1 : Nat) : Int)] else []) := by
  induction xs with
  | nil => intro i; simp [bumps]
  | cons x xs ih =>
    intro i
    match xs, ih with
    | [], ih =>
      have := ih (i + 1)
      simp only [List.nil_append, List.cons_append, List.length_nil, List.length_singleton] at *
      rw [bumps, this]
      rw [bumps]
      split <;> simp [bumps]
    | y :: ys, ih =>
      have := ih (i + 1)
      simp only [List.cons_append, List.length_cons] at *
      rw [bumps, this]
      rw [bumps]
      have e : i + 1 + (ys.length + 1) + 1 = i + (ys.length + 1 + 1) + 1 := by omega
      rw [e]
      split <;> simp

theorem opens_append {vs : List SV} {b : SV} {i : Nat} (h : i < vs.length) :
    Opens (vs ++ [b]) i ↔ Opens vs i := by
  unfold Opens
  rw [List.getElem?_append_left h, List.getElem?_append_left (by omega)]

theorem openedBefore_append {vs : List SV} {b : SV} {i : Nat} (h : i ≤ vs.length) :
    openedBefore (vs ++ [b]) i = openedBefore vs i := by
  unfold openedBefore
  congr 1
  apply List.filter_congr
  intro k hk
  have : k < vs.length := by have := List.mem_range.1 hk; omega
  simp only [opens_append this]

theorem opens_last {xs : List SV} {a b : SV} :
    Opens (xs ++ [a, b]) (xs.length + 1) ↔ a.major < b.major := by
  unfold Opens
  simp

theorem filter_one {p : Nat → Prop} [DecidablePred p] {n : Nat} :
    ([n].filter (fun k => decide (p k))).sum = if p n then n else 0 := by
  by_cases h : p n <;> simp [h]

/-- The list of positions at which a major opens, and what `SumsOk` says of it. -/
theorem posList_spec (xs : List SV) : ∀ a,
    (posList (xs ++ [a])).sum = (openedBefore (xs ++ [a]) (xs.length + 1) : Nat) ∧
    (∀ p ∈ posList (xs ++ [a]), p ≤ xs.length) ∧
    (SumsOk (posList (xs ++ [a])) ↔
      ∀ i, i < xs.length + 1 → Opens (xs ++ [a]) i → openedBefore (xs ++ [a]) i ≤ i) := by
  induction xs using List.reverseRecOn with
  | nil =>
    intro a
    refine ⟨by simp [posList, bumps, openedBefore, List.range_succ, filter_one], by simp [posList, bumps], ?_⟩
    constructor
    · intro _ i hi _
      have : i = 0 := by simpa using hi
      subst this; simp [openedBefore]
    · intro _ k hk; simp [posList, bumps] at hk
  | append_singleton xs x ih =>
    intro a
    obtain ⟨h1, h2, h3⟩ := ih x
    have hb := bumps_snoc xs x a 0
    have hp : posList (xs ++ [x] ++ [a]) = posList (xs ++ [x]) ++
        (if x.major < a.major then [((xs.length + 1 : Nat) : Int)] else []) := by
      unfold posList
      rw [List.append_assoc, List.singleton_append, hb]; simp
    have hlen : (xs ++ [x]).length = xs.length + 1 := by simp
    have hne : posList (xs ++ [x]) ≠ [] := by simp [posList]
    have hob : openedBefore (xs ++ [x] ++ [a]) (xs.length + 1) =
        openedBefore (xs ++ [x]) (xs.length + 1) := openedBefore_append (by simp)
    have hol : Opens (xs ++ [x] ++ [a]) (xs.length + 1) ↔ x.major < a.major := by
      rw [List.append_assoc, List.singleton_append]; exact opens_last
    have hrec : openedBefore (xs ++ [x] ++ [a]) (xs.length + 1 + 1) =
        openedBefore (xs ++ [x]) (xs.length + 1) +
          (if x.major < a.major then xs.length + 1 else 0) := by
      rw [← hob]
      unfold openedBefore
      rw [List.range_succ, List.filter_append, List.sum_append]
      congr 1
      rw [filter_one]
      simp only [hol]
    rw [hp, hlen]
    refine ⟨?_, ?_, ?_⟩
    · rw [List.sum_append, h1, hrec]
      split <;> simp
    · intro p hp'
      rcases List.mem_append.1 hp' with h | h
      · have := h2 p h; push_cast; omega
      · split at h
        · have := List.mem_singleton.1 h; omega
        · cases h
    · have hi : ∀ i, i < xs.length + 1 →
          ((Opens (xs ++ [x] ++ [a]) i → openedBefore (xs ++ [x] ++ [a]) i ≤ i) ↔
            (Opens (xs ++ [x]) i → openedBefore (xs ++ [x]) i ≤ i)) := by
        intro i hi
        rw [opens_append (by simpa using hi), openedBefore_append (by simp; omega)]
      have hsplit : (∀ i, i < xs.length + 1 + 1 → Opens (xs ++ [x] ++ [a]) i →
            openedBefore (xs ++ [x] ++ [a]) i ≤ i) ↔
          (∀ i, i < xs.length + 1 → Opens (xs ++ [x]) i → openedBefore (xs ++ [x]) i ≤ i) ∧
          (x.major < a.major → openedBefore (xs ++ [x]) (xs.length + 1) ≤ xs.length + 1) := by
        constructor
        · intro h
          refine ⟨fun i hi' => (hi i hi').1 (h i (by omega)), fun hm => ?_⟩
          rw [← hob]
          exact h _ (by omega) (hol.2 hm)
        · rintro ⟨h, hl⟩ i hi' ho
          rcases Nat.lt_or_ge i (xs.length + 1) with hlt | hge
          · exact (hi i hlt).2 (h i hlt) ho
          · have : i = xs.length + 1 := by omega
            subst this
            rw [hob]; exact hl (hol.1 ho)
      rw [hsplit, ← h3]
      split
      · next hm =>
        rw [sumsOk_snoc hne, h1]
        simp only [hm, true_imp_iff]
        norm_cast
      · next hm => simp [hm]

theorem getLastD_mem {l : List Int} (h : l ≠ []) : l.getLastD 0 ∈ l := by
  rw [List.getLastD_eq_getLast?, List.getLast?_eq_getLast_of_ne_nil h]
  exact List.getLast_mem h

/-- The counts are fine exactly if no major opens before the sum of the positions at
which earlier majors open. -/
theorem countsOk_iff {vs : List SV} : countsOk vs = true ↔
    ∀ i, i < vs.length → Opens vs i → openedBefore vs i ≤ i := by
  rcases List.eq_nil_or_concat vs with rfl | ⟨xs, a, rfl⟩
  · simp [countsOk, counts]
  obtain ⟨_, h2, h3⟩ := posList_spec xs a
  rw [List.concat_eq_append, List.length_append, List.length_singleton, ← h3]
  unfold countsOk counts
  split
  · next h =>
    have : xs = [] := by simpa using h
    subst this
    simp [SumsOk, posList, bumps]
  · have hl := h2 _ (getLastD_mem (l := posList (xs ++ [a])) (by simp [posList]))
    simp only [List.all_append, List.all_cons, List.all_nil, Bool.and_true, Bool.and_eq_true,
      decide_eq_true_eq, List.length_append, List.length_singleton]
    constructor
    · rintro ⟨h, _⟩ k hk
      unfold countsInit at h
      rw [List.all_map, List.all_eq_true] at h
      have := h k (by simp; omega)
      simpa using this
    · intro h
      refine ⟨?_, by push_cast; omega⟩
      unfold countsInit
      rw [List.all_map, List.all_eq_true]
      intro k hk
      have := h k (by have := List.mem_range.1 hk; omega)
      simpa using this

/-- Schemas with the given versions that keep the compatibility rule: each with minor
zero has a value of its own, the others have the value of the one before. -/
def epochs (vs : List SV) : List (RawSchema SetCue.Val) :=
  vs.mapIdx (fun i v =>
    SetCue.sch v.major v.minor [((vs.take (i + 1)).filter (fun w => w.minor = 0)).length])

theorem epochs_acceptable {vs : List SV} (hne : vs ≠ []) (ho : NonDecreasing vs)
    (hc : countsOk vs = true) :
    SchemasAcceptable SetCue.cue false (SetCue.lin (epochs vs)) [] vs where
  present := rfl
  name := rfl
  schemas := rfl
  noFinalErr := rfl
  noRawErr := rfl
  noUniErr := rfl
  versions := by
    simp only [SetCue.lin, epochs]
    apply List.ext_getElem?
    intro i
    simp only [List.getElem?_map, List.getElem?_mapIdx, SetCue.sch]
    cases vs[i]? <;> rfl
  nonempty := hne
  counts := hc
  order := ho
  compat := by
    intro _ i _ hi
    simp only [SetCue.lin, epochs, List.getElem_mapIdx, SetCue.sch, SetCue.cue]
    have e : vs.take (i + 1 + 1) = vs.take (i + 1) ++ [vs[i + 1]] := by simp
    rw [e, List.filter_append, List.length_append]
    by_cases h0 : vs[i + 1].minor = 0 <;> simp [h0]

/-- Some lineage with these versions can be bound. -/
def CanBind (vs : List SV) : Prop :=
  ∃ (V : Type) (C : Cue V) (force : Bool) (r : RawLineage V) (opts : List (BindOption V))
    (L : Lineage V), bindLineage C force r opts = .ok L ∧ L.allv = vs

/-- **C157**.  Some lineage with the versions `vs` can be bound, by any evaluator and
with any options, exactly if there is a version, versions never go down, and each
major version opens at a position not below the sum of the positions at which the
earlier ones open. -/
theorem C157_binds_iff {vs : List SV} : CanBind vs ↔
    vs ≠ [] ∧ NonDecreasing vs ∧
      ∀ i, i < vs.length → Opens vs i → openedBefore vs i ≤ i := by
  constructor
  · rintro ⟨V, C, force, r, opts, L, h, rfl⟩
    have ha := bind_acceptable h
    exact ⟨ha.nonempty, ha.order, countsOk_iff.1 ha.counts⟩
  · rintro ⟨h1, h2, h3⟩
    obtain ⟨L, hL, hv⟩ := C11_compatible_accepted (epochs_acceptable h1 h2 (countsOk_iff.2 h3))
      rfl (.inr rfl)
    exact ⟨_, _, _, _, _, L, hL, hv⟩

/-- The list is refused: 0 + 1 + 2 + 3 exceeds 4. -/
example : ¬ CanBind [⟨0, 0⟩, ⟨1, 0⟩, ⟨2, 0⟩, ⟨3, 0⟩, ⟨4, 0⟩] := fun h =>
  absurd ((C157_binds_iff.1 h).2.2 4 (by decide) (by decide)) (by decide)

theorem notAfter_lex {a b : SV} : NotAfter a b ↔
    a.major < b.major ∨ (a.major = b.major ∧ a.minor ≤ b.minor) := by
  unfold NotAfter
  rw [before_iff]
  omega

theorem notAfter_trans {a b c : SV} (h : NotAfter a b) (h' : NotAfter b c) : NotAfter a c := by
  rw [notAfter_lex] at *; omega

theorem nonDecreasing_snoc {vs : List SV} {v w : SV} (hl : vs.getLast? = some v) :
    NonDecreasing (vs ++ [w]) ↔ NonDecreasing vs ∧ NotAfter v w := by
  have hne : vs ≠ [] := by rintro rfl; cases hl
  have hpos : 0 < vs.length := List.length_pos_iff.2 hne
  have hv : vs[vs.length - 1] = v := by
    rw [List.getLast?_eq_getElem?, List.getElem?_eq_getElem (by omega)] at hl
    exact Option.some.inj hl
  constructor
  · intro h
    refine ⟨fun i j hij hj => ?_, ?_⟩
    · have := h i j hij (by simp; omega)
      rwa [List.getElem_append_left hj, List.getElem_append_left (by omega)] at this
    · have := h (vs.length - 1) vs.length (by omega) (by simp)
      rw [List.getElem_append_left (by omega), hv] at this
      simpa using this
  · rintro ⟨h, hw⟩ i j hij hj
    simp only [List.length_append, List.length_singleton] at hj
    rcases Nat.lt_or_ge j vs.length with hj' | hj'
    · rw [List.getElem_append_left hj', List.getElem_append_left (by omega)]
      exact h i j hij hj'
    · have : j = vs.length := by omega
      subst this
      rw [List.getElem_append_left hij]
      have e : (vs ++ [w])[vs.length]'(by simp) = w := by simp
      rw [e]
      rcases Nat.lt_or_ge i (vs.length - 1) with hi | hi
      · exact notAfter_trans (hv ▸ h i _ hi (by omega)) hw
      · have : i = vs.length - 1 := by omega
        subst this; rw [hv]; exact hw

/-- **C157**.  A further version of the last major never stands in the way. -/
theorem C157_next_minor {vs : List SV} {v w : SV} (h : CanBind vs) (hl : vs.getLast? = some v)
    (hm : w.major = v.major) (hw : v.minor ≤ w.minor) : CanBind (vs ++ [w]) := by
  obtain ⟨_, h2, h3⟩ := C157_binds_iff.1 h
  refine C157_binds_iff.2 ⟨by simp, (nonDecreasing_snoc hl).2 ⟨h2, notAfter_lex.2 (by omega)⟩, ?_⟩
  intro i hi ho
  simp only [List.length_append, List.length_singleton] at hi
  rcases Nat.lt_or_ge i vs.length with hi' | hi'
  · rw [openedBefore_append (by omega)]
    exact h3 i hi' ((opens_append hi').1 ho)
  · have : i = vs.length := by omega
    subst this
    rcases ho with ho | ⟨a, b, ha, hb, hab⟩
    · rw [ho]; simp [openedBefore]
    · rw [List.getLast?_eq_getElem?] at hl
      have hlt : vs.length - 1 < vs.length := (List.getElem?_eq_some_iff.1 hl).1
      rw [List.getElem?_append_left hlt, hl] at ha
      simp only [List.getElem?_concat_length] at hb
      cases ha; cases hb; omega

/-- **C157**.  A further major version can be opened exactly if there are at least as
many schemas as the positions at which the majors so far open add up to. -/
theorem C157_next_major {vs : List SV} {v w : SV} (h : CanBind vs) (hl : vs.getLast? = some v)
    (hm : v.major < w.major) : CanBind (vs ++ [w]) ↔ openedBefore vs vs.length ≤ vs.length := by
  obtain ⟨_, h2, h3⟩ := C157_binds_iff.1 h
  have ho : Opens (vs ++ [w]) vs.length := by
    rw [List.getLast?_eq_getElem?] at hl
    have hlt : vs.length - 1 < vs.length := (List.getElem?_eq_some_iff.1 hl).1
    exact .inr ⟨v, w, by rw [List.getElem?_append_left hlt, hl], by simp, hm⟩
  rw [C157_binds_iff]
  constructor
  · rintro ⟨_, _, h⟩
    have := h vs.length (by simp) ho
    rwa [openedBefore_append (by omega)] at this
  · intro hle
    refine ⟨by simp, (nonDecreasing_snoc hl).2 ⟨h2, notAfter_lex.2 (.inl hm)⟩, ?_⟩
    intro i hi ho'
    simp only [List.length_append, List.length_singleton] at hi
    rw [openedBefore_append (by omega)]
    rcases Nat.lt_or_ge i vs.length with hi' | hi'
    · exact h3 i hi' ((opens_append hi').1 ho')
    · have : i = vs.length := by omega
      subst this; exact hle

theorem opens_major_lt {vs : List SV} (ho : NonDecreasing vs) {p q : Nat} (hpq : p < q)
    (hq : q < vs.length) (h : Opens vs q) : vs[p].major < vs[q].major := by
  rcases h with h | ⟨a, b, ha, hb, hab⟩
  · omega
  · obtain ⟨h1, rfl⟩ := List.getElem?_eq_some_iff.1 ha
    obtain ⟨h2, rfl⟩ := List.getElem?_eq_some_iff.1 hb
    rcases Nat.lt_or_ge p (q - 1) with hp | hp
    · have := notAfter_lex.1 (ho p (q - 1) hp h1)
      omega
    · have : p = q - 1 := by omega
      subst this; exact hab

/-- **C157**.  Versions that never go down and have at most three different majors can
always be bound. -/
theorem C157_three_majors {vs : List SV} (hne : vs ≠ []) (ho : NonDecreasing vs) (a b c : Nat)
    (h3 : ∀ v ∈ vs, v.major = a ∨ v.major = b ∨ v.major = c) : CanBind vs := by
  refine C157_binds_iff.2 ⟨hne, ho, fun i hi hop => ?_⟩
  unfold openedBefore
  have hF : ((List.range i).filter (fun k => decide (Opens vs k))).Pairwise (· < ·) :=
    List.pairwise_lt_range.filter _
  have hmem : ∀ k ∈ (List.range i).filter (fun k => decide (Opens vs k)), k < i ∧ Opens vs k := by
    intro k hk
    simpa using hk
  have h0 : 0 < i → 0 ∈ (List.range i).filter (fun k => decide (Opens vs k)) := fun h => by
    simp [h, Opens]
  generalize (List.range i).filter (fun k => decide (Opens vs k)) = F at *
  match F, hF, hmem, h0 with
  | [], _, _, _ => simp
  | [x], _, hmem, _ => have := (hmem x (by simp)).1; simp; omega
  | [x, y], hF, hmem, h0 =>
    have hy := (hmem y (by simp)).1
    have hx : x = 0 := by
      have := h0 (by omega)
      have hxy : x < y := by simpa using hF
      simp only [List.mem_cons, List.not_mem_nil, or_false] at this
      omega
    subst hx; simp; omega
  | x :: y :: z :: F, hF, hmem, _ =>
    exfalso
    have hxy : x < y := (List.pairwise_cons.1 hF).1 y (by simp)
    have hyz : y < z := (List.pairwise_cons.1 (List.pairwise_cons.1 hF).2).1 z (by simp)
    obtain ⟨hz, hoz⟩ := hmem z (by simp)
    obtain ⟨_, hoy⟩ := hmem y (by simp)
    have l1 := opens_major_lt ho hxy (by omega) hoy
    have l2 := opens_major_lt ho hyz (by omega) hoz
    have l3 := opens_major_lt ho hz hi hop
    have m1 := h3 _ (List.getElem_mem (l := vs) (n := x) (by omega))
    have m2 := h3 _ (List.getElem_mem (l := vs) (n := y) (by omega))
    have m3 := h3 _ (List.getElem_mem (l := vs) (n := z) (by omega))
    have m4 := h3 _ (List.getElem_mem (l := vs) (n := i) (by omega))
    omega

theorem nonDecreasing_one (v : SV) : NonDecreasing [v] := by
  intro i j hij hj
  simp at hj; omega

/-- Majors are numbered with gaps, a version is repeated and the first is not 0.0. -/
theorem gaps_nonDecreasing : NonDecreasing [⟨2, 1⟩, ⟨5, 0⟩, ⟨5, 0⟩, ⟨9, 3⟩] := by
  refine (nonDecreasing_snoc (vs := [⟨2, 1⟩, ⟨5, 0⟩, ⟨5, 0⟩]) rfl).2
    ⟨(nonDecreasing_snoc (vs := [⟨2, 1⟩, ⟨5, 0⟩]) rfl).2
      ⟨(nonDecreasing_snoc (vs := [⟨2, 1⟩]) rfl).2 ⟨nonDecreasing_one _, ?_⟩, ?_⟩, ?_⟩ <;>
  exact notAfter_lex.2 (by decide)

theorem gaps_binds : CanBind [⟨2, 1⟩, ⟨5, 0⟩, ⟨5, 0⟩, ⟨9, 3⟩] :=
  C157_three_majors (by decide) gaps_nonDecreasing 2 5 9 (by decide)

example : CanBind [⟨2, 1⟩, ⟨5, 0⟩, ⟨5, 0⟩, ⟨9, 3⟩, ⟨9, 7⟩] :=
  C157_next_minor gaps_binds rfl rfl (by decide)

/-- The majors open at 0, 1 and 3, and there are four schemas: a fourth major can be
opened, at 4, ... -/
theorem gaps_four : CanBind [⟨2, 1⟩, ⟨5, 0⟩, ⟨5, 0⟩, ⟨9, 3⟩, ⟨10, 0⟩] :=
  (C157_next_major gaps_binds rfl (by decide)).2 (by decide)

/-- ... but not a fifth right after it. -/
example : ¬ CanBind [⟨2, 1⟩, ⟨5, 0⟩, ⟨5, 0⟩, ⟨9, 3⟩, ⟨10, 0⟩, ⟨11, 0⟩] := fun h =>
  absurd ((C157_next_major gaps_four rfl (by decide)).1 h) (by decide)

end Thema.Props

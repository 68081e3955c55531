import Verif.Props.TranslateGo
import Verif.Props.AppendOnly
import Verif.Spec.Grow

/-!
# Adding versions to a lineage

What programs that use the versions of a lineage can rely on when later versions are added to
it.
-/

namespace Thema.Props

open Thema Thema.Spec

variable {V : Type} {C : Cue V} {force force' : Bool} {r r' : RawLineage V}
  {opts opts' : List (BindOption V)} {O N : Lineage V} {H H' : Heap V} {i j : Inst V}

/-! ### Prefixes -/

theorem fromRaw_prefix {a b : List (RawSchema V)} {l l' : List (SchemaDef V)} (h : a <+: b)
    (h1 : List.Forall₂ FromRaw a l) (h2 : List.Forall₂ FromRaw b l') : l <+: l' := by
  induction h1 generalizing b l' with
  | nil => exact List.nil_prefix
  | @cons x y xs ys hxy _ ih =>
    cases h2 with
    | nil => simp at h
    | @cons x' y' xs' ys' hxy' t' =>
      obtain ⟨rfl, hx⟩ := List.cons_prefix_cons.1 h
      have : y = y' := by
        obtain ⟨a1, a2, a3⟩ := hxy
        obtain ⟨b1, b2, b3⟩ := hxy'
        cases y; cases y'; simp_all
      rw [this]
      exact List.cons_prefix_cons.2 ⟨rfl, ih hx t'⟩

theorem grow_allsch (h : bindLineage C force r opts = .ok O)
    (h' : bindLineage C force' r' opts' = .ok N) (hp : r.schemas <+: r'.schemas) :
    O.allsch <+: N.allsch :=
  fromRaw_prefix hp (bindLineage_ok.1 h).2.2.2.1.1 (bindLineage_ok.1 h').2.2.2.1.1

theorem bumps_append (vs ws : List SV) : ∀ i, bumps i vs <+: bumps i (vs ++ ws) := by
  induction vs with
  | nil => intro i; simp [bumps]
  | cons a vs ih =>
    intro i
    cases vs with
    | nil => simp [bumps]
    | cons b vs =>
      simp only [List.cons_append, bumps]
      have := ih (i + 1)
      simp only [List.cons_append] at this
      split
      · exact List.cons_prefix_cons.2 ⟨rfl, this⟩
      · exact this

theorem countsInit_prefix {a b : List Int} (h : a <+: b) : countsInit a <+: countsInit b := by
  obtain ⟨c, rfl⟩ := h
  rw [List.prefix_iff_getElem?]
  intro i hi
  simp only [countsInit, List.length_map, List.length_range] at hi
  have hi' : i < (a ++ c).length - 1 := by simp; omega
  simp only [countsInit, List.getElem?_map, List.getElem?_range hi', List.getElem_map,
    List.getElem_range, Option.map_some, Option.some.injEq]
  rw [List.take_append_of_le_length (by omega), List.getD_eq_getElem?_getD,
    List.getD_eq_getElem?_getD, List.getElem?_append_left (by omega)]

/-- The sums that make up `_basis` never use the last count. -/
theorem basis_eq (vs : List SV) : basis vs = 0 :: (List.range (posList vs).length.pred).map
    (fun m => ((countsInit (posList vs)).take (m + 1)).sum) := by
  unfold basis counts
  split
  · rename_i h
    have : bumps 0 vs = [] := by
      match vs, h with
      | [], _ => rfl
      | [_], _ => rfl
    simp [posList, this]
  · simp only [List.length_append, List.length_singleton, Nat.add_sub_cancel]
    have e : (countsInit (posList vs)).length = (posList vs).length.pred := by
      simp [countsInit]
    rw [e]
    congr 1
    apply List.map_congr_left
    intro m hm
    rw [List.mem_range] at hm
    rw [List.take_append_of_le_length (by rw [e]; omega)]

theorem basis_prefix {vs ws : List SV} (h : vs <+: ws) : basis vs <+: basis ws := by
  obtain ⟨c, rfl⟩ := h
  have hp : posList vs <+: posList (vs ++ c) :=
    List.cons_prefix_cons.2 ⟨rfl, bumps_append vs c 0⟩
  have hc := countsInit_prefix hp
  have hl : (posList vs).length ≤ (posList (vs ++ c)).length := hp.length_le
  rw [basis_eq, basis_eq]
  refine List.cons_prefix_cons.2 ⟨rfl, ?_⟩
  rw [List.prefix_iff_getElem?]
  intro m hm
  simp only [List.length_map, List.length_range, Nat.pred_eq_sub_one] at hm
  simp only [List.getElem?_map, List.getElem_map, List.getElem_range, Nat.pred_eq_sub_one]
  rw [List.getElem?_range (by omega)]
  simp only [Option.map_some, Option.some.injEq]
  obtain ⟨d, hd⟩ := hc
  rw [← hd, List.take_append_of_le_length (by simp [countsInit]; omega)]

theorem flatidx_prefix {vs ws : List SV} (h : vs <+: ws) {v : SV} {k : Int}
    (hk : flatidx vs v = some k) : flatidx ws v = some k := by
  unfold flatidx at *
  obtain ⟨d, hd⟩ := basis_prefix h
  cases hb : (basis vs)[v.major]? with
  | none => rw [hb] at hk; simp at hk
  | some b =>
    rw [hb] at hk
    have hlt := (List.getElem?_eq_some_iff.1 hb).1
    rw [← hd, List.getElem?_append_left hlt, hb]
    exact hk

theorem cdiff_nonneg {ns : List Nat} (hpos : ∀ x ∈ ns, 0 < x) (hne : ns ≠ [])
    (hok : countsOk (blocks 0 ns) = true) {M : Nat} (hM : M + 1 < ns.length) : 0 ≤ cdiff ns M := by
  have := (countsOk_blocks hpos hne).1 hok M hM
  have e : ((List.range (M + 1)).map (preSum ns)).sum =
      ((((List.range (M + 1)).map (fun j => (ns.take j).sum)).sum : Nat) : Int) := by
    generalize List.range (M + 1) = l
    induction l with
    | nil => rfl
    | cons a l ih => simp only [List.map_cons, List.sum_cons, ih, preSum]; push_cast; rfl
  unfold cdiff
  rw [e]
  unfold preSum
  omega

theorem sum_nonneg_int (f : Nat → Int) : ∀ M, (∀ m, m < M → 0 ≤ f m) →
    0 ≤ ((List.range M).map f).sum := by
  intro M
  induction M with
  | zero => intro _; simp
  | succ M ih =>
    intro h
    rw [List.range_succ, List.map_append, List.sum_append]
    have h1 := ih fun m hm => h m (by omega)
    have h2 := h M (by omega)
    simp; omega

/-- The index that CUE computes for a declared version of a contiguous lineage that binds is
never negative and never beyond its position. -/
theorem flatidx_bounds {vs : List SV} (hc : Contiguous vs) (hok : countsOk vs = true) {p : Nat}
    (hp : p < vs.length) : ∃ k : Nat, flatidx vs vs[p] = some (k : Int) ∧ k ≤ p := by
  obtain ⟨h1, h2⟩ := C26_index_exact hc hp
  by_cases hm : vs[p].major ≤ 2
  · exact ⟨p, h1.2 hm, Nat.le_refl _⟩
  · obtain ⟨k, hk, hle, _⟩ := h2 (by omega)
    have hnn : 0 ≤ k := by
      have hs := Contiguous.strictV hc
      obtain ⟨ns, hpos, hne, rfl⟩ := contiguous_blocks hc
      obtain ⟨hM, _, _⟩ := blocks_pos' hs hp
      unfold flatidx at hk
      rw [basis_getElem hpos (by omega) hM] at hk
      simp only [Option.map_some, Option.some.injEq] at hk
      have := sum_nonneg_int (cdiff ns) _ fun m hm => cdiff_nonneg hpos hne hok (M := m)
        (Nat.lt_of_le_of_lt (Nat.succ_le_of_lt hm) hM)
      omega
    obtain ⟨m, rfl⟩ := Int.eq_ofNat_of_zero_le hnn
    exact ⟨m, hk, by omega⟩

/-! ### Lenses -/

/-- What extending a lineage means for the bound lineages, as far as CUE lenses go. -/
structure Grown (O N : Lineage V) : Prop where
  allsch : O.allsch <+: N.allsch
  lenses : ∃ more, N.lenses = O.lenses ++ more ∧
    ∀ l ∈ more, l.frm ∉ O.allv ∨ l.to ∉ O.allv

theorem grown_of_extends (h : bindLineage C force r opts = .ok O)
    (h' : bindLineage C force' r' opts' = .ok N) (he : Extends r r') : Grown O N := by
  refine ⟨grow_allsch h h' he.schemas, ?_⟩
  obtain ⟨more, hm, ht⟩ := he.lenses
  refine ⟨more.filterMap RawLens.cue?, ?_, ?_⟩
  · rw [(bindLineage_ok.1 h).2.2.2.2.2.2, (bindLineage_ok.1 h').2.2.2.2.2.2]
    unfold cueLenses
    rw [hm, List.filterMap_append]
  · intro l hl
    obtain ⟨x, hx, hxl⟩ := List.mem_filterMap.1 hl
    unfold RawLens.cue? at hxl
    have hv := bind_versions h
    split at hxl
    · rename_i f t hf hto
      cases hxl
      rcases ht x hx with hn | hn
      · left; intro hmem; apply hn; rw [hf, hv]; exact List.mem_map_of_mem hmem
      · right; intro hmem; apply hn; rw [hto, hv]; exact List.mem_map_of_mem hmem
    · cases hxl

theorem Grown.allv (g : Grown O N) : O.allv <+: N.allv := g.allsch.map _

theorem Grown.ver (g : Grown O N) {p : Nat} (hp : p < O.allsch.length) : N.ver p = O.ver p := by
  obtain ⟨c, hc⟩ := g.allv
  unfold Lineage.ver
  rw [← hc, List.getElem?_append_left (by simpa using hp)]

theorem Grown.length (g : Grown O N) : O.allsch.length ≤ N.allsch.length := g.allsch.length_le

theorem cueIdx_append {α : Type} (xs ys : List α) (k : Int) :
    cueIdx (xs ++ ys) k = cueIdx xs k ∨ (cueIdx xs k = none ∧ ∃ y ∈ ys, cueIdx (xs ++ ys) k = some y) ∨
      (cueIdx xs k = none ∧ cueIdx (xs ++ ys) k = none) := by
  unfold cueIdx
  split
  · by_cases hk : k.toNat < xs.length
    · left; rw [List.getElem?_append_left hk]
    · right
      rw [List.getElem?_eq_none (by omega : xs.length ≤ k.toNat), List.getElem?_append_right (by omega)]
      cases hy : ys[k.toNat - xs.length]? with
      | none => exact .inr ⟨rfl, rfl⟩
      | some y => exact .inl ⟨rfl, y, List.mem_of_getElem? hy, rfl⟩
  · left; rfl

/-- Applying a lens between declared versions does not see added lenses. -/
theorem applyLens_grown {xs ys : List (CueLens V)} {k : Int} {a : SV} {x : V} {s : SchemaDef V}
    (hn : ∀ l ∈ ys, ¬ (l.frm = a ∧ l.to = s.v)) :
    applyLens C (xs ++ ys) k a x s = applyLens C xs k a x s := by
  unfold applyLens
  rcases cueIdx_append xs ys k with h | ⟨h1, y, hy, h2⟩ | ⟨h1, h2⟩
  · rw [h]
  · rw [h1, h2]
    simp only [Eval.ofOption_some, Eval.bind_ok, Eval.ofOption_none, Eval.bind_error]
    by_cases hf : y.frm = a
    · have ht : y.to ≠ s.v := fun ht => hn y hy ⟨hf, ht⟩
      simp [hf, ht]
    · simp [hf]
  · rw [h1, h2]

theorem applyLens_to {xs : List (CueLens V)} {k : Int} {a : SV} {x : V} {s : SchemaDef V}
    {st : Step V} (h : applyLens C xs k a x s = .ok st) : st.to = s.v := by
  unfold applyLens at h
  obtain ⟨l, _, h⟩ := Eval.bind_eq_ok.1 h
  split at h
  · cases h
  · split at h
    · cases h
    · rename_i ht
      split at h
      · cases h
      · split at h
        · cases h
        · split at h
          · cases h
          · cases h; simpa using ht

theorem Grown.fwdLenses (g : Grown O N) : ∃ more, forwardLenses N.lenses = forwardLenses O.lenses ++ more ∧
    ∀ l ∈ more, l.frm ∉ O.allv ∨ l.to ∉ O.allv := by
  obtain ⟨more, h1, h2⟩ := g.lenses
  refine ⟨forwardLenses more, by rw [h1]; exact List.filter_append .., ?_⟩
  intro l hl
  exact h2 l (List.mem_filter.1 hl).1

theorem Grown.backLenses (g : Grown O N) :
    ∃ more, backwardLenses N.lenses = backwardLenses O.lenses ++ more ∧
    ∀ l ∈ more, l.frm ∉ O.allv ∨ l.to ∉ O.allv := by
  obtain ⟨more, h1, h2⟩ := g.lenses
  refine ⟨backwardLenses more, by rw [h1]; exact List.filter_append .., ?_⟩
  intro l hl
  exact h2 l (List.mem_filter.1 hl).1

theorem fwdStep_grown (g : Grown O N) {a : SV} (ha : a ∈ O.allv) {s : SchemaDef V}
    (hs : s ∈ O.allsch) (x : V) : fwdStep C N a x s = fwdStep C O a x s := by
  obtain ⟨more, h1, h2⟩ := g.fwdLenses
  unfold fwdStep
  split
  · rfl
  · split
    · rw [h1]
      apply applyLens_grown
      rintro l hl ⟨hf, ht⟩
      rcases h2 l hl with h | h
      · exact h (hf ▸ ha)
      · exact h (ht ▸ List.mem_map_of_mem hs)
    · rfl

theorem fwdStep_to {L : Lineage V} {a : SV} {x : V} {s : SchemaDef V} {st : Step V}
    (h : fwdStep C L a x s = .ok st) : st.to = s.v := by
  unfold fwdStep at h
  split at h
  · split at h
    · cases h
    · cases h; rfl
  · split at h
    · exact applyLens_to h
    · cases h

theorem fwdSteps_grown (g : Grown O N) (ss : List (SchemaDef V)) : (∀ s ∈ ss, s ∈ O.allsch) →
    ∀ (a : SV) (x : V), a ∈ O.allv → fwdSteps C N ss a x = fwdSteps C O ss a x := by
  induction ss with
  | nil => intros; rfl
  | cons s ss ih =>
    intro hss a x ha
    simp only [fwdSteps]
    rw [fwdStep_grown g ha (hss s (by simp))]
    cases hst : fwdStep C O a x s with
    | ok st =>
      simp only [Eval.bind_ok]
      rw [ih (fun s hs => hss s (List.mem_cons_of_mem _ hs)) _ _
        (fwdStep_to hst ▸ List.mem_map_of_mem (hss s (by simp)))]
    | error => rfl
    | incomplete => rfl

/-- Going down over positions of the old lineage does not see what was added. -/
theorem backSteps_grown (g : Grown O N) (hi : ∀ v ∈ O.allv, flatidx N.allv v = flatidx O.allv v)
    (ps : List Int) : (∀ p ∈ ps, 0 ≤ p ∧ p.toNat < O.allsch.length) →
    ∀ (a : SV) (x : V), a ∈ O.allv → backSteps C N ps a x = backSteps C O ps a x := by
  induction ps with
  | nil => intros; rfl
  | cons p ps ih =>
    intro hps a x ha
    obtain ⟨hp0, hp⟩ := hps p (by simp)
    obtain ⟨c, hc⟩ := g.allsch
    have e1 : cueIdx O.allsch p = some O.allsch[p.toNat] := by
      simp [cueIdx, hp0, hp]
    have e2 : cueIdx N.allsch p = some O.allsch[p.toNat] := by
      unfold cueIdx
      rw [if_pos hp0, ← hc, List.getElem?_append_left hp, List.getElem?_eq_getElem hp]
    simp only [backSteps, e1, e2, Eval.ofOption_some, Eval.bind_ok]
    have hmem : O.allsch[p.toNat] ∈ O.allsch := List.getElem_mem hp
    rw [hi _ (List.mem_map_of_mem hmem)]
    cases hf : flatidx O.allv O.allsch[p.toNat].v with
    | none => rfl
    | some k =>
      simp only [Eval.ofOption_some, Eval.bind_ok]
      obtain ⟨more, h1, h2⟩ := g.backLenses
      rw [h1, applyLens_grown]
      · cases hst : applyLens C (backwardLenses O.lenses) k a x O.allsch[p.toNat] with
        | ok st =>
          simp only [Eval.bind_ok]
          rw [ih (fun q hq => hps q (List.mem_cons_of_mem _ hq)) _ _
            (applyLens_to hst ▸ List.mem_map_of_mem hmem)]
        | error => rfl
        | incomplete => rfl
      · rintro l hl ⟨hf, ht⟩
        rcases h2 l hl with h | h
        · exact h (hf ▸ ha)
        · exact h (ht ▸ List.mem_map_of_mem hmem)

/-- The steps of a translation between old versions. -/
theorem translateSteps_grown (g : Grown O N) (hc : Contiguous O.allv)
    (hok : countsOk O.allv = true) {a b : SV} (ha : a ∈ O.allv) (hb : b ∈ O.allv) (x : V) :
    translateSteps C N x a b = translateSteps C O x a b := by
  have hidx : ∀ v ∈ O.allv, ∃ k : Nat, k < O.allsch.length ∧ flatidx O.allv v = some (k : Int) := by
    intro v hv
    obtain ⟨p, hp, rfl⟩ := List.getElem_of_mem hv
    obtain ⟨k, h1, h2⟩ := flatidx_bounds hc hok hp
    have : p < O.allsch.length := by simpa using hp
    exact ⟨k, by omega, h1⟩
  have hi : ∀ v ∈ O.allv, flatidx N.allv v = flatidx O.allv v := by
    intro v hv
    obtain ⟨k, _, h1⟩ := hidx v hv
    rw [h1, flatidx_prefix g.allv h1]
  obtain ⟨ka, ha1, ha2⟩ := hidx a ha
  obtain ⟨kb, hb1, hb2⟩ := hidx b hb
  obtain ⟨c, hcs⟩ := g.allsch
  unfold translateSteps
  rw [hi a ha, hi b hb, ha2, hb2]
  simp only [Eval.ofOption_some, Eval.bind_ok]
  split
  · cases hr : rangeDown (ka : Int) (kb : Int) with
    | none => rfl
    | some ps =>
      simp only [Eval.ofOption_some, Eval.bind_ok]
      apply backSteps_grown g hi _ _ _ _ ha
      intro p hp
      unfold rangeDown at hr
      split at hr
      · cases hr
      · cases hr
        obtain ⟨k, hk, rfl⟩ := List.mem_map.1 hp
        rw [List.mem_range] at hk
        omega
  · split
    · have e : cueSlice N.allsch ((ka : Int) + 1) ((kb : Int) + 1) =
          cueSlice O.allsch ((ka : Int) + 1) ((kb : Int) + 1) := by
        unfold cueSlice
        have hl : O.allsch.length ≤ N.allsch.length := g.length
        by_cases hk : (ka : Int) + 1 < 0 ∨ (ka : Int) + 1 > (kb : Int) + 1
        · rw [if_pos (by omega), if_pos (by omega)]
        · rw [if_neg (by omega), if_neg (by omega), ← hcs, List.drop_append_of_le_length (by omega),
            List.take_append_of_le_length (by simp; omega)]
      rw [e]
      cases hs : cueSlice O.allsch ((ka : Int) + 1) ((kb : Int) + 1) with
      | none => rfl
      | some ss =>
        simp only [Eval.ofOption_some, Eval.bind_ok]
        apply fwdSteps_grown g _ _ _ _ ha
        intro s hmem
        unfold cueSlice at hs
        split at hs
        · cases hs
        · cases hs
          exact List.mem_of_mem_drop (List.mem_of_mem_take hmem)
    · rfl

theorem applyLens_kept {xs ys : List (CueLens V)} {k : Int} {a : SV} {x : V} {s : SchemaDef V}
    {st : Step V} (h : applyLens C xs k a x s = .ok st) :
    applyLens C (xs ++ ys) k a x s = .ok st := by
  rcases cueIdx_append xs ys k with h1 | ⟨h1, _⟩ | ⟨h1, _⟩
  · unfold applyLens at *; rw [h1]; exact h
  · unfold applyLens at h; rw [h1] at h; cases h
  · unfold applyLens at h; rw [h1] at h; cases h

theorem fwdSteps_kept (g : Grown O N) (ss : List (SchemaDef V)) : ∀ (a : SV) (x : V) {st : List (Step V)},
    fwdSteps C O ss a x = .ok st → fwdSteps C N ss a x = .ok st := by
  obtain ⟨more, h1, _⟩ := g.fwdLenses
  induction ss with
  | nil => intro a x st h; exact h
  | cons s ss ih =>
    intro a x st h
    simp only [fwdSteps] at h ⊢
    obtain ⟨y, hy, h⟩ := Eval.bind_eq_ok.1 h
    obtain ⟨ys, hys, h⟩ := Eval.bind_eq_ok.1 h
    have : fwdStep C N a x s = .ok y := by
      unfold fwdStep at hy ⊢
      split
      · rename_i he; rw [if_pos he] at hy; exact hy
      · rename_i he
        rw [if_neg he] at hy
        split
        · rename_i hl; rw [if_pos hl] at hy; rw [h1]; exact applyLens_kept hy
        · rename_i hl; rw [if_neg hl] at hy; exact hy
    rw [this, Eval.bind_ok, ih _ _ hys]
    exact h

theorem backSteps_kept (g : Grown O N) (ps : List Int) : ∀ (a : SV) (x : V) {st : List (Step V)},
    backSteps C O ps a x = .ok st → backSteps C N ps a x = .ok st := by
  obtain ⟨more, h1, _⟩ := g.backLenses
  obtain ⟨c, hc⟩ := g.allsch
  induction ps with
  | nil => intro a x st h; exact h
  | cons p ps ih =>
    intro a x st h
    simp only [backSteps] at h ⊢
    obtain ⟨s, hs, h⟩ := Eval.bind_eq_ok.1 h
    obtain ⟨k, hk, h⟩ := Eval.bind_eq_ok.1 h
    obtain ⟨y, hy, h⟩ := Eval.bind_eq_ok.1 h
    obtain ⟨ys, hys, h⟩ := Eval.bind_eq_ok.1 h
    rw [Eval.ofOption_eq_ok] at hs hk
    have e : cueIdx N.allsch p = some s := by
      rw [← hc]
      rcases cueIdx_append O.allsch c p with h2 | ⟨h2, _⟩ | ⟨h2, _⟩
      · rw [h2, hs]
      · rw [h2] at hs; cases hs
      · rw [h2] at hs; cases hs
    rw [e, Eval.ofOption_some, Eval.bind_ok, flatidx_prefix g.allv hk, Eval.ofOption_some,
      Eval.bind_ok, h1, applyLens_kept hy, Eval.bind_ok, ih _ _ hys]
    exact h

theorem translateSteps_kept (g : Grown O N) {a b : SV} {x : V} {st : List (Step V)}
    (h : translateSteps C O x a b = .ok st) : translateSteps C N x a b = .ok st := by
  unfold translateSteps at h ⊢
  split
  · rename_i hl
    rw [if_pos hl] at h
    obtain ⟨k1, e1, h⟩ := Eval.bind_eq_ok.1 h
    obtain ⟨k2, e2, h⟩ := Eval.bind_eq_ok.1 h
    obtain ⟨ps, e3, h⟩ := Eval.bind_eq_ok.1 h
    rw [Eval.ofOption_eq_ok] at e1 e2 e3
    rw [flatidx_prefix g.allv e1, flatidx_prefix g.allv e2, Eval.ofOption_some, Eval.bind_ok,
      Eval.ofOption_some, Eval.bind_ok, e3, Eval.ofOption_some, Eval.bind_ok]
    exact backSteps_kept g _ _ _ h
  · rename_i hl
    rw [if_neg hl] at h
    split
    · rename_i hl2
      rw [if_pos hl2] at h
      obtain ⟨k1, e1, h⟩ := Eval.bind_eq_ok.1 h
      obtain ⟨k2, e2, h⟩ := Eval.bind_eq_ok.1 h
      obtain ⟨ss, e3, h⟩ := Eval.bind_eq_ok.1 h
      rw [Eval.ofOption_eq_ok] at e1 e2 e3
      have e : cueSlice N.allsch (k1 + 1) (k2 + 1) = some ss := by
        obtain ⟨c, hcs⟩ := g.allsch
        unfold cueSlice at e3 ⊢
        split at e3
        · cases e3
        · rename_i hh
          have hl : O.allsch.length ≤ N.allsch.length := g.length
          rw [if_neg (by omega), ← e3, ← hcs, List.drop_append_of_le_length (by omega),
            List.take_append_of_le_length (by simp; omega)]
      rw [flatidx_prefix g.allv e1, flatidx_prefix g.allv e2, Eval.ofOption_some, Eval.bind_ok,
        Eval.ofOption_some, Eval.bind_ok, e, Eval.ofOption_some, Eval.bind_ok]
      exact fwdSteps_kept g _ _ _ h
    · rename_i hl2
      rw [if_neg hl2] at h
      exact h

/-! ### C136: versions and schemas -/

/-- `threeExact` before 1.0 was added. -/
def beforeThree : RawLineage SetCue.Val :=
  SetCue.withLenses { threeVersions with schemas := threeVersions.schemas.take 2 }
    [SetCue.lens ⟨0, 1⟩ ⟨0, 0⟩ [1]]

/-- The lineage bound from `beforeThree`. -/
def beforeThreeBound : Lineage SetCue.Val :=
  { threeBound with
    allsch := threeBound.allsch.take 2, lenses := [cueLens ⟨0, 1⟩ ⟨0, 0⟩ [1]] }

theorem beforeThree_eq : SetCue.bind beforeThree = .ok beforeThreeBound := by rfl

theorem beforeThree_extends : Extends beforeThree threeExact :=
  ⟨⟨threeVersions.schemas.drop 2, rfl⟩,
    ⟨[SetCue.lens ⟨1, 0⟩ ⟨0, 1⟩ [2], SetCue.lens ⟨0, 1⟩ ⟨1, 0⟩ [3]], rfl, by
      intro l hl
      simp only [List.mem_cons, List.not_mem_nil, or_false] at hl
      rcases hl with rfl | rfl
      · exact .inl (by decide)
      · exact .inr (by decide)⟩⟩

theorem beforeThree_contiguous : Contiguous beforeThreeBound.allv := by
  refine ⟨rfl, ?_⟩
  intro i hi
  match i, hi with
  | 0, _ => exact Or.inl rfl

theorem searchSynv_prefix {vs ws : List SV} (hw : SortedV ws) (hp : vs <+: ws) {v : SV}
    (hv : v ∈ vs) : searchSynv ws v = searchSynv vs v := by
  have hs : SortedV vs := List.Pairwise.sublist hp.sublist hw
  obtain ⟨h1, h2⟩ := searchSynv_found hs hv
  obtain ⟨_, a2, _⟩ := searchSynv_spec hs v
  obtain ⟨_, b2, b3⟩ := searchSynv_spec hw v
  have hl := hp.length_le
  have hget : ∀ k (hk : k < vs.length), ws[k]'(by omega) = vs[k] := by
    intro k hk; obtain ⟨c, rfl⟩ := hp; rw [List.getElem_append_left]
  rcases Nat.lt_trichotomy (searchSynv ws v) (searchSynv vs v) with h | h | h
  · have e1 := a2 (searchSynv ws v) (by omega) h
    have e2 := b3 (searchSynv ws v) (by omega) (Nat.le_refl _)
    rw [hget _ (by omega), e1] at e2; cases e2
  · exact h
  · have e := b2 (searchSynv vs v) (by omega) h
    rw [hget _ h1, h2, less_irrefl] at e; cases e

theorem schema_prefix (hw : SortedV N.allv) (hp : O.allsch <+: N.allsch) {v : SV}
    (hv : v ∈ O.allv) : N.Schema v = O.Schema v := by
  have hpv : O.allv <+: N.allv := hp.map _
  have hs : SortedV O.allv := List.Pairwise.sublist hpv.sublist hw
  have e := searchSynv_prefix hw hpv hv
  obtain ⟨h1, _⟩ := searchSynv_found hs hv
  have hl := hp.length_le
  simp only [allv_length] at h1
  unfold Lineage.Schema Lineage.schema
  rw [if_pos ((synvExists_iff hw v).2 (hpv.subset hv)), if_pos ((synvExists_iff hs v).2 hv), e,
    if_pos h1, if_pos (by omega)]

theorem ver_prefix (hp : O.allsch <+: N.allsch) {p : Nat} (hlt : p < O.allsch.length) :
    N.ver p = O.ver p := by
  obtain ⟨c, hc⟩ : O.allv <+: N.allv := hp.map _
  unfold Lineage.ver
  rw [← hc, List.getElem?_append_left (by simpa using hlt)]

theorem ver_mem {L : Lineage V} {p : Nat} (hlt : p < L.allsch.length) : L.ver p ∈ L.allv := by
  rw [ver_lt hlt]; exact List.getElem_mem _

/-- **C136**.  When versions are added at the end of a lineage and both lineages bind, each old
version keeps its schema: it is found at the same place, with the same version and body, and has
the same predecessor; it has the same successor, too, unless it was the last one or its version
is declared twice. -/
theorem C136_schemas (h : bindLineage C force r opts = .ok O)
    (h' : bindLineage C force' r' opts' = .ok N) (hp : r.schemas <+: r'.schemas) :
    (∀ v ∈ O.allv, N.Schema v = O.Schema v) ∧ N.first = O.first ∧
    (∀ p, p < O.allsch.length →
      N.allsch[p]? = O.allsch[p]? ∧ N.ver p = O.ver p ∧ N.predecessor p = O.predecessor p) ∧
    (N.allv.Nodup → ∀ p, p + 1 < O.allsch.length → N.successor p = O.successor p) := by
  have hpre := grow_allsch h h' hp
  have hw := bind_sorted h'
  have hs := bind_sorted h
  have hpv : O.allv <+: N.allv := hpre.map _
  have hl := hpre.length_le
  have hO := bind_pos h
  have hN := bind_pos h'
  refine ⟨fun v hv => schema_prefix hw hpre hv, ?_, ?_, ?_⟩
  · unfold Lineage.first
    rw [if_neg (by omega), if_neg (by omega)]
  · intro p hlt
    have hget : ∀ k, k < O.allsch.length → N.allsch[k]? = O.allsch[k]? := by
      intro k hk
      obtain ⟨c, hc⟩ := hpre
      rw [← hc, List.getElem?_append_left hk]
    refine ⟨hget p hlt, ver_prefix hpre hlt, ?_⟩
    have hv := ver_mem hlt
    have e := searchSynv_prefix hw hpv hv
    obtain ⟨h1, _⟩ := searchSynv_found hs hv
    simp only [allv_length] at h1
    unfold Lineage.predecessor
    rw [ver_prefix hpre hlt, e]
    split
    · rfl
    · split
      · rfl
      · have hk : searchSynv O.allv (O.ver p) - 1 < O.allv.length := by simp; omega
        have hk' : searchSynv O.allv (O.ver p) - 1 < N.allv.length := by simp; omega
        have e2 : goIdx N.allv (searchSynv O.allv (O.ver p) - 1) =
            goIdx O.allv (searchSynv O.allv (O.ver p) - 1) := by
          obtain ⟨c, hc⟩ := hpv
          unfold goIdx
          rw [← hc, List.getElem?_append_left hk]
        rw [e2]
        unfold goIdx
        rw [List.getElem?_eq_getElem hk]
        simp only [Res.bind_ok]
        have hmem : O.allv[searchSynv O.allv (O.ver p) - 1] ∈ O.allv := List.getElem_mem _
        have e3 := searchSynv_prefix hw hpv hmem
        obtain ⟨h3, _⟩ := searchSynv_found hs hmem
        simp only [allv_length] at h3
        unfold Lineage.schema
        rw [e3, if_pos h3, if_pos (by omega)]
  · intro hnd p hlt
    have hwS : StrictV N.allv := hw.strict hnd
    have hoS : StrictV O.allv := hs.strict (hnd.sublist hpv.sublist)
    rw [successor_eq hwS (by omega), successor_eq hoS (by omega), if_pos (by omega), if_pos hlt]

/-- **C136**.  Validating with an old schema gives the same result, errors included. -/
theorem C136_validate (h : bindLineage C force r opts = .ok O)
    (h' : bindLineage C force' r' opts' = .ok N) (hp : r.schemas <+: r'.schemas) {lin : Nat}
    (hH : H lin = O) (hH' : H' lin = N) {p : Nat} (hlt : p < O.allsch.length) (d : V) :
    validateFull C H' ⟨lin, p⟩ d = validateFull C H ⟨lin, p⟩ d := by
  have e := ((C136_schemas h h' hp).2.2.1 p hlt).1
  unfold validateFull
  simp only [hH, hH', Lineage.body?, e]

/-- **C136**.  `ValidateAny` keeps finding what it found: data that some old version accepts is
attributed to the same version; data that no old version accepts is either still rejected or
attributed to an added version. -/
theorem C136_validateAny (hP : PathsOk C) (h : bindLineage C force r opts = .ok O)
    (h' : bindLineage C force' r' opts' = .ok N) (hp : r.schemas <+: r'.schemas)
    (hd : (r'.schemas.map (·.version)).Nodup) {lin : Nat} (hH : H lin = O) (hH' : H' lin = N)
    (d : V) {n : Nat} (hn : r'.schemas.length ≤ n) :
    (∃ x, validateAny C H lin d n = .ok (some x) ∧ validateAny C H' lin d n = .ok (some x)) ∨
    (validateAny C H lin d n = .ok none ∧
      (validateAny C H' lin d n = .ok none ∨
        ∃ x, validateAny C H' lin d n = .ok (some x) ∧ O.allsch.length ≤ x.sch.pos)) := by
  have hpre := grow_allsch h h' hp
  have hlen := hpre.length_le
  have hw : StrictV N.allv :=
    (bind_sorted h').strict (nodup_of_map (by rwa [bind_versions h'] at hd))
  have hs : StrictV O.allv :=
    (bind_sorted h).strict (hw.nodup.sublist (show O.allv <+: N.allv from hpre.map _).sublist)
  have hO := bind_pos h
  rw [← bind_length h'] at hn
  have eO : validateAny C H lin d n = validateAnyLoop C H lin d n 0 := by
    unfold validateAny; rw [hH, schema_zero h]; rfl
  have eN : validateAny C H' lin d n = validateAnyLoop C H' lin d n 0 := by
    unfold validateAny; rw [hH', schema_zero h']; rfl
  have hget : ∀ k (hk : k < O.allsch.length), N.allsch[k]'(by omega) = O.allsch[k] := by
    intro k hk; obtain ⟨c, hc⟩ := hpre; simp only [← hc]; rw [List.getElem_append_left]
  rw [eO, eN]
  rcases validateAnyLoop_spec hP hs hH d n 0 hO (by omega) with ⟨i, hi, _, a1, a2, a3⟩ | ⟨a1, a2⟩
  · left
    refine ⟨_, a3, ?_⟩
    rcases validateAnyLoop_spec hP hw hH' d n 0 (by omega) (by omega) with
      ⟨k, hk, _, b1, b2, b3⟩ | ⟨b1, _⟩
    · have : k = i := by
        rcases Nat.lt_trichotomy k i with hlt | heq | hgt
        · exact absurd (hget k (by omega) ▸ b1) (a2 k hlt (Nat.zero_le _))
        · exact heq
        · exact absurd ((hget i hi).symm ▸ a1) (b2 i hgt (Nat.zero_le _))
      rw [b3, this]
    · exact absurd ((hget i hi).symm ▸ a1) (b1 i (by omega) (Nat.zero_le _))
  · right
    refine ⟨a2, ?_⟩
    rcases validateAnyLoop_spec hP hw hH' d n 0 (by omega) (by omega) with
      ⟨k, hk, _, b1, b2, b3⟩ | ⟨_, b2⟩
    · refine .inr ⟨_, b3, ?_⟩
      apply Nat.le_of_not_lt
      intro hlt
      exact a1 k hlt (Nat.zero_le _) (hget k hlt ▸ b1)
    · exact .inl b2

/-! ### C136: translation -/

/-- **C136**.  Translating with CUE lenses between old versions gives the same result - the same
instance, the same error or the same panic - if the old versions have no gaps. -/
theorem C136_translate_cue (h : bindLineage C force r opts = .ok O)
    (h' : bindLineage C force' r' opts' = .ok N) (he : Extends r r') (hg : goLenses opts = [])
    (hg' : goLenses opts' = []) (hc : Contiguous O.allv) (hH : H i.sch.lin = O)
    (hH' : H' i.sch.lin = N) (hlt : i.sch.pos < O.allsch.length) {v : SV} (hv : v ∈ O.allv)
    (n : Nat) : translate C H' n i v = translate C H n i v := by
  have g := grown_of_extends h h' he
  have hm : (H i.sch.lin).lensmap = [] := by rw [hH]; exact bind_lensmap_nil h hg
  have hm' : (H' i.sch.lin).lensmap = [] := by rw [hH']; exact bind_lensmap_nil h' hg'
  cases n with
  | zero => rfl
  | succ n =>
    cases hval : i.valid with
    | false => simp [translate, Inst.check, hval]
    | true =>
      rw [translate_cue hm hval, translate_cue hm' hval]
      have hok : countsOk O.allv = true := (bind_acceptable h).counts
      unfold translateCue
      simp only [hH, hH']
      rw [schema_prefix (bind_sorted h') g.allsch hv, g.ver hlt,
        translateSteps_grown g hc hok (ver_mem hlt) hv]
      obtain ⟨q, hq, hql, _⟩ := schema_found (bind_sorted h) hv
      rw [hq]
      have hval : ∀ d, validate C H' ⟨i.sch.lin, q⟩ d = validate C H ⟨i.sch.lin, q⟩ d := by
        intro d
        unfold validate
        rw [C136_validate h h' he.schemas hH hH' hql]
      simp only [hval]

/-- **C136**.  With gaps, too, what translates between old versions translates to the same
instance. -/
theorem C136_translate_cue_kept (h : bindLineage C force r opts = .ok O)
    (h' : bindLineage C force' r' opts' = .ok N) (he : Extends r r') (hg : goLenses opts = [])
    (hg' : goLenses opts' = []) (hH : H i.sch.lin = O)
    (hH' : H' i.sch.lin = N) (hlt : i.sch.pos < O.allsch.length) {v : SV} (hv : v ∈ O.allv)
    {n : Nat} {lacs : List Lac} (ht : translate C H n i v = .ok (j, lacs)) :
    translate C H' n i v = .ok (j, lacs) := by
  have g := grown_of_extends h h' he
  have hm : (H i.sch.lin).lensmap = [] := by rw [hH]; exact bind_lensmap_nil h hg
  have hm' : (H' i.sch.lin).lensmap = [] := by rw [hH']; exact bind_lensmap_nil h' hg'
  cases n with
  | zero => simp [translate] at ht
  | succ n =>
    cases hval : i.valid with
    | false => simp [translate, Inst.check, hval] at ht
    | true =>
      rw [translate_cue hm hval] at ht
      rw [translate_cue hm' hval]
      rw [translateCue_ok_iff] at ht ⊢
      obtain ⟨q, steps, a1, a2, a3, a4, a5, a6⟩ := ht
      obtain ⟨q', hq', hql, _⟩ := schema_found (bind_sorted h) hv
      rw [hH] at a1 a3
      have hqq : q = q' := by rw [hq'] at a1; cases a1; rfl
      refine ⟨q, steps, ?_, a2, ?_, a4, ?_, a6⟩
      · rw [hH', schema_prefix (bind_sorted h') g.allsch hv]; exact a1
      · rw [hH', g.ver hlt]; exact translateSteps_kept g a3
      · unfold validate at a5 ⊢
        rw [C136_validate h h' he.schemas hH hH' (hqq ▸ hql)]
        exact a5

/-- The hypotheses are met by adding 1.0 to 0.0 and 0.1: going down from 0.1 gives the same. -/
example (i : Inst SetCue.Val) (hi : i.sch = ⟨0, 1⟩) (n : Nat) :
    translate SetCue.cue (fun _ => threeExactBound) n i ⟨0, 0⟩ =
      translate SetCue.cue (fun _ => beforeThreeBound) n i ⟨0, 0⟩ :=
  C136_translate_cue beforeThree_eq threeExactBound_eq beforeThree_extends rfl rfl
    beforeThree_contiguous rfl rfl (by rw [hi]; decide) (by decide) n

example : translate SetCue.cue (fun _ => beforeThreeBound) 1 (instAt 1 [2]) ⟨0, 0⟩ =
    .ok (instAt 0 [1], []) := by rfl

example : validateAny SetCue.cue (fun _ => beforeThreeBound) 0 [3] 3 = .ok none ∧
    ∃ x, validateAny SetCue.cue (fun _ => threeExactBound) 0 [3] 3 = .ok (some x) ∧ x.sch.pos = 2 :=
  ⟨rfl, _, rfl, rfl⟩

theorem answer_grown {lin : Nat} (hH : H lin = O) (hH' : H' lin = N)
    (hver : ∀ p, p < O.allsch.length → N.ver p = O.ver p) {v : SV} {x : Res (Option (Inst V))} {o : Res (Inst V)}
    (hx : ∀ j, x = .ok (some j) → j.sch.lin = lin ∧ j.sch.pos < O.allsch.length)
    (h : Answer H v x o) : Answer H' v x o := by
  have hvj : ∀ j, x = .ok (some j) → versionOf H' j = versionOf H j := by
    intro j hj
    obtain ⟨h1, h2⟩ := hx j hj
    unfold versionOf
    rw [h1, hH, hH', hver _ h2]
  cases h with
  | used hv hj => exact .used hv (by rw [hvj _ rfl]; exact hj)
  | wrongVersion hv hj => exact .wrongVersion hv (by rw [hvj _ rfl]; exact hj)
  | forged hv => exact .forged hv
  | nil => exact .nil
  | failed e => exact .failed e
  | panicked k => exact .panicked k
  | hangs => exact .hangs

theorem goWalk_grown {ls ls' : List (ImperativeLens V)} {q : Nat} {o : Res (Inst V)}
    (hH : H i.sch.lin = O) (hH' : H' i.sch.lin = N) (hver : ∀ p, p < O.allsch.length → N.ver p = O.ver p)
    (hls : ∀ l ∈ ls, l ∈ ls') (hst : StayInLineage H i.sch.lin ls)
    (hlt : i.sch.pos < O.allsch.length) (hq : q < O.allsch.length)
    (h : GoWalk H ls i q o) : GoWalk H' ls' i q o := by
  have hv : ∀ p, p < O.allsch.length → (H' i.sch.lin).ver p = (H i.sch.lin).ver p := by
    intro p hp; rw [hH, hH', hver _ hp]
  have hsup : ∀ {a b : SV} {m : Mapper V}, Supplied ls a b m → Supplied ls' a b m := by
    rintro a b m ⟨l, h1, h2⟩; exact ⟨l, hls l h1, h2⟩
  have hans : ∀ {a b v : SV} {m : Mapper V} {x : Inst V} {p : Nat} {o : Res (Inst V)},
      Supplied ls a b m → Answer H v (m x ⟨i.sch.lin, p⟩) o → Answer H' v (m x ⟨i.sch.lin, p⟩) o := by
    intro a b v m x p o hs ha
    refine answer_grown hH hH' hver ?_ ha
    intro j hj
    obtain ⟨l, h1, _, _, h2⟩ := hs
    have := hst l h1 m h2 x ⟨i.sch.lin, p⟩ j rfl hj
    rw [hH] at this
    exact this
  have hup : ∀ {p : Nat} {x : Inst V} {o : Res (Inst V)}, p + 1 < O.allsch.length →
      GoUp H i.sch.lin ls p x o → GoUp H' i.sch.lin ls' p x o := by
    intro p x o hp hu
    cases hu with
    | minor hm => exact .minor (by rw [hv p (by omega), hv _ hp]; exact hm)
    | major hm hs ha =>
      refine .major (by rw [hv p (by omega), hv _ hp]; exact hm)
        (by rw [hv p (by omega), hv _ hp]; exact hsup hs) ?_
      rw [hv _ hp]; exact hans hs ha
  have hdown : ∀ {p : Nat} {x : Inst V} {o : Res (Inst V)}, p + 1 < O.allsch.length →
      GoDown H i.sch.lin ls p x o → GoDown H' i.sch.lin ls' p x o := by
    intro p x o hp hu
    cases hu with
    | ask hs ha =>
      refine .ask (by rw [hv p (by omega), hv _ hp]; exact hsup hs) ?_
      rw [hv p (by omega)]; exact hans hs ha
  have hasc : ∀ {p : Nat} {x : Inst V} {o : Res (Inst V)},
      GoAscend H i.sch.lin ls q p x o → GoAscend H' i.sch.lin ls' q p x o := by
    intro p x o h
    induction h with
    | there x => exact .there x
    | step hp hu _ ih => exact .step hp (hup (by omega) hu) ih
    | stop hp hu ho => exact .stop hp (hup (by omega) hu) ho
  have hdesc : ∀ {p : Nat} {x : Inst V} {o : Res (Inst V)}, GoDescend H i.sch.lin ls q p x o →
      p < O.allsch.length → GoDescend H' i.sch.lin ls' q p x o := by
    intro p x o h
    induction h with
    | there x => intro _; exact .there x
    | step hp hu _ ih => intro hlt; exact .step hp (hdown hlt hu) (ih (by omega))
    | stop hp hu ho => intro hlt; exact .stop hp (hdown hlt hu) ho
  unfold GoWalk at h ⊢
  split at h
  · rename_i hle
    rw [if_pos hle]
    exact hasc h
  · rename_i hle
    rw [if_neg hle]
    exact hdesc h hlt

/-- **C136**.  Translating with Go lenses between old versions gives the same result, if the
functions for the old pairs are still supplied and keep to the old versions. -/
theorem C136_translate_go (h : bindLineage C force r opts = .ok O)
    (h' : bindLineage C force' r' opts' = .ok N) (hp : r.schemas <+: r'.schemas)
    (hg : goLenses opts ≠ []) (hls : ∀ l ∈ goLenses opts, l ∈ goLenses opts')
    (h0 : O.ver 0 = ⟨0, 0⟩) (hd : N.allv.Nodup) (hH : H i.sch.lin = O) (hH' : H' i.sch.lin = N)
    (hst : StayInLineage H i.sch.lin (goLenses opts))
    (hst' : StayInLineage H' i.sch.lin (goLenses opts'))
    (hlt : i.sch.pos < O.allsch.length) {v : SV} (hv : v ∈ O.allv) {n : Nat}
    (hn : N.allsch.length < n) :
    translate C H' (n + 1) i v = translate C H (n + 1) i v := by
  have hpre := grow_allsch h h' hp
  have hlen := hpre.length_le
  have hO := bind_pos h
  have hdO : O.allv.Nodup := hd.sublist (show O.allv <+: N.allv from hpre.map _).sublist
  have hg' : goLenses opts' ≠ [] := by
    intro he
    cases hgl : goLenses opts with
    | nil => exact hg hgl
    | cons l ls => have := hls l (by rw [hgl]; simp); rw [he] at this; cases this
  cases hval : i.valid with
  | false => simp [translate, Inst.check, hval]
  | true =>
    obtain ⟨q, hq, rfl⟩ := List.getElem_of_mem hv
    have hq' : q < O.allsch.length := by simpa using hq
    rw [← ver_lt hq']
    obtain ⟨o, ho, e⟩ := (C33_go_walk h hg h0 hdO hH hst hval hlt hq' (n := n) (by omega) _).1 rfl
    rw [e, ← ver_prefix hpre hq']
    refine (C33_go_walk h' hg' (by rw [ver_prefix hpre hO]; exact h0) hd hH' hst' hval (by omega)
      (by omega) hn _).2 ⟨o, ?_, rfl⟩
    exact goWalk_grown hH hH' (fun _ => ver_prefix hpre) hls hst hlt hq' ho

/-- The hypotheses are met by adding 0.1 to 0.0 and 1.0 to both. -/
example : ∃ O N, goBind (SetCue.lin [SetCue.sch 0 0 [1], SetCue.sch 0 1 [1, 2]])
      [(⟨0, 1⟩, ⟨0, 0⟩)] = .ok O ∧
    goBind (SetCue.lin [SetCue.sch 0 0 [1], SetCue.sch 0 1 [1, 2], SetCue.sch 1 0 [3]])
      [(⟨0, 1⟩, ⟨0, 0⟩), (⟨0, 1⟩, ⟨1, 0⟩), (⟨1, 0⟩, ⟨0, 1⟩)] = .ok N ∧
    O.ver 0 = ⟨0, 0⟩ ∧ N.allv.Nodup ∧ O.allsch.length = 2 := ⟨_, _, rfl, rfl, rfl, by decide, rfl⟩

/-! ### C136: leaving out the newest versions; `IsAppendOnly` -/

theorem countsOk_prefix {vs ws : List SV} (h : vs <+: ws) (hok : countsOk ws = true) :
    countsOk vs = true := by
  unfold countsOk at *
  have hb : ∀ (l : List SV) (i : Nat) (x : Int), x ∈ bumps i l → x ≤ i + l.length := by
    intro l
    induction l with
    | nil => intro i x hx; simp [bumps] at hx
    | cons a l ih =>
      intro i x hx
      cases l with
      | nil => simp [bumps] at hx
      | cons b l =>
        simp only [bumps] at hx
        split at hx
        · rcases List.mem_cons.1 hx with rfl | hx
          · simp; omega
          · have := ih _ _ hx; simp at this ⊢; omega
        · have := ih _ _ hx; simp at this ⊢; omega
  unfold counts at hok ⊢
  split
  · rfl
  · rename_i hl
    have hlen := h.length_le
    rw [if_neg (by omega)] at hok
    simp only [List.all_append, Bool.and_eq_true, List.all_eq_true, decide_eq_true_eq,
      List.all_cons, List.all_nil] at hok ⊢
    have hpp : posList vs <+: posList ws := by
      obtain ⟨c, rfl⟩ := h
      exact List.cons_prefix_cons.2 ⟨rfl, bumps_append vs c 0⟩
    refine ⟨fun x hx => hok.1 x ((countsInit_prefix hpp).subset hx), ?_, trivial⟩
    have : (posList vs).getLastD 0 ≤ vs.length := by
      rw [List.getLastD_eq_getLast?]
      cases hg : (posList vs).getLast? with
      | none => simp
      | some x =>
        have hm := List.mem_of_getLast? hg
        unfold posList at hm
        rcases List.mem_cons.1 hm with rfl | hm
        · simp
        · have := hb vs 0 x hm; simpa using this
    omega

/-- **C136**.  Leaving out the newest versions and their lenses leaves a lineage that binds, as
far as Thema's own checks go: if `r'` binds, so does every shorter `r` with at least one schema
in which CUE finds no error. -/
theorem C136_shorter_binds (h' : bindLineage C force r' opts = .ok N) (hg : goLenses opts = [])
    (hp : r.schemas <+: r'.schemas) (hne : r.schemas ≠ [])
    (hl : r.lenses.getD [] <+: r'.lenses.getD [])
    (hex : r.exists_ = true) (hname : r.nameField = .concrete)
    (hsch : r.schemasField = .concrete) (hf : r.finalErr = false) (hr : r.rawErr = false)
    (hu : r.uniErr = false) : ∃ O, bindLineage C force r opts = .ok O := by
  obtain ⟨vs', ha', _, hlens⟩ := C16_accepts_iff.1 ⟨N, h'⟩
  have hlens := hlens hg
  obtain ⟨cs, hcs⟩ := hp
  have hvs : r.schemas.map (·.version) = (vs'.take r.schemas.length).map some := by
    have := ha'.versions
    rw [← hcs, List.map_append] at this
    have e := congrArg (List.take r.schemas.length) this
    rw [List.take_append_of_le_length (by simp), List.take_of_length_le (by simp)] at e
    rw [e, List.map_take]
  have hlen' : r'.schemas.length = vs'.length := by
    have := congrArg List.length ha'.versions; simpa using this
  have hle : r.schemas.length ≤ vs'.length := by rw [← hlen', ← hcs]; simp
  refine C16_accepts_iff.2 ⟨vs'.take r.schemas.length, ⟨hex, hname, hsch, hf, hr, hu, hvs, ?_, ?_,
    ?_, ?_⟩, fun hne => absurd hg hne, fun _ ls hls => ?_⟩
  · intro he
    rw [he] at hvs; simp at hvs; exact hne hvs
  · exact countsOk_prefix (List.take_prefix _ _) ha'.counts
  · intro i j hij hj
    simp only [List.length_take] at hj
    have := ha'.order i j hij (by omega)
    simpa using this
  · intro hon i hi hiv
    have := ha'.compat hon i (by rw [← hcs]; simp; omega) (by omega)
    simp only [← hcs] at this
    rw [List.getElem_append_left hi, List.getElem_append_left (by omega)] at this
    simpa using this
  · rw [hls] at hl
    simp only [Option.getD_some] at hl
    cases hl' : r'.lenses with
    | none =>
      rw [hl'] at hl
      simp at hl
      exact ⟨[], by simp [hl], fun i j _ hj => by simp at hj⟩
    | some ls' =>
      rw [hl'] at hl
      simp only [Option.getD_some] at hl
      obtain ⟨ps, e, hso⟩ := hlens ls' hl'
      obtain ⟨c, rfl⟩ := hl
      refine ⟨ps.take ls.length, ?_, ?_⟩
      · have := congrArg (List.take ls.length) e
        rw [List.map_append, List.take_append_of_le_length (by simp),
          List.take_of_length_le (by simp)] at this
        rw [this, List.map_take]
      · intro i j hij hj
        simp only [List.length_take] at hj
        have := hso i j hij (by omega)
        simpa using this

/-- **C136**.  A lineage that was extended at the end passes `IsAppendOnly`. -/
theorem C136_append_only (hrefl : ∀ x, C.subsumeRaw x x = true)
    (h : bindLineage C force r opts = .ok O) (h' : bindLineage C force' r' opts' = .ok N)
    (hp : r.schemas <+: r'.schemas) : isAppendOnly C O N = .ok () := by
  obtain ⟨c, hc⟩ := grow_allsch h h' hp
  refine ((C42_append_only_exact C O N).1).1 ?_
  intro k s hs
  refine ⟨s, ?_, hrefl _, hrefl _⟩
  rw [← hc, List.getElem?_append_left (List.getElem?_eq_some_iff.1 hs).1]
  exact hs

example : isAppendOnly SetCue.cue beforeThreeBound threeExactBound = .ok () :=
  C136_append_only (fun x => by simp [SetCue.cue]) beforeThree_eq threeExactBound_eq
    beforeThree_extends.schemas

example : ∃ O, bindLineage SetCue.cue false beforeThree [] = .ok O :=
  C136_shorter_binds threeExactBound_eq rfl beforeThree_extends.schemas (by decide)
    ⟨[SetCue.lens ⟨1, 0⟩ ⟨0, 1⟩ [2], SetCue.lens ⟨0, 1⟩ ⟨1, 0⟩ [3]], rfl⟩ rfl rfl rfl rfl rfl rfl

end Thema.Props

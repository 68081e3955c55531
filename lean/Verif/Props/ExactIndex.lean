import Verif.Spec.Openings
import Verif.Props.VersionLists
import Verif.Props.TranslateCue

/-!
# C165: the position that CUE computes for a version
-/

namespace Thema.Props

open Thema Thema.Spec

variable {vs : List SV}

theorem posList_openings (xs : List SV) : ∀ a,
    posList (xs ++ [a]) = (openings (xs ++ [a])).map (fun n : Nat => (n : Int)) := by
  induction xs using List.reverseRecOn with
  | nil => intro a; simp [posList, bumps, openings, Opens]
  | append_singleton xs x ih =>
    intro a
    have hb := bumps_snoc xs x a 0
    have hp : posList (xs ++ [x] ++ [a]) = posList (xs ++ [x]) ++
        (if x.major < a.major then [((xs.length + 1 : Nat) : Int)] else []) := by
      unfold posList
      rw [List.append_assoc, List.singleton_append, hb]; simp
    have hol : Opens (xs ++ [x] ++ [a]) (xs.length + 1) ↔ x.major < a.major := by
      rw [List.append_assoc, List.singleton_append]; exact opens_last
    have ho : openings (xs ++ [x] ++ [a]) = openings (xs ++ [x]) ++
        (if x.major < a.major then [xs.length + 1] else []) := by
      unfold openings
      have e1 : (xs ++ [x] ++ [a]).length = (xs.length + 1) + 1 := by simp
      have e2 : (xs ++ [x]).length = xs.length + 1 := by simp
      rw [e1, e2, List.range_succ, List.filter_append]
      congr 1
      · apply List.filter_congr
        intro k hk
        have : k < (xs ++ [x]).length := by rw [e2]; exact List.mem_range.1 hk
        simp only [opens_append this]
      · by_cases hm : x.major < a.major
        · rw [List.filter_cons_of_pos (by simpa using hol.2 hm)]
          simp [hm]
        · have : ¬ Opens (xs ++ [x] ++ [a]) (xs.length + 1) := fun h => hm (hol.1 h)
          rw [List.filter_cons_of_neg (by simpa using this)]
          simp [hm]
    rw [hp, ho, ih x, List.map_append]
    congr 1
    split <;> simp

theorem posList_eq_openings (h : vs ≠ []) :
    posList vs = (openings vs).map (fun n : Nat => (n : Int)) := by
  rcases List.eq_nil_or_concat vs with rfl | ⟨xs, a, rfl⟩
  · exact absurd rfl h
  · rw [List.concat_eq_append]; exact posList_openings xs a

theorem countsInit_take (pos : List Int) (h0 : pos.getD 0 0 = 0) : ∀ M, M < pos.length →
    ((countsInit pos).take M).sum =
      pos.getD M 0 - ((List.range M).map (fun m => (pos.take m).sum)).sum := by
  intro M
  induction M with
  | zero => intro _; rw [h0]; simp
  | succ M ih =>
    intro hM
    have hlt : M < (countsInit pos).length := by simp [countsInit]; omega
    have hs : (pos.take (M + 1)).sum = (pos.take M).sum + pos.getD M 0 := by
      rw [List.take_succ_eq_append_getElem (by omega), List.sum_append]
      simp [List.getElem?_eq_getElem (show M < pos.length by omega)]
    rw [List.take_succ_eq_append_getElem hlt, List.sum_append, ih (by omega), List.range_succ,
      List.map_append, List.sum_append]
    have hg : (countsInit pos)[M] = pos.getD (M + 1) 0 - (pos.take (M + 1)).sum := by
      simp [countsInit]
    simp only [List.sum_cons, List.sum_nil, List.map_cons, List.map_nil, hg, hs]
    omega

theorem map_cast_sum (l : List Nat) : (l.map (fun n : Nat => (n : Int))).sum = (l.sum : Nat) := by
  induction l with
  | nil => rfl
  | cons a l ih => simp [ih]

theorem openings_head (h : vs ≠ []) : ∃ t, openings vs = 0 :: t := by
  have h1 := posList_eq_openings h
  cases ho : openings vs with
  | nil => rw [ho] at h1; simp [posList] at h1
  | cons a t =>
    rw [ho] at h1
    simp only [posList, List.map_cons, List.cons.injEq] at h1
    exact ⟨t, by rw [show a = 0 by omega]⟩

/-- **C165**.  The position that CUE computes for a version: the position at which its
major opens, plus its minor number, less the shortfall of its major.  It is an error
if fewer majors open. -/
theorem C165_index (h : vs ≠ []) (v : SV) :
    flatidx vs v = ((openings vs)[v.major]?).map
      (fun o : Nat => ((o + v.minor : Nat) : Int) - (shortfall vs v.major : Int)) := by
  obtain ⟨t, ht⟩ := openings_head h
  have hp := posList_eq_openings h
  have hbasis : ∀ M, (basis vs)[M]? = ((openings vs)[M]?).map
      (fun o : Nat => (o : Int) - (shortfall vs M : Int)) := by
    intro M
    by_cases h1 : vs.length ≤ 1
    · have ho : openings vs = [0] := by
        have : vs.length = 1 := by have := List.length_pos_iff.2 h; omega
        simp [openings, this, Opens]
      have hb : basis vs = [0] := by simp [basis, counts, h1]
      rw [ho, hb]
      cases M with
      | zero => simp [shortfall]
      | succ M => simp
    · have hc : counts vs = countsInit (posList vs) ++
          [(vs.length : Int) - (posList vs).getLastD 0] := by
        unfold counts; rw [if_neg h1]
      have hlen : (counts vs).length = (openings vs).length := by
        rw [hc, hp, ht]; simp [countsInit]
      have hcl : (countsInit (posList vs)).length = (openings vs).length - 1 := by
        rw [hp]; simp [countsInit]
      have key : ∀ M, M < (openings vs).length → ((counts vs).take M).sum =
          ((openings vs).getD M 0 : Int) - (shortfall vs M : Int) := by
        intro M hM
        rw [hc, List.take_append_of_le_length (by omega),
          countsInit_take _ (by simp [posList]) M (by rw [hp]; simpa using hM), hp]
        congr 1
        · simp [List.getElem?_eq_getElem hM]
        · unfold shortfall
          rw [← map_cast_sum, List.map_map]
          congr 1
          apply List.map_congr_left
          intro m _
          simp only [Function.comp]
          rw [← List.map_take, map_cast_sum]
      have hb : basis vs = (List.range (openings vs).length).map
          (fun M => ((counts vs).take M).sum) := by
        unfold basis
        rw [hlen, ht]
        simp [List.range_succ_eq_map, Function.comp]
      rw [hb]
      by_cases hM : M < (openings vs).length
      · rw [List.getElem?_eq_getElem (by simpa using hM), List.getElem?_eq_getElem hM]
        simp only [List.getElem_map, List.getElem_range, Option.map_some, key M hM]
        simp [List.getElem?_eq_getElem hM]
      · rw [List.getElem?_eq_none (by simpa using hM), List.getElem?_eq_none (by omega)]
        rfl
  unfold flatidx
  rw [hbasis, Option.map_map]
  congr 1
  funext o
  simp only [Function.comp]
  push_cast
  omega

/-- 1.0 opens at 2, 2.0 at 3 and 4.0, the fourth major in the list, at 5; the versions
0.0, 0.1, 1.0, 2.0, 2.1, 4.0, 4.1 have no opening of number 4, and a version 3.1 would
be looked for at 5 + 1 - 2. -/
example : openings [⟨0, 0⟩, ⟨0, 1⟩, ⟨1, 0⟩, ⟨2, 0⟩, ⟨2, 1⟩, ⟨4, 0⟩, ⟨4, 1⟩] = [0, 2, 3, 5] ∧
    flatidx [⟨0, 0⟩, ⟨0, 1⟩, ⟨1, 0⟩, ⟨2, 0⟩, ⟨2, 1⟩, ⟨4, 0⟩, ⟨4, 1⟩] ⟨4, 1⟩ = none ∧
    flatidx [⟨0, 0⟩, ⟨0, 1⟩, ⟨1, 0⟩, ⟨2, 0⟩, ⟨2, 1⟩, ⟨4, 0⟩, ⟨4, 1⟩] ⟨3, 1⟩ = some 4 := by
  refine ⟨by decide, ?_, ?_⟩
  · rw [C165_index (by simp)]; decide
  · rw [C165_index (by simp)]; decide

/-- **C165**.  In a list of contiguous versions, the position computed for a version
falls short of its position by the shortfall of its major, which is zero exactly for
the first three majors. -/
theorem C165_contiguous (hc : Contiguous vs) {i : Nat} (hi : i < vs.length) :
    flatidx vs vs[i] = some ((i : Int) - (shortfall vs vs[i].major : Int)) ∧
      (shortfall vs vs[i].major = 0 ↔ vs[i].major ≤ 2) := by
  have hs := Contiguous.strictV hc
  have hne : vs ≠ [] := List.length_pos_iff.1 (by omega)
  have h1 : flatidx vs vs[i] = some ((i : Int) - (shortfall vs vs[i].major : Int)) := by
    obtain ⟨ns, hpos, hns, hb⟩ := contiguous_blocks hc
    have ho : (openings vs).map (fun n : Nat => (n : Int)) =
        (List.range ns.length).map (fun j => (((ns.take j).sum : Nat) : Int)) := by
      rw [← posList_eq_openings hne, hb, posList_blocks ns hpos, posList_eq hns]
    have hpi : ∃ _ : vs[i].major < ns.length, i = (ns.take vs[i].major).sum + vs[i].minor := by
      subst hb
      obtain ⟨hM, _, h⟩ := blocks_pos' hs hi
      exact ⟨hM, h⟩
    obtain ⟨hM, hpi⟩ := hpi
    have hM' : (openings vs)[vs[i].major]? = some ((ns.take vs[i].major).sum) := by
      have := congrArg (fun l : List Int => l[vs[i].major]?) ho
      simp only [List.getElem?_map, List.getElem?_range hM, Option.map_some] at this
      cases h : (openings vs)[vs[i].major]? with
      | none => rw [h] at this; cases this
      | some o =>
        rw [h] at this
        simp only [Option.map_some, Option.some.injEq] at this
        rw [show o = (ns.take vs[i].major).sum by omega]
    rw [C165_index hne, hM', Option.map_some, ← hpi]
  refine ⟨h1, ?_⟩
  rw [← (C26_index_exact hc hi).1, h1, Option.some.injEq]
  omega

/-- In 0.0, 0.1, 1.0, 2.0, 2.1, 3.0 the last is looked for at 3. -/
example : shortfall [⟨0, 0⟩, ⟨0, 1⟩, ⟨1, 0⟩, ⟨2, 0⟩, ⟨2, 1⟩, ⟨3, 0⟩] 3 = 2 ∧
    shortfall [⟨0, 0⟩, ⟨0, 1⟩, ⟨1, 0⟩, ⟨2, 0⟩, ⟨2, 1⟩, ⟨3, 0⟩] 2 = 0 := by decide

example : flatidx [⟨0, 0⟩, ⟨1, 0⟩, ⟨2, 0⟩, ⟨3, 0⟩] ⟨3, 0⟩ = some (3 - 1) :=
  (C165_contiguous four_contiguous (i := 3) (by decide)).1

theorem sum_nonneg' (l : List Int) (h : ∀ c ∈ l, 0 ≤ c) : 0 ≤ l.sum := by
  induction l with
  | nil => simp
  | cons a l ih =>
    have h1 := h a (by simp)
    have h2 := ih fun c hc => h c (by simp [hc])
    rw [List.sum_cons]; omega

/-- **C165**.  In every list of versions that can be bound, no computed position is
negative. -/
theorem C165_nonneg (h : CanBind vs) {v : SV} {k : Int} (hk : flatidx vs v = some k) : 0 ≤ k := by
  have hc := countsOk_iff.2 (C157_binds_iff.1 h).2.2
  have hn : ∀ c ∈ counts vs, 0 ≤ c := by
    intro c hc'
    have := List.all_eq_true.1 hc c hc'
    simpa using this
  have hb : ∀ b ∈ basis vs, 0 ≤ b := by
    intro b hb
    unfold basis at hb
    rcases List.mem_cons.1 hb with rfl | hb
    · omega
    · obtain ⟨m, _, rfl⟩ := List.mem_map.1 hb
      exact sum_nonneg' _ fun c hc' => hn c (List.mem_of_mem_take hc')
  unfold flatidx at hk
  obtain ⟨b, hb', rfl⟩ := Option.map_eq_some_iff.1 hk
  have := hb b (List.mem_of_getElem? hb')
  omega

example : ∀ k, flatidx threeExactBound.allv ⟨1, 5⟩ = some k → 0 ≤ k := fun _ hk =>
  C165_nonneg ⟨_, _, _, _, _, _, threeExactBound_eq, rfl⟩ hk

/-! ### C166: translation in all majors -/

variable {V : Type} {C : Cue V} {force : Bool} {r : RawLineage V} {opts : List (BindOption V)}
  {L : Lineage V} {H : Heap V} {i j : Inst V} {lacs : List Lac}

/-- The position at which CUE looks for the version at position `p`. -/
def landing (L : Lineage V) (p : Nat) : Nat := p - shortfall L.allv (L.ver p).major

theorem landing_spec (h : bindLineage C force r opts = .ok L) (hc : Contiguous L.allv) {p : Nat}
    (hp : p < L.allsch.length) :
    flatidx L.allv (L.ver p) = some (landing L p : Int) ∧ landing L p ≤ p ∧
      (landing L p = p ↔ (L.ver p).major ≤ 2) := by
  have hp' : p < L.allv.length := by simpa using hp
  obtain ⟨h1, h2⟩ := C165_contiguous hc hp'
  have h3 := C165_nonneg ⟨_, _, _, _, _, _, h, rfl⟩ h1
  rw [← ver_lt hp] at h1 h2 h3
  unfold landing
  rw [← h2, h1]
  refine ⟨?_, by omega, by omega⟩
  congr 1
  omega

/-- **C166**.  Translating up from one of the first three majors: the walk from
neighbour to neighbour goes as far as the position that is computed for the target,
and the data found there is what is delivered. -/
theorem C166_up_low (h : bindLineage C force r opts = .ok L) (hg : goLenses opts = [])
    (hc : Contiguous L.allv) (he : ExactLenses L) (hH : H i.sch.lin = L) (hv : i.valid = true)
    (hst : C.isStruct i.raw = true) (hp2 : (L.ver i.sch.pos).major ≤ 2) {q : Nat}
    (hq : q < L.allsch.length) (hlt : i.sch.pos < q) (n : Nat) :
    translate C H (n + 1) i (L.ver q) = .ok (j, lacs) ↔
      lacs = [] ∧ ∃ y, Ascend C L i.sch.pos i.raw (landing L q) y ∧
        Delivers C L ⟨i.sch.lin, q⟩ y j := by
  have hm : (H i.sch.lin).lensmap = [] := by rw [hH]; exact bind_lensmap_nil h hg
  have hs := Contiguous.strictV hc
  have hp : i.sch.pos < L.allsch.length := by omega
  obtain ⟨hfq, hqle, _⟩ := landing_spec h hc hq
  have hsteps : ∀ y, (∃ ss, translateSteps C L i.raw (L.ver i.sch.pos) (L.ver q) = .ok ss ∧
      translateResult i.raw ss = y) ↔ Ascend C L i.sch.pos i.raw (landing L q) y := by
    intro y
    unfold translateSteps
    rw [less_asymm ((ver_less_iff hs hp hq).2 hlt), (ver_less_iff hs hp hq).2 hlt,
      flatidx_ver hc hp hp2, hfq]
    simp only [Bool.false_eq_true, if_false, if_true, Eval.ofOption_some, Eval.bind_ok]
    unfold cueSlice
    by_cases hle : i.sch.pos ≤ landing L q
    · obtain ⟨d, hd⟩ : ∃ d, landing L q = i.sch.pos + d := ⟨landing L q - i.sch.pos, by omega⟩
      rw [if_neg (by omega)]
      have e1 : ((i.sch.pos : Int) + 1).toNat = i.sch.pos + 1 := by omega
      have e2 : ((landing L q : Int) + 1 - ((i.sch.pos : Int) + 1)).toNat = d := by omega
      rw [e1, e2, Eval.ofOption_some, Eval.bind_ok, hd]
      exact fwdSteps_iff hc he (bind_lensSorted h hg) d (by omega)
    · rw [if_pos (by omega)]
      constructor
      · rintro ⟨_, h1, _⟩; simp at h1
      · intro ha; have := ascend_le ha; omega
  rw [translate_cue hm hv, translateCue_ok_iff, hH, schema_ver hs hq]
  constructor
  · rintro ⟨newpos, steps, h1, _, h3, h4, h5, rfl⟩
    injection h1 with h1; subst h1
    obtain ⟨hacc, rfl⟩ := (validate_ok_iff hH hq).1 h5
    exact ⟨rfl, _, (hsteps _).1 ⟨steps, h3, rfl⟩, hq, h4, hacc, rfl⟩
  · rintro ⟨rfl, y, hw, hq', h4, hacc, rfl⟩
    obtain ⟨ss, h3, rfl⟩ := (hsteps y).2 hw
    exact ⟨q, ss, rfl, hst, h3, h4, (validate_ok_iff hH hq).2 ⟨hacc, rfl⟩, rfl⟩

/-- **C166**.  Translating up from a later major: the data is delivered untranslated if
the same position is computed for both versions; otherwise, if the schema after the
position computed for the instance has the instance's major, the data is unified with
it, and the walk goes on from there as far as the position computed for the target.
In all other cases translation fails. -/
theorem C166_up_high (h : bindLineage C force r opts = .ok L) (hg : goLenses opts = [])
    (hc : Contiguous L.allv) (he : ExactLenses L) (hH : H i.sch.lin = L) (hv : i.valid = true)
    (hst : C.isStruct i.raw = true) (hp3 : 3 ≤ (L.ver i.sch.pos).major) {q : Nat}
    (hq : q < L.allsch.length) (hlt : i.sch.pos < q) (n : Nat) :
    translate C H (n + 1) i (L.ver q) = .ok (j, lacs) ↔
      lacs = [] ∧ ∃ y, Delivers C L ⟨i.sch.lin, q⟩ y j ∧
        ((landing L i.sch.pos = landing L q ∧ y = i.raw) ∨
          ∃ (p : Nat) (hp : p < L.allsch.length), p = landing L i.sch.pos + 1 ∧
            (L.ver p).major = (L.ver i.sch.pos).major ∧
            C.isErr (C.embed i.raw L.allsch[p].body) = false ∧
            Ascend C L p (C.embed i.raw L.allsch[p].body) (landing L q) y) := by
  have hm : (H i.sch.lin).lensmap = [] := by rw [hH]; exact bind_lensmap_nil h hg
  have hs := Contiguous.strictV hc
  have hp : i.sch.pos < L.allsch.length := by omega
  obtain ⟨hfq, hqle, _⟩ := landing_spec h hc hq
  obtain ⟨hfp, hple, hpeq⟩ := landing_spec h hc hp
  have hplt : landing L i.sch.pos + 1 ≤ i.sch.pos := by
    have : landing L i.sch.pos ≠ i.sch.pos := fun e => by have := hpeq.1 e; omega
    omega
  have hsteps : ∀ y, (∃ ss, translateSteps C L i.raw (L.ver i.sch.pos) (L.ver q) = .ok ss ∧
      translateResult i.raw ss = y) ↔
        ((landing L i.sch.pos = landing L q ∧ y = i.raw) ∨
          ∃ (p : Nat) (hp : p < L.allsch.length), p = landing L i.sch.pos + 1 ∧
            (L.ver p).major = (L.ver i.sch.pos).major ∧
            C.isErr (C.embed i.raw L.allsch[p].body) = false ∧
            Ascend C L p (C.embed i.raw L.allsch[p].body) (landing L q) y) := by
    intro y
    unfold translateSteps
    rw [less_asymm ((ver_less_iff hs hp hq).2 hlt), (ver_less_iff hs hp hq).2 hlt, hfp, hfq]
    simp only [Bool.false_eq_true, if_false, if_true, Eval.ofOption_some, Eval.bind_ok]
    unfold cueSlice
    by_cases hle : landing L i.sch.pos ≤ landing L q
    · obtain ⟨d, hd⟩ : ∃ d, landing L q = landing L i.sch.pos + d :=
        ⟨landing L q - landing L i.sch.pos, by omega⟩
      rw [if_neg (by omega)]
      have e1 : ((landing L i.sch.pos : Int) + 1).toNat = landing L i.sch.pos + 1 := by omega
      have e2 : ((landing L q : Int) + 1 - ((landing L i.sch.pos : Int) + 1)).toNat = d := by omega
      rw [e1, e2, Eval.ofOption_some, Eval.bind_ok, hd]
      cases d with
      | zero =>
        simp only [List.take_zero, fwdSteps, Nat.add_zero]
        constructor
        · rintro ⟨ss, h1, rfl⟩
          injection h1 with h1; subst h1
          exact .inl ⟨trivial, rfl⟩
        · rintro (⟨_, rfl⟩ | ⟨p, _, rfl, _, _, ha⟩)
          · exact ⟨[], rfl, rfl⟩
          · have := ascend_le ha; omega
      | succ d =>
        have hl1 : landing L i.sch.pos + 1 < L.allsch.length := by omega
        rw [take_drop_cons _ _ _ hl1]
        have hmaj : (L.ver (landing L i.sch.pos + 1)).major ≤ (L.ver i.sch.pos).major :=
          major_le hs hplt hp
        simp only [fwdSteps, fwdStep, ver_sch hl1]
        have e : landing L i.sch.pos + (d + 1) = (landing L i.sch.pos + 1) + d := by omega
        by_cases hmeq : (L.ver i.sch.pos).major = (L.ver (landing L i.sch.pos + 1)).major
        · rw [if_pos hmeq]
          cases hE : C.isErr (C.embed i.raw L.allsch[landing L i.sch.pos + 1].body) with
          | true =>
            constructor
            · rintro ⟨ss, h1, _⟩; simp at h1
            · rintro (⟨h0, _⟩ | ⟨p, _, rfl, _, h1, _⟩)
              · omega
              · rw [hE] at h1; cases h1
          | false =>
            simp only [Bool.false_eq_true, if_false, Eval.bind_ok]
            have hit := fwdSteps_iff (C := C) hc he (bind_lensSorted h hg) d
              (p := landing L i.sch.pos + 1)
              (x := C.embed i.raw L.allsch[landing L i.sch.pos + 1].body) (y := y) (by omega)
            constructor
            · rintro ⟨ss, h1, rfl⟩
              obtain ⟨ss', h2, h3⟩ := Eval.bind_eq_ok.1 h1
              injection h3 with h3; subst h3
              refine .inr ⟨_, hl1, rfl, hmeq.symm, hE, ?_⟩
              rw [e, ← hit]
              exact ⟨ss', h2, by rw [translateResult_cons]⟩
            · rintro (⟨h0, _⟩ | ⟨p, _, rfl, _, _, ha⟩)
              · omega
              · rw [e, ← hit] at ha
                obtain ⟨ss', h2, rfl⟩ := ha
                exact ⟨_, by rw [h2]; rfl, by rw [translateResult_cons]⟩
        · rw [if_neg hmeq, if_neg (by omega)]
          constructor
          · rintro ⟨ss, h1, _⟩; simp at h1
          · rintro (⟨h0, _⟩ | ⟨p, _, rfl, h1, _, _⟩)
            · omega
            · exact absurd h1.symm hmeq
    · rw [if_pos (by omega)]
      constructor
      · rintro ⟨_, h1, _⟩; simp at h1
      · rintro (⟨h0, _⟩ | ⟨p, _, rfl, _, _, ha⟩)
        · omega
        · have := ascend_le ha; omega
  rw [translate_cue hm hv, translateCue_ok_iff, hH, schema_ver hs hq]
  constructor
  · rintro ⟨newpos, steps, h1, _, h3, h4, h5, rfl⟩
    injection h1 with h1; subst h1
    obtain ⟨hacc, rfl⟩ := (validate_ok_iff hH hq).1 h5
    exact ⟨rfl, _, ⟨hq, h4, hacc, rfl⟩, (hsteps _).1 ⟨steps, h3, rfl⟩⟩
  · rintro ⟨rfl, y, ⟨hq', h4, hacc, rfl⟩, hw⟩
    obtain ⟨ss, h3, rfl⟩ := (hsteps y).2 hw
    exact ⟨q, ss, rfl, hst, h3, h4, (validate_ok_iff hH hq).2 ⟨hacc, rfl⟩, rfl⟩

/-- **C166**.  Translating down from a major after the third never applies a lens: the
data is delivered untranslated if the same position is computed for both versions;
otherwise translation fails. -/
theorem C166_down_high (h : bindLineage C force r opts = .ok L) (hg : goLenses opts = [])
    (hc : Contiguous L.allv) (he : ExactLenses L) (hH : H i.sch.lin = L) (hv : i.valid = true)
    (hst : C.isStruct i.raw = true) (hp : i.sch.pos < L.allsch.length)
    (hp3 : 3 ≤ (L.ver i.sch.pos).major) {q : Nat} (hlt : q < i.sch.pos) (n : Nat) :
    translate C H (n + 1) i (L.ver q) = .ok (j, lacs) ↔
      lacs = [] ∧ landing L i.sch.pos = landing L q ∧ Delivers C L ⟨i.sch.lin, q⟩ i.raw j := by
  have hm : (H i.sch.lin).lensmap = [] := by rw [hH]; exact bind_lensmap_nil h hg
  have hs := Contiguous.strictV hc
  have hq : q < L.allsch.length := by omega
  obtain ⟨hfq, hqle, _⟩ := landing_spec h hc hq
  obtain ⟨hfp, hple, hpeq⟩ := landing_spec h hc hp
  have hplt : landing L i.sch.pos + 1 ≤ i.sch.pos := by
    have : landing L i.sch.pos ≠ i.sch.pos := fun e => by have := hpeq.1 e; omega
    omega
  have hsteps : ∀ ss, translateSteps C L i.raw (L.ver i.sch.pos) (L.ver q) = .ok ss ↔
      (landing L i.sch.pos = landing L q ∧ ss = []) := by
    intro ss
    unfold translateSteps
    rw [(ver_less_iff hs hq hp).2 hlt, hfp, hfq]
    simp only [if_true, Eval.ofOption_some, Eval.bind_ok]
    unfold rangeDown
    by_cases hle : landing L q ≤ landing L i.sch.pos
    · rw [if_neg (by omega), Eval.ofOption_some, Eval.bind_ok]
      cases hd : ((landing L i.sch.pos : Int) - (landing L q : Int)).toNat with
      | zero =>
        simp only [List.range_zero, List.map_nil, backSteps, Eval.ok.injEq]
        constructor
        · rintro rfl; exact ⟨by omega, rfl⟩
        · rintro ⟨_, rfl⟩; rfl
      | succ d =>
        constructor
        · intro h3
          exfalso
          rw [range_map_succ] at h3
          simp only [backSteps] at h3
          obtain ⟨k, hk⟩ : ∃ k : Nat, (landing L i.sch.pos : Int) - 1 = (k : Int) :=
            ⟨landing L i.sch.pos - 1, by omega⟩
          rw [hk, cueIdx_nat, List.getElem?_eq_getElem (by omega)] at h3
          simp only [Eval.ofOption_some, Eval.bind_ok] at h3
          obtain ⟨idx, hidx, h3⟩ := Eval.bind_eq_ok.1 h3
          obtain ⟨s, hs3, _⟩ := Eval.bind_eq_ok.1 h3
          obtain ⟨l, hl, hf, hto, _, _⟩ := applyLens_ok.1 hs3
          have hlm : l ∈ backwardLenses L.lenses := by
            unfold cueIdx at hl
            split at hl
            · exact List.mem_of_getElem? hl
            · cases hl
          have hpair : (l.to, l.frm) ∈ (backwardLenses L.lenses).map pairTF :=
            List.mem_map.2 ⟨l, hlm, rfl⟩
          rw [backward_pairs hs he (bind_lensSorted h hg)] at hpair
          obtain ⟨m, hm', hmeq⟩ := List.mem_map.1 hpair
          rw [List.mem_range] at hm'
          simp only [Prod.mk.injEq] at hmeq
          rw [ver_sch (by omega)] at hto
          have e1 : m = k := ver_inj hs (by omega) (by omega) (by rw [hmeq.1, hto])
          have e2 : m + 1 = i.sch.pos := ver_inj hs (by omega) hp (by rw [hmeq.2, hf])
          omega
        · rintro ⟨h0, _⟩; omega
    · rw [if_pos (by omega)]
      constructor
      · intro h1; simp at h1
      · rintro ⟨h0, _⟩; omega
  rw [translate_cue hm hv, translateCue_ok_iff, hH, schema_ver hs hq]
  constructor
  · rintro ⟨newpos, steps, h1, _, h3, h4, h5, rfl⟩
    injection h1 with h1; subst h1
    obtain ⟨hacc, rfl⟩ := (validate_ok_iff hH hq).1 h5
    obtain ⟨h6, rfl⟩ := (hsteps steps).1 h3
    exact ⟨rfl, h6, hq, h4, hacc, rfl⟩
  · rintro ⟨rfl, h6, hq', h4, hacc, rfl⟩
    exact ⟨q, [], rfl, hst, (hsteps []).2 ⟨h6, rfl⟩, h4, (validate_ok_iff hH hq).2 ⟨hacc, rfl⟩, rfl⟩

/-- **C166**.  So within a major after the third nothing can be translated down. -/
theorem C166_same_major_down (h : bindLineage C force r opts = .ok L) (hg : goLenses opts = [])
    (hc : Contiguous L.allv) (he : ExactLenses L) (hH : H i.sch.lin = L)
    (hp : i.sch.pos < L.allsch.length) (hp3 : 3 ≤ (L.ver i.sch.pos).major) {q : Nat}
    (hlt : q < i.sch.pos) (hmaj : (L.ver q).major = (L.ver i.sch.pos).major) (n : Nat)
    (x : Inst V × List Lac) : translate C H n i (L.ver q) ≠ .ok x := by
  intro ht
  cases n with
  | zero => simp [translate] at ht
  | succ n =>
    have hv : i.valid = true := by
      cases hv : i.valid with
      | true => rfl
      | false => simp [translate, Inst.check, hv] at ht
    have hm : (H i.sch.lin).lensmap = [] := by rw [hH]; exact bind_lensmap_nil h hg
    have hst : C.isStruct i.raw = true := by
      have ht' := ht
      rw [translate_cue hm hv, translateCue_ok_iff] at ht'
      exact ht'.choose_spec.choose_spec.2.1
    obtain ⟨_, h1, _⟩ := (C166_down_high h hg hc he hH hv hst hp hp3 hlt n).1 ht
    have hq : q < L.allsch.length := by omega
    have e1 : landing L q = q - shortfall L.allv (L.ver i.sch.pos).major := by
      unfold landing; rw [hmaj]
    have e2 : landing L i.sch.pos = i.sch.pos - shortfall L.allv (L.ver i.sch.pos).major := rfl
    obtain ⟨h2, _⟩ := C165_contiguous hc (by simpa using hq : q < L.allv.length)
    have h3 := C165_nonneg ⟨_, _, _, _, _, _, h, rfl⟩ h2
    rw [← ver_lt hq, hmaj] at h3
    omega

/-- 0.0, 1.0, 2.0, 3.0, 3.1 with exactly the required lenses. -/
def fiveExact : RawLineage SetCue.Val :=
  SetCue.lin [SetCue.sch 0 0 [0], SetCue.sch 1 0 [1], SetCue.sch 2 0 [2, 7], SetCue.sch 3 0 [3, 7],
    SetCue.sch 3 1 [3, 7]]
    [SetCue.lens ⟨1, 0⟩ ⟨0, 0⟩ [0], SetCue.lens ⟨0, 0⟩ ⟨1, 0⟩ [1], SetCue.lens ⟨2, 0⟩ ⟨1, 0⟩ [1],
     SetCue.lens ⟨1, 0⟩ ⟨2, 0⟩ [7], SetCue.lens ⟨3, 0⟩ ⟨2, 0⟩ [2], SetCue.lens ⟨2, 0⟩ ⟨3, 0⟩ [3],
     SetCue.lens ⟨3, 1⟩ ⟨3, 0⟩ [3]]

/-- The lineage bound from `fiveExact`. -/
def fiveExactBound : Lineage SetCue.Val :=
  { name := "toy".toList,
    allsch := [⟨⟨0, 0⟩, [0], [0], []⟩, ⟨⟨1, 0⟩, [1], [1], []⟩, ⟨⟨2, 0⟩, [2, 7], [2, 7], []⟩,
      ⟨⟨3, 0⟩, [3, 7], [3, 7], []⟩, ⟨⟨3, 1⟩, [3, 7], [3, 7], []⟩],
    lenses := [cueLens ⟨1, 0⟩ ⟨0, 0⟩ [0], cueLens ⟨0, 0⟩ ⟨1, 0⟩ [1], cueLens ⟨2, 0⟩ ⟨1, 0⟩ [1],
     cueLens ⟨1, 0⟩ ⟨2, 0⟩ [7], cueLens ⟨3, 0⟩ ⟨2, 0⟩ [2], cueLens ⟨2, 0⟩ ⟨3, 0⟩ [3],
     cueLens ⟨3, 1⟩ ⟨3, 0⟩ [3]],
    lensmap := [] }

theorem fiveExactBound_eq : SetCue.bind fiveExact = .ok fiveExactBound := by rfl

theorem fiveExactBound_contiguous : Contiguous fiveExactBound.allv := by
  refine ⟨rfl, ?_⟩
  intro i hi
  match i, hi with
  | 0, _ => exact Or.inr rfl
  | 1, _ => exact Or.inr rfl
  | 2, _ => exact Or.inr rfl
  | 3, _ => exact Or.inl rfl

theorem fiveExactBound_exact : ExactLenses fiveExactBound := by
  refine ⟨by decide, ?_⟩
  intro id
  rw [← mem_requiredList]
  simp [fiveExactBound, Lineage.allv, requiredList, cueLens]

/-- From 1.0 to 3.1 the walk ends at 3.0. -/
example : ∃ y, Ascend SetCue.cue fiveExactBound 1 [1] 3 y ∧
    Delivers SetCue.cue fiveExactBound ⟨0, 4⟩ y (instAt 4 [3]) :=
  ((C166_up_low (C := SetCue.cue) (j := instAt 4 [3]) (lacs := [])
    (H := fun _ => fiveExactBound) (i := instAt 1 [1]) fiveExactBound_eq rfl
    fiveExactBound_contiguous fiveExactBound_exact rfl rfl rfl (by decide) (q := 4) (by decide)
    (by decide) 0).1 (by rfl)).2

/-- From 3.0 to 3.1 the data is unified with 3.0, once more, and delivered. -/
example : ∃ y, Delivers SetCue.cue fiveExactBound ⟨0, 4⟩ y (instAt 4 [7]) ∧
    ((landing fiveExactBound 3 = landing fiveExactBound 4 ∧ y = [7]) ∨
      ∃ (p : Nat) (hp : p < fiveExactBound.allsch.length), p = landing fiveExactBound 3 + 1 ∧
        (fiveExactBound.ver p).major = 3 ∧
        SetCue.cue.isErr (SetCue.cue.embed [7] fiveExactBound.allsch[p].body) = false ∧
        Ascend SetCue.cue fiveExactBound p (SetCue.cue.embed [7] fiveExactBound.allsch[p].body)
          (landing fiveExactBound 4) y) :=
  ((C166_up_high (C := SetCue.cue) (j := instAt 4 [7]) (lacs := [])
    (H := fun _ => fiveExactBound) (i := instAt 3 [7]) fiveExactBound_eq rfl
    fiveExactBound_contiguous fiveExactBound_exact rfl rfl rfl (by decide) (q := 4) (by decide)
    (by decide) 0).1 (by rfl)).2

/-- From 3.0 to 2.0 the data is delivered as it is, from 3.0 to 1.0 translation fails. -/
example : translate SetCue.cue (fun _ => fiveExactBound) 1 (instAt 3 [7]) ⟨2, 0⟩ =
      .ok (instAt 2 [7], []) ∧
    ∀ x, translate SetCue.cue (fun _ => fiveExactBound) 1 (instAt 3 [7]) ⟨1, 0⟩ ≠ .ok x := by
  refine ⟨(C166_down_high (C := SetCue.cue) (H := fun _ => fiveExactBound) (i := instAt 3 [7])
    fiveExactBound_eq rfl fiveExactBound_contiguous fiveExactBound_exact rfl rfl rfl (by decide)
    (by decide) (q := 2) (by decide) 0).2 ⟨rfl, by decide, by decide, rfl, rfl, rfl⟩, ?_⟩
  rintro ⟨j, lacs⟩ hx
  exact absurd ((C166_down_high (C := SetCue.cue) (H := fun _ => fiveExactBound) (i := instAt 3 [7])
    fiveExactBound_eq rfl fiveExactBound_contiguous fiveExactBound_exact rfl rfl rfl (by decide)
    (by decide) (q := 1) (by decide) 0).1 hx).2.1 (by decide)

example (x : Inst SetCue.Val × List Lac) :
    translate SetCue.cue (fun _ => fiveExactBound) 1 (instAt 4 [7]) ⟨3, 0⟩ ≠ .ok x :=
  C166_same_major_down (C := SetCue.cue) (H := fun _ => fiveExactBound) (i := instAt 4 [7])
    fiveExactBound_eq rfl fiveExactBound_contiguous fiveExactBound_exact rfl (by decide)
    (by decide) (q := 3) (by decide) rfl 1 x

end Thema.Props

import Verif.Props.TranslateGo
import Verif.Spec.RoundTrip

/-!
# Translating there and back

If the lenses between neighbouring versions undo each other, so do translations between any two
versions.
-/

namespace Thema.Props

open Thema Thema.Spec

variable {V : Type} {C : Cue V} {force : Bool} {r : RawLineage V} {opts : List (BindOption V)}
  {L : Lineage V} {H : Heap V} {i j : Inst V} {lacs : List Lac}

/-! ### Steps depend on the data only -/

theorem answer_dataOnly {ls : List (ImperativeLens V)} (hdo : DataOnly ls) {a b v : SV}
    {m : Mapper V} (hs : Supplied ls a b m) {i i' k : Inst V} {s : SchPtr} (h1 : i.sch = i'.sch)
    (h2 : i.raw = i'.raw) (h3 : i.valid = i'.valid) (h : Answer H v (m i s) (.ok k)) :
    ∃ k', Answer H v (m i' s) (.ok k') ∧ k'.raw = k.raw ∧ k'.sch = k.sch := by
  obtain ⟨l, hl, _, _, hm⟩ := hs
  generalize hx : m i s = x at h
  generalize ho : (Res.ok k) = o at h
  cases h with
  | used hv hj =>
    injection ho with ho; subst ho
    obtain ⟨k', e1, e2, e3, e4⟩ := hdo l hl m hm i i' s k h1 h2 h3 hx
    refine ⟨k', ?_, e2, e3⟩
    rw [e1]
    exact .used (e4.trans hv) (by unfold versionOf at hj ⊢; rw [e3]; exact hj)
  | _ => cases ho

theorem goAscend_dataOnly {ls : List (ImperativeLens V)} (hdo : DataOnly ls) {lin p q : Nat}
    {o : Res (Inst V)} (h : GoAscend H lin ls q p i o) (ho : o = .ok j) (hs : i.sch = ⟨lin, p⟩)
    (hv : i.valid = true) (hsch : ∀ {a b m i k p}, Supplied ls a b m →
      p ≤ q → Answer H ((H lin).ver p) (m i ⟨lin, p⟩) (.ok k) → k.valid = true ∧ k.sch = ⟨lin, p⟩)
    {i' : Inst V} (h1 : i.sch = i'.sch) (h2 : i.raw = i'.raw) (h3 : i'.valid = true) :
    ∃ j', GoAscend H lin ls q p i' (.ok j') ∧ j'.raw = j.raw ∧ j'.sch = j.sch := by
  induction h generalizing i' with
  | there i => injection ho with ho; subst ho; exact ⟨i', .there i', h2.symm, h1.symm⟩
  | step hp hu t ih =>
    generalize hoi : (Res.ok _) = oi at hu
    cases hu with
    | minor hm =>
      injection hoi with hoi; subst hoi
      obtain ⟨j', a1, a2, a3⟩ := ih ho rfl rfl
        (i' := ⟨i'.raw, i'.name, ⟨lin, _⟩, true⟩) rfl h2 rfl
      exact ⟨j', .step hp (.minor hm) a1, a2, a3⟩
    | major hm hs ha =>
      subst hoi
      obtain ⟨k', a1, a2, a3⟩ := answer_dataOnly hdo hs h1 h2 (hv.trans h3.symm) ha
      obtain ⟨b1, b2⟩ := hsch hs hp ha
      obtain ⟨c1, c2⟩ := hsch hs hp a1
      obtain ⟨j', d1, d2, d3⟩ := ih ho b2 b1 (i' := k') a3.symm a2.symm c1
      exact ⟨j', .step hp (.major hm hs a1) d1, d2, d3⟩
  | stop _ _ hno => exact absurd ho (hno j)

theorem goDescend_dataOnly {ls : List (ImperativeLens V)} (hdo : DataOnly ls) {lin p q top : Nat}
    {o : Res (Inst V)} (h : GoDescend H lin ls q p i o) (ho : o = .ok j) (hs : i.sch = ⟨lin, p⟩)
    (htop : p ≤ top) (hv : i.valid = true) (hsch : ∀ {a b m i k p}, Supplied ls a b m →
      p ≤ top → Answer H ((H lin).ver p) (m i ⟨lin, p⟩) (.ok k) → k.valid = true ∧ k.sch = ⟨lin, p⟩)
    {i' : Inst V} (h1 : i.sch = i'.sch) (h2 : i.raw = i'.raw) (h3 : i'.valid = true) :
    ∃ j', GoDescend H lin ls q p i' (.ok j') ∧ j'.raw = j.raw ∧ j'.sch = j.sch := by
  induction h generalizing i' with
  | there i => injection ho with ho; subst ho; exact ⟨i', .there i', h2.symm, h1.symm⟩
  | step hp hu t ih =>
    obtain ⟨hs, ha⟩ := hu
    obtain ⟨k', a1, a2, a3⟩ := answer_dataOnly hdo hs h1 h2 (hv.trans h3.symm) ha
    obtain ⟨b1, b2⟩ := hsch hs (by omega) ha
    obtain ⟨c1, c2⟩ := hsch hs (by omega) a1
    obtain ⟨j', d1, d2, d3⟩ := ih ho b2 (by omega) b1 (i' := k') a3.symm a2.symm c1
    exact ⟨j', .step hp (.ask hs a1) d1, d2, d3⟩
  | stop _ _ hno => exact absurd ho (hno j)

/-- Equal data give equal data. -/
theorem translateGo_dataOnly (h : bindLineage C force r opts = .ok L) (hne : goLenses opts ≠ [])
    (h0 : L.ver 0 = ⟨0, 0⟩) (hd : L.allv.Nodup) (hH : H i.sch.lin = L)
    (hst : StayInLineage H i.sch.lin (goLenses opts)) (hdo : DataOnly (goLenses opts))
    (hp : i.sch.pos < L.allsch.length) {q : Nat} (hq : q < L.allsch.length) {n : Nat}
    (hn : L.allsch.length < n) {i' : Inst V} (h1 : i.sch = i'.sch) (h2 : i.raw = i'.raw)
    (hv : i.valid = true) (hv' : i'.valid = true)
    (ht : translate C H (n + 1) i (L.ver q) = .ok (j, lacs)) :
    ∃ j', translate C H (n + 1) i' (L.ver q) = .ok (j', []) ∧ j'.raw = j.raw ∧ j'.sch = j.sch := by
  have hr := goReady h hne h0 hd
  obtain ⟨o, w, e⟩ := (C33_go_walk h hne h0 hd hH hst hv hp hq hn _).1 ht
  obtain ⟨k, rfl⟩ : ∃ k, o = .ok k := by
    cases o with
    | ok k => exact ⟨k, rfl⟩
    | _ => cases e
  injection e with e
  obtain ⟨rfl, rfl⟩ := Prod.mk.inj e
  suffices ∃ j', GoWalk H (goLenses opts) i' q (.ok j') ∧ j'.raw = j.raw ∧ j'.sch = j.sch by
    obtain ⟨j', w', e1, e2⟩ := this
    exact ⟨j', (C33_go_walk h hne h0 hd (by rw [← h1]; exact hH) (by rw [← h1]; exact hst) hv'
      (by rw [← h1]; exact hp) hq hn _).2 ⟨_, w', rfl⟩, e1, e2⟩
  unfold GoWalk at w ⊢
  rw [← h1]
  by_cases hle : i.sch.pos ≤ q
  · simp only [if_pos hle] at w ⊢
    refine goAscend_dataOnly hdo w rfl rfl hv ?_ h1 h2 hv'
    intro a b m x k p hs hp ha
    rw [hH] at ha
    exact answer_sch hH hr.strict hst hs (by omega) ha
  · simp only [if_neg hle] at w ⊢
    refine goDescend_dataOnly hdo w rfl rfl (le_refl _) hv ?_ h1 h2 hv'
    intro a b m x k p hs hp ha
    rw [hH] at ha
    exact answer_sch hH hr.strict hst hs (by omega) ha

/-! ### C137 -/

/-- The hypotheses on the lineage. -/
structure GoBound (C : Cue V) (H : Heap V) (lin : Nat) (L : Lineage V)
    (opts : List (BindOption V)) : Prop where
  bound : ∃ force r, bindLineage C force r opts = .ok L
  lenses : goLenses opts ≠ []
  zero : L.ver 0 = ⟨0, 0⟩
  nodup : L.allv.Nodup
  heap : H lin = L
  stay : StayInLineage H lin (goLenses opts)

/-- **C137.** Up: if each step up between neighbouring versions can be undone, so can every
translation to a later version. -/
theorem C137_there_and_back_up {lin : Nat} (hb : GoBound C H lin L opts)
    (hdo : DataOnly (goLenses opts)) {n : Nat} (hn : L.allsch.length < n) {P : Inst V → Prop}
    (hP : ClosedUnderTranslate C H (n + 1) P) {a b : Nat} (hab : a ≤ b)
    (hbl : b < L.allsch.length)
    (hu : ∀ p, a ≤ p → p < b → Undone C H (n + 1) lin P p (p + 1)) :
    Undone C H (n + 1) lin P a b := by
  obtain ⟨⟨force, r, h⟩, hne, h0, hd, hH, hst⟩ := hb
  obtain ⟨d, rfl⟩ : ∃ d, b = a + d := ⟨b - a, by omega⟩
  clear hab
  induction d generalizing a with
  | zero =>
    intro i j lacs hPi hv hs ht
    rw [Nat.add_zero] at hbl
    change translate C H (n + 1) i ((H lin).ver a) = _ at ht
    have e : translate C H (n + 1) i ((H lin).ver a) = .ok (i, []) := by
      have hl : i.sch.lin = lin := by rw [hs]
      have hp : i.sch.pos = a := by rw [hs]
      rw [hH]
      exact (C33_go_walk h hne h0 hd (by rw [hl]; exact hH) (by rw [hl]; exact hst) hv
        (by rw [hp]; exact hbl) hbl hn _).2
        ⟨.ok i, by unfold GoWalk; rw [hp, if_pos (le_refl _)]; exact .there i, rfl⟩
    rw [e] at ht
    injection ht with ht
    obtain ⟨rfl, -⟩ := Prod.mk.inj ht
    exact ⟨i, [], e, rfl, rfl⟩
  | succ d ih =>
    intro i j lacs hPi hv hs ht
    have hl : i.sch.lin = lin := by rw [hs]
    have hp : i.sch.pos = a := by rw [hs]
    have hal : a + 1 < L.allsch.length := by omega
    have hHi : H i.sch.lin = L := by rw [hl]; exact hH
    have hsti : StayInLineage H i.sch.lin (goLenses opts) := by rw [hl]; exact hst
    -- the first step and the rest
    rw [hH, C35_composes h hne h0 hd hHi hsti hv (by omega) hbl (b := a + 1)
      (.inl (by omega)) hn] at ht
    obtain ⟨⟨i1, l1⟩, e1, ht⟩ := Res.bind_eq_ok.1 ht
    obtain ⟨k1, k2, _⟩ := C33_reaches_target h hne h0 hd hHi hsti hv (by omega) hal hn e1
    rw [hl] at k1
    have hP1 : P i1 := hP i i1 (a + 1) l1 hPi (by rw [hHi]; exact hal) (by rw [hHi]; exact e1)
    -- back from the end to the neighbour
    have hu' : ∀ p, a + 1 ≤ p → p < a + 1 + d → Undone C H (n + 1) lin P p (p + 1) :=
      fun p h1 h2 => hu p (by omega) (by omega)
    obtain ⟨j1, l2, e2, e3, e4⟩ := ih (a := a + 1) (by omega) hu' i1 j lacs hP1 k2 k1
      (by rw [hH, show a + 1 + d = a + (d + 1) by omega]; exact ht)
    rw [hH] at e2
    -- the end
    obtain ⟨m1, m2, _⟩ := C33_reaches_target (i := i1) h hne h0 hd (by rw [k1]; exact hH)
      (by rw [k1]; exact hst) k2 (by rw [k1]; exact hal) hbl hn ht
    rw [k1] at m1
    have hHj : H j.sch.lin = L := by rw [m1]; exact hH
    have hstj : StayInLineage H j.sch.lin (goLenses opts) := by rw [m1]; exact hst
    have hpj : j.sch.pos = a + (d + 1) := by rw [m1]
    obtain ⟨_, v1, _⟩ := C33_reaches_target h hne h0 hd hHj hstj m2 (by omega) hal hn e2
    -- the neighbour's step can be undone
    obtain ⟨k, l3, f1, f2, f3⟩ := hu a (le_refl _) (by omega) i i1 l1 hPi hv hs
      (by rw [hH]; exact e1)
    rw [hH] at f1
    obtain ⟨k', g1, g2, g3⟩ := translateGo_dataOnly (i := i1) (i' := j1) h hne h0 hd
      (by rw [k1]; exact hH) (by rw [k1]; exact hst) hdo (by rw [k1]; exact hal)
      (q := a) (by omega) hn e3.symm e4.symm k2 v1 f1
    refine ⟨k', [], ?_, g3.trans f2, g2.trans f3⟩
    rw [hH, C35_composes h hne h0 hd hHj hstj m2 (by omega) (by omega) (b := a + 1)
      (.inr (by omega)) hn, e2]
    exact g1

/-- **C137.** Down: likewise for translations to earlier versions. -/
theorem C137_there_and_back_down {lin : Nat} (hb : GoBound C H lin L opts)
    (hdo : DataOnly (goLenses opts)) {n : Nat} (hn : L.allsch.length < n) {P : Inst V → Prop}
    (hP : ClosedUnderTranslate C H (n + 1) P) {a b : Nat} (hab : b ≤ a)
    (hal : a < L.allsch.length)
    (hu : ∀ p, b ≤ p → p < a → Undone C H (n + 1) lin P (p + 1) p) :
    Undone C H (n + 1) lin P a b := by
  obtain ⟨⟨force, r, h⟩, hne, h0, hd, hH, hst⟩ := hb
  obtain ⟨d, rfl⟩ : ∃ d, a = b + d := ⟨a - b, by omega⟩
  clear hab
  induction d with
  | zero =>
    intro i j lacs hPi hv hs ht
    rw [Nat.add_zero] at hal
    have e : translate C H (n + 1) i ((H lin).ver b) = .ok (i, []) := by
      have hl : i.sch.lin = lin := by rw [hs]
      have hp : i.sch.pos = b := by rw [hs]; rfl
      rw [hH]
      exact (C33_go_walk h hne h0 hd (by rw [hl]; exact hH) (by rw [hl]; exact hst) hv
        (by rw [hp]; exact hal) hal hn _).2
        ⟨.ok i, by unfold GoWalk; rw [hp, if_pos (le_refl _)]; exact .there i, rfl⟩
    rw [e] at ht
    injection ht with ht
    obtain ⟨rfl, -⟩ := Prod.mk.inj ht
    exact ⟨i, [], e, rfl, rfl⟩
  | succ d ih =>
    intro i j lacs hPi hv hs ht
    have hl : i.sch.lin = lin := by rw [hs]
    have hp : i.sch.pos = b + (d + 1) := by rw [hs]
    have hHi : H i.sch.lin = L := by rw [hl]; exact hH
    have hsti : StayInLineage H i.sch.lin (goLenses opts) := by rw [hl]; exact hst
    rw [hH, C35_composes h hne h0 hd hHi hsti hv (by omega) (by omega) (b := b + d)
      (.inr (by omega)) hn] at ht
    obtain ⟨⟨i1, l1⟩, e1, ht⟩ := Res.bind_eq_ok.1 ht
    obtain ⟨k1, k2, _⟩ := C33_reaches_target h hne h0 hd hHi hsti hv (by omega) (by omega) hn e1
    rw [hl] at k1
    have hP1 : P i1 := hP i i1 (b + d) l1 hPi (by rw [hHi]; omega) (by rw [hHi]; exact e1)
    obtain ⟨j1, l2, e2, e3, e4⟩ := ih (by omega) (fun p h1 h2 => hu p h1 (by omega)) i1 j lacs hP1
      k2 k1 (by rw [hH]; exact ht)
    rw [hH] at e2
    obtain ⟨m1, m2, _⟩ := C33_reaches_target (i := i1) h hne h0 hd (by rw [k1]; exact hH)
      (by rw [k1]; exact hst) k2 (by rw [k1]; show b + d < _; omega) (by omega) hn ht
    rw [k1] at m1
    have hHj : H j.sch.lin = L := by rw [m1]; exact hH
    have hstj : StayInLineage H j.sch.lin (goLenses opts) := by rw [m1]; exact hst
    have hpj : j.sch.pos = b := by rw [m1]
    obtain ⟨_, v1, _⟩ := C33_reaches_target h hne h0 hd hHj hstj m2 (by omega)
      (show b + d < L.allsch.length by omega) hn e2
    obtain ⟨k, l3, f1, f2, f3⟩ := hu (b + d) (by omega) (by omega) i i1 l1 hPi hv hs
      (by rw [hH]; exact e1)
    rw [hH] at f1
    obtain ⟨k', g1, g2, g3⟩ := translateGo_dataOnly (i := i1) (i' := j1) h hne h0 hd
      (by rw [k1]; exact hH) (by rw [k1]; exact hst) hdo (by rw [k1]; show b + d < _; omega)
      (q := b + d + 1) (by omega) hn e3.symm e4.symm k2 v1 f1
    refine ⟨k', [], ?_, g3.trans f2, g2.trans f3⟩
    rw [hH, C35_composes h hne h0 hd hHj hstj m2 (by omega) (by omega) (b := b + d)
      (.inl (by omega)) hn, e2]
    exact g1

/-- **C137.** Then no data are confused: instances of one schema whose translations to another
have the same data have the same data themselves. -/
theorem C137_nothing_lost {lin : Nat} (hb : GoBound C H lin L opts)
    (hdo : DataOnly (goLenses opts)) {n : Nat} (hn : L.allsch.length < n) {P : Inst V → Prop}
    {a b : Nat} (hal : a < L.allsch.length) (hbl : b < L.allsch.length)
    (hu : Undone C H (n + 1) lin P a b) {i i' j j' : Inst V} {lacs lacs' : List Lac}
    (hi : P i) (hi' : P i') (hv : i.valid = true) (hv' : i'.valid = true) (hs : i.sch = ⟨lin, a⟩)
    (hs' : i'.sch = ⟨lin, a⟩) (ht : translate C H (n + 1) i ((H lin).ver b) = .ok (j, lacs))
    (ht' : translate C H (n + 1) i' ((H lin).ver b) = .ok (j', lacs')) (hj : j.raw = j'.raw) :
    i.raw = i'.raw := by
  obtain ⟨⟨force, r, h⟩, hne, h0, hd, hH, hst⟩ := hb
  obtain ⟨k, l, e1, _, e3⟩ := hu i j lacs hi hv hs ht
  obtain ⟨k', l', e1', _, e3'⟩ := hu i' j' lacs' hi' hv' hs' ht'
  rw [hH] at ht ht' e1 e1'
  obtain ⟨m1, m2, _⟩ := C33_reaches_target (i := i) h hne h0 hd (by rw [hs]; exact hH)
    (by rw [hs]; exact hst) hv (by rw [hs]; exact hal) hbl hn ht
  obtain ⟨m1', m2', _⟩ := C33_reaches_target (i := i') h hne h0 hd (by rw [hs']; exact hH)
    (by rw [hs']; exact hst) hv' (by rw [hs']; exact hal) hbl hn ht'
  rw [hs] at m1
  rw [hs'] at m1'
  obtain ⟨k2, f1, f2, _⟩ := translateGo_dataOnly (i := j) (i' := j') h hne h0 hd
    (by rw [m1]; exact hH) (by rw [m1]; exact hst) hdo (by rw [m1]; exact hbl) hal hn
    (m1.trans m1'.symm) hj m2 m2' e1
  rw [f1] at e1'
  injection e1' with e1'
  obtain ⟨rfl, _⟩ := Prod.mk.inj e1'
  rw [← e3, ← f2, e3']

/-! An example: 0.0, 0.1 and 1.0, where 1.0 has the data of 0.1 in another form. -/

/-- The functions: the data stay within the major, and are shifted by two across it. -/
def shiftLenses : List (ImperativeLens SetCue.Val) :=
  let mk (f : Nat → Nat) : Option (Mapper SetCue.Val) :=
    some fun i s => if s.pos < 3 then .ok (some ⟨i.raw.map f, [], s, true⟩) else .ok none
  [⟨⟨0, 0⟩, ⟨0, 1⟩, mk id⟩, ⟨⟨0, 1⟩, ⟨1, 0⟩, mk (· - 2)⟩, ⟨⟨1, 0⟩, ⟨0, 1⟩, mk (· + 2)⟩]

/-- The bound lineage. -/
def shiftGo : Lineage SetCue.Val :=
  { name := "toy".toList,
    allsch := [⟨⟨0, 0⟩, [1], [1], []⟩, ⟨⟨0, 1⟩, [1, 2], [1, 2], []⟩, ⟨⟨1, 0⟩, [3, 4], [3, 4], []⟩],
    lenses := [], lensmap := buildLensMap shiftLenses }

/-- The instances of the example. -/
def shiftInsts : List (Inst SetCue.Val) := [instAt 0 [1], instAt 1 [1], instAt 2 [3]]

theorem shift_stay : StayInLineage (fun _ => shiftGo) 0 shiftLenses := by
  intro l hl m hm i s j hs hj
  simp only [shiftLenses, List.mem_cons, List.not_mem_nil, or_false] at hl
  rcases hl with rfl | rfl | rfl <;>
  · injection hm with hm
    subst hm
    simp only at hj
    split at hj
    · injection hj with hj
      injection hj with hj
      subst hj
      rename_i h
      exact ⟨hs, h⟩
    · injection hj with hj
      cases hj

theorem shift_dataOnly : DataOnly shiftLenses := by
  intro l hl m hm i i' s k h1 h2 h3 hk
  simp only [shiftLenses, List.mem_cons, List.not_mem_nil, or_false] at hl
  rcases hl with rfl | rfl | rfl <;>
  · injection hm with hm
    subst hm
    simp only at hk ⊢
    split at hk
    · injection hk with hk
      injection hk with hk
      subst hk
      rename_i h
      rw [if_pos h, h2]
      exact ⟨_, rfl, rfl, rfl, rfl⟩
    · injection hk with hk
      cases hk

theorem shift_bound : GoBound SetCue.cue (fun _ => shiftGo) 0 shiftGo
    [.imperativeLenses shiftLenses] :=
  ⟨⟨false, SetCue.lin [SetCue.sch 0 0 [1], SetCue.sch 0 1 [1, 2], SetCue.sch 1 0 [3, 4]], rfl⟩,
    by simp [goLenses, shiftLenses], rfl, by decide, rfl, by simpa [goLenses] using shift_stay⟩

theorem shift_translate {i : Inst SetCue.Val} (hi : i ∈ shiftInsts) {q : Nat} (hq : q < 3) :
    ∃ j ∈ shiftInsts, j.sch = ⟨0, q⟩ ∧
      translate SetCue.cue (fun _ => shiftGo) 5 i (shiftGo.ver q) = .ok (j, []) := by
  simp only [shiftInsts, List.mem_cons, List.not_mem_nil, or_false] at hi
  match q, hq with
  | 0, _ => exact ⟨instAt 0 [1], by simp [shiftInsts], rfl, by rcases hi with rfl | rfl | rfl <;> rfl⟩
  | 1, _ => exact ⟨instAt 1 [1], by simp [shiftInsts], rfl, by rcases hi with rfl | rfl | rfl <;> rfl⟩
  | 2, _ => exact ⟨instAt 2 [3], by simp [shiftInsts], rfl, by rcases hi with rfl | rfl | rfl <;> rfl⟩

theorem shift_closed : ClosedUnderTranslate SetCue.cue (fun _ => shiftGo) 5 (· ∈ shiftInsts) := by
  intro i j q lacs hi hq ht
  obtain ⟨j', h1, _, h2⟩ := shift_translate hi hq
  rw [h2] at ht
  injection ht with ht
  cases ht
  exact h1

theorem shift_undone {a b : Nat} (ha : a < 3) (hb : b < 3) :
    Undone SetCue.cue (fun _ => shiftGo) 5 0 (· ∈ shiftInsts) a b := by
  intro i j lacs hi _ hs ht
  obtain ⟨j', h1, _, h2⟩ := shift_translate hi hb
  rw [h2] at ht
  injection ht with ht
  cases ht
  obtain ⟨k, k1, k2, k3⟩ := shift_translate h1 ha
  refine ⟨k, [], k3, k2.trans hs.symm, ?_⟩
  have : k = i := by
    simp only [shiftInsts, List.mem_cons, List.not_mem_nil, or_false] at hi k1
    rw [← hs] at k2
    rcases hi with rfl | rfl | rfl <;> rcases k1 with rfl | rfl | rfl <;>
      first | rfl | (exfalso; revert k2; decide)
  rw [this]

/-- The hypotheses of the theorems above are met. -/
example : Undone SetCue.cue (fun _ => shiftGo) 5 0 (· ∈ shiftInsts) 0 2 ∧
    Undone SetCue.cue (fun _ => shiftGo) 5 0 (· ∈ shiftInsts) 2 0 ∧
    translate SetCue.cue (fun _ => shiftGo) 5 (instAt 0 [1]) ⟨1, 0⟩ = .ok (instAt 2 [3], []) :=
  ⟨C137_there_and_back_up shift_bound (by simpa [goLenses] using shift_dataOnly) (by decide)
      shift_closed (by decide) (by decide)
      (fun p _ h => shift_undone (by omega) (by omega)),
   C137_there_and_back_down shift_bound (by simpa [goLenses] using shift_dataOnly) (by decide)
      shift_closed (by decide) (by decide)
      (fun p _ h => shift_undone (by omega) (by omega)), by rfl⟩

/-- Two instances of 0.0 with the same data under different names. -/
def shiftNamed : List (Inst SetCue.Val) :=
  [instAt 0 [1], { instAt 0 [1] with name := "a".toList }]

example : (instAt 0 [1]).raw = ({ instAt 0 [1] with name := "a".toList } : Inst SetCue.Val).raw :=
  C137_nothing_lost (P := (· ∈ shiftNamed)) (a := 0) (b := 2) (n := 4)
    (j := instAt 2 [3]) (j' := instAt 2 [3]) shift_bound
    (by simpa [goLenses] using shift_dataOnly) (by decide) (by decide) (by decide)
    (by
      intro i j lacs hi _ _ ht
      have : translate SetCue.cue (fun _ => shiftGo) 5 i (shiftGo.ver 2) =
          .ok (instAt 2 [3], []) ∧ i.sch = ⟨0, 0⟩ ∧ i.raw = [1] := by
        simp only [shiftNamed, List.mem_cons, List.not_mem_nil, or_false] at hi
        rcases hi with rfl | rfl <;> exact ⟨by rfl, rfl, rfl⟩
      rw [this.1] at ht
      injection ht with ht
      cases ht
      exact ⟨instAt 0 [1], [], by rfl, this.2.1.symm, this.2.2.symm⟩)
    (by simp [shiftNamed]) (by simp [shiftNamed]) rfl rfl rfl rfl (lacs := []) (lacs' := [])
    (by rfl) (by rfl) rfl

end Thema.Props

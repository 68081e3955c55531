import Verif.Lemmas.TranslateGo
import Verif.Props.TranslateCue

/-!
# Translation with Go lenses
-/

namespace Thema.Props

open Thema Thema.Spec

variable {V : Type} {C : Cue V} {force : Bool} {r : RawLineage V} {opts : List (BindOption V)}
  {L : Lineage V} {H : Heap V} {i j : Inst V} {lacs : List Lac}

theorem translate_go (hm : 0 < (H i.sch.lin).lensmap.length) (hv : i.valid = true) (n : Nat)
    (v : SV) : translate C H (n + 1) i v = translateGo H (translate C H n) n i v := by
  simp [translate, Inst.check, hv, hm]

/-! ### C33: the walk -/

theorem goWalk_translate (h : bindLineage C force r opts = .ok L) (hne : goLenses opts ≠ [])
    (h0 : L.ver 0 = ⟨0, 0⟩) (hd : L.allv.Nodup) (hH : H i.sch.lin = L)
    (hst : StayInLineage H i.sch.lin (goLenses opts)) (hv : i.valid = true)
    (hp : i.sch.pos < L.allsch.length) {q : Nat} (hq : q < L.allsch.length) {n : Nat}
    (hn : L.allsch.length < n) :
    ∃ o, GoWalk H (goLenses opts) i q o ∧
      translate C H (n + 1) i (L.ver q) = o.map fun j => (j, []) := by
  have hr := goReady h hne h0 hd
  rw [translate_go (by rw [hH]; exact goReady_lensmap h hne) hv]
  unfold translateGo GoWalk
  simp only [hH]
  by_cases heq : i.sch.pos = q
  · refine ⟨.ok i, ?_, by rw [heq]; simp⟩
    rw [if_pos (by omega), heq]
    exact .there i
  · have hnv : L.ver q ≠ L.ver i.sch.pos := fun he => heq (ver_inj hr.strict hp hq he.symm)
    simp only [hnv, if_false]
    by_cases hle : i.sch.pos ≤ q
    · simp only [if_pos hle]
      have hless : (L.ver q).less (L.ver i.sch.pos) = false := by
        cases hh : (L.ver q).less (L.ver i.sch.pos) with
        | false => rfl
        | true => have := (ver_less_iff hr.strict hq hp).1 hh; omega
      obtain ⟨o, h1, h2⟩ := goLoop_up hH hr hst (translate C H n) hq hless (q - i.sch.pos) i.sch.pos
        n i (by omega) (by omega) hv rfl
      exact ⟨o, h1, by rw [h2]⟩
    · simp only [if_neg hle]
      have hless : (L.ver q).less (L.ver i.sch.pos) = true :=
        (ver_less_iff hr.strict hq hp).2 (by omega)
      obtain ⟨d, hdq⟩ : ∃ d, i.sch.pos = q + d := ⟨i.sch.pos - q, by omega⟩
      obtain ⟨o, h1, h2⟩ := goLoop_down hH hr hst (translate C H n) hq hless d n i (by omega)
        (by omega) hv (by rw [← hdq])
      exact ⟨o, by rw [hdq]; exact h1, by rw [← h2, hdq]⟩

theorem goWalk_unique {ls : List (ImperativeLens V)} (hn : (ls.map pairOf).Nodup) {q : Nat}
    {o o' : Res (Inst V)} (h1 : GoWalk H ls i q o) (h2 : GoWalk H ls i q o') : o = o' := by
  unfold GoWalk at h1 h2
  split at h1
  · rename_i hle
    rw [if_pos hle] at h2
    exact goAscend_unique hn h1 h2
  · rename_i hle
    rw [if_neg hle] at h2
    exact goDescend_unique hn h1 h2

/-- **C33**.  In a lineage with distinct versions from 0.0 on, bound with its exact
Go lenses, the outcome of `Translate` to an existing version (a result, an error or
a panic) is that of the walk to it over neighbouring schemas, which asks the function
supplied for each pair in turn and none within a major going up. -/
theorem C33_go_walk (h : bindLineage C force r opts = .ok L) (hne : goLenses opts ≠ [])
    (h0 : L.ver 0 = ⟨0, 0⟩) (hd : L.allv.Nodup) (hH : H i.sch.lin = L)
    (hst : StayInLineage H i.sch.lin (goLenses opts)) (hv : i.valid = true)
    (hp : i.sch.pos < L.allsch.length) {q : Nat} (hq : q < L.allsch.length) {n : Nat}
    (hn : L.allsch.length < n) (x : Res (Inst V × List Lac)) :
    translate C H (n + 1) i (L.ver q) = x ↔
      ∃ o, GoWalk H (goLenses opts) i q o ∧ x = o.map fun j => (j, []) := by
  have hr := goReady h hne h0 hd
  obtain ⟨o, h1, h2⟩ := goWalk_translate h hne h0 hd hH hst hv hp hq hn
  rw [h2]
  constructor
  · rintro rfl; exact ⟨o, h1, rfl⟩
  · rintro ⟨o', h1', rfl⟩
    rw [goWalk_unique hr.nodup h1 h1']

theorem goAscend_ends {ls : List (ImperativeLens V)} {lin : Nat} (hH : H lin = L)
    (hs : StrictV L.allv) (hst : StayInLineage H lin ls) {p q : Nat} (hq : q < L.allsch.length)
    {o : Res (Inst V)} (h : GoAscend H lin ls q p i o) (hv : i.valid = true)
    (hsch : i.sch = ⟨lin, p⟩) (ho : o = .ok j) : j.sch = ⟨lin, q⟩ ∧ j.valid = true := by
  induction h with
  | there i => injection ho with ho; subst ho; exact ⟨hsch, hv⟩
  | step hp hu t ih =>
    have hle : _ < L.allsch.length := Nat.lt_of_le_of_lt (Nat.succ_le_of_lt hp) hq
    generalize hoi : (Res.ok _) = oi at hu
    cases hu with
    | minor => injection hoi with hoi; subst hoi; exact ih rfl rfl ho
    | major hm hsup ha =>
      subst hoi
      rw [hH] at ha hsup
      obtain ⟨k1, k2⟩ := answer_sch hH hs hst hsup hle ha
      exact ih k1 k2 ho
  | stop _ _ hno => exact absurd ho (hno _)

theorem goDescend_ends {ls : List (ImperativeLens V)} {lin : Nat} (hH : H lin = L)
    (hs : StrictV L.allv) (hst : StayInLineage H lin ls) {p q : Nat} (hp : p < L.allsch.length)
    {o : Res (Inst V)} (h : GoDescend H lin ls q p i o) (hv : i.valid = true)
    (hsch : i.sch = ⟨lin, p⟩) (ho : o = .ok j) : j.sch = ⟨lin, q⟩ ∧ j.valid = true := by
  induction h with
  | there i => injection ho with ho; subst ho; exact ⟨hsch, hv⟩
  | step hle hu t ih =>
    obtain ⟨hsup, ha⟩ := hu
    rw [hH] at ha hsup
    obtain ⟨k1, k2⟩ := answer_sch hH hs hst hsup (by omega) ha
    exact ih (by omega) k1 k2 ho
  | stop _ _ hno => exact absurd ho (hno _)

theorem goWalk_ends {ls : List (ImperativeLens V)} (hH : H i.sch.lin = L)
    (hs : StrictV L.allv) (hst : StayInLineage H i.sch.lin ls) (hv : i.valid = true)
    (hp : i.sch.pos < L.allsch.length) {q : Nat} (hq : q < L.allsch.length)
    (h : GoWalk H ls i q (.ok j)) : j.sch = ⟨i.sch.lin, q⟩ ∧ j.valid = true := by
  unfold GoWalk at h
  split at h
  · exact goAscend_ends hH hs hst hq h hv rfl rfl
  · exact goDescend_ends hH hs hst hp h hv rfl rfl

/-- **C33**.  A successful translation ends at the schema of the same lineage that
has the requested version. -/
theorem C33_reaches_target (h : bindLineage C force r opts = .ok L) (hne : goLenses opts ≠ [])
    (h0 : L.ver 0 = ⟨0, 0⟩) (hd : L.allv.Nodup) (hH : H i.sch.lin = L)
    (hst : StayInLineage H i.sch.lin (goLenses opts)) (hv : i.valid = true)
    (hp : i.sch.pos < L.allsch.length) {q : Nat} (hq : q < L.allsch.length) {n : Nat}
    (hn : L.allsch.length < n) (ht : translate C H (n + 1) i (L.ver q) = .ok (j, lacs)) :
    j.sch = ⟨i.sch.lin, q⟩ ∧ j.valid = true ∧ lacs = [] := by
  have hr := goReady h hne h0 hd
  obtain ⟨o, h1, h2⟩ := (C33_go_walk h hne h0 hd hH hst hv hp hq hn _).1 ht
  cases o with
  | ok j' =>
    simp only [Res.map_ok, Res.ok.injEq, Prod.mk.injEq] at h2
    obtain ⟨rfl, rfl⟩ := h2
    obtain ⟨e1, e2⟩ := goWalk_ends hH hr.strict hst hv hp hq h1
    exact ⟨e1, e2, rfl⟩
  | err => cases h2
  | panic => cases h2
  | fuel => cases h2

theorem answer_hangs {v : SV} {x : Res (Option (Inst V))} {o : Res (Inst V)}
    (h : Answer H v x o) (ho : o = .fuel) : x = .fuel := by
  cases h <;> first | rfl | cases ho

theorem goWalk_returns {ls : List (ImperativeLens V)} (hret : Return ls) {q : Nat}
    {o : Res (Inst V)} (h : GoWalk H ls i q o) : o ≠ .fuel := by
  have hsup : ∀ {a b m} {i : Inst V} {s}, Supplied ls a b m → m i s ≠ .fuel := by
    rintro a b m i s ⟨l, hl, _, _, hm⟩
    exact hret l hl m hm i s
  unfold GoWalk at h
  split at h
  · rename_i hle
    clear hle
    generalize i.sch.lin = lin at h
    generalize i.sch.pos = p at h
    induction h with
    | there => intro hh; cases hh
    | step _ _ _ ih => exact ih
    | stop _ hu _ =>
      cases hu with
      | minor => intro hh; cases hh
      | major _ hs ha => intro hh; exact hsup hs (answer_hangs ha hh)
  · rename_i hle
    clear hle
    generalize i.sch.lin = lin at h
    generalize i.sch.pos = p at h
    induction h with
    | there => intro hh; cases hh
    | step _ _ _ ih => exact ih
    | stop _ hu _ =>
      obtain ⟨hs, ha⟩ := hu
      intro hh; exact hsup hs (answer_hangs ha hh)

/-- **C33**.  Translation with Go lenses terminates if the supplied functions do: a
number of loop iterations beyond the number of schemas is never used up. -/
theorem C33_terminates (h : bindLineage C force r opts = .ok L) (hne : goLenses opts ≠ [])
    (h0 : L.ver 0 = ⟨0, 0⟩) (hd : L.allv.Nodup) (hH : H i.sch.lin = L)
    (hst : StayInLineage H i.sch.lin (goLenses opts)) (hret : Return (goLenses opts))
    (hv : i.valid = true) (hp : i.sch.pos < L.allsch.length) {q : Nat} (hq : q < L.allsch.length)
    {n : Nat} (hn : L.allsch.length < n) : translate C H (n + 1) i (L.ver q) ≠ .fuel := by
  obtain ⟨o, h1, h2⟩ := goWalk_translate h hne h0 hd hH hst hv hp hq hn
  rw [h2]
  have := goWalk_returns hret h1
  cases o with
  | ok => intro hh; cases hh
  | err => intro hh; cases hh
  | panic => intro hh; cases hh
  | fuel => exact absurd rfl this

/-! ### C35: composition -/

theorem goAscend_split {ls : List (ImperativeLens V)} {lin b q : Nat} (hbq : b ≤ q) {p : Nat}
    {o1 : Res (Inst V)} (h : GoAscend H lin ls b p i o1) :
    (∀ k o, o1 = .ok k → GoAscend H lin ls q b k o → GoAscend H lin ls q p i o) ∧
    ((∀ k, o1 ≠ .ok k) → GoAscend H lin ls q p i o1) := by
  induction h with
  | there i =>
    refine ⟨?_, fun hno => absurd rfl (hno i)⟩
    intro k o hk ht
    injection hk with hk; subst hk; exact ht
  | step hp hu _ ih =>
    exact ⟨fun k o hk ht => .step (by omega) hu (ih.1 k o hk ht),
      fun hno => .step (by omega) hu (ih.2 hno)⟩
  | stop hp hu ho =>
    exact ⟨fun k o hk _ => absurd hk (ho k), fun _ => .stop (by omega) hu ho⟩

theorem goDescend_split {ls : List (ImperativeLens V)} {lin b q : Nat} (hbq : q ≤ b) {p : Nat}
    {o1 : Res (Inst V)} (h : GoDescend H lin ls b p i o1) :
    (∀ k o, o1 = .ok k → GoDescend H lin ls q b k o → GoDescend H lin ls q p i o) ∧
    ((∀ k, o1 ≠ .ok k) → GoDescend H lin ls q p i o1) := by
  induction h with
  | there i =>
    refine ⟨?_, fun hno => absurd rfl (hno i)⟩
    intro k o hk ht
    injection hk with hk; subst hk; exact ht
  | step hp hu _ ih =>
    exact ⟨fun k o hk ht => .step (by omega) hu (ih.1 k o hk ht),
      fun hno => .step (by omega) hu (ih.2 hno)⟩
  | stop hp hu ho =>
    exact ⟨fun k o hk _ => absurd hk (ho k), fun _ => .stop (by omega) hu ho⟩

/-- **C35**.  Translating to `q` is translating to `b` and the result to `q`, for
every `b` between the instance's schema and `q`; also when one of them fails. -/
theorem C35_composes (h : bindLineage C force r opts = .ok L) (hne : goLenses opts ≠ [])
    (h0 : L.ver 0 = ⟨0, 0⟩) (hd : L.allv.Nodup) (hH : H i.sch.lin = L)
    (hst : StayInLineage H i.sch.lin (goLenses opts)) (hv : i.valid = true)
    (hp : i.sch.pos < L.allsch.length) {b q : Nat} (hq : q < L.allsch.length)
    (hb : (i.sch.pos ≤ b ∧ b ≤ q) ∨ (q ≤ b ∧ b ≤ i.sch.pos)) {n : Nat}
    (hn : L.allsch.length < n) :
    translate C H (n + 1) i (L.ver q) =
      (translate C H (n + 1) i (L.ver b)).bind fun x => translate C H (n + 1) x.1 (L.ver q) := by
  have hr := goReady h hne h0 hd
  have hbl : b < L.allsch.length := by omega
  obtain ⟨o1, w1, e1⟩ := goWalk_translate h hne h0 hd hH hst hv hp hbl hn
  rw [e1]
  have hfail : (∀ k, o1 ≠ .ok k) → GoWalk H (goLenses opts) i q o1 := by
    intro hno
    unfold GoWalk at w1 ⊢
    rcases hb with ⟨hb1, hb2⟩ | ⟨hb1, hb2⟩
    · rw [if_pos hb1] at w1
      rw [if_pos (by omega)]
      exact (goAscend_split hb2 w1).2 hno
    · by_cases hbe : i.sch.pos ≤ b
      · rw [if_pos hbe] at w1
        have : b = i.sch.pos := by omega
        subst this
        exact absurd (goAscend_unique hr.nodup w1 (.there i)) (hno i)
      · rw [if_neg hbe] at w1
        rw [if_neg (by omega)]
        exact (goDescend_split hb1 w1).2 hno
  cases o1 with
  | ok k =>
    simp only [Res.map_ok, Res.bind_ok]
    obtain ⟨k1, k2⟩ := goWalk_ends hH hr.strict hst hv hp hbl w1
    have hkl : k.sch.lin = i.sch.lin := by rw [k1]
    have hkp : k.sch.pos = b := by rw [k1]
    obtain ⟨o2, w2, e2⟩ := goWalk_translate (i := k) h hne h0 hd (by rw [hkl]; exact hH)
      (by rw [hkl]; exact hst) k2 (by rw [hkp]; exact hbl) hq hn
    rw [e2]
    refine (C33_go_walk h hne h0 hd hH hst hv hp hq hn _).2 ⟨o2, ?_, rfl⟩
    unfold GoWalk at w1 w2 ⊢
    rw [hkl, hkp] at w2
    rcases hb with ⟨hb1, hb2⟩ | ⟨hb1, hb2⟩
    · rw [if_pos hb1] at w1
      rw [if_pos hb2] at w2
      rw [if_pos (by omega)]
      exact (goAscend_split hb2 w1).1 k o2 rfl w2
    · by_cases hbe : i.sch.pos ≤ b
      · have : b = i.sch.pos := by omega
        subst this
        rw [if_pos (le_refl _)] at w1
        have := goAscend_unique hr.nodup w1 (.there i)
        injection this with this; subst this
        exact w2
      · rw [if_neg hbe] at w1
        rw [if_neg (by omega)]
        by_cases hqb : b ≤ q
        · have : b = q := by omega
          subst this
          rw [if_pos (le_refl _)] at w2
          have := goAscend_unique hr.nodup w2 (.there k)
          subst this
          exact w1
        · rw [if_neg hqb] at w2
          exact (goDescend_split hb1 w1).1 k o2 rfl w2
  | err e =>
    exact (C33_go_walk h hne h0 hd hH hst hv hp hq hn _).2
      ⟨_, hfail (by intro k hk; cases hk), rfl⟩
  | panic k =>
    exact (C33_go_walk h hne h0 hd hH hst hv hp hq hn _).2
      ⟨_, hfail (by intro k hk; cases hk), rfl⟩
  | fuel =>
    exact (C33_go_walk h hne h0 hd hH hst hv hp hq hn _).2
      ⟨_, hfail (by intro k hk; cases hk), rfl⟩

/-! ### C38: all instances are genuine -/

theorem validate_ok_any {s : SchPtr} {d : V} (h : validate C H s d = .ok j) :
    ∃ hp : s.pos < (H s.lin).allsch.length, C.accepts ((H s.lin).allsch[s.pos]).body d ∧
      j = { raw := d, name := [], sch := s, valid := true } := by
  have hp : s.pos < (H s.lin).allsch.length := by
    apply Nat.lt_of_not_le
    intro hge
    simp [validate, validateFull, Lineage.body?, List.getElem?_eq_none hge] at h
  obtain ⟨lin, p⟩ := s
  exact ⟨hp, (validate_ok_iff rfl hp).1 h⟩

theorem validateAny_genuine {lin : Nat} {d : V} (hd : C.marshals d = true) :
    ∀ (n p : Nat), validateAnyLoop C H lin d n p = .ok (some j) → Genuine C H j := by
  intro n
  induction n with
  | zero => intro p h; simp [validateAnyLoop] at h
  | succ n ih =>
    intro p h
    unfold validateAnyLoop at h
    split at h
    · rename_i hv
      injection h with h; injection h with h; subst h
      obtain ⟨hp, hacc, rfl⟩ := validate_ok_any hv
      exact ⟨rfl, hd, hp, hacc⟩
    · obtain ⟨o, _, h2⟩ := Res.bind_eq_ok.1 h
      cases o with
      | none => simp at h2
      | some q => exact ih q h2
    · cases h
    · cases h

theorem derefSch_ok {x : Res (Option Nat)} {q : Nat} (h : derefSch x = .ok q) : x = .ok (some q) := by
  unfold derefSch at h
  split at h <;> first | (injection h with h; subst h; rfl) | cases h

/-- A minor step keeps an instance genuine. -/
theorem genuine_minor (hlaw : SubsumeSound C (fun d => C.marshals d = true))
    (hb : WellBound C (H i.sch.lin)) (hg : Genuine C H i) {q : Nat}
    (hq : (H i.sch.lin).successor i.sch.pos = .ok (some q))
    (hm : ((H i.sch.lin).ver q).major = ((H i.sch.lin).ver i.sch.pos).major) :
    Genuine C H { i with sch := ⟨i.sch.lin, q⟩ } := by
  obtain ⟨force, r, opts, h, hon, hd⟩ := hb
  obtain ⟨hv, hmar, hp, hacc⟩ := hg
  have hs := (bind_sorted h).strict hd
  rw [successor_eq hs hp] at hq
  split at hq
  · rename_i hlt
    injection hq with hq; injection hq with hq; subst hq
    refine ⟨hv, hmar, hlt, ?_⟩
    obtain ⟨y, hy, _⟩ := C12_validity_stable hlaw h hon hd H (lin := i.sch.lin) rfl
      (Nat.le_succ i.sch.pos) hlt hm.symm hmar ((validate_ok_iff rfl hp).2 ⟨hacc, rfl⟩)
    exact ((validate_ok_iff rfl hlt).1 hy).1
  · cases hq

theorem translateCue_genuine {tv : SV} (h : translateCue C H i tv = .ok (j, lacs)) :
    Genuine C H j := by
  obtain ⟨p, ss, _, _, _, hm, hv, _⟩ := translateCue_ok_iff.1 h
  obtain ⟨hp, hacc, rfl⟩ := validate_ok_any hv
  exact ⟨rfl, hm, hp, hacc⟩

theorem asSuccessor_genuine (hlaw : SubsumeSound C (fun d => C.marshals d = true))
    (hb : ∀ lin, WellBound C (H lin)) {tr : Inst V → SV → Res (Inst V × List Lac)}
    (htr : ∀ {v lacs}, tr i v = .ok (j, lacs) → Genuine C H j) (hg : Genuine C H i)
    (h : asSuccessor H tr i = .ok (j, lacs)) : Genuine C H j := by
  unfold asSuccessor at h
  obtain ⟨_, _, h⟩ := Res.bind_eq_ok.1 h
  obtain ⟨q, hq, h⟩ := Res.bind_eq_ok.1 h
  split at h
  · rename_i hm
    injection h with h; cases h
    exact genuine_minor hlaw (hb _) hg (derefSch_ok hq) hm
  · exact htr h

theorem goLensStep_ok {lin p q : Nat} (h : goLensStep H lin p q i = .ok j) :
    j.valid = true ∧ ∃ m, (H lin).lensmap.lookup ⟨(H lin).ver p, (H lin).ver q⟩ = some m ∧
      m i ⟨lin, q⟩ = .ok (some j) ∧ versionOf H j = (H lin).ver q := by
  unfold goLensStep at h
  split at h
  · cases h
  · rename_i m hm
    obtain ⟨o, ho, h⟩ := Res.bind_eq_ok.1 h
    cases o with
    | none => cases h
    | some rti =>
      simp only at h
      obtain ⟨_, hc, h⟩ := Res.bind_eq_ok.1 h
      split at h
      · cases h
      · rename_i hne
        injection h with h; subst h
        refine ⟨?_, m, hm, ho, not_not.1 hne⟩
        unfold Inst.check at hc
        split at hc
        · assumption
        · cases hc

theorem lookup_mem {α β : Type} [BEq α] [LawfulBEq α] {xs : List (α × β)} {a : α} {b : β}
    (h : xs.lookup a = some b) : (a, b) ∈ xs := by
  induction xs with
  | nil => simp at h
  | cons x xs ih =>
    obtain ⟨c, d⟩ := x
    rw [List.lookup_cons] at h
    split at h
    · rename_i hc
      injection h with h; subst h
      have := eq_of_beq hc
      subst this; simp
    · exact List.mem_cons_of_mem _ (ih h)

/-- Translation keeps a property that its steps keep. -/
theorem translate_preserves {P : Inst V → Prop} (hmap : ∀ lin, Preserve P (H lin))
    (hsucc : ∀ n i j lacs, P i → (∀ {v lacs}, translate C H n i v = .ok (j, lacs) → P j) →
      asSuccessor H (translate C H n) i = .ok (j, lacs) → P j)
    (hcue : ∀ i v j lacs, P i → translateCue C H i v = .ok (j, lacs) →
      (∀ n, translate C H (n + 1) i v = .ok (j, lacs)) → P j) :
    ∀ (n : Nat) (i j : Inst V) (v : SV) (lacs : List Lac), P i →
      translate C H n i v = .ok (j, lacs) → P j := by
  intro n
  induction n with
  | zero => intro i j v lacs _ h; simp [translate] at h
  | succ n ih =>
    intro i j v lacs hP h
    have hfull := h
    simp only [translate] at h
    obtain ⟨_, hc, h⟩ := Res.bind_eq_ok.1 h
    split at h
    · unfold translateGo at h
      simp only at h
      split at h
      · injection h with h; cases h; exact hP
      · obtain ⟨ti, hl, h2⟩ := Res.map_eq_ok.1 h
        cases h2
        have key : ∀ (k p : Nat) (ti : Inst V), P ti →
            goLoop H (translate C H n) i.sch.lin ((H i.sch.lin).ver i.sch.pos) v k p ti = .ok j →
            P j := by
          intro k
          induction k with
          | zero => intro p ti _ h; simp [goLoop] at h
          | succ k ihk =>
            intro p ti hti h
            unfold goLoop at h
            split at h
            · injection h with h; subst h; exact hti
            · obtain ⟨q, _, h⟩ := Res.bind_eq_ok.1 h
              obtain ⟨rti, hstep, h⟩ := Res.bind_eq_ok.1 h
              refine ihk q rti ?_ h
              split at hstep
              · obtain ⟨hv, m, hm, hr, _⟩ := goLensStep_ok hstep
                exact hmap _ _ m (lookup_mem hm) ti _ rti hti hr hv
              · unfold goMinorStep at hstep
                split at hstep
                · rename_i hs
                  injection hstep with hstep; subst hstep
                  exact hsucc n ti _ _ hti (fun hx => ih ti _ _ _ hti hx) hs
                · cases hstep
                · cases hstep
                · cases hstep
        exact key n i.sch.pos i hP hl
    · rename_i hlen
      refine hcue i v j lacs hP h ?_
      intro n'
      rw [translate, hc]
      simp only [Res.bind_ok, if_neg hlen]
      exact h

/-- **C38** (partial).  If all lineages were bound with the compatibility checks in
force and have distinct versions, if all examples are concrete data that their
schema accepts, and if the Go lenses, given instances that satisfy their schema, return
such, then every instance that can be obtained satisfies its schema - provided
subsumption is sound.  Missing: lineages bound with `SkipBuggyChecks`
(`C38_skipped_checks`) and incomplete examples (`C38_incomplete_example`). -/
theorem C38_obtainable_genuine_partial (hlaw : SubsumeSound C (fun d => C.marshals d = true))
    (hb : ∀ lin, WellBound C (H lin)) (hmap : ∀ lin, Preserve (Genuine C H) (H lin))
    (hex : ∀ lin sch name d, sch ∈ (H lin).allsch → (name, d) ∈ sch.examples →
      C.marshals d = true ∧ C.accepts sch.body d)
    (h : Obtainable C H i) : Genuine C H i := by
  have htr : ∀ (n : Nat) (i j : Inst V) (v : SV) (lacs : List Lac), Genuine C H i →
      translate C H n i v = .ok (j, lacs) → Genuine C H j :=
    translate_preserves hmap
      (fun n i j lacs hi ht hs => asSuccessor_genuine hlaw hb (fun hx => ht hx) hi hs)
      (fun i v j lacs _ ht _ => translateCue_genuine ht)
  induction h with
  | validate hd hv =>
    obtain ⟨hp, hacc, rfl⟩ := validate_ok_any hv
    exact ⟨rfl, hd, hp, hacc⟩
  | validateAny hd hv =>
    unfold validateAny at hv
    obtain ⟨p, _, hv⟩ := Res.bind_eq_ok.1 hv
    exact validateAny_genuine hd _ _ hv
  | translate ho ht ih => exact htr _ _ _ _ _ ih ht
  | asSuccessor ho ht ih =>
    exact asSuccessor_genuine hlaw hb (fun hx => htr _ _ _ _ _ ih hx) ih ht
  | asPredecessor ho ht ih =>
    unfold asPredecessor at ht
    obtain ⟨_, _, ht⟩ := Res.bind_eq_ok.1 ht
    obtain ⟨q, _, ht⟩ := Res.bind_eq_ok.1 ht
    exact htr _ _ _ _ _ ih ht
  | example_ hs he =>
    have hmem := List.mem_of_getElem? hs
    obtain ⟨h1, h2⟩ := hex _ _ _ _ hmem he
    obtain ⟨hp, he'⟩ := List.getElem?_eq_some_iff.1 hs
    exact ⟨rfl, h1, hp, by rw [he']; exact h2⟩

/-- The concrete evaluator satisfies the law used. -/
theorem setCue_subsumeSound_concrete :
    SubsumeSound SetCue.cue (fun d => SetCue.cue.marshals d = true) := by
  intro s p d hd hsub hacc
  obtain ⟨a, ha⟩ : ∃ a, ∀ x, d.contains x = ([a] : List Nat).contains x := by
    cases d with
    | nil => simp [SetCue.cue] at hd
    | cons a xs =>
      refine ⟨a, ?_⟩
      simp only [SetCue.cue, List.all_eq_true, beq_iff_eq] at hd
      intro x
      rw [Bool.eq_iff_iff]
      simp only [List.contains_iff_mem, List.mem_cons, List.not_mem_nil, or_false]
      exact ⟨fun h => h.elim id (hd x), .inl⟩
  have e : ∀ q : SetCue.Val, SetCue.cue.accepts q d ↔ SetCue.cue.accepts q [a] := by
    intro q
    simp only [Cue.accepts, SetCue.cue]
    rw [show (fun x => d.contains x) = (fun x => ([a] : List Nat).contains x) from funext ha]
  rw [e] at hacc ⊢
  exact setCue_subsumeSound s p [a] ⟨a, rfl⟩ hsub hacc

/-- Go lenses for 0.0, 0.1, 1.0 that validate fixed data against the schema they are
given. -/
def threeGoLenses (H : Heap SetCue.Val) (d01 d10 d02 : SetCue.Val) :
    List (ImperativeLens SetCue.Val) :=
  let mk (d : SetCue.Val) : Option (Mapper SetCue.Val) :=
    some fun _ s => (validate SetCue.cue H s d).map some
  [⟨⟨0, 0⟩, ⟨0, 1⟩, mk d01⟩, ⟨⟨0, 1⟩, ⟨1, 0⟩, mk d10⟩, ⟨⟨1, 0⟩, ⟨0, 1⟩, mk d02⟩]

/-- The schemas of `threeVersions` as a heap for the Go lenses to validate with. -/
def threeHeap : Heap SetCue.Val := fun _ => threeBound

/-- The lineage bound from `threeVersions` with these Go lenses. -/
def threeGo : Lineage SetCue.Val :=
  { threeBound with
    lenses := []
    lensmap := buildLensMap (threeGoLenses threeHeap [1] [2] [3]) }

theorem threeGo_eq : bindLineage SetCue.cue false (SetCue.withLenses threeVersions [])
    [.imperativeLenses (threeGoLenses threeHeap [1] [2] [3])] = .ok threeGo := by rfl

/-- The Go lenses of `threeGo` return instances of the schema they are given. -/
theorem threeGo_lens {l : ImperativeLens SetCue.Val}
    (hl : l ∈ threeGoLenses threeHeap [1] [2] [3]) {m : Mapper SetCue.Val}
    (hm : l.mapper = some m) {i : Inst SetCue.Val} {s : SchPtr} :
    m i s ≠ .fuel ∧ ∀ j, m i s = .ok (some j) →
      j.sch = s ∧ s.pos < 3 ∧ Genuine SetCue.cue (fun _ => threeGo) j := by
  have key : ∀ d : SetCue.Val, SetCue.cue.marshals d = true →
      (validate SetCue.cue threeHeap s d).map some ≠ .fuel ∧
      ∀ j, (validate SetCue.cue threeHeap s d).map some = .ok (some j) →
      j.sch = s ∧ s.pos < 3 ∧ Genuine SetCue.cue (fun _ => threeGo) j := by
    intro d hd
    constructor
    · intro hf
      by_cases hp : s.pos < threeBound.allsch.length
      · rcases validate_cases setCue_pathsOk (H := threeHeap) (lin := s.lin) rfl hp d with
          ⟨_, e⟩ | ⟨_, e, he⟩
        · rw [show s = ⟨s.lin, s.pos⟩ from rfl, e] at hf; cases hf
        · rw [show s = ⟨s.lin, s.pos⟩ from rfl, he] at hf; cases hf
      · have : (threeHeap s.lin).body? s.pos = none := by
          unfold Lineage.body?
          rw [show (threeHeap s.lin).allsch = threeBound.allsch from rfl,
            List.getElem?_eq_none (by omega)]
          rfl
        simp [validate, validateFull, this] at hf
    · intro j hj
      obtain ⟨j', hj', he⟩ := Res.map_eq_ok.1 hj
      injection he with he; subst he
      obtain ⟨hp, hacc, rfl⟩ := validate_ok_any hj'
      exact ⟨rfl, hp, rfl, hd, hp, hacc⟩
  simp only [threeGoLenses, List.mem_cons, List.not_mem_nil, or_false] at hl
  rcases hl with rfl | rfl | rfl <;> (injection hm with hm; subst hm)
  · exact key [1] rfl
  · exact key [2] rfl
  · exact key [3] rfl

theorem threeGo_stay :
    StayInLineage (fun _ => threeGo) 0 (threeGoLenses threeHeap [1] [2] [3]) := by
  intro l hl m hm i s j hs hj
  obtain ⟨h1, h2, _⟩ := (threeGo_lens hl hm).2 j hj
  rw [h1]; exact ⟨hs, h2⟩

theorem threeGo_wellBound : WellBound SetCue.cue threeGo :=
  ⟨_, _, _, threeGo_eq, .inr (by simp), by decide⟩

theorem threeGo_preserve : Preserve (Genuine SetCue.cue (fun _ => threeGo)) threeGo := by
  intro id m hm i s j _ hj _
  simp only [threeGo, buildLensMap, List.mem_filterMap] at hm
  obtain ⟨l, hl, hlm⟩ := hm
  cases hmm : l.mapper with
  | none => rw [hmm] at hlm; cases hlm
  | some m' =>
    rw [hmm] at hlm
    simp only [Option.map_some, Option.some.injEq, Prod.mk.injEq] at hlm
    rw [hlm.2] at hmm
    exact ((threeGo_lens hl hmm).2 j hj).2.2

/-- The hypotheses of the theorems C33 and C35 are met, and some outcomes. -/
example :
    StayInLineage (fun _ => threeGo) 0 (threeGoLenses threeHeap [1] [2] [3]) ∧
    Return (threeGoLenses threeHeap [1] [2] [3]) ∧
    threeGo.ver 0 = ⟨0, 0⟩ ∧ threeGo.allv.Nodup ∧
    translate SetCue.cue (fun _ => threeGo) 5 (instAt 0 [1]) ⟨1, 0⟩ = .ok (instAt 2 [3], []) ∧
    translate SetCue.cue (fun _ => threeGo) 5 (instAt 2 [3]) ⟨0, 1⟩ = .ok (instAt 1 [2], []) ∧
    translate SetCue.cue (fun _ => threeGo) 5 (instAt 2 [3]) ⟨0, 0⟩ = .ok (instAt 0 [1], []) := by
  refine ⟨threeGo_stay, ?_, rfl, by decide, by rfl, by rfl, by rfl⟩
  · intro l hl m hm i s
    exact (threeGo_lens hl hm).1

/-- The hypotheses of `C38_obtainable_genuine_partial` are met. -/
example : SubsumeSound SetCue.cue (fun d => SetCue.cue.marshals d = true) ∧
    WellBound SetCue.cue threeGo ∧
    Preserve (Genuine SetCue.cue (fun _ => threeGo)) threeGo ∧
    (∀ sch name d, sch ∈ threeGo.allsch → (name, d) ∈ sch.examples →
      SetCue.cue.marshals d = true ∧ SetCue.cue.accepts sch.body d) ∧
    Obtainable SetCue.cue (fun _ => threeGo) (instAt 2 [3]) := by
  refine ⟨setCue_subsumeSound_concrete, threeGo_wellBound, threeGo_preserve, ?_, ?_⟩
  · intro sch name d hs he
    simp only [threeGo, threeBound, List.mem_cons, List.not_mem_nil, or_false] at hs
    rcases hs with rfl | rfl | rfl <;> cases he
  · refine .translate (i := instAt 0 [1]) (n := 5) (v := ⟨1, 0⟩) (lacs := []) ?_ (by rfl)
    exact .validate (s := ⟨0, 0⟩) (d := [1]) rfl (by rfl)

/-- **C38** (refutation, witness).  A lineage bound with `SkipBuggyChecks`:
`AsSuccessor` turns a valid instance of 0.0 into one of 0.1 that 0.1 does not
accept. -/
theorem C38_skipped_checks :
    ∃ L i, (∃ r, bindLineage SetCue.cue false r [.skipBuggyChecks] = .ok L) ∧
      Obtainable SetCue.cue (fun _ => L) i ∧ SetCue.cue.marshals i.raw = true ∧
      ∃ s, L.allsch[i.sch.pos]? = some s ∧ ¬ SetCue.cue.accepts s.body i.raw := by
  refine ⟨{ name := "toy".toList, allsch := [⟨⟨0, 0⟩, [1], [1], []⟩, ⟨⟨0, 1⟩, [2], [2], []⟩],
            lenses := [], lensmap := [] }, instAt 1 [1],
    ⟨SetCue.lin [SetCue.sch 0 0 [1], SetCue.sch 0 1 [2]], rfl⟩, ?_, rfl, ⟨_, rfl, by decide⟩⟩
  exact .asSuccessor (n := 0) (.validate (s := ⟨0, 0⟩) (d := [1]) (i := instAt 0 [1]) rfl (by rfl))
    (lacs := []) (by rfl)

/-- **C38** (refutation, witness).  `Examples` returns an instance of an example
that is not concrete and which `Validate` therefore refuses, although the example
does not conflict with the schema. -/
theorem C38_incomplete_example :
    ∃ L i, (∃ r, SetCue.bind r = .ok L) ∧ Obtainable SetCue.cue (fun _ => L) i ∧
      ∃ s, L.allsch[i.sch.pos]? = some s ∧
        SetCue.cue.isErr (SetCue.cue.unify s.body i.raw) = false ∧
        ¬ SetCue.cue.accepts s.body i.raw := by
  refine ⟨{ name := "toy".toList, allsch := [⟨⟨0, 0⟩, [1, 2], [1, 2], [([], [1, 2])]⟩],
            lenses := [], lensmap := [] }, instAt 0 [1, 2],
    ⟨SetCue.lin [⟨some ⟨0, 0⟩, [1, 2], [1, 2], [([], [1, 2])]⟩], rfl⟩, ?_, ⟨_, rfl, rfl, by decide⟩⟩
  exact .example_ (s := ⟨0, 0⟩) (sch := ⟨⟨0, 0⟩, [1, 2], [1, 2], [([], [1, 2])]⟩) rfl (by simp)

/-! ### C34: validity of the result -/

/-- **C34** (partial).  If the supplied functions keep to the lineage and return only
instances that satisfy their schema, and the lineage was bound with the compatibility
checks in force, then the result is an instance of the requested schema of the same
lineage and satisfies it - provided subsumption is sound.  Missing: other functions
(`C34_foreign_lineage`) and skipped checks (`C38_skipped_checks`). -/
theorem C34_result_valid_partial (hlaw : SubsumeSound C (fun d => C.marshals d = true))
    (h : bindLineage C force r opts = .ok L) (hne : goLenses opts ≠ [])
    (h0 : L.ver 0 = ⟨0, 0⟩) (hb : ∀ lin, WellBound C (H lin)) (hH : H i.sch.lin = L)
    (hst : StayInLineage H i.sch.lin (goLenses opts))
    (hmap : ∀ lin, Preserve (Genuine C H) (H lin)) (hg : Genuine C H i) {q : Nat}
    (hq : q < L.allsch.length) {n : Nat} (hn : L.allsch.length < n)
    (ht : translate C H (n + 1) i (L.ver q) = .ok (j, lacs)) :
    j.sch = ⟨i.sch.lin, q⟩ ∧ C.accepts L.allsch[q].body j.raw := by
  obtain ⟨_, _, _, _, _, hd⟩ := hb i.sch.lin
  rw [hH] at hd
  have hg' := hg
  obtain ⟨hv, _, hp, _⟩ := hg'
  rw [hH] at hp
  have hsch := (C33_reaches_target h hne h0 hd hH hst hv hp hq hn ht).1
  have hgj : Genuine C H j := translate_preserves hmap
    (fun n i j lacs hi ht hs => asSuccessor_genuine hlaw hb (fun hx => ht hx) hi hs)
    (fun i v j lacs _ ht _ => translateCue_genuine ht) _ _ _ _ _ hg ht
  refine ⟨hsch, ?_⟩
  obtain ⟨_, _, hpj, hacc⟩ := hgj
  have e1 : H j.sch.lin = L := by rw [hsch]; exact hH
  have e2 : j.sch.pos = q := by rw [hsch]
  simp only [e1, e2] at hacc
  exact hacc

/-- The hypotheses of `C34_result_valid_partial` are met. -/
example : SetCue.cue.accepts [3] [3] :=
  (C34_result_valid_partial (C := SetCue.cue) (H := fun _ => threeGo) (i := instAt 0 [1])
    (j := instAt 2 [3]) (lacs := []) (q := 2) (n := 4) setCue_subsumeSound_concrete threeGo_eq
    (by simp [goLenses, threeGoLenses]) rfl (fun _ => threeGo_wellBound) rfl threeGo_stay
    (fun _ => threeGo_preserve) ⟨rfl, rfl, by decide, rfl⟩ (by decide) (by decide) (by rfl)).2

/-- A lineage 0.0, 1.0 whose Go lens up returns an instance of another lineage. -/
def strayGo : Lineage SetCue.Val :=
  { name := "toy".toList, allsch := [⟨⟨0, 0⟩, [1], [1], []⟩, ⟨⟨1, 0⟩, [2], [2], []⟩], lenses := [],
    lensmap := buildLensMap
      [⟨⟨0, 0⟩, ⟨1, 0⟩, some fun i _ => .ok (some i)⟩,
       ⟨⟨1, 0⟩, ⟨0, 0⟩, some fun _ _ => .ok (some ⟨[5], [], ⟨1, 1⟩, true⟩)⟩] }

/-- The other lineage: also 0.0, 1.0. -/
def otherLineage : Lineage SetCue.Val :=
  { name := "other".toList, allsch := [⟨⟨0, 0⟩, [4], [4], []⟩, ⟨⟨1, 0⟩, [5], [5], []⟩],
    lenses := [cueLens ⟨1, 0⟩ ⟨0, 0⟩ [4], cueLens ⟨0, 0⟩ ⟨1, 0⟩ [5]], lensmap := [] }

/-- **C34** (refutation, witness).  A Go lens returns a genuine instance of another
lineage whose schema happens to have the expected version; `Translate` accepts it, and
the result is neither an instance of the lineage nor valid in it. -/
theorem C34_foreign_lineage :
    let H : Heap SetCue.Val := fun k => if k = 0 then strayGo else otherLineage
    (∃ r opts, bindLineage SetCue.cue false r opts = .ok strayGo) ∧
    (∃ r, SetCue.bind r = .ok otherLineage) ∧
    Genuine SetCue.cue H (instAt 0 [1]) ∧ Genuine SetCue.cue H ⟨[5], [], ⟨1, 1⟩, true⟩ ∧
    translate SetCue.cue H 5 (instAt 0 [1]) ⟨1, 0⟩ = .ok (⟨[5], [], ⟨1, 1⟩, true⟩, []) ∧
    ¬ SetCue.cue.accepts [2] [5] := by
  refine ⟨⟨SetCue.lin [SetCue.sch 0 0 [1], SetCue.sch 1 0 [2]],
      [.imperativeLenses
        [⟨⟨0, 0⟩, ⟨1, 0⟩, some fun i _ => .ok (some i)⟩,
         ⟨⟨1, 0⟩, ⟨0, 0⟩, some fun _ _ => .ok (some ⟨[5], [], ⟨1, 1⟩, true⟩)⟩]], rfl⟩,
    ⟨{ SetCue.lin [SetCue.sch 0 0 [4], SetCue.sch 1 0 [5]]
        [SetCue.lens ⟨1, 0⟩ ⟨0, 0⟩ [4], SetCue.lens ⟨0, 0⟩ ⟨1, 0⟩ [5]]
       with name := "other".toList }, rfl⟩, ?_, ?_, by rfl, by decide⟩
  · exact ⟨rfl, rfl, by decide, rfl⟩
  · exact ⟨rfl, rfl, by decide, rfl⟩

/-- A lineage 0.0, 1.0, 1.1 whose Go lens up returns an instance of another lineage. -/
def strayGo3 : Lineage SetCue.Val :=
  { name := "toy".toList,
    allsch := [⟨⟨0, 0⟩, [1], [1], []⟩, ⟨⟨1, 0⟩, [2], [2], []⟩, ⟨⟨1, 1⟩, [2, 3], [2, 3], []⟩],
    lenses := [],
    lensmap := buildLensMap
      [⟨⟨0, 0⟩, ⟨1, 0⟩, some fun i _ => .ok (some i)⟩,
       ⟨⟨1, 0⟩, ⟨0, 0⟩, some fun _ _ => .ok (some ⟨[5], [], ⟨1, 1⟩, true⟩)⟩,
       ⟨⟨1, 0⟩, ⟨1, 1⟩, some fun i _ => .ok (some i)⟩] }

/-- The other lineage: 0.0, 1.0, 2.0. -/
def otherLineage3 : Lineage SetCue.Val :=
  { name := "other".toList,
    allsch := [⟨⟨0, 0⟩, [4], [4], []⟩, ⟨⟨1, 0⟩, [5], [5], []⟩, ⟨⟨2, 0⟩, [6], [6], []⟩],
    lenses := [cueLens ⟨1, 0⟩ ⟨0, 0⟩ [4], cueLens ⟨0, 0⟩ ⟨1, 0⟩ [5],
      cueLens ⟨2, 0⟩ ⟨1, 0⟩ [5], cueLens ⟨1, 0⟩ ⟨2, 0⟩ [6]], lensmap := [] }

/-- **C33, C35** (what the restriction to functions that keep to the lineage
excludes; witness).  A function returns an instance of another lineage, which passes
because only version numbers are compared; the following minor step is then taken in
the other lineage, so that asking for 1.1 succeeds with an instance of version 2.0 of
the other lineage.  Going by way of 1.0 panics instead. -/
theorem C33_stray_wrong_version :
    let H : Heap SetCue.Val := fun k => if k = 0 then strayGo3 else otherLineage3
    (∃ r opts, bindLineage SetCue.cue false r opts = .ok strayGo3) ∧
    (∃ r, SetCue.bind r = .ok otherLineage3) ∧
    translate SetCue.cue H 9 (instAt 0 [1]) ⟨1, 1⟩ = .ok (⟨[6], [], ⟨1, 2⟩, true⟩, []) ∧
    (H 1).ver 2 = ⟨2, 0⟩ ∧
    translate SetCue.cue H 9 (instAt 0 [1]) ⟨1, 0⟩ = .ok (⟨[5], [], ⟨1, 1⟩, true⟩, []) ∧
    translate SetCue.cue H 9 ⟨[5], [], ⟨1, 1⟩, true⟩ ⟨1, 1⟩ = .panic .explicit := by
  refine ⟨⟨SetCue.lin [SetCue.sch 0 0 [1], SetCue.sch 1 0 [2], SetCue.sch 1 1 [2, 3]],
      [.imperativeLenses
        [⟨⟨0, 0⟩, ⟨1, 0⟩, some fun i _ => .ok (some i)⟩,
         ⟨⟨1, 0⟩, ⟨0, 0⟩, some fun _ _ => .ok (some ⟨[5], [], ⟨1, 1⟩, true⟩)⟩,
         ⟨⟨1, 0⟩, ⟨1, 1⟩, some fun i _ => .ok (some i)⟩]], rfl⟩,
    ⟨{ SetCue.lin [SetCue.sch 0 0 [4], SetCue.sch 1 0 [5], SetCue.sch 2 0 [6]]
        [SetCue.lens ⟨1, 0⟩ ⟨0, 0⟩ [4], SetCue.lens ⟨0, 0⟩ ⟨1, 0⟩ [5],
         SetCue.lens ⟨2, 0⟩ ⟨1, 0⟩ [5], SetCue.lens ⟨1, 0⟩ ⟨2, 0⟩ [6]]
       with name := "other".toList }, rfl⟩, by rfl, rfl, by rfl, by rfl⟩

/-! ### C36: forward within a major -/

/-- **C36** (Go lenses).  Translating forward within a major version always succeeds,
keeps the data and only changes the schema; no function is called (none is assumed
to behave). -/
theorem C36_go_forward_minor (h : bindLineage C force r opts = .ok L) (hne : goLenses opts ≠ [])
    (hd : L.allv.Nodup) (hH : H i.sch.lin = L) (hv : i.valid = true) {q : Nat}
    (hpq : i.sch.pos ≤ q) (hq : q < L.allsch.length)
    (hm : (L.ver i.sch.pos).major = (L.ver q).major) {n : Nat} (hn : L.allsch.length < n) :
    translate C H (n + 1) i (L.ver q) =
      .ok ({ raw := i.raw, name := i.name, sch := ⟨i.sch.lin, q⟩, valid := true }, []) := by
  have hs := (bind_sorted h).strict hd
  rw [translate_go (by rw [hH]; exact goReady_lensmap h hne) hv]
  unfold translateGo
  simp only [hH]
  have key : ∀ (d p k : Nat) (ti : Inst V), p + d = q → i.sch.pos ≤ p → d < k → ti.valid = true →
      ti.sch = ⟨i.sch.lin, p⟩ →
      goLoop H (translate C H n) i.sch.lin (L.ver i.sch.pos) (L.ver q) k p ti =
        .ok { raw := ti.raw, name := ti.name, sch := ⟨i.sch.lin, q⟩, valid := true } := by
    intro d
    induction d with
    | zero =>
      intro p k ti hpd hip hk htv hts
      have : p = q := by omega
      subst this
      obtain ⟨k, rfl⟩ : ∃ m, k = m + 1 := ⟨k - 1, by omega⟩
      simp only [goLoop, hH, if_true]
      cases ti
      simp only at htv hts
      subst htv hts
      rfl
    | succ d ih =>
      intro p k ti hpd hip hk htv hts
      obtain ⟨k, rfl⟩ : ∃ m, k = m + 1 := ⟨k - 1, by omega⟩
      have hp1 : p + 1 < L.allsch.length := by omega
      have hne' : L.ver p ≠ L.ver q := by
        intro he
        have := ver_inj hs (by omega : p < L.allsch.length) hq he
        omega
      have hsucc : L.successor p = .ok (some (p + 1)) := by
        rw [successor_eq hs (by omega), if_pos hp1]
      have hless : (L.ver q).less (L.ver i.sch.pos) = false := by
        cases hh : (L.ver q).less (L.ver i.sch.pos) with
        | false => rfl
        | true => have := (ver_less_iff hs hq (by omega)).1 hh; omega
      have hmaj : (L.ver p).major = (L.ver (p + 1)).major := by
        have h1 := major_le hs hip (by omega : p < L.allsch.length)
        have h2 := major_le hs (Nat.le_add_right p 1) hp1
        have h3 := major_le hs (by omega : p + 1 ≤ q) hq
        omega
      have hms : goMinorStep H (translate C H n) ti =
          .ok { raw := ti.raw, name := ti.name, sch := ⟨i.sch.lin, p + 1⟩, valid := true } := by
        unfold goMinorStep asSuccessor
        simp [Inst.check, htv, hts, hH, hsucc, derefSch, hmaj]
      rw [goLoop]
      simp only [hH, hne', if_false, hless, Bool.false_eq_true, hsucc, derefSch, Res.bind_ok, hmaj,
        ne_eq, not_true, decide_false, Bool.or_false, hms]
      exact ih (p + 1) k _ (by omega) (by omega) (by omega) rfl rfl
  by_cases heq : i.sch.pos = q
  · subst heq
    simp only [if_true]
    cases i
    simp only at hv
    subst hv
    rfl
  · have hnv : L.ver q ≠ L.ver i.sch.pos := fun he => heq (ver_inj hs (by omega) hq he.symm)
    simp only [hnv, if_false]
    rw [key (q - i.sch.pos) i.sch.pos n i (by omega) (le_refl _) (by omega) hv rfl]
    rfl

/-- **C36**.  `AsSuccessor` across a minor step returns the same data under the
successor schema, with any kind of lenses. -/
theorem C36_asSuccessor_minor (h : bindLineage C force r opts = .ok L) (hd : L.allv.Nodup)
    (hH : H i.sch.lin = L) (hv : i.valid = true) (hp : i.sch.pos + 1 < L.allsch.length)
    (hm : (L.ver (i.sch.pos + 1)).major = (L.ver i.sch.pos).major) (n : Nat) :
    asSuccessor H (translate C H n) i =
      .ok ({ raw := i.raw, name := i.name, sch := ⟨i.sch.lin, i.sch.pos + 1⟩, valid := true }, []) := by
  have hs := (bind_sorted h).strict hd
  have hsucc : L.successor i.sch.pos = .ok (some (i.sch.pos + 1)) := by
    rw [successor_eq hs (by omega), if_pos hp]
  unfold asSuccessor
  simp only [Inst.check, hv, if_true, Res.bind_ok, hH, hsucc, derefSch, hm]

example : translate SetCue.cue (fun _ => threeGo) 5 (instAt 0 [1]) ⟨0, 1⟩ =
      .ok (instAt 1 [1], []) ∧
    asSuccessor (fun _ => threeGo) (translate SetCue.cue (fun _ => threeGo) 5) (instAt 0 [1]) =
      .ok (instAt 1 [1], []) := ⟨by rfl, by rfl⟩

/-- Laws of embedding used for forward translation with CUE lenses: combining
concrete data with a schema that accepts it is no error and gives concrete data that
it accepts; so does taking the default. -/
structure EmbedLaws (C : Cue V) : Prop where
  embed : ∀ b x, C.accepts b x → C.marshals x = true →
    C.isErr (C.embed x b) = false ∧ C.accepts b (C.embed x b) ∧ C.marshals (C.embed x b) = true
  dflt : ∀ b x, C.accepts b x → C.marshals x = true →
    C.accepts b (C.dflt x) ∧ C.marshals (C.dflt x) = true

/-- **C36** (partial, CUE lenses).  Translating concrete data forward within a major
version (up to major 2) always succeeds, in a lineage with contiguous versions bound
with the compatibility checks in force, provided that subsumption is sound and
embedding behaves.  Missing: non-concrete data and skipped checks
(`C36_cue_refuted`). -/
theorem C36_cue_forward_minor_partial (hlaw : SubsumeSound C (fun d => C.marshals d = true))
    (hel : EmbedLaws C) (h : bindLineage C force r opts = .ok L) (hon : ChecksOn force opts)
    (hg : goLenses opts = []) (hc : Contiguous L.allv) (he : ExactLenses L)
    (hH : H i.sch.lin = L) (hgen : Genuine C H i) (hst : C.isStruct i.raw = true) {q : Nat}
    (hpq : i.sch.pos ≤ q) (hq : q < L.allsch.length)
    (hm : (L.ver i.sch.pos).major = (L.ver q).major) (h2 : (L.ver q).major ≤ 2) (n : Nat) :
    ∃ j, translate C H (n + 1) i (L.ver q) = .ok (j, []) ∧ j.sch = ⟨i.sch.lin, q⟩ := by
  have hs := Contiguous.strictV hc
  obtain ⟨hv, hmar, hp, hacc⟩ := hgen
  simp only [hH] at hp hacc
  have key : ∀ (d p : Nat) (x : V) (hp : p < L.allsch.length), p + d = q → i.sch.pos ≤ p →
      C.accepts L.allsch[p].body x → C.marshals x = true →
      ∃ y, Ascend C L p x q y ∧ C.accepts L.allsch[q].body y ∧ C.marshals y = true := by
    intro d
    induction d with
    | zero =>
      intro p x hp hpd _ ha hx
      have : p = q := by omega
      subst this
      exact ⟨x, .refl p x, ha, hx⟩
    | succ d ih =>
      intro p x hp hpd hip ha hx
      have hp1 : p + 1 < L.allsch.length := by omega
      have hmaj : (L.ver p).major = (L.ver (p + 1)).major := by
        have h1 := major_le hs hip (by omega : p < L.allsch.length)
        have h2 := major_le hs (Nat.le_add_right p 1) hp1
        have h3 := major_le hs (by omega : p + 1 ≤ q) hq
        omega
      obtain ⟨y0, hy0, _⟩ := C12_validity_stable hlaw h hon hs.nodup H (lin := i.sch.lin) hH
        (Nat.le_succ p) hp1 hmaj hx ((validate_ok_iff hH hp).2 ⟨ha, rfl⟩)
      have ha1 := ((validate_ok_iff hH hp1).1 hy0).1
      obtain ⟨e1, e2, e3⟩ := hel.embed _ _ ha1 hx
      obtain ⟨y, w, ya, ym⟩ := ih (p + 1) _ hp1 (by omega) (by omega) e2 e3
      exact ⟨y, .step (.minor hp1 hmaj e1) w, ya, ym⟩
  obtain ⟨y, w, ya, ym⟩ := key (q - i.sch.pos) i.sch.pos i.raw hp (by omega) (le_refl _) hacc hmar
  obtain ⟨d1, d2⟩ := hel.dflt _ _ ya ym
  refine ⟨_, (C25_translate_partial h hg hc he hH hv hst hp (by omega) hq h2 n).2
    ⟨rfl, y, .inl ⟨hpq, w⟩, hq, d2, d1, rfl⟩, rfl⟩

/-- The concrete evaluator satisfies the laws. -/
theorem setCue_embedLaws : EmbedLaws SetCue.cue := by
  have key : ∀ b x : SetCue.Val, SetCue.cue.accepts b x → SetCue.cue.marshals x = true →
      SetCue.cue.embed x b = x := by
    intro b x ha hm
    cases x with
    | nil => simp [SetCue.cue] at hm
    | cons a xs =>
      simp only [SetCue.cue, List.all_eq_true, beq_iff_eq] at hm
      have hab : a ∈ b := by
        simp only [Cue.accepts, SetCue.cue] at ha
        cases hf : b.filter (fun x => (a :: xs).contains x) with
        | nil => rw [hf] at ha; simp at ha
        | cons y ys =>
          have : y ∈ b.filter (fun x => (a :: xs).contains x) := by rw [hf]; simp
          rw [List.mem_filter] at this
          have h2 := this.2
          rw [List.contains_iff_mem, List.mem_cons] at h2
          rcases h2 with h2 | h2
          · exact h2 ▸ this.1
          · exact hm y h2 ▸ this.1
      simp only [SetCue.cue]
      rw [List.filter_eq_self]
      intro y hy
      rw [List.contains_iff_mem]
      rcases List.mem_cons.1 hy with h | h
      · exact h ▸ hab
      · exact hm y h ▸ hab
  constructor
  · intro b x ha hm
    rw [key b x ha hm]
    refine ⟨?_, ha, hm⟩
    cases x with
    | nil => simp [SetCue.cue] at hm
    | cons => rfl
  · intro b x ha hm; exact ⟨ha, hm⟩

example : ChecksOn false ([] : List (BindOption SetCue.Val)) ∧
    Genuine SetCue.cue (fun _ => threeExactBound) (instAt 0 [1]) ∧
    translate SetCue.cue (fun _ => threeExactBound) 1 (instAt 0 [1]) ⟨0, 1⟩ =
      .ok (instAt 1 [1], []) :=
  ⟨.inr (by simp), ⟨rfl, rfl, by decide, rfl⟩, by rfl⟩

/-- **C36** (refutation, witness).  Forward translation within a major fails for an
instance of non-concrete data that `Validate` accepted, and in a lineage bound with
`SkipBuggyChecks`. -/
theorem C36_cue_refuted :
    (validate SetCue.cue (fun _ => threeExactBound) ⟨0, 0⟩ [1, 2] = .ok (instAt 0 [1, 2]) ∧
      translate SetCue.cue (fun _ => threeExactBound) 1 (instAt 0 [1, 2]) ⟨0, 1⟩ =
        .err ⟨[.lensIncomplete]⟩) ∧
    ∃ L, (∃ r, bindLineage SetCue.cue false r [.skipBuggyChecks] = .ok L) ∧
      validate SetCue.cue (fun _ => L) ⟨0, 0⟩ [1] = .ok (instAt 0 [1]) ∧
      translate SetCue.cue (fun _ => L) 1 (instAt 0 [1]) ⟨0, 1⟩ = .err ⟨[.invalidLens]⟩ :=
  ⟨⟨by rfl, by rfl⟩,
   { name := "toy".toList, allsch := [⟨⟨0, 0⟩, [1], [1], []⟩, ⟨⟨0, 1⟩, [2], [2], []⟩],
     lenses := [], lensmap := [] },
   ⟨SetCue.lin [SetCue.sch 0 0 [1], SetCue.sch 0 1 [2]], rfl⟩, by rfl, by rfl⟩

/-! ### C37: the ends -/

/-- **C37** (refutation).  `AsSuccessor` on an instance of the latest schema always
panics. -/
theorem C37_successor_panics {L : Lineage V} {H : Heap V} {i : Inst V} (hH : H i.sch.lin = L)
    (hp : i.sch.pos + 1 = L.allsch.length) (tr : Inst V → SV → Res (Inst V × List Lac)) :
    (asSuccessor H tr i).Panics := by
  have hlast : L.allv.getLast? = some (L.ver i.sch.pos) := by
    rw [List.getLast?_eq_getElem?, ver_lt (by omega), List.getElem?_eq_getElem]
    · congr 1
      simp only [allv_length, ← hp]
      rfl
    · rw [allv_length]; omega
  unfold asSuccessor
  cases hv : i.valid with
  | false => simp [Inst.check, hv, Res.Panics]
  | true => simp [Inst.check, hv, hH, Lineage.successor, hlast, derefSch, Res.Panics]

/-- **C37** (refutation).  `AsPredecessor` on an instance of the first schema always
panics. -/
theorem C37_predecessor_panics (h : bindLineage C force r opts = .ok L) (hH : H i.sch.lin = L)
    (hp : i.sch.pos = 0) (tr : Inst V → SV → Res (Inst V × List Lac)) :
    (asPredecessor H tr i).Panics := by
  unfold asPredecessor
  cases hv : i.valid with
  | false => simp [Inst.check, hv, Res.Panics]
  | true =>
    simp only [Inst.check, hv, if_true, Res.bind_ok, hH, hp]
    by_cases h0 : L.ver 0 = ⟨0, 0⟩
    · have : L.predecessor 0 = .ok none := by
        unfold Lineage.predecessor; rw [if_pos (show L.ver 0 = synv0 from h0)]
      simp [this, derefSch, Res.Panics]
    · have := C07_predecessor_panics h h0
      cases hx : L.predecessor 0 with
      | panic k => simp [derefSch, Res.Panics]
      | ok => rw [hx] at this; cases this
      | err => rw [hx] at this; cases this
      | fuel => rw [hx] at this; cases this

/-- **C37** (partial).  Away from the ends, in lineages with distinct versions from
0.0 on, both go to the neighbour: they are `Translate` to the neighbour's version
(or the minor step up). -/
theorem C37_inner_partial (h : bindLineage C force r opts = .ok L) (h0 : L.ver 0 = ⟨0, 0⟩)
    (hd : L.allv.Nodup) (hH : H i.sch.lin = L) (hv : i.valid = true)
    (tr : Inst V → SV → Res (Inst V × List Lac)) :
    (i.sch.pos + 1 < L.allsch.length →
      asSuccessor H tr i = if (L.ver (i.sch.pos + 1)).major = (L.ver i.sch.pos).major
        then .ok ({ i with sch := ⟨i.sch.lin, i.sch.pos + 1⟩ }, [])
        else tr i (L.ver (i.sch.pos + 1))) ∧
    (0 < i.sch.pos → i.sch.pos < L.allsch.length →
      asPredecessor H tr i = tr i (L.ver (i.sch.pos - 1))) := by
  have hs := (bind_sorted h).strict hd
  have hpos := bind_pos h
  have hz : L.allv.head? = some ⟨0, 0⟩ := by
    rw [List.head?_eq_getElem?, List.getElem?_eq_getElem (by simpa using hpos)]
    rw [ver_lt hpos] at h0
    rw [h0]
  constructor
  · intro hp
    unfold asSuccessor
    simp only [Inst.check, hv, if_true, Res.bind_ok, hH, successor_eq hs (by omega : i.sch.pos < _),
      if_pos hp, derefSch]
  · intro hp hlt
    unfold asPredecessor
    simp only [Inst.check, hv, if_true, Res.bind_ok, hH, predecessor_eq hs hz hlt,
      if_neg (by omega : ¬ i.sch.pos = 0), derefSch]

/-- **C37** (refutation, witness). -/
theorem C37_ends_panic_witness :
    asSuccessor (fun _ => threeExactBound) (translate SetCue.cue (fun _ => threeExactBound) 1)
      (instAt 2 [3]) = .panic .nilDeref ∧
    asPredecessor (fun _ => threeExactBound) (translate SetCue.cue (fun _ => threeExactBound) 1)
      (instAt 0 [1]) = .panic .nilDeref := ⟨by rfl, by rfl⟩

/-! ### C32, C30: unknown versions and errors with Go lenses -/

/-- **C32** (Go lenses).  Translating to a version that the lineage does not contain
never succeeds. -/
theorem C32_go_unknown_version_fails (h : bindLineage C force r opts = .ok L)
    (hne : goLenses opts ≠ []) (hH : H i.sch.lin = L) (hp : i.sch.pos < L.allsch.length) {tv : SV}
    (htv : tv ∉ L.allv) (n : Nat) (x : Inst V × List Lac) : translate C H n i tv ≠ .ok x := by
  have hver : ∀ p, p < L.allsch.length → L.ver p ≠ tv := by
    intro p hp he
    apply htv
    rw [← he, ver_lt hp]
    exact List.getElem_mem _
  have hschema : ∀ v p, L.schema v = .ok p → p < L.allsch.length := by
    intro v p hh
    unfold Lineage.schema at hh
    split at hh
    · injection hh with hh; omega
    · cases hh
  intro ht
  cases n with
  | zero => simp [translate] at ht
  | succ n =>
    have hv : i.valid = true := by
      cases hv : i.valid with
      | true => rfl
      | false => simp [translate, Inst.check, hv] at ht
    rw [translate_go (by rw [hH]; exact goReady_lensmap h hne) hv] at ht
    unfold translateGo at ht
    simp only [hH] at ht
    rw [if_neg (fun he => hver _ hp he.symm)] at ht
    obtain ⟨ti, hl, _⟩ := Res.map_eq_ok.1 ht
    have key : ∀ (k p : Nat) (ti y : Inst V), p < L.allsch.length →
        goLoop H (translate C H n) i.sch.lin (L.ver i.sch.pos) tv k p ti ≠ .ok y := by
      intro k
      induction k with
      | zero => intro p ti y _ hh; cases hh
      | succ k ih =>
        intro p ti y hp hh
        unfold goLoop at hh
        rw [hH, if_neg (hver p hp)] at hh
        obtain ⟨q, hq, hh⟩ := Res.bind_eq_ok.1 hh
        obtain ⟨rti, _, hh⟩ := Res.bind_eq_ok.1 hh
        refine ih q rti y ?_ hh
        have hq := derefSch_ok hq
        split at hq
        · unfold Lineage.predecessor at hq
          split at hq
          · cases hq
          · split at hq
            · cases hq
            · obtain ⟨w, _, hq⟩ := Res.bind_eq_ok.1 hq
              obtain ⟨q', hq', he⟩ := Res.map_eq_ok.1 hq
              injection he with he; subst he
              exact hschema _ _ hq'
        · unfold Lineage.successor at hq
          split at hq
          · cases hq
          · split at hq
            · cases hq
            · obtain ⟨w, _, hq⟩ := Res.bind_eq_ok.1 hq
              obtain ⟨q', hq', he⟩ := Res.map_eq_ok.1 hq
              injection he with he; subst he
              exact hschema _ _ hq'
    exact key n i.sch.pos i ti hp hl

/-- **C32** (refutation, witness for Go lenses).  It runs off the end of the lineage
and panics. -/
theorem C32_go_unknown_version_panics_witness :
    translate SetCue.cue (fun _ => threeGo) 9 (instAt 0 [1]) ⟨7, 0⟩ = .panic .nilDeref ∧
    translate SetCue.cue (fun _ => threeGo) 9 (instAt 0 [1]) ⟨0, 2⟩ = .panic .nilDeref :=
  ⟨by rfl, by rfl⟩

/-- **C30** (refutation, witness for Go lenses).  A nil instance, an instance of the
wrong version and an error of the supplied function give errors that are not
`ErrInvalidLens`. -/
theorem C30_go_errors (m : Mapper SetCue.Val)
    (hm : m = (fun _ _ => .ok none) ∨ m = (fun i _ => .ok (some i)) ∨
      m = (fun _ _ => .err ⟨[]⟩)) :
    let L : Lineage SetCue.Val :=
      { name := "toy".toList, allsch := [⟨⟨0, 0⟩, [1], [1], []⟩, ⟨⟨1, 0⟩, [2], [2], []⟩],
        lenses := [], lensmap := [(⟨⟨1, 0⟩, ⟨0, 0⟩⟩, m), (⟨⟨0, 0⟩, ⟨1, 0⟩⟩, m)] }
    (∃ r opts, bindLineage SetCue.cue false r opts = .ok L) ∧
    ∃ e, translate SetCue.cue (fun _ => L) 5 (instAt 0 [1]) ⟨1, 0⟩ = .err e ∧
      ¬ e.is .invalidLens := by
  refine ⟨⟨SetCue.lin [SetCue.sch 0 0 [1], SetCue.sch 1 0 [2]],
    [.imperativeLenses [⟨⟨0, 0⟩, ⟨1, 0⟩, some m⟩, ⟨⟨1, 0⟩, ⟨0, 0⟩, some m⟩]], rfl⟩, ?_⟩
  rcases hm with rfl | rfl | rfl <;> exact ⟨⟨[]⟩, by rfl, by decide⟩

/-! ### The theorems on concrete cases -/

theorem threeGo_return : Return (threeGoLenses threeHeap [1] [2] [3]) := by
  intro l hl m hm i s
  exact (threeGo_lens hl hm).1

theorem threeGo_ne : goLenses [BindOption.imperativeLenses (threeGoLenses threeHeap [1] [2] [3])] ≠ [] := by
  simp [goLenses, threeGoLenses]

example : translate SetCue.cue (fun _ => threeGo) 5 (instAt 0 [1]) ⟨1, 0⟩ ≠ .fuel :=
  C33_terminates (H := fun _ => threeGo) (i := instAt 0 [1]) (q := 2) threeGo_eq threeGo_ne rfl
    (by decide) rfl threeGo_stay
    threeGo_return rfl (by decide) (by decide) (by decide)

example : translate SetCue.cue (fun _ => threeGo) 5 (instAt 2 [3]) ⟨0, 0⟩ =
    (translate SetCue.cue (fun _ => threeGo) 5 (instAt 2 [3]) ⟨0, 1⟩).bind fun x =>
      translate SetCue.cue (fun _ => threeGo) 5 x.1 ⟨0, 0⟩ :=
  C35_composes (H := fun _ => threeGo) (i := instAt 2 [3]) (b := 1) (q := 0) threeGo_eq threeGo_ne
    rfl (by decide) rfl threeGo_stay rfl (by decide) (by decide)
    (.inr ⟨by decide, by decide⟩) (by decide)

example : Genuine SetCue.cue (fun _ => threeGo) (instAt 2 [3]) := by
  refine C38_obtainable_genuine_partial setCue_subsumeSound_concrete (fun _ => threeGo_wellBound)
    (fun _ => threeGo_preserve) ?_ ?_
  · intro _ sch name d hs he
    simp only [threeGo, threeBound, List.mem_cons, List.not_mem_nil, or_false] at hs
    rcases hs with rfl | rfl | rfl <;> cases he
  · exact .translate (i := instAt 0 [1]) (n := 5) (v := ⟨1, 0⟩) (lacs := [])
      (.validate (s := ⟨0, 0⟩) (d := [1]) rfl (by rfl)) (by rfl)

example : translate SetCue.cue (fun _ => threeGo) 5 (instAt 0 [1]) ⟨0, 1⟩ =
    .ok (instAt 1 [1], []) :=
  C36_go_forward_minor (H := fun _ => threeGo) (i := instAt 0 [1]) (q := 1) threeGo_eq threeGo_ne
    (by decide) rfl rfl (by decide) (by decide) rfl (by decide)

example : asSuccessor (fun _ => threeGo) (translate SetCue.cue (fun _ => threeGo) 5)
    (instAt 0 [1]) = .ok (instAt 1 [1], []) :=
  C36_asSuccessor_minor (H := fun _ => threeGo) (i := instAt 0 [1]) threeGo_eq (by decide) rfl rfl
    (by decide) rfl 5

example : ∃ j, translate SetCue.cue (fun _ => threeExactBound) 1 (instAt 0 [1]) ⟨0, 1⟩ =
    .ok (j, []) ∧ j.sch = ⟨0, 1⟩ :=
  C36_cue_forward_minor_partial (H := fun _ => threeExactBound) (i := instAt 0 [1]) (q := 1)
    setCue_subsumeSound_concrete setCue_embedLaws threeExactBound_eq (.inr (by simp)) rfl
    threeExactBound_contiguous threeExactBound_exact rfl ⟨rfl, rfl, by decide, rfl⟩ rfl (by decide)
    (by decide) rfl (by decide) 0

example (tr : Inst SetCue.Val → SV → Res (Inst SetCue.Val × List Lac)) :
    (asSuccessor (fun _ => threeGo) tr (instAt 2 [3])).Panics ∧
    (asPredecessor (fun _ => threeGo) tr (instAt 0 [1])).Panics :=
  ⟨C37_successor_panics (H := fun _ => threeGo) (i := instAt 2 [3]) rfl rfl tr,
    C37_predecessor_panics (H := fun _ => threeGo) (i := instAt 0 [1]) threeGo_eq rfl rfl tr⟩

example (tr : Inst SetCue.Val → SV → Res (Inst SetCue.Val × List Lac)) :
    asSuccessor (fun _ => threeGo) tr (instAt 1 [2]) = tr (instAt 1 [2]) ⟨1, 0⟩ ∧
    asPredecessor (fun _ => threeGo) tr (instAt 1 [2]) = tr (instAt 1 [2]) ⟨0, 0⟩ :=
  have h := C37_inner_partial (H := fun _ => threeGo) (i := instAt 1 [2]) threeGo_eq rfl
    (by decide) rfl rfl tr
  ⟨h.1 (by decide), h.2 (by decide) (by decide)⟩

example (x : Inst SetCue.Val × List Lac) :
    translate SetCue.cue (fun _ => threeGo) 9 (instAt 0 [1]) ⟨0, 2⟩ ≠ .ok x :=
  C32_go_unknown_version_fails (H := fun _ => threeGo) (i := instAt 0 [1]) threeGo_eq threeGo_ne
    rfl (by decide) (by decide) 9 x

example : ∃ L : Lineage SetCue.Val, (∃ r opts, bindLineage SetCue.cue false r opts = .ok L) ∧
    ∃ e, translate SetCue.cue (fun _ => L) 5 (instAt 0 [1]) ⟨1, 0⟩ = .err e ∧ ¬ e.is .invalidLens :=
  ⟨_, C30_go_errors (fun _ _ => .ok none) (.inl rfl)⟩

end Thema.Props

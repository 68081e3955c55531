import Verif.Props.GoStart
import Verif.Props.VersionLists
import Verif.Props.OwnUnknown

/-!
# C163: Go lenses in lineages with repeated versions
-/

namespace Thema.Props

open Thema Thema.Spec

variable {V : Type} {C : Cue V} {force : Bool} {r : RawLineage V} {opts : List (BindOption V)}
  {L : Lineage V} {H : Heap V} {i j : Inst V} {lacs : List Lac}

/-- Two schemas of the lineage have version `w`. -/
def Repeated (L : Lineage V) (w : SV) : Prop :=
  ∃ a b, a < b ∧ b < L.allsch.length ∧ L.ver a = w ∧ L.ver b = w

theorem ver_mono (hs : SortedV L.allv) {a b : Nat} (hab : a ≤ b) (hb : b < L.allsch.length) :
    NotAfter (L.ver a) (L.ver b) := by
  rw [notAfter_iff, ver_lt hb, ver_lt (by omega)]
  exact hs.get hab (by simpa using hb)

theorem notAfter_refl (a : SV) : NotAfter a a := by rw [notAfter_lex]; omega

theorem notAfter_antisymm {a b : SV} (h : NotAfter a b) (h' : NotAfter b a) : a = b := by
  rw [notAfter_lex] at *
  cases a; cases b
  simp only [SV.mk.injEq] at *
  omega

theorem before_of_notAfter {a b c : SV} (h : NotAfter a b) (h' : Before b c) : Before a c := by
  rw [notAfter_lex] at h
  rw [before_iff] at *
  omega

theorem before_of_before {a b c : SV} (h : Before a b) (h' : NotAfter b c) : Before a c := by
  rw [notAfter_lex] at h'
  rw [before_iff] at *
  omega

theorem before_irrefl (a : SV) : ¬ Before a a := by rw [before_iff]; omega

theorem notAfter_of_before {a b : SV} (h : Before a b) : NotAfter a b := by
  rw [notAfter_lex]
  rw [before_iff] at h
  omega

theorem before_of_ne {a b : SV} (h : NotAfter a b) (hne : a ≠ b) : Before a b := by
  rw [notAfter_lex] at h
  rw [before_iff]
  rw [Ne, SV.ext_iff'] at hne
  omega

/-- A version is repeated exactly if the first schema with it is followed by another. -/
theorem repeated_iff (hs : SortedV L.allv) {w : SV} {f : Nat} (hf : FirstWith L w f) :
    Repeated L w ↔ f + 1 < L.allsch.length ∧ L.ver (f + 1) = w := by
  constructor
  · rintro ⟨a, b, hab, hb, ha, hbw⟩
    have hfa : f ≤ a := by
      by_contra hlt; exact hf.2.2 a (by omega) ha
    refine ⟨by omega, notAfter_antisymm ?_ ?_⟩
    · rw [← hbw]; exact ver_mono hs (by omega) hb
    · have := ver_mono hs (show f ≤ f + 1 by omega) (by omega)
      rwa [hf.2.1] at this
  · rintro ⟨h1, h2⟩
    exact ⟨f, f + 1, by omega, h1, hf.2.1, h2⟩

theorem firstWith_exists (hs : SortedV L.allv) {p : Nat} (hp : p < L.allsch.length) :
    ∃ f, FirstWith L (L.ver p) f ∧ f ≤ p := by
  refine ⟨_, firstWith_search hs hp, ?_⟩
  by_contra hlt
  exact (firstWith_search hs hp).2.2 p (by omega) rfl

/-- One step up: it stays if the version is repeated, and goes on otherwise. -/
theorem successor_cases (h : bindLineage C force r opts = .ok L) {p f : Nat}
    (hp : p < L.allsch.length) (hf : FirstWith L (L.ver p) f)
    (hl : L.ver p ≠ L.ver (L.allsch.length - 1)) :
    f + 1 < L.allsch.length ∧
    ((Repeated L (L.ver p) ∧ L.successor p = .ok (some f)) ∨
     (¬ Repeated L (L.ver p) ∧ Before (L.ver p) (L.ver (f + 1)) ∧
      FirstWith L (L.ver (f + 1)) (f + 1) ∧ L.successor p = .ok (some (f + 1)))) := by
  have hs := bind_sorted h
  obtain ⟨f', q, hf', hq, hsucc⟩ := (C152_successor h hp).2 hl
  obtain rfl := firstWith_unique hf hf'
  have hlt : f + 1 < L.allsch.length := by
    apply Nat.lt_of_not_le
    intro hle
    have : f = L.allsch.length - 1 := by have := hf.1; omega
    exact hl (by rw [← hf.2.1, this])
  refine ⟨hlt, ?_⟩
  by_cases hrep : Repeated L (L.ver p)
  · refine .inl ⟨hrep, ?_⟩
    have he := ((repeated_iff hs hf).1 hrep).2
    rw [he] at hq
    rw [hsucc, firstWith_unique hq hf]
  · have hb : Before (L.ver p) (L.ver (f + 1)) := by
      refine before_of_ne ?_ (fun he => hrep ((repeated_iff hs hf).2 ⟨hlt, he.symm⟩))
      have := ver_mono hs (show f ≤ f + 1 by omega) hlt
      rwa [hf.2.1] at this
    have hff : FirstWith L (L.ver (f + 1)) (f + 1) := by
      refine ⟨hlt, rfl, fun k hk he => ?_⟩
      have := ver_mono hs (show k ≤ f by omega) hf.1
      rw [he, hf.2.1] at this
      exact before_irrefl _ (before_of_notAfter this hb)
    exact .inr ⟨hrep, hb, hff, by rw [hsucc, firstWith_unique hq hff]⟩

theorem successor_congr {p p' : Nat} (h : L.ver p = L.ver p') : L.successor p = L.successor p' := by
  unfold Lineage.successor; rw [h]

/-- Repeated versions or not, there is a function for each step between neighbours
that needs one. -/
theorem served_any (h : bindLineage C force r opts = .ok L) (hne : goLenses opts ≠ [])
    (h0 : L.ver 0 = ⟨0, 0⟩) {id : LensID} (hid : Required L.allv id) :
    ∃ m, L.lensmap.lookup id = some m ∧ Supplied (goLenses opts) id.frm id.to m := by
  obtain ⟨hp, _⟩ := goLenses_perm h hne
  have hz : (⟨0, 0⟩ : SV) :: L.allv.tail = L.allv := by
    have hpos := bind_pos h
    rw [ver_lt hpos] at h0
    have hne' : L.allv ≠ [] := List.length_pos_iff.1 (by simpa using hpos)
    obtain ⟨a, vs, hv⟩ := List.exists_cons_of_ne_nil hne'
    simp only [hv, List.getElem_cons_zero] at h0
    rw [hv, ← h0]; rfl
  rw [hz] at hp
  obtain ⟨l, hl, rfl⟩ := List.mem_map.1 (hp.mem_iff.2 ((mem_requiredList _).2 hid))
  obtain ⟨m, hm1, hm2⟩ := (C13_go_lenses_stored h hne).2 l hl
  exact ⟨m, hm2, l, hl, rfl, rfl, hm1⟩

/-- **C163**.  With Go lenses, no instance can be translated up past a repeated
version, whatever the supplied functions do. -/
theorem C163_never_past (h : bindLineage C force r opts = .ok L) (hne : goLenses opts ≠ [])
    (hH : H i.sch.lin = L) (hp : i.sch.pos < L.allsch.length) {w tv : SV} (hw : Repeated L w)
    (h1 : NotAfter (L.ver i.sch.pos) w) (h2 : Before w tv) (n : Nat) (x : Inst V × List Lac) :
    translate C H n i tv ≠ .ok x := by
  have hs := bind_sorted h
  intro ht
  cases n with
  | zero => simp [translate] at ht
  | succ n =>
    have hv : i.valid = true := by
      cases hv : i.valid with
      | true => rfl
      | false => simp [translate, Inst.check, hv] at ht
    rw [translate_go (by rw [hH]; exact goReady_lensmap h hne) hv] at ht
    unfold translateGo at ht
    simp only [hH] at ht
    have hneq : ∀ {p}, NotAfter (L.ver p) w → tv ≠ L.ver p := fun hn he =>
      before_irrefl _ (before_of_notAfter hn (he ▸ h2))
    rw [if_neg (hneq h1)] at ht
    obtain ⟨ti, hl, _⟩ := Res.map_eq_ok.1 ht
    have hless : tv.less (L.ver i.sch.pos) = false := by
      rw [← Bool.not_eq_true, less_iff_before]
      intro hb
      exact before_irrefl _ (before_of_notAfter h1 (before_of_before h2
        (notAfter_of_before hb)))
    have key : ∀ (k p : Nat) (ti y : Inst V), NotAfter (L.ver p) w → p < L.allsch.length →
        goLoop H (translate C H n) i.sch.lin (L.ver i.sch.pos) tv k p ti ≠ .ok y := by
      intro k
      induction k with
      | zero => intro p ti y _ _ hh; cases hh
      | succ k ih =>
        intro p ti y hpw hp hh
        unfold goLoop at hh
        rw [hH, if_neg (hneq hpw).symm] at hh
        by_cases hlast : L.ver p = L.ver (L.allsch.length - 1)
        · rw [hless] at hh
          simp [(C152_successor h hp).1 hlast, derefSch] at hh
        · obtain ⟨f, hf, _⟩ := firstWith_exists hs hp
          obtain ⟨hf1, ⟨_, hsucc⟩ | ⟨hnr, hb, hff, hsucc⟩⟩ := successor_cases h hp hf hlast
          · simp only [hless, hsucc, derefSch, Res.bind_ok, Bool.false_eq_true, if_false] at hh
            obtain ⟨rti, _, hh⟩ := Res.bind_eq_ok.1 hh
            exact ih f rti y (by rw [hf.2.1]; exact hpw) hf.1 hh
          · simp only [hless, hsucc, derefSch, Res.bind_ok, Bool.false_eq_true, if_false] at hh
            obtain ⟨rti, _, hh⟩ := Res.bind_eq_ok.1 hh
            refine ih (f + 1) rti y ?_ hf1 hh
            obtain ⟨a, b, hab, hbl, ha, hbw⟩ := hw
            have hle : f + 1 ≤ b := by
              by_contra hgt
              have h3 := ver_mono hs (show b ≤ f by omega) hf.1
              rw [hbw, hf.2.1] at h3
              exact hnr ⟨a, b, hab, hbl, by rw [ha]; exact notAfter_antisymm h3 hpw,
                by rw [hbw]; exact notAfter_antisymm h3 hpw⟩
            rw [← hbw]; exact ver_mono hs hle hbl
    exact key n i.sch.pos i ti h1 hp hl

/-- A function that answers makes the step. -/
theorem goLensStep_answers {ls : List (ImperativeLens V)} {lin p q : Nat} (hH : H lin = L)
    (ha : AnswersAll L ls) {m : Mapper V} (hl : L.lensmap.lookup ⟨L.ver p, L.ver q⟩ = some m)
    (hm : Supplied ls (L.ver p) (L.ver q) m) (hq : q < L.allsch.length) (ti : Inst V) :
    ∃ ti', ti'.valid = true ∧ ti'.sch = ⟨lin, q⟩ ∧ goLensStep H lin p q ti = .ok ti' := by
  obtain ⟨l, hl', _, _, hlm⟩ := hm
  obtain ⟨j, hj, hv, hs⟩ := ha l hl' m hlm ti ⟨lin, q⟩ hq
  refine ⟨j, hv, hs, ?_⟩
  unfold goLensStep
  rw [hH, hl]
  simp [hj, Inst.check, hv, hs, hH]

/-- One turn of the loop upwards, if all functions answer. -/
theorem goLoop_up_step (h : bindLineage C force r opts = .ok L) (hne : goLenses opts ≠ [])
    (h0 : L.ver 0 = ⟨0, 0⟩) {lin : Nat} (hH : H lin = L) (ha : AnswersAll L (goLenses opts))
    (tr : Inst V → SV → Res (Inst V × List Lac)) {frm tv : SV} (hless : tv.less frm = false)
    {p : Nat} (hp : p < L.allsch.length) (htv : L.ver p ≠ tv)
    (hl : L.ver p ≠ L.ver (L.allsch.length - 1)) {q : Nat} (hsucc : L.successor p = .ok (some q))
    {ti : Inst V} (hv : ti.valid = true) (hsch : ti.sch = ⟨lin, p⟩) :
    ∃ ti', ti'.valid = true ∧ ti'.sch = ⟨lin, q⟩ ∧
      ∀ k, goLoop H tr lin frm tv (k + 1) p ti = goLoop H tr lin frm tv k q ti' := by
  have hs := bind_sorted h
  obtain ⟨f, hf, _⟩ := firstWith_exists hs hp
  by_cases hm : (L.ver p).major = (L.ver q).major
  · refine ⟨{ raw := ti.raw, name := ti.name, sch := ⟨lin, q⟩, valid := true }, rfl, rfl,
      fun k => ?_⟩
    have hms : goMinorStep H tr ti =
        .ok { raw := ti.raw, name := ti.name, sch := ⟨lin, q⟩, valid := true } := by
      unfold goMinorStep asSuccessor
      simp [Inst.check, hv, hsch, hH, hsucc, derefSch, hm]
    rw [goLoop]
    simp [hH, htv, hless, hsucc, derefSch, hm, hms]
  · obtain ⟨hf1, ⟨_, hsucc'⟩ | ⟨_, _, _, hsucc'⟩⟩ := successor_cases h hp hf hl
    · rw [hsucc] at hsucc'
      injection hsucc' with he
      injection he with he
      subst he
      exact absurd (by rw [hf.2.1]) hm
    · rw [hsucc] at hsucc'
      injection hsucc' with he
      injection he with he
      subst he
      have hreq : Required L.allv ⟨L.ver p, L.ver (f + 1)⟩ := by
        rw [← hf.2.1] at hm ⊢
        refine ⟨f, by simpa using hf1, .inr ⟨?_, ?_⟩⟩
        · rw [ver_lt hf1, ver_lt (by omega)] at hm; exact hm
        · rw [ver_lt hf1, ver_lt (by omega)]
      obtain ⟨m, hlm, hsup⟩ := served_any h hne h0 hreq
      obtain ⟨ti', h1, h2, h3⟩ := goLensStep_answers hH ha hlm hsup hf1 ti
      refine ⟨ti', h1, h2, fun k => ?_⟩
      rw [goLoop]
      simp [hH, htv, hless, hsucc, derefSch, hm, h3]

/-- **C163**.  With Go lenses that all answer, `Translate` up past a repeated version
never returns. -/
theorem C163_hangs (h : bindLineage C force r opts = .ok L) (hne : goLenses opts ≠ [])
    (h0 : L.ver 0 = ⟨0, 0⟩) (hH : H i.sch.lin = L) (ha : AnswersAll L (goLenses opts))
    (hv : i.valid = true) (hp : i.sch.pos < L.allsch.length) {q : Nat} (hq : q < L.allsch.length)
    {w : SV} (hw : Repeated L w) (h1 : NotAfter (L.ver i.sch.pos) w) (h2 : Before w (L.ver q))
    (n : Nat) : translate C H n i (L.ver q) = .fuel := by
  have hs := bind_sorted h
  cases n with
  | zero => rfl
  | succ n =>
    have hneq : ∀ {p}, NotAfter (L.ver p) w → L.ver p ≠ L.ver q := fun hn he =>
      before_irrefl _ (before_of_notAfter hn (by rw [he]; exact h2))
    have hless : (L.ver q).less (L.ver i.sch.pos) = false := by
      rw [← Bool.not_eq_true, less_iff_before]
      intro hb
      exact before_irrefl _ (before_of_notAfter h1 (before_of_before h2
        (notAfter_of_before hb)))
    have key : ∀ (k p : Nat) (ti : Inst V), NotAfter (L.ver p) w → p < L.allsch.length →
        ti.valid = true → ti.sch = ⟨i.sch.lin, p⟩ →
        goLoop H (translate C H n) i.sch.lin (L.ver i.sch.pos) (L.ver q) k p ti = .fuel := by
      intro k
      induction k with
      | zero => intro p ti _ _ _ _; rfl
      | succ k ih =>
        intro p ti hpw hp hv hsch
        have hlast : L.ver p ≠ L.ver (L.allsch.length - 1) := by
          intro he
          have := ver_mono hs (show q ≤ L.allsch.length - 1 by omega) (by omega)
          rw [← he] at this
          exact before_irrefl _ (before_of_notAfter hpw (before_of_before h2 this))
        obtain ⟨f, hf, _⟩ := firstWith_exists hs hp
        obtain ⟨hf1, ⟨_, hsucc⟩ | ⟨hnr, hb, hff, hsucc⟩⟩ := successor_cases h hp hf hlast
        · obtain ⟨ti', hv', hsch', he⟩ := goLoop_up_step h hne h0 hH ha (translate C H n) hless hp
            (hneq hpw) hlast hsucc hv hsch
          rw [he]
          exact ih f ti' (by rw [hf.2.1]; exact hpw) hf.1 hv' hsch'
        · obtain ⟨ti', hv', hsch', he⟩ := goLoop_up_step h hne h0 hH ha (translate C H n) hless hp
            (hneq hpw) hlast hsucc hv hsch
          rw [he]
          refine ih (f + 1) ti' ?_ hf1 hv' hsch'
          obtain ⟨a, b, hab, hbl, ha, hbw⟩ := hw
          have hle : f + 1 ≤ b := by
            by_contra hgt
            have h3 := ver_mono hs (show b ≤ f by omega) hf.1
            rw [hbw, hf.2.1] at h3
            exact hnr ⟨a, b, hab, hbl, by rw [ha]; exact notAfter_antisymm h3 hpw,
              by rw [hbw]; exact notAfter_antisymm h3 hpw⟩
          rw [← hbw]; exact ver_mono hs hle hbl
    rw [translate_go (by rw [hH]; exact goReady_lensmap h hne) hv]
    unfold translateGo
    simp only [hH, if_neg (hneq h1).symm]
    rw [key n i.sch.pos i h1 hp hv rfl]
    rfl

/-- One turn of the loop downwards, if all functions answer. -/
theorem goLoop_down_step (h : bindLineage C force r opts = .ok L) (hne : goLenses opts ≠ [])
    (h0 : L.ver 0 = ⟨0, 0⟩) {lin : Nat} (hH : H lin = L) (ha : AnswersAll L (goLenses opts))
    (tr : Inst V → SV → Res (Inst V × List Lac)) {frm tv : SV} (hless : tv.less frm = true)
    {p : Nat} (hp : p < L.allsch.length) (htv : L.ver p ≠ tv) (hl : L.ver p ≠ L.ver 0)
    (ti : Inst V) :
    ∃ f q ti', FirstWith L (L.ver p) (f + 1) ∧ FirstWith L (L.ver f) q ∧
      ti'.valid = true ∧ ti'.sch = ⟨lin, q⟩ ∧
      ∀ k, goLoop H tr lin frm tv (k + 1) p ti = goLoop H tr lin frm tv k q ti' := by
  obtain ⟨f, q, hf, hq, hpred⟩ := (C152_predecessor h hp).2.2 hl
  have hreq : Required L.allv ⟨L.ver p, L.ver q⟩ := by
    rw [← hf.2.1, hq.2.1]
    have hf1 : f + 1 < L.allsch.length := hf.1
    refine ⟨f, by simpa using hf1, .inl ?_⟩
    rw [ver_lt hf1, ver_lt (by omega)]
  obtain ⟨m, hlm, hsup⟩ := served_any h hne h0 hreq
  obtain ⟨ti', h1, h2, h3⟩ := goLensStep_answers hH ha hlm hsup hq.1 ti
  refine ⟨f, q, ti', hf, hq, h1, h2, fun k => ?_⟩
  rw [goLoop]
  simp [hH, htv, hless, hpred, derefSch, h3]

/-- **C163**.  With Go lenses that all answer, `Translate` to a version of the lineage
succeeds if and only if no version from the instance's own up to, but not including,
the target is repeated.  In particular it always succeeds downwards. -/
theorem C163_succeeds_iff (h : bindLineage C force r opts = .ok L) (hne : goLenses opts ≠ [])
    (h0 : L.ver 0 = ⟨0, 0⟩) (hH : H i.sch.lin = L) (ha : AnswersAll L (goLenses opts))
    (hv : i.valid = true) (hp : i.sch.pos < L.allsch.length) {q : Nat} (hq : q < L.allsch.length)
    {n : Nat} (hn : L.allsch.length < n) :
    (∃ j, translate C H (n + 1) i (L.ver q) = .ok (j, []) ∧ j.sch.lin = i.sch.lin ∧
      j.sch.pos < L.allsch.length ∧ L.ver j.sch.pos = L.ver q) ↔
    ¬ ∃ w, Repeated L w ∧ NotAfter (L.ver i.sch.pos) w ∧ Before w (L.ver q) := by
  have hs := bind_sorted h
  constructor
  · rintro ⟨j, hj, _⟩ ⟨w, hw, h1, h2⟩
    exact C163_never_past h hne hH hp hw h1 h2 _ _ hj
  · intro hno
    rw [translate_go (by rw [hH]; exact goReady_lensmap h hne) hv]
    unfold translateGo
    simp only [hH]
    by_cases he : L.ver q = L.ver i.sch.pos
    · rw [if_pos he]
      exact ⟨i, rfl, rfl, hp, he.symm⟩
    rw [if_neg he]
    obtain ⟨t, ht, _⟩ := firstWith_exists hs hq
    suffices hsuff : ∃ ti, goLoop H (translate C H n) i.sch.lin (L.ver i.sch.pos) (L.ver q) n
        i.sch.pos i = .ok ti ∧ ti.sch.lin = i.sch.lin ∧ ti.sch.pos < L.allsch.length ∧
        L.ver ti.sch.pos = L.ver q by
      obtain ⟨ti, h1, h2⟩ := hsuff
      exact ⟨ti, by rw [h1]; rfl, h2⟩
    cases hless : (L.ver q).less (L.ver i.sch.pos) with
    | true =>
      have key : ∀ (g p k : Nat) (ti : Inst V), FirstWith L (L.ver p) g → g < k →
          p < L.allsch.length → NotAfter (L.ver q) (L.ver p) →
          ti.valid = true → ti.sch = ⟨i.sch.lin, p⟩ →
          ∃ ti', goLoop H (translate C H n) i.sch.lin (L.ver i.sch.pos) (L.ver q) k p ti = .ok ti' ∧
            ti'.sch.lin = i.sch.lin ∧ ti'.sch.pos < L.allsch.length ∧
            L.ver ti'.sch.pos = L.ver q := by
        intro g
        induction g using Nat.strongRecOn with
        | ind g ih =>
          intro p k ti hg hk hp hna hv hsch
          obtain ⟨k, rfl⟩ : ∃ j, k = j + 1 := ⟨k - 1, by omega⟩
          by_cases heq : L.ver p = L.ver q
          · refine ⟨ti, ?_, by rw [hsch], by rw [hsch]; exact hp, by rw [hsch]; exact heq⟩
            rw [goLoop, hH, if_pos heq]
          · have hb := before_of_ne hna (Ne.symm heq)
            have hz : L.ver p ≠ L.ver 0 := by
              intro hz
              have := ver_mono hs (Nat.zero_le q) hq
              rw [← hz] at this
              exact before_irrefl _ (before_of_notAfter this hb)
            obtain ⟨f, q', ti', hf, hq', hv', hsch', hstep⟩ := goLoop_down_step h hne h0 hH ha
              (translate C H n) hless hp heq hz ti
            obtain rfl := firstWith_unique hg hf
            rw [hstep]
            have hfl : f < L.allsch.length := by have := hf.1; omega
            have hq'f : q' ≤ f := by
              by_contra hgt; exact hq'.2.2 f (by omega) rfl
            refine ih q' (by omega) q' k ti' (by rw [hq'.2.1]; exact hq') (by omega) hq'.1 ?_ hv' hsch'
            rw [hq'.2.1]
            have hqf : q ≤ f := by
              by_contra hgt
              have := ver_mono hs (show f + 1 ≤ q by omega) hq
              rw [hf.2.1] at this
              exact before_irrefl _ (before_of_notAfter this hb)
            exact ver_mono hs hqf hfl
      obtain ⟨g, hg, hgp⟩ := firstWith_exists hs hp
      exact key g i.sch.pos n i hg (by omega) hp
        (notAfter_of_before (less_iff_before.1 hless)) hv rfl
    | false =>
      have hna : NotAfter (L.ver i.sch.pos) (L.ver q) := notAfter_iff.2 hless
      have key : ∀ (d g p k : Nat) (ti : Inst V), FirstWith L (L.ver p) g → g + d = t → d < k →
          p < L.allsch.length → NotAfter (L.ver i.sch.pos) (L.ver p) →
          ti.valid = true → ti.sch = ⟨i.sch.lin, p⟩ →
          ∃ ti', goLoop H (translate C H n) i.sch.lin (L.ver i.sch.pos) (L.ver q) k p ti = .ok ti' ∧
            ti'.sch.lin = i.sch.lin ∧ ti'.sch.pos < L.allsch.length ∧
            L.ver ti'.sch.pos = L.ver q := by
        intro d
        induction d with
        | zero =>
          intro g p k ti hg hgt hk hp hna hv hsch
          obtain ⟨k, rfl⟩ : ∃ j, k = j + 1 := ⟨k - 1, by omega⟩
          obtain rfl : g = t := by omega
          have heq : L.ver p = L.ver q := by rw [← hg.2.1, ht.2.1]
          refine ⟨ti, ?_, by rw [hsch], by rw [hsch]; exact hp, by rw [hsch]; exact heq⟩
          rw [goLoop, hH, if_pos heq]
        | succ d ih =>
          intro g p k ti hg hgt hk hp hna hv hsch
          obtain ⟨k, rfl⟩ : ∃ j, k = j + 1 := ⟨k - 1, by omega⟩
          have heq : L.ver p ≠ L.ver q := by
            intro heq
            rw [heq] at hg
            have := firstWith_unique hg ht
            omega
          have hb : Before (L.ver p) (L.ver q) := by
            refine before_of_ne ?_ heq
            rw [← hg.2.1, ← ht.2.1]
            exact ver_mono hs (by omega) ht.1
          have hnr : ¬ Repeated L (L.ver p) := fun hr => hno ⟨_, hr, hna, hb⟩
          have hlast : L.ver p ≠ L.ver (L.allsch.length - 1) := by
            intro hl
            have := ver_mono hs (show q ≤ L.allsch.length - 1 by omega) (by omega)
            rw [← hl] at this
            exact before_irrefl _ (before_of_before hb this)
          obtain ⟨hf1, ⟨hr, _⟩ | ⟨_, hb', hff, hsucc⟩⟩ := successor_cases h hp hg hlast
          · exact absurd hr hnr
          obtain ⟨ti', hv', hsch', hstep⟩ := goLoop_up_step h hne h0 hH ha (translate C H n) hless
            hp heq hlast hsucc hv hsch
          rw [hstep]
          exact ih (g + 1) (g + 1) k ti' hff (by omega) (by omega) hf1
            (notAfter_trans hna (notAfter_of_before hb')) hv' hsch'
      obtain ⟨g, hg, hgp⟩ := firstWith_exists hs hp
      have hgt : g ≤ t := by
        by_contra hgt
        have h3 := ver_mono hs (show t ≤ g by omega) hg.1
        rw [ht.2.1, hg.2.1] at h3
        exact he (notAfter_antisymm h3 hna)
      exact key (t - g) g i.sch.pos n i hg (by omega) (by have := ht.1; omega) hp
        (notAfter_refl _) hv rfl

/-- Versions 0.0, 0.1, 0.1 and 0.2, with the Go lenses demanded. -/
def repLenses : List (ImperativeLens SetCue.Val) :=
  let m : Mapper SetCue.Val := fun _ s => .ok (some ⟨[1], [], s, true⟩)
  [⟨⟨0, 0⟩, ⟨0, 1⟩, some m⟩, ⟨⟨0, 1⟩, ⟨0, 1⟩, some m⟩, ⟨⟨0, 1⟩, ⟨0, 2⟩, some m⟩]

theorem repGo_ex : ∃ L, bindLineage SetCue.cue false
    (SetCue.lin [SetCue.sch 0 0 [1], SetCue.sch 0 1 [1, 2], SetCue.sch 0 1 [1, 2, 3],
      SetCue.sch 0 2 [1, 2, 3, 4]]) [.imperativeLenses repLenses] = .ok L ∧
    L.allv = [⟨0, 0⟩, ⟨0, 1⟩, ⟨0, 1⟩, ⟨0, 2⟩] ∧
    L.ver 0 = ⟨0, 0⟩ ∧ L.ver 1 = ⟨0, 1⟩ ∧ L.ver 2 = ⟨0, 1⟩ ∧ L.ver 3 = ⟨0, 2⟩ :=
  ⟨_, rfl, rfl, rfl, rfl, rfl, rfl⟩

theorem repLenses_answer (L : Lineage SetCue.Val) : AnswersAll L repLenses := by
  intro l hl m hm i s hs
  simp only [repLenses, List.mem_cons, List.not_mem_nil, or_false] at hl
  rcases hl with rfl | rfl | rfl <;> (injection hm with hm; subst hm; exact ⟨_, rfl, rfl, rfl⟩)

/-- From 0.0 `Translate` reaches 0.1, but never returns for 0.2; from 0.2 it reaches
0.0. -/
example : ∃ L, bindLineage SetCue.cue false
      (SetCue.lin [SetCue.sch 0 0 [1], SetCue.sch 0 1 [1, 2], SetCue.sch 0 1 [1, 2, 3],
        SetCue.sch 0 2 [1, 2, 3, 4]]) [.imperativeLenses repLenses] = .ok L ∧
    (∃ j, translate SetCue.cue (fun _ => L) 6 (instAt 0 [1]) ⟨0, 1⟩ = .ok (j, [])) ∧
    (∀ n, translate SetCue.cue (fun _ => L) n (instAt 0 [1]) ⟨0, 2⟩ = .fuel) ∧
    ∃ j, translate SetCue.cue (fun _ => L) 6 (instAt 3 [1]) ⟨0, 0⟩ = .ok (j, []) := by
  obtain ⟨L, h, hv, h0, h1, h2, h3⟩ := repGo_ex
  have hlen : L.allsch.length = 4 := by rw [← allv_length, hv]; rfl
  have hne : goLenses [.imperativeLenses repLenses] ≠ [] := by simp [goLenses, repLenses]
  have ha : AnswersAll L (goLenses [.imperativeLenses repLenses]) := repLenses_answer L
  have hrep : ∀ w, Repeated L w → w = ⟨0, 1⟩ := by
    rintro w ⟨a, b, hab, hb, haw, hbw⟩
    rw [hlen] at hb
    match a, b with
    | 1, 2 => rw [← haw, h1]
    | 0, 1 => rw [← hbw, h0, h1] at haw; cases haw
    | 0, 2 => rw [← hbw, h0, h2] at haw; cases haw
    | 0, 3 => rw [← hbw, h0, h3] at haw; cases haw
    | 1, 3 => rw [← hbw, h1, h3] at haw; cases haw
    | 2, 3 => rw [← hbw, h2, h3] at haw; cases haw
    | _, 0 => omega
    | _ + 1, 1 => omega
    | _ + 2, 2 => omega
    | _ + 3, 3 => omega
    | _, _ + 4 => omega
  refine ⟨L, h, ?_, fun n => ?_, ?_⟩
  · obtain ⟨j, hj, _⟩ := (C163_succeeds_iff (i := instAt 0 [1]) (H := fun _ => L) h hne h0 rfl ha rfl
      (show 0 < _ by omega) (show 1 < _ by omega) (n := 5) (by omega)).2 (by
        rintro ⟨w, hw, _, hb⟩
        rw [hrep w hw, h1] at hb
        exact before_irrefl _ hb)
    rw [h1] at hj
    exact ⟨j, hj⟩
  · rw [← h3]
    exact C163_hangs (i := instAt 0 [1]) (H := fun _ => L) h hne h0 rfl ha rfl
      (show 0 < _ by omega) (show 3 < _ by omega) (w := ⟨0, 1⟩)
      ⟨1, 2, by decide, by omega, h1, h2⟩ (by
        show NotAfter (L.ver 0) _
        rw [h0]; exact notAfter_lex.2 (by decide)) (by rw [h3]; exact before_iff.2 (by decide)) n
  · obtain ⟨j, hj, _⟩ := (C163_succeeds_iff (i := instAt 3 [1]) (H := fun _ => L) h hne h0 rfl ha rfl
      (show 3 < _ by omega) (show 0 < _ by omega) (n := 5) (by omega)).2 (by
        rintro ⟨w, hw, hna, hb⟩
        rw [hrep w hw, h0] at hb
        exact absurd (before_iff.1 hb) (by decide))
    rw [h0] at hj
    exact ⟨j, hj⟩

end Thema.Props

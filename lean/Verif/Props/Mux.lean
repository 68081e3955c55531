import Verif.Spec.Mux
import Verif.Props.TranslateGo

/-!
# Version multiplexers
-/

namespace Thema.Props

open Thema Thema.Spec

variable {V T : Type} {C : Cue V} {force : Bool} {r : RawLineage V} {opts : List (BindOption V)}
  {L : Lineage V} {H : Heap V} {s : SchPtr} {dec : Decoder V}

theorem admits_lt {p : Nat} {d : V} (h : Admits C L p d) : p < L.allsch.length := by
  obtain ⟨x, hx, _⟩ := h
  exact (List.getElem?_eq_some_iff.1 hx).1

theorem admits_iff {p : Nat} {d : V} (hp : p < L.allsch.length) :
    Admits C L p d ↔ C.accepts L.allsch[p].body d := by
  unfold Admits
  rw [List.getElem?_eq_getElem hp]
  simp

theorem validate_admits (hP : PathsOk C) {lin p : Nat} (hH : H lin = L) (hp : p < L.allsch.length)
    (d : V) :
    (Admits C L p d ∧ validate C H ⟨lin, p⟩ d = .ok (asInstance lin p d)) ∨
    (¬ Admits C L p d ∧ ∃ e, validate C H ⟨lin, p⟩ d = .err e) := by
  rw [admits_iff hp]
  exact validate_cases hP hH hp d

theorem muxLoop_spec {β : Type} (hP : PathsOk C) (hs : StrictV L.allv)
    (h0 : L.allv.head? = some ⟨0, 0⟩) (hH : H s.lin = L) (hsp : s.pos < L.allsch.length) (d : V)
    (found : Inst V → Res β) (notFound : Res β) : ∀ (n p : Nat), p < L.allsch.length → p < n →
    (∃ i, i ≤ p ∧ i ≠ s.pos ∧ Admits C L i d ∧
      (∀ j, i < j → j ≤ p → j ≠ s.pos → ¬ Admits C L j d) ∧
      muxLoop C H s d found notFound n p = found (asInstance s.lin i d)) ∨
    ((∀ j, j ≤ p → j ≠ s.pos → ¬ Admits C L j d) ∧
      muxLoop C H s d found notFound n p = notFound) := by
  intro n
  induction n with
  | zero => intro p _ hn; omega
  | succ n ih =>
    intro p hp hn
    -- the outcome of moving on
    have hnext : (p = s.pos ∨ ¬ Admits C L p d) →
        (∃ i, i ≤ p ∧ i ≠ s.pos ∧ Admits C L i d ∧
          (∀ j, i < j → j ≤ p → j ≠ s.pos → ¬ Admits C L j d) ∧
          (L.predecessor p).bind (fun
            | none => notFound
            | some q => muxLoop C H s d found notFound n q) = found (asInstance s.lin i d)) ∨
        ((∀ j, j ≤ p → j ≠ s.pos → ¬ Admits C L j d) ∧
          (L.predecessor p).bind (fun
            | none => notFound
            | some q => muxLoop C H s d found notFound n q) = notFound) := by
      intro hskip
      rw [predecessor_eq hs h0 hp]
      simp only [Res.bind_ok]
      by_cases hp0 : p = 0
      · right
        rw [if_pos hp0]
        refine ⟨?_, rfl⟩
        intro j hj hjs
        have : j = p := by omega
        subst this
        exact hskip.resolve_left hjs
      · rw [if_neg hp0]
        simp only
        rcases ih (p - 1) (by omega) (by omega) with ⟨i, h1, h2, h3, h4, h5⟩ | ⟨h1, h2⟩
        · left
          refine ⟨i, by omega, h2, h3, ?_, h5⟩
          intro j hij hjp hjs
          by_cases hjp' : j = p
          · subst hjp'; exact hskip.resolve_left hjs
          · exact h4 j hij (by omega) hjs
        · right
          refine ⟨?_, h2⟩
          intro j hjp hjs
          by_cases hjp' : j = p
          · subst hjp'; exact hskip.resolve_left hjs
          · exact h1 j (by omega) hjs
    simp only [muxLoop, hH]
    by_cases hps : p = s.pos
    · rw [if_pos (by rw [hps])]
      exact hnext (.inl hps)
    · rw [if_neg (fun he => hps (ver_inj hs hp hsp he))]
      rcases validate_admits hP hH hp d with ⟨ha, hv⟩ | ⟨ha, e, hv⟩
      · left
        exact ⟨p, Nat.le_refl _, hps, ha, fun j h1 h2 => by omega, by rw [hv]⟩
      · rw [hv]
        exact hnext (.inr ha)

theorem muxLatest_eq (h : bindLineage C force r opts = .ok L) (hs : StrictV L.allv) :
    muxLatest L = .ok (L.allsch.length - 1) := by
  have hpos := bind_pos h
  unfold muxLatest Lineage.latestVersion Lineage.latest
  rw [if_neg (by omega)]
  simp only [Res.map_ok, Res.bind_ok, Lineage.schemaP]
  rw [schema_ver hs (by omega)]

theorem head_zero (h : bindLineage C force r opts = .ok L) (h0 : L.ver 0 = ⟨0, 0⟩) :
    L.allv.head? = some ⟨0, 0⟩ := by
  have hpos := bind_pos h
  rw [List.head?_eq_getElem?, List.getElem?_eq_getElem (by simpa using hpos)]
  rw [ver_lt hpos] at h0
  rw [h0]

theorem allvstrLoop_eq (hs : StrictV L.allv) : ∀ (n p : Nat), p < L.allsch.length →
    L.allsch.length - p ≤ n → allvstrLoop L n p = .ok (L.allv.drop p) := by
  intro n
  induction n with
  | zero => intro p hp hn; omega
  | succ n ih =>
    intro p hp hn
    have hp' : p < L.allv.length := by simpa using hp
    rw [allvstrLoop, successor_eq hs hp]
    simp only [Res.bind_ok]
    by_cases hl : p + 1 < L.allsch.length
    · rw [if_pos hl]
      simp only
      rw [ih (p + 1) hl (by omega), List.drop_eq_getElem_cons hp', ver_lt hp]
      rfl
    · rw [if_neg hl]
      simp only
      rw [List.drop_eq_getElem_cons hp', ver_lt hp, List.drop_eq_nil_of_le (by simp; omega)]

theorem allvstr_eq (h : bindLineage C force r opts = .ok L) (hs : StrictV L.allv)
    (h0 : L.ver 0 = ⟨0, 0⟩) {n : Nat} (hn : L.allsch.length ≤ n) : allvstr L n = .ok L.allv := by
  have hpos := bind_pos h
  have : L.schemaP synv0 = .ok 0 := by
    unfold Lineage.schemaP
    rw [show synv0 = L.ver 0 from h0.symm, schema_ver hs hpos]
  unfold allvstr
  rw [this]
  simp only [Res.bind_ok]
  rw [allvstrLoop_eq hs n 0 hpos (by omega)]
  rfl

/-! ### C39: the untyped multiplexer -/

/-- **C39**.  `NewUntypedMux` returns a function which: passes on an error of the
decoder; returns the data as an instance of the given schema if that accepts it;
otherwise translates it from the newest other schema that accepts it; and if no schema
accepts it returns the error of the given schema. -/
theorem C39_untyped_mux (hP : PathsOk C) (h : bindLineage C force r opts = .ok L)
    (h0 : L.ver 0 = ⟨0, 0⟩) (hd : L.allv.Nodup) (hH : H s.lin = L) (hsp : s.pos < L.allsch.length)
    {n : Nat} (hn : L.allsch.length ≤ n) :
    ∃ f, newUntypedMux C H s dec n = .ok f ∧ ∀ b,
      (∀ e, dec b = .err e → f b = .err e) ∧
      ∀ d, dec b = .ok d →
        (Admits C L s.pos d → f b = .ok (asInstance s.lin s.pos d, [])) ∧
        (¬ Admits C L s.pos d → ∀ p, NewestOther C L s.pos d p →
          f b = translate C H n (asInstance s.lin p d) (L.ver s.pos)) ∧
        ((∀ p, ¬ Admits C L p d) → ∃ e, f b = .err e ∧ validate C H s d = .err e) := by
  have hs := (bind_sorted h).strict hd
  have hpos := bind_pos h
  refine ⟨untypedMux C H s dec n, ?_, ?_⟩
  · unfold newUntypedMux
    rw [hH, allvstr_eq h hs h0 hn]; rfl
  intro b
  refine ⟨?_, ?_⟩
  · intro e he
    simp [untypedMux, he]
  intro d hdec
  have hbase : untypedMux C H s dec n b =
      match validate C H ⟨s.lin, s.pos⟩ d with
      | .ok i => .ok (i, [])
      | .err e => muxLoop C H s d (fun i => translate C H n i (L.ver s.pos)) (.err e) n
          (L.allsch.length - 1)
      | .panic k => .panic k
      | .fuel => .fuel := by
    unfold untypedMux
    rw [hdec]
    simp only [Res.bind_ok, hH, muxLatest_eq h hs]
    rfl
  rw [hbase, show validate C H s d = validate C H ⟨s.lin, s.pos⟩ d from rfl]
  rcases validate_admits hP hH hsp d with ⟨ha, hv⟩ | ⟨ha, e, hv⟩
  · rw [hv]
    refine ⟨fun _ => rfl, fun hna => absurd ha hna, fun hno => absurd ha (hno _)⟩
  · rw [hv]
    simp only
    refine ⟨fun ha' => absurd ha' ha, ?_, ?_⟩
    · intro _ p ⟨hps, hpa, hpn⟩
      rcases muxLoop_spec hP hs (head_zero h h0) hH hsp d
        (fun i => translate C H n i (L.ver s.pos)) (.err e) n (L.allsch.length - 1) (by omega)
        (by omega) with ⟨i, h1, h2, h3, h4, h5⟩ | ⟨h1, _⟩
      · have : i = p := by
          rcases Nat.lt_trichotomy i p with hlt | heq | hgt
          · have := admits_lt hpa
            exact absurd hpa (h4 p hlt (by omega) hps)
          · exact heq
          · exact absurd h3 (hpn i hgt h2)
        subst this
        exact h5
      · have := admits_lt hpa
        exact absurd hpa (h1 p (by omega) hps)
    · intro hno
      refine ⟨e, ?_, rfl⟩
      rcases muxLoop_spec hP hs (head_zero h h0) hH hsp d
        (fun i => translate C H n i (L.ver s.pos)) (.err e) n (L.allsch.length - 1) (by omega)
        (by omega) with ⟨i, _, _, h3, _⟩ | ⟨_, h2⟩
      · exact absurd h3 (hno i)
      · exact h2

theorem translate_reaches (h : bindLineage C force r opts = .ok L) (h0 : L.ver 0 = ⟨0, 0⟩)
    (hd : L.allv.Nodup) {i j : Inst V} {lacs : List Lac} (hH : H i.sch.lin = L)
    (hst : StayInLineage H i.sch.lin (goLenses opts)) (hp : i.sch.pos < L.allsch.length) {q : Nat}
    (hq : q < L.allsch.length) {n : Nat} (hn : L.allsch.length + 2 ≤ n)
    (ht : translate C H n i (L.ver q) = .ok (j, lacs)) :
    j.sch = ⟨i.sch.lin, q⟩ ∧ j.valid = true := by
  have hs := (bind_sorted h).strict hd
  have hv : i.valid = true := by
    cases n with
    | zero => omega
    | succ n =>
      cases hv : i.valid with
      | true => rfl
      | false => simp [translate, Inst.check, hv] at ht
  by_cases hg : goLenses opts = []
  · obtain ⟨h1, h2, h3, h4, _⟩ := C24_result_valid h hg hH ht
    have := ver_inj hs h4 hq h3
    refine ⟨?_, h2⟩
    cases hj : j.sch with
    | mk a b => rw [hj] at h1 this; simp only at h1 this; subst h1; subst this; rfl
  · obtain ⟨m, rfl⟩ : ∃ m, n = m + 1 := ⟨n - 1, by omega⟩
    obtain ⟨h1, h2, _⟩ := C33_reaches_target h hg h0 hd hH hst hv hp hq (by omega) ht
    exact ⟨h1, h2⟩

theorem muxLoop_ok {β : Type} {d : V} {found : Inst V → Res β} {notFound : Res β} {x : β} :
    ∀ (n p : Nat), muxLoop C H s d found notFound n p = .ok x →
      (∃ i q, validate C H ⟨s.lin, q⟩ d = .ok i ∧ found i = .ok x) ∨ notFound = .ok x := by
  intro n
  induction n with
  | zero => intro p hx; cases hx
  | succ n ih =>
    intro p hx
    have hnext : ((H s.lin).predecessor p).bind (fun
            | none => notFound
            | some q => muxLoop C H s d found notFound n q) = .ok x →
        (∃ i q, validate C H ⟨s.lin, q⟩ d = .ok i ∧ found i = .ok x) ∨ notFound = .ok x := by
      intro hx
      obtain ⟨o, _, hx⟩ := Res.bind_eq_ok.1 hx
      cases o with
      | none => exact .inr hx
      | some q => exact ih q hx
    simp only [muxLoop] at hx
    split at hx
    · exact hnext hx
    · split at hx
      · rename_i i hi
        exact .inl ⟨i, p, hi, hx⟩
      · exact hnext hx
      · cases hx
      · cases hx

/-- **C39**.  The result is always an instance of the given schema. -/
theorem C39_result_schema (h : bindLineage C force r opts = .ok L)
    (h0 : L.ver 0 = ⟨0, 0⟩) (hd : L.allv.Nodup) (hH : H s.lin = L) (hsp : s.pos < L.allsch.length)
    (hst : StayInLineage H s.lin (goLenses opts)) {n : Nat} (hn : L.allsch.length + 2 ≤ n)
    {f : Bytes → Res (Inst V × List Lac)} (hf : newUntypedMux C H s dec n = .ok f) {b : Bytes}
    {j : Inst V} {lacs : List Lac} (hj : f b = .ok (j, lacs)) : j.sch = s ∧ j.valid = true := by
  obtain ⟨_, _, rfl⟩ := Res.map_eq_ok.1 hf
  unfold untypedMux at hj
  obtain ⟨d, _, hj⟩ := Res.bind_eq_ok.1 hj
  split at hj
  · rename_i i hi
    injection hj with hj
    injection hj with hj _
    subst hj
    obtain ⟨_, _, rfl⟩ := validate_ok_any hi
    exact ⟨rfl, rfl⟩
  · obtain ⟨p, _, hj⟩ := Res.bind_eq_ok.1 hj
    rcases muxLoop_ok _ _ hj with ⟨i, q, hi, ht⟩ | hx
    · obtain ⟨hq, _, rfl⟩ := validate_ok_any hi
      rw [hH] at ht hq
      exact translate_reaches h h0 hd (i := ⟨d, [], ⟨s.lin, q⟩, true⟩) hH hst hq hsp hn ht
    · cases hx
  · cases hj
  · cases hj

/-- Data of version 1.0 given to a mux for 0.1. -/
example : ∃ f j, newUntypedMux SetCue.cue (fun _ => threeExactBound) ⟨0, 1⟩
      (fun b => .ok b) 6 = .ok f ∧ f [3] = .ok (j, []) ∧ j.sch = ⟨0, 1⟩ ∧ j.valid = true :=
  ⟨_, _, rfl, by rfl, C39_result_schema (H := fun _ => threeExactBound) (s := ⟨0, 1⟩)
    (dec := fun b => .ok b) (n := 6) threeExactBound_eq rfl (by decide) rfl (by decide)
    (by intro l hl; cases hl) (by decide) rfl (b := [3]) (lacs := []) (by rfl)⟩

/-- **C56** (refutation).  For a lineage whose first version is not
0.0, which binds (C13), every attempt to make a multiplexer panics. -/
theorem C56_construction_panics (h : bindLineage C force r opts = .ok L)
    (h0 : L.ver 0 ≠ ⟨0, 0⟩) (hH : H s.lin = L) (n : Nat) :
    (newUntypedMux C H s dec n).Panics := by
  have hno : synv0 ∉ L.allv := by
    intro hmem
    obtain ⟨k, hk, he⟩ := List.getElem_of_mem hmem
    have hpos := bind_pos h
    have h1 := (bind_sorted h).get (i := 0) (j := k) (Nat.zero_le _) hk
    rw [he] at h1
    apply h0
    rw [ver_lt hpos]
    rcases hx : L.allv[0]'(by simpa using hpos) with ⟨a, b⟩
    rw [hx] at h1
    have : ¬ (synv0.less ⟨a, b⟩ = true) := by rw [h1]; simp
    rw [less_iff] at this
    simp only [synv0] at this
    have h2 : a = 0 ∧ b = 0 := by omega
    rw [h2.1, h2.2]
  have hse : synvExists L.allv synv0 = false := by
    cases hx : synvExists L.allv synv0 with
    | false => rfl
    | true => exact absurd ((synvExists_iff (bind_sorted h) synv0).1 hx) hno
  simp [newUntypedMux, allvstr, Lineage.schemaP, Lineage.Schema, hH, hse, Res.Panics]

theorem allvstrLoop_diverges (hs : SortedV L.allv) {i : Nat} (hi : i + 1 < L.allsch.length)
    (hfirst : ∀ j k, j < k → k ≤ i → L.ver j ≠ L.ver k) (hdup : L.ver i = L.ver (i + 1))
    (hlast : L.ver (L.allsch.length - 1) ≠ L.ver i) :
    ∀ n p, p ≤ i → allvstrLoop L n p = .fuel := by
  have hlast' : ∀ p, p ≤ i → L.ver (L.allsch.length - 1) ≠ L.ver p := by
    intro p hp he
    have h1 := hs.get (i := p) (j := i) hp (by simp; omega)
    have h2 := hs.get (i := i) (j := L.allsch.length - 1) (by omega) (by simp; omega)
    rw [ver_lt (by omega), ver_lt (by omega)] at he
    rw [he] at h2
    apply hlast
    rw [ver_lt (by omega), ver_lt (by omega), he]
    rcases less_total (L.allv[p]'(by simp; omega)) (L.allv[i]'(by simp; omega)) with h | h | h
    · rw [h] at h2; cases h2
    · exact h
    · rw [h] at h1; cases h1
  intro n
  induction n with
  | zero => intro p _; rfl
  | succ n ih =>
    intro p hp
    obtain ⟨h1, h2⟩ := successor_first hs (show p + 1 < L.allsch.length by omega)
      (fun j hj => hfirst j p hj hp) (hlast' p hp)
    rw [allvstrLoop, h1]
    simp only [Res.bind_ok]
    rcases Nat.lt_or_ge p i with hlt | hge
    · rw [(successor_first hs (p := p + 1) (by omega)
        (fun j hj => hfirst j (p + 1) hj (by omega)) (hlast' (p + 1) (by omega))).2,
        ih _ (by omega)]
      rfl
    · have : p = i := by omega
      subst this
      rw [← hdup, h2, ih _ (Nat.le_refl _)]
      rfl

/-- **C56** (refutation).  For a lineage in which two consecutive
schemas share a version that is not the last one, which binds (C09), `NewUntypedMux`
never returns. -/
theorem C56_construction_hangs (h : bindLineage C force r opts = .ok L)
    (h0 : L.ver 0 = ⟨0, 0⟩) (hH : H s.lin = L) {i : Nat} (hi : i + 1 < L.allsch.length)
    (hfirst : ∀ j k, j < k → k ≤ i → L.ver j ≠ L.ver k) (hdup : L.ver i = L.ver (i + 1))
    (hlast : L.ver (L.allsch.length - 1) ≠ L.ver i) (n : Nat) :
    newUntypedMux C H s dec n = .fuel := by
  have hs := bind_sorted h
  have hpos := bind_pos h
  have hmem : synv0 ∈ L.allv := by
    rw [show synv0 = L.ver 0 from h0.symm, ver_lt hpos]; exact List.getElem_mem _
  have hsp : L.schemaP synv0 = .ok 0 := by
    unfold Lineage.schemaP Lineage.Schema
    rw [if_pos ((synvExists_iff hs _).2 hmem), schema_zero h]
  unfold newUntypedMux allvstr
  rw [hH, hsp]
  simp only [Res.bind_ok]
  rw [allvstrLoop_diverges hs hi hfirst hdup hlast n 0 (Nat.zero_le _)]
  rfl

/-- **C56** (partial).  For every lineage with distinct versions starting at 0.0,
multiplexers of all four kinds are made.  Missing: `C56_construction_panics` and
`C56_construction_hangs`. -/
theorem C56_construction_partial (h : bindLineage C force r opts = .ok L)
    (h0 : L.ver 0 = ⟨0, 0⟩) (hd : L.allv.Nodup) (hH : H s.lin = L) (enc : Encoder V)
    {ts : TypedSchema V T} (hts : ts.sch.ptr = s) {n : Nat} (hn : L.allsch.length ≤ n) :
    (∃ f, newUntypedMux C H s dec n = .ok f) ∧ (∃ f, newTypedMux C H ts dec n = .ok f) ∧
    (∃ f, newByteMux C H s dec enc n = .ok f) ∧ (∃ f, newValueMux C H ts dec n = .ok f) := by
  have hs := (bind_sorted h).strict hd
  have ha : allvstr (H s.lin) n = .ok L.allv := by rw [hH]; exact allvstr_eq h hs h0 hn
  subst hts
  simp [newByteMux, newValueMux, newUntypedMux, newTypedMux, ha]

/-- A decoder for the examples: bytes are values; the empty string is malformed. -/
def toyDecoder : Decoder SetCue.Val := fun b => if b = [] then .err ⟨[]⟩ else .ok b

/-- The hypotheses of `C39_untyped_mux` are met, with some outcomes. -/
example : ∃ f, newUntypedMux SetCue.cue (fun _ => threeExactBound) ⟨0, 1⟩ toyDecoder 6 = .ok f ∧
    f [2] = .ok (instAt 1 [2], []) ∧ f [3] = .ok (instAt 1 [2], []) ∧ f [] = .err ⟨[]⟩ ∧
    f [9] = .err ⟨[.invalidData]⟩ ∧ NewestOther SetCue.cue threeExactBound 1 [3] 2 ∧
    StayInLineage (fun _ => threeExactBound) 0 (goLenses ([] : List (BindOption SetCue.Val))) := by
  refine ⟨_, rfl, by rfl, by rfl, by rfl, by rfl, ⟨by decide, ⟨_, rfl, rfl⟩, ?_⟩, ?_⟩
  · intro q hq _ ha
    have := admits_lt ha
    simp only [threeExactBound, threeBound, List.length_cons, List.length_nil] at this
    omega
  · intro l hl; cases hl

/-- Witnesses of both failures of construction. -/
theorem C56_construction_witnesses :
    (∃ L, SetCue.bind dupVersions = .ok L ∧
      ∀ n, newUntypedMux SetCue.cue (fun _ => L) ⟨0, 0⟩ toyDecoder n = .fuel) ∧
    (∃ L, SetCue.bind (SetCue.lin [SetCue.sch 0 1 [1], SetCue.sch 0 2 [1, 2]]) = .ok L ∧
      ∀ n, (newUntypedMux SetCue.cue (fun _ => L) ⟨0, 0⟩ toyDecoder n).Panics) := by
  refine ⟨⟨_, rfl, ?_⟩, ⟨_, rfl, ?_⟩⟩
  · intro n
    refine C56_construction_hangs (C := SetCue.cue) (r := dupVersions) (force := false) (opts := [])
      (H := fun _ => _) (s := ⟨0, 0⟩) rfl rfl rfl (i := 1) (by decide) ?_ rfl (by decide) n
    intro j k hjk hk
    obtain ⟨rfl, rfl⟩ : j = 0 ∧ k = 1 := by omega
    decide
  · intro n
    exact C56_construction_panics (C := SetCue.cue) (force := false) (opts := [])
      (r := SetCue.lin [SetCue.sch 0 1 [1], SetCue.sch 0 2 [1, 2]])
      (H := fun _ => _) (s := ⟨0, 0⟩) rfl (by decide) rfl n

/-! ### C40: the typed multiplexer -/

theorem muxLoop_map {β γ : Type} {d : V} {found : Inst V → Res β} {found' : Inst V → Res γ}
    {notFound : Res β} {notFound' : Res γ} (g : β → γ)
    (hf : ∀ i q, validate C H ⟨s.lin, q⟩ d = .ok i → found' i = (found i).map g)
    (hn : notFound' = notFound.map g) :
    ∀ (n p : Nat), muxLoop C H s d found' notFound' n p =
      (muxLoop C H s d found notFound n p).map g := by
  intro n
  induction n with
  | zero => intro p; rfl
  | succ n ih =>
    intro p
    have hnext : ((H s.lin).predecessor p).bind (fun
            | none => notFound'
            | some q => muxLoop C H s d found' notFound' n q) =
        (((H s.lin).predecessor p).bind (fun
            | none => notFound
            | some q => muxLoop C H s d found notFound n q)).map g := by
      cases (H s.lin).predecessor p with
      | ok o => cases o with
        | none => exact hn
        | some q => exact ih q
      | err e => rfl
      | panic k => rfl
      | fuel => rfl
    simp only [muxLoop]
    split
    · exact hnext
    · split
      · rename_i i hi; exact hf i p hi
      · exact hnext
      · rfl
      · rfl

/-- **C40** (partial).  With a typed schema made from a schema of the lineage, the
typed multiplexer never reaches its "unreachable" panic: it does what the untyped one
does and binds the result to the given typed schema - provided that Go lenses return
instances of the lineage.  Missing: other Go lenses (`C40_unreachable_reached`),
typed schemas made from typed schemas (`C40_nested_panics`), lineages for which a
multiplexer can not be made (C56), and panics inside the untyped one (C22, C55). -/
theorem C40_typed_mux_partial (h : bindLineage C force r opts = .ok L)
    (h0 : L.ver 0 = ⟨0, 0⟩) (hd : L.allv.Nodup) (hH : H s.lin = L) (hsp : s.pos < L.allsch.length)
    (hst : StayInLineage H s.lin (goLenses opts)) (newT : T) (decode : V → T → Res T) {n : Nat}
    (hn : L.allsch.length + 2 ≤ n) :
    ∃ f g, newUntypedMux C H s dec n = .ok f ∧
      newTypedMux C H (bindType (.def_ s) newT decode) dec n = .ok g ∧
      ∀ b, g b = (f b).map fun x => (⟨x.1, bindType (.def_ s) newT decode⟩, x.2) := by
  have hs := (bind_sorted h).strict hd
  refine ⟨untypedMux C H s dec n, typedMux C H (bindType (.def_ s) newT decode) dec n, ?_, ?_, ?_⟩
  · unfold newUntypedMux
    rw [hH, allvstr_eq h hs h0 (by omega)]; rfl
  · unfold newTypedMux
    rw [show (bindType (.def_ s) newT decode : TypedSchema V T).sch.ptr = s from rfl, hH,
      allvstr_eq h hs h0 (by omega)]; rfl
  intro b
  unfold typedMux untypedMux validateTyped
  simp only [bindType, SchemaI.ptr]
  cases dec b with
  | err e => rfl
  | panic k => rfl
  | fuel => rfl
  | ok d =>
    simp only [Res.bind_ok]
    cases validate C H s d with
    | ok i => rfl
    | panic k => rfl
    | fuel => rfl
    | err e =>
      simp only [Res.map_err]
      cases muxLatest (H s.lin) with
      | err e => rfl
      | panic k => rfl
      | fuel => rfl
      | ok p =>
        simp only [Res.bind_ok]
        apply muxLoop_map
        · intro i q hi
          obtain ⟨hq, _, rfl⟩ := validate_ok_any hi
          rw [hH] at hq
          simp only [hH]
          cases ht : translate C H n { raw := d, name := [], sch := ⟨s.lin, q⟩, valid := true }
              (L.ver s.pos) with
          | err e => rfl
          | panic k => rfl
          | fuel => rfl
          | ok x =>
            obtain ⟨j, lacs⟩ := x
            obtain ⟨h1, h2⟩ := translate_reaches h h0 hd hH hst hq hsp hn ht
            simp only at h1
            simp [bindInstanceType, Inst.check, h2, schemaIs, h1, unreachable]
        · rfl

/-- **C40** (refutation).  With a typed schema made from a typed schema, the typed
multiplexer panics whenever the data has to be translated. -/
theorem C40_nested_panics (hP : PathsOk C) (h : bindLineage C force r opts = .ok L)
    (h0 : L.ver 0 = ⟨0, 0⟩) (hd : L.allv.Nodup) {inner : SchemaI} (hH : H inner.ptr.lin = L)
    (hsp : inner.ptr.pos < L.allsch.length) (newT newT' : T) (decode decode' : V → T → Res T)
    {n : Nat} (hn : L.allsch.length ≤ n) {b : Bytes} {d : V} (hdec : dec b = .ok d)
    (hna : ¬ Admits C L inner.ptr.pos d) {p : Nat} (hp : NewestOther C L inner.ptr.pos d p)
    {x : Inst V × List Lac}
    (ht : translate C H n (asInstance inner.ptr.lin p d) (L.ver inner.ptr.pos) = .ok x) :
    ∃ g, newTypedMux C H (bindType (bindType inner newT decode : TypedSchema V T).asSchema newT'
      decode') dec n = .ok g ∧ (g b).Panics := by
  have hs := (bind_sorted h).strict hd
  have hpos := bind_pos h
  have hptr : (bindType (bindType inner newT decode : TypedSchema V T).asSchema newT'
      decode' : TypedSchema V T).sch.ptr = inner.ptr := rfl
  refine ⟨typedMux C H (bindType (bindType inner newT decode : TypedSchema V T).asSchema newT'
      decode') dec n, ?_, ?_⟩
  · unfold newTypedMux
    rw [hptr, hH, allvstr_eq h hs h0 hn]; rfl
  unfold typedMux validateTyped
  rw [hptr, hdec]
  simp only [Res.bind_ok]
  rcases validate_admits hP hH hsp d with ⟨ha, _⟩ | ⟨_, e, hv⟩
  · exact absurd ha hna
  rw [show validate C H inner.ptr d = .err e from hv]
  simp only [Res.map_err, hH, muxLatest_eq h hs, Res.bind_ok]
  rcases muxLoop_spec (s := inner.ptr) hP hs (head_zero h h0) hH hsp d
    (fun i => (translate C H n i (L.ver inner.ptr.pos)).bind fun x =>
      (unreachable (bindInstanceType x.1 (bindType (bindType inner newT decode :
        TypedSchema V T).asSchema newT' decode'))).map fun t => (t, x.2))
    (.err e) n (L.allsch.length - 1) (by omega) (by omega) with ⟨i, h1, h2, h3, h4, h5⟩ | ⟨h1, _⟩
  · obtain ⟨hps, hpa, hpn⟩ := hp
    have : i = p := by
      rcases Nat.lt_trichotomy i p with hlt | heq | hgt
      · have := admits_lt hpa
        exact absurd hpa (h4 p hlt (by omega) hps)
      · exact heq
      · exact absurd h3 (hpn i hgt h2)
    subst this
    rw [h5, ht]
    simp only [Res.bind_ok, bindInstanceType, bindType, TypedSchema.asSchema, schemaIs]
    cases hxv : x.1.valid <;> simp [Inst.check, hxv, unreachable, Res.Panics]
  · have := admits_lt hp.2.1
    exact absurd hp.2.1 (h1 p (by omega) hp.1)

/-- **C40** (refutation, witness).  A Go lens that returns an instance of another
lineage makes the "unreachable" panic happen. -/
theorem C40_unreachable_reached :
    let H : Heap SetCue.Val := fun k => if k = 0 then strayGo else otherLineage
    (∃ r opts, bindLineage SetCue.cue false r opts = .ok strayGo) ∧
    (∃ r, SetCue.bind r = .ok otherLineage) ∧
    ∃ g, newTypedMux SetCue.cue H (bindType (.def_ ⟨0, 1⟩) () fun _ t => .ok t) toyDecoder 5 = .ok g ∧
      g [1] = .panic .explicit := by
  obtain ⟨h1, h2, _⟩ := C34_foreign_lineage
  exact ⟨h1, h2, _, rfl, by rfl⟩

/-- The hypotheses of `C40_typed_mux_partial` and `C40_nested_panics` are met. -/
example : ∃ g g', newTypedMux SetCue.cue (fun _ => threeExactBound)
      (bindType (.def_ ⟨0, 1⟩) () fun _ t => .ok t) toyDecoder 6 = .ok g ∧
    g [3] = .ok (⟨instAt 1 [2], bindType (.def_ ⟨0, 1⟩) () fun _ t => .ok t⟩, []) ∧
    newTypedMux SetCue.cue (fun _ => threeExactBound)
      (bindType (.typed (.def_ ⟨0, 1⟩)) () fun _ t => .ok t) toyDecoder 6 = .ok g' ∧
    g' [2] = .ok (⟨instAt 1 [2], bindType (.typed (.def_ ⟨0, 1⟩)) () fun _ t => .ok t⟩, []) ∧
    g' [3] = .panic .explicit :=
  ⟨_, _, rfl, by rfl, rfl, by rfl, by rfl⟩

/-! ### C41: multiplexers to bytes and Go values -/

theorem goLoop_valid {tr : Inst V → SV → Res (Inst V × List Lac)} {lin : Nat} {frm tv : SV}
    (htr : ∀ i v x, tr i v = .ok x → x.1.valid = true) : ∀ (n p : Nat) (ti j : Inst V),
    ti.valid = true → goLoop H tr lin frm tv n p ti = .ok j → j.valid = true := by
  intro n
  induction n with
  | zero => intro p ti j _ hh; cases hh
  | succ n ih =>
    intro p ti j hv hh
    unfold goLoop at hh
    split at hh
    · injection hh with hh; subst hh; exact hv
    · obtain ⟨q, _, hh⟩ := Res.bind_eq_ok.1 hh
      obtain ⟨rti, hr, hh⟩ := Res.bind_eq_ok.1 hh
      refine ih q rti j ?_ hh
      split at hr
      · unfold goLensStep at hr
        split at hr
        · cases hr
        · obtain ⟨o, _, hr⟩ := Res.bind_eq_ok.1 hr
          cases o with
          | none => cases hr
          | some k =>
            simp only at hr
            obtain ⟨_, hc, hr⟩ := Res.bind_eq_ok.1 hr
            split at hr
            · cases hr
            · injection hr with hr
              subst hr
              unfold Inst.check at hc
              split at hc
              · assumption
              · cases hc
      · unfold goMinorStep at hr
        split at hr
        · rename_i k l hk
          injection hr with hr; subst hr
          unfold asSuccessor at hk
          obtain ⟨_, hc, hk⟩ := Res.bind_eq_ok.1 hk
          obtain ⟨_, _, hk⟩ := Res.bind_eq_ok.1 hk
          split at hk
          · injection hk with hk; injection hk with hk _
            rw [← hk]; exact hv
          · exact htr _ _ _ hk
        · cases hr
        · cases hr
        · cases hr

theorem translate_valid : ∀ (n : Nat) (i : Inst V) (v : SV) (x : Inst V × List Lac),
    translate C H n i v = .ok x → x.1.valid = true := by
  intro n
  induction n with
  | zero => intro i v x h; cases h
  | succ n ih =>
    intro i v x h
    unfold translate at h
    obtain ⟨_, hc, h⟩ := Res.bind_eq_ok.1 h
    have hv : i.valid = true := by
      unfold Inst.check at hc
      split at hc
      · assumption
      · cases hc
    split at h
    · unfold translateGo at h
      simp only at h
      split at h
      · injection h with h; subst h; exact hv
      · obtain ⟨ti, hl, rfl⟩ := Res.map_eq_ok.1 h
        exact goLoop_valid ih _ _ _ _ hv hl
    · obtain ⟨j, lacs⟩ := x
      rw [translateCue_ok_iff] at h
      obtain ⟨_, _, _, _, _, _, h5, _⟩ := h
      obtain ⟨_, _, rfl⟩ := validate_ok_any h5
      rfl

theorem untypedMux_valid {n : Nat} {b : Bytes} {x : Inst V × List Lac}
    (hx : untypedMux C H s dec n b = .ok x) : x.1.valid = true := by
  unfold untypedMux at hx
  obtain ⟨d, _, hx⟩ := Res.bind_eq_ok.1 hx
  split at hx
  · rename_i i hi
    injection hx with hx; subst hx
    obtain ⟨_, _, rfl⟩ := validate_ok_any hi
    rfl
  · obtain ⟨p, _, hx⟩ := Res.bind_eq_ok.1 hx
    rcases muxLoop_ok _ _ hx with ⟨i, q, _, ht⟩ | hx
    · exact translate_valid _ _ _ _ ht
    · cases hx
  · cases hx
  · cases hx

theorem res_map_err {α β : Type} {x : Res α} {f : α → β} {e : GoErr} :
    x.map f = .err e ↔ x = .err e := by
  cases x <;> simp

theorem bind_check_ok {x : Res (Inst V × List Lac)} {enc : Encoder V} {ob : Bytes}
    {lacs : List Lac} (hv : ∀ y, x = .ok y → y.1.check = .ok ()) :
    (x.bind fun y => y.1.check.bind fun _ => (enc y.1.raw).map fun ob => (ob, y.2)) = .ok (ob, lacs) ↔
      ∃ i, x = .ok (i, lacs) ∧ enc i.raw = .ok ob := by
  rw [Res.bind_eq_ok]
  constructor
  · rintro ⟨y, h1, h2⟩
    rw [hv y h1] at h2
    obtain ⟨ob', h3, h4⟩ := Res.map_eq_ok.1 h2
    injection h4 with h4 h5
    subst h4; subst h5
    exact ⟨y.1, h1, h3⟩
  · rintro ⟨i, h1, h2⟩
    refine ⟨_, h1, ?_⟩
    rw [hv _ h1]
    simp [h2]

theorem bind_check_err {x : Res (Inst V × List Lac)} {enc : Encoder V} {e : GoErr}
    (hv : ∀ y, x = .ok y → y.1.check = .ok ()) :
    (x.bind fun y => y.1.check.bind fun _ => (enc y.1.raw).map fun ob => (ob, y.2)) = .err e ↔
      x = .err e ∨ ∃ i lacs, x = .ok (i, lacs) ∧ enc i.raw = .err e := by
  cases hx : x with
  | err e' => simp
  | panic k => simp
  | fuel => simp
  | ok y =>
    obtain ⟨i, l⟩ := y
    simp only [Res.bind_ok, hv _ hx, res_map_err, reduceCtorEq, false_or]
    constructor
    · intro h; exact ⟨i, l, rfl, h⟩
    · rintro ⟨_, _, h1, h2⟩
      injection h1 with h1
      injection h1 with h1 _
      subst h1; exact h2

/-- **C41**.  `NewByteMux` succeeds when `NewUntypedMux` does; its function returns
bytes exactly when the untyped one returns an instance whose data can be encoded, and
then those bytes and the same lacunas; and it returns an error exactly when the untyped
one does or encoding fails, and then that error.  For any lineage and any codec. -/
theorem C41_byte_mux (enc : Encoder V) (n : Nat) {f : Bytes → Res (Inst V × List Lac)}
    (hf : newUntypedMux C H s dec n = .ok f) :
    ∃ g, newByteMux C H s dec enc n = .ok g ∧ ∀ b,
      (∀ ob lacs, g b = .ok (ob, lacs) ↔ ∃ i, f b = .ok (i, lacs) ∧ enc i.raw = .ok ob) ∧
      (∀ e, g b = .err e ↔ f b = .err e ∨ ∃ i lacs, f b = .ok (i, lacs) ∧ enc i.raw = .err e) := by
  refine ⟨byteMux f enc, by simp [newByteMux, hf], fun b => ?_⟩
  obtain ⟨_, _, rfl⟩ := Res.map_eq_ok.1 hf
  unfold byteMux
  have hv : ∀ x, untypedMux C H s dec n b = .ok x → x.1.check = .ok () := fun x hx => by
    simp [Inst.check, untypedMux_valid hx]
  constructor
  · intro ob lacs
    rw [bind_check_ok hv]
  · intro e
    rw [bind_check_err hv]

theorem typedMux_valid {ts : TypedSchema V T} {n : Nat} {b : Bytes} {x : TInst V T × List Lac}
    (hx : typedMux C H ts dec n b = .ok x) : x.1.inst.valid = true ∧ x.1.tsch = ts := by
  unfold typedMux at hx
  obtain ⟨d, _, hx⟩ := Res.bind_eq_ok.1 hx
  split at hx
  · rename_i i hi
    injection hx with hx; subst hx
    unfold validateTyped at hi
    obtain ⟨j, hj, rfl⟩ := Res.map_eq_ok.1 hi
    obtain ⟨_, _, rfl⟩ := validate_ok_any hj
    exact ⟨rfl, rfl⟩
  · obtain ⟨p, _, hx⟩ := Res.bind_eq_ok.1 hx
    rcases muxLoop_ok _ _ hx with ⟨i, q, _, ht⟩ | hx
    · obtain ⟨y, hy, ht⟩ := Res.bind_eq_ok.1 ht
      obtain ⟨t, hb, rfl⟩ := Res.map_eq_ok.1 ht
      have hv := translate_valid _ _ _ _ hy
      unfold bindInstanceType at hb
      simp only [Inst.check, hv, if_true, Res.bind_ok] at hb
      cases hs : schemaIs ts.sch y.1.sch with
      | ok b =>
        rw [hs] at hb
        cases b with
        | true =>
          simp only [Res.bind_ok, if_true, unreachable, Res.ok.injEq] at hb
          subst hb; exact ⟨hv, rfl⟩
        | false => simp [unreachable] at hb
      | err e => rw [hs] at hb; simp [unreachable] at hb
      | panic k => rw [hs] at hb; simp [unreachable] at hb
      | fuel => rw [hs] at hb; simp [unreachable] at hb
    · cases hx
  · cases hx
  · cases hx

/-- **C41**.  The same for `NewValueMux`, with decoding into a fresh value with the
defaults of the given typed schema in place of encoding. -/
theorem C41_value_mux {ts : TypedSchema V T} (n : Nat) {f : Bytes → Res (TInst V T × List Lac)}
    (hf : newTypedMux C H ts dec n = .ok f) :
    ∃ g, newValueMux C H ts dec n = .ok g ∧ ∀ b,
      (∀ t lacs, g b = .ok (t, lacs) ↔
        ∃ i, f b = .ok (i, lacs) ∧ ts.decode i.inst.raw ts.newT = .ok t) ∧
      (∀ e, g b = .err e ↔
        f b = .err e ∨ ∃ i lacs, f b = .ok (i, lacs) ∧ ts.decode i.inst.raw ts.newT = .err e) := by
  refine ⟨valueMux f, by simp [newValueMux, hf], fun b => ?_⟩
  obtain ⟨_, _, rfl⟩ := Res.map_eq_ok.1 hf
  have hval : ∀ x, typedMux C H ts dec n b = .ok x →
      x.1.value = ts.decode x.1.inst.raw ts.newT := fun x hx => by
    obtain ⟨h1, h2⟩ := typedMux_valid hx
    simp [TInst.value, Inst.check, h1, h2]
  unfold valueMux
  cases hx : typedMux C H ts dec n b with
  | err e => simp
  | panic k => simp
  | fuel => simp
  | ok x =>
    obtain ⟨i, l⟩ := x
    have hv := hval _ hx
    simp only [Res.bind_ok] at hv ⊢
    rw [hv]
    constructor
    · intro t lacs
      rw [Res.map_eq_ok]
      constructor
      · rintro ⟨t', h1, h2⟩
        injection h2 with h2 h3
        subst h2; subst h3
        exact ⟨i, rfl, h1⟩
      · rintro ⟨i', h1, h2⟩
        injection h1 with h1
        injection h1 with h1 h3
        subst h1; subst h3
        exact ⟨t, h2, rfl⟩
    · intro e
      rw [res_map_err]
      constructor
      · intro h1; exact .inr ⟨i, l, rfl, h1⟩
      · rintro (h1 | ⟨i', l', h1, h2⟩)
        · cases h1
        · injection h1 with h1
          injection h1 with h1 _
          subst h1; exact h2

/-- A codec for the examples. -/
def toyEncoder : Encoder SetCue.Val := fun d => if d = [2] then .ok [7, 2] else .err ⟨[]⟩

example : ∃ f g, newUntypedMux SetCue.cue (fun _ => threeExactBound) ⟨0, 1⟩ toyDecoder 6 = .ok f ∧
    newByteMux SetCue.cue (fun _ => threeExactBound) ⟨0, 1⟩ toyDecoder toyEncoder 6 = .ok g ∧
    g [3] = .ok ([7, 2], []) ∧ g [1] = .err ⟨[]⟩ ∧ f [1] = .ok (instAt 1 [1], []) :=
  ⟨_, _, rfl, rfl, by rfl, by rfl, by rfl⟩

example : ∃ f g, newTypedMux SetCue.cue (fun _ => threeExactBound)
      (bindType (.def_ ⟨0, 1⟩) 100 fun d t => .ok (d.length + t)) toyDecoder 6 = .ok f ∧
    newValueMux SetCue.cue (fun _ => threeExactBound)
      (bindType (.def_ ⟨0, 1⟩) 100 fun d t => .ok (d.length + t)) toyDecoder 6 = .ok g ∧
    g [3] = .ok (101, []) := ⟨_, _, rfl, rfl, by rfl⟩

end Thema.Props

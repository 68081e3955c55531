import Verif.Spec.MuxExact
import Verif.Props.Exact

/-!
# What multiplexers return, exactly (C174)

For any lineage a multiplexer can be made for (C154): versions may be repeated.
-/

namespace Thema.Props

open Spec

variable {V T : Type} {C : Cue V} {force : Bool} {r : RawLineage V} {opts : List (BindOption V)}
  {L : Lineage V} {H : Heap V} {s : SchPtr} {dec : Decoder V}

theorem muxLoop_first {β : Type} (hP : PathsOk C) (h : bindLineage C force r opts = .ok L)
    (h0 : L.ver 0 = ⟨0, 0⟩) (hH : H s.lin = L) (d : V)
    (found : Inst V → Res β) (notFound : Res β) : ∀ (n p : Nat), FirstWith L (L.ver p) p → p < n →
    (∃ i, i ≤ p ∧ Tried L s.pos i ∧ Admits C L i d ∧
      (∀ j, i < j → j ≤ p → Tried L s.pos j → ¬ Admits C L j d) ∧
      muxLoop C H s d found notFound n p = found (asInstance s.lin i d)) ∨
    ((∀ j, j ≤ p → Tried L s.pos j → ¬ Admits C L j d) ∧
      muxLoop C H s d found notFound n p = notFound) := by
  intro n
  induction n with
  | zero => intro p _ hn; omega
  | succ n ih =>
    intro p hp hn
    have hs := bind_sorted h
    have hnext : (Tried L s.pos p → ¬ Admits C L p d) →
        (∃ i, i ≤ p ∧ Tried L s.pos i ∧ Admits C L i d ∧
          (∀ j, i < j → j ≤ p → Tried L s.pos j → ¬ Admits C L j d) ∧
          (L.predecessor p).bind (fun
            | none => notFound
            | some q => muxLoop C H s d found notFound n q) = found (asInstance s.lin i d)) ∨
        ((∀ j, j ≤ p → Tried L s.pos j → ¬ Admits C L j d) ∧
          (L.predecessor p).bind (fun
            | none => notFound
            | some q => muxLoop C H s d found notFound n q) = notFound) := by
      intro hskip
      obtain ⟨hp1, _, hp3⟩ := C152_predecessor h hp.1
      by_cases hz : L.ver p = L.ver 0
      · right
        rw [hp1 (by rw [hz, h0])]
        refine ⟨fun j hj hjt => ?_, rfl⟩
        have : p = 0 := Nat.eq_zero_of_not_pos fun hpos => hp.2.2 0 hpos hz.symm
        have : j = p := by omega
        subst this
        exact hskip hjt
      · obtain ⟨f, q, hf, hq, he⟩ := hp3 hz
        have hfp : f + 1 = p := firstWith_unique hf hp
        have hqf : q ≤ f := Nat.le_of_not_lt fun hlt => hq.2.2 f hlt rfl
        -- there is no first schema of a version between `q` and `p`
        have hgap : ∀ j, j ≤ p → Tried L s.pos j → j = p ∨ j ≤ q := by
          intro j hj hjt
          rcases Nat.lt_or_ge j p with hlt | hge
          · right
            refine Nat.le_of_not_lt fun hqj => hjt.1.2.2 q hqj ?_
            have h1 := ver_sorted hs (show q ≤ j by omega) hjt.1.1
            have h2 := ver_sorted hs (show j ≤ f by omega) (by have := hp.1; omega)
            rw [← hq.2.1] at h2
            rcases less_total (L.ver q) (L.ver j) with h3 | h3 | h3
            · rw [h3] at h2; cases h2
            · exact h3
            · rw [h3] at h1; cases h1
          · left; omega
        rw [he]
        simp only [Res.bind_ok]
        rcases ih q (by rw [hq.2.1]; exact hq) (by omega) with ⟨i, h1, h2, h3, h4, h5⟩ | ⟨h1, h2⟩
        · left
          refine ⟨i, by omega, h2, h3, fun j hij hjp hjt => ?_, h5⟩
          rcases hgap j hjp hjt with rfl | hjq
          · exact hskip hjt
          · exact h4 j hij hjq hjt
        · right
          refine ⟨fun j hjp hjt => ?_, h2⟩
          rcases hgap j hjp hjt with rfl | hjq
          · exact hskip hjt
          · exact h1 j hjq hjt
    simp only [muxLoop, hH]
    by_cases hps : L.ver p = L.ver s.pos
    · rw [if_pos hps]
      exact hnext fun ht => absurd hps ht.2
    · rw [if_neg hps]
      rcases validate_admits hP hH hp.1 d with ⟨ha, hv⟩ | ⟨ha, e, hv⟩
      · left
        exact ⟨p, Nat.le_refl _, ⟨hp, hps⟩, ha, fun j h1 h2 => by omega, by rw [hv]⟩
      · rw [hv]
        exact hnext fun _ => ha

theorem muxLatest_first (h : bindLineage C force r opts = .ok L) :
    ∃ p, muxLatest L = .ok p ∧ FirstWith L (L.ver p) p ∧
      L.ver p = L.ver (L.allsch.length - 1) := by
  have hs := bind_sorted h
  have hpos := bind_pos h
  have hf := firstWith_search hs (show L.allsch.length - 1 < L.allsch.length by omega)
  refine ⟨searchSynv L.allv (L.ver (L.allsch.length - 1)), ?_, by rw [hf.2.1]; exact hf, hf.2.1⟩
  unfold muxLatest Lineage.latestVersion Lineage.latest
  rw [if_neg (by omega)]
  simp only [Res.map_ok, Res.bind_ok, Lineage.schemaP, Lineage.Schema]
  rw [if_pos ((synvExists_iff hs _).2 (by rw [ver_lt (by omega)]; exact List.getElem_mem _)),
    schema_ver_search hs (by omega)]

theorem tried_le_latest (h : bindLineage C force r opts = .ok L) {p : Nat}
    (hl : L.ver p = L.ver (L.allsch.length - 1)) {j k : Nat}
    (hj : Tried L k j) : j ≤ p := by
  have hs := bind_sorted h
  refine Nat.le_of_not_lt fun hlt => hj.1.2.2 p hlt ?_
  have h1 := ver_sorted hs (show p ≤ j by omega) hj.1.1
  have h2 := ver_sorted hs (show j ≤ L.allsch.length - 1 by have := hj.1.1; omega)
    (by have := hj.1.1; omega)
  rw [← hl] at h2
  rcases less_total (L.ver p) (L.ver j) with h3 | h3 | h3
  · rw [h3] at h2; cases h2
  · exact h3
  · rw [h3] at h1; cases h1

/-- **C174**.  An untyped multiplexer, whenever it can be made (C154): passes on an error
of the decoder; returns the data as an instance of the given schema if that accepts it;
otherwise translates it from the newest schema that accepts it among the first schemas
of the other versions; and if there is none returns the error of the given schema. -/
theorem C174_untyped (hP : PathsOk C) (h : bindLineage C force r opts = .ok L)
    (hH : H s.lin = L) (hsp : s.pos < L.allsch.length) {n : Nat} (hn : L.allsch.length ≤ n)
    {f : Bytes → Res (Inst V × List Lac)} (hf : newUntypedMux C H s dec n = .ok f) (b : Bytes) :
    (∀ e, dec b = .err e → f b = .err e) ∧
    ∀ d, dec b = .ok d →
      (Admits C L s.pos d → f b = .ok (asInstance s.lin s.pos d, [])) ∧
      (¬ Admits C L s.pos d → ∀ p, NewestTried C L s.pos d p →
        f b = translate C H n (asInstance s.lin p d) (L.ver s.pos)) ∧
      (¬ Admits C L s.pos d → (∀ p, Tried L s.pos p → ¬ Admits C L p d) →
        ∃ e, f b = .err e ∧ validate C H s d = .err e) := by
  have h0 : L.ver 0 = ⟨0, 0⟩ := Classical.byContradiction fun h0 => by
    have := C56_construction_panics (dec := dec) h h0 hH n
    rw [hf] at this
    simp [Res.Panics] at this
  obtain ⟨_, _, rfl⟩ := Res.map_eq_ok.1 hf
  refine ⟨fun e he => by simp [untypedMux, he], fun d hdec => ?_⟩
  obtain ⟨l, hl, hfl, hll⟩ := muxLatest_first h
  have hbase : untypedMux C H s dec n b =
      match validate C H ⟨s.lin, s.pos⟩ d with
      | .ok i => .ok (i, [])
      | .err e => muxLoop C H s d (fun i => translate C H n i (L.ver s.pos)) (.err e) n l
      | .panic k => .panic k
      | .fuel => .fuel := by
    unfold untypedMux
    rw [hdec]
    simp only [Res.bind_ok, hH, hl]
    rfl
  rw [hbase, show validate C H s d = validate C H ⟨s.lin, s.pos⟩ d from rfl]
  rcases validate_admits hP hH hsp d with ⟨ha, hv⟩ | ⟨ha, e, hv⟩
  · rw [hv]
    exact ⟨fun _ => rfl, fun hna => absurd ha hna, fun hna => absurd ha hna⟩
  · rw [hv]
    simp only
    have hspec := muxLoop_first hP h h0 hH d (fun i => translate C H n i (L.ver s.pos)) (.err e) n l
      hfl (by have := hfl.1; omega)
    refine ⟨fun ha' => absurd ha' ha, fun _ p ⟨hpt, hpa, hpn⟩ => ?_, fun _ hno => ?_⟩
    · rcases hspec with ⟨i, h1, h2, h3, h4, h5⟩ | ⟨h1, _⟩
      · have : i = p := by
          rcases Nat.lt_trichotomy i p with hlt | heq | hgt
          · exact absurd hpa (h4 p hlt (tried_le_latest h hll hpt) hpt)
          · exact heq
          · exact absurd h3 (hpn i hgt h2)
        subst this
        exact h5
      · exact absurd hpa (h1 p (tried_le_latest h hll hpt) hpt)
    · refine ⟨e, ?_, rfl⟩
      rcases hspec with ⟨i, _, h2, h3, _⟩ | ⟨_, h2⟩
      · exact absurd h3 (hno i h2)
      · exact h2

/-- **C174**.  The three cases of `C174_untyped` cover all data. -/
theorem C174_cases (C : Cue V) (L : Lineage V) (k : Nat) (d : V) :
    (∃ p, NewestTried C L k d p) ∨ ∀ p, Tried L k p → ¬ Admits C L p d := by
  have key : ∀ m p, L.allsch.length - p ≤ m → Tried L k p → Admits C L p d →
      ∃ q, NewestTried C L k d q := by
    intro m
    induction m with
    | zero => intro p hm _ ha; have := admits_lt ha; omega
    | succ m ih =>
      intro p hm ht ha
      by_cases hq : ∃ q, p < q ∧ Tried L k q ∧ Admits C L q d
      · obtain ⟨q, h1, h2, h3⟩ := hq
        exact ih q (by have := admits_lt ha; omega) h2 h3
      · exact ⟨p, ht, ha, fun q h1 h2 h3 => hq ⟨q, h1, h2, h3⟩⟩
  by_cases hex : ∃ p, Tried L k p ∧ Admits C L p d
  · obtain ⟨p, h1, h2⟩ := hex
    exact .inl (key _ p (Nat.le_refl _) h1 h2)
  · exact .inr fun p h1 h2 => hex ⟨p, h1, h2⟩

/-- A lineage whose latest version is repeated: 0.0, 0.1, 0.1. -/
def endDup : RawLineage SetCue.Val :=
  SetCue.lin [SetCue.sch 0 0 [1], SetCue.sch 0 1 [1, 2], SetCue.sch 0 1 [1, 2, 3]]

/-- `endDup` bound. -/
def endDupBound : Lineage SetCue.Val :=
  { name := "toy".toList,
    allsch := [⟨⟨0, 0⟩, [1], [1], []⟩, ⟨⟨0, 1⟩, [1, 2], [1, 2], []⟩,
      ⟨⟨0, 1⟩, [1, 2, 3], [1, 2, 3], []⟩],
    lenses := [], lensmap := [] }

theorem endDupBound_eq : SetCue.bind endDup = .ok endDupBound := rfl

/-- The second schema with version 0.1 is never tried: data only it accepts is
rejected by a multiplexer to 0.0, though a multiplexer to 0.0 can be made. -/
example : ∃ f, newUntypedMux SetCue.cue (fun _ => endDupBound) ⟨0, 0⟩ toyDecoder 3 = .ok f ∧
    (∃ e, f [3] = .err e) ∧ f [1] = .ok (asInstance 0 0 [1], []) ∧
    Admits SetCue.cue endDupBound 2 [3] := by
  refine ⟨_, rfl, ⟨_, by rfl⟩, by rfl, _, rfl, by rfl⟩

/-! ### The typed multiplexer -/

theorem muxLoop_bind {β γ : Type} {d : V} (found : Inst V → Res β) (e : GoErr) (g : β → Res γ) :
    ∀ (n p : Nat), muxLoop C H s d (fun i => (found i).bind g) (.err e) n p =
      (muxLoop C H s d found (.err e) n p).bind g := by
  intro n
  induction n with
  | zero => intro p; rfl
  | succ n ih =>
    intro p
    have hnext : ((H s.lin).predecessor p).bind (fun
            | none => .err e
            | some q => muxLoop C H s d (fun i => (found i).bind g) (.err e) n q) =
        (((H s.lin).predecessor p).bind (fun
            | none => .err e
            | some q => muxLoop C H s d found (.err e) n q)).bind g := by
      cases (H s.lin).predecessor p with
      | ok o => cases o with
        | none => rfl
        | some q => exact ih q
      | err e => rfl
      | panic k => rfl
      | fuel => rfl
    simp only [muxLoop]
    split
    · exact hnext
    · split
      · rfl
      · exact hnext
      · rfl
      · rfl

/-- **C174**.  A typed multiplexer, for any lineage and typed schema: it returns an error
exactly if the untyped one does (the same); a typed instance exactly if the untyped
one returns its instance, and either the given schema itself accepted the data or the
typed schema was made directly from the schema the instance has; and panics exactly if
the untyped one does, or returns an instance for which neither holds. -/
theorem C174_typed {ts : TypedSchema V T} (hts : ts.sch.ptr = s) {n : Nat}
    {f : Bytes → Res (Inst V × List Lac)} (hf : newUntypedMux C H s dec n = .ok f)
    {g : Bytes → Res (TInst V T × List Lac)} (hg : newTypedMux C H ts dec n = .ok g) (b : Bytes) :
    (∀ e, g b = .err e ↔ f b = .err e) ∧ (g b = .fuel ↔ f b = .fuel) ∧
    (∀ t lacs, g b = .ok (t, lacs) ↔ t.tsch = ts ∧ f b = .ok (t.inst, lacs) ∧
      ((∃ d i, dec b = .ok d ∧ validate C H s d = .ok i) ∨ ts.sch = .def_ t.inst.sch)) ∧
    ((g b).Panics ↔ (f b).Panics ∨ ∃ i lacs, f b = .ok (i, lacs) ∧
      (¬ ∃ d i, dec b = .ok d ∧ validate C H s d = .ok i) ∧ ts.sch ≠ .def_ i.sch) := by
  subst hts
  obtain ⟨_, _, rfl⟩ := Res.map_eq_ok.1 hf
  obtain ⟨_, _, rfl⟩ := Res.map_eq_ok.1 hg
  cases hdec : dec b with
  | err e => simp [typedMux, untypedMux, hdec, Res.Panics]
  | panic k => simp [typedMux, untypedMux, hdec, Res.Panics]
  | fuel => simp [typedMux, untypedMux, hdec, Res.Panics]
  | ok d =>
    cases hv : validate C H ts.sch.ptr d with
    | panic k => simp [typedMux, untypedMux, validateTyped, hdec, hv, Res.Panics]
    | fuel => simp [typedMux, untypedMux, validateTyped, hdec, hv, Res.Panics]
    | ok i =>
      simp only [typedMux, untypedMux, validateTyped, hdec, hv, Res.Panics, Res.bind_ok, Res.map_ok]
      refine ⟨by simp, by simp, fun t lacs => ?_, by simp [hv]⟩
      obtain ⟨ti, tt⟩ := t
      constructor
      · intro hx
        injection hx with hx
        injection hx with h1 h2
        injection h1 with h1 h3
        subst h1; subst h2; subst h3
        exact ⟨rfl, rfl, .inl ⟨d, i, rfl, hv⟩⟩
      · rintro ⟨h1, h2, -⟩
        injection h2 with h2
        injection h2 with h2 h3
        simp only at h1 h2
        subst h1; subst h2; subst h3
        rfl
    | err e =>
      have hno : ¬ ∃ d' i, (Res.ok d : Res V) = .ok d' ∧ validate C H ts.sch.ptr d' = .ok i := by
        rintro ⟨d', i, h1, h2⟩
        injection h1 with h1
        subst h1
        rw [hv] at h2
        cases h2
      have hu : untypedMux C H ts.sch.ptr dec n b =
          (muxLatest (H ts.sch.ptr.lin)).bind fun p => muxLoop C H ts.sch.ptr d
            (fun i => translate C H n i ((H ts.sch.ptr.lin).ver ts.sch.ptr.pos)) (.err e) n p := by
        simp only [untypedMux, hdec, hv, Res.bind_ok]
      have hvalid : ∀ x, untypedMux C H ts.sch.ptr dec n b = .ok x → x.1.valid = true := by
        intro x hx
        rw [hu] at hx
        obtain ⟨p, _, hx⟩ := Res.bind_eq_ok.1 hx
        rcases muxLoop_ok _ _ hx with ⟨i, q, _, ht⟩ | hx
        · exact translate_valid _ _ _ _ ht
        · cases hx
      have hg : typedMux C H ts dec n b = (untypedMux C H ts.sch.ptr dec n b).bind fun x =>
          (unreachable (bindInstanceType x.1 ts)).map fun t => (t, x.2) := by
        rw [hu]
        simp only [typedMux, validateTyped, hdec, hv, Res.bind_ok, Res.map_err]
        cases muxLatest (H ts.sch.ptr.lin) with
        | err e => rfl
        | panic k => rfl
        | fuel => rfl
        | ok p =>
          simp only [Res.bind_ok]
          exact muxLoop_bind _ _ _ _ _
      rw [hg]
      cases hx : untypedMux C H ts.sch.ptr dec n b with
      | err e => simp [Res.Panics]
      | panic k => simp [Res.Panics]
      | fuel => simp [Res.Panics]
      | ok x =>
        obtain ⟨i, ls⟩ := x
        have hiv := hvalid _ hx
        simp only at hiv
        have hb : unreachable (bindInstanceType i ts) =
            if ts.sch = .def_ i.sch then .ok ⟨i, ts⟩ else .panic .explicit := by
          cases hsch : ts.sch with
          | typed q => simp [bindInstanceType, Inst.check, hiv, hsch, schemaIs, unreachable]
          | def_ q =>
            by_cases hq : q = i.sch
            · simp [bindInstanceType, Inst.check, hiv, hsch, schemaIs, unreachable, hq]
            · simp [bindInstanceType, Inst.check, hiv, hsch, schemaIs, unreachable, hq]
        simp only [Res.bind_ok, hb]
        by_cases he : ts.sch = .def_ i.sch
        · rw [if_pos he]
          refine ⟨by simp, by simp, fun t lacs => ?_, ?_⟩
          · obtain ⟨ti, tt⟩ := t
            constructor
            · intro hh
              simp only [Res.map_ok] at hh
              injection hh with hh
              injection hh with h1 h2
              injection h1 with h1 h3
              subst h1; subst h2; subst h3
              exact ⟨rfl, rfl, .inr he⟩
            · rintro ⟨h1, h2, -⟩
              injection h2 with h2
              injection h2 with h2 h3
              simp only at h1 h2
              subst h1; subst h2; subst h3
              rfl
          · constructor
            · intro hh; simp [Res.Panics] at hh
            · rintro (hh | ⟨i', lacs, h1, _, h3⟩)
              · simp [Res.Panics] at hh
              · injection h1 with h1
                injection h1 with h1 _
                subst h1
                exact absurd he h3
        · rw [if_neg he]
          refine ⟨by simp, by simp, fun t lacs => ?_, ?_⟩
          · constructor
            · intro hh; cases hh
            · rintro ⟨h1, h2, h3⟩
              injection h2 with h2
              injection h2 with h2 _
              subst h2
              exact absurd h3 (not_or.2 ⟨hno, he⟩)
          · constructor
            · intro _; exact .inr ⟨i, ls, rfl, hno, he⟩
            · intro _; simp [Res.Panics]

/-- All outcomes occur: data the schema accepts, data translated, and a panic for a typed
schema made from a typed schema. -/
example : ∃ f g g', newUntypedMux SetCue.cue (fun _ => threeExactBound) ⟨0, 1⟩ toyDecoder 6 = .ok f ∧
    newTypedMux SetCue.cue (fun _ => threeExactBound)
      (bindType (.def_ ⟨0, 1⟩) () fun _ t => .ok t) toyDecoder 6 = .ok g ∧
    newTypedMux SetCue.cue (fun _ => threeExactBound)
      (bindType (.typed (.def_ ⟨0, 1⟩)) () fun _ t => .ok t) toyDecoder 6 = .ok g' ∧
    f [3] = .ok (instAt 1 [2], []) ∧
    g [3] = .ok (⟨instAt 1 [2], bindType (.def_ ⟨0, 1⟩) () fun _ t => .ok t⟩, []) ∧
    g' [3] = .panic .explicit ∧ (∃ e, g' [9] = .err e) :=
  ⟨_, _, _, rfl, rfl, rfl, by rfl, by rfl, by rfl, _, by rfl⟩

end Thema.Props

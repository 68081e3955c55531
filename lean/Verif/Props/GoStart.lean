import Verif.Props.NeighbourInst

/-!
# C162: Go lenses in lineages that do not start at 0.0
-/

namespace Thema.Props

open Thema Thema.Spec

variable {V : Type} {C : Cue V} {force : Bool} {r : RawLineage V} {opts : List (BindOption V)}
  {L : Lineage V} {H : Heap V} {i j : Inst V} {lacs : List Lac}

theorem mem_requiredList_of {vs : List SV} {id : LensID} (h : id ∈ requiredList vs) :
    id.frm ∈ vs ∧ id.to ∈ vs := by
  induction vs with
  | nil => simp [requiredList] at h
  | cons a vs ih =>
    match vs, ih, h with
    | [], _, h => simp [requiredList] at h
    | b :: rest, ih, h =>
      simp only [requiredList, List.mem_cons, List.mem_append] at h
      rcases h with rfl | h | h
      · simp
      · split at h
        · simp only [List.mem_cons, List.not_mem_nil, or_false] at h
          subst h; simp
        · cases h
      · obtain ⟨h1, h2⟩ := ih h
        exact ⟨List.mem_cons_of_mem _ h1, List.mem_cons_of_mem _ h2⟩

/-- The pairs for which functions are demanded and given. -/
theorem goLenses_perm (h : bindLineage C force r opts = .ok L) (hne : goLenses opts ≠ []) :
    ((goLenses opts).map pairOf).Perm (requiredList (⟨0, 0⟩ :: L.allv.tail)) ∧
      L.lensmap = buildLensMap (goLenses opts) := by
  have ha := bind_acceptable h
  obtain ⟨l, hl, _, hb⟩ := bind_of_acceptable ha
  have hs := sortedV_iff.2 ha.order
  rw [← hl] at hs
  have hpos : 0 < l.length := by
    rw [List.length_pos_iff]; rintro rfl; exact ha.nonempty hl.symm
  obtain ⟨k1, k2⟩ := checkGoLens_cases hs hpos (goLenses opts)
  have hck : checkLensesOrder r l (goLenses opts) =
      checkGoLensCompleteness l (goLenses opts) := by
    unfold checkLensesOrder
    rw [if_pos (List.length_pos_iff.2 hne)]
  rw [hb, hck] at h
  by_cases hbase : ((goLenses opts).map pairOf).Nodup ∧ (∀ l ∈ goLenses opts, l.mapper ≠ none)
  · obtain ⟨m1, m2, _, _⟩ := k1 hbase
    by_cases hp : ((goLenses opts).map pairOf).Perm
        (requiredList (synv0 :: (l.map (·.v)).tail))
    · rw [m1 hp] at h
      simp only [Res.map_ok, Res.ok.injEq] at h
      rw [← hl]
      exact ⟨hp, by rw [← h]⟩
    · rcases m2 hp with e | e <;> rw [e] at h <;> simp at h
  · rw [k2 hbase] at h; simp at h

/-- The functions stored are among those demanded. -/
theorem lensmap_pairs (h : bindLineage C force r opts = .ok L) (hne : goLenses opts ≠ [])
    {id : LensID} {m : Mapper V} (hm : L.lensmap.lookup id = some m) :
    id ∈ requiredList (⟨0, 0⟩ :: L.allv.tail) := by
  obtain ⟨hp, hlm⟩ := goLenses_perm h hne
  apply hp.mem_iff.1
  rw [hlm] at hm
  have hmem := lookup_mem hm
  unfold buildLensMap at hmem
  obtain ⟨x, hx, he⟩ := List.mem_filterMap.1 hmem
  refine List.mem_map.2 ⟨x, hx, ?_⟩
  cases hxm : x.mapper with
  | none => rw [hxm] at he; cases he
  | some mm =>
    rw [hxm] at he
    simp only [Option.map_some, Option.some.injEq, Prod.mk.injEq] at he
    exact he.1

/-- No function is stored for a pair that involves a first version other than 0.0. -/
theorem lensmap_first (h : bindLineage C force r opts = .ok L) (hne : goLenses opts ≠ [])
    (h0 : L.ver 0 ≠ ⟨0, 0⟩) (hd : L.allv.Nodup) {id : LensID}
    (hid : id.frm = L.ver 0 ∨ id.to = L.ver 0) : L.lensmap.lookup id = none := by
  cases hm : L.lensmap.lookup id with
  | none => rfl
  | some m =>
    exfalso
    have hpos := bind_pos h
    obtain ⟨h1, h2⟩ := mem_requiredList_of (lensmap_pairs h hne hm)
    have hnot : L.ver 0 ∉ (⟨0, 0⟩ : SV) :: L.allv.tail := by
      intro hmem
      rcases List.mem_cons.1 hmem with he | he
      · exact h0 he
      · rw [ver_lt hpos] at he
        have hne' : L.allv ≠ [] := List.length_pos_iff.1 (by simpa using hpos)
        obtain ⟨a, vs, hv⟩ := List.exists_cons_of_ne_nil hne'
        have : L.allv[0]'(by simpa using hpos) = a := by simp [hv]
        rw [this, hv] at he
        rw [hv] at hd
        exact (List.nodup_cons.1 hd).1 he
    rcases hid with he | he
    · rw [he] at h1; exact hnot h1
    · rw [he] at h2; exact hnot h2

theorem firstWith_nodup (hd : L.allv.Nodup) {p q : Nat} (hp : p < L.allsch.length)
    (h : FirstWith L (L.ver p) q) : q = p := by
  obtain ⟨hq, h1, _⟩ := h
  rw [ver_lt hq, ver_lt hp] at h1
  exact (List.Nodup.getElem_inj_iff hd).1 h1

/-- **C162**.  If a lineage with Go lenses does not start at 0.0, no instance of a later
version can be translated to its first version, whatever the functions do: no function
is ever asked for that step, as `BindLineage` demands one to 0.0 instead. -/
theorem C162_first_unreachable (h : bindLineage C force r opts = .ok L) (hne : goLenses opts ≠ [])
    (h0 : L.ver 0 ≠ ⟨0, 0⟩) (hd : L.allv.Nodup) (hH : H i.sch.lin = L)
    (hp : i.sch.pos < L.allsch.length) (hp0 : 0 < i.sch.pos) (n : Nat)
    (x : Inst V × List Lac) : translate C H n i (L.ver 0) ≠ .ok x := by
  have hs := (bind_sorted h).strict hd
  have hpos := bind_pos h
  have hinj : ∀ p, 0 < p → p < L.allsch.length → L.ver p ≠ L.ver 0 := fun p h1 h2 he => by
    have := ver_inj hs h2 hpos he; omega
  intro ht
  cases n with
  | zero => simp [translate] at ht
  | succ n =>
    have hv : i.valid = true := by
      cases hv : i.valid with
      | true => rfl
      | false => simp [translate, Inst.check, hv] at ht
    rw [translate_go (by rw [hH]; exact goReady_lensmap h hne) hv] at ht
    unfold translateGo at ht
    simp only [hH] at ht
    rw [if_neg (fun he => hinj _ hp0 hp he.symm)] at ht
    obtain ⟨ti, hl, _⟩ := Res.map_eq_ok.1 ht
    have hless : (L.ver 0).less (L.ver i.sch.pos) = true := (ver_less_iff hs hpos hp).2 hp0
    have key : ∀ (k p : Nat) (ti y : Inst V), 0 < p → p < L.allsch.length →
        goLoop H (translate C H n) i.sch.lin (L.ver i.sch.pos) (L.ver 0) k p ti ≠ .ok y := by
      intro k
      induction k with
      | zero => intro p ti y _ _ hh; cases hh
      | succ k ih =>
        intro p ti y hp0 hp hh
        unfold goLoop at hh
        rw [hH, if_neg (hinj p hp0 hp)] at hh
        obtain ⟨f, q, hf, hq, hpred⟩ := (C152_predecessor h hp).2.2 (hinj p hp0 hp)
        obtain rfl : f + 1 = p := firstWith_nodup hd hp hf
        obtain rfl : q = f := firstWith_nodup hd (by omega) hq
        simp only [hless, if_true, Bool.true_or, hpred, derefSch, Res.bind_ok] at hh
        obtain ⟨rti, hr, hh⟩ := Res.bind_eq_ok.1 hh
        rcases Nat.eq_zero_or_pos q with h00 | h00
        · subst h00
          unfold goLensStep at hr
          rw [hH, lensmap_first h hne h0 hd (.inr rfl)] at hr
          cases hr
        · exact ih q rti y h00 (by omega) hh
    exact key n i.sch.pos i ti hp0 hp hl

/-- **C162**.  And if its second version opens another major, every translation from the
first version to any other dereferences nil. -/
theorem C162_first_stuck (h : bindLineage C force r opts = .ok L) (hne : goLenses opts ≠ [])
    (h0 : L.ver 0 ≠ ⟨0, 0⟩) (hd : L.allv.Nodup) (hH : H i.sch.lin = L) (hv : i.valid = true)
    (hp : i.sch.pos = 0) (h1 : 1 < L.allsch.length) (hm : (L.ver 0).major ≠ (L.ver 1).major)
    {q : Nat} (hq : q < L.allsch.length) (hq0 : 0 < q) {n : Nat} (hn : 0 < n) :
    translate C H (n + 1) i (L.ver q) = .panic .nilDeref := by
  have hs := (bind_sorted h).strict hd
  have hpos := bind_pos h
  have hne0 : L.ver q ≠ L.ver 0 := fun he => by
    have := ver_inj hs hq hpos he; omega
  have hless : (L.ver q).less (L.ver 0) = false := by
    cases hh : (L.ver q).less (L.ver 0) with
    | false => rfl
    | true => have := (ver_less_iff hs hq hpos).1 hh; omega
  have hsucc : L.successor 0 = .ok (some 1) := by
    rw [successor_eq hs hpos, if_pos h1]
  rw [translate_go (by rw [hH]; exact goReady_lensmap h hne) hv]
  unfold translateGo
  obtain ⟨k, rfl⟩ : ∃ k, n = k + 1 := ⟨n - 1, by omega⟩
  simp only [hH, hp, hne0, if_false]
  rw [goLoop]
  simp only [hH, hne0.symm, if_false, hless, Bool.false_eq_true, hsucc, derefSch, Res.bind_ok,
    Bool.false_or, ne_eq, hm, not_false_eq_true, decide_true, if_true]
  unfold goLensStep
  rw [hH, lensmap_first h hne h0 hd (.inl rfl)]
  rfl

/-- Versions 1.0 and 2.0. -/
def fromOne : RawLineage SetCue.Val :=
  SetCue.lin [SetCue.sch 1 0 [1], SetCue.sch 2 0 [2]]

/-- The Go lenses demanded of `fromOne`: between 2.0 and 0.0. -/
def fromOneLenses : List (ImperativeLens SetCue.Val) :=
  [⟨⟨2, 0⟩, ⟨0, 0⟩, some fun _ s => .ok (some ⟨[2], [], s, true⟩)⟩,
   ⟨⟨0, 0⟩, ⟨2, 0⟩, some fun _ s => .ok (some ⟨[1], [], s, true⟩)⟩]

/-- It binds; 2.0 cannot be translated to 1.0 and 1.0 cannot be translated to 2.0. -/
example : ∃ L, bindLineage SetCue.cue false fromOne [.imperativeLenses fromOneLenses] = .ok L ∧
    (∀ n x, translate SetCue.cue (fun _ => L) n ⟨[2], [], ⟨0, 1⟩, true⟩ ⟨1, 0⟩ ≠ .ok x) ∧
    ∀ n, 0 < n → translate SetCue.cue (fun _ => L) (n + 1) ⟨[1], [], ⟨0, 0⟩, true⟩ ⟨2, 0⟩ =
      .panic .nilDeref := by
  have hb : ∃ L, bindLineage SetCue.cue false fromOne
      [.imperativeLenses fromOneLenses] = .ok L ∧ L.allv = [⟨1, 0⟩, ⟨2, 0⟩] := ⟨_, rfl, rfl⟩
  obtain ⟨L, h, hv⟩ := hb
  have hlen : L.allsch.length = 2 := by rw [← allv_length, hv]; rfl
  have h0 : L.ver 0 = ⟨1, 0⟩ := by rw [ver_lt (by omega)]; simp [hv]
  have h1 : L.ver 1 = ⟨2, 0⟩ := by rw [ver_lt (by omega)]; simp [hv]
  refine ⟨L, h, fun n x => ?_, fun n hn => ?_⟩
  · rw [← h0]
    exact C162_first_unreachable h (by simp [goLenses, fromOneLenses]) (by rw [h0]; decide)
      (by rw [hv]; decide) rfl (show 1 < _ by omega) (by decide) n x
  · rw [← h1]
    exact C162_first_stuck h (by simp [goLenses, fromOneLenses]) (by rw [h0]; decide)
      (by rw [hv]; decide) rfl rfl rfl (by omega) (by rw [h0, h1]; decide) (by omega)
      (by decide) hn

end Thema.Props

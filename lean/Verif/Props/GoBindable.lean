import Verif.Props.GoRepeat

/-!
# C164: which lineages can be bound with Go lenses
-/

namespace Thema.Props

open Thema Thema.Spec

variable {V : Type} {C : Cue V} {force : Bool} {r : RawLineage V} {opts : List (BindOption V)}
  {L : Lineage V} {vs : List SV}

/-- The required pairs are distinct exactly if no version occurs three times. -/
theorem nodup_requiredList (hs : SortedV vs) :
    (requiredList vs).Nodup ↔ ∀ v, vs.count v ≤ 2 := by
  induction vs with
  | nil => simp [requiredList]
  | cons a vs ih =>
    have hs' : SortedV vs := (List.pairwise_cons.1 hs).2
    have hle : ∀ x ∈ vs, x.less a = false := (List.pairwise_cons.1 hs).1
    replace ih := ih hs'
    cases vs with
    | nil =>
      simp only [requiredList, List.nodup_nil, true_iff]
      intro v
      exact Nat.le_trans (List.count_le_length ..) (by simp)
    | cons b rest =>
      by_cases hab : a = b
      · subst hab
        have hreq : requiredList (a :: a :: rest) = ⟨a, a⟩ :: requiredList (a :: rest) := by
          simp [requiredList]
        rw [hreq, List.nodup_cons, ih]
        cases rest with
        | nil =>
          simp only [requiredList, List.not_mem_nil, not_false_eq_true, true_and]
          constructor
          · intro _ v; exact Nat.le_trans (List.count_le_length ..) (by simp)
          · intro h v
            exact Nat.le_trans (List.Sublist.count_le v (List.sublist_cons_self _ _)) (h v)
        | cons c rest =>
          by_cases hac : a = c
          · subst hac
            constructor
            · rintro ⟨h, _⟩
              exact absurd (by simp [requiredList]) h
            · intro h
              have := h a
              simp at this
          · have hca : c.less a = false := hle c (by simp)
            have hacb : Before a c := before_of_ne (notAfter_iff.2 hca) hac
            have hna : a ∉ c :: rest := by
              intro hmem
              rcases List.mem_cons.1 hmem with he | he
              · exact hac he
              · have h1 : a.less c = false :=
                  (List.pairwise_cons.1 (List.pairwise_cons.1 hs').2).1 a he
                rw [less_iff_before.2 hacb] at h1
                cases h1
            have hnm : (⟨a, a⟩ : LensID) ∉ requiredList (a :: c :: rest) := by
              simp only [requiredList, List.mem_cons, List.mem_append, not_or]
              refine ⟨by simpa using fun h => absurd h hac, ?_, ?_⟩
              · split
                · simpa using hac
                · simp
              · intro hm
                exact hna (mem_requiredList_of hm).1
            constructor
            · rintro ⟨_, h⟩ v
              by_cases hv : v = a
              · subst hv
                rw [List.count_cons_self, List.count_cons_self, List.count_eq_zero.2 hna]
              · rw [List.count_cons_of_ne (Ne.symm hv)]; exact h v
            · intro h
              exact ⟨hnm, fun v =>
                Nat.le_trans (List.Sublist.count_le v (List.sublist_cons_self _ _)) (h v)⟩
      · have hba : b.less a = false := hle b (by simp)
        have hacb : Before a b := before_of_ne (notAfter_iff.2 hba) hab
        have hna : a ∉ b :: rest := by
          intro hmem
          rcases List.mem_cons.1 hmem with he | he
          · exact hab he
          · have h1 : a.less b = false := (List.pairwise_cons.1 hs').1 a he
            rw [less_iff_before.2 hacb] at h1
            cases h1
        have hcount : (∀ v, (a :: b :: rest).count v ≤ 2) ↔ ∀ v, (b :: rest).count v ≤ 2 := by
          constructor
          · intro h v
            exact Nat.le_trans (List.Sublist.count_le v (List.sublist_cons_self _ _)) (h v)
          · intro h v
            by_cases hv : v = a
            · subst hv
              rw [List.count_cons_self, List.count_eq_zero.2 hna]; omega
            · rw [List.count_cons_of_ne (Ne.symm hv)]; exact h v
        rw [hcount, ← ih]
        have h1 : (⟨b, a⟩ : LensID) ∉ requiredList (b :: rest) := fun hm =>
          hna (mem_requiredList_of hm).2
        have h2 : (⟨a, b⟩ : LensID) ∉ requiredList (b :: rest) := fun hm =>
          hna (mem_requiredList_of hm).1
        have h3 : (⟨b, a⟩ : LensID) ≠ ⟨a, b⟩ := fun he => hab (congrArg LensID.to he)
        simp only [requiredList]
        split <;> simp [h1, h2, h3]

theorem sortedV_zero (hs : SortedV vs) : SortedV (⟨0, 0⟩ :: vs.tail) := by
  refine List.pairwise_cons.2 ⟨fun x _ => ?_, List.Pairwise.sublist (List.tail_sublist _) hs⟩
  rw [← Bool.not_eq_true, less_iff_before, before_iff]
  simp

/-- **C164**.  With Go lenses, whatever its versions are, a lineage whose schemas are
acceptable binds if and only if the functions are not nil, no pair of versions is
served twice, the pairs are those between neighbours in the list of versions with 0.0
in place of the first, and no version occurs three times in that list. -/
theorem C164_binds_iff (ha : SchemasAcceptable C force r opts vs) (hne : goLenses opts ≠ []) :
    (∃ L, bindLineage C force r opts = .ok L) ↔
      ((goLenses opts).map pairOf).Nodup ∧ (∀ l ∈ goLenses opts, l.mapper ≠ none) ∧
      (∀ id, id ∈ (goLenses opts).map pairOf ↔ Required (⟨0, 0⟩ :: vs.tail) id) ∧
      ∀ v, ((⟨0, 0⟩ :: vs.tail : List SV)).count v ≤ 2 := by
  have hs := sortedV_iff.2 ha.order
  rw [← nodup_requiredList (sortedV_zero hs)]
  constructor
  · rintro ⟨L, h⟩
    have hvs : L.allv = vs := by
      have h1 := (bind_acceptable h).versions
      rw [ha.versions] at h1
      exact (List.map_injective_iff.2 (fun a b hab => by injection hab) h1).symm
    obtain ⟨hp, _⟩ := goLenses_perm h hne
    rw [hvs] at hp
    obtain ⟨l, hl, _, hb⟩ := bind_of_acceptable ha
    have hsl : SortedV (l.map (·.v)) := by rw [hl]; exact hs
    have hpos : 0 < l.length := by
      rw [List.length_pos_iff]; rintro rfl; exact ha.nonempty hl.symm
    have k2 := (checkGoLens_cases hsl hpos (goLenses opts)).2
    have hbase : ((goLenses opts).map pairOf).Nodup ∧
        (∀ l ∈ goLenses opts, l.mapper ≠ none) := by
      by_contra hbase
      have hck : checkLensesOrder r l (goLenses opts) =
          checkGoLensCompleteness l (goLenses opts) := by
        unfold checkLensesOrder
        rw [if_pos (List.length_pos_iff.2 hne)]
      rw [hb, hck, k2 hbase] at h
      simp at h
    exact ⟨hbase.1, hbase.2, fun id => by rw [hp.mem_iff, mem_requiredList],
      hp.nodup_iff.1 hbase.1⟩
  · rintro ⟨h1, h2, h3, h4⟩
    obtain ⟨l, hl, _, hb⟩ := bind_of_acceptable ha
    have hsl : SortedV (l.map (·.v)) := by rw [hl]; exact hs
    have hpos : 0 < l.length := by
      rw [List.length_pos_iff]; rintro rfl; exact ha.nonempty hl.symm
    have k1 := ((checkGoLens_cases hsl hpos (goLenses opts)).1 ⟨h1, h2⟩).1 (by
      rw [hl]
      refine (List.perm_ext_iff_of_nodup h1 h4).2 fun id => ?_
      rw [h3 id]
      exact (mem_requiredList _).symm)
    have hck : checkLensesOrder r l (goLenses opts) =
        checkGoLensCompleteness l (goLenses opts) := by
      unfold checkLensesOrder
      rw [if_pos (List.length_pos_iff.2 hne)]
    rw [hb, hck, k1]
    exact ⟨_, rfl⟩

/-- **C164**.  So a lineage that binds without Go lenses binds with some Go lenses if
and only if it has at least two schemas and no version occurs three times, with 0.0 in
place of the first version. -/
theorem C164_some_lenses_iff (h : bindLineage C force r opts = .ok L) (hg : goLenses opts = []) :
    (∃ ls L', ls ≠ [] ∧ bindLineage C force r (.imperativeLenses ls :: opts) = .ok L') ↔
      2 ≤ L.allsch.length ∧ ∀ v, ((⟨0, 0⟩ :: L.allv.tail : List SV)).count v ≤ 2 := by
  have ha0 := bind_acceptable h
  have hgo : ∀ ls : List (ImperativeLens V), goLenses (.imperativeLenses ls :: opts) = ls := by
    intro ls
    unfold goLenses at hg ⊢
    rw [List.flatMap_cons, hg]
    simp
  have hon : ∀ ls : List (ImperativeLens V),
      ChecksOn force (.imperativeLenses ls :: opts) ↔ ChecksOn force opts := by
    intro ls
    unfold ChecksOn
    simp
  have ha : ∀ ls : List (ImperativeLens V),
      SchemasAcceptable C force r (.imperativeLenses ls :: opts) L.allv := fun ls =>
    { ha0 with compat := fun hc => ha0.compat ((hon ls).1 hc) }
  have hs := bind_sorted h
  constructor
  · rintro ⟨ls, L', hne, hb⟩
    obtain ⟨h1, h2, h3, h4⟩ := (C164_binds_iff (ha ls) (by rw [hgo]; exact hne)).1 ⟨L', hb⟩
    rw [hgo] at h1 h2 h3
    refine ⟨?_, h4⟩
    obtain ⟨l, hl⟩ := List.exists_mem_of_ne_nil _ hne
    obtain ⟨i, hi, _⟩ := (h3 (pairOf l)).1 (List.mem_map_of_mem hl)
    have hlen := allv_length (L := L)
    simp only [List.length_cons, List.length_tail] at hi
    omega
  · rintro ⟨hlen, h4⟩
    let mk (id : LensID) : ImperativeLens V := ⟨id.to, id.frm, some fun _ _ => .err ⟨[]⟩⟩
    let ls := (requiredList (⟨0, 0⟩ :: L.allv.tail)).map mk
    have hmap : ls.map pairOf = requiredList (⟨0, 0⟩ :: L.allv.tail) := by
      simp only [ls, List.map_map]
      conv => rhs; rw [← List.map_id (requiredList _)]
      rfl
    have hne : ls ≠ [] := by
      have hl2 : L.allv.tail ≠ [] := by
        rw [← List.length_pos_iff, List.length_tail, allv_length]; omega
      obtain ⟨b, rest, hb⟩ := List.exists_cons_of_ne_nil hl2
      simp [ls, hb, requiredList]
    obtain ⟨L', hb⟩ := (C164_binds_iff (ha ls) (by rw [hgo]; exact hne)).2 (by
      rw [hgo]
      refine ⟨?_, ?_, fun id => ?_, h4⟩
      · rw [hmap]; exact (nodup_requiredList (sortedV_zero hs)).2 h4
      · intro l hl
        obtain ⟨id, _, rfl⟩ := List.mem_map.1 hl
        simp [mk]
      · rw [hmap, mem_requiredList])
    exact ⟨ls, L', hne, hb⟩

/-- With 0.1 twice there are Go lenses to bind with, with 0.1 three times there are
none. -/
example : (∃ ls L', ls ≠ [] ∧
      bindLineage SetCue.cue false dupVersions [.imperativeLenses ls] = .ok L') ∧
    ¬ ∃ ls L', ls ≠ [] ∧
      bindLineage SetCue.cue false (SetCue.lin [SetCue.sch 0 0 [1], SetCue.sch 0 1 [1, 2],
        SetCue.sch 0 1 [1, 2, 3], SetCue.sch 0 1 [1, 2, 3, 4]]) [.imperativeLenses ls] = .ok L' := by
  constructor
  · refine (C164_some_lenses_iff dupBound_eq rfl).2 ⟨by decide, fun v => ?_⟩
    show ([⟨0, 0⟩, ⟨0, 1⟩, ⟨0, 1⟩, ⟨0, 2⟩] : List SV).count v ≤ 2
    exact (nodup_requiredList (by unfold SortedV; decide)).1 (by decide) v
  · have hb : ∃ L, bindLineage SetCue.cue false (SetCue.lin [SetCue.sch 0 0 [1],
        SetCue.sch 0 1 [1, 2], SetCue.sch 0 1 [1, 2, 3], SetCue.sch 0 1 [1, 2, 3, 4]]) [] = .ok L ∧
        L.allv = [⟨0, 0⟩, ⟨0, 1⟩, ⟨0, 1⟩, ⟨0, 1⟩] := ⟨_, rfl, rfl⟩
    obtain ⟨L, h, hv⟩ := hb
    intro hh
    have := ((C164_some_lenses_iff h rfl).1 hh).2 ⟨0, 1⟩
    rw [hv] at this
    exact absurd this (by decide)

/-- `repLenses` meet all conditions for `dupVersions`. -/
example : (∃ L, bindLineage SetCue.cue false dupVersions [.imperativeLenses repLenses] = .ok L) ∧
    Required [⟨0, 0⟩, ⟨0, 1⟩, ⟨0, 1⟩, ⟨0, 2⟩] ⟨⟨0, 1⟩, ⟨0, 1⟩⟩ := by
  have hb : ∃ L, bindLineage SetCue.cue false dupVersions
      [.imperativeLenses repLenses] = .ok L ∧ L.allv = [⟨0, 0⟩, ⟨0, 1⟩, ⟨0, 1⟩, ⟨0, 2⟩] :=
    ⟨_, rfl, rfl⟩
  obtain ⟨L, h, hv⟩ := hb
  have ha := bind_acceptable h
  rw [hv] at ha
  obtain ⟨_, _, h3, _⟩ := (C164_binds_iff ha (by simp [goLenses, repLenses])).1 ⟨L, h⟩
  exact ⟨⟨L, h⟩, (h3 _).1 (by decide)⟩

end Thema.Props

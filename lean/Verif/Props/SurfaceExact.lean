import Verif.Spec.SurfaceExact
import Verif.Props.Surface

/-!
# C178-C181: examples, search in CUE, reports on Go migrations, post-processing, exactly
-/

namespace Thema.Props

open Thema Spec

variable {V : Type} {C : Cue V} {force : Bool} {r : RawLineage V} {opts : List (BindOption V)}
  {L : Lineage V}

/-! ### C178: Examples -/

theorem lookup_isSome_mem {α : Type} {m : List (Str × α)} {k : Str} {a : α}
    (h : m.lookup k = some a) : k ∈ m.map (·.1) := by
  induction m with
  | nil => cases h
  | cons e m ih =>
    obtain ⟨x, b⟩ := e
    by_cases hx : k = x
    · simp [hx]
    · have : (k == x) = false := by simpa using hx
      simp only [List.lookup, this] at h
      simp [ih h]

/-- **C178**.  What `Examples` has under a name: the example whose label CUE writes like that
name, as a valid instance of the schema, with the written label as its name. -/
theorem C178_found_iff {S : Labels} (hS : LabelLaws S) {H : Heap V} {s : SchPtr}
    {sch : SchemaDef V} (hs : (H s.lin).allsch[s.pos]? = some sch)
    (hn : (sch.examples.map (·.1)).Nodup) (k : Str) (i : Inst V) :
    (examples S H s).lookup k = some i ↔
      ∃ n d, (n, d) ∈ sch.examples ∧
        ((S.isPlain n = true ∧ k = n) ∨ (S.isPlain n = false ∧ k = S.quote n)) ∧
        i = { raw := d, name := k, sch := s, valid := true } := by
  have hd := selectors_nodup hS hn
  have hk : ∀ n, k = S.selector n ↔
      ((S.isPlain n = true ∧ k = n) ∨ (S.isPlain n = false ∧ k = S.quote n)) := by
    intro n
    unfold Labels.selector
    cases S.isPlain n <;> simp
  have hex : examples S H s = examplesLoop S s sch.examples [] := by
    unfold examples; rw [hs]
  have hkeys := examplesLoop_length S s sch.examples [] hd (by simp)
  rw [hex]
  constructor
  · intro h
    have hm := lookup_isSome_mem h
    rw [hkeys] at hm
    simp only [List.map_nil, List.nil_append, List.mem_map] at hm
    obtain ⟨⟨n, d⟩, hm, rfl⟩ := hm
    rw [examplesLoop_mem S s sch.examples [] hd _ hm] at h
    simp only [Option.some.injEq] at h
    exact ⟨n, d, hm, (hk n).1 rfl, h.symm⟩
  · rintro ⟨n, d, hm, hw, rfl⟩
    have := (hk n).2 hw
    subst this
    exact examplesLoop_mem S s sch.examples [] hd (n, d) hm

/-- **C178**.  There are as many names as examples, none twice. -/
theorem C178_names {S : Labels} (hS : LabelLaws S) {H : Heap V} {s : SchPtr}
    {sch : SchemaDef V} (hs : (H s.lin).allsch[s.pos]? = some sch)
    (hn : (sch.examples.map (·.1)).Nodup) :
    ((examples S H s).map (·.1)).Nodup ∧ (examples S H s).length = sch.examples.length := by
  have hd := selectors_nodup hS hn
  have hex : examples S H s = examplesLoop S s sch.examples [] := by
    unfold examples; rw [hs]
  have hkeys := examplesLoop_length S s sch.examples [] hd (by simp)
  rw [hex, hkeys]
  refine ⟨by simpa using hd, ?_⟩
  simpa using congrArg List.length hkeys

/-- **C178**.  An example is found under the name that its author gave to it exactly if the name
can be written without quotation marks, or is what CUE writes for the label of another example. -/
theorem C178_own_name_iff {S : Labels} (hS : LabelLaws S) {H : Heap V} {s : SchPtr}
    {sch : SchemaDef V} (hs : (H s.lin).allsch[s.pos]? = some sch)
    (hn : (sch.examples.map (·.1)).Nodup) {n : Str} {d : V} (he : (n, d) ∈ sch.examples) :
    (∃ i, (examples S H s).lookup n = some i) ↔
      S.isPlain n = true ∨ ∃ m b, (m, b) ∈ sch.examples ∧ S.isPlain m = false ∧ n = S.quote m := by
  constructor
  · rintro ⟨i, hi⟩
    obtain ⟨m, b, hm, hw, _⟩ := (C178_found_iff hS hs hn n i).1 hi
    rcases hw with ⟨hp, rfl⟩ | ⟨hp, hq⟩
    · exact .inl hp
    · exact .inr ⟨m, b, hm, hp, hq⟩
  · rintro (hp | ⟨m, b, hm, hp, hq⟩)
    · exact ⟨_, (C178_found_iff hS hs hn n _).2 ⟨n, d, he, .inl ⟨hp, rfl⟩, rfl⟩⟩
    · exact ⟨_, (C178_found_iff hS hs hn n _).2 ⟨m, b, hm, .inr ⟨hp, hq⟩, rfl⟩⟩

example := C178_names sfLabels_laws (H := fun _ => sfExamples) (s := ⟨0, 0⟩) rfl (by decide)

example : (examples sfLabels (fun _ => sfExamples) ⟨0, 0⟩).lookup "\"two words\"".toList =
    some { raw := [2], name := "\"two words\"".toList, sch := ⟨0, 0⟩, valid := true } :=
  (C178_found_iff sfLabels_laws rfl (by decide) _ _).2
    ⟨"two words".toList, [2], by decide, .inr ⟨by decide, by decide⟩, rfl⟩

example : ∃ i, (examples sfLabels (fun _ => sfExamples) ⟨0, 0⟩).lookup "simple".toList = some i :=
  (C178_own_name_iff sfLabels_laws rfl (by decide) (d := [1]) (by decide)).2 (.inl (by decide))

/-! ### C179: #SearchAndValidate and #ValidFor -/

/-- **C179**.  `#SearchAndValidate` is not an error exactly if the data conflict not with every
schema; its version is then that of the first schema with which they do not, and its instance is
that schema (and not the data). -/
theorem C179_search_iff (C : Cue V) (L : Lineage V) (d : V) (v : SV) (x : V) :
    searchAndValidate C L d = some (v, x) ↔
      ∃ pre s post, L.allsch = pre ++ s :: post ∧ C.isErr (C.unify d s.body) = false ∧
        (∀ s' ∈ pre, C.isErr (C.unify d s'.body) = true) ∧ v = s.v ∧ x = s.body := by
  have hi : searchInst d = none := rfl
  unfold searchAndValidate
  rw [hi]
  have key : ∀ pre s post, L.allsch = pre ++ s :: post → C.isErr (C.unify d s.body) = false →
      (∀ s' ∈ pre, C.isErr (C.unify d s'.body) = true) →
      ((L.allsch.filter fun sch => !C.isErr (C.unify d sch.body)).map fun sch =>
        (sch.v, andSchema C none sch.body)).head? = some (s.v, s.body) := by
    intro pre s post h1 h2 h3
    rw [h1, List.filter_append, List.filter_eq_nil_iff.2 (fun y hy => by simp [h3 y hy]),
      List.filter_cons_of_pos (by simp [h2])]
    rfl
  constructor
  · intro h
    rcases head?_filter_map (fun sch : SchemaDef V => !C.isErr (C.unify d sch.body))
      (fun sch => (sch.v, andSchema C none sch.body)) L.allsch with
      ⟨h1, _⟩ | ⟨pre, s, post, h1, h2, h3, h4⟩
    · rw [h1] at h; cases h
    · rw [h4] at h
      simp only [Option.some.injEq, Prod.mk.injEq] at h
      exact ⟨pre, s, post, h1, by simpa using h3, fun s' hs' => by simpa using h2 s' hs',
        h.1.symm, h.2.symm⟩
  · rintro ⟨pre, s, post, h1, h2, h3, rfl, rfl⟩
    exact key pre s post h1 h2 h3

/-- **C179**.  `#ValidFor` is the version of the first schema with which the data do not
conflict, and an error exactly if there is none. -/
theorem C179_validFor_iff (C : Cue V) (L : Lineage V) (d : V) (v : SV) :
    validFor C L d = some v ↔
      ∃ pre s post, L.allsch = pre ++ s :: post ∧ C.isErr (C.unify s.body d) = false ∧
        (∀ s' ∈ pre, C.isErr (C.unify s'.body d) = true) ∧ v = s.v := by
  unfold validFor
  constructor
  · intro h
    rcases head?_filter_map (fun sch : SchemaDef V => !C.isErr (C.unify sch.body d)) (·.v)
      L.allsch with ⟨h1, _⟩ | ⟨pre, s, post, h1, h2, h3, h4⟩
    · rw [h1] at h; cases h
    · rw [h4] at h
      simp only [Option.some.injEq] at h
      exact ⟨pre, s, post, h1, by simpa using h3, fun s' hs' => by simpa using h2 s' hs', h.symm⟩
  · rintro ⟨pre, s, post, h1, h2, h3, rfl⟩
    rw [h1, List.filter_append, List.filter_eq_nil_iff.2 (fun y hy => by simp [h3 y hy]),
      List.filter_cons_of_pos (by simp [h2])]
    rfl

/-- **C179**.  For data that are not even complete: if `ValidateAny` finds a schema, `#ValidFor`
finds one too, and not a later one; an accepted value never conflicts with the schema. -/
theorem C179_not_later (hP : PathsOk C) (h : bindLineage C force r opts = .ok L)
    (hd : (r.schemas.map (·.version)).Nodup) (H : Heap V) {lin : Nat} (hH : H lin = L) (d : V)
    {n : Nat} (hn : r.schemas.length ≤ n)
    (hc : ∀ s ∈ L.allsch, C.accepts s.body d → C.isErr (C.unify s.body d) = false)
    {x : Inst V} (hv : validateAny C H lin d n = .ok (some x)) :
    ∃ v, validFor C L d = some v ∧ ¬ Before (versionOf H x) v := by
  have hlen := bind_length h
  rcases C20_validateAny_partial hP h hd H hH d hn with ⟨_, hv'⟩ |
    ⟨pre, s, post, x', hr, hacc, hpre, hv', _, hx, _⟩
  · rw [hv] at hv'; cases hv'
  rw [hv] at hv'
  simp only [Res.ok.injEq, Option.some.injEq] at hv'
  subst hv'
  have hi : pre.length < r.schemas.length := by rw [hr]; simp
  have hi' : pre.length < L.allsch.length := by omega
  have hok : C.isErr (C.unify L.allsch[pre.length].body d) = false :=
    hc _ (List.getElem_mem hi') (by rw [bind_body h hi hi']; simpa [hr] using hacc)
  rcases head?_filter_map (fun sch : SchemaDef V => !C.isErr (C.unify sch.body d)) (·.v) L.allsch
    with ⟨_, h2⟩ | ⟨pre', y, post', e1, e2, e3, e4⟩
  · have := h2 _ (List.getElem_mem hi')
    simp [hok] at this
  · refine ⟨y.v, e4, ?_⟩
    have hpl : pre'.length < L.allsch.length := by rw [e1]; simp
    have hy : L.allsch[pre'.length] = y := by simp [e1]
    have hle : pre'.length ≤ pre.length := by
      rcases Nat.lt_or_ge pre.length pre'.length with hgt | hle
      · exfalso
        have h5 : L.allsch[pre.length]'hi' ∈ pre' := by
          have : L.allsch[pre.length]'hi' = pre'[pre.length] := by
            simp [e1, List.getElem_append_left hgt]
          rw [this]; exact List.getElem_mem _
        have h6 := e2 _ h5
        simp [hok] at h6
      · exact hle
    have hver : versionOf H x = L.allsch[pre.length].v := by
      unfold versionOf
      rw [hx, hH]
      simp only
      rw [ver_lt hi']
      simp [Lineage.allv]
    rw [hver, ← hy]
    intro hb
    have hsrt := SortedV.get (bind_sorted h) hle (by simpa [Lineage.allv] using hi')
    simp only [Lineage.allv, List.getElem_map] at hsrt
    rw [less_iff_before.2 hb] at hsrt
    cases hsrt

example : ∃ v, validFor SetCue.cue threeBound [1] = some v ∧ ∃ x,
    validateAny SetCue.cue (fun _ => threeBound) 0 [1] 3 = .ok (some x) ∧
      ¬ Before (versionOf (fun _ => threeBound) x) v := by
  obtain ⟨x, hx⟩ : ∃ x, validateAny SetCue.cue (fun _ => threeBound) 0 [1] 3 = .ok (some x) :=
    ⟨_, rfl⟩
  obtain ⟨v, hv, hb⟩ := C179_not_later setCue_pathsOk (C := SetCue.cue) (force := false)
    (opts := []) (r := threeVersions) (L := threeBound) rfl (by decide) (fun _ => threeBound)
    (lin := 0) rfl [1] (n := 3) (by decide) (by decide) hx
  exact ⟨v, hv, x, hx, hb⟩

example : searchAndValidate SetCue.cue sfExamples [2] = some (⟨0, 0⟩, [1, 2]) :=
  (C179_search_iff _ _ _ _ _).2 ⟨[], _, [], rfl, by decide, by simp, rfl, rfl⟩

example : validFor SetCue.cue sfExamples [2] = some ⟨0, 0⟩ :=
  (C179_validFor_iff _ _ _ _).2 ⟨[], _, [], rfl, by decide, by simp, rfl⟩

/-! ### C180: the report on superfluous Go migrations -/

theorem neighbours_succ {vs : List SV} (hs : StrictlyIncreasing vs) {a b c : SV}
    (h1 : Neighbours vs a b) (h2 : Neighbours vs a c) : b = c := by
  obtain ⟨i, hi, h1, h1'⟩ := h1
  obtain ⟨j, hj, h2, h2'⟩ := h2
  have : i = j := (strictV_iff.2 hs).inj (by omega) (by omega) (h1.trans h2.symm)
  subst this
  rw [← h1', ← h2']

theorem neighbours_prev {vs : List SV} (hs : StrictlyIncreasing vs) {a b c : SV}
    (h1 : Neighbours vs a c) (h2 : Neighbours vs b c) : a = b := by
  obtain ⟨i, hi, h1, h1'⟩ := h1
  obtain ⟨j, hj, h2, h2'⟩ := h2
  have : i + 1 = j + 1 := (strictV_iff.2 hs).inj hi hj (h1'.trans h2'.symm)
  have : i = j := by omega
  subst this
  rw [← h1, ← h2]

theorem sv_before_irrefl (a : SV) : ¬ Before a a := fun h => by
  have := less_iff_before.2 h
  rw [less_irrefl] at this; cases this

theorem before_asymm {a b : SV} (h : Before a b) : ¬ Before b a := fun h' => by
  have := less_asymm (less_iff_before.2 h)
  rw [less_iff_before.2 h'] at this; cases this

/-- Only one reason is printed. -/
theorem printed_unique {vs : List SV} (hs : StrictlyIncreasing vs) {id : LensID} {w w' : Reason}
    (h : PrintedReason vs id w) (h' : PrintedReason vs id w') : w = w' := by
  obtain ⟨f, t⟩ := id
  cases w with
  | noSuchSchema v =>
    cases w' <;> simp only [PrintedReason] at h h' <;>
      rcases h with ⟨h1, rfl⟩ | ⟨h1, h2, rfl⟩
    · rcases h' with ⟨h3, rfl⟩ | ⟨h3, h4, rfl⟩
      · rfl
      · exact absurd h3 h1
    · rcases h' with ⟨h3, rfl⟩ | ⟨h3, h4, rfl⟩
      · exact absurd h1 h3
      · rfl
    · exact absurd h'.1 h1
    · exact absurd (h'.2 ▸ h'.1) h2
    · exact absurd h'.2.1 h1
    · exact absurd h'.1 h2
    · exact absurd h'.2.1 h1
    · exact absurd h'.1 h2
    · exact absurd h'.2.1 h1
    · exact absurd h'.1 h2
  | selfMigration =>
    obtain ⟨h1, h2⟩ := h
    simp only at h1 h2
    subst h2
    cases w' <;> simp only [PrintedReason] at h'
    · rcases h' with ⟨h3, rfl⟩ | ⟨h3, h4, rfl⟩
      · exact absurd h1 h3
      · exact absurd h1 h4
    · rfl
    · exact absurd h'.2.2.1 (sv_before_irrefl _)
    · exact absurd h'.2.2.1 (sv_before_irrefl _)
    · exact absurd h'.2.2.1 (sv_before_irrefl _)
  | predecessorIs p x y =>
    obtain ⟨h1, h2, h3, rfl, rfl, h4⟩ := h
    cases w' <;> simp only [PrintedReason] at h'
    · rcases h' with ⟨h3, _⟩ | ⟨_, h3, _⟩
      · exact absurd h2 h3
      · exact absurd h1 h3
    · have := h'.2
      subst this
      exact absurd h3 (sv_before_irrefl _)
    · obtain ⟨_, _, _, rfl, rfl, h5⟩ := h'
      rw [neighbours_prev hs h4 h5]
    · exact absurd h3 (before_asymm h'.2.2.1)
    · exact absurd h3 (before_asymm h'.2.2.1)
  | minorAutomatic =>
    obtain ⟨h1, h2, h3, h4⟩ := h
    cases w' <;> simp only [PrintedReason] at h'
    · rcases h' with ⟨h3, _⟩ | ⟨_, h3, _⟩
      · exact absurd h2 h3
      · exact absurd h1 h3
    · have := h'.2
      subst this
      exact absurd rfl h4
    · exact absurd h3 (before_asymm h'.2.2.1)
    · rfl
    · exact absurd h'.2.2.2.1 h4
  | successorIs p x y =>
    obtain ⟨h1, h2, h3, h4, rfl, rfl, h5⟩ := h
    cases w' <;> simp only [PrintedReason] at h'
    · rcases h' with ⟨h3, _⟩ | ⟨_, h3, _⟩
      · exact absurd h2 h3
      · exact absurd h1 h3
    · have := h'.2
      subst this
      exact absurd h3 (sv_before_irrefl _)
    · exact absurd h3 (before_asymm h'.2.2.1)
    · exact absurd h4 h'.2.2.2
    · obtain ⟨_, _, _, _, rfl, rfl, h6⟩ := h'
      rw [neighbours_succ hs h5 h6]

theorem printed_reason {vs : List SV} (hs : StrictlyIncreasing vs) {id : LensID} {w : Reason}
    (hw : erroneousReason vs id = .ok w) : PrintedReason vs id w := by
  obtain ⟨f, t⟩ := id
  have hsorted := (strictV_iff.2 hs).sorted
  have hw0 := hw
  unfold erroneousReason at hw
  split at hw
  · rename_i ht
    simp only [Res.ok.injEq] at hw; subst hw
    refine .inl ⟨fun hmem => ?_, rfl⟩
    rw [(synvExists_iff hsorted _).2 hmem] at ht; simp at ht
  rename_i ht
  have hto := (synvExists_iff hsorted _).1 (by simpa using ht)
  split at hw
  · rename_i hfr
    simp only [Res.ok.injEq] at hw; subst hw
    refine .inr ⟨hto, fun hmem => ?_, rfl⟩
    rw [(synvExists_iff hsorted _).2 hmem] at hfr; simp at hfr
  rename_i hfr
  have hfrm := (synvExists_iff hsorted _).1 (by simpa using hfr)
  split at hw
  · rename_i heq
    simp only [Res.ok.injEq] at hw; subst hw
    exact ⟨hto, heq.symm⟩
  rename_i hneq
  split at hw
  · rename_i hless
    split at hw
    · cases hw
    · rename_i hz
      obtain ⟨p, hp, hnb⟩ := neighbours_pred hs hfrm hz
      simp only [hp, Res.map_ok, Res.ok.injEq] at hw
      subst hw
      exact ⟨hfrm, hto, less_iff_before.1 hless, rfl, rfl, hnb⟩
  · rename_i hless
    have hb : Before f t := by
      rcases less_total f t with hl | hl | hl
      · exact less_iff_before.1 hl
      · exact absurd hl.symm hneq
      · exact absurd hl hless
    obtain ⟨i, hi, rfl⟩ := List.getElem_of_mem hfrm
    obtain ⟨j, hj, rfl⟩ := List.getElem_of_mem hto
    have hij : i < j := by
      rcases Nat.lt_trichotomy i j with h1 | h1 | h1
      · exact h1
      · subst h1; exact absurd rfl hneq
      · exact absurd (less_iff_before.2 hb) (by
          rw [less_asymm ((strictV_iff.2 hs).get h1 hi)]; simp)
    rw [forward_reason hs hij hj] at hw0
    split at hw0
    · rename_i hm
      simp only [Res.ok.injEq] at hw0; subst hw0
      exact ⟨hfrm, hto, hb, fun h => hm h.symm⟩
    · rename_i hm
      simp only [Res.ok.injEq] at hw0; subst hw0
      simp only [ne_eq, not_not] at hm
      exact ⟨hfrm, hto, hb, hm.symm, rfl, rfl, i, by omega, rfl, rfl⟩

theorem erroneousReport_unique {vs : List SV} (hs : StrictlyIncreasing vs) :
    ∀ {rep rep' : List (LensID × Reason)}, rep.map (·.1) = rep'.map (·.1) →
      (∀ e ∈ rep, PrintedReason vs e.1 e.2) → (∀ e ∈ rep', PrintedReason vs e.1 e.2) → rep = rep' := by
  intro rep
  induction rep with
  | nil =>
    intro rep' h _ _
    simp only [List.map_nil] at h
    exact (List.map_eq_nil_iff.1 h.symm).symm
  | cons e rep ih =>
    intro rep' h h1 h2
    cases rep' with
    | nil => simp at h
    | cons e' rep' =>
      obtain ⟨i, w⟩ := e
      obtain ⟨i', w'⟩ := e'
      simp only [List.map_cons, List.cons.injEq] at h
      obtain ⟨rfl, h⟩ := h
      have := printed_unique hs (h1 _ (List.mem_cons_self ..)) (h2 (i, w') (List.mem_cons_self ..))
      simp only at this
      subst this
      rw [ih h (fun e he => h1 e (List.mem_cons_of_mem _ he))
        (fun e he => h2 e (List.mem_cons_of_mem _ he))]

open Classical in
/-- **C180**.  The report is made exactly if no pair is given twice and no function is nil, and it
is then: the migrations that are not required, in the order in which they were given, each with
the reason of `PrintedReason`. -/
theorem C180_report_iff {vs : List SV} (hs : StrictlyIncreasing vs) (h0 : vs.head? = some ⟨0, 0⟩)
    (ls : List (ImperativeLens V)) (rep : List (LensID × Reason)) :
    goLensReport vs ls = .ok rep ↔
      (ls.map pairOf).Nodup ∧ (∀ l ∈ ls, l.mapper ≠ none) ∧
      rep.map (·.1) = (ls.map pairOf).filter (fun id => decide (¬ Required vs id)) ∧
      ∀ e ∈ rep, PrintedReason vs e.1 e.2 := by
  have hids : ls.map (·.id) = ls.map pairOf := by
    apply List.map_congr_left; intro l _; rfl
  have key : (ls.map pairOf).Nodup → (∀ l ∈ ls, l.mapper ≠ none) → ∃ rep',
      goLensReport vs ls = .ok rep' ∧
      rep'.map (·.1) = (ls.map pairOf).filter (fun id => decide (¬ Required vs id)) ∧
      ∀ e ∈ rep', PrintedReason vs e.1 e.2 := by
    intro hn hm
    rw [goLensReport_eq hs h0 hn hm]
    obtain ⟨rep', hr⟩ := erroneousReport_ok (strictV_iff.2 hs).sorted
      ((ls.map pairOf).filter fun id => decide (id ∉ requiredList vs)) ls
    obtain ⟨h1, h2⟩ := erroneousReport_mem ls hr
    refine ⟨rep', hr, ?_, fun e he => printed_reason hs (h2 e he)⟩
    rw [h1]
    apply List.filter_congr
    intro id hid
    simp only [List.contains_eq_mem, List.mem_filter, hid, true_and, decide_eq_true_eq,
      mem_requiredList]
  constructor
  · intro h
    have h' := h
    unfold goLensReport at h'
    obtain ⟨all, ha, _⟩ := Res.bind_eq_ok.1 h'
    obtain ⟨a1, a2, _⟩ := (collectLenses_ok ls [] all (by simp)).1 ha
    rw [List.nil_append, hids] at a1
    obtain ⟨rep', k1, k2, k3⟩ := key a1 a2
    rw [h] at k1
    simp only [Res.ok.injEq] at k1
    subst k1
    exact ⟨a1, a2, k2, k3⟩
  · rintro ⟨hn, hm, h1, h2⟩
    obtain ⟨rep', k1, k2, k3⟩ := key hn hm
    rw [k1, erroneousReport_unique hs (h1.trans k2.symm) h2 k3]

/-- **C180**.  Exactly in all other cases an error is returned instead; making the report never
panics. -/
theorem C180_no_report_iff {vs : List SV} (hs : StrictlyIncreasing vs)
    (h0 : vs.head? = some ⟨0, 0⟩) (ls : List (ImperativeLens V)) :
    (∃ e, goLensReport vs ls = .err e) ↔
      ¬ ((ls.map pairOf).Nodup ∧ ∀ l ∈ ls, l.mapper ≠ none) := by
  have hids : ls.map (·.id) = ls.map pairOf := by
    apply List.map_congr_left; intro l _; rfl
  constructor
  · rintro ⟨e, he⟩ ⟨hn, hm⟩
    obtain ⟨rep, hr, _⟩ := C127_listed hs h0 hn hm
    rw [he] at hr; cases hr
  · intro h
    unfold goLensReport
    rcases collectLenses_cases ls [] with ⟨res, hr⟩ | hr
    · exfalso
      obtain ⟨a1, a2, _⟩ := (collectLenses_ok ls [] res (by simp)).1 hr
      rw [List.nil_append, hids] at a1
      exact h ⟨a1, a2⟩
    · rw [hr]; exact ⟨_, rfl⟩

/-- **C180**.  The reason that is printed is true exactly if the migration does not go forward
within the lineage, or goes forward to a version of the same major version other than the next
one. -/
theorem C180_true_iff {vs : List SV} (hs : StrictlyIncreasing vs) {id : LensID} {w : Reason}
    (hr : ¬ Required vs id) (h : PrintedReason vs id w) :
    TrueReason vs id w ↔ id.frm ∉ vs ∨ id.to ∉ vs ∨ ¬ Before id.frm id.to ∨
      (id.frm.major = id.to.major ∧ ¬ Neighbours vs id.frm id.to) := by
  obtain ⟨f, t⟩ := id
  cases w with
  | noSuchSchema v =>
    rcases h with ⟨h1, rfl⟩ | ⟨h1, h2, rfl⟩
    · simp only [TrueReason]; tauto
    · simp only [TrueReason]; tauto
  | selfMigration =>
    obtain ⟨h1, h2⟩ := h
    simp only at h2
    subst h2
    simp only [TrueReason, sv_before_irrefl]
    tauto
  | predecessorIs p x y =>
    obtain ⟨h1, h2, h3, rfl, rfl, h4⟩ := h
    have : p ≠ y := by
      rintro rfl
      obtain ⟨i, hi, e1, e2⟩ := h4
      exact hr ⟨i, hi, .inl (by rw [← e1, ← e2])⟩
    have hb := before_asymm h3
    simp only at h4 hb
    simp only [TrueReason, true_and]
    tauto
  | minorAutomatic =>
    obtain ⟨h1, h2, h3, h4⟩ := h
    simp only at h1 h2 h3 h4
    simp only [TrueReason]
    tauto
  | successorIs s x y =>
    obtain ⟨h1, h2, h3, h4, rfl, rfl, h5⟩ := h
    simp only at h1 h2 h3 h4 h5
    have : s ≠ y ↔ ¬ Neighbours vs x y :=
      ⟨fun hne hn => hne (neighbours_succ hs h5 hn), fun hn he => hn (he ▸ h5)⟩
    simp only [TrueReason, true_and]
    tauto

example : ∃ rep, goLensReport sfVersions sfGiven = .ok rep ∧ rep.length = 5 ∧
    ∀ e ∈ rep, PrintedReason sfVersions e.1 e.2 := by
  obtain ⟨rep, hr⟩ : ∃ rep, goLensReport sfVersions sfGiven = .ok rep ∧ rep.length = 5 :=
    ⟨_, rfl, rfl⟩
  exact ⟨rep, hr.1, hr.2, ((C180_report_iff sfGiven_hyps.1 rfl _ _).1 hr.1).2.2.2⟩

example : ∃ e, goLensReport sfVersions (sfGiven ++ sfGiven) = .err e :=
  (C180_no_report_iff sfGiven_hyps.1 rfl _).2 fun h => absurd h.1 (by decide)

/-- A migration over a minor version that is there: the reason is true. -/
example : StrictlyIncreasing [⟨0, 0⟩, ⟨0, 1⟩, ⟨0, 2⟩] ∧
    ¬ Required [⟨0, 0⟩, ⟨0, 1⟩, ⟨0, 2⟩] ⟨⟨0, 0⟩, ⟨0, 2⟩⟩ ∧
    PrintedReason [⟨0, 0⟩, ⟨0, 1⟩, ⟨0, 2⟩] ⟨⟨0, 0⟩, ⟨0, 2⟩⟩ (.successorIs ⟨0, 1⟩ ⟨0, 0⟩ ⟨0, 2⟩) := by
  have hs : StrictlyIncreasing [⟨0, 0⟩, ⟨0, 1⟩, ⟨0, 2⟩] := strictV_iff.1 (by unfold StrictV; decide)
  refine ⟨hs, ?_, printed_reason hs rfl⟩
  rw [← mem_requiredList]
  decide

/-! ### C181: PostprocessGoFile -/

variable {T R : Type}

/-- An applier that leaves the list `Imports` of the file alone, as all do that only visit and
replace nodes. -/
def LeavesImports (af : GoFile R → GoFile R) : Prop := ∀ f, (af f).imports = f.imports

theorem applied_imports {cfg : GenGoFile T R} (hk : ∀ af ∈ cfg.appliers, LeavesImports af)
    (f : GoFile R) : (applied cfg f).imports = f.imports := by
  unfold applied
  revert hk
  generalize cfg.appliers = as
  intro hk
  induction as generalizing f with
  | nil => rfl
  | cons a as ih =>
    rw [List.foldl_cons, ih _ (fun af h => hk af (List.mem_cons_of_mem _ h)), hk a (by simp)]

/-- **C181**.  With such appliers, a text is returned exactly if it is what goimports makes of the
file that the appliers make, and (unless this is not to be checked) it imports nothing that the
given file did not import.  In all other cases there is an error, and never a panic. -/
theorem C181_result_iff {G : GoTools T R} {cfg : GenGoFile T R}
    (hparse : ∀ t f, G.parse t = some f → f.imports = G.importsOf t)
    (hk : ∀ af ∈ cfg.appliers, LeavesImports af) (t : T) :
    postprocess G cfg = .ok t ↔
      ∃ f buf, G.parse cfg.input = some f ∧ G.print (applied cfg f) = some buf ∧
        G.process buf = some t ∧
        (cfg.ignoreDiscovered = true ∨ ∀ p ∈ G.importsOf t, p ∈ G.importsOf cfg.input) := by
  unfold postprocess
  cases h1 : G.parse cfg.input with
  | none => simp
  | some f =>
    have hi : (applied cfg f).imports = G.importsOf cfg.input :=
      (applied_imports hk f).trans (hparse _ _ h1)
    simp only [show cfg.appliers.foldl (fun f af => af f) f = applied cfg f from rfl,
      Option.some.injEq, exists_and_left, exists_eq_left']
    cases h2 : G.print (applied cfg f) with
    | none => simp
    | some buf =>
      simp only [Option.some.injEq, exists_eq_left']
      cases h3 : G.process buf with
      | none => simp
      | some byt =>
        simp only [Option.some.injEq, hi]
        by_cases hd : cfg.ignoreDiscovered = true
        · simp [hd]
        · rw [if_neg hd]
          by_cases ha : (addedImports (G.importsOf cfg.input) (G.importsOf byt)).length = 0
          · rw [if_neg (by simpa using ha)]
            rw [addedImports_nil] at ha
            constructor
            · intro h
              simp only [Res.ok.injEq] at h
              subst h
              exact ⟨rfl, .inr ha⟩
            · rintro ⟨rfl, _⟩; rfl
          · rw [if_pos ha]
            rw [addedImports_nil] at ha
            constructor
            · intro h; cases h
            · rintro ⟨rfl, h | h⟩
              · exact absurd h hd
              · exact absurd h ha

/-- **C181**. -/
theorem C181_ends (G : GoTools T R) (cfg : GenGoFile T R) :
    (∃ t, postprocess G cfg = .ok t) ∨ ∃ e, postprocess G cfg = .err e := by
  unfold postprocess
  split
  · exact .inr ⟨_, rfl⟩
  · simp only
    split
    · exact .inr ⟨_, rfl⟩
    · split
      · exact .inr ⟨_, rfl⟩
      · split
        · exact .inl ⟨_, rfl⟩
        · split
          · exact .inr ⟨_, rfl⟩
          · exact .inl ⟨_, rfl⟩

/-- **C181**.  A file to which nothing is to be done and which goimports leaves as it is, is
returned as it is if printing undoes parsing. -/
theorem C181_idempotent {G : GoTools T R}
    (hparse : ∀ t f, G.parse t = some f → f.imports = G.importsOf t)
    (hp : ∀ t u, G.process t = some u → ∃ f, G.parse u = some f ∧ G.print f = some u)
    (hi : ∀ t u, G.process t = some u → G.process u = some u) {cfg : GenGoFile T R} {t : T}
    (h : postprocess G cfg = .ok t) (b : Bool) :
    postprocess G { appliers := [], input := t, ignoreDiscovered := b } = .ok t := by
  obtain ⟨buf, hb⟩ : ∃ buf, G.process buf = some t := by
    unfold postprocess at h
    split at h
    · cases h
    · simp only at h
      split at h
      · cases h
      · rename_i buf _
        split at h
        · cases h
        · rename_i byt hbyt
          refine ⟨buf, hbyt.trans ?_⟩
          split at h
          · simp only [Res.ok.injEq] at h; rw [h]
          · split at h
            · cases h
            · simp only [Res.ok.injEq] at h; rw [h]
  obtain ⟨f, h1, h2⟩ := hp buf t hb
  refine (C181_result_iff hparse (fun af h => by cases h) t).2
    ⟨f, t, h1, h2, hi _ _ hb, .inr fun p h => h⟩

example : (∀ t f, sfTools.parse t = some f → f.imports = sfTools.importsOf t) ∧
    (∀ af ∈ sfAdding.appliers, LeavesImports af) ∧ (∀ af ∈ sfRemoving.appliers, LeavesImports af) ∧
    (∀ t u, sfTools.process t = some u → ∃ f, sfTools.parse u = some f ∧ sfTools.print f = some u) ∧
    (∀ t u, sfTools.process t = some u → sfTools.process u = some u) := by
  refine ⟨fun t f h => ?_, fun af h => ?_, fun af h => ?_, fun t u h => ?_, fun t u h => ?_⟩
  · simp only [sfTools, Option.some.injEq] at h; subst h; rfl
  · simp only [sfAdding, List.mem_singleton] at h; subst h; intro f; rfl
  · simp only [sfRemoving, List.mem_singleton] at h; subst h; intro f; rfl
  · simp only [sfTools, Option.some.injEq] at h; subst h; exact ⟨_, rfl, rfl⟩
  · simp only [sfTools, Option.some.injEq] at h; subst h; rfl

end Thema.Props

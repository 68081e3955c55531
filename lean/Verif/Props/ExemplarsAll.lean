import Verif.Model.ExemplarsAll
import Verif.Props.Exemplars
import Verif.Props.Options
import Verif.Props.BindText
import Verif.Props.Surface

/-!
# C211: the map of exemplars and the functions for single exemplars
-/

namespace Thema.Props

open Thema Thema.Spec Thema.Exemplars

variable {V : Type} {C : Cue V} {force : Bool} {P : Pkg V} {m : List (Str × Lineage V)}
  {n : Str} {L : Lineage V} {o : List (BindOption V)}

/-- What CUE guarantees of the package: no label twice, and the name of each lineage is its label
(`exemplars/constraint.cue:17-19`). -/
structure PkgOk (P : Pkg V) : Prop where
  nodup : (P.map (·.1)).Nodup
  named : ∀ e ∈ P, e.2.name = e.1

/-- The checks that `All` leaves out: those of `defaultchange` and of `disjunct`. -/
def Unchecked (n : Str) : Prop := n = "defaultchange".toList ∨ n = "disjunct".toList

instance (n : Str) : Decidable (Unchecked n) := inferInstanceAs (Decidable (_ ∨ _))

theorem nameOpts_checks (n : Str) : ChecksOn force (nameOpts (V := V) n) ↔
    (force = true ∨ ¬ Unchecked n) := by
  by_cases h : Unchecked n
  · have : nameOpts (V := V) n = [.skipBuggyChecks] := if_pos h
    simp [ChecksOn, this, h]
  · have : nameOpts (V := V) n = [] := if_neg h
    simp [ChecksOn, this, h]

theorem nameOpts_go (n : Str) : goLenses (nameOpts (V := V) n) = [] := by
  unfold nameOpts
  split <;> rfl

theorem bindLineage_name {r : RawLineage V} (h : bindLineage C force r o = .ok L) :
    L.name = r.name := by
  unfold bindLineage at h
  simp only [Res.bind_eq_ok] at h
  obtain ⟨_, _, _, _, _, _, _, _, _, _, h⟩ := h
  cases h; rfl

theorem allLoop_ok {P : Pkg V} {m₀ : List (Str × Lineage V)} (hn : (P.map (·.1)).Nodup)
    (hl : ∀ e ∈ P, e.2.name = e.1) (h : allLoop C force P m₀ = .ok m) :
    (∀ e ∈ P, ∃ L, bindLineage C force e.2 (nameOpts e.1) = .ok L ∧ m.lookup e.1 = some L) ∧
    ∀ n, n ∉ P.map (·.1) → m.lookup n = m₀.lookup n := by
  induction P generalizing m₀ with
  | nil => cases h; simp
  | cons e rest ih =>
    simp only [allLoop] at h
    have hle : e.2.name = e.1 := hl e (by simp)
    rw [hle] at h
    have hn' := hn
    simp only [List.map_cons, List.nodup_cons] at hn
    cases hb : bindLineage C force e.2 (nameOpts e.1) with
    | ok L =>
      rw [hb] at h
      obtain ⟨h1, h2⟩ := ih hn.2 (fun x hx => hl x (List.mem_cons_of_mem _ hx)) h
      refine ⟨?_, ?_⟩
      · intro x hx
        rcases List.mem_cons.1 hx with rfl | hx
        · exact ⟨L, hb, by rw [h2 _ hn.1, lookup_mapPut, if_pos rfl]⟩
        · exact h1 x hx
      · intro k hk
        simp only [List.map_cons, List.mem_cons, not_or] at hk
        rw [h2 k hk.2, lookup_mapPut, if_neg hk.1]
    | err _ => rw [hb] at h; cases h
    | panic _ => rw [hb] at h; cases h
    | fuel => rw [hb] at h; cases h

theorem allLoop_of_ok {P : Pkg V} {m₀ : List (Str × Lineage V)} (hl : ∀ e ∈ P, e.2.name = e.1)
    (h : ∀ e ∈ P, ∃ L, bindLineage C force e.2 (nameOpts e.1) = .ok L) :
    ∃ m, allLoop C force P m₀ = .ok m := by
  induction P generalizing m₀ with
  | nil => exact ⟨_, rfl⟩
  | cons e rest ih =>
    obtain ⟨L, hL⟩ := h e (by simp)
    simp only [allLoop]
    rw [hl e (by simp), hL]
    exact ih (fun x hx => hl x (List.mem_cons_of_mem _ hx)) fun x hx => h x (List.mem_cons_of_mem _ hx)

/-- **C211**.  `All` returns exactly if every lineage of the package can be bound, `defaultchange`
and `disjunct` with `SkipBuggyChecks` and the others without options. -/
theorem C211_returns_iff (hP : PkgOk P) :
    (∃ m, allMap C force P = .ok m) ↔
      ∀ e ∈ P, ∃ L, if Unchecked e.1
        then bindLineage C force e.2 [.skipBuggyChecks] = .ok L
        else bindLineage C force e.2 [] = .ok L := by
  have he : ∀ e : Str × RawLineage V, (∃ L, if Unchecked e.1
        then bindLineage C force e.2 [.skipBuggyChecks] = .ok L
        else bindLineage C force e.2 [] = .ok L) ↔
      ∃ L, bindLineage C force e.2 (nameOpts e.1) = .ok L := by
    intro e
    by_cases h : Unchecked e.1
    · have : nameOpts (V := V) e.1 = [.skipBuggyChecks] := if_pos h
      simp only [if_pos h, this]
    · have : nameOpts (V := V) e.1 = [] := if_neg h
      simp only [if_neg h, this]
  simp only [he]
  exact ⟨fun ⟨m, h⟩ e hx => let ⟨L, h1, _⟩ := (allLoop_ok hP.nodup hP.named h).1 e hx; ⟨L, h1⟩,
    allLoop_of_ok hP.named⟩

/-- **C211**.  `All` never returns an error: it returns a map or panics. -/
theorem C211_panics : (∃ m, allMap C force P = .ok m) ∨ ∃ k, allMap C force P = .panic k := by
  suffices h : ∀ m₀, (∃ m, allLoop C force P m₀ = .ok m) ∨ ∃ k, allLoop C force P m₀ = .panic k
    from h []
  induction P with
  | nil => exact fun m₀ => .inl ⟨_, rfl⟩
  | cons x rest ih =>
    intro m₀
    simp only [allLoop]
    cases hb : bindLineage C force x.2 (nameOpts x.2.name) with
    | ok L => exact ih _
    | err _ => exact .inr ⟨_, rfl⟩
    | panic k => exact .inr ⟨_, rfl⟩
    | fuel => exact absurd hb (bindLineage_ne_fuel _ _ _
        (π := Unit) ⟨fun _ => none, fun _ => [], fun _ => [], fun _ _ => []⟩)

/-- **C211**.  The map has one entry for each field of the package and no others: what
`BindLineage` gives for the lineage of that name, with that name. -/
theorem C211_entries (hP : PkgOk P) (h : allMap C force P = .ok m) :
    (∀ r, (n, r) ∈ P → ∃ L, m.lookup n = some L ∧ L.name = n ∧
      ∃ o, goLenses o = [] ∧ bindLineage C force r o = .ok L) ∧
    ((∀ r, (n, r) ∉ P) → m.lookup n = none) := by
  obtain ⟨h1, h2⟩ := allLoop_ok hP.nodup hP.named h
  refine ⟨fun r hr => ?_, fun hn => ?_⟩
  · obtain ⟨L, hb, hL⟩ := h1 _ hr
    exact ⟨L, hL, (bindLineage_name hb).trans (hP.named _ hr), _, nameOpts_go n, hb⟩
  · rw [h2 n (by
      intro hm
      obtain ⟨e, he, rfl⟩ := List.mem_map.1 hm
      exact hn _ he)]
    rfl

theorem lookup_of_nodup {P : Pkg V} {r : RawLineage V} (hn : (P.map (·.1)).Nodup)
    (h : (n, r) ∈ P) : P.lookup n = some r := by
  induction P with
  | nil => cases h
  | cons e rest ih =>
    simp only [List.map_cons, List.nodup_cons] at hn
    rcases List.mem_cons.1 h with rfl | h
    · simp [List.lookup]
    · have : n ≠ e.1 := fun hh => hn.1 (hh ▸ List.mem_map_of_mem (f := (·.1)) h)
      rw [List.lookup_cons, show (n == e.1) = false by simpa using this]
      exact ih hn.2 h

/-- The names for which there is a function. -/
def HasFunction (n : Str) : Prop :=
  n = "narrowing".toList ∨ n = "rename".toList ∨ n = "defaultchange".toList ∨
    n = "expand".toList ∨ n = "single".toList

theorem lineageFor_same (hP : PkgOk P) (h : allMap C force P = .ok m) (hL : m.lookup n = some L)
    (hf : HasFunction n) (ho : goLenses o = []) : lineageFor C force P n o = .ok L := by
  obtain ⟨h1, h2⟩ := allLoop_ok hP.nodup hP.named h
  have hm : n ∈ P.map (·.1) := by
    by_contra hm
    rw [h2 n hm] at hL
    cases hL
  obtain ⟨⟨k, r⟩, he, rfl⟩ := List.mem_map.1 hm
  obtain ⟨L', hb, hL'⟩ := h1 _ he
  obtain rfl : L' = L := by simpa [hL'] using hL
  unfold lineageFor harnessFor
  rw [lookup_of_nodup hP.nodup he]
  simp only [Res.bind_ok]
  refine C135_skip_widens ?_ ?_ hb
  · rw [nameOpts_go]
    split
    · simp [goLenses] at ho ⊢; exact ho
    · exact ho.symm
  · rw [nameOpts_checks]
    rintro (hc | hc)
    · exact .inl hc
    · right
      rintro (rfl | rfl)
      · simp at hc
      · rcases hf with h | h | h | h | h <;> simp at h

/-- **C211**.  Whenever `All` returns, each of the five functions whose exemplar is in the package
returns the lineage that `All` has under its name, whatever options without Go lenses it is
given. -/
theorem C211_functions (hP : PkgOk P) (h : allMap C force P = .ok m) (ho : goLenses o = []) :
    (∀ L, m.lookup "narrowing".toList = some L → narrowingLineage C force P o = .ok L) ∧
    (∀ L, m.lookup "rename".toList = some L → renameLineage C force P o = .ok L) ∧
    (∀ L, m.lookup "defaultchange".toList = some L → defaultChangeLineage C force P o = .ok L) ∧
    (∀ L, m.lookup "expand".toList = some L → expandLineage C force P o = .ok L) ∧
    (∀ L, m.lookup "single".toList = some L → singleLineage C force P o = .ok L) :=
  ⟨fun _ hL => lineageFor_same hP h hL (.inl rfl) ho,
   fun _ hL => lineageFor_same hP h hL (.inr (.inl rfl)) ho,
   fun _ hL => lineageFor_same hP h hL (.inr (.inr (.inl rfl))) ho,
   fun _ hL => lineageFor_same hP h hL (.inr (.inr (.inr (.inl rfl)))) ho,
   fun _ hL => lineageFor_same hP h hL (.inr (.inr (.inr (.inr rfl)))) ho⟩

/-- **C211**.  What the functions do, whether or not `All` returns: without a field of that name
they panic; otherwise they bind the lineage in that field with the options given, and
`narrowing`, `rename` and `defaultchange` with `SkipBuggyChecks` among them. -/
theorem C211_function_binds (hP : PkgOk P) :
    (∀ r, ("narrowing".toList, r) ∈ P →
      narrowingLineage C force P o = bindLineage C force r (.skipBuggyChecks :: o)) ∧
    (∀ r, ("rename".toList, r) ∈ P →
      renameLineage C force P o = bindLineage C force r (.skipBuggyChecks :: o)) ∧
    (∀ r, ("defaultchange".toList, r) ∈ P →
      defaultChangeLineage C force P o = bindLineage C force r (.skipBuggyChecks :: o)) ∧
    (∀ r, ("expand".toList, r) ∈ P → expandLineage C force P o = bindLineage C force r o) ∧
    (∀ r, ("single".toList, r) ∈ P → singleLineage C force P o = bindLineage C force r o) := by
  have hs : ∀ r, bindLineage C force r (o ++ [.skipBuggyChecks]) =
      bindLineage C force r (.skipBuggyChecks :: o) := fun r =>
    C135_determined (by simp [goLenses]) (by simp [ChecksOn])
  refine ⟨?_, ?_, ?_, ?_, ?_⟩ <;> intro r hr
  · unfold narrowingLineage lineageFor harnessFor
    rw [lookup_of_nodup hP.nodup hr]
    exact hs r
  · unfold renameLineage lineageFor harnessFor
    rw [lookup_of_nodup hP.nodup hr]
    exact hs r
  · unfold defaultChangeLineage lineageFor harnessFor
    rw [lookup_of_nodup hP.nodup hr]
    exact hs r
  · unfold expandLineage lineageFor harnessFor
    rw [lookup_of_nodup hP.nodup hr]
    rfl
  · unfold singleLineage lineageFor harnessFor
    rw [lookup_of_nodup hP.nodup hr]
    rfl

theorem lineageFor_absent (h : ∀ r, (n, r) ∉ P) : lineageFor C force P n o = .panic .explicit := by
  have : P.lookup n = none := by
    rw [List.lookup_eq_none_iff]
    intro e he
    simp only [bne_iff_ne, ne_eq]
    rintro rfl
    exact h _ he
  unfold lineageFor harnessFor
  rw [this]
  rfl

/-- **C211**.  Without a field of that name the functions panic. -/
theorem C211_function_absent :
    ((∀ r, ("narrowing".toList, r) ∉ P) → narrowingLineage C force P o = .panic .explicit) ∧
    ((∀ r, ("rename".toList, r) ∉ P) → renameLineage C force P o = .panic .explicit) ∧
    ((∀ r, ("defaultchange".toList, r) ∉ P) →
      defaultChangeLineage C force P o = .panic .explicit) ∧
    ((∀ r, ("expand".toList, r) ∉ P) → expandLineage C force P o = .panic .explicit) ∧
    ((∀ r, ("single".toList, r) ∉ P) → singleLineage C force P o = .panic .explicit) :=
  ⟨lineageFor_absent, lineageFor_absent, lineageFor_absent, lineageFor_absent, lineageFor_absent⟩

/-- `rename` with a minor version that is not compatible is bound by its function; `All` would
panic. -/
example : ∃ L, renameLineage SetCue.cue false
      [("rename".toList, { SetCue.lin [SetCue.sch 0 0 [1], SetCue.sch 0 1 [2]] with
        name := "rename".toList })] [] = .ok L := by
  rw [(C211_function_binds ⟨by decide, by simp⟩).2.1 _ (List.mem_cons_self ..)]
  exact ⟨_, rfl⟩

example : expandLineage SetCue.cue false [] [] = .panic .explicit :=
  C211_function_absent.2.2.2.1 (by simp)

theorem allLoop_force {P : Pkg V} {m₀ : List (Str × Lineage V)}
    (h : allLoop C true P m₀ = .ok m) : allLoop C false P m₀ = .ok m := by
  induction P generalizing m₀ with
  | nil => exact h
  | cons e rest ih =>
    simp only [allLoop] at h ⊢
    cases hb : bindLineage C true e.2 (nameOpts e.2.name) with
    | ok L =>
      rw [hb] at h
      rw [C135_skip_widens (force' := false) (opts' := nameOpts e.2.name) rfl
        (fun _ => .inl rfl) hb]
      exact ih h
    | err _ => rw [hb] at h; cases h
    | panic _ => rw [hb] at h; cases h
    | fuel => rw [hb] at h; cases h

/-- **C211**.  With `THEMA_FORCEVERIFY` set, `All` returns exactly if it does without and the
schemas of all lineages follow the compatibility rule, and then it returns the same. -/
theorem C211_forced (hP : PkgOk P) (h : allMap C false P = .ok m) :
    ((∃ m', allMap C true P = .ok m') ↔ ∀ n L, m.lookup n = some L → CompatRule C L.allsch) ∧
    ∀ m', allMap C true P = .ok m' → m' = m := by
  refine ⟨?_, fun m' h' => by
    have := allLoop_force h'
    rw [show allLoop C false P [] = .ok m from h] at this
    cases this
    rfl⟩
  obtain ⟨h1, h2⟩ := allLoop_ok hP.nodup hP.named h
  have hs : ∀ e ∈ P, ∀ L, bindLineage C false e.2 (nameOpts e.1) = .ok L →
      ((∃ L', bindLineage C true e.2 (nameOpts e.1) = .ok L') ↔ CompatRule C L.allsch) := by
    intro e he L hL
    rw [← C135_skip_exact rfl hL (opts' := nameOpts e.1) (force' := true) (.inl rfl)]
    refine ⟨fun ⟨L', h'⟩ => ?_, fun h' => ⟨L, h'⟩⟩
    have := C135_skip_widens (force' := false) (opts' := nameOpts e.1) rfl (fun _ => .inl rfl) h'
    rw [hL] at this
    cases this
    exact h'
  constructor
  · rintro ⟨m', hm'⟩ n L hL
    have hm : n ∈ P.map (·.1) := by
      by_contra hm
      rw [h2 n hm] at hL
      cases hL
    obtain ⟨⟨k, r⟩, he, rfl⟩ := List.mem_map.1 hm
    obtain ⟨L', hb, hL'⟩ := h1 _ he
    obtain rfl : L' = L := by simpa [hL'] using hL
    obtain ⟨L'', hb', _⟩ := (allLoop_ok hP.nodup hP.named hm').1 _ he
    exact (hs _ he _ hb).1 ⟨_, hb'⟩
  · intro hc
    refine allLoop_of_ok hP.named fun e he => ?_
    obtain ⟨L, hb, hL⟩ := h1 _ he
    exact (hs e he L hb).2 (hc _ _ hL)

/-! ### The package as it is -/

theorem pkg_ok : PkgOk pkg := by
  refine ⟨by decide, ?_⟩
  simp only [pkg, List.forall_mem_cons]
  refine ⟨rfl, rfl, rfl, rfl, rfl, rfl, by simp⟩

/-- **C211** for the exemplars as they are: `All` returns six lineages, under these names. -/
theorem C211_six (fatal : Bool) : ∃ m, allMap (cue fatal) false pkg = .ok m ∧
    m.map (·.1) = ["defaultchange".toList, "disjunct".toList, "expand".toList,
      "narrowing".toList, "rename".toList, "single".toList] ∧
    ∀ e ∈ pkg, m.lookup e.1 = some (exBound e.2) := by
  cases fatal <;> refine ⟨_, rfl, rfl, ?_⟩ <;> simp only [pkg, List.forall_mem_cons] <;>
    refine ⟨rfl, rfl, rfl, rfl, rfl, rfl, by simp⟩

/-- **C211**.  A function may return where `All` panics: with `THEMA_FORCEVERIFY` set, because
`defaultchange` is not bound then. -/
theorem C211_only_function (fatal : Bool) :
    allMap (cue fatal) true pkg = .panic .explicit ∧
    renameLineage (cue fatal) true pkg [] = .ok (exBound rename) := by
  cases fatal <;> exact ⟨rfl, rfl⟩

example (fatal : Bool) : ∃ L, singleLineage (cue fatal) false pkg [.skipBuggyChecks] = .ok L ∧
    L.name = "single".toList := by
  obtain ⟨m, h, _, hm⟩ := C211_six fatal
  exact ⟨exBound single, (C211_functions pkg_ok h rfl).2.2.2.2 _
    (hm ("single".toList, single) (by simp [pkg])), rfl⟩

example (fatal : Bool) : ∃ m, allMap (cue fatal) false pkg = .ok m ∧
    m.lookup "constraint".toList = none := by
  obtain ⟨m, h, _, _⟩ := C211_six fatal
  refine ⟨m, h, (C211_entries pkg_ok h).2 ?_⟩
  intro r hr
  simp [pkg] at hr

example (fatal : Bool) : ∃ m, allMap (cue fatal) false pkg = .ok m ∧
    ¬ ∀ n L, m.lookup n = some L → CompatRule (cue fatal) L.allsch := by
  obtain ⟨m, h, _, _⟩ := C211_six fatal
  refine ⟨m, h, fun hc => ?_⟩
  obtain ⟨m', h'⟩ := (C211_forced pkg_ok h).1.2 hc
  rw [(C211_only_function fatal).1] at h'
  cases h'

/-- A package with a lineage that breaks the compatibility rule and may not. -/
example : ¬ ∃ m, allMap SetCue.cue false
    [("toy".toList, SetCue.lin [SetCue.sch 0 0 [1], SetCue.sch 0 1 [2]])] = .ok m := by
  rw [C211_returns_iff ⟨by decide, by simp [SetCue.lin]⟩]
  intro h
  obtain ⟨L, hL⟩ := h _ (List.mem_cons_self ..)
  rw [if_neg (by decide)] at hL
  cases hL

end Thema.Props

import Verif.Spec.Surface
import Verif.Spec.TranslateGo
import Verif.Model.SetCue
import Verif.Model.Lit
import Verif.Props.Validate
import Verif.Lemmas.Bind2

/-!
# C125-C128: examples, search in CUE, reports on Go migrations, post-processing
-/

namespace Thema.Props

open Thema Spec

variable {V : Type} {C : Cue V} {force : Bool} {r : RawLineage V} {opts : List (BindOption V)}
  {L : Lineage V}

/-! ### C125: Examples -/

theorem lookup_mapPut {α : Type} (m : List (Str × α)) (k : Str) (a : α) (n : Str) :
    (mapPut m k a).lookup n = if n = k then some a else m.lookup n := by
  unfold mapPut
  induction m with
  | nil =>
    by_cases h : n = k
    · subst h; simp
    · have : (n == k) = false := by simpa using h
      simp [List.lookup, this, h]
  | cons e m ih =>
    obtain ⟨x, b⟩ := e
    by_cases hx : x = k
    · subst hx
      rw [List.filter_cons_of_neg (by simp), ih]
      by_cases h : n = x
      · simp [h]
      · have : (n == x) = false := by simpa using h
        simp [h, List.lookup, this]
    · rw [List.filter_cons_of_pos (by simpa using hx), List.cons_append]
      by_cases h : n = x
      · subst h
        simp [hx]
      · have : (n == x) = false := by simpa using h
        simp only [List.lookup, this, ih]

theorem lookup_examplesLoop (S : Labels) (s : SchPtr) (es : List (Str × V)) :
    ∀ (m : List (Str × Inst V)) (n : Str), (∀ e ∈ es, S.selector e.1 ≠ n) →
      (examplesLoop S s es m).lookup n = m.lookup n := by
  induction es with
  | nil => intro m n _; rfl
  | cons e es ih =>
    intro m n h
    simp only [examplesLoop]
    rw [ih _ _ (fun e he => h e (List.mem_cons_of_mem _ he)), lookup_mapPut,
      if_neg (fun hn => h e (by simp) hn.symm)]

theorem examplesLoop_mem (S : Labels) (s : SchPtr) (es : List (Str × V)) :
    ∀ (m : List (Str × Inst V)), (es.map fun e => S.selector e.1).Nodup →
      ∀ e ∈ es, (examplesLoop S s es m).lookup (S.selector e.1) =
        some { raw := e.2, name := S.selector e.1, sch := s, valid := true } := by
  induction es with
  | nil => intro m _ e he; cases he
  | cons x es ih =>
    intro m hn e he
    simp only [List.map_cons, List.nodup_cons] at hn
    simp only [examplesLoop]
    rcases List.mem_cons.1 he with rfl | he
    · rw [lookup_examplesLoop _ _ _ _ _ (fun y hy h => hn.1 (by
        rw [← h]; exact List.mem_map_of_mem hy)), lookup_mapPut, if_pos rfl]
    · exact ih _ hn.2 e he

theorem examplesLoop_length (S : Labels) (s : SchPtr) (es : List (Str × V)) :
    ∀ (m : List (Str × Inst V)), (es.map fun e => S.selector e.1).Nodup →
      (∀ e ∈ es, S.selector e.1 ∉ m.map (·.1)) →
      (examplesLoop S s es m).map (·.1) = m.map (·.1) ++ es.map fun e => S.selector e.1 := by
  induction es with
  | nil => intro m _ _; simp [examplesLoop]
  | cons x es ih =>
    intro m hn hm
    simp only [List.map_cons, List.nodup_cons] at hn
    simp only [examplesLoop]
    have hf : m.filter (fun e => decide (e.1 ≠ S.selector x.1)) = m := by
      rw [List.filter_eq_self]
      intro e he
      have h1 := hm x (by simp)
      simp only [decide_eq_true_eq]
      intro h
      exact h1 (by rw [← h]; exact List.mem_map_of_mem he)
    rw [ih _ hn.2]
    · simp only [mapPut, hf]
      simp
    · intro e he h
      simp only [mapPut, hf, List.map_append, List.map_cons, List.map_nil, List.mem_append,
        List.mem_singleton] at h
      rcases h with h | h
      · exact hm e (List.mem_cons_of_mem _ he) h
      · exact hn.1 (by rw [← h]; exact List.mem_map_of_mem he)

/-- What is assumed of CUE's quoting: quoted labels start with a quotation mark, plain ones do
not, and different labels are quoted differently. -/
structure LabelLaws (S : Labels) : Prop where
  quoted : ∀ n, ∃ t, S.quote n = '"' :: t
  plain : ∀ n, S.isPlain n = true → ∀ t, n ≠ '"' :: t
  inj : ∀ a b, S.quote a = S.quote b → a = b

theorem LabelLaws.selector_inj {S : Labels} (h : LabelLaws S) {a b : Str}
    (hab : S.selector a = S.selector b) : a = b := by
  unfold Labels.selector at hab
  split at hab <;> split at hab
  · exact hab
  · obtain ⟨t, ht⟩ := h.quoted b
    exact absurd (hab.trans ht) (h.plain a (by assumption) t)
  · obtain ⟨t, ht⟩ := h.quoted a
    exact absurd (hab.symm.trans ht) (h.plain b (by assumption) t)
  · exact h.inj _ _ hab

theorem selectors_nodup {S : Labels} (h : LabelLaws S) {es : List (Str × V)}
    (hn : (es.map (·.1)).Nodup) : (es.map fun e => S.selector e.1).Nodup := by
  rw [show (es.map fun e => S.selector e.1) = (es.map (·.1)).map S.selector by simp]
  exact List.Pairwise.map _ (fun a b hab he => hab (h.selector_inj he)) hn

/-- **C125**.  Every example of the schema is in the result, with its data, marked as valid and
as an instance of the schema, and there is nothing else in it. -/
theorem C125_all_examples {S : Labels} (hS : LabelLaws S) {H : Heap V} {s : SchPtr}
    {sch : SchemaDef V} (hs : (H s.lin).allsch[s.pos]? = some sch)
    (hn : (sch.examples.map (·.1)).Nodup) :
    (examples S H s).length = sch.examples.length ∧
    ∀ e ∈ sch.examples, ∃ k i, (examples S H s).lookup k = some i ∧ i.raw = e.2 ∧ i.sch = s ∧
      i.valid = true := by
  have hd := selectors_nodup hS hn
  unfold examples
  rw [hs]
  simp only
  refine ⟨?_, fun e he => ⟨_, _, examplesLoop_mem S s sch.examples [] hd e he, rfl, rfl, rfl⟩⟩
  have := congrArg List.length (examplesLoop_length S s sch.examples [] hd (by simp))
  simpa using this

/-- **C125**, for names that need no quotation marks: the example is found under the name that
the author gave to it, and it has that name.  (Missing: names that do, see
`C125_quoted_name`.) -/
theorem C125_name_partial {S : Labels} (hS : LabelLaws S) {H : Heap V} {s : SchPtr}
    {sch : SchemaDef V} (hs : (H s.lin).allsch[s.pos]? = some sch)
    (hn : (sch.examples.map (·.1)).Nodup) {e : Str × V} (he : e ∈ sch.examples)
    (hp : S.isPlain e.1 = true) :
    ∃ i, (examples S H s).lookup e.1 = some i ∧ i.raw = e.2 ∧ i.name = e.1 := by
  have := examplesLoop_mem S s sch.examples [] (selectors_nodup hS hn) e he
  have hsel : S.selector e.1 = e.1 := by unfold Labels.selector; rw [if_pos hp]
  unfold examples
  rw [hs]
  rw [hsel] at this
  exact ⟨_, this, rfl, rfl⟩

/-- **C125** is false for all other names: an example whose name has to be written in quotation
marks (and does not itself begin with one) is not found under its name. -/
theorem C125_quoted_name {S : Labels} (hS : LabelLaws S) {H : Heap V} {s : SchPtr} {n : Str}
    (hp : S.isPlain n = false) (hq : ∀ t, n ≠ '"' :: t) : (examples S H s).lookup n = none := by
  unfold examples
  split
  · rw [lookup_examplesLoop]
    · rfl
    · intro e _ h
      unfold Labels.selector at h
      split at h
      · rename_i hpl
        rw [h, hp] at hpl; cases hpl
      · obtain ⟨t, ht⟩ := hS.quoted e.1
        exact hq t (h.symm.trans ht)
  · rfl

/-- Labels of letters are plain; others are put in quotation marks. -/
def sfLabels : Labels where
  isPlain n := n.all Char.isAlpha && !n.isEmpty
  quote n := Lit.inQuotes n

theorem sfLabels_laws : LabelLaws sfLabels where
  quoted n := ⟨_, rfl⟩
  plain n h t he := by
    subst he
    simp only [sfLabels, List.all_cons, Bool.and_eq_true] at h
    exact absurd h.1.1 (by decide)
  inj a b h := by
    simp only [sfLabels, Lit.inQuotes, List.cons.injEq, true_and] at h
    exact List.append_cancel_right h

/-- A lineage of one schema with two examples. -/
def sfExamples : Lineage SetCue.Val :=
  { name := "toy".toList, lenses := [], lensmap := [],
    allsch := [{ v := ⟨0, 0⟩, schema := [1, 2], body := [1, 2],
                 examples := [("simple".toList, [1]), ("two words".toList, [2])] }] }

example : ((fun _ => sfExamples : Heap SetCue.Val) 0).allsch[0]? = some sfExamples.allsch[0] ∧
    (sfExamples.allsch[0].examples.map (·.1)).Nodup ∧
    ("simple".toList, [1]) ∈ sfExamples.allsch[0].examples ∧
    sfLabels.isPlain "simple".toList = true := ⟨rfl, by decide, by decide, by decide⟩

example : sfLabels.isPlain "two words".toList = false ∧ ∀ t, "two words".toList ≠ '"' :: t :=
  ⟨by decide, fun t h => by
    have : some 't' = some '"' := congrArg List.head? h
    simp at this⟩

/-- **C125** is false: of the two examples of this schema the second is not found under its
name. -/
theorem C125_refuted : ("two words".toList, [2]) ∈ sfExamples.allsch[0].examples ∧
    (examples sfLabels (fun _ => sfExamples) ⟨0, 0⟩).lookup "two words".toList = none ∧
    ((examples sfLabels (fun _ => sfExamples) ⟨0, 0⟩).lookup "simple".toList).isSome = true := by
  decide

/-! ### C126: #SearchAndValidate and #ValidFor -/

theorem head?_filter_map {α β : Type} (p : α → Bool) (f : α → β) (l : List α) :
    (((l.filter p).map f).head? = none ∧ ∀ x ∈ l, p x = false) ∨
    ∃ pre x post, l = pre ++ x :: post ∧ (∀ y ∈ pre, p y = false) ∧ p x = true ∧
      ((l.filter p).map f).head? = some (f x) := by
  induction l with
  | nil => left; simp
  | cons a l ih =>
    by_cases ha : p a = true
    · right
      refine ⟨[], a, l, rfl, by simp, ha, ?_⟩
      rw [List.filter_cons_of_pos ha]; rfl
    · rw [List.filter_cons_of_neg ha]
      have ha' : p a = false := by simpa using ha
      rcases ih with ⟨h1, h2⟩ | ⟨pre, x, post, h1, h2, h3, h4⟩
      · left
        refine ⟨h1, fun x hx => ?_⟩
        rcases List.mem_cons.1 hx with rfl | hx
        · exact ha'
        · exact h2 x hx
      · right
        refine ⟨a :: pre, x, post, by rw [h1]; rfl, ?_, h3, h4⟩
        intro y hy
        rcases List.mem_cons.1 hy with rfl | hy
        · exact ha'
        · exact h2 y hy

/-- **C126**, the version.  `#SearchAndValidate` has no result exactly if the data conflict with
every schema; otherwise the version of its result is that of the first schema with which they do
not conflict.  (Missing: the instance in the result is not the data, see `C126_data_lost`.) -/
theorem C126_version_partial (C : Cue V) (L : Lineage V) (d : V) :
    (searchAndValidate C L d = none ∧ ∀ s ∈ L.allsch, C.isErr (C.unify d s.body) = true) ∨
    ∃ pre s post x, L.allsch = pre ++ s :: post ∧ C.isErr (C.unify d s.body) = false ∧
      (∀ s' ∈ pre, C.isErr (C.unify d s'.body) = true) ∧
      searchAndValidate C L d = some (s.v, x) := by
  unfold searchAndValidate
  rcases head?_filter_map (fun sch : SchemaDef V => !C.isErr (C.unify d sch.body))
    (fun sch => (sch.v, andSchema C (searchInst d) sch.body)) L.allsch with
    ⟨h1, h2⟩ | ⟨pre, x, post, h1, h2, h3, h4⟩
  · exact .inl ⟨h1, fun s hs => by simpa using h2 s hs⟩
  · exact .inr ⟨pre, x, post, _, h1, by simpa using h3, fun s hs => by simpa using h2 s hs, h4⟩

/-- **C126**.  `#ValidFor` finds the version that `#SearchAndValidate` finds, since unification
is commutative. -/
theorem C126_validFor (C : Cue V) (hC : ∀ a b, C.unify a b = C.unify b a) (L : Lineage V) (d : V) :
    validFor C L d = (searchAndValidate C L d).map (·.1) := by
  unfold validFor searchAndValidate
  have : (fun sch : SchemaDef V => !C.isErr (C.unify sch.body d)) =
      fun sch => !C.isErr (C.unify d sch.body) := by
    funext sch; rw [hC]
  rw [this]
  generalize L.allsch.filter _ = l
  cases l <;> rfl

/-- **C126**, agreement with Go.  For a bound lineage with distinct versions, and data that
either conflict with a schema or satisfy it (as concrete and complete data do), `#ValidFor` finds
the version of the instance that `ValidateAny` returns, and neither finds any otherwise. -/
theorem C126_agrees_with_go (hP : PathsOk C) (h : bindLineage C force r opts = .ok L)
    (hd : (r.schemas.map (·.version)).Nodup) (H : Heap V) {lin : Nat} (hH : H lin = L) (d : V)
    {n : Nat} (hn : r.schemas.length ≤ n)
    (hc : ∀ s ∈ L.allsch, C.isErr (C.unify s.body d) = false ↔ C.accepts s.body d) :
    (∃ x, validateAny C H lin d n = .ok (some x) ∧ validFor C L d = some (versionOf H x)) ∨
    (validateAny C H lin d n = .ok none ∧ validFor C L d = none) := by
  have hlen := bind_length h
  rcases C20_validateAny_partial hP h hd H hH d hn with ⟨hno, hv⟩ |
    ⟨pre, s, post, x, hr, hacc, hpre, hv, _, hx, _⟩
  · right
    refine ⟨hv, ?_⟩
    unfold validFor
    rw [List.filter_eq_nil_iff.2]
    · rfl
    · intro s hs
      obtain ⟨j, hj, rfl⟩ := List.getElem_of_mem hs
      have hj' : j < r.schemas.length := by omega
      have : ¬ C.accepts L.allsch[j].body d := by
        rw [bind_body h hj' hj]; exact hno _ (List.getElem_mem _)
      have h2 := mt (hc _ (List.getElem_mem hj)).1 this
      simpa using h2
  · left
    refine ⟨x, hv, ?_⟩
    have hi : pre.length < r.schemas.length := by rw [hr]; simp
    have hi' : pre.length < L.allsch.length := by omega
    unfold validFor
    rcases head?_filter_map (fun sch : SchemaDef V => !C.isErr (C.unify sch.body d)) (·.v) L.allsch
      with ⟨_, h2⟩ | ⟨pre', y, post', e1, e2, e3, e4⟩
    · exfalso
      have h3 := h2 _ (List.getElem_mem hi')
      have h4 : C.accepts L.allsch[pre.length].body d := by
        rw [bind_body h hi hi']; simpa [hr] using hacc
      rw [(hc _ (List.getElem_mem hi')).2 h4] at h3
      cases h3
    · rw [e4]
      have hpl : pre'.length < L.allsch.length := by rw [e1]; simp
      have hy : L.allsch[pre'.length] = y := by simp [e1]
      have hyacc : C.accepts y.body d :=
        (hc y (by rw [← hy]; exact List.getElem_mem _)).1 (by simpa using e3)
      have heq : pre'.length = pre.length := by
        rcases Nat.lt_trichotomy pre'.length pre.length with hlt | he | hgt
        · exfalso
          have h5 : r.schemas[pre'.length]'(by omega) ∈ pre := by
            have : r.schemas[pre'.length]'(by omega) = pre[pre'.length] := by
              simp [hr, List.getElem_append_left hlt]
            rw [this]; exact List.getElem_mem _
          have h6 := hpre _ h5
          rw [← bind_body h (by omega) hpl, hy] at h6
          exact h6 hyacc
        · exact he
        · exfalso
          have h5 : L.allsch[pre.length]'hi' ∈ pre' := by
            have : L.allsch[pre.length]'hi' = pre'[pre.length] := by
              simp [e1, List.getElem_append_left hgt]
            rw [this]; exact List.getElem_mem _
          have h6 := e2 _ h5
          have h4 : C.accepts L.allsch[pre.length].body d := by
            rw [bind_body h hi hi']; simpa [hr] using hacc
          rw [(hc _ (List.getElem_mem hi')).2 h4] at h6
          cases h6
      congr 1
      unfold versionOf
      rw [hx, hH]
      simp only
      rw [ver_lt hi']
      simp only [Lineage.allv, List.getElem_map]
      rw [← hy]
      congr 2

/-- **C126** is false for the instance: the `inst` of the result is the schema itself, whatever
the data are (in the list `inst` means the field that is being defined). -/
theorem C126_data_lost (C : Cue V) (L : Lineage V) (d : V) {v : SV} {x : V}
    (h : searchAndValidate C L d = some (v, x)) : ∃ s ∈ L.allsch, s.v = v ∧ x = s.body := by
  have hi : searchInst d = none := rfl
  unfold searchAndValidate at h
  rw [hi] at h
  rcases head?_filter_map (fun sch : SchemaDef V => !C.isErr (C.unify d sch.body))
    (fun sch => (sch.v, andSchema C none sch.body)) L.allsch with
    ⟨h1, _⟩ | ⟨pre, s, post, h1, _, _, h4⟩
  · rw [h1] at h; cases h
  · rw [h4] at h
    simp only [Option.some.injEq, Prod.mk.injEq] at h
    exact ⟨s, by rw [h1]; simp, h.1, h.2.symm⟩

/-- **C126** is false: for this lineage, different valid data give the same result. -/
theorem C126_refuted : searchAndValidate SetCue.cue sfExamples [1] = some (⟨0, 0⟩, [1, 2]) ∧
    searchAndValidate SetCue.cue sfExamples [2] = some (⟨0, 0⟩, [1, 2]) ∧
    SetCue.cue.accepts [1, 2] [1] ∧ SetCue.cue.accepts [1, 2] [2] := by decide

example : SetCue.bind threeVersions = .ok threeBound ∧ PathsOk SetCue.cue ∧
    (threeVersions.schemas.map (·.version)).Nodup ∧
    (∀ s ∈ threeBound.allsch, SetCue.cue.isErr (SetCue.cue.unify s.body [1]) = false ↔
      SetCue.cue.accepts s.body [1]) := ⟨rfl, setCue_pathsOk, by decide, by decide⟩

/-! ### C127: the report on superfluous Go migrations -/

theorem erroneousReport_mem {allv : List SV} {left : List LensID} (ls : List (ImperativeLens V)) :
    ∀ {rep}, erroneousReport allv left ls = .ok rep →
      rep.map (·.1) = (ls.map pairOf).filter (fun id => left.contains id) ∧
      ∀ e ∈ rep, erroneousReason allv e.1 = .ok e.2 := by
  induction ls with
  | nil =>
    intro rep h
    simp only [erroneousReport, Res.ok.injEq] at h
    subst h; simp
  | cons l ls ih =>
    intro rep h
    simp only [erroneousReport] at h
    have hid : l.id = pairOf l := rfl
    rw [hid] at h
    by_cases hc : left.contains (pairOf l) = true
    · rw [if_neg (by rw [hc]; simp)] at h
      obtain ⟨a, ha, h⟩ := Res.bind_eq_ok.1 h
      obtain ⟨t, ht, h⟩ := Res.bind_eq_ok.1 h
      simp only [Res.ok.injEq] at h
      subst h
      obtain ⟨i1, i2⟩ := ih ht
      refine ⟨?_, ?_⟩
      · rw [List.map_cons, List.map_cons, List.filter_cons_of_pos hc, i1]
      · intro e he
        rcases List.mem_cons.1 he with rfl | he
        · exact ha
        · exact i2 e he
    · rw [if_pos (by simpa using hc)] at h
      obtain ⟨i1, i2⟩ := ih h
      exact ⟨by rw [List.map_cons, List.filter_cons_of_neg hc, i1], i2⟩

theorem goLensReport_eq {vs : List SV} (hs : StrictlyIncreasing vs)
    (h0 : vs.head? = some ⟨0, 0⟩) {ls : List (ImperativeLens V)}
    (hn : (ls.map pairOf).Nodup) (hm : ∀ l ∈ ls, l.mapper ≠ none) :
    goLensReport vs ls =
      erroneousReport vs ((ls.map pairOf).filter fun id => decide (id ∉ requiredList vs)) ls := by
  unfold goLensReport
  have hids : ls.map (·.id) = ls.map pairOf := by
    apply List.map_congr_left; intro l _; rfl
  have hc := (collectLenses_ok ls [] (ls.map pairOf) (by simp)).2
    ⟨by simpa [hids] using hn, hm, by simp [hids]⟩
  rw [hc, Res.bind_ok, requireLoop_eq, reqList_eq]
  have hv : synv0 :: vs.tail = vs := by
    cases vs with
    | nil => simp at h0
    | cons a t => simp only [List.head?_cons, Option.some.injEq] at h0; simp [synv0, h0]
  rw [hv, takeLens_foldl_nodup _ _ _ (requiredList_nodup (strictV_iff.2 hs))]

/-- **C127**.  If no pair is given twice and no function is nil, the report lists exactly the
migrations that are not required, in the order in which they were given. -/
theorem C127_listed {vs : List SV} (hs : StrictlyIncreasing vs) (h0 : vs.head? = some ⟨0, 0⟩)
    {ls : List (ImperativeLens V)} (hn : (ls.map pairOf).Nodup) (hm : ∀ l ∈ ls, l.mapper ≠ none) :
    ∃ rep, goLensReport vs ls = .ok rep ∧ (rep.map (·.1)).Sublist (ls.map pairOf) ∧
      ∀ id, id ∈ rep.map (·.1) ↔ id ∈ ls.map pairOf ∧ ¬ Required vs id := by
  rw [goLensReport_eq hs h0 hn hm]
  obtain ⟨rep, hr⟩ := erroneousReport_ok (strictV_iff.2 hs).sorted
    ((ls.map pairOf).filter fun id => decide (id ∉ requiredList vs)) ls
  obtain ⟨h1, _⟩ := erroneousReport_mem ls hr
  refine ⟨rep, hr, by rw [h1]; exact List.filter_sublist, fun id => ?_⟩
  rw [h1, List.mem_filter]
  simp only [List.contains_eq_mem, decide_eq_true_eq, List.mem_filter, ← mem_requiredList]
  tauto

theorem neighbours_pred {vs : List SV} (hs : StrictlyIncreasing vs) {v : SV} (hv : v ∈ vs)
    (h : searchSynv vs v ≠ 0) :
    ∃ p, goIdx vs (searchSynv vs v - 1) = .ok p ∧ Neighbours vs p v := by
  obtain ⟨k, hk, rfl⟩ := List.getElem_of_mem hv
  have he := searchSynv_getElem (strictV_iff.2 hs) hk
  rw [he] at h ⊢
  refine ⟨_, goIdx_lt (by omega), k - 1, by omega, rfl, ?_⟩
  congr 1; omega

theorem report_reason {vs : List SV} (hs : StrictlyIncreasing vs) (h0 : vs.head? = some ⟨0, 0⟩)
    {ls : List (ImperativeLens V)} (hn : (ls.map pairOf).Nodup) (hm : ∀ l ∈ ls, l.mapper ≠ none)
    {rep : List (LensID × Reason)} (h : goLensReport vs ls = .ok rep) {id : LensID} {w : Reason}
    (he : (id, w) ∈ rep) : erroneousReason vs id = .ok w ∧ ¬ Required vs id := by
  have h' := h
  rw [goLensReport_eq hs h0 hn hm] at h
  refine ⟨(erroneousReport_mem ls h).2 _ he, ?_⟩
  obtain ⟨rep', h1, _, h2⟩ := C127_listed hs h0 hn hm
  rw [h'] at h1
  simp only [Res.ok.injEq] at h1
  subst h1
  exact ((h2 id).1 (List.mem_map_of_mem (f := Prod.fst) he)).2

/-- **C127**, for all migrations that do not go forward from one version of the lineage to
another: the reason given is true.  (Missing: migrations that do, see `C127_minor_upgrade` and
`C127_major_jump`.) -/
theorem C127_reason_partial {vs : List SV} (hs : StrictlyIncreasing vs)
    (h0 : vs.head? = some ⟨0, 0⟩) {ls : List (ImperativeLens V)} (hn : (ls.map pairOf).Nodup)
    (hm : ∀ l ∈ ls, l.mapper ≠ none) {rep : List (LensID × Reason)}
    (h : goLensReport vs ls = .ok rep) {id : LensID} {w : Reason} (he : (id, w) ∈ rep)
    (hf : ¬ (id.frm ∈ vs ∧ id.to ∈ vs ∧ Before id.frm id.to)) : TrueReason vs id w := by
  obtain ⟨hw, hnr⟩ := report_reason hs h0 hn hm h he
  have hsorted := (strictV_iff.2 hs).sorted
  unfold erroneousReason at hw
  split at hw
  · rename_i ht
    simp only [Res.ok.injEq] at hw; subst hw
    refine ⟨.inl rfl, fun hmem => ?_⟩
    rw [(synvExists_iff hsorted _).2 hmem] at ht; simp at ht
  rename_i ht
  have hto : id.to ∈ vs := (synvExists_iff hsorted _).1 (by simpa using ht)
  split at hw
  · rename_i hfr
    simp only [Res.ok.injEq] at hw; subst hw
    refine ⟨.inr rfl, fun hmem => ?_⟩
    rw [(synvExists_iff hsorted _).2 hmem] at hfr; simp at hfr
  rename_i hfr
  have hfrm : id.frm ∈ vs := (synvExists_iff hsorted _).1 (by simpa using hfr)
  split at hw
  · rename_i heq
    simp only [Res.ok.injEq] at hw; subst hw
    exact heq
  rename_i hneq
  split at hw
  · split at hw
    · cases hw
    · rename_i hz
      obtain ⟨p, hp, hnb⟩ := neighbours_pred hs hfrm hz
      rw [hp] at hw
      simp only [Res.map_ok, Res.ok.injEq] at hw; subst hw
      refine ⟨rfl, rfl, hnb, ?_⟩
      rintro rfl
      obtain ⟨i, hi, h1, h2⟩ := hnb
      exact hnr ⟨i, hi, .inl (by rw [h1, h2])⟩
  · rename_i hless
    exfalso
    apply hf
    refine ⟨hfrm, hto, ?_⟩
    rcases less_total id.frm id.to with hl | hl | hl
    · exact less_iff_before.1 hl
    · exact absurd hl.symm hneq
    · exact absurd hl hless

/-- A migration forward between versions of the lineage. -/
theorem forward_reason {vs : List SV} (hs : StrictlyIncreasing vs) {i j : Nat} (hij : i < j)
    (hj : j < vs.length) : erroneousReason vs ⟨vs[i], vs[j]⟩ =
      if vs[j].major ≠ vs[i].major then .ok .minorAutomatic
      else .ok (.successorIs vs[i + 1] vs[i] vs[j]) := by
  have hstrict := strictV_iff.2 hs
  have hsorted := hstrict.sorted
  have hl := hstrict.get hij hj
  unfold erroneousReason
  simp only
  rw [(synvExists_iff hsorted _).2 (List.getElem_mem hj),
    (synvExists_iff hsorted _).2 (List.getElem_mem _), if_neg (by simp), if_neg (by simp),
    if_neg (by
      intro h
      have := hstrict.inj hj (by omega) h
      omega),
    if_neg (by rw [less_asymm hl]; simp), searchSynv_getElem hstrict, goIdx_lt (by omega)]
  rfl

/-- **C127** is false for the most likely mistake: a migration forward to the next minor version
is reported with the reason that the next version is not the next version (the messages are
swapped). -/
theorem C127_minor_upgrade {vs : List SV} (hs : StrictlyIncreasing vs)
    (h0 : vs.head? = some ⟨0, 0⟩) {ls : List (ImperativeLens V)} (hn : (ls.map pairOf).Nodup)
    (hm : ∀ l ∈ ls, l.mapper ≠ none) {rep : List (LensID × Reason)}
    (h : goLensReport vs ls = .ok rep) {i : Nat} (hi : i + 1 < vs.length)
    (hmaj : vs[i + 1].major = vs[i].major) {w : Reason}
    (he : ((⟨vs[i], vs[i + 1]⟩ : LensID), w) ∈ rep) :
    w = .successorIs vs[i + 1] vs[i] vs[i + 1] ∧ ¬ TrueReason vs ⟨vs[i], vs[i + 1]⟩ w ∧
      TrueReason vs ⟨vs[i], vs[i + 1]⟩ .minorAutomatic := by
  obtain ⟨hw, _⟩ := report_reason hs h0 hn hm h he
  rw [forward_reason hs (by omega) hi, if_neg (by simpa using hmaj)] at hw
  simp only [Res.ok.injEq] at hw
  subst hw
  exact ⟨rfl, fun ht => ht.2.2.2 rfl, hs i (i + 1) (by omega) hi, hmaj.symm⟩

/-- **C127** is false for migrations forward to another major version: all of them are reported
with the reason that minor upgrades are automatic. -/
theorem C127_major_jump {vs : List SV} (hs : StrictlyIncreasing vs)
    (h0 : vs.head? = some ⟨0, 0⟩) {ls : List (ImperativeLens V)} (hn : (ls.map pairOf).Nodup)
    (hm : ∀ l ∈ ls, l.mapper ≠ none) {rep : List (LensID × Reason)}
    (h : goLensReport vs ls = .ok rep) {id : LensID} {w : Reason} (he : (id, w) ∈ rep)
    (hf : id.frm ∈ vs) (ht : id.to ∈ vs) (hb : Before id.frm id.to)
    (hmaj : id.to.major ≠ id.frm.major) :
    w = .minorAutomatic ∧ ¬ TrueReason vs id w := by
  obtain ⟨hw, _⟩ := report_reason hs h0 hn hm h he
  obtain ⟨f, t⟩ := id
  simp only at hf ht hb hmaj
  obtain ⟨i, hi, rfl⟩ := List.getElem_of_mem hf
  obtain ⟨j, hj, rfl⟩ := List.getElem_of_mem ht
  have hij : i < j := by
    rcases Nat.lt_trichotomy i j with h1 | h1 | h1
    · exact h1
    · subst h1; exact absurd rfl hmaj
    · have h2 := less_asymm (less_iff_before.2 hb)
      rw [(strictV_iff.2 hs).get h1 hi] at h2; cases h2
  rw [forward_reason hs hij hj, if_pos hmaj] at hw
  simp only [Res.ok.injEq] at hw
  subst hw
  exact ⟨rfl, fun h => hmaj h.2.symm⟩

/-- The migrations between the versions `ids`, all identities. -/
def sfLenses (ids : List (SV × SV)) : List (ImperativeLens SetCue.Val) :=
  ids.map fun p => { frm := p.1, «to» := p.2, mapper := some fun i _ => .ok (some i) }

/-- 0.0, 0.1, 1.0 and 2.0. -/
def sfVersions : List SV := [⟨0, 0⟩, ⟨0, 1⟩, ⟨1, 0⟩, ⟨2, 0⟩]

/-- The required migrations, and one of each kind that is not. -/
def sfGiven : List (ImperativeLens SetCue.Val) :=
  sfLenses [(⟨0, 1⟩, ⟨0, 0⟩), (⟨1, 0⟩, ⟨0, 1⟩), (⟨0, 1⟩, ⟨1, 0⟩), (⟨2, 0⟩, ⟨1, 0⟩), (⟨1, 0⟩, ⟨2, 0⟩),
    (⟨0, 0⟩, ⟨0, 1⟩), (⟨0, 0⟩, ⟨2, 0⟩), (⟨2, 0⟩, ⟨0, 0⟩), (⟨1, 0⟩, ⟨1, 0⟩), (⟨1, 0⟩, ⟨3, 0⟩)]

example : StrictlyIncreasing sfVersions ∧ sfVersions.head? = some ⟨0, 0⟩ ∧
    (sfGiven.map pairOf).Nodup ∧ (∀ l ∈ sfGiven, l.mapper ≠ none) ∧
    goLensReport sfVersions sfGiven = .ok
      [(⟨⟨0, 0⟩, ⟨0, 1⟩⟩, .successorIs ⟨0, 1⟩ ⟨0, 0⟩ ⟨0, 1⟩), (⟨⟨0, 0⟩, ⟨2, 0⟩⟩, .minorAutomatic),
       (⟨⟨2, 0⟩, ⟨0, 0⟩⟩, .predecessorIs ⟨1, 0⟩ ⟨2, 0⟩ ⟨0, 0⟩), (⟨⟨1, 0⟩, ⟨1, 0⟩⟩, .selfMigration),
       (⟨⟨1, 0⟩, ⟨3, 0⟩⟩, .noSuchSchema ⟨3, 0⟩)] := by
  refine ⟨strictV_iff.1 (by unfold StrictV; decide), rfl, by decide, ?_, rfl⟩
  intro l hl
  simp only [sfGiven, sfLenses, List.map_cons, List.map_nil, List.mem_cons, List.not_mem_nil,
    or_false] at hl
  rcases hl with rfl | rfl | rfl | rfl | rfl | rfl | rfl | rfl | rfl | rfl <;> simp

/-! ### C128: PostprocessGoFile -/

variable {T R : Type}

/-- What the appliers make of the file. -/
def applied (cfg : GenGoFile T R) (f : GoFile R) : GoFile R :=
  cfg.appliers.foldl (fun f af => af f) f

/-- An applier that changes the import declarations and the list of imports alike. -/
def KeepsInStep (af : GoFile R → GoFile R) : Prop :=
  ∀ f, f.imports = f.decls → (af f).imports = (af f).decls

theorem applied_inStep {cfg : GenGoFile T R} (hk : ∀ af ∈ cfg.appliers, KeepsInStep af)
    {f : GoFile R} (hf : f.imports = f.decls) :
    (applied cfg f).imports = (applied cfg f).decls := by
  unfold applied
  revert hk
  generalize cfg.appliers = as
  intro hk
  induction as generalizing f with
  | nil => exact hf
  | cons a as ih =>
    exact ih (hk a (by simp) f hf) (fun af h => hk af (List.mem_cons_of_mem _ h))

theorem addedImports_nil {a b : List Str} : (addedImports a b).length = 0 ↔ ∀ p ∈ b, p ∈ a := by
  unfold addedImports
  rw [List.length_eq_zero_iff, List.filter_eq_nil_iff]
  simp

/-- **C128**, for appliers that keep the list of imports in step with the declarations.  If the
file can be parsed, printed and processed, post-processing succeeds exactly if goimports added no
import or discovered imports are to be ignored, and then the result is what goimports made of the
file.  (Missing: other appliers, see `C128_own_import_refused` and `C128_discovery_missed`.) -/
theorem C128_discovered_partial {G : GoTools T R} {cfg : GenGoFile T R} {f : GoFile R} {buf byt : T}
    (hparse : ∀ t f, G.parse t = some f → f.imports = f.decls)
    (hk : ∀ af ∈ cfg.appliers, KeepsInStep af) (h1 : G.parse cfg.input = some f)
    (h2 : G.print (applied cfg f) = some buf) (h3 : G.process buf = some byt) :
    (postprocess G cfg = .ok byt ∧
      (cfg.ignoreDiscovered = true ∨ ∀ p ∈ G.importsOf byt, p ∈ (applied cfg f).decls)) ∨
    ((∃ e, postprocess G cfg = .err e) ∧ cfg.ignoreDiscovered = false ∧
      ∃ p ∈ G.importsOf byt, p ∉ (applied cfg f).decls) := by
  have hs := applied_inStep hk (hparse _ _ h1)
  have hp : postprocess G cfg =
      if cfg.ignoreDiscovered then .ok byt
      else if (addedImports (applied cfg f).imports (G.importsOf byt)).length ≠ 0 then .err ⟨[]⟩
      else .ok byt := by
    unfold postprocess
    rw [h1]
    simp only
    rw [show cfg.appliers.foldl (fun f af => af f) f = applied cfg f from rfl, h2]
    simp only
    rw [h3]
  rw [hp]
  by_cases hi : cfg.ignoreDiscovered = true
  · exact .inl ⟨by rw [if_pos hi], .inl hi⟩
  · rw [if_neg hi]
    by_cases ha : (addedImports (applied cfg f).imports (G.importsOf byt)).length = 0
    · rw [if_neg (by simpa using ha)]
      exact .inl ⟨rfl, .inr (by rw [← hs]; exact addedImports_nil.1 ha)⟩
    · rw [if_pos ha]
      refine .inr ⟨⟨_, rfl⟩, by simpa using hi, ?_⟩
      rw [addedImports_nil, hs] at ha
      simpa using ha

/-- **C128**.  A file that cannot be parsed, printed or processed is an error. -/
theorem C128_failures {G : GoTools T R} {cfg : GenGoFile T R}
    (h : G.parse cfg.input = none ∨ ∃ f, G.parse cfg.input = some f ∧
      (G.print (applied cfg f) = none ∨ ∃ buf, G.print (applied cfg f) = some buf ∧
        G.process buf = none)) : ∃ e, postprocess G cfg = .err e := by
  unfold postprocess
  rcases h with h | ⟨f, h, h' | ⟨buf, h', h''⟩⟩
  · rw [h]; exact ⟨_, rfl⟩
  · unfold applied at h'
    rw [h]; simp only; rw [h']; exact ⟨_, rfl⟩
  · unfold applied at h'
    rw [h]; simp only; rw [h']; simp only; rw [h'']; exact ⟨_, rfl⟩

/-- **C128** is false for appliers that add an import declaration, as the error message advises
to do: the import counts as added by goimports, and generation fails though goimports added
nothing. -/
theorem C128_own_import_refused {G : GoTools T R} {cfg : GenGoFile T R} {f : GoFile R} {p : Str}
    {buf byt : T} (h1 : G.parse cfg.input = some f)
    (hadd : (applied cfg f).imports = f.imports ∧ p ∈ (applied cfg f).decls ∧ p ∉ f.imports)
    (h2 : G.print (applied cfg f) = some buf) (h3 : G.process buf = some byt)
    (hkept : p ∈ G.importsOf byt) (hi : cfg.ignoreDiscovered = false) :
    ∃ e, postprocess G cfg = .err e := by
  unfold postprocess
  unfold applied at hadd h2
  rw [h1]; simp only; rw [h2]; simp only; rw [h3]
  simp only
  rw [hi, hadd.1]
  rw [if_neg (by simp), if_pos]
  · exact ⟨_, rfl⟩
  · intro h0
    exact hadd.2.2 (addedImports_nil.1 h0 p hkept)

/-- **C128** is false for appliers that remove an import declaration: if goimports adds it again
(and nothing else), generation succeeds. -/
theorem C128_discovery_missed {G : GoTools T R} {cfg : GenGoFile T R} {f : GoFile R} {p : Str}
    {buf byt : T} (h1 : G.parse cfg.input = some f)
    (hdel : (applied cfg f).imports = f.imports ∧ p ∈ f.imports ∧ p ∉ (applied cfg f).decls)
    (h2 : G.print (applied cfg f) = some buf) (h3 : G.process buf = some byt)
    (hback : p ∈ G.importsOf byt) (hrest : ∀ q ∈ G.importsOf byt, q ∈ f.imports) :
    postprocess G cfg = .ok byt ∧ p ∈ G.importsOf byt ∧ p ∉ (applied cfg f).decls := by
  refine ⟨?_, hback, hdel.2.2⟩
  unfold postprocess
  have hd := hdel.1
  unfold applied at hd h2
  rw [h1]; simp only; rw [h2]; simp only; rw [h3]
  simp only
  split
  · rfl
  · rw [hd, if_neg]
    rw [ne_eq, not_not]
    exact addedImports_nil.2 hrest

/-- Texts are the imports that are declared and those that are used; goimports declares exactly
what is used. -/
def sfTools : GoTools (List Str × List Str) (List Str) where
  parse t := some ⟨t.1, t.1, t.2⟩
  print f := some (f.decls, f.rest)
  process t := some (t.2, t.2)
  importsOf t := t.1

/-- A file that uses what it imports; the applier adds a use and its import declaration. -/
def sfAdding : GenGoFile (List Str × List Str) (List Str) :=
  { appliers := [fun f => { f with decls := "errors".toList :: f.decls,
                                   rest := "errors".toList :: f.rest }],
    input := (["time".toList], ["time".toList]), ignoreDiscovered := false }

/-- The applier removes an import declaration that is needed. -/
def sfRemoving : GenGoFile (List Str × List Str) (List Str) :=
  { appliers := [fun f => { f with decls := [] }], input := (["time".toList], ["time".toList]),
    ignoreDiscovered := false }

/-- No appliers, an import that is missing. -/
def sfMissing : GenGoFile (List Str × List Str) (List Str) :=
  { appliers := [], input := ([], ["time".toList]), ignoreDiscovered := false }

/-- **C128** is false: goimports adds nothing to the first file and one import to the second, but
the first is refused and the second is not. -/
theorem C128_refuted : (∃ e, postprocess sfTools sfAdding = .err e) ∧
    postprocess sfTools sfRemoving = .ok (["time".toList], ["time".toList]) ∧
    (∃ e, postprocess sfTools sfMissing = .err e) := ⟨⟨_, rfl⟩, rfl, ⟨_, rfl⟩⟩

example : (∀ t f, sfTools.parse t = some f → f.imports = f.decls) ∧
    (∀ af ∈ sfMissing.appliers, KeepsInStep af) ∧
    sfTools.parse sfMissing.input = some ⟨[], [], ["time".toList]⟩ :=
  ⟨fun t f h => by
    simp only [sfTools, Option.some.injEq] at h
    subst h; rfl, fun af h => (by cases h), rfl⟩

example : (applied sfAdding ⟨["time".toList], ["time".toList], ["time".toList]⟩).imports =
      ["time".toList] ∧
    "errors".toList ∈ (applied sfAdding ⟨["time".toList], ["time".toList], ["time".toList]⟩).decls ∧
    "errors".toList ∉ (["time".toList] : List Str) := ⟨rfl, by decide, by decide⟩

/-! ### The theorems on concrete cases -/

example := C125_all_examples sfLabels_laws (H := fun _ => sfExamples) (s := ⟨0, 0⟩) rfl (by decide)

example := C125_name_partial sfLabels_laws (H := fun _ => sfExamples) (s := ⟨0, 0⟩) rfl (by decide)
  (e := ("simple".toList, [1])) (by decide) (by decide)

example : (examples sfLabels (fun _ => sfExamples) ⟨0, 0⟩).lookup "two words".toList = none :=
  C125_quoted_name sfLabels_laws (by decide) fun t h => by
    have : some 't' = some '"' := congrArg List.head? h
    simp at this

example := C126_agrees_with_go setCue_pathsOk (C := SetCue.cue) (force := false) (opts := [])
  (r := threeVersions) (L := threeBound) rfl (by decide) (fun _ => threeBound) (lin := 0) rfl [1]
  (n := 3) (by decide) (by decide)

example : ∃ v x, searchAndValidate SetCue.cue threeBound [1] = some (v, x) ∧
    ∃ s ∈ threeBound.allsch, s.v = v ∧ x = s.body := by
  obtain ⟨⟨v, x⟩, h⟩ : ∃ r, searchAndValidate SetCue.cue threeBound [1] = some r := ⟨_, rfl⟩
  exact ⟨v, x, h, C126_data_lost _ _ _ h⟩

theorem sfGiven_hyps : StrictlyIncreasing sfVersions ∧ (sfGiven.map pairOf).Nodup ∧
    (∀ l ∈ sfGiven, l.mapper ≠ none) := by
  refine ⟨strictV_iff.1 (by unfold StrictV; decide), by decide, ?_⟩
  intro l hl
  simp only [sfGiven, sfLenses, List.map_cons, List.map_nil, List.mem_cons, List.not_mem_nil,
    or_false] at hl
  rcases hl with rfl | rfl | rfl | rfl | rfl | rfl | rfl | rfl | rfl | rfl <;> simp

example : TrueReason sfVersions ⟨⟨1, 0⟩, ⟨3, 0⟩⟩ (.noSuchSchema ⟨3, 0⟩) :=
  C127_reason_partial sfGiven_hyps.1 rfl sfGiven_hyps.2.1 sfGiven_hyps.2.2 rfl (by decide)
    (fun h => absurd h.2.1 (by decide))

example : ¬ TrueReason sfVersions ⟨⟨0, 0⟩, ⟨0, 1⟩⟩ (.successorIs ⟨0, 1⟩ ⟨0, 0⟩ ⟨0, 1⟩) :=
  (C127_minor_upgrade sfGiven_hyps.1 rfl sfGiven_hyps.2.1 sfGiven_hyps.2.2 rfl (i := 0) (by decide)
    rfl (by decide)).2.1

example : ¬ TrueReason sfVersions ⟨⟨0, 0⟩, ⟨2, 0⟩⟩ .minorAutomatic :=
  (C127_major_jump sfGiven_hyps.1 rfl sfGiven_hyps.2.1 sfGiven_hyps.2.2 rfl (by decide) (by decide)
    (by decide) (before_iff.2 (.inl (by decide))) (by decide)).2

theorem sfTools_parse (t : List Str × List Str) (f : GoFile (List Str))
    (h : sfTools.parse t = some f) : f.imports = f.decls := by
  simp only [sfTools, Option.some.injEq] at h
  subst h; rfl

example : ∃ e, postprocess sfTools sfMissing = .err e := by
  rcases C128_discovered_partial (G := sfTools) (cfg := sfMissing) sfTools_parse
    (fun af h => (by cases h)) rfl rfl rfl with ⟨_, h | h⟩ | ⟨h, _⟩
  · cases h
  · exact absurd (h "time".toList (by decide)) (by decide)
  · exact h

example : ∃ e, postprocess { sfTools with process := fun _ => none } sfMissing = .err e :=
  C128_failures (.inr ⟨_, rfl, .inr ⟨_, rfl, rfl⟩⟩)

example : ∃ e, postprocess sfTools sfAdding = .err e :=
  C128_own_import_refused (p := "errors".toList) rfl ⟨rfl, by decide, by decide⟩ rfl rfl
    (by decide) rfl

example : ∃ byt, postprocess sfTools sfRemoving = .ok byt ∧ "time".toList ∈ sfTools.importsOf byt :=
  have h := C128_discovery_missed (G := sfTools) (cfg := sfRemoving) (p := "time".toList) rfl
    ⟨rfl, by decide, by decide⟩ rfl rfl (by decide) (by decide)
  ⟨_, h.1, h.2.1⟩

end Thema.Props

import Verif.Lemmas.Lit
import Verif.Props.OApi
import Verif.Props.Split
import Verif.Props.Validate
import Verif.Spec.SubpathText

/-!
# Errors about subpaths (C210)
-/

namespace Thema.Props

open OApi Path Spec

variable {V α : Type} [DecidableEq V] {C : OCue V} {W : Written V α} {s : Sch V} {cfg : Config V}

/-! ### Which selector -/

omit [DecidableEq V] in
private theorem absentFrom_some (v : V) (p : P) : ∀ (i k : Nat),
    absentFrom C v i p = some k ↔ ∃ j, k = i + j ∧ FirstAbsent C v p j := by
  induction p with
  | nil =>
    intro i k
    simp [absentFrom, FirstAbsent]
  | cons x xs ih =>
    intro i k
    rw [absentFrom]
    cases hx : C.allows v x with
    | false =>
      simp only [Bool.not_false, if_true, Option.some.injEq]
      constructor
      · rintro rfl
        exact ⟨0, rfl, ⟨x, rfl, hx⟩, fun j _ h => absurd h (Nat.not_lt_zero j)⟩
      · rintro ⟨j, rfl, _, h2⟩
        cases j with
        | zero => rfl
        | succ j =>
          have := h2 0 x (Nat.succ_pos j) rfl
          rw [hx] at this
          cases this
    | true =>
      simp only [Bool.not_true, Bool.false_eq_true, if_false]
      rw [ih]
      constructor
      · rintro ⟨j, rfl, ⟨y, h1, h2⟩, h3⟩
        refine ⟨j + 1, by omega, ⟨y, by simpa using h1, h2⟩, ?_⟩
        intro l z hl hz
        cases l with
        | zero => simp at hz; rw [← hz]; exact hx
        | succ l => exact h3 l z (by omega) (by simpa using hz)
      · rintro ⟨j, rfl, ⟨y, h1, h2⟩, h3⟩
        cases j with
        | zero =>
          simp at h1
          rw [← h1, hx] at h2
          cases h2
        | succ j =>
          exact ⟨j, by omega, ⟨y, by simpa using h1, h2⟩,
            fun l z hl hz => h3 (l + 1) z (by omega) (by simpa using hz)⟩

omit [DecidableEq V] in
private theorem absent_iff (v : V) (p : P) (k : Nat) :
    absentFrom C v 0 p = some k ↔ FirstAbsent C v p k := by
  rw [absentFrom_some]
  constructor
  · rintro ⟨j, rfl, h⟩
    rwa [Nat.zero_add]
  · intro h
    exact ⟨k, (Nat.zero_add k).symm, h⟩

omit [DecidableEq V] in
private theorem absentFrom_none (v : V) (p : P) : ∀ (i : Nat),
    absentFrom C v i p = none ↔ AllFields C v p := by
  induction p with
  | nil => intro i; simp [absentFrom, AllFields]
  | cons x xs ih =>
    intro i
    rw [absentFrom]
    cases hx : C.allows v x with
    | false => simp [AllFields, hx]
    | true => simp [AllFields, hx, ih, AllFields]

omit [DecidableEq V] in
private theorem says_iff (val : V) (rep : Report FilePos) :
    genSchemaSays C W s cfg val = some rep ↔
      (∃ i, FirstAbsent C val cfg.subpath i ∧
        rep = ⟨firstNonThemaPos W val, absentText W cfg.subpath i⟩) ∨
      (AllFields C val cfg.subpath ∧ ∃ i, FirstAbsent C s.join cfg.subpath i ∧
        rep = ⟨W.pos (W.expr s.join), absentText W cfg.subpath i⟩) := by
  unfold genSchemaSays pathAllowed
  split
  · cases h1 : absentFrom C val 0 cfg.subpath with
    | some i =>
      have h2 := (absent_iff _ _ _).1 h1
      have h3 : ∀ j, FirstAbsent C val cfg.subpath j → j = i := fun j h => by
        have := (absent_iff _ _ _).2 h
        rw [h1] at this
        cases this
        rfl
      have h4 : ¬ AllFields C val cfg.subpath := fun h => by
        have := (absentFrom_none val cfg.subpath 0).2 h
        rw [h1] at this
        cases this
      simp only [Option.some.injEq]
      constructor
      · rintro rfl
        exact .inl ⟨i, h2, rfl⟩
      · rintro (⟨j, h, rfl⟩ | ⟨h, _⟩)
        · rw [h3 j h]
        · exact absurd h h4
    | none =>
      have h2 := (absentFrom_none _ _ _).1 h1
      have h3 : ∀ j, ¬ FirstAbsent C val cfg.subpath j := fun j h => by
        have := (absent_iff _ _ _).2 h
        rw [h1] at this
        cases this
      cases h5 : absentFrom C s.join 0 cfg.subpath with
      | some i =>
        have h6 := (absent_iff _ _ _).1 h5
        simp only [Option.some.injEq]
        constructor
        · rintro rfl
          exact .inr ⟨h2, i, h6, rfl⟩
        · rintro (⟨j, h, _⟩ | ⟨_, j, h, rfl⟩)
          · exact absurd h (h3 j)
          · have := (absent_iff _ _ _).2 h
            rw [h5] at this
            cases this
            rfl
      | none =>
        simp only [reduceCtorEq, false_iff]
        rintro (⟨j, h, _⟩ | ⟨_, j, h, _⟩)
        · exact h3 j h
        · have := (absent_iff _ _ _).2 h
          rw [h5] at this
          cases this
  · rename_i hl
    have : cfg.subpath = [] := List.length_eq_zero_iff.1 (by omega)
    simp [this, FirstAbsent]

omit [DecidableEq V] in
private theorem says_none {val : V} (h : genSchemaSays C W s cfg val = none) :
    AllFields C val cfg.subpath ∧ AllFields C s.join cfg.subpath := by
  unfold genSchemaSays pathAllowed at h
  split at h
  · cases h1 : absentFrom C val 0 cfg.subpath with
    | some i => simp [h1] at h
    | none =>
      cases h2 : absentFrom C s.join 0 cfg.subpath with
      | some i => simp [h1, h2] at h
      | none => exact ⟨(absentFrom_none _ _ _).1 h1, (absentFrom_none _ _ _).1 h2⟩
  · rename_i hl
    have : cfg.subpath = [] := List.length_eq_zero_iff.1 (by omega)
    simp [this, AllFields]

omit [DecidableEq V] in
private theorem atSubpath_says (val : V) :
    (∀ rep, genSchemaSays C W s cfg val = some rep → atSubpath C s cfg val = .err notPresent) ∧
    (genSchemaSays C W s cfg val = none → ∃ v, atSubpath C s cfg val = .ok v) := by
  have key : ∀ v : V, (∃ i, FirstAbsent C v cfg.subpath i) →
      cfg.subpath ≠ [] ∧ (cfg.subpath.any fun sel => !C.allows v sel) = true := by
    rintro v ⟨i, ⟨x, h1, h2⟩, _⟩
    refine ⟨fun h => by simp [h] at h1, ?_⟩
    rw [List.any_eq_true]
    exact ⟨x, List.mem_of_getElem? h1, by simp [h2]⟩
  have all : ∀ v : V, AllFields C v cfg.subpath →
      ¬ (cfg.subpath.any fun sel => !C.allows v sel) = true := by
    intro v h h1
    rw [List.any_eq_true] at h1
    obtain ⟨x, h2, h3⟩ := h1
    simp [h x h2] at h3
  constructor
  · intro rep h
    unfold atSubpath
    rcases (says_iff val rep).1 h with ⟨i, h1, _⟩ | ⟨h0, i, h1, _⟩
    · obtain ⟨h2, h3⟩ := key _ ⟨i, h1⟩
      rw [if_neg h2, if_pos h3]
    · obtain ⟨h2, h3⟩ := key _ ⟨i, h1⟩
      rw [if_neg h2, if_neg (all _ h0), if_pos h3]
  · intro h
    obtain ⟨h1, h2⟩ := says_none h
    unfold atSubpath
    by_cases h3 : cfg.subpath = []
    · exact ⟨_, if_pos h3⟩
    · exact ⟨_, by rw [if_neg h3, if_neg (all _ h1), if_neg (all _ h2)]⟩

private theorem genSchema_subpath {onf : Option (NameFunc V)} {v : V} {ds : List (Str × V)}
    {cfg' : Config V} (h : genSchema C s onf cfg v = (.ok ds, cfg')) : cfg'.subpath = cfg.subpath := by
  unfold genSchema at h
  split at h
  · simp only [Prod.mk.injEq] at h
    rw [← h.2]
  all_goals simp at h

/-- With two values, the second is never the one reported. -/
private theorem generateSays_eq (hg : cfg.group = false) :
    generateSays C W s cfg = genSchemaSays C W s cfg (lookedIn s cfg) := by
  unfold generateSays lookedIn
  rw [hg]
  simp only [Bool.false_eq_true, if_false]
  cases hs : cfg.splitSchema with
  | false =>
    simp only [Bool.false_eq_true, if_false, genSingleSays]
    cases h : genSchemaSays C W s cfg s.schdef with
    | some r => rfl
    | none => cases genSchema C s cfg.nameFunc cfg s.schdef with
      | mk r c => cases r <;> rfl
  | true =>
    simp only [if_true, genSingleSays]
    cases h : genSchemaSays C W s cfg s.schraw with
    | some r => rfl
    | none =>
      obtain ⟨_, h2⟩ := says_none h
      cases h1 : genSchema C s cfg.nameFunc cfg s.schraw with
      | mk r c =>
        cases r with
        | ok ds =>
          have hc := genSchema_subpath h1
          have h3 : genSchemaSays C W s c s.join = none := by
            cases h4 : genSchemaSays C W s c s.join with
            | none => rfl
            | some rep =>
              rw [← hc] at h2
              have bad : ∀ i, ¬ FirstAbsent C s.join c.subpath i := by
                rintro i ⟨⟨x, h5, h6⟩, _⟩
                rw [h2 x (List.mem_of_getElem? h5)] at h6
                cases h6
              rcases (says_iff _ _).1 h4 with ⟨i, h5, _⟩ | ⟨_, i, h5, _⟩
              · exact absurd h5 (bad i)
              · exact absurd h5 (bad i)
          simp only [h3]
          cases genSchema C s cfg.nameFunc c s.join with
          | mk r c => cases r <;> rfl
        | err e => rfl
        | panic k => rfl
        | fuel => rfl

/-- **C210**.  When `GenerateSchema` reports a subpath, and what it says: the first selector that is not
a field of the schema, with the first position outside Thema, or else the first that is not a field of
the joinSchema, with the position of that. -/
theorem C210_report_iff (rep : Report FilePos) :
    generateSays C W s cfg = some rep ↔ cfg.group = false ∧
      ((∃ i, FirstAbsent C (lookedIn s cfg) cfg.subpath i ∧
        rep = ⟨firstNonThemaPos W (lookedIn s cfg), absentText W cfg.subpath i⟩) ∨
      (AllFields C (lookedIn s cfg) cfg.subpath ∧ ∃ i, FirstAbsent C s.join cfg.subpath i ∧
        rep = ⟨W.pos (W.expr s.join), absentText W cfg.subpath i⟩)) := by
  cases hg : cfg.group with
  | true => simp [generateSays, hg]
  | false => rw [generateSays_eq hg, says_iff]; simp

private theorem genSingle_err {onf : Option (NameFunc V)} (vs : List V) : ∀ (cfg cfg' : Config V)
    (e : GoErr), genSingle C s onf cfg vs = (.err e, cfg') →
      genSingleSays C W s onf cfg vs = none → ∃ v, C.genErr v = some e := by
  induction vs with
  | nil => intro cfg cfg' e h; simp [genSingle] at h
  | cons v vs ih =>
    intro cfg cfg' e h h1
    rw [genSingle] at h
    rw [genSingleSays] at h1
    cases h2 : genSchemaSays C W s cfg v with
    | some r => simp [h2] at h1
    | none =>
      rw [h2] at h1
      simp only at h1
      obtain ⟨w, h3⟩ := (atSubpath_says v).2 h2
      cases h4 : genSchema C s onf cfg v with
      | mk r c =>
        rw [h4] at h h1
        cases r with
        | ok ds =>
          simp only at h h1
          cases h5 : genSingle C s onf c vs with
          | mk r2 c2 =>
            rw [h5] at h
            cases r2 with
            | ok es => simp at h
            | err e' =>
              simp only [Prod.mk.injEq, Res.err.injEq] at h
              rw [h.1] at h5
              exact ih _ _ _ h5 h1
            | panic k => simp at h
            | fuel => simp at h
        | err e' =>
          simp only [Prod.mk.injEq, Res.err.injEq] at h
          unfold genSchema at h4
          rw [h3] at h4
          simp only [generate, Prod.mk.injEq] at h4
          split at h4
          · rename_i he
            refine ⟨_, he.trans ?_⟩
            have := h4.1
            simp only [Res.err.injEq] at this
            rw [this, h.1]
          · simp at h4
        | panic k => simp at h
        | fuel => simp at h

/-- **C210**.  If there is such a report, then `GenerateSchema` returns this error and leaves the
configuration as it is; any other error, without `Group`, is one of CUE's encoder. -/
theorem C210_agrees :
    (∀ rep, generateSays C W s cfg = some rep →
      generateSchema C s cfg = (.err notPresent, cfg)) ∧
    (∀ e cfg', generateSays C W s cfg = none → cfg.group = false →
      generateSchema C s cfg = (.err e, cfg') → ∃ v, C.genErr v = some e) := by
  constructor
  · intro rep h
    have hg := ((C210_report_iff rep).1 h).1
    rw [generateSays_eq hg] at h
    have h1 := (atSubpath_says _).1 _ h
    unfold generateSchema
    simp only [hg, Bool.false_eq_true, if_false]
    unfold lookedIn at h1
    split at h1 <;> rename_i hs <;> simp [hs, genSingle, genSchema, h1]
  · intro e cfg' h hg h1
    unfold generateSays at h
    rw [hg] at h
    simp only [Bool.false_eq_true, if_false] at h
    unfold generateSchema at h1
    simp only [hg, Bool.false_eq_true, if_false] at h1
    split at h1
    · simp at h1
    · rename_i e' c' h2
      simp only [Prod.mk.injEq, Res.err.injEq] at h1
      rw [h1.1] at h2
      exact genSingle_err _ _ _ _ h2 h
    · simp at h1
    · simp at h1

/-! ### The text -/

omit [DecidableEq V] in
/-- **C210**.  The text has a Go string literal that denotes the path up to the selector that is
reported, whatever characters there are in it. -/
theorem C210_text (hp : ∀ c, Lit.illegal c = true → W.isPrint c = false) (p : P) (i : Nat) :
    ∃ q, absentText W p i = "subpath ".toList ++ q ++ " not present in schema".toList ∧
      Lit.unquote Lit.goEsc q = some (pathStr (p.take (i + 1))) :=
  ⟨_, rfl, Lit.unquote_goQuote hp _⟩

omit [DecidableEq V] in
/-- **C210**.  Equal texts name equal paths. -/
theorem C210_text_tells (hp : ∀ c, Lit.illegal c = true → W.isPrint c = false) {p p' : P} {i i' : Nat}
    (h : absentText W p i = absentText W p' i') :
    pathStr (p.take (i + 1)) = pathStr (p'.take (i' + 1)) := by
  unfold absentText at h
  rw [List.append_cancel_right_eq, List.append_cancel_left_eq] at h
  have h1 := Lit.unquote_goQuote hp (pathStr (p.take (i + 1)))
  rw [h, Lit.unquote_goQuote hp] at h1
  exact (Option.some.inj h1).symm

omit [DecidableEq V] in
/-- **C210** (partial).  The path that is named is not in the schema if it has one selector.  Missing:
longer paths (`C210_named_present`). -/
theorem C210_named_partial {v : V} {p : P} (h : FirstAbsent C v p 0) :
    ¬ PathPresent C v (p.take 1) := by
  obtain ⟨⟨x, h1, h2⟩, _⟩ := h
  cases p with
  | nil => simp at h1
  | cons y ys =>
    simp at h1
    rw [List.take_succ_cons, List.take_zero, PathPresent, h1, h2]
    exact fun h => Bool.noConfusion h.1

/-- **C210** (refutation).  A path of two selectors that is in the schema is named as not present, if
there is no field of the second name beside the first. -/
theorem C210_named_present (hg : cfg.group = false) {a b : Sel} (hp : cfg.subpath = [a, b])
    (h1 : PathPresent C (lookedIn s cfg) [a, b]) (h2 : C.allows (lookedIn s cfg) b = false) :
    ∃ rep, generateSays C W s cfg = some rep ∧
      rep.text = "subpath ".toList ++ Lit.goQuote W.isPrint (pathStr [a, b]) ++
        " not present in schema".toList := by
  refine ⟨_, (C210_report_iff _).2 ⟨hg, .inl ⟨1, ?_, rfl⟩⟩, ?_⟩
  · rw [hp]
    refine ⟨⟨b, rfl, h2⟩, ?_⟩
    intro j x hj hx
    have : j = 0 := by omega
    subst this
    simp at hx
    rw [← hx]
    exact h1.1
  · unfold absentText
    rw [hp]
    rfl

/-! ### The position -/

omit [DecidableEq V] in
private theorem mem_poslist (v : V) (p : FilePos) :
    p ∈ poslistWithoutThema W v ↔ ∃ d ∈ appendSplit W.same .and (W.expr v), W.pos d = some p ∧
      ¬ Contains p.file themaModule := by
  unfold poslistWithoutThema
  rw [List.mem_filterMap]
  constructor
  · rintro ⟨d, h1, h2⟩
    refine ⟨d, h1, ?_⟩
    split at h2
    · cases h2
    · rename_i q hq
      split at h2
      · cases h2
      · rename_i hc
        cases h2
        exact ⟨hq, fun h => hc (containsStr_iff.2 h)⟩
  · rintro ⟨d, h1, h2, h3⟩
    refine ⟨d, h1, ?_⟩
    rw [h2]
    exact if_neg fun h => h3 (containsStr_iff.1 h)

omit [DecidableEq V] in
/-- **C210** (partial).  A position that is given for the schema is that of one of its conjuncts, and
no conjunct before it in the order of `AppendSplit` has one that could be given; it is not in a file
of Thema.  If no conjunct repeats another then there is a position as soon as one of the conjuncts is
written in a file whose name does not have `github.com/grafana/thema` in it.  Missing: files of
other modules whose names have it (`C210_nowhere`). -/
theorem C210_where_partial (v : V) :
    (∀ p, firstNonThemaPos W v = some p →
      ¬ ThemaFile p.file ∧
      ∃ before d after, appendSplit W.same .and (W.expr v) = before ++ d :: after ∧
        W.pos d = some p ∧
        ∀ d' ∈ before, ∀ p', W.pos d' = some p' → Contains p'.file themaModule) ∧
    (NoRepeats W.same (W.expr v) → ∀ d p, d ∈ leaves .and (W.expr v) → W.pos d = some p →
      ¬ Contains p.file themaModule → ∃ p', firstNonThemaPos W v = some p') := by
  constructor
  · intro p h
    unfold firstNonThemaPos at h
    split at h
    · cases h
    · rename_i q rest hl
      cases h
      have hm : p ∈ poslistWithoutThema W v := by rw [hl]; exact List.mem_cons_self ..
      obtain ⟨_, _, _, hc⟩ := (mem_poslist v p).1 hm
      refine ⟨?_, ?_⟩
      · rintro ⟨pre, post, h1, _⟩
        refine hc ⟨pre, '/' :: post, ?_⟩
        rw [h1]
        have : "github.com/grafana/thema/".toList = themaModule ++ ['/'] := rfl
        rw [this]
        simp
      · unfold poslistWithoutThema at hl
        rw [List.filterMap_eq_cons_iff] at hl
        obtain ⟨before, d, after, h1, h2, h3, _⟩ := hl
        refine ⟨before, d, after, h1, ?_, ?_⟩
        · split at h3
          · cases h3
          · rename_i q hq
            split at h3
            · cases h3
            · cases h3; exact hq
        · intro d' hd' p' hp'
          have h4 := h2 d' hd'
          rw [hp'] at h4
          simp only at h4
          split at h4
          · rename_i h5; exact containsStr_iff.1 h5
          · cases h4
  · intro hn d p hd hp hc
    rw [← C52_no_repeats_nothing_dropped _ hn] at hd
    have hm := (mem_poslist v p).2 ⟨d, hd, hp, hc⟩
    unfold firstNonThemaPos
    split
    · rename_i h; rw [h] at hm; cases hm
    · exact ⟨_, rfl⟩

omit [DecidableEq V] in
/-- **C210** (refutation).  If all conjuncts are written in files whose names have
`github.com/grafana/thema` in them, as those of a module `github.com/grafana/thema-kinds`, then no
position is given. -/
theorem C210_nowhere {v : V} (h : ∀ d ∈ leaves .and (W.expr v), ∀ p, W.pos d = some p →
      Contains p.file themaModule) (hn : NoRepeats W.same (W.expr v)) :
    firstNonThemaPos W v = none := by
  rw [← C52_no_repeats_nothing_dropped _ hn] at h
  cases h1 : firstNonThemaPos W v with
  | none => rfl
  | some p =>
    unfold firstNonThemaPos at h1
    split at h1
    · cases h1
    · rename_i q rest hl
      cases h1
      have hm : p ∈ poslistWithoutThema W v := by rw [hl]; exact List.mem_cons_self ..
      obtain ⟨d, h2, h3, h4⟩ := (mem_poslist v p).1 hm
      exact absurd (h d h2 p h3) h4

/-- **C210** (refutation).  A file of another module, that is taken for one of Thema. -/
theorem C210_other_module : ¬ ThemaFile "github.com/grafana/thema-kinds/ship.cue".toList ∧
    Contains "github.com/grafana/thema-kinds/ship.cue".toList themaModule := by
  constructor
  · rintro ⟨pre, post, h, _⟩
    have h1 := containsStr_iff.2 (⟨pre, post, h⟩ : Contains _ "github.com/grafana/thema/".toList)
    exact absurd h1 (by decide)
  · exact ⟨[], "-kinds/ship.cue".toList, rfl⟩

/-! ### Examples -/

/-- The schema is a unification of something in a file of Thema (the atom 0) with what is in a file of
the user (the atom 1). -/
def shipWritten (file : Str) : Written Paths Nat where
  expr _ := .node .and 2 [.atom 0, .atom 1]
  same
    | .atom a, .atom b => a == b
    | _, _ => false
  pos
    | .atom 0 => some ⟨"cue.mod/pkg/github.com/grafana/thema/lineage.cue".toList, 7⟩
    | .atom 1 => some ⟨file, 12⟩
    | _ => none
  isPrint c := c.toNat ≥ 32

private theorem shipWritten_conjuncts (f : Str) (v : Paths) :
    leaves .and ((shipWritten f).expr v) = [.atom 0, .atom 1] ∧
      NoRepeats (shipWritten f).same ((shipWritten f).expr v) :=
  ⟨by simp [shipWritten, leaves], by simp [shipWritten, NoRepeats]⟩

/-- A field that is not there: what is absent is named, with the place in the user's file. -/
example : generateSays pathsCue (shipWritten "ship.cue".toList) shipSch { subpath := [fld "keel"] } =
    some ⟨some ⟨"ship.cue".toList, 12⟩, "subpath \"keel\" not present in schema".toList⟩ := by
  rw [C210_report_iff]
  refine ⟨rfl, .inl ⟨0, ⟨⟨fld "keel", rfl, by decide⟩, fun j _ h => absurd h (Nat.not_lt_zero j)⟩, ?_⟩⟩
  have h : poslistWithoutThema (shipWritten "ship.cue".toList) (lookedIn shipSch
      { subpath := [fld "keel"] }) = [⟨"ship.cue".toList, 12⟩] := by
    unfold poslistWithoutThema
    rw [C52_no_repeats_nothing_dropped _ (shipWritten_conjuncts _ _).2, (shipWritten_conjuncts _ _).1]
    decide
  rw [firstNonThemaPos, h]
  decide

/-- The same in the module `github.com/grafana/thema-kinds`: no place. -/
example : firstNonThemaPos (shipWritten "github.com/grafana/thema-kinds/ship.cue".toList)
    shipSch.schdef = none := by
  refine C210_nowhere ?_ ?_
  · rw [(shipWritten_conjuncts _ _).1]
    intro d hd p hp
    simp only [List.mem_cons, List.not_mem_nil, or_false] at hd
    rcases hd with rfl | rfl
    · cases hp
      exact ⟨"cue.mod/pkg/".toList, "/lineage.cue".toList, rfl⟩
    · cases hp
      exact C210_other_module.2
  · exact (shipWritten_conjuncts _ _).2

/-- `hull.mast` is there, and said not to be. -/
example : ∃ rep, generateSays pathsCue (shipWritten "ship.cue".toList) shipSch
      { subpath := [fld "hull", fld "mast"] } = some rep ∧
    rep.text = "subpath \"hull.mast\" not present in schema".toList := by
  obtain ⟨rep, h1, h2⟩ := C210_named_present (C := pathsCue) (W := shipWritten "ship.cue".toList)
    (s := shipSch) (cfg := { subpath := [fld "hull", fld "mast"] }) rfl (a := fld "hull")
    (b := fld "mast") rfl ⟨by decide, by decide, trivial⟩ (by decide)
  exact ⟨rep, h1, h2.trans (by decide)⟩

/-- The hypothesis on `IsPrint` of `C210_text`. -/
example : ∃ W : Written Paths Nat, ∀ c, Lit.illegal c = true → W.isPrint c = false :=
  ⟨{ shipWritten [] with isPrint := fun c => c.toNat ≥ 32 && c.toNat < 127 }, fun c h => by
    simp only [Lit.illegal, Bool.or_eq_true, beq_iff_eq] at h
    rcases h with (rfl | rfl) | rfl <;> decide⟩

end Thema.Props

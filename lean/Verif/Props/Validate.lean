import Verif.Lemmas.Validate
import Verif.Spec.Validate
import Verif.Props.Navigation

/-!
# Validation (C19 - C23)
-/

namespace Thema.Props

open Spec

variable {V : Type} {C : Cue V} {force : Bool} {r : RawLineage V} {opts : List (BindOption V)}
  {L : Lineage V}

/-! ### Strings -/

theorem containsStr_iff {s sub : Str} : containsStr s sub = true ↔ Contains s sub := by
  unfold Contains
  induction s with
  | nil =>
    simp only [containsStr, List.isPrefixOf_iff_prefix]
    constructor
    · rintro ⟨t, ht⟩; exact ⟨[], t, by simpa using ht.symm⟩
    · rintro ⟨pre, post, h⟩
      have : pre = [] ∧ sub = [] ∧ post = [] := by simpa using h.symm
      simp [this]
  | cons c cs ih =>
    simp only [containsStr, Bool.or_eq_true, List.isPrefixOf_iff_prefix, ih]
    constructor
    · rintro (⟨t, ht⟩ | ⟨pre, post, h⟩)
      · exact ⟨[], t, by simpa using ht.symm⟩
      · exact ⟨c :: pre, post, by simp [h]⟩
    · rintro ⟨pre, post, h⟩
      cases pre with
      | nil => exact .inl ⟨post, by simpa using h.symm⟩
      | cons x pre =>
        simp only [List.cons_append, List.cons.injEq] at h
        exact .inr ⟨pre, post, h.2⟩

theorem hasSuffix_iff {f : Str} : hasSuffix f ".cue".toList = true ↔ CueFile f := by
  unfold hasSuffix CueFile
  rw [List.isPrefixOf_iff_prefix, List.reverse_prefix]
  constructor
  · rintro ⟨t, ht⟩; exact ⟨t, ht.symm⟩
  · rintro ⟨t, ht⟩; exact ⟨t, ht.symm⟩

/-! ### C23: positions -/

theorem splitTokensLoop_eq (ps : List Str) : ∀ acc, splitTokensLoop ps acc =
    (acc.1 ++ ps.filter (fun p => hasSuffix p ".cue".toList),
     acc.2 ++ ps.filter (fun p => !(hasSuffix p ".cue".toList))) := by
  induction ps with
  | nil => rintro ⟨a, b⟩; simp [splitTokensLoop]
  | cons p ps ih =>
    rintro ⟨a, b⟩
    simp only [splitTokensLoop]
    split
    · rename_i h; rw [ih, List.filter_cons, List.filter_cons]; simp only [h]; simp
    · rename_i h
      rw [Bool.not_eq_true] at h
      rw [ih, List.filter_cons, List.filter_cons]; simp only [h]; simp

theorem splitTokens_eq (ps : List Str) : splitTokens ps =
    (ps.filter (fun p => hasSuffix p ".cue".toList),
     ps.filter (fun p => !(hasSuffix p ".cue".toList))) := by
  unfold splitTokens
  split
  · rename_i h
    have : ps = [] := List.eq_nil_of_length_eq_zero h
    simp [this]
  · rw [splitTokensLoop_eq]; simp

/-- **C23**.  Every position is attributed to exactly one of schema and data, in
order, and to the schema iff it is in a file whose name ends in ".cue". -/
theorem C23_positions_partitioned (ps : List Str) :
    Positions ps (splitTokens ps).1 (splitTokens ps).2 ∧
    (∀ p, ps.count p = (splitTokens ps).1.count p + (splitTokens ps).2.count p) := by
  rw [splitTokens_eq]
  refine ⟨⟨List.filter_sublist, List.filter_sublist, ?_, ?_, ?_⟩, ?_⟩
  · have := List.length_eq_countP_add_countP (fun p : Str => hasSuffix p ".cue".toList) (l := ps)
    simp only [← List.countP_eq_length_filter]
    have e : List.countP (fun p : Str => !(hasSuffix p ".cue".toList)) ps =
        List.countP (fun a => decide ¬ (hasSuffix a ".cue".toList = true)) ps := by
      apply List.countP_congr; intro x _; simp
    rw [e]; omega
  · intro p hp; exact hasSuffix_iff.1 (List.mem_filter.1 hp).2
  · intro p hp hc
    have := (List.mem_filter.1 hp).2
    rw [hasSuffix_iff.2 hc] at this; cases this
  · intro p
    cases h : hasSuffix p ".cue".toList with
    | true =>
      rw [List.count_filter (by exact h), List.count_eq_zero_of_not_mem (a := p)
        (l := List.filter _ ps) (by intro hm; have := (List.mem_filter.1 hm).2; simp only [h] at this; cases this)]
      omega
    | false =>
      rw [List.count_filter (p := fun p => !(hasSuffix p ".cue".toList)) (by simp only [h]; rfl),
        List.count_eq_zero_of_not_mem (a := p)
        (l := List.filter (fun p => hasSuffix p ".cue".toList) ps)
        (by intro hm; have := (List.mem_filter.1 hm).2; simp only [h] at this; cases this)]
      omega

/-- The partition determines the two lists. -/
theorem positions_unique {ps sp dp : List Str} (h : Positions ps sp dp) :
    sp = (splitTokens ps).1 ∧ dp = (splitTokens ps).2 := by
  rw [splitTokens_eq]
  obtain ⟨h1, h2, h3, h4, h5⟩ := h
  have l1 : sp.Sublist (ps.filter (fun p => hasSuffix p ".cue".toList)) := by
    have := h1.filter (fun p => hasSuffix p ".cue".toList)
    rwa [List.filter_eq_self.2 (fun p hp => hasSuffix_iff.2 (h4 p hp))] at this
  have l2 : dp.Sublist (ps.filter (fun p => !(hasSuffix p ".cue".toList))) := by
    have := h2.filter (fun p => !(hasSuffix p ".cue".toList))
    rwa [List.filter_eq_self.2 (fun p hp => by
      cases hh : hasSuffix p ".cue".toList with
      | true => exact absurd (hasSuffix_iff.1 hh) (h5 p hp)
      | false => rfl)] at this
  have hl := (C23_positions_partitioned ps).1.2.2.1
  rw [splitTokens_eq] at hl
  simp only at hl
  have a1 := l1.length_le
  have a2 := l2.length_le
  exact ⟨l1.eq_of_length (by omega), l2.eq_of_length (by omega)⟩

example : splitTokens ["a.cue".toList, "data.json".toList, "b.cue".toList] =
    (["a.cue".toList, "b.cue".toList], ["data.json".toList]) := by rfl

/-! ### C22: paths -/

theorem first_occurrence {α : Type} {x : α} {p q a b : List α} (hp : x ∉ p) (hq : x ∉ q)
    (h : p ++ x :: a = q ++ x :: b) : q = p ∧ b = a := by
  induction p generalizing q with
  | nil =>
    cases q with
    | nil => simpa using h.symm
    | cons y q =>
      simp only [List.nil_append, List.cons_append, List.cons.injEq] at h
      exact absurd (by rw [← h.1]; simp) hq
  | cons z p ih =>
    cases q with
    | nil =>
      simp only [List.nil_append, List.cons_append, List.cons.injEq] at h
      exact absurd (by rw [h.1]; simp) hp
    | cons y q =>
      simp only [List.cons_append, List.cons.injEq] at h
      simp only [List.mem_cons, not_or] at hp hq
      have := ih hp.2 hq.2 h.2
      rw [h.1, this.1]; exact ⟨rfl, this.2⟩

theorem exists_first {α : Type} [DecidableEq α] {x : α} {l : List α} (h : x ∈ l) :
    ∃ pre post, l = pre ++ x :: post ∧ x ∉ pre := by
  induction l with
  | nil => cases h
  | cons y l ih =>
    by_cases hy : x = y
    · exact ⟨[], l, by simp [hy], by simp⟩
    · obtain ⟨pre, post, h1, h2⟩ := ih ((List.mem_cons.1 h).resolve_left hy)
      exact ⟨y :: pre, post, by simp [h1], by simp [hy, h2]⟩

theorem trimThemaPathLoop_spec (parts : List Str) : ∀ (rest : List Str) (i : Nat) (pre : List Str),
    parts = pre ++ rest → i = pre.length → "schemas".toList ∉ pre → ∀ out,
    (trimThemaPathLoop parts i rest = .ok out ↔ FieldPath parts out) := by
  intro rest
  induction rest with
  | nil =>
    intro i pre hparts hi hpre out
    simp only [List.append_nil] at hparts
    subst hparts
    simp only [trimThemaPathLoop, goDrop]
    constructor
    · intro h
      split at h
      · cases parts with
        | nil => simp at *
        | cons a t => simp only [Res.ok.injEq, List.drop_one, List.tail_cons] at h; exact .inr ⟨hpre, a, by rw [h]⟩
      · cases h
    · rintro (⟨pre', a, b, h, _⟩ | ⟨_, a, h⟩)
      · exfalso; apply hpre; rw [h]; simp
      · subst h; simp
  | cons s rest ih =>
    intro i pre hparts hi hpre out
    simp only [trimThemaPathLoop]
    split
    · rename_i hs
      subst hs
      simp only [goDrop]
      constructor
      · intro h
        split at h
        · rename_i hlen
          simp only [Res.ok.injEq] at h
          left
          rw [hparts] at hlen h
          match rest, hlen with
          | [], hlen => simp at hlen; omega
          | [_], hlen => simp at hlen; omega
          | a :: b :: t, hlen =>
            refine ⟨pre, a, b, ?_, hpre⟩
            rw [hparts]
            have : (pre ++ "schemas".toList :: a :: b :: t).drop (i + 3) = t := by
              rw [hi, List.drop_append]; simp
            rw [this] at h
            simp [h]
        · cases h
      · rintro (⟨pre', a, b, h, hpre'⟩ | ⟨hno, _⟩)
        · have : pre' = pre ∧ a :: b :: out = rest := by
            rw [hparts] at h
            have h' : pre ++ "schemas".toList :: rest = pre' ++ "schemas".toList :: (a :: b :: out) := by
              simpa using h
            have := first_occurrence hpre hpre' h'
            exact this
          obtain ⟨rfl, hrest⟩ := this
          rw [hparts, ← hrest]
          rw [if_pos (by simp; omega)]
          congr 1
          rw [hi, List.drop_append]; simp
        · exfalso; apply hno; rw [hparts]; simp
    · rename_i hs
      exact ih (i + 1) (pre ++ [s]) (by simp [hparts]) (by simp [hi]) (by
        simp only [List.mem_append, List.mem_singleton, not_or]
        exact ⟨hpre, fun h => hs h.symm⟩) out

theorem trimThemaPath_iff (path out : List Str) :
    trimThemaPath path = .ok out ↔ FieldPath path out :=
  trimThemaPathLoop_spec path path 0 [] rfl rfl (by simp) out

theorem trimThemaPathLoop_cases (parts : List Str) : ∀ (rest : List Str) (i : Nat),
    (∃ out, trimThemaPathLoop parts i rest = .ok out) ∨
      trimThemaPathLoop parts i rest = .panic .indexOutOfRange := by
  intro rest
  induction rest with
  | nil => intro i; simp only [trimThemaPathLoop, goDrop]; split <;> simp
  | cons s rest ih =>
    intro i
    simp only [trimThemaPathLoop]
    split
    · simp only [goDrop]; split <;> simp
    · exact ih _

theorem trimThemaPath_panics (path : List Str) (h : ¬ PathOk path) :
    trimThemaPath path = .panic .indexOutOfRange := by
  rcases trimThemaPathLoop_cases path path 0 with ⟨out, ho⟩ | hp
  · exact absurd ⟨out, (trimThemaPath_iff _ _).1 ho⟩ h
  · exact hp

theorem pathOk_iff (path : List Str) :
    PathOk path ↔ ∃ out, trimThemaPath path = .ok out := by
  simp only [trimThemaPath_iff]; rfl

theorem mungeOne_ok_iff (ee : CueErr) : (∃ o, mungeOne ee = .ok o) ↔ PathOk ee.path := by
  rw [pathOk_iff]
  unfold mungeOne
  cases trimThemaPath ee.path <;> simp

theorem mungeOne_panics (ee : CueErr) (h : ¬ PathOk ee.path) :
    mungeOne ee = .panic .indexOutOfRange := by
  unfold mungeOne; rw [trimThemaPath_panics _ h]; rfl

theorem mungeLoop_ok_iff (es : List CueErr) :
    (∃ fs, mungeLoop es = .ok fs) ↔ ∀ ee ∈ es, PathOk ee.path := by
  induction es with
  | nil => simp [mungeLoop]
  | cons ee es ih =>
    rw [List.forall_mem_cons, ← ih, ← mungeOne_ok_iff]
    simp only [mungeLoop]
    cases h1 : mungeOne ee <;> cases h2 : mungeLoop es <;> simp

theorem mungeLoop_panics (es : List CueErr) (h : ¬ ∀ ee ∈ es, PathOk ee.path) :
    mungeLoop es = .panic .indexOutOfRange := by
  induction es with
  | nil => simp at h
  | cons ee es ih =>
    simp only [mungeLoop]
    by_cases h1 : PathOk ee.path
    · obtain ⟨o, ho⟩ := (mungeOne_ok_iff ee).2 h1
      rw [ho, Res.bind_ok, ih (fun h2 => h (List.forall_mem_cons.2 ⟨h1, h2⟩))]; rfl
    · rw [mungeOne_panics ee h1]; rfl

/-- **C22**, exactly when the claim fails: turning a CUE error into Thema's panics
iff some sub-error has a path without a part below the schema; otherwise it
returns an error. -/
theorem C22_report_partial (es : List CueErr) :
    ((∀ ee ∈ es, PathOk ee.path) → (mungeValidateErr (.cue es)).Returns) ∧
    ((∃ ee ∈ es, ¬ PathOk ee.path) → (mungeValidateErr (.cue es)).Panics) := by
  constructor
  · intro h
    obtain ⟨fs, hf⟩ := (mungeLoop_ok_iff es).2 h
    simp [mungeValidateErr, hf, Res.Returns]
  · rintro ⟨ee, hm, hn⟩
    rw [mungeValidateErr, mungeLoop_panics es (fun h => hn (h ee hm))]
    simp [Res.Panics]

/-- The paths that make reporting panic: the empty path, and a path where fewer
than two elements follow the first "schemas". -/
theorem pathOk_failures (path : List Str) :
    ¬ PathOk path ↔ path = [] ∨
      ∃ pre post, path = pre ++ "schemas".toList :: post ∧ "schemas".toList ∉ pre ∧
        post.length < 2 := by
  constructor
  · intro h
    by_cases hm : "schemas".toList ∈ path
    · right
      obtain ⟨pre, post, heq, hpre⟩ := exists_first hm
      refine ⟨pre, post, heq, hpre, ?_⟩
      match post, heq with
      | [], _ => simp
      | [_], _ => simp
      | a :: b :: out, heq => exact absurd ⟨out, .inl ⟨pre, a, b, by simp [heq], hpre⟩⟩ h
    · left
      cases path with
      | nil => rfl
      | cons a out => exact absurd ⟨out, .inr ⟨hm, a, rfl⟩⟩ h
  · rintro (rfl | ⟨pre, post, rfl, hpre, hlen⟩) ⟨out, hf⟩
    · rcases hf with ⟨pre', a, b, h, _⟩ | ⟨_, a, h⟩
      · simp at h
      · cases h
    · rcases hf with ⟨pre', a, b, h, hpre'⟩ | ⟨hno, _⟩
      · have h' : pre ++ "schemas".toList :: post = pre' ++ "schemas".toList :: (a :: b :: out) := by
          simpa using h
        have := (first_occurrence hpre hpre' h').2
        rw [← this] at hlen; simp only [List.length_cons] at hlen; omega
      · exact hno (by simp)

/-- **C22** is false: a CUE error at the root of the data (empty path), or at a
path ending in "schemas", makes it panic. -/
theorem C22_report_panics (msg : Str) (vals : List Operand) (ps : List Str) (pre : List Str)
    (hpre : "schemas".toList ∉ pre) :
    (mungeValidateErr (.cue [⟨[], msg, vals, ps⟩])).Panics ∧
    (mungeValidateErr (.cue [⟨pre ++ ["schemas".toList], msg, vals, ps⟩])).Panics := by
  constructor
  · exact (C22_report_partial _).2 ⟨_, List.mem_singleton.2 rfl, (pathOk_failures _).2 (.inl rfl)⟩
  · exact (C22_report_partial _).2 ⟨_, List.mem_singleton.2 rfl,
      (pathOk_failures _).2 (.inr ⟨pre, [], rfl, hpre, by simp⟩)⟩

example : (mungeValidateErr (.cue [⟨["lin".toList, "schemas".toList], "m".toList, [], []⟩])).Panics :=
  (C22_report_panics "m".toList [] [] ["lin".toList] (by decide)).2

example : PathOk ["lin".toList, "schemas".toList, "0".toList, "_#schema".toList, "a".toList] :=
  ⟨["a".toList], .inl ⟨["lin".toList], "0".toList, "_#schema".toList, rfl, by decide⟩⟩

/-! ### C21: classification -/

theorem splitStrAux_cut (sep : Str) (hsep : sep ≠ []) (cs : Str) : ∀ k cur, k ≤ cs.length →
    (∀ i, i < cur.length → ¬ sep <+: ((cur.reverse ++ cs).drop i)) → (0 < k → cur = []) →
    Cut sep (cur.reverse ++ cs.drop k) (splitStrAux sep k cur cs) := by
  induction cs with
  | nil =>
    intro k cur hk hno _
    have : splitStrAux sep k cur [] = [cur.reverse] := by cases k <;> simp [splitStrAux]
    rw [this, List.drop_nil, List.append_nil]
    refine .last ?_
    rintro ⟨pre, post, h⟩
    have hlen := congrArg List.length h
    have hs : 0 < sep.length := List.length_pos_of_ne_nil hsep
    simp at hlen
    refine hno pre.length (by omega) ?_
    rw [List.append_nil, h, List.append_assoc, List.drop_left]
    exact ⟨post, rfl⟩
  | cons c cs ih =>
    intro k cur hk hno hcur
    cases k with
    | zero =>
      simp only [splitStrAux, List.drop_zero]
      split
      · rename_i hpre
        obtain ⟨t, ht⟩ := List.isPrefixOf_iff_prefix.1 hpre
        have hl : sep.length - 1 ≤ cs.length := by
          have := congrArg List.length ht
          simp at this; omega
        have hrest : cs.drop (sep.length - 1) = t := by
          obtain ⟨x, xs, rfl⟩ := List.exists_cons_of_ne_nil hsep
          simp only [List.cons_append, List.cons.injEq] at ht
          rw [← ht.2]
          simp
        refine .step (rest := t) (by rw [← ht, List.append_assoc]) ?_ ?_
        · intro p' rest' h
          apply Nat.le_of_not_lt
          intro hlt
          refine hno p'.length (by simpa using hlt) ?_
          rw [h, List.append_assoc, List.drop_left]
          exact ⟨_, rfl⟩
        · have := ih (sep.length - 1) [] hl (by simp) (fun _ => rfl)
          simpa [hrest] using this
      · rename_i hpre
        have := ih 0 (c :: cur) (Nat.zero_le _) ?_ (by simp)
        · simpa using this
        · intro i hi
          simp only [List.length_cons] at hi
          by_cases h : i < cur.length
          · simpa using hno i h
          · have : i = cur.reverse.length := by simp; omega
            rw [List.reverse_cons, List.append_assoc, this, List.drop_left]
            intro h'
            exact hpre (List.isPrefixOf_iff_prefix.2 (by simpa using h'))
    | succ k =>
      simp only [splitStrAux, List.drop_succ_cons]
      have hc := hcur (Nat.succ_pos _)
      subst hc
      exact ih k [] (by simpa using hk) (by simp) (fun _ => rfl)

theorem humanReadable_readable (v : Str) : Readable v (humanReadableCUEType v) := by
  refine ⟨splitStr " | ".toList v, ?_, ?_⟩
  · simpa [splitStr] using
      splitStrAux_cut " | ".toList (by decide) v 0 [] (Nat.zero_le _) (by simp) (by simp)
  · unfold humanReadableCUEType
    congr 2
    funext p
    unfold readablePart
    cases schErrMsgFormatMap.lookup p <;> rfl

theorem dataFirst_iff (ps : List Str) : dataFirst ps = true ↔ DataFirst ps := by
  unfold dataFirst DataFirst
  match ps with
  | [] => simp
  | [p] => simp
  | p :: q :: rest =>
    simp only [List.length_cons, gt_iff_lt, Bool.and_eq_true, decide_eq_true_eq, List.cons.injEq,
      Bool.not_eq_true', ← Bool.not_eq_true, hasSuffix_iff]
    constructor
    · rintro ⟨_, h⟩; exact ⟨p, q, rest, ⟨rfl, rfl, rfl⟩, h⟩
    · rintro ⟨p', q', rest', ⟨rfl, rfl, rfl⟩, h⟩; exact ⟨by omega, h⟩

theorem isAnyOf_iff (k l : Nat) : isAnyOf k l = true ↔
    ∃ i, l.testBit i = true ∧ k.testBit i = true := by
  unfold isAnyOf
  constructor
  · intro h
    apply Classical.byContradiction
    intro hn
    apply (bne_iff_ne.1 h)
    apply Nat.eq_of_testBit_eq
    intro i
    rw [Nat.testBit_and, Nat.zero_testBit]
    cases hk : k.testBit i <;> cases hl : l.testBit i <;> simp
    exact hn ⟨i, hl, hk⟩
  · rintro ⟨i, hl, hk⟩
    rw [bne_iff_ne]
    intro h
    have := congrArg (fun n => n.testBit i) h
    simp [hl, hk] at this

theorem mungeSwitch_reports {ee : CueErr} {path : List Str} (hpath : FieldPath ee.path path)
    {fe : FieldErr}
    (h : mungeSwitch ee (splitTokens ee.positions).1 (splitTokens ee.positions).2 path = some fe) :
    Reports ee fe ∧ KnownShape ee := by
  have hp := (C23_positions_partitioned ee.positions).1
  unfold mungeSwitch at h
  split at h
  · rename_i val hv
    split at h
    · rename_i hm
      cases h
      have hm := containsStr_iff.1 hm
      exact ⟨.missing hp hpath hv hm (humanReadable_readable val), .inl ⟨val, hv, .inl hm⟩⟩
    · rename_i hm
      split at h
      · rename_i hm'
        cases h
        have hm' := containsStr_iff.1 hm'
        exact ⟨.excess hp hpath hv (fun hc => hm (containsStr_iff.2 hc)) hm'
          (humanReadable_readable val), .inl ⟨val, hv, .inr hm'⟩⟩
      · cases h
  · rename_i v0 v1 hv
    split at h
    · rename_i s d hsd
      cases h
      by_cases hdf : dataFirst ee.positions = true
      · rw [if_pos hdf] at hsd
        cases hsd
        exact ⟨.bounds hp hpath (fun hn => absurd ((dataFirst_iff _).1 hdf) hn) (fun _ => hv)
          (humanReadable_readable s), .inr (.inl ⟨_, _, hv⟩)⟩
      · rw [if_neg hdf] at hsd
        cases hsd
        exact ⟨.bounds hp hpath (fun _ => hv) (fun hn => absurd ((dataFirst_iff _).2 hn) hdf)
          (humanReadable_readable s), .inr (.inl ⟨_, _, hv⟩)⟩
    · cases h
  · rename_i v0 v1 v2 v3 hv
    split at h
    · rename_i s d sk dk hsd
      cases h
      have hover : (if isAnyOf dk sk then Code.outOfBounds else .kindConflict) = .outOfBounds ↔
          ∃ i, sk.testBit i = true ∧ dk.testBit i = true := by
        rw [← isAnyOf_iff]
        split
        · rename_i hh; simp [hh]
        · rename_i hh; simp [hh]
      have hcode : (if isAnyOf dk sk then Code.outOfBounds else .kindConflict) = .outOfBounds ∨
          (if isAnyOf dk sk then Code.outOfBounds else .kindConflict) = .kindConflict := by
        split <;> simp
      by_cases hdf : dataFirst ee.positions = true
      · rw [if_pos hdf] at hsd
        cases hsd
        exact ⟨.kinds hp hpath (fun hn => absurd ((dataFirst_iff _).1 hdf) hn) (fun _ => hv)
          hover hcode (humanReadable_readable s), .inr (.inr ⟨_, _, _, _, hv⟩)⟩
      · rw [if_neg hdf] at hsd
        cases hsd
        exact ⟨.kinds hp hpath (fun _ => hv) (fun hn => absurd ((dataFirst_iff _).2 hn) hdf)
          hover hcode (humanReadable_readable s), .inr (.inr ⟨_, _, _, _, hv⟩)⟩
    · cases h
  · cases h

theorem mungeSwitch_none {ee : CueErr} {sp dp path : List Str}
    (h : mungeSwitch ee sp dp path = none) : ¬ KnownShape ee := by
  unfold mungeSwitch at h
  rintro (⟨v, hv, hm⟩ | ⟨a, b, hv⟩ | ⟨a, b, k, l, hv⟩) <;> rw [hv] at h <;> simp only at h
  · split at h
    · cases h
    · rename_i h1
      split at h
      · cases h
      · rename_i h2
        rcases hm with hm | hm
        · exact h1 (containsStr_iff.2 hm)
        · exact h2 (containsStr_iff.2 hm)
  · by_cases hdf : dataFirst ee.positions = true
    · rw [if_pos hdf] at h; cases h
    · rw [if_neg hdf] at h; cases h
  · by_cases hdf : dataFirst ee.positions = true
    · rw [if_pos hdf] at h; cases h
    · rw [if_neg hdf] at h; cases h

/-- **C21**.  The reported errors are, in order, one for each CUE sub-error of a
known shape, with the class, path, operands and positions described by `Reports`;
sub-errors of other shapes are left out, and nothing else is reported. -/
theorem C21_classification {es : List CueErr} {f : ValidationFailure}
    (h : mungeValidateErr (.cue es) = .ok f) :
    ∃ kept : List CueErr, kept.Sublist es ∧ List.Forall₂ Reports kept f.fields ∧
      (∀ ee ∈ kept, KnownShape ee) ∧
      ∀ ee, KnownShape ee → kept.count ee = es.count ee := by
  simp only [mungeValidateErr] at h
  cases hl : mungeLoop es with
  | err e => rw [hl] at h; simp at h
  | panic k => rw [hl] at h; simp at h
  | fuel => rw [hl] at h; simp at h
  | ok fs =>
    rw [hl] at h
    simp only [Res.map_ok, Res.ok.injEq] at h
    subst h
    simp only
    induction es generalizing fs with
    | nil =>
      simp only [mungeLoop, Res.ok.injEq] at hl
      subst hl
      exact ⟨[], by simp, .nil, by simp, by simp⟩
    | cons ee es ih =>
      simp only [mungeLoop] at hl
      obtain ⟨o, ho, hl⟩ := Res.bind_eq_ok'.1 hl
      obtain ⟨r, hr, hl⟩ := Res.bind_eq_ok'.1 hl
      obtain ⟨kept, hk1, hk2, hk3, hk4⟩ := ih r hr
      unfold mungeOne at ho
      cases ht : trimThemaPath ee.path with
      | err e => rw [ht] at ho; simp at ho
      | panic k => rw [ht] at ho; simp at ho
      | fuel => rw [ht] at ho; simp at ho
      | ok path =>
        rw [ht] at ho
        simp only [Res.map_ok, Res.ok.injEq] at ho
        cases o with
        | none =>
          simp only [Res.ok.injEq] at hl
          subst hl
          refine ⟨kept, hk1.cons _, hk2, hk3, ?_⟩
          intro e he
          rw [hk4 e he, List.count_cons_of_ne]
          rintro rfl
          exact mungeSwitch_none ho he
        | some fe =>
          simp only [Res.ok.injEq] at hl
          subst hl
          obtain ⟨h1, h2⟩ := mungeSwitch_reports ((trimThemaPath_iff _ _).1 ht) ho
          refine ⟨ee :: kept, hk1.cons_cons _, .cons h1 hk2, ?_, ?_⟩
          · intro e he
            rcases List.mem_cons.1 he with rfl | he
            · exact h2
            · exact hk3 e he
          · intro e he
            simp only [List.count_cons, hk4 e he]

example : ∃ f, mungeValidateErr (.cue
      [⟨["x".toList, "a".toList], "boom".toList, [], []⟩,
       ⟨["x".toList, "c".toList], "incomplete value".toList, [.str "int".toList], []⟩]) = .ok f ∧
    ∃ kept : List CueErr, List.Forall₂ Reports kept f.fields ∧ ∀ ee ∈ kept, KnownShape ee := by
  have h : mungeValidateErr (.cue
      [⟨["x".toList, "a".toList], "boom".toList, [], []⟩,
       ⟨["x".toList, "c".toList], "incomplete value".toList, [.str "int".toList], []⟩]) = .ok _ := rfl
  obtain ⟨kept, _, h1, h2, _⟩ := C21_classification h
  exact ⟨_, h, kept, h1, h2⟩

/-- The report determines class, path, data operand and positions: no sub-error can
be reported in two ways that differ in them. -/
theorem reports_code_unique {ee : CueErr} {sp dp sp' dp' path path' : List Str} {c c' : Code}
    {v v' d d' : Str} :
    (Reports ee (.oneSided sp dp c path v) → Reports ee (.oneSided sp' dp' c' path' v') →
      c = c' ∧ path = path' ∧ sp = sp' ∧ dp = dp') ∧
    (Reports ee (.twoSided sp dp c path v d) → Reports ee (.twoSided sp' dp' c' path' v' d') →
      c = c' ∧ path = path' ∧ d = d' ∧ sp = sp' ∧ dp = dp') ∧
    (Reports ee (.oneSided sp dp c path v) → ¬ Reports ee (.twoSided sp' dp' c' path' v' d')) := by
  have fp : ∀ {a b}, FieldPath ee.path a → FieldPath ee.path b → a = b := by
    intro a b ha hb
    have h1 := (trimThemaPath_iff _ _).2 ha
    rw [(trimThemaPath_iff _ _).2 hb] at h1
    simpa using h1.symm
  have po : ∀ {a b a' b'}, Positions ee.positions a b → Positions ee.positions a' b' →
      a = a' ∧ b = b' := by
    intro a b a' b' h1 h2
    obtain ⟨x1, x2⟩ := positions_unique h1
    obtain ⟨y1, y2⟩ := positions_unique h2
    exact ⟨x1.trans y1.symm, x2.trans y2.symm⟩
  refine ⟨?_, ?_, ?_⟩
  · intro h1 h2
    cases h1 with
    | missing hp hpath hv hm hr =>
      cases h2 with
      | missing hp' hpath' hv' hm' hr' => exact ⟨rfl, fp hpath hpath', po hp hp'⟩
      | excess hp' hpath' hv' hm' hm'' hr' => exact absurd hm hm'
    | excess hp hpath hv hm hm2 hr =>
      cases h2 with
      | missing hp' hpath' hv' hm' hr' => exact absurd hm' hm
      | excess hp' hpath' hv' hm' hm'' hr' => exact ⟨rfl, fp hpath hpath', po hp hp'⟩
  · intro h1 h2
    by_cases hdf : DataFirst ee.positions
    · cases h1 with
      | bounds hp hpath hs hd hr =>
        cases h2 with
        | bounds hp' hpath' hs' hd' hr' =>
          have := (hd hdf).symm.trans (hd' hdf)
          simp only [List.cons.injEq, Operand.str.injEq] at this
          exact ⟨rfl, fp hpath hpath', this.1, po hp hp'⟩
        | kinds hp' hpath' hs' hd' ho' hc' hr' =>
          have := (hd hdf).symm.trans (hd' hdf); simp at this
      | kinds hp hpath hs hd ho hc hr =>
        cases h2 with
        | bounds hp' hpath' hs' hd' hr' =>
          have := (hd hdf).symm.trans (hd' hdf); simp at this
        | kinds hp' hpath' hs' hd' ho' hc' hr' =>
          have := (hd hdf).symm.trans (hd' hdf)
          simp only [List.cons.injEq, Operand.str.injEq, Operand.kind.injEq] at this
          obtain ⟨h1, h2, h3, h4, _⟩ := this
          subst h3 h4
          refine ⟨?_, fp hpath hpath', h1, po hp hp'⟩
          rcases hc with hc | hc <;> rcases hc' with hc' | hc' <;> rw [hc, hc']
          · have := ho'.2 (ho.1 hc); rw [hc'] at this; exact absurd this (by simp)
          · have := ho.2 (ho'.1 hc'); rw [hc] at this; exact absurd this (by simp)
    · cases h1 with
      | bounds hp hpath hs hd hr =>
        cases h2 with
        | bounds hp' hpath' hs' hd' hr' =>
          have := (hs hdf).symm.trans (hs' hdf)
          simp only [List.cons.injEq, Operand.str.injEq] at this
          exact ⟨rfl, fp hpath hpath', this.2.1, po hp hp'⟩
        | kinds hp' hpath' hs' hd' ho' hc' hr' =>
          have := (hs hdf).symm.trans (hs' hdf); simp at this
      | kinds hp hpath hs hd ho hc hr =>
        cases h2 with
        | bounds hp' hpath' hs' hd' hr' =>
          have := (hs hdf).symm.trans (hs' hdf); simp at this
        | kinds hp' hpath' hs' hd' ho' hc' hr' =>
          have := (hs hdf).symm.trans (hs' hdf)
          simp only [List.cons.injEq, Operand.str.injEq, Operand.kind.injEq] at this
          obtain ⟨h1, h2, h3, h4, _⟩ := this
          subst h3 h4
          refine ⟨?_, fp hpath hpath', h2, po hp hp'⟩
          rcases hc with hc | hc <;> rcases hc' with hc' | hc' <;> rw [hc, hc']
          · have := ho'.2 (ho.1 hc); rw [hc'] at this; exact absurd this (by simp)
          · have := ho.2 (ho'.1 hc'); rw [hc] at this; exact absurd this (by simp)
  · intro h1 h2
    by_cases hdf : DataFirst ee.positions
    · cases h1 <;> rename_i hv _ _ <;> cases h2 <;> rename_i hd _ <;> simp_all
    · cases h1 <;> rename_i hv _ _ <;> cases h2 <;> simp_all

/-- Two data errors and one of an unknown shape: the first two are reported. -/
example : ∃ f, mungeValidateErr (.cue
      [⟨["schemas".toList, "0".toList, "_#schema".toList, "a".toList],
        "conflicting values (mismatched types)".toList,
        [.str "1".toList, .str "string".toList, .kind 4, .kind 16], ["d.json".toList, "l.cue".toList]⟩,
       ⟨["schemas".toList, "0".toList, "_#schema".toList, "b".toList], "boom".toList, [], []⟩,
       ⟨["schemas".toList, "0".toList, "_#schema".toList, "c".toList],
        "incomplete value".toList, [.str "int & >=0 & <=255 | string".toList], ["l.cue".toList]⟩])
      = .ok f ∧
    f.fields = [.twoSided ["l.cue".toList] ["d.json".toList] .kindConflict ["a".toList]
        "string".toList "1".toList,
      .oneSided ["l.cue".toList] [] .missingField ["c".toList] "uint8 | string".toList] :=
  ⟨_, rfl, by rfl⟩

/-! ### C19: Validate -/

theorem bind_body (h : bindLineage C force r opts = .ok L) {p : Nat} (hp : p < r.schemas.length)
    (hp' : p < L.allsch.length) : L.allsch[p].body = r.schemas[p].body :=
  (fromRaw_getElem (bindLineage_ok.1 h).2.2.2.1.1 hp hp').2.2.1

theorem validateFull_eq {H : Heap V} {lin p : Nat} (hH : H lin = L) (hp : p < L.allsch.length)
    (d : V) :
    validateFull C H ⟨lin, p⟩ d =
      match C.validate (C.unify L.allsch[p].body d) with
      | some e => (mungeValidateErr e).map Sum.inr
      | none => .ok (Sum.inl { raw := d, name := [], sch := ⟨lin, p⟩, valid := true }) := by
  unfold validateFull
  simp only [hH, Lineage.body?, List.getElem?_eq_getElem hp, Option.map_some]
  rfl

/-- **C19**.  `Validate` returns an instance iff the declared schema unified with
the data is valid and concrete; the instance then carries that very data and that
schema. -/
theorem C19_validate_exact (h : bindLineage C force r opts = .ok L) (H : Heap V) {lin : Nat}
    (hH : H lin = L) {p : Nat} (hp : p < r.schemas.length) (d : V) :
    ((∃ x, validate C H ⟨lin, p⟩ d = .ok x) ↔
      C.validate (C.unify r.schemas[p].body d) = none) ∧
    (∀ x, validate C H ⟨lin, p⟩ d = .ok x → x.raw = d ∧ x.sch = ⟨lin, p⟩ ∧ x.valid = true) := by
  have hp' : p < L.allsch.length := by rw [bind_length h]; exact hp
  simp only [validate_ok_iff hH hp', bind_body h hp hp', Cue.accepts]
  refine ⟨⟨fun ⟨x, hx⟩ => hx.1, fun hx => ⟨_, hx, rfl⟩⟩, ?_⟩
  rintro x ⟨_, rfl⟩
  exact ⟨rfl, rfl, rfl⟩

example : (∃ x, validate SetCue.cue (fun _ => threeBound) ⟨0, 1⟩ [2] = .ok x) ∧
    ¬ ∃ x, validate SetCue.cue (fun _ => threeBound) ⟨0, 0⟩ [2] = .ok x :=
  ⟨(C19_validate_exact threeBound_eq (fun _ => threeBound) (lin := 0) rfl (p := 1) (by decide)
      [2]).1.2 rfl,
    fun h => by
      have := (C19_validate_exact threeBound_eq (fun _ => threeBound) (lin := 0) rfl (p := 0)
        (by decide) [2]).1.1 h
      revert this
      decide⟩

/-- **C19**.  When it does not return an instance and the evaluator's error is a CUE
error whose sub-errors have a path below the schema, it returns an error that is
`ErrInvalidData`; other errors are passed through. -/
theorem C19_validate_error (h : bindLineage C force r opts = .ok L) (H : Heap V) {lin : Nat}
    (hH : H lin = L) {p : Nat} (hp : p < r.schemas.length) (d : V) :
    (∀ es, C.validate (C.unify r.schemas[p].body d) = some (.cue es) →
      (∀ ee ∈ es, PathOk ee.path) → ∃ e, validate C H ⟨lin, p⟩ d = .err e ∧ e.is .invalidData) ∧
    (∀ m, C.validate (C.unify r.schemas[p].body d) = some (.notCue m) →
      validate C H ⟨lin, p⟩ d = .err ⟨m⟩) := by
  have hp' : p < L.allsch.length := by rw [bind_length h]; exact hp
  unfold validate
  rw [validateFull_eq hH hp', bind_body h hp hp']
  constructor
  · intro es he hok
    obtain ⟨fs, hf⟩ := (mungeLoop_ok_iff es).2 hok
    rw [he]
    simp only [mungeValidateErr, hf, Res.map_ok, Res.bind_ok]
    exact ⟨_, rfl, List.mem_singleton.2 rfl⟩
  · intro m he
    rw [he]
    simp [mungeValidateErr]

example : ∃ e, validate SetCue.cue (fun _ => threeBound) ⟨0, 0⟩ [2] = .err e ∧
    e.is .invalidData :=
  (C19_validate_error threeBound_eq (fun _ => threeBound) (lin := 0) rfl (p := 0) (by decide)
    [2]).1 _ rfl (by
      intro ee he
      simp only [List.mem_singleton] at he
      subst he
      exact ⟨_, .inl ⟨[], "0".toList, "_#schema".toList, rfl, by decide⟩⟩)

/-- The error of `Validate` is never one of the specific sentinels. -/
theorem C19_error_only_invalidData (h : bindLineage C force r opts = .ok L) (H : Heap V) {lin : Nat}
    (hH : H lin = L) {p : Nat} (hp : p < r.schemas.length) (d : V) {es : List CueErr} {e : GoErr}
    (hes : C.validate (C.unify r.schemas[p].body d) = some (.cue es))
    (he : validate C H ⟨lin, p⟩ d = .err e) (s : Sentinel) : e.is s ↔ s = .invalidData := by
  have hp' : p < L.allsch.length := by rw [bind_length h]; exact hp
  unfold validate at he
  rw [validateFull_eq hH hp', bind_body h hp hp', hes] at he
  simp only [mungeValidateErr] at he
  cases hl : mungeLoop es with
  | ok fs =>
    rw [hl] at he
    simp only [Res.map_ok, Res.bind_ok, Res.err.injEq] at he
    subst he
    simp [GoErr.is]
  | err e' =>
    by_cases hp : ∀ ee ∈ es, PathOk ee.path
    · obtain ⟨fs, hf⟩ := (mungeLoop_ok_iff es).2 hp
      rw [hf] at hl; cases hl
    · rw [mungeLoop_panics es hp] at hl; cases hl
  | panic k => rw [hl] at he; simp at he
  | fuel => rw [hl] at he; simp at he

example : ∃ e, validate SetCue.cue (fun _ => threeBound) ⟨0, 0⟩ [2] = .err e ∧
    ∀ s, e.is s ↔ s = .invalidData :=
  ⟨_, rfl, C19_error_only_invalidData threeBound_eq (fun _ => threeBound) (lin := 0) rfl (p := 0)
    (by decide) [2] rfl rfl⟩

theorem setCue_pathsOk : PathsOk SetCue.cue := by
  have key : ∀ msg es, SetCue.errAt msg = .cue es → ∀ ee ∈ es, PathOk ee.path := by
    intro msg es h ee hee
    simp only [SetCue.errAt, ValErr.cue.injEq] at h
    subst h
    obtain rfl := List.mem_singleton.1 hee
    exact ⟨["f".toList], .inl ⟨[], "0".toList, "_#schema".toList, rfl, by simp⟩⟩
  intro v es h
  simp only [SetCue.cue] at h
  split at h
  · exact key _ _ (Option.some.inj h)
  · split at h
    · cases h
    · exact key _ _ (Option.some.inj h)

example : SetCue.bind threeVersions = .ok threeBound ∧
    SetCue.cue.validate (SetCue.cue.unify threeVersions.schemas[1].body [2]) = none ∧
    (∃ es, SetCue.cue.validate (SetCue.cue.unify threeVersions.schemas[0].body [2]) =
      some (.cue es)) := ⟨rfl, rfl, _, rfl⟩

/-! ### C20: ValidateAny -/

theorem validate_cases (hP : PathsOk C) {H : Heap V} {lin p : Nat} (hH : H lin = L)
    (hp : p < L.allsch.length) (d : V) :
    (C.accepts L.allsch[p].body d ∧
      validate C H ⟨lin, p⟩ d =
        .ok { raw := d, name := [], sch := ⟨lin, p⟩, valid := true }) ∨
    (¬ C.accepts L.allsch[p].body d ∧ ∃ e, validate C H ⟨lin, p⟩ d = .err e) := by
  by_cases hacc : C.accepts L.allsch[p].body d
  · exact .inl ⟨hacc, (validate_ok_iff hH hp).2 ⟨hacc, rfl⟩⟩
  · refine .inr ⟨hacc, ?_⟩
    unfold validate
    rw [validateFull_eq hH hp]
    unfold Cue.accepts at hacc
    cases hv : C.validate (C.unify L.allsch[p].body d) with
    | none => exact absurd hv hacc
    | some e =>
      cases e with
      | notCue m => simp [mungeValidateErr]
      | cue es =>
        obtain ⟨fs, hf⟩ := (mungeLoop_ok_iff es).2 (hP _ es hv)
        simp [mungeValidateErr, hf]

theorem validateAnyLoop_spec (hP : PathsOk C) (hs : StrictV L.allv) {H : Heap V} {lin : Nat}
    (hH : H lin = L) (d : V) : ∀ (n p : Nat), p < L.allsch.length → L.allsch.length - p ≤ n →
    (∃ i, ∃ hi : i < L.allsch.length, p ≤ i ∧ C.accepts L.allsch[i].body d ∧
      (∀ j, (hj : j < i) → p ≤ j → ¬ C.accepts (L.allsch[j]'(by omega)).body d) ∧
      validateAnyLoop C H lin d n p =
        .ok (some { raw := d, name := [], sch := ⟨lin, i⟩, valid := true })) ∨
    ((∀ j, (hj : j < L.allsch.length) → p ≤ j → ¬ C.accepts L.allsch[j].body d) ∧
      validateAnyLoop C H lin d n p = .ok none) := by
  intro n
  induction n with
  | zero => intro p hp hn; omega
  | succ n ih =>
    intro p hp hn
    simp only [validateAnyLoop]
    rcases validate_cases hP hH hp d with ⟨hacc, hv⟩ | ⟨hacc, e, hv⟩
    · left
      refine ⟨p, hp, Nat.le_refl _, hacc, fun j hj hpj => by omega, ?_⟩
      rw [hv]
    · rw [hv]
      simp only
      rw [hH, successor_eq hs hp]
      simp only [Res.bind_ok]
      by_cases hlast : p + 1 < L.allsch.length
      · rw [if_pos hlast]
        simp only
        rcases ih (p + 1) hlast (by omega) with ⟨i, hi, hpi, hai, hmin, hr⟩ | ⟨hno, hr⟩
        · left
          refine ⟨i, hi, by omega, hai, ?_, hr⟩
          intro j hj hpj
          by_cases hjp : j = p
          · subst hjp; exact hacc
          · exact hmin j hj (by omega)
        · right
          refine ⟨?_, hr⟩
          intro j hj hpj
          by_cases hjp : j = p
          · subst hjp; exact hacc
          · exact hno j hj (by omega)
      · right
        rw [if_neg hlast]
        refine ⟨?_, rfl⟩
        intro j hj hpj
        have : j = p := by omega
        subst this; exact hacc

theorem schema_zero (h : bindLineage C force r opts = .ok L) : L.schema synv0 = .ok 0 := by
  have hpos := bind_pos h
  unfold Lineage.schema
  have : searchSynv L.allv synv0 = 0 := by
    apply Nat.eq_zero_of_not_pos
    intro hlt
    have h1 := (searchSynv_spec (bind_sorted h) synv0).2.1 0 (by simpa using hpos) hlt
    have := less_iff.1 h1
    simp [synv0] at this
  rw [this, if_pos hpos]

/-- **C20**, for distinct versions.  With as many iterations as there are schemas
`ValidateAny` terminates; it returns nil iff no declared schema admits the data, and
otherwise an instance of the data for the first schema that admits it. -/
theorem C20_validateAny_partial (hP : PathsOk C) (h : bindLineage C force r opts = .ok L)
    (hd : (r.schemas.map (·.version)).Nodup) (H : Heap V) {lin : Nat} (hH : H lin = L) (d : V)
    {n : Nat} (hn : r.schemas.length ≤ n) :
    ((∀ s ∈ r.schemas, ¬ C.accepts s.body d) ∧ validateAny C H lin d n = .ok none) ∨
    (∃ pre s post x, r.schemas = pre ++ s :: post ∧ C.accepts s.body d ∧
      (∀ s' ∈ pre, ¬ C.accepts s'.body d) ∧ validateAny C H lin d n = .ok (some x) ∧
      x.raw = d ∧ x.sch = ⟨lin, pre.length⟩ ∧ x.valid = true) := by
  have hs : StrictV L.allv := (bind_sorted h).strict (nodup_of_map (by rwa [bind_versions h] at hd))
  have hlen := bind_length h
  have heq : validateAny C H lin d n = validateAnyLoop C H lin d n 0 := by
    unfold validateAny; rw [hH, schema_zero h]; rfl
  rcases validateAnyLoop_spec hP hs hH d n 0 (bind_pos h) (by omega) with
    ⟨i, hi, _, hacc, hmin, hr⟩ | ⟨hno, hr⟩
  · right
    have hi' : i < r.schemas.length := by omega
    refine ⟨r.schemas.take i, r.schemas[i], r.schemas.drop (i + 1), _, ?_, ?_, ?_, heq.trans hr,
      rfl, ?_, rfl⟩
    · rw [List.getElem_cons_drop, List.take_append_drop]
    · rw [← bind_body h hi' hi]; exact hacc
    · intro s' hs'
      obtain ⟨j, hj, rfl⟩ := List.getElem_of_mem hs'
      have hji : j < i := by simp at hj; omega
      rw [List.getElem_take, ← bind_body h (by omega) (by omega)]
      exact hmin j hji (Nat.zero_le _)
    · simp only [SchPtr.mk.injEq, true_and]; simp; omega
  · left
    refine ⟨?_, heq.trans hr⟩
    intro s hs
    obtain ⟨j, hj, rfl⟩ := List.getElem_of_mem hs
    rw [← bind_body h hj (by omega)]
    exact hno j (by omega) (Nat.zero_le _)

example : ∃ x, validateAny SetCue.cue (fun _ => threeBound) 0 [2] 3 = .ok (some x) ∧
    x.sch = ⟨0, 1⟩ := by
  rcases C20_validateAny_partial setCue_pathsOk threeBound_eq (by decide) (fun _ => threeBound)
    (lin := 0) rfl [2] (n := 3) (by decide) with ⟨h, _⟩ | ⟨pre, s, post, x, h1, h2, h3, h4, _, h5, _⟩
  · exact absurd rfl (h (SetCue.sch 0 1 [1, 2]) (by simp [threeVersions, SetCue.lin]))
  · refine ⟨x, h4, ?_⟩
    have e : validateAny SetCue.cue (fun _ => threeBound) 0 [2] 3 =
        .ok (some ⟨[2], [], ⟨0, 1⟩, true⟩) := rfl
    rw [e] at h4
    cases h4
    rfl

theorem successor_first (hs : SortedV L.allv) {p : Nat} (hp : p + 1 < L.allsch.length)
    (hfirst : ∀ j, (hj : j < p) → L.ver j ≠ L.ver p)
    (hlast : L.ver (L.allsch.length - 1) ≠ L.ver p) :
    L.successor p = .ok (some (searchSynv L.allv (L.ver (p + 1)))) ∧
      searchSynv L.allv (L.ver p) = p := by
  have hsearch : searchSynv L.allv (L.ver p) = p := by
    obtain ⟨h1, h2, h3⟩ := searchSynv_spec hs (L.ver p)
    have hp' : p < L.allv.length := by simp; omega
    apply Nat.le_antisymm
    · apply Nat.le_of_not_lt
      intro hlt
      have := h2 p hp' hlt
      rw [ver_lt (by omega), less_irrefl] at this
      cases this
    · apply Nat.le_of_not_lt
      intro hlt
      have hmem : L.ver p ∈ L.allv := by rw [ver_lt (by omega)]; exact List.getElem_mem _
      obtain ⟨h4, h5⟩ := searchSynv_found hs hmem
      exact hfirst _ hlt ((ver_lt (by simpa using h4)).trans h5)
  refine ⟨?_, hsearch⟩
  unfold Lineage.successor
  have hgl : L.allv.getLast? = some (L.ver (L.allsch.length - 1)) := by
    rw [List.getLast?_eq_getElem?, allv_length, List.getElem?_eq_getElem (by simp; omega),
      ver_lt (by omega)]
  rw [hgl]
  simp only
  rw [if_neg hlast, hsearch, goIdx_lt (by simpa using hp)]
  simp only [Res.bind_ok]
  have hv : L.allv[p + 1]'(by simpa using hp) = L.ver (p + 1) := (ver_lt hp).symm
  rw [hv]
  unfold Lineage.schema
  have hmem : L.ver (p + 1) ∈ L.allv := by rw [ver_lt hp]; exact List.getElem_mem _
  rw [if_pos (by simpa using (searchSynv_found hs hmem).1)]
  rfl

theorem validateAnyLoop_diverges (hP : PathsOk C) (hs : SortedV L.allv) {H : Heap V} {lin : Nat}
    (hH : H lin = L) {d : V} {i : Nat} (hi : i + 1 < L.allsch.length)
    (hfirst : ∀ j k, j < k → k ≤ i → L.ver j ≠ L.ver k) (hdup : L.ver i = L.ver (i + 1))
    (hlast : L.ver (L.allsch.length - 1) ≠ L.ver i)
    (hno : ∀ j, (hj : j < L.allsch.length) → j ≤ i → ¬ C.accepts L.allsch[j].body d) :
    ∀ n p, p ≤ i → validateAnyLoop C H lin d n p = .fuel := by
  have hlast' : ∀ p, p ≤ i → L.ver (L.allsch.length - 1) ≠ L.ver p := by
    intro p hp he
    have h1 := hs.get (i := p) (j := i) hp (by simp; omega)
    have h2 := hs.get (i := i) (j := L.allsch.length - 1) (by omega) (by simp; omega)
    rw [ver_lt (by omega), ver_lt (by omega)] at he
    rw [he] at h2
    apply hlast
    rw [ver_lt (by omega), ver_lt (by omega), he]
    rcases less_total (L.allv[p]'(by simp; omega)) (L.allv[i]'(by simp; omega)) with h | h | h
    · rw [h] at h2; cases h2
    · exact h
    · rw [h] at h1; cases h1
  intro n
  induction n with
  | zero => intro p _; rfl
  | succ n ih =>
    intro p hp
    simp only [validateAnyLoop]
    rcases validate_cases hP hH (show p < L.allsch.length by omega) d with ⟨hacc, _⟩ | ⟨_, e, hv⟩
    · exact absurd hacc (hno p (by omega) hp)
    · rw [hv]
      simp only
      obtain ⟨h1, h2⟩ := successor_first hs (show p + 1 < L.allsch.length by omega)
        (fun j hj => hfirst j p hj hp) (hlast' p hp)
      rw [hH, h1]
      simp only [Res.bind_ok]
      rcases Nat.lt_or_ge p i with hlt | hge
      · rw [(successor_first hs (p := p + 1) (by omega)
          (fun j hj => hfirst j (p + 1) hj (by omega)) (hlast' (p + 1) (by omega))).2]
        exact ih _ (by omega)
      · have : p = i := by omega
        subst this
        rw [← hdup, h2]
        exact ih _ (Nat.le_refl _)

/-- **C20** is false for lineages with a repeated version, which bind (C09): if two
consecutive schemas share a version that is not the last one, and neither the first
of them nor any older schema admits the data, `ValidateAny` does not terminate. -/
theorem C20_validateAny_diverges (hP : PathsOk C) (h : bindLineage C force r opts = .ok L)
    (H : Heap V) {lin : Nat} (hH : H lin = L) {d : V} {i : Nat} (hi : i + 1 < r.schemas.length)
    (hfirst : ∀ j k, j < k → k ≤ i → L.ver j ≠ L.ver k) (hdup : L.ver i = L.ver (i + 1))
    (hlast : L.ver (r.schemas.length - 1) ≠ L.ver i)
    (hno : ∀ j, (hj : j < r.schemas.length) → j ≤ i → ¬ C.accepts r.schemas[j].body d) (n : Nat) :
    validateAny C H lin d n = .fuel := by
  have hlen := bind_length h
  unfold validateAny
  rw [hH, schema_zero h]
  simp only [Res.bind_ok]
  apply validateAnyLoop_diverges hP (bind_sorted h) hH (by omega) hfirst hdup (by rwa [hlen])
    _ n 0 (Nat.zero_le _)
  intro j hj hji
  rw [bind_body h (by omega) hj]
  exact hno j (by omega) hji

/-- 0.0, 0.1, 0.1, 0.2 with growing schemas. -/
def dupVersions : RawLineage SetCue.Val :=
  SetCue.lin [SetCue.sch 0 0 [1], SetCue.sch 0 1 [1, 2], SetCue.sch 0 1 [1, 2, 3],
    SetCue.sch 0 2 [1, 2, 3, 4]]

/-- A concrete case: data that only the last schema admits is never found, the loop
alternates for ever; and data that only the second 0.1 admits likewise. -/
theorem C20_validateAny_diverges_witness : ∃ L, SetCue.bind dupVersions = .ok L ∧
    (∀ n, validateAny SetCue.cue (fun _ => L) 0 [4] n = .fuel) ∧
    SetCue.cue.accepts [1, 2, 3, 4] [4] := by
  refine ⟨_, rfl, ?_, rfl⟩
  intro n
  refine C20_validateAny_diverges setCue_pathsOk (r := dupVersions) (force := false) (opts := [])
    rfl (fun _ => _) rfl (i := 1) (by decide) ?_ rfl (by decide) ?_ n
  · intro j k hjk hk
    obtain ⟨rfl, rfl⟩ : j = 0 ∧ k = 1 := by omega
    decide
  · intro j hj hji
    match j, hj, hji with
    | 0, _, _ => exact of_decide_eq_true rfl
    | 1, _, _ => exact of_decide_eq_true rfl

/-- 0.0, 0.1, 0.1. -/
def dupLast : RawLineage SetCue.Val :=
  SetCue.lin [SetCue.sch 0 0 [1], SetCue.sch 0 1 [1, 2], SetCue.sch 0 1 [1, 2, 3]]

/-- **C20** is false also when it terminates: with the last version repeated,
`ValidateAny` returns nil for data that the last schema admits. -/
theorem C20_validateAny_misses_witness : ∃ L, SetCue.bind dupLast = .ok L ∧
    validateAny SetCue.cue (fun _ => L) 0 [3] 5 = .ok none ∧
    ∃ x, validate SetCue.cue (fun _ => L) ⟨0, 2⟩ [3] = .ok x :=
  ⟨_, rfl, rfl, _, rfl⟩

example : SetCue.bind threeVersions = .ok threeBound ∧
    (threeVersions.schemas.map (·.version)).Nodup ∧ PathsOk SetCue.cue :=
  ⟨rfl, by decide, setCue_pathsOk⟩

/-! ### C53, C54: what the error says -/

/-- **C53**, partial: if every sub-error has a known shape, every one is reported, in
order. -/
theorem C53_all_reported_partial {es : List CueErr} {f : ValidationFailure}
    (h : mungeValidateErr (.cue es) = .ok f) (hk : ∀ ee ∈ es, KnownShape ee) :
    List.Forall₂ Reports es f.fields := by
  obtain ⟨kept, hsub, hr, hks, hcount⟩ := C21_classification h
  suffices kept = es by rw [← this]; exact hr
  clear hr h hks
  induction hsub with
  | slnil => rfl
  | @cons l1 l2 a hs ih =>
    exfalso
    have h1 := hcount a (hk a (by simp))
    have h2 := hs.count_le a
    rw [List.count_cons_self] at h1
    omega
  | @cons_cons l1 l2 a hs ih =>
    rw [ih (fun ee hee => hk ee (by simp [hee]))]
    intro ee hee
    have := hcount ee hee
    simp only [List.count_cons] at this
    omega

example : ∃ f, mungeValidateErr (.cue
      [⟨["x".toList, "c".toList], "incomplete value".toList, [.str "int".toList], []⟩]) = .ok f ∧
    List.Forall₂ Reports
      [⟨["x".toList, "c".toList], "incomplete value".toList, [.str "int".toList], []⟩] f.fields :=
  ⟨_, rfl, C53_all_reported_partial rfl (by
    intro ee he
    simp only [List.mem_singleton] at he
    subst he
    exact .inl ⟨_, rfl, .inl (containsStr_iff.1 rfl)⟩)⟩

/-- **C53** is false: sub-errors of other shapes are dropped, so that `Validate` can
return an error that reports nothing at all. -/
theorem C53_unknown_dropped {es : List CueErr} (hp : ∀ ee ∈ es, PathOk ee.path)
    (hk : ∀ ee ∈ es, ¬ KnownShape ee) :
    mungeValidateErr (.cue es) = .ok ⟨⟨[.invalidData]⟩, []⟩ := by
  obtain ⟨fs, hf⟩ := (mungeLoop_ok_iff es).2 hp
  have h : mungeValidateErr (.cue es) = .ok ⟨⟨[.invalidData]⟩, fs⟩ := by
    simp [mungeValidateErr, hf]
  obtain ⟨kept, hsub, hr, hks, _⟩ := C21_classification h
  cases kept with
  | nil => cases hr; exact h
  | cons ee kept => exact absurd (hks ee (by simp)) (hk ee (hsub.subset (by simp)))

/-- Two errors that `mungeValidateErr` drops: one with three operands, and one with none. -/
theorem unknown_errors :
    (∀ ee ∈ [(⟨["x".toList, "a".toList], "empty disjunction".toList, [], []⟩ : CueErr),
      ⟨["x".toList, "b".toList], "m".toList, [.str [], .str [], .other], []⟩], PathOk ee.path) ∧
    (∀ ee ∈ [(⟨["x".toList, "a".toList], "empty disjunction".toList, [], []⟩ : CueErr),
      ⟨["x".toList, "b".toList], "m".toList, [.str [], .str [], .other], []⟩], ¬ KnownShape ee) := by
  constructor <;> intro ee hee <;> simp only [List.mem_cons, List.not_mem_nil, or_false] at hee
  · rcases hee with rfl | rfl
    · exact ⟨_, .inr ⟨by decide, _, rfl⟩⟩
    · exact ⟨_, .inr ⟨by decide, _, rfl⟩⟩
  · rcases hee with rfl | rfl <;> simp [KnownShape]

example : mungeValidateErr (.cue
      [⟨["x".toList, "a".toList], "empty disjunction".toList, [], []⟩,
       ⟨["x".toList, "b".toList], "m".toList, [.str [], .str [], .other], []⟩]) =
    .ok ⟨⟨[.invalidData]⟩, []⟩ := C53_unknown_dropped unknown_errors.1 unknown_errors.2

/-- **C54** is false for every failure: none of the four sentinels is ever matched. -/
theorem C54_class_sentinels_never_matched (h : bindLineage C force r opts = .ok L) (H : Heap V)
    {lin : Nat} (hH : H lin = L) {p : Nat} (hp : p < r.schemas.length) (d : V) {es : List CueErr}
    {e : GoErr} (hes : C.validate (C.unify r.schemas[p].body d) = some (.cue es))
    (he : validate C H ⟨lin, p⟩ d = .err e) :
    ¬ e.is .invalidExcessField ∧ ¬ e.is .invalidMissingField ∧ ¬ e.is .invalidKindConflict ∧
      ¬ e.is .invalidOutOfBounds := by
  have := C19_error_only_invalidData h H hH hp d hes he
  refine ⟨?_, ?_, ?_, ?_⟩ <;> rw [this] <;> simp

example : ∃ e, validate SetCue.cue (fun _ => threeBound) ⟨0, 0⟩ [2] = .err e ∧
    ¬ e.is .invalidExcessField ∧ ¬ e.is .invalidMissingField ∧ ¬ e.is .invalidKindConflict ∧
      ¬ e.is .invalidOutOfBounds :=
  ⟨_, rfl, C54_class_sentinels_never_matched threeBound_eq (fun _ => threeBound) (lin := 0) rfl
    (p := 0) (by decide) [2] rfl rfl⟩

/-- A failing validation whose report contains an out-of-bounds error. -/
theorem C54_witness : ∃ es f e, SetCue.bind threeVersions = .ok threeBound ∧
    SetCue.cue.validate (SetCue.cue.unify [1] [2]) = some (.cue es) ∧
    validateFull SetCue.cue (fun _ => threeBound) ⟨0, 0⟩ [2] = .ok (.inr f) ∧
    (∃ sp dp path sv dv, .twoSided sp dp .outOfBounds path sv dv ∈ f.fields) ∧
    validate SetCue.cue (fun _ => threeBound) ⟨0, 0⟩ [2] = .err e ∧ ¬ e.is .invalidOutOfBounds :=
  ⟨_, _, _, rfl, rfl, rfl, ⟨_, _, _, _, _, List.mem_singleton.2 rfl⟩, rfl, by decide⟩

end Thema.Props

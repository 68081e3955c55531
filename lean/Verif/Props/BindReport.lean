import Verif.Props.Bind
import Verif.Spec.BindReport

/-!
# What `BindLineage` says about schemas it rejects
-/

namespace Thema.Props

open Thema Thema.Spec

variable {V : Type} {C : Cue V} {skip : Bool}

/-- A schema as read from its declaration. -/
def readAs (s : RawSchema V) (v : SV) : SchemaDef V :=
  { v := v, schema := s.schema, body := s.body, examples := s.examples }

theorem schemaProblem_cons (prev : Option (SchemaDef V)) (s : RawSchema V) (rest) {v : SV}
    (hv : s.version = some v) (ho : checkSchemasOrder prev v = .ok ())
    (hc : checkCompat C skip prev v s.body = .ok ()) :
    schemaProblem C skip prev (s :: rest) =
      (schemaProblem C skip (some (readAs s v)) rest).map fun p => (p.1 + 1, p.2) := by
  rw [checkSchemasOrder_ok] at ho
  rw [checkCompat_ok] at hc
  cases prev with
  | none => simp [schemaProblem, hv, readAs]
  | some p =>
    have h1 := ho p rfl
    have h2 := hc p rfl
    simp only [schemaProblem, hv, h1]
    cases skip <;> cases hb : C.subsumeAll s.body p.body <;> by_cases h0 : v.minor = 0 <;>
      simp_all [readAs]

/-- The schema passes the checks against the one before it. -/
def Passes (C : Cue V) (skip : Bool) (prev : Option (SchemaDef V)) (s : RawSchema V) : Prop :=
  ∃ v, s.version = some v ∧ checkSchemasOrder prev v = .ok () ∧
    checkCompat C skip prev v s.body = .ok ()

/-- What a problem says about the schema and the one before it. -/
def Says (C : Cue V) (skip : Bool) (prev : Option (SchemaDef V)) (s : RawSchema V) :
    SchemaProblem → Prop
  | .versionNotConcrete => s.version = none
  | .notGreater v pv => s.version = some v ∧ ∃ t, prev = some t ∧ t.v = pv ∧ v.less pv = true
  | .mustBreak v pv x => s.version = some v ∧ skip = false ∧ ∃ t, prev = some t ∧ t.v = pv ∧
      v.less pv = false ∧ v.minor = 0 ∧ C.subsumeAll s.body t.body = true ∧
      x = ⟨pv.major, pv.minor + 1⟩
  | .notCompatible v pv => s.version = some v ∧ ∃ t, prev = some t ∧ t.v = pv ∧
      v.minor ≠ 0 ∧ C.subsumeAll s.body t.body = false

theorem schemaProblem_stop (prev : Option (SchemaDef V)) (s : RawSchema V) (rest)
    (h : ¬ Passes C skip prev s) :
    ∃ p, schemaProblem C skip prev (s :: rest) = some (0, p) ∧ Says C skip prev s p := by
  cases hv : s.version with
  | none => exact ⟨.versionNotConcrete, by simp [schemaProblem, hv], hv⟩
  | some v =>
    simp only [Passes, hv, Option.some.injEq, exists_eq_left', not_and, checkSchemasOrder_ok,
      checkCompat_ok] at h
    cases prev with
    | none => simp at h
    | some p =>
      simp only [Option.mem_def, Option.some.injEq, forall_eq'] at h
      by_cases hl : v.less p.v = true
      · exact ⟨.notGreater v p.v, by simp [schemaProblem, hv, hl], hv, p, rfl, rfl, hl⟩
      · rw [Bool.not_eq_true] at hl
        have := h hl
        simp only [not_or, Bool.not_eq_true] at this
        obtain ⟨hsk, hb⟩ := this
        by_cases h0 : v.minor = 0
        · have hs : C.subsumeAll s.body p.body = true := by
            by_contra hc
            exact hb ⟨fun h => absurd h0 h, fun h => absurd h hc⟩
          exact ⟨.mustBreak v p.v ⟨p.v.major, p.v.minor + 1⟩,
            by simp [schemaProblem, hv, hl, hsk, h0, hs], hv, hsk, p, rfl, rfl, hl, h0, hs, rfl⟩
        · have hs : C.subsumeAll s.body p.body = false := by
            by_contra hc
            rw [Bool.not_eq_false] at hc
            exact hb ⟨fun _ => hc, fun _ => h0⟩
          exact ⟨.notCompatible v p.v, by simp [schemaProblem, hv, hl, hsk, h0, hs], hv, p, rfl, rfl,
            h0, hs⟩

theorem loop_cons_ok (prev : Option (SchemaDef V)) (s : RawSchema V) (rest) {v : SV}
    (hv : s.version = some v) (ho : checkSchemasOrder prev v = .ok ())
    (hc : checkCompat C skip prev v s.body = .ok ()) :
    checkGoValidityLoop C skip prev (s :: rest) =
      (checkGoValidityLoop C skip (some (readAs s v)) rest).bind fun l => .ok (readAs s v :: l) := by
  simp [checkGoValidityLoop, hv, ho, hc, Res.bind, readAs]

theorem checkSchemasOrder_cases (prev : Option (SchemaDef V)) (v : SV) :
    checkSchemasOrder prev v = .ok () ∨ ∃ e, checkSchemasOrder prev v = .err e := by
  cases prev with
  | none => exact .inl rfl
  | some p =>
    unfold checkSchemasOrder
    simp only
    split
    · exact .inr ⟨_, rfl⟩
    · exact .inl rfl

theorem checkCompat_cases (prev : Option (SchemaDef V)) (v : SV) (b : V) :
    checkCompat C skip prev v b = .ok () ∨ ∃ e, checkCompat C skip prev v b = .err e := by
  cases prev with
  | none => exact .inl rfl
  | some p =>
    unfold checkCompat
    simp only
    split
    · exact .inl rfl
    · split
      · exact .inr ⟨_, rfl⟩
      · split
        · exact .inr ⟨_, rfl⟩
        · exact .inl rfl

theorem loop_cons_bad (prev : Option (SchemaDef V)) (s : RawSchema V) (rest)
    (h : ¬ Passes C skip prev s) : ∃ e, checkGoValidityLoop C skip prev (s :: rest) = .err e := by
  cases hv : s.version with
  | none => exact ⟨_, by simp only [checkGoValidityLoop, hv]; rfl⟩
  | some v =>
    simp only [checkGoValidityLoop, hv]
    rcases checkSchemasOrder_cases prev v with ho | ⟨e, ho⟩
    · rcases checkCompat_cases (C := C) (skip := skip) prev v s.body with hc | ⟨e, hc⟩
      · exact absurd ⟨v, hv, ho, hc⟩ h
      · exact ⟨e, by rw [ho, hc]; rfl⟩
    · exact ⟨e, by rw [ho]; rfl⟩

/-- The schema before the next one. -/
def before (prev : Option (SchemaDef V)) (l : List (SchemaDef V)) : Option (SchemaDef V) :=
  match l.getLast? with
  | some x => some x
  | none => prev

theorem before_cons (prev : Option (SchemaDef V)) (x : SchemaDef V) (l) :
    before prev (x :: l) = before (some x) l := by
  cases l with
  | nil => rfl
  | cons y l =>
    have : (y :: l).getLast? = some ((y :: l).getLast (by simp)) := List.getLast?_eq_getLast_of_ne_nil _
    simp only [before, List.getLast?_cons_cons, this]

theorem schemaProblem_split (raws : List (RawSchema V)) :
    ∀ prev,
      (schemaProblem C skip prev raws = none ∧
        ∃ l, checkGoValidityLoop C skip prev raws = .ok l) ∨
      ∃ pre s post l p, raws = pre ++ s :: post ∧
        schemaProblem C skip prev raws = some (pre.length, p) ∧
        (∃ e, checkGoValidityLoop C skip prev raws = .err e) ∧
        checkGoValidityLoop C skip prev pre = .ok l ∧ ¬ Passes C skip (before prev l) s ∧
        Says C skip (before prev l) s p := by
  induction raws with
  | nil => intro prev; exact .inl ⟨rfl, [], rfl⟩
  | cons s rest ih =>
    intro prev
    by_cases hp : Passes C skip prev s
    · obtain ⟨v, hv, ho, hc⟩ := hp
      rw [schemaProblem_cons prev s rest hv ho hc, loop_cons_ok prev s rest hv ho hc]
      rcases ih (some (readAs s v)) with ⟨h1, l, h2⟩ | ⟨pre, t, post, l, p, h1, h2, ⟨e, h3⟩, h4, h5, h6⟩
      · exact .inl ⟨by rw [h1]; rfl, readAs s v :: l, by rw [h2]; rfl⟩
      · refine .inr ⟨s :: pre, t, post, readAs s v :: l, p, by rw [h1]; rfl, by rw [h2]; rfl,
          ⟨e, by rw [h3]; rfl⟩, ?_, ?_, ?_⟩
        · rw [loop_cons_ok prev s pre hv ho hc, h4]; rfl
        · rw [before_cons]; exact h5
        · rw [before_cons]; exact h6
    · obtain ⟨p, h1, h2⟩ := schemaProblem_stop prev s rest hp
      exact .inr ⟨[], s, rest, [], p, rfl, h1, loop_cons_bad prev s rest hp, rfl, hp, h2⟩

theorem loop_append (pre : List (RawSchema V)) :
    ∀ prev l s, checkGoValidityLoop C skip prev pre = .ok l → Passes C skip (before prev l) s →
      ∃ l', checkGoValidityLoop C skip prev (pre ++ [s]) = .ok l' := by
  induction pre with
  | nil =>
    intro prev l s h hp
    cases h
    obtain ⟨v, hv, ho, hc⟩ := hp
    exact ⟨_, by rw [List.nil_append, loop_cons_ok prev _ _ hv ho hc]; rfl⟩
  | cons x pre ih =>
    intro prev l s h hp
    by_cases hx : Passes C skip prev x
    · obtain ⟨v, hv, ho, hc⟩ := hx
      rw [loop_cons_ok _ _ _ hv ho hc] at h
      obtain ⟨l', h1, h2⟩ := Res.bind_eq_ok.1 h
      cases h2
      rw [before_cons] at hp
      obtain ⟨l2, h3⟩ := ih _ _ _ h1 hp
      exact ⟨_, by rw [List.cons_append, loop_cons_ok _ _ _ hv ho hc, h3]; rfl⟩
    · obtain ⟨e, he⟩ := loop_cons_bad prev x pre hx
      rw [he] at h
      cases h

theorem before_raw {pre : List (RawSchema V)} {l : List (SchemaDef V)} {t : SchemaDef V}
    (h : checkGoValidityLoop C skip none pre = .ok l) (ht : before none l = some t) :
    ∃ j r, pre.length = j + 1 ∧ pre[j]? = some r ∧ r.version = some t.v ∧ r.body = t.body := by
  obtain ⟨hf, _⟩ := (checkGoValidityLoop_ok pre none l).1 h
  unfold before at ht
  cases hl : l.getLast? with
  | none => rw [hl] at ht; cases ht
  | some x =>
    rw [hl] at ht
    cases ht
    have hlen := forall₂_length hf
    rw [List.getLast?_eq_getElem?] at hl
    obtain ⟨h1, h2⟩ := List.getElem?_eq_some_iff.1 hl
    obtain ⟨a1, a2, a3, _⟩ := fromRaw_getElem hf (i := l.length - 1) (by omega) h1
    refine ⟨l.length - 1, pre[l.length - 1], by omega, List.getElem?_eq_getElem _, ?_, ?_⟩
    · rw [a1, h2]
    · rw [← a3, h2]

/-! ### C146 -/

/-- **C146** (part).  The schemas of a lineage pass the checks of versions and compatibility exactly if
there is no report; and a report is about the first schema that does not fit: all before it pass, those
up to and including it do not, and what it says about this schema and the one before it is the case. -/
theorem C146_report_exact (raws : List (RawSchema V)) :
    (schemaProblem C skip none raws = none ↔ ∃ l, checkGoValidityLoop C skip none raws = .ok l) ∧
      ∀ k p, schemaProblem C skip none raws = some (k, p) →
        (∃ e, checkGoValidityLoop C skip none raws = .err e) ∧ k < raws.length ∧
        (∃ l, checkGoValidityLoop C skip none (raws.take k) = .ok l) ∧ Describes C raws k p := by
  rcases schemaProblem_split (C := C) (skip := skip) raws none with
    ⟨h1, l, h2⟩ | ⟨pre, s, post, l, p, h1, h2, ⟨e, h3⟩, h4, h5, h6⟩
  · exact ⟨⟨fun _ => ⟨l, h2⟩, fun _ => h1⟩, fun k p h => by rw [h1] at h; cases h⟩
  · refine ⟨⟨fun h => by rw [h2] at h; (cases h), fun ⟨l, h⟩ => by rw [h3] at h; cases h⟩, ?_⟩
    intro k p' h
    rw [h2] at h
    cases h
    have hk : raws[pre.length]? = some s := by rw [h1]; simp
    refine ⟨⟨e, h3⟩, by rw [h1]; simp, ⟨l, by rw [h1, List.take_left']; exact h4; rfl⟩, ?_⟩
    have hb : ∀ t, before none l = some t → ∃ j r, pre.length = j + 1 ∧ raws[j]? = some r ∧
        r.version = some t.v ∧ r.body = t.body := by
      intro t ht
      obtain ⟨j, r, a1, a2, a3, a4⟩ := before_raw h4 ht
      exact ⟨j, r, a1, by rw [h1, List.getElem?_append_left (by omega)]; exact a2, a3, a4⟩
    cases p with
    | versionNotConcrete => exact ⟨s, hk, h6⟩
    | notGreater v pv =>
      obtain ⟨a1, t, a2, rfl, a3⟩ := h6
      obtain ⟨j, r, b1, b2, b3, b4⟩ := hb t a2
      refine ⟨j, s, r, b1, b2, hk, a1, b3, ?_⟩
      simpa [SV.less] using a3
    | mustBreak v pv x =>
      obtain ⟨a1, _, t, a2, rfl, _, a3, a4, rfl⟩ := h6
      obtain ⟨j, r, b1, b2, b3, b4⟩ := hb t a2
      exact ⟨j, s, r, b1, b2, hk, a1, b3, a3, by rw [b4]; exact a4, rfl, rfl⟩
    | notCompatible v pv =>
      obtain ⟨a1, t, a2, rfl, a3, a4⟩ := h6
      obtain ⟨j, r, b1, b2, b3, b4⟩ := hb t a2
      exact ⟨j, s, r, b1, b2, hk, a1, b3, a3, by rw [b4]; exact a4⟩

/-- **C146** (part).  "... must be backwards incompatible with schema ...: introduce a breaking change, or
redeclare as version x": either piece of advice gets the schema accepted, up to where it stands. -/
theorem C146_advice_works {raws : List (RawSchema V)} {k : Nat} {v pv x : SV} {s t : RawSchema V}
    (h : schemaProblem C skip none raws = some (k, .mustBreak v pv x))
    (hs : raws[k]? = some s) (ht : raws[k - 1]? = some t) :
    (∃ l, checkGoValidityLoop C skip none (raws.take k ++ [{ s with version := some x }]) = .ok l) ∧
      ∀ b, C.subsumeAll b t.body = false →
        ∃ l, checkGoValidityLoop C skip none (raws.take k ++ [{ s with body := b }]) = .ok l := by
  rcases schemaProblem_split (C := C) (skip := skip) raws none with
    ⟨h1, _⟩ | ⟨pre, s', post, l, p, h1, h2, _, h4, h5, h6⟩
  · rw [h1] at h; cases h
  · rw [h2] at h
    cases h
    have hk : raws[pre.length]? = some s' := by rw [h1]; simp
    rw [hk] at hs
    cases hs
    have htake : raws.take pre.length = pre := by rw [h1, List.take_left']; rfl
    obtain ⟨a1, _, t', a2, rfl, hord, a3, a4, rfl⟩ := h6
    obtain ⟨j, r, b1, b2, b3, b4⟩ := before_raw h4 a2
    have hr : r = t := by
      rw [b1, Nat.add_sub_cancel, h1, List.getElem?_append_left (by omega), b2] at ht
      exact Option.some.inj ht
    rw [htake]
    constructor
    · apply loop_append _ _ _ _ h4
      refine ⟨_, rfl, ?_, ?_⟩
      · rw [checkSchemasOrder_ok, a2]
        intro q hq
        cases hq
        simp [SV.less]
      · rw [checkCompat_ok, a2]
        intro q hq
        cases hq
        exact .inr ⟨fun _ => a4, fun _ => Nat.succ_ne_zero _⟩
    · intro b hb
      apply loop_append _ _ _ _ h4
      refine ⟨v, a1, ?_, ?_⟩
      · rw [checkSchemasOrder_ok, a2]
        intro q hq
        cases hq
        exact hord
      · rw [checkCompat_ok, a2]
        intro q hq
        cases hq
        refine .inr ⟨fun hn => absurd a3 hn, fun hsub => ?_⟩
        rw [← b4, hr] at hsub
        rw [hb] at hsub
        cases hsub

/-- A third schema that does not break anything, declared as 1.0. -/
def needless : List (RawSchema SetCue.Val) :=
  [SetCue.sch 0 0 [1], SetCue.sch 0 1 [1, 2], SetCue.sch 1 0 [1, 2, 3], SetCue.sch 1 1 [1, 2, 3, 4]]

/-- The hypotheses of `C146_advice_works` are met: the advice is to redeclare 1.0 as 0.2. -/
example : schemaProblem SetCue.cue false none needless =
    some (2, .mustBreak ⟨1, 0⟩ ⟨0, 1⟩ ⟨0, 2⟩) := rfl

/-- The other reports. -/
example :
    schemaProblem SetCue.cue false none [SetCue.sch 0 1 [1], SetCue.sch 0 0 [2]] =
        some (1, .notGreater ⟨0, 0⟩ ⟨0, 1⟩) ∧
      schemaProblem SetCue.cue false none [SetCue.sch 0 0 [1], SetCue.sch 0 1 [2]] =
        some (1, .notCompatible ⟨0, 1⟩ ⟨0, 0⟩) ∧
      schemaProblem SetCue.cue false none
        [SetCue.sch 0 0 [1], { SetCue.sch 0 1 [2] with version := none }] =
        some (1, .versionNotConcrete) := ⟨rfl, rfl, rfl⟩

/-- **C146**, refuted: following the advice is not enough to get a lineage whose versions have no gaps.
If further minor versions follow, redeclaring 1.0 as 0.2 leaves 1.1 behind it - and this lineage
binds. -/
theorem C146_refuted :
    ∃ (raws : List (RawSchema SetCue.Val)) (s : RawSchema SetCue.Val) (x v pv : SV)
      (L : Lineage SetCue.Val),
      schemaProblem SetCue.cue false none raws = some (2, .mustBreak v pv x) ∧
      Contiguous (raws.filterMap (·.version)) ∧ raws[2]? = some s ∧
      SetCue.bind (SetCue.lin (raws.set 2 { s with version := some x })) = .ok L ∧
      ¬ Contiguous L.allv := by
  refine ⟨needless, SetCue.sch 1 0 [1, 2, 3], ⟨0, 2⟩, ⟨1, 0⟩, ⟨0, 1⟩, _, rfl, ⟨rfl, ?_⟩, rfl, rfl, ?_⟩
  · intro i hi
    rcases i with _ | _ | _ | i
    · left; rfl
    · right; rfl
    · left; rfl
    · exact absurd hi (by simp [needless, SetCue.sch])
  · rintro ⟨_, h⟩
    rcases h 2 (by simp [Lineage.allv]) with h | h <;> exact absurd h (by decide)

end Thema.Props

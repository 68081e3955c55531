import Verif.Spec.CliData
import Verif.Props.Validate
import Verif.Props.TranslateCue

/-!
# The commands `thema data ...` (C73 - C79)
-/

namespace Thema.Props

open Spec Cli

variable {V : Type} {C : Cue V} {force : Bool} {r : RawLineage V} {opts : List (BindOption V)}
  {L : Lineage V} {E : DataEnv V} {F : DataFlags} {d : V}

/-! ### Extensions -/

theorem extLoop_spec (e : Str) (he : '.' ∉ e) (hs : '/' ∉ e) :
    ∀ (s acc : Str), '.' ∉ acc → '/' ∉ acc →
      (extLoop s acc = '.' :: e ↔ ∃ base, s.reverse ++ acc = base ++ '.' :: e)
  | [], acc, h1, _ => by
    simp only [extLoop, List.reverse_nil, List.nil_append]
    constructor
    · intro h; cases h
    · rintro ⟨base, h⟩; exact absurd (h ▸ by simp) h1
  | c :: cs, acc, h1, h2 => by
    unfold extLoop
    by_cases hc : c = '/'
    · rw [if_pos hc]
      subst hc
      constructor
      · intro h; cases h
      · rintro ⟨base, h⟩
        exfalso
        simp only [List.reverse_cons, List.append_assoc, List.singleton_append] at h
        rcases List.append_eq_append_iff.1 h with ⟨t, _, ht⟩ | ⟨t, ht1, ht⟩
        · cases t with
          | nil => simp at ht
          | cons a t =>
            simp only [List.cons_append, List.cons.injEq] at ht
            exact h1 (ht.2 ▸ by simp)
        · cases t with
          | nil => simp at ht
          | cons a t =>
            simp only [List.cons_append, List.cons.injEq] at ht
            exact hs (ht.2 ▸ by simp)
    · rw [if_neg hc]
      by_cases hd : c = '.'
      · subst hd
        simp only [if_true, List.reverse_cons, List.append_assoc, List.singleton_append]
        constructor
        · intro h
          injection h with _ h
          exact ⟨cs.reverse, by rw [h]⟩
        · rintro ⟨base, h⟩
          rcases List.append_eq_append_iff.1 h with ⟨t, ht1, ht⟩ | ⟨t, ht1, ht⟩
          · cases t with
            | nil => simpa using ht
            | cons a t =>
              simp only [List.cons_append, List.cons.injEq] at ht
              exact absurd (ht.2 ▸ by simp) h1
          · cases t with
            | nil => exact ht.symm
            | cons a t =>
              simp only [List.cons_append, List.cons.injEq] at ht
              exact absurd (ht.2 ▸ by simp) he
      · rw [if_neg hd, extLoop_spec e he hs cs (c :: acc) (by simp [h1]; exact fun h => hd h.symm)
          (by simp [h2]; exact fun h => hc h.symm)]
        simp

theorem fileExt_iff (e : Str) (he : '.' ∉ e) (hs : '/' ∉ e) (p : Str) :
    fileExt p = '.' :: e ↔ EndsWith p ('.' :: e) := by
  unfold fileExt EndsWith
  rw [extLoop_spec e he hs _ _ (by simp) (by simp)]
  simp

theorem extFormat_json : extFormat E.args = "json".toList ↔ NamedAs E "json".toList := by
  have h1 := fileExt_iff "json".toList (by decide) (by decide)
  have h2 := fileExt_iff "ldjson".toList (by decide) (by decide)
  unfold NamedAs extFormat
  split
  · rename_i p hp
    rw [hp]
    constructor
    · intro h
      refine ⟨p, rfl, .inl ⟨rfl, ?_⟩⟩
      split at h
      · rename_i h'
        exact h'.imp (h1 p).1 (h2 p).1
      · split at h <;> exact absurd h (by decide)
    · rintro ⟨q, hq, ⟨_, h⟩ | ⟨h, _⟩⟩
      · injection hq with hq; subst hq
        exact if_pos (h.imp (h1 p).2 (h2 p).2)
      · exact absurd h (by decide)
  · rename_i hne
    constructor
    · intro h; exact absurd h (by decide)
    · rintro ⟨q, hq, _⟩; exact absurd hq (hne q)

theorem extFormat_yaml : extFormat E.args = "yaml".toList ↔ NamedAs E "yaml".toList := by
  have h1 := fileExt_iff "yaml".toList (by decide) (by decide)
  have h2 := fileExt_iff "yml".toList (by decide) (by decide)
  unfold NamedAs extFormat
  split
  · rename_i p hp
    rw [hp]
    constructor
    · intro h
      refine ⟨p, rfl, .inr ⟨rfl, ?_⟩⟩
      split at h
      · exact absurd h (by decide)
      · split at h
        · rename_i h'
          exact h'.imp (h1 p).1 (h2 p).1
        · exact absurd h (by decide)
    · rintro ⟨q, hq, ⟨h, _⟩ | ⟨_, h⟩⟩
      · exact absurd h (by decide)
      · injection hq with hq; subst hq
        have h' := h.imp (h1 p).2 (h2 p).2
        have hne : ¬ (fileExt p = ".json".toList ∨ fileExt p = ".ldjson".toList) := by
          rintro (h'' | h'') <;> rcases h' with h' | h' <;>
            exact absurd (h''.symm.trans h') (by decide)
        rw [if_neg hne]
        exact if_pos h'
  · rename_i hne
    constructor
    · intro h; exact absurd h (by decide)
    · rintro ⟨q, hq, _⟩; exact absurd hq (hne q)

/-! ### C73, C74: the input -/

theorem decodeInput_ok {K : Codecs V} {format ext : Str} {b : Bytes} :
    decodeInput K format ext b = .ok d ↔
      DecodesAs K format b d ∧ (format ≠ [] → ext = format) := by
  unfold decodeInput DecodesAs
  by_cases h0 : format = []
  · subst h0
    have e1 : ¬ (([] : Str) = "json".toList) := by decide
    have e2 : ¬ (([] : Str) = "yaml".toList) := by decide
    simp only [if_true, e1, e2, false_and, true_and, false_or, ne_eq, not_true, false_implies, and_true]
    cases hj : K.json b with
    | some v => simp
    | none => cases hy : K.yaml b <;> simp
  · rw [if_neg h0]
    by_cases h1 : format = "json".toList
    · subst h1
      have e2 : ¬ ("json".toList = "yaml".toList) := by decide
      have e3 : ¬ ("json".toList = ([] : Str)) := by decide
      simp only [if_true, e2, e3, false_and, or_false, true_and, ne_eq, not_false_iff, true_implies]
      by_cases hx : ext = "json".toList
      · simp only [hx, not_true, if_false, and_true]
        cases hj : K.json b <;> simp
      · simp only [hx, not_false_iff, if_true, and_false, reduceCtorEq]
    · rw [if_neg h1]
      by_cases h2 : format = "yaml".toList
      · subst h2
        simp only [if_true, h0, h1, false_and, or_false, false_or, true_and, ne_eq, not_false_iff, true_implies]
        by_cases hx : ext = "yaml".toList
        · simp only [hx, not_true, if_false, and_true]
          cases hj : K.yaml b <;> simp
        · simp only [hx, not_false_iff, if_true, and_false, reduceCtorEq]
      · simp only [h0, h1, h2, if_false, false_and, or_false, reduceCtorEq]

theorem pathOrStdin_ok {b : Bytes} : pathOrStdin E.stdin E.fs E.args = .ok b ↔
    Given E b ∧ (E.args = [] → E.stdin.kind = .namedPipe) := by
  unfold pathOrStdin Given
  split
  · rename_i h
    simp only [h]
    by_cases hk : E.stdin.kind = .namedPipe <;> simp [hk]
  · rename_i p h
    cases hf : E.fs p <;> simp [h, hf]
  · rename_i h1 h2
    constructor
    · intro h; cases h
    · rintro ⟨⟨p, hp, _⟩ | ⟨h, _⟩, _⟩
      · exact absurd hp (h2 p)
      · exact absurd h h1

theorem input_ok : validateDataInput E.K E.stdin E.fs F.format E.args = .ok d ↔
    DataIs E F d ∧ Restricted E F := by
  unfold validateDataInput
  have hx : ∀ b, DecodesAs E.K F.format b d →
      ((F.format ≠ [] → extFormat E.args = F.format) ↔ (F.format ≠ [] → NamedAs E F.format)) := by
    rintro b (⟨h, _⟩ | ⟨h, _⟩ | ⟨h, _⟩)
    · rw [h, extFormat_json]
    · rw [h, extFormat_yaml]
    · simp [h]
  constructor
  · intro h
    split at h
    · cases h
    · rename_i b hb
      obtain ⟨h1, h2⟩ := decodeInput_ok.1 h
      obtain ⟨h3, h4⟩ := pathOrStdin_ok.1 hb
      exact ⟨⟨b, h3, h1⟩, h4, (hx b h1).1 h2⟩
  · rintro ⟨⟨b, h3, h1⟩, h4, h2⟩
    rw [pathOrStdin_ok.2 ⟨h3, h4⟩]
    exact decodeInput_ok.2 ⟨h1, (hx b h1).2 h2⟩

/-- Any data command, given that the schema at `p` is selected. -/
theorem dataCommand_eq {α : Type} {nv : Bool} {run : Nat → V → Res (Exit α)} {p : Nat}
    (hs : selectSchema (E.H E.lin) F.verstr = .ok (.ok p)) (hn : nv = true → F.verstr ≠ []) :
    dataCommand E F nv run =
      match validateDataInput E.K E.stdin E.fs F.format E.args with
      | .error e => .ok (.failure e)
      | .ok d => run p d := by
  unfold dataCommand
  have hc : ¬ ((nv && F.verstr.isEmpty) = true) := by
    intro h
    simp only [Bool.and_eq_true, List.isEmpty_iff] at h
    exact hn h.1 h.2
  rw [hs]
  simp only [Res.bind_ok, if_neg hc]
  rfl

/-! ### C79: which schema -/

theorem schema_first (h : bindLineage C force r opts = .ok L) {p : Nat} (hp : p < L.allsch.length)
    (hf : ∀ q, q < p → L.ver q ≠ L.ver p) : L.Schema (L.ver p) = .ok p := by
  have hs := bind_sorted h
  have hmem : L.ver p ∈ L.allv := by
    rw [ver_lt hp]; exact List.getElem_mem _
  obtain ⟨q, hq, hql, hqv⟩ := schema_found hs hmem
  rw [hq]
  have hq' : q = searchSynv L.allv (L.ver p) := by
    unfold Lineage.Schema Lineage.schema at hq
    split at hq
    · split at hq
      · injection hq with hq; exact hq.symm
      · cases hq
    · cases hq
  have h2 := (searchSynv_spec hs (L.ver p)).2.1
  congr 1
  rcases Nat.lt_trichotomy q p with hlt | heq | hgt
  · exact absurd hqv (hf q hlt)
  · exact heq
  · exfalso
    have := h2 p (by simpa using hp) (by omega)
    rw [← ver_lt hp] at this
    simp [SV.less] at this

/-- **C79**.  The flag selects the latest schema if it is empty, and otherwise exactly the
schema (the first, if versions repeat) with the version that the flag denotes; on any other
flag the command fails.  It never panics. -/
theorem C79_version_flag (h : bindLineage C force r opts = .ok L) (verstr : Str) :
    (∀ p, selectSchema L verstr = .ok (.ok p) ↔ Selected L verstr p) ∧
    ((∀ p, ¬ Selected L verstr p) → ∃ e, selectSchema L verstr = .ok (.error e)) := by
  have hpos := bind_pos h
  have hs := bind_sorted h
  unfold selectSchema Selected
  by_cases hv : verstr = []
  · simp only [hv, if_true, true_and, ne_eq, not_true, false_and, or_false]
    have hl : L.latest = .ok (L.allsch.length - 1) := by
      unfold Lineage.latest
      rw [if_neg (by omega)]
    rw [hl]
    refine ⟨fun p => ?_, fun hne => absurd (by omega) (hne (L.allsch.length - 1))⟩
    simp only [Res.map_ok, Res.ok.injEq, Except.ok.injEq]
    omega
  · simp only [hv, if_false, false_and, ne_eq, not_false_iff, true_and, false_or]
    rcases parseSV_cases verstr with ⟨v, hp⟩ | hp
    · obtain ⟨p1, p2, p3⟩ := parseSV_ok_iff.1 hp
      rw [hp]
      simp only
      by_cases hm : v ∈ L.allv
      · obtain ⟨q, hq, hql, hqv⟩ := schema_found hs hm
        rw [hq]
        simp only [Res.ok.injEq, Except.ok.injEq]
        have hq' : q = searchSynv L.allv v := by
          unfold Lineage.Schema Lineage.schema at hq
          split at hq
          · split at hq
            · injection hq with hq; exact hq.symm
            · cases hq
          · cases hq
        have hfirst : ∀ q', q' < q → L.ver q' ≠ v := by
          intro q' hlt heq
          have := (searchSynv_spec hs v).2.1 q' (by simp; omega) (by omega)
          rw [← ver_lt (by omega), heq] at this
          simp [SV.less] at this
        have hsel : ∀ p, (p < L.allsch.length ∧ VersionString verstr (L.ver p) ∧
            (L.ver p).major < 2 ^ 32 ∧ (L.ver p).minor < 2 ^ 32 ∧
            ∀ q, q < p → L.ver q ≠ L.ver p) ↔ q = p := by
          intro p
          constructor
          · rintro ⟨a1, a2, _, _, a5⟩
            have hvp := versionString_unique a2 p1
            rcases Nat.lt_trichotomy q p with hlt | heq | hgt
            · exact absurd (hqv.trans hvp.symm) (a5 q hlt)
            · exact heq
            · exact absurd hvp (hfirst p hgt)
          · rintro rfl
            rw [hqv]
            exact ⟨hql, p1, p2, p3, hfirst⟩
        refine ⟨fun p => (hsel p).symm, fun hne => absurd ((hsel q).2 rfl) (hne q)⟩
      · have hex : L.Schema v = .err ⟨[.versionNotExist]⟩ := by
          unfold Lineage.Schema
          rw [if_neg]
          intro hx
          exact hm ((synvExists_iff hs v).1 hx)
        rw [hex]
        refine ⟨fun p => ?_, fun _ => ⟨_, rfl⟩⟩
        constructor
        · intro hx; cases hx
        · rintro ⟨a1, a2, _⟩
          have hvp := versionString_unique a2 p1
          refine absurd ?_ hm
          rw [← hvp, ver_lt a1]; exact List.getElem_mem _
    · rw [hp]
      simp only
      refine ⟨fun p => ?_, fun _ => ⟨_, rfl⟩⟩
      constructor
      · intro hx; cases hx
      · rintro ⟨a1, a2, a3, a4, _⟩
        have := parseSV_ok_iff.2 ⟨a2, a3, a4⟩
        rw [hp] at this; cases this

/-! ### Validation through the command line -/

theorem cli_admits_iff {p : Nat} (hp : p < L.allsch.length) :
    Admits C L p d ↔ C.accepts L.allsch[p].body d := by
  unfold Admits
  simp [List.getElem?_eq_getElem hp]

theorem cli_admits_lt {p : Nat} (h : Admits C L p d) : p < L.allsch.length := by
  obtain ⟨s, hs, _⟩ := h
  exact (List.getElem?_eq_some_iff.1 hs).1

/-- `Validate`, with the failure it reports. -/
theorem validateFull_cases (hP : PathsOk C) {H : Heap V} {lin p : Nat} (hH : H lin = L)
    (hp : p < L.allsch.length) (d : V) :
    (Admits C L p d ∧ validateFull C H ⟨lin, p⟩ d = .ok (.inl (asInstance lin p d))) ∨
    (¬ Admits C L p d ∧ ∃ f, validateFull C H ⟨lin, p⟩ d = .ok (.inr f)) := by
  rw [cli_admits_iff hp]
  by_cases hacc : C.accepts L.allsch[p].body d
  · refine .inl ⟨hacc, ?_⟩
    rw [validateFull_eq hH hp, hacc]; rfl
  · refine .inr ⟨hacc, ?_⟩
    rw [validateFull_eq hH hp]
    unfold Cue.accepts at hacc
    cases hv : C.validate (C.unify L.allsch[p].body d) with
    | none => exact absurd hv hacc
    | some e =>
      cases e with
      | notCue m => exact ⟨_, rfl⟩
      | cue es =>
        obtain ⟨fs, hf⟩ := (mungeLoop_ok_iff es).2 (hP _ _ hv)
        exact ⟨_, by simp only [mungeValidateErr, hf, Res.map_ok]; rfl⟩

/-- `ValidateAny`, in terms of the oldest schema that admits the data. -/
theorem validateAny_cases (hP : PathsOk C) (h : bindLineage C force r opts = .ok L)
    (hd : L.allv.Nodup) {H : Heap V} {lin : Nat} (hH : H lin = L) (d : V) {n : Nat}
    (hn : L.allsch.length ≤ n) :
    (∃ p, Oldest C L d p ∧ validateAny C H lin d n = .ok (some (asInstance lin p d))) ∨
    ((∀ p, ¬ Admits C L p d) ∧ validateAny C H lin d n = .ok none) := by
  have hs : StrictV L.allv := (bind_sorted h).strict hd
  have heq : validateAny C H lin d n = validateAnyLoop C H lin d n 0 := by
    unfold validateAny; rw [hH, schema_zero h]; rfl
  rw [heq]
  rcases validateAnyLoop_spec hP hs hH d n 0 (bind_pos h) (by omega) with
    ⟨i, hi, _, hacc, hmin, hr⟩ | ⟨hno, hr⟩
  · refine .inl ⟨i, ⟨(cli_admits_iff hi).2 hacc, fun q hq hadm => ?_⟩, hr⟩
    exact hmin q hq (Nat.zero_le _) ((cli_admits_iff (by omega)).1 hadm)
  · refine .inr ⟨fun p hadm => ?_, hr⟩
    have hp := cli_admits_lt hadm
    exact hno p hp (Nat.zero_le _) ((cli_admits_iff hp).1 hadm)

theorem selected_lt {verstr : Str} {p : Nat} (h : Selected L verstr p) : p < L.allsch.length := by
  rcases h with ⟨_, h⟩ | ⟨_, h, _⟩
  · omega
  · exact h

/-- A data command whose input is supplied in the restricted way. -/
theorem dataCommand_run {α : Type} (h : bindLineage C force r opts = .ok L) (hH : E.H E.lin = L)
    (hi : DataIs E F d) (hx : Restricted E F) {nv : Bool} {run : Nat → V → Res (Exit α)} {p : Nat}
    (hs : Selected L F.verstr p) (hn : nv = true → F.verstr ≠ []) :
    dataCommand E F nv run = run p d := by
  rw [dataCommand_eq (p := p) (by rw [hH]; exact ((C79_version_flag h F.verstr).1 p).2 hs) hn,
    input_ok.2 ⟨hi, hx⟩]

/-- **C73**, **C74** (partial).  The input is accepted as `d` exactly if it is the
documented input - the file named by the argument or else standard input, decoded in the
requested format or else as JSON or YAML - and two undocumented restrictions hold: standard
input is a named pipe, and a requested format agrees with the extension of the argument.
Missing: the claims hold without the restrictions; they do not
(`C73_redirected_stdin_refused`, `C74_format_refused`). -/
theorem C73_input_partial (E : DataEnv V) (F : DataFlags) (d : V) :
    validateDataInput E.K E.stdin E.fs F.format E.args = .ok d ↔ DataIs E F d ∧ Restricted E F :=
  input_ok

/-- **C73**.  With an argument, standard input is ignored, by every command. -/
theorem C73_stdin_ignored {α : Type} (E : DataEnv V) (F : DataFlags) (nv : Bool)
    (run : Nat → V → Res (Exit α)) {p : Str} (ha : E.args = [p]) (stdin : Stdin) :
    dataCommand { E with stdin := stdin } F nv run = dataCommand E F nv run := by
  unfold dataCommand validateDataInput pathOrStdin
  simp only [ha]

/-- **C73** (refutation).  Whatever is on standard input, if it is redirected from a file
(or is a terminal) every data command fails. -/
theorem C73_redirected_stdin_refused {α : Type} (h : bindLineage C force r opts = .ok L)
    (hH : E.H E.lin = L) {p : Nat} (hs : Selected L F.verstr p) {nv : Bool}
    (hn : nv = true → F.verstr ≠ []) (run : Nat → V → Res (Exit α)) (ha : E.args = [])
    (hk : E.stdin.kind ≠ .namedPipe) :
    dataCommand E F nv run = .ok (.failure .nothingOnStdin) := by
  rw [dataCommand_eq (p := p) (by rw [hH]; exact ((C79_version_flag h F.verstr).1 p).2 hs) hn]
  simp only [validateDataInput, pathOrStdin, ha, hk, if_false]

/-- **C74**.  A requested format is never overridden: if the input is accepted, it was
decoded in that format; and without request JSON takes precedence. -/
theorem C74_format_respected (E : DataEnv V) (F : DataFlags) {d : V}
    (h : validateDataInput E.K E.stdin E.fs F.format E.args = .ok d) :
    ∃ b, Given E b ∧ DecodesAs E.K F.format b d :=
  (input_ok.1 h).1

/-- **C74** (refutation).  With `-e json` or `-e yaml` every data command fails on standard
input, whatever is on it; and on every file whose extension is not one of that format. -/
theorem C74_format_refused {α : Type} (h : bindLineage C force r opts = .ok L)
    (hH : E.H E.lin = L) {p : Nat} (hs : Selected L F.verstr p) {nv : Bool}
    (hn : nv = true → F.verstr ≠ []) (run : Nat → V → Res (Exit α)) (hF : F.format ≠ [])
    (hx : ¬ NamedAs E F.format) : ∃ e, dataCommand E F nv run = .ok (.failure e) := by
  rw [dataCommand_eq (p := p) (by rw [hH]; exact ((C79_version_flag h F.verstr).1 p).2 hs) hn]
  cases hv : validateDataInput E.K E.stdin E.fs F.format E.args with
  | error e => exact ⟨e, rfl⟩
  | ok d => exact absurd ((input_ok.1 hv).2.2 hF) hx

/-- Standard input has no name. -/
theorem C74_stdin_unnamed (ha : E.args = []) (format : Str) : ¬ NamedAs E format := by
  rintro ⟨p, hp, _⟩
  rw [ha] at hp; cases hp

/-! ### C75: validate -/

/-- **C75** (partial).  `thema data validate` succeeds, printing nothing, exactly if the
selected schema admits the data, and otherwise fails with that schema's validation problem.
Missing: `--quiet` suppresses the problem; it does not (`C75_quiet_ignored`). -/
theorem C75_validate_partial (hP : PathsOk C) (h : bindLineage C force r opts = .ok L)
    (hC : E.C = C) (hH : E.H E.lin = L) (hi : DataIs E F d) (hx : Restricted E F) {p : Nat}
    (hs : Selected L F.verstr p) :
    (Admits C L p d → cmdValidate E F = .ok (.success [])) ∧
    (¬ Admits C L p d → ∃ f, validateFull C E.H ⟨E.lin, p⟩ d = .ok (.inr f) ∧
      cmdValidate E F = .ok (.failure (.invalid p f))) := by
  unfold cmdValidate
  rw [dataCommand_run h hH hi hx hs (by simp), hC]
  unfold runValidate
  rcases validateFull_cases hP hH (selected_lt hs) d with ⟨ha, hv⟩ | ⟨ha, f, hv⟩
  · rw [hv]; exact ⟨fun _ => rfl, fun hn => absurd ha hn⟩
  · rw [hv]; exact ⟨fun hn => absurd hn ha, fun _ => ⟨f, rfl, rfl⟩⟩

/-- **C75** (refutation).  `--quiet` changes nothing: on data that the schema does not accept
the problem is reported all the same, for `validate` and `validate-any`. -/
theorem C75_quiet_ignored (E : DataEnv V) (F : DataFlags) (q : Bool) :
    cmdValidate E { F with quiet := q } = cmdValidate E F ∧
    cmdValidateAny E { F with quiet := q } = cmdValidateAny E F := ⟨rfl, rfl⟩

/-! ### C76: validate-any -/

/-- **C76** (partial).  For distinct versions, `thema data validate-any` prints the selected
version if that schema admits the data, otherwise the oldest version whose schema admits it,
and fails exactly if no schema does, with the problem of the selected schema.  Missing:
without `--version` a failure outputs nothing (`C76_failure_not_silent`). -/
theorem C76_validate_any_partial (hP : PathsOk C) (h : bindLineage C force r opts = .ok L)
    (hd : L.allv.Nodup) (hC : E.C = C) (hH : E.H E.lin = L) (hn : L.allsch.length ≤ E.fuel)
    (hi : DataIs E F d) (hx : Restricted E F) {p : Nat} (hs : Selected L F.verstr p) :
    (Admits C L p d → cmdValidateAny E F = .ok (.success ((L.ver p).str ++ ['\n']))) ∧
    (¬ Admits C L p d → ∀ q, Oldest C L d q →
      cmdValidateAny E F = .ok (.success ((L.ver q).str ++ ['\n']))) ∧
    ((∀ q, ¬ Admits C L q d) → ∃ f, validateFull C E.H ⟨E.lin, p⟩ d = .ok (.inr f) ∧
      cmdValidateAny E F = .ok (.failure (.invalid p f))) := by
  unfold cmdValidateAny
  rw [dataCommand_run h hH hi hx hs (by simp), hC]
  unfold runValidateAny
  simp only
  rcases validateFull_cases hP hH (selected_lt hs) d with ⟨ha, hv⟩ | ⟨ha, f, hv⟩
  · rw [hv, hH]
    exact ⟨fun _ => rfl, fun hn => absurd ha hn, fun hn => absurd ha (hn p)⟩
  · rw [hv]
    simp only [Res.bind_ok]
    unfold validateAnyRest
    rcases validateAny_cases hP h hd hH d hn with ⟨q, hq, hr⟩ | ⟨hno, hr⟩
    · rw [hr]
      refine ⟨fun hn => absurd hn ha, fun _ q' hq' => ?_, fun hn => absurd hq.1 (hn q)⟩
      have : q' = q := by
        rcases Nat.lt_trichotomy q q' with hlt | heq | hgt
        · exact absurd hq.1 (hq'.2 q hlt)
        · exact heq.symm
        · exact absurd hq'.1 (hq.2 q' hgt)
      subst this
      simp only [Res.map_ok, asInstance, hH]
      rfl
    · rw [hr]
      exact ⟨fun hn => absurd hn ha, fun _ q' hq' => absurd hq'.1 (hno q'), fun _ => ⟨f, rfl, rfl⟩⟩

/-- **C76** (refutation).  Without `--version` a failure is never silent: whenever no schema
admits the data, the command prints the problem of the latest schema. -/
theorem C76_failure_not_silent (hP : PathsOk C) (h : bindLineage C force r opts = .ok L)
    (hd : L.allv.Nodup) (hC : E.C = C) (hH : E.H E.lin = L) (hn : L.allsch.length ≤ E.fuel)
    (hi : DataIs E F d) (hx : Restricted E F) (hv : F.verstr = [])
    (hno : ∀ q, ¬ Admits C L q d) :
    ∃ f, cmdValidateAny E F = .ok (.failure (.invalid (L.allsch.length - 1) f)) ∧
      cmdValidateAny E F ≠ .ok (.failure .empty) := by
  have hpos := bind_pos h
  obtain ⟨f, _, hf⟩ := (C76_validate_any_partial hP h hd hC hH hn hi hx
    (p := L.allsch.length - 1) (.inl ⟨hv, by omega⟩)).2.2 hno
  exact ⟨f, hf, by rw [hf]; simp⟩

/-! ### C77: hydrate, dehydrate -/

/-- **C77** (partial).  `hydrate` and `dehydrate` with `--version`: the data is checked
against that schema only, and is hydrated as its instance.  Missing: without the flag it is
checked against all schemas (`C77_only_latest`). -/
theorem C77_version_partial (hP : PathsOk C) (h : bindLineage C force r opts = .ok L)
    (hC : E.C = C) (hH : E.H E.lin = L) (hi : DataIs E F d) (hx : Restricted E F) {p : Nat}
    (hs : Selected L F.verstr p) (op : Inst V → V) (marshal : V → Option Str) :
    (Admits C L p d → ∀ out, marshal (op (asInstance E.lin p d)) = some out →
      cmdHydrate E op marshal F = .ok (.success out)) ∧
    (¬ Admits C L p d → ∃ f, validateFull C E.H ⟨E.lin, p⟩ d = .ok (.inr f) ∧
      cmdHydrate E op marshal F = .ok (.failure (.invalid p f))) := by
  unfold cmdHydrate
  rw [dataCommand_run h hH hi hx hs (by simp), hC]
  unfold runHydrate hydrateInput
  simp only
  rcases validateFull_cases hP hH (selected_lt hs) d with ⟨ha, hv⟩ | ⟨ha, f, hv⟩
  · rw [hv]
    refine ⟨fun _ out ho => ?_, fun hn => absurd ha hn⟩
    simp only [Res.map_ok, ho]
  · rw [hv]; exact ⟨fun hn => absurd hn ha, fun _ => ⟨f, rfl, rfl⟩⟩

/-- **C77** (refutation).  Without `--version` only the latest schema is ever consulted: data
that it does not admit is rejected, even if another schema admits it. -/
theorem C77_only_latest (hP : PathsOk C) (h : bindLineage C force r opts = .ok L)
    (hC : E.C = C) (hH : E.H E.lin = L) (hi : DataIs E F d) (hx : Restricted E F)
    (hv : F.verstr = []) (hno : ¬ Admits C L (L.allsch.length - 1) d) (op : Inst V → V)
    (marshal : V → Option Str) : ∃ e, cmdHydrate E op marshal F = .ok (.failure e) := by
  have hpos := bind_pos h
  obtain ⟨f, _, hf⟩ := (C77_version_partial hP h hC hH hi hx
    (p := L.allsch.length - 1) (.inl ⟨hv, by omega⟩) op marshal).2 hno
  exact ⟨_, hf⟩

/-! ### C78: translate -/

/-- **C78**.  For distinct versions and no Go lenses, if `thema data translate` succeeds then
it reports, as `from`, the oldest version whose schema admits the input and, as `to`, the
version asked for, and the result is accepted by the schema of that version; and it fails if
no schema admits the input.  (The command binds without Go lenses, `load.go:333-337`.) -/
theorem C78_translate (hP : PathsOk C) (h : bindLineage C force r opts = .ok L)
    (hg : goLenses opts = []) (hd : L.allv.Nodup) (hC : E.C = C) (hH : E.H E.lin = L)
    (hn : L.allsch.length ≤ E.fuel) (hi : DataIs E F d) (hx : Restricted E F) {p : Nat}
    (hs : Selected L F.verstr p) (hv : F.verstr ≠ []) (bad : V → Bool) :
    (∀ out, cmdTranslate E bad F = .ok (.success out) →
      ∃ q, Oldest C L d q ∧ out.frm = (L.ver q).str ∧ out.to = (L.ver p).str ∧
        Admits C L p out.result) ∧
    ((∀ q, ¬ Admits C L q d) → cmdTranslate E bad F = .ok (.failure .noSchema)) := by
  unfold cmdTranslate
  rw [dataCommand_run h hH hi hx hs (fun _ => hv), hC]
  unfold runTranslate
  rcases validateAny_cases hP h hd hH d hn with ⟨q, hq, hr⟩ | ⟨hno, hr⟩
  · rw [hr]
    refine ⟨fun out ho => ?_, fun hno => absurd hq.1 (hno q)⟩
    simp only [Res.bind_ok] at ho
    split at ho
    · cases ho
    · cases ho
    · cases ho
    · rename_i tinst lac ht
      split at ho
      · cases ho
      · simp only [Res.ok.injEq, Exit.success.injEq] at ho
        subst ho
        rw [hH] at ht
        obtain ⟨hl, _, hver, hlt, hacc⟩ := C24_result_valid h hg
          (i := asInstance E.lin q d) (H := E.H) hH ht
        have hst := (bind_sorted h).strict hd
        have hpos : tinst.sch.pos = p := by
          have hp := selected_lt hs
          rw [ver_lt hlt, ver_lt hp] at hver
          have hnd := List.pairwise_iff_getElem.1 hd
          rcases Nat.lt_trichotomy tinst.sch.pos p with hlt' | heq | hgt
          · exact absurd hver (hnd _ _ _ _ hlt')
          · exact heq
          · exact absurd hver.symm (hnd _ _ _ _ hgt)
        refine ⟨q, hq, ?_, ?_, ?_⟩
        · simp only [asInstance, hH]
        · simp only [hl, asInstance, hH, hpos]
        · rw [← hpos]; exact (cli_admits_iff hlt).2 hacc
  · rw [hr]
    refine ⟨fun out ho => ?_, fun _ => rfl⟩
    simp at ho

/-- **C78**.  Without `--to` the command fails. -/
theorem C78_version_required (h : bindLineage C force r opts = .ok L) (hH : E.H E.lin = L)
    (hv : F.verstr = []) (bad : V → Bool) :
    cmdTranslate E bad F = .ok (.failure .versionRequired) := by
  have hpos := bind_pos h
  have hs := ((C79_version_flag h F.verstr).1 (L.allsch.length - 1)).2 (.inl ⟨hv, by omega⟩)
  unfold cmdTranslate dataCommand
  rw [hH, hs]
  simp [hv]

/-! ### Concrete cases -/

/-- Bytes are data, if they are a single number: below 10 written as JSON, from 10 on as
YAML (and then ten too large). -/
def toyCodecs : Codecs SetCue.Val where
  json b := match b with
    | [x] => if x < 10 then some [x] else none
    | _ => none
  yaml b := match b with
    | [x] => if x < 10 then some [x] else some [x - 10]
    | _ => none

/-- The lineage 0.0, 0.1, 1.0 and input on standard input. -/
def toyEnv (kind : StdinKind) (b : Bytes) : DataEnv SetCue.Val where
  C := SetCue.cue
  H := fun _ => threeBound
  lin := 0
  K := toyCodecs
  stdin := ⟨kind, b⟩
  fs := fun _ => .unreadable
  args := []
  fuel := 5

/-- No flags. -/
def noFlags : DataFlags := ⟨[], [], false⟩

theorem toy_input (x : Nat) (hx : x < 10) (k : StdinKind) : DataIs (toyEnv k [x]) noFlags [x] :=
  ⟨[x], .inr ⟨rfl, rfl⟩, .inr (.inr ⟨rfl, .inl (by simp [toyEnv, toyCodecs, hx])⟩)⟩

theorem toy_restricted (x : Nat) : Restricted (toyEnv .namedPipe [x]) noFlags :=
  ⟨fun _ => rfl, fun h => absurd rfl h⟩

/-- The hypotheses of C75 - C78 hold for the lineage 0.0, 0.1, 1.0 and input on a pipe. -/
example : bindLineage SetCue.cue false threeVersions [] = .ok threeBound ∧
    threeBound.allv.Nodup ∧ threeBound.allsch.length ≤ 5 ∧ PathsOk SetCue.cue ∧
    DataIs (toyEnv .namedPipe [2]) noFlags [2] ∧ Restricted (toyEnv .namedPipe [2]) noFlags ∧
    Selected threeBound [] 2 ∧ Selected threeBound "0.1".toList 1 ∧
    Oldest SetCue.cue threeBound [2] 1 :=
  ⟨rfl, by decide, by decide, setCue_pathsOk, toy_input 2 (by decide) _, toy_restricted 2,
    .inl ⟨rfl, rfl⟩,
    .inr ⟨by decide, by decide, (parseSV_ok_iff.1 (by rfl : parseSV "0.1".toList = .ok ⟨0, 1⟩)).1,
      by decide, by decide, by decide⟩,
    ⟨_, rfl, by decide⟩, fun q hq => by
      obtain rfl : q = 0 := by omega
      rintro ⟨s, hs, ha⟩
      injection hs with hs; subst hs
      exact absurd ha (by decide)⟩

/-- Data that only 0.1 admits: `validate-any` finds it, `hydrate` without version refuses it
and with version accepts it. -/
example : cmdValidateAny (toyEnv .namedPipe [2]) noFlags = .ok (.success "0.1\n".toList) ∧
    (∃ e, cmdHydrate (toyEnv .namedPipe [2]) (·.raw) (fun _ => some []) noFlags =
      .ok (.failure e)) ∧
    cmdHydrate (toyEnv .namedPipe [2]) (·.raw) (fun _ => some "x".toList)
      { noFlags with verstr := "0.1".toList } = .ok (.success "x".toList) :=
  ⟨rfl, ⟨_, rfl⟩, rfl⟩

/-- Data that no schema admits: the problem of the latest schema is printed, quiet or not. -/
example : ∃ f, cmdValidateAny (toyEnv .namedPipe [7]) { noFlags with quiet := true } =
    .ok (.failure (.invalid 2 f)) := ⟨_, rfl⟩

/-- Input redirected from a file, and input on a pipe with an explicit format. -/
example : cmdValidate (toyEnv .regularFile [3]) noFlags = .ok (.failure .nothingOnStdin) ∧
    cmdValidate (toyEnv .namedPipe [3]) { noFlags with format := "json".toList } =
      .ok (.failure .extensionMismatch) ∧
    cmdValidate (toyEnv .namedPipe [3]) noFlags = .ok (.success []) := ⟨rfl, rfl, rfl⟩

/-- Translation to its own version, and input that YAML only decodes. -/
example : cmdTranslate (toyEnv .namedPipe [13]) (fun _ => false)
    { noFlags with verstr := "1.0".toList } =
      .ok (.success ⟨"1.0".toList, "1.0".toList, [3], []⟩) ∧
    cmdTranslate (toyEnv .namedPipe [3]) (fun _ => false) noFlags =
      .ok (.failure .versionRequired) := ⟨rfl, rfl⟩

example : NamedAs { toyEnv .namedPipe [3] with args := ["dir/a.b.json".toList] } "json".toList ∧
    ¬ NamedAs (toyEnv .namedPipe [3]) "json".toList :=
  ⟨⟨_, rfl, .inl ⟨rfl, .inl ⟨"dir/a.b".toList, rfl⟩⟩⟩, C74_stdin_unnamed rfl _⟩

/-! ### The theorems on concrete commands -/

theorem toy_selected_latest : Selected threeBound [] 2 := .inl ⟨rfl, rfl⟩

theorem toy_selected_named : Selected threeBound "0.1".toList 1 :=
  .inr ⟨by decide, by decide, (parseSV_ok_iff.1 (by rfl : parseSV "0.1".toList = .ok ⟨0, 1⟩)).1,
    by decide, by decide, by decide⟩

theorem toy_none (q : Nat) : ¬ Admits SetCue.cue threeBound q [7] := by
  rintro ⟨s, hs, ha⟩
  match q, hs with
  | 0, hs => injection hs with hs; subst hs; exact absurd ha (by decide)
  | 1, hs => injection hs with hs; subst hs; exact absurd ha (by decide)
  | 2, hs => injection hs with hs; subst hs; exact absurd ha (by decide)

example (b : Stdin) := C73_stdin_ignored (α := Str)
  { toyEnv .namedPipe [3] with args := ["a.json".toList] } noFlags false
  (fun _ _ => .ok (.success [])) rfl b

example : dataCommand (α := Str) (toyEnv .regularFile [3]) noFlags false (fun _ _ => .ok (.success [])) =
    .ok (.failure .nothingOnStdin) :=
  C73_redirected_stdin_refused (C := SetCue.cue) (force := false) (r := threeVersions) (opts := [])
    (L := threeBound) rfl rfl toy_selected_latest (by simp) _ rfl (by decide)

example := C74_format_respected (toyEnv .namedPipe [2]) noFlags (d := [2]) rfl

example : ∃ e, dataCommand (α := Str) (toyEnv .namedPipe [3]) { noFlags with format := "json".toList } false
    (fun _ _ => .ok (.success [])) = .ok (.failure e) :=
  C74_format_refused (C := SetCue.cue) (force := false) (r := threeVersions) (opts := [])
    (L := threeBound) rfl rfl toy_selected_latest (by simp) _ (by decide)
    (C74_stdin_unnamed rfl _)

example : cmdValidate (toyEnv .namedPipe [3]) noFlags = .ok (.success []) :=
  (C75_validate_partial setCue_pathsOk (force := false) (r := threeVersions) (opts := [])
    (L := threeBound) rfl rfl rfl (toy_input 3 (by decide) _) (toy_restricted 3)
    toy_selected_latest).1 ⟨_, rfl, by decide⟩

example : ∃ f, cmdValidateAny (toyEnv .namedPipe [7]) noFlags = .ok (.failure (.invalid 2 f)) := by
  obtain ⟨f, _, h⟩ := (C76_validate_any_partial setCue_pathsOk (force := false)
    (r := threeVersions) (opts := []) (L := threeBound) rfl (by decide) rfl rfl (by decide)
    (toy_input 7 (by decide) .namedPipe) (toy_restricted 7) toy_selected_latest).2.2 toy_none
  exact ⟨f, h⟩

example := C76_failure_not_silent setCue_pathsOk (force := false)
  (r := threeVersions) (opts := []) (L := threeBound) rfl (by decide) rfl rfl (by decide)
  (toy_input 7 (by decide) .namedPipe) (toy_restricted 7) rfl toy_none

example : cmdHydrate (toyEnv .namedPipe [3]) (·.raw) (fun _ => some "x".toList) noFlags =
    .ok (.success "x".toList) :=
  (C77_version_partial setCue_pathsOk (force := false) (r := threeVersions) (opts := [])
    (L := threeBound) rfl rfl rfl (toy_input 3 (by decide) _) (toy_restricted 3)
    toy_selected_latest _ _).1 ⟨_, rfl, by decide⟩ _ rfl

example : ∃ e, cmdHydrate (toyEnv .namedPipe [7]) (·.raw) (fun _ => some "x".toList) noFlags =
    .ok (.failure e) :=
  C77_only_latest setCue_pathsOk (force := false) (r := threeVersions) (opts := [])
    (L := threeBound) rfl rfl rfl (toy_input 7 (by decide) _) (toy_restricted 7) rfl
    (toy_none _) _ _

example : cmdTranslate (toyEnv .namedPipe [7]) (fun _ => false)
    { noFlags with verstr := "0.1".toList } = .ok (.failure .noSchema) :=
  (C78_translate setCue_pathsOk (force := false) (r := threeVersions) (opts := [])
    (L := threeBound) rfl rfl (by decide) rfl rfl (by decide) (d := [7])
    (F := { noFlags with verstr := "0.1".toList })
    ⟨[7], .inr ⟨rfl, rfl⟩, .inr (.inr ⟨rfl, .inl rfl⟩)⟩ ⟨fun _ => rfl, fun h => absurd rfl h⟩
    toy_selected_named (by decide) _).2 toy_none

example : cmdTranslate (toyEnv .namedPipe [3]) (fun _ => false) noFlags =
    .ok (.failure .versionRequired) :=
  C78_version_required (C := SetCue.cue) (force := false) (r := threeVersions) (opts := [])
    (L := threeBound) rfl rfl rfl _

end Thema.Props

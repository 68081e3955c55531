import Verif.Model.CliGen
import Verif.Lemmas.Printf

/-!
# `thema lineage gen` (C83 - C86)
-/

namespace Thema.Props

open Cli Printf

/-! ### Flags -/

theorem set_eq (e : Vars) (v : GVar) (x : Str) : (e.set v x) v = x := if_pos rfl

theorem set_ne {e : Vars} {v w : GVar} {x : Str} (h : w ≠ v) : (e.set v x) w = e w := if_neg h

/-- Within a command, different flags have different variables. -/
theorem genRegs_vars : ∀ r ∈ genRegs, ∀ r' ∈ genRegs, r.cmd = r'.cmd → r.var = r'.var →
    r.flag = r'.flag := by decide

/-- Within a command, a flag is registered once. -/
theorem genRegs_unique : ∀ r ∈ genRegs, ∀ r' ∈ genRegs, r.cmd = r'.cmd → r.flag = r'.flag →
    r = r' := by decide

theorem find_reg {cmd : GCmd} {f : Str} {r : Reg}
    (h : genRegs.find? (fun r => decide (r.cmd = cmd) && decide (r.flag = f)) = some r) :
    r ∈ genRegs ∧ r.cmd = cmd ∧ r.flag = f := by
  refine ⟨List.mem_of_find?_eq_some h, ?_⟩
  have := List.find?_some h
  simpa using this

/-- A variable whose flag is not given keeps its value. -/
theorem setFlags_keeps {cmd : GCmd} {r : Reg} (hr : r ∈ genRegs) (hc : r.cmd = cmd) :
    ∀ (given : List (Str × Str)) (e e' : Vars), (∀ g ∈ given, g.1 ≠ r.flag) →
      setFlags genRegs cmd given e = some e' → e' r.var = e r.var
  | [], e, e', _, h => by injection h with h; rw [h]
  | (f, x) :: rest, e, e', hg, h => by
    unfold setFlags at h
    split at h
    · cases h
    · rename_i r' hf
      obtain ⟨h1, h2, h3⟩ := find_reg hf
      split at h
      · cases h
      · rw [setFlags_keeps hr hc rest _ e' (fun g hm => hg g (List.mem_cons_of_mem _ hm)) h]
        refine set_ne fun hv => ?_
        exact hg (f, x) (List.mem_cons_self ..)
          (h3 ▸ (genRegs_vars r hr r' h1 (hc.trans h2.symm) hv).symm)

/-- What a text means as the value of a flag: for a boolean flag, one of the texts that Go
takes for true or for false; otherwise the text itself. -/
def Means (r : Reg) (x y : Str) : Prop :=
  if r.dflt = off then
    (x ∈ ["1".toList, "t".toList, "T".toList, "TRUE".toList, "true".toList, "True".toList] ∧
      y = on) ∨
    (x ∈ ["0".toList, "f".toList, "F".toList, "FALSE".toList, "false".toList, "False".toList] ∧
      y = off)
  else y = x

theorem parseBool_none {x : Str} (h : parseBool x = none) :
    x ∉ ["1".toList, "t".toList, "T".toList, "TRUE".toList, "true".toList, "True".toList] ∧
    x ∉ ["0".toList, "f".toList, "F".toList, "FALSE".toList, "false".toList, "False".toList] := by
  unfold parseBool at h
  split at h
  · cases h
  · rename_i h1
    split at h
    · cases h
    · rename_i h2
      exact ⟨h1, h2⟩

theorem parse_iff {r : Reg} {x y : Str} : r.parse x = some y ↔ Means r x y := by
  unfold Reg.parse Means
  by_cases hd : r.dflt = off
  · rw [if_pos hd, if_pos hd]
    constructor
    · intro h
      unfold parseBool at h
      split at h
      · rename_i h1
        simp only [Option.map_some, Option.some.injEq, if_true] at h
        exact .inl ⟨h1, h.symm⟩
      · split at h
        · rename_i h2
          simp only [Option.map_some, Option.some.injEq, Bool.false_eq_true, if_false] at h
          exact .inr ⟨h2, h.symm⟩
        · cases h
    · rintro (⟨h1, rfl⟩ | ⟨h1, rfl⟩)
      · revert x; decide
      · revert x; decide
  · rw [if_neg hd, if_neg hd, Option.some.injEq]
    exact eq_comm

/-- A variable whose flag is given has the value given last. -/
theorem setFlags_given {cmd : GCmd} {r : Reg} (hr : r ∈ genRegs) (hc : r.cmd = cmd) (x : Str) :
    ∀ (pre post : List (Str × Str)) (e e' : Vars), (∀ g ∈ post, g.1 ≠ r.flag) →
      setFlags genRegs cmd (pre ++ (r.flag, x) :: post) e = some e' → Means r x (e' r.var)
  | [], post, e, e', hp, h => by
    rw [List.nil_append] at h
    unfold setFlags at h
    split at h
    · cases h
    · rename_i r' hf
      obtain ⟨h1, h2, h3⟩ := find_reg hf
      have := genRegs_unique r hr r' h1 (hc.trans h2.symm) h3.symm
      subst this
      split at h
      · cases h
      · rename_i y hy
        rw [setFlags_keeps hr hc post _ e' hp h, set_eq]
        exact parse_iff.1 hy
  | (f, y) :: pre, post, e, e', hp, h => by
    rw [List.cons_append] at h
    unfold setFlags at h
    split at h
    · cases h
    · split at h
      · cases h
      · exact setFlags_given hr hc x pre post _ e' hp h

/-- The initial value is the default of the flag registered last. -/
theorem register_last (regs : List Reg) (e : Vars) (v : GVar) :
    register regs e v =
      ((regs.filter fun r => decide (r.var = v)).getLast?.map (·.dflt)).getD (e v) := by
  induction regs generalizing e with
  | nil => rfl
  | cons r rs ih =>
    have : register (r :: rs) e v = register rs (e.set r.var r.dflt) v := rfl
    rw [this, ih]
    by_cases hv : r.var = v
    · subst hv
      rw [List.filter_cons_of_pos (by simp)]
      cases h : (rs.filter fun r' => decide (r'.var = r.var)) with
      | nil => simp [set_eq]
      | cons a as =>
        rw [List.getLast?_cons_cons]
        rcases hl : (a :: as).getLast? with _ | z
        · simp at hl
        · rfl
    · rw [List.filter_cons_of_neg (by simp [hv]), set_ne (fun h => hv h.symm)]

/-- **C84** (partial).  A flag that is not given has the default that `--help` shows for it.
Missing: `--format` of `gen openapi` (`C84_openapi_default`). -/
theorem C84_default_partial {cmd : GCmd} {given : List (Str × Str)} {e : Vars}
    (h : genVars cmd given = some e) {r : Reg} (hr : r ∈ genRegs) (hc : r.cmd = cmd)
    (hx : ¬ (r.cmd = .openapi ∧ r.flag = "format".toList)) (hg : ∀ g ∈ given, g.1 ≠ r.flag) :
    e r.var = r.dflt := by
  have h0 : ∀ r ∈ genRegs, ¬ (r.cmd = .openapi ∧ r.flag = "format".toList) →
      ((genRegs.filter fun r' => decide (r'.var = r.var)).getLast?.map (·.dflt)).getD [] =
        r.dflt := by decide
  rw [setFlags_keeps hr hc given _ e hg h, register_last]
  exact h0 r hr hx

/-- **C84** (given flags).  A flag that is given has the value given last, whichever other
flags are given: the text or, for a boolean flag, what the text means. -/
theorem C84_given {cmd : GCmd} {pre post : List (Str × Str)} {e : Vars} {r : Reg} {x : Str}
    (h : genVars cmd (pre ++ (r.flag, x) :: post) = some e) (hr : r ∈ genRegs)
    (hc : r.cmd = cmd) (hp : ∀ g ∈ post, g.1 ≠ r.flag) : Means r x (e r.var) :=
  setFlags_given hr hc x pre post _ e hp h

/-- **C84** (refutation).  `gen openapi` without `--format` writes JSON, though its help says
that the default is YAML: the default of `gen jsonschema`, registered later, is written to
the same variable. -/
theorem C84_openapi_default (E : GenEnv) {given : List (Str × Str)} {doc : Errs Doc}
    {code : Errs Str} {o : Effect} (h : runGen E .openapi given doc code = some o)
    (hg : ∀ g ∈ given, g.1 ≠ "format".toList) :
    (⟨.openapi, "format".toList, .format, "yaml".toList⟩ : Reg) ∈ genRegs ∧
    o = runDoc "json".toList doc := by
  have hm : (⟨.openapi, "format".toList, .format, "yaml".toList⟩ : Reg) ∈ genRegs := by decide
  refine ⟨hm, ?_⟩
  unfold runGen at h
  cases hv : genVars .openapi given with
  | none => rw [hv] at h; cases h
  | some e =>
    rw [hv] at h
    simp only [Option.map_some, Option.some.injEq] at h
    have hf : e .format = "json".toList := by
      have := setFlags_keeps hm rfl given _ e hg hv
      exact this.trans (by rw [register_last]; decide)
    rw [← h]
    simp only [dispatch, hf]

/-! ### C83: documents are printed as they are -/

/-- The document as text, in the format asked for. -/
def RendersAs (d : Doc) (format text : Str) : Prop :=
  (format = "json".toList ∧ ∃ b, d.json = some b ∧ d.indent b = .ok text) ∨
  ((format = "yaml".toList ∨ format = "yml".toList) ∧ d.yaml = .ok text)

theorem renderDoc_of {d : Doc} {format text : Str} (h : RendersAs d format text) :
    renderDoc format d = (.ok text, []) := by
  rcases h with ⟨rfl, b, h1, h2⟩ | ⟨hf, h⟩
  · unfold renderDoc
    rw [if_pos rfl, h1]
    simp only [h2]
  · unfold renderDoc
    rw [if_neg (by rcases hf with rfl | rfl <;> decide), if_pos hf, h]

/-- The run of a command that writes a document. -/
theorem runGen_doc {E : GenEnv} {cmd : GCmd} (hc : cmd = .openapi ∨ cmd = .jsonschema)
    {pre post : List (Str × Str)} {format : Str} {doc : Errs Doc} {code : Errs Str} {o : Effect}
    (h : runGen E cmd (pre ++ ("format".toList, format) :: post) doc code = some o)
    (hp : ∀ g ∈ post, g.1 ≠ "format".toList) : o = runDoc format doc := by
  unfold runGen at h
  cases hv : genVars cmd (pre ++ ("format".toList, format) :: post) with
  | none => rw [hv] at h; cases h
  | some e =>
    rw [hv] at h
    simp only [Option.map_some, Option.some.injEq] at h
    rcases hc with rfl | rfl
    · have hf := C84_given (r := ⟨.openapi, "format".toList, .format, "yaml".toList⟩) hv
        (by decide) rfl hp
      replace hf : e .format = format := hf
      rw [← h]
      simp only [dispatch, hf]
    · have hf := C84_given (r := ⟨.jsonschema, "format".toList, .format, "json".toList⟩) hv
        (by decide) rfl hp
      replace hf : e .format = format := hf
      rw [← h]
      simp only [dispatch, hf]

/-- **C83** (partial).  `gen openapi` and `gen jsonschema` write the generated document, in the
format asked for, to standard output, and nothing else.  Missing: documents with a
percent sign (`C83_percent_changed`). -/
theorem C83_verbatim_partial {E : GenEnv} {cmd : GCmd} (hc : cmd = .openapi ∨ cmd = .jsonschema)
    {pre post : List (Str × Str)} {format text : Str} {d : Doc} {code : Errs Str} {o : Effect}
    (h : runGen E cmd (pre ++ ("format".toList, format) :: post) (.ok d) code = some o)
    (hp : ∀ g ∈ post, g.1 ≠ "format".toList) (ht : RendersAs d format text)
    (hpc : '%' ∉ text) : o = ⟨text, [], [], 0⟩ := by
  rw [runGen_doc hc h hp]
  simp only [runDoc, renderDoc_of ht, fprintf_of_not_mem text hpc]

/-- The text changes if its first percent sign is followed by a character that is a verb. -/
theorem fprintf_first_ne {pre post : Str} {c : Char} (hpre : '%' ∉ pre)
    (hm : isModifier c = false) (hc : c ≠ '%') :
    fprintf (pre ++ '%' :: c :: post) ≠ pre ++ '%' :: c :: post := by
  intro h
  rw [fprintf_append _ _ hpre, fprintf_percent, directive_plain hm, if_neg hc] at h
  have h1 := List.append_cancel_left h
  simp only [List.cons_append, List.cons.injEq, true_and] at h1
  obtain ⟨h2, h3⟩ := h1
  subst h2
  have h4 : post = "!(MISSING)".toList ++ fprintf post := by
    exact h3.symm
  exact no_missing_fix post.length post (Nat.le_refl _) h4

/-- **C83** (refutation).  A document whose first percent sign is followed by a character that
ends a verb (a quotation mark, a comma, a letter, ...), or ends the document, is not
written as it is, and the command still succeeds. -/
theorem C83_percent_changed {E : GenEnv} {cmd : GCmd} (hc : cmd = .openapi ∨ cmd = .jsonschema)
    {pre post : List (Str × Str)} {format before after : Str} {d : Doc} {code : Errs Str}
    {o : Effect}
    (h : runGen E cmd (pre ++ ("format".toList, format) :: post) (.ok d) code = some o)
    (hp : ∀ g ∈ post, g.1 ≠ "format".toList) (hb : '%' ∉ before)
    (ht : RendersAs d format (before ++ '%' :: after))
    (ha : ∀ c rest, after = c :: rest → isModifier c = false ∧ c ≠ '%') :
    o.stdout ≠ before ++ '%' :: after ∧ o.status = 0 := by
  rw [runGen_doc hc h hp]
  simp only [runDoc, renderDoc_of ht, and_true]
  cases after with
  | nil =>
    rw [fprintf_append _ _ hb, fprintf_percent, directive_nil]
    intro he
    have := List.append_cancel_left he
    exact absurd this (by decide)
  | cons c rest =>
    obtain ⟨hm, hne⟩ := ha c rest rfl
    exact fprintf_first_ne hb hm hne

/-- **C83** (documents without modifiers).  If every percent sign is followed by a verb, the
document is written as it is exactly if it has no percent sign. -/
theorem C83_verbatim_iff {E : GenEnv} {cmd : GCmd} (hc : cmd = .openapi ∨ cmd = .jsonschema)
    {pre post : List (Str × Str)} {format text : Str} {d : Doc} {code : Errs Str} {o : Effect}
    (h : runGen E cmd (pre ++ ("format".toList, format) :: post) (.ok d) code = some o)
    (hp : ∀ g ∈ post, g.1 ≠ "format".toList) (ht : RendersAs d format text)
    (hpl : Plain text) : o.stdout = text ↔ '%' ∉ text := by
  rw [runGen_doc hc h hp]
  simp only [runDoc, renderDoc_of ht]
  constructor
  · intro he hm
    have := (plain_count text.length text (Nat.le_refl _) hpl).2 (by rw [he])
    have := this.2 hm
    rw [he] at this
    exact Nat.lt_irrefl _ this
  · exact fprintf_of_not_mem text

/-- A document with a percent sign in a description. -/
def percentDoc : Doc where
  json := some "{\"d\":\"100%\"}".toList
  jsonErr := none
  indent b := .ok b
  yaml := .ok "d: 100%\n".toList

/-- An environment. -/
def someGen : GenEnv :=
  { dir := "/a".toList, epath := "x.cue".toList, name := "Ship".toList, lname := "ship".toList }

/-- The document `{"d":"100%"}` is written as `{"d":"100%!"(MISSING)}`. -/
example : runGen someGen .jsonschema [("format".toList, "json".toList)] (.ok percentDoc) (.ok []) =
    some ⟨"{\"d\":\"100%!\"(MISSING)}".toList, [], [], 0⟩ := by decide

example : RendersAs percentDoc "json".toList ("{\"d\":\"100".toList ++ '%' :: "\"}".toList) :=
  .inl ⟨rfl, _, rfl, rfl⟩

/-! ### C85: failures are reported -/

/-- **C85** (partial).  If the document cannot be generated or, for a known format, rendered,
the command writes nothing to standard output, the error to standard error, and exits
with status 1.  Missing: unknown formats (`C85_unknown_format`). -/
theorem C85_failure_partial {E : GenEnv} {cmd : GCmd} (hc : cmd = .openapi ∨ cmd = .jsonschema)
    {pre post : List (Str × Str)} {format e : Str} {doc : Errs Doc} {code : Errs Str} {o : Effect}
    (h : runGen E cmd (pre ++ ("format".toList, format) :: post) doc code = some o)
    (hp : ∀ g ∈ post, g.1 ≠ "format".toList)
    (hf : doc = .error e ∨ ∃ d, doc = .ok d ∧
      ((format = "json".toList ∧ ((d.json = none ∧ d.jsonErr = some e) ∨
          ∃ b, d.json = some b ∧ d.indent b = .error e)) ∨
        ((format = "yaml".toList ∨ format = "yml".toList) ∧ d.yaml = .error e))) :
    o = ⟨[], e, [], 1⟩ := by
  rw [runGen_doc hc h hp]
  rcases hf with rfl | ⟨d, rfl, ⟨rfl, ⟨h1, h2⟩ | ⟨b, h1, h2⟩⟩ | ⟨hf, h1⟩⟩
  · rfl
  · simp [runDoc, renderDoc, h1, h2]
  · simp [runDoc, renderDoc, h1, h2]
  · have hne : format ≠ "json".toList := by rcases hf with rfl | rfl <;> decide
    simp only [runDoc, renderDoc, if_neg hne, if_pos hf, h1, List.nil_append]

/-- **C85** (refutation).  An unknown format is not an error: the command writes nothing to
standard output and succeeds, whatever the document. -/
theorem C85_unknown_format {E : GenEnv} {cmd : GCmd} (hc : cmd = .openapi ∨ cmd = .jsonschema)
    {pre post : List (Str × Str)} {format : Str} {d : Doc} {code : Errs Str} {o : Effect}
    (h : runGen E cmd (pre ++ ("format".toList, format) :: post) (.ok d) code = some o)
    (hp : ∀ g ∈ post, g.1 ≠ "format".toList)
    (hf : format ∉ ["json".toList, "yaml".toList, "yml".toList]) :
    o.stdout = [] ∧ o.status = 0 := by
  rw [runGen_doc hc h hp]
  simp only [List.mem_cons, List.not_mem_nil, or_false, not_or] at hf
  have h2 : ¬ (format = "yaml".toList ∨ format = "yml".toList) := by
    rintro (h | h)
    · exact hf.2.1 h
    · exact hf.2.2 h
  simp only [runDoc, renderDoc, if_neg hf.1, if_neg h2]
  exact ⟨rfl, trivial⟩

example : runGen someGen .openapi [("format".toList, "toml".toList)] (.ok percentDoc) (.ok []) =
    some ⟨[], "unrecognized output format toml".toList, [], 0⟩ := by decide

example : (runGen someGen .openapi [] (.ok percentDoc) (.ok [])).map (·.stdout.take 1) =
    some "{".toList := by decide

/-! ### C86: where generated Go code goes -/

/-- `gen gotypes` has no flag for the variable that selects standard output. -/
theorem gotypes_stdout_off {given : List (Str × Str)} {e : Vars}
    (h : genVars .gotypes given = some e) : e .stdout = off := by
  have h0 : ∀ (given : List (Str × Str)) (e e' : Vars),
      setFlags genRegs .gotypes given e = some e' → e' .stdout = e .stdout := by
    intro given
    induction given with
    | nil => intro e e' h; injection h with h; rw [h]
    | cons g rest ih =>
      intro e e' h
      obtain ⟨f, x⟩ := g
      unfold setFlags at h
      split at h
      · cases h
      · rename_i r hr
        obtain ⟨h1, h2, _⟩ := find_reg hr
        split at h
        · cases h
        rw [ih _ _ h]
        have : ∀ r ∈ genRegs, r.cmd = .gotypes → r.var ≠ .stdout := by decide
        exact set_ne fun hx => this r h1 h2 hx.symm
  rw [h0 _ _ _ h, register_last]
  decide

/-- **C86** (partial).  `gen gobindings --stdout` writes the code to standard output and no
file; without `--stdout` it writes it, and nothing else, to one file beside the lineage.
Missing: `gen gotypes --stdout` (`C86_gotypes_stdout`). -/
theorem C86_destination_partial {E : GenEnv} {pre post : List (Str × Str)} {code : Str}
    {doc : Errs Doc} {o : Effect} (hpc : '%' ∉ E.epath) (hre : E.rootErr = none)
    (hwe : E.writeErr = none) :
    (runGen E .gobindings (pre ++ ("stdout".toList, on) :: post) doc (.ok code) = some o →
      (∀ g ∈ post, g.1 ≠ "stdout".toList) → o = ⟨goheader ++ code, [], [], 0⟩) ∧
    (∀ cmd sfx, (cmd = .gobindings ∧ sfx = "_bindings_gen.go".toList) ∨
        (cmd = .gotypes ∧ sfx = "_types_gen.go".toList) →
      runGen E cmd pre doc (.ok code) = some o → (∀ g ∈ pre, g.1 ≠ "stdout".toList) →
      o.files = [(E.dir ++ "/".toList ++ E.lname ++ sfx, goheaderp E.epath ++ code)] ∧
      o.status = 0) := by
  have hh : fprintf (goheaderp E.epath) = goheaderp E.epath := by
    apply fprintf_of_not_mem
    unfold goheaderp
    rw [List.mem_append, List.mem_append]
    rintro ((h | h) | h)
    · revert h; decide
    · exact hpc h
    · revert h; decide
  have hpath : ∀ sfx, genFile E sfx = E.dir ++ "/".toList ++ E.lname ++ sfx := by
    intro sfx
    have : "/".toList = ['/'] := by decide
    simp [genFile, this]
  constructor
  · intro h hp
    unfold runGen at h
    cases hv : genVars .gobindings (pre ++ ("stdout".toList, on) :: post) with
    | none => rw [hv] at h; cases h
    | some e =>
      rw [hv] at h
      simp only [Option.map_some, Option.some.injEq] at h
      have hf := C84_given (r := ⟨.gobindings, "stdout".toList, .stdout, off⟩) hv
        (by decide) rfl hp
      replace hf : e .stdout = on := by
        rcases hf with ⟨_, h⟩ | ⟨h, _⟩
        · exact h
        · exact absurd h (by decide)
      rw [← h]
      simp only [dispatch, runGoBindings, hf, if_true]
  · intro cmd sfx hcs h hp
    unfold runGen at h
    cases hv : genVars cmd pre with
    | none => rw [hv] at h; cases h
    | some e =>
      rw [hv] at h
      simp only [Option.map_some, Option.some.injEq] at h
      have hoff : ¬ (off = on) := by decide
      rcases hcs with ⟨rfl, rfl⟩ | ⟨rfl, rfl⟩
      · have hf := C84_default_partial hv
          (r := ⟨.gobindings, "stdout".toList, .stdout, off⟩) (by decide) rfl (by decide) hp
        simp only at hf
        rw [← h]
        simp only [dispatch, runGoBindings, hf, if_neg hoff, hh, hpath, hre, hwe, and_self]
      · have hf : e .stdout = off := gotypes_stdout_off hv
        rw [← h]
        simp only [dispatch, runGoTypes, hf, if_neg hoff, hh, hpath, hwe, and_self]

/-- **C86** (refutation).  `gen gotypes` never writes to standard output, with `--stdout` or
without: it always writes the file.  (Nor does it print the file's name, `--quiet` or
not.) -/
theorem C86_gotypes_stdout {E : GenEnv} {given : List (Str × Str)} {code : Str} {doc : Errs Doc}
    {o : Effect} (h : runGen E .gotypes given doc (.ok code) = some o) :
    o.stdout = [] ∧ (E.writeErr = none →
      ∃ content, o.files = [(genFile E "_types_gen.go".toList, content)]) := by
  unfold runGen at h
  cases hv : genVars .gotypes given with
  | none => rw [hv] at h; cases h
  | some e =>
    rw [hv] at h
    simp only [Option.map_some, Option.some.injEq] at h
    have hoff : ¬ (off = on) := by decide
    rw [← h]
    simp only [dispatch, runGoTypes, gotypes_stdout_off hv, if_neg hoff]
    cases hw : E.writeErr with
    | none => exact ⟨rfl, fun _ => ⟨_, rfl⟩⟩
    | some e => exact ⟨rfl, fun h => by cases h⟩

example : (runGen someGen .gotypes [("stdout".toList, on), ("quiet".toList, off)] (.ok percentDoc)
    (.ok "package ship".toList)).map (fun o => (o.stdout, o.files.map (·.1))) =
    some ([], ["/a/ship_types_gen.go".toList]) := by decide

example : (runGen someGen .gobindings [("stdout".toList, on)] (.ok percentDoc)
    (.ok "package ship".toList)).map (fun o => (o.stdout.take 7, o.files.length)) =
    some ("// THIS".toList, 0) := by decide

/-! ### The theorems on concrete commands -/

/-- `thema lineage gen openapi` without `--format` writes JSON, though the registered default is
yaml. -/
example : ∃ o, runGen someGen .openapi [] (.ok percentDoc) (.ok []) = some o ∧
    o = runDoc "json".toList (.ok percentDoc) :=
  ⟨_, rfl, (C84_openapi_default someGen (given := []) (doc := .ok percentDoc) (code := .ok []) rfl
    (by simp)).2⟩

example : ∃ e, genVars .gobindings [("version".toList, "1.0".toList)] = some e ∧
    e .private_ = off :=
  ⟨_, rfl, C84_default_partial (cmd := .gobindings) (given := [("version".toList, "1.0".toList)])
    rfl (r := ⟨.gobindings, "private".toList, .private_, off⟩) (by decide) rfl (by decide)
    (by decide)⟩

def plainDoc : Doc where
  json := some "{\"d\":1}".toList
  jsonErr := none
  indent b := .ok b
  yaml := .error "no yaml".toList

example : ∃ o, runGen someGen .jsonschema [("format".toList, "json".toList)] (.ok plainDoc) (.ok []) =
    some o ∧ o = ⟨"{\"d\":1}".toList, [], [], 0⟩ ∧ o.stdout = "{\"d\":1}".toList :=
  ⟨_, rfl, C83_verbatim_partial (E := someGen) (.inr rfl) (pre := []) (post := [])
      (format := "json".toList) (d := plainDoc) (code := .ok []) rfl (by simp)
      (.inl ⟨rfl, _, rfl, rfl⟩) (by decide),
    (C83_verbatim_iff (E := someGen) (.inr rfl) (pre := []) (post := [])
      (format := "json".toList) (d := plainDoc) (code := .ok []) rfl (by simp)
      (.inl ⟨rfl, _, rfl, rfl⟩) (by simp [Plain])).2 (by decide)⟩

example : ∃ o, runGen someGen .jsonschema [("format".toList, "json".toList)] (.ok percentDoc)
      (.ok []) = some o ∧ o.stdout ≠ "{\"d\":\"100%\"}".toList ∧ o.status = 0 :=
  ⟨_, rfl, C83_percent_changed (E := someGen) (.inr rfl) (pre := []) (post := [])
    (format := "json".toList) (before := "{\"d\":\"100".toList) (after := "\"}".toList)
    (d := percentDoc) (code := .ok []) rfl (by simp) (by decide) (.inl ⟨rfl, _, rfl, rfl⟩)
    (fun c rest h => by injection h with h _; subst h; decide)⟩

example : ∃ o, runGen someGen .openapi [("format".toList, "yaml".toList)] (.ok plainDoc) (.ok []) =
    some o ∧ o = ⟨[], "no yaml".toList, [], 1⟩ :=
  ⟨_, rfl, C85_failure_partial (E := someGen) (.inl rfl) (pre := []) (post := [])
    (format := "yaml".toList) (doc := .ok plainDoc) (code := .ok []) rfl (by simp)
    (.inr ⟨_, rfl, .inr ⟨.inl rfl, rfl⟩⟩)⟩

example : ∃ o, runGen someGen .openapi [("format".toList, "toml".toList)] (.ok plainDoc) (.ok []) =
    some o ∧ o.stdout = [] ∧ o.status = 0 :=
  ⟨_, rfl, C85_unknown_format (E := someGen) (.inl rfl) (pre := []) (post := [])
    (format := "toml".toList) (d := plainDoc) (code := .ok []) rfl (by simp) (by decide)⟩

example : ∃ o, runGen someGen .gobindings [("stdout".toList, on)] (.ok plainDoc)
      (.ok "package ship".toList) = some o ∧ o = ⟨goheader ++ "package ship".toList, [], [], 0⟩ :=
  ⟨_, rfl, (C86_destination_partial (E := someGen) (pre := []) (post := [])
    (code := "package ship".toList) (doc := .ok plainDoc) (by decide) rfl rfl).1 rfl (by simp)⟩

example : ∃ o, runGen someGen .gotypes [("stdout".toList, on)] (.ok plainDoc)
      (.ok "package ship".toList) = some o ∧ o.stdout = [] :=
  ⟨_, rfl, (C86_gotypes_stdout (E := someGen) (given := [("stdout".toList, on)])
    (code := "package ship".toList) (doc := .ok plainDoc) rfl).1⟩

end Thema.Props

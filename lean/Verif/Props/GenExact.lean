import Verif.Props.GoGen
import Verif.Props.CliGen

/-!
# C171 and C172: generated bindings and the commands of `gen`, exactly
-/

namespace Thema.Props

open GoGen

/-! ### C171: names -/

/-- **C171** (undefined names).  The file uses a name that it does not declare exactly in two
cases: without `LoadDir`, `loadInstanceFor$NAME`; with `LoadDir` but without `EmbedPath` or
without `CueModName`, `getThemaFSFor$NAME`. -/
theorem C171_undefined (S : Std) (name : Str) (cfg : BindingConfig) (n : Str) :
    Undefined (generateBinding S name cfg) n ↔
      (cfg.loadDir = [] ∧ n = "loadInstanceFor".toList ++ name) ∨
      (cfg.loadDir ≠ [] ∧ (cfg.embedPath = [] ∨ cfg.cueModName = []) ∧
        n = "getThemaFSFor".toList ++ name) := by
  by_cases hl : cfg.loadDir = []
  · rw [C87_self_contained_partial S name cfg (fun h => absurd hl h)]
    constructor
    · rintro h; exact .inl h
    · rintro (h | ⟨h, _⟩)
      · exact h
      · exact absurd hl h
  · by_cases he : cfg.embedPath = [] ∨ cfg.cueModName = []
    · constructor
      · rintro ⟨hu, hd⟩
        refine .inr ⟨hl, he, ?_⟩
        rcases (uses_cases n).1 hu with ⟨h1, h2⟩ | h2 | ⟨h1, h2, h3⟩ | ⟨h1, h2⟩
        · subst h2; exact absurd (base_declared h1) hd
        · refine absurd ?_ hd
          rw [declares_cases]
          exact .inr (.inr (.inr (.inr ⟨hl, h2⟩)))
        · rcases he with he | he
          · exact absurd he h1
          · exact absurd he h2
        · exact h2
      · rintro (⟨h, _⟩ | ⟨_, _, rfl⟩)
        · exact absurd h hl
        · exact C87_fs_func_missing S name cfg hl he
    · have hne : cfg.embedPath ≠ [] ∧ cfg.cueModName ≠ [] :=
        ⟨fun h => he (.inl h), fun h => he (.inr h)⟩
      rw [C87_self_contained_partial S name cfg (fun _ => hne)]
      constructor
      · rintro ⟨h, _⟩; exact absurd h hl
      · rintro (⟨h, _⟩ | ⟨_, h, _⟩)
        · exact absurd h hl
        · exact absurd h he

theorem factoryName_inj {S : Std} {n1 n2 : Str} {c1 c2 : BindingConfig} :
    factoryName S n1 c1 = factoryName S n2 c2 ↔
      c1.privateFactory = c2.privateFactory ∧ suffixAsked S n1 c1 = suffixAsked S n2 c2 := by
  unfold factoryName
  cases c1.privateFactory <;> cases c2.privateFactory <;> simp

/-- **C171** (clashes).  The bindings of two lineages with different names can share a package
exactly if their suffixes differ, or one factory is private and the other is not, and not
both are convergent. -/
theorem C171_clash (S : Std) {n1 n2 : Str} (hn : n1 ≠ n2) (c1 c2 : BindingConfig) :
    (∃ n, Declares (generateBinding S n1 c1) n ∧ Declares (generateBinding S n2 c2) n) ↔
      suffixAsked S n1 c1 = suffixAsked S n2 c2 ∧
      (c1.privateFactory = c2.privateFactory ∨
        c1.assignee.isSome = true ∧ c2.assignee.isSome = true) := by
  constructor
  · rintro ⟨n, h1, h2⟩
    rw [declares_cases] at h1 h2
    have hx : ∀ (p : Str), p ++ n1 = p ++ n2 → False := fun p h => hn (List.append_cancel_left h)
    have hf1 := head_factory S n1 c1
    have hf2 := head_factory S n2 c2
    have dL : ∀ (b : Bool) (c : Char), c ≠ 'd' → c ≠ 'L' → (if b then 'd' else 'L') ≠ c := by
      intro b c h1 h2; cases b
      · exact fun h => h2 h.symm
      · exact fun h => h1 h.symm
    rcases h1 with h1 | ⟨a1, h1⟩ | ⟨_, h1⟩ | ⟨_, _, h1⟩ | ⟨_, h1⟩ <;>
    rcases h2 with h2 | ⟨a2, h2⟩ | ⟨_, h2⟩ | ⟨_, _, h2⟩ | ⟨_, h2⟩ <;> rw [h1] at h2
    · obtain ⟨h3, h4⟩ := factoryName_inj.1 h2
      exact ⟨h4, .inl h3⟩
    · rw [h2] at hf1; injection hf1 with hf1; exact absurd hf1.symm (dL _ _ (by decide) (by decide))
    · rw [h2] at hf1; injection hf1 with hf1; exact absurd hf1.symm (dL _ _ (by decide) (by decide))
    · rw [h2] at hf1; injection hf1 with hf1; exact absurd hf1.symm (dL _ _ (by decide) (by decide))
    · rw [h2] at hf1; injection hf1 with hf1; exact absurd hf1.symm (dL _ _ (by decide) (by decide))
    · rw [← h2] at hf2; injection hf2 with hf2; exact absurd hf2.symm (dL _ _ (by decide) (by decide))
    · exact ⟨List.append_cancel_left (List.append_cancel_left h2), .inr ⟨a1, a2⟩⟩
    · exact absurd h2 (ne_of_head (by rw [head_base, head_fsVar]; decide))
    · exact absurd h2 (ne_of_head (by rw [head_base, head_fsFunc]; decide))
    · exact absurd h2 (ne_of_head (by rw [head_base, head_loadFunc]; decide))
    · rw [← h2] at hf2; injection hf2 with hf2; exact absurd hf2.symm (dL _ _ (by decide) (by decide))
    · exact absurd h2 (ne_of_head (by rw [head_base, head_fsVar]; decide))
    · exact absurd h2 (hx _)
    · exact absurd h2 (ne_of_head (by rw [head_fsFunc, head_fsVar]; decide))
    · exact absurd h2 (ne_of_head (by rw [head_loadFunc, head_fsVar]; decide))
    · rw [← h2] at hf2; injection hf2 with hf2; exact absurd hf2.symm (dL _ _ (by decide) (by decide))
    · exact absurd h2 (ne_of_head (by rw [head_base, head_fsFunc]; decide))
    · exact absurd h2 (ne_of_head (by rw [head_fsFunc, head_fsVar]; decide))
    · exact absurd h2 (hx _)
    · exact absurd h2 (ne_of_head (by rw [head_loadFunc, head_fsFunc]; decide))
    · rw [← h2] at hf2; injection hf2 with hf2; exact absurd hf2.symm (dL _ _ (by decide) (by decide))
    · exact absurd h2 (ne_of_head (by rw [head_base, head_loadFunc]; decide))
    · exact absurd h2 (ne_of_head (by rw [head_loadFunc, head_fsVar]; decide))
    · exact absurd h2 (ne_of_head (by rw [head_loadFunc, head_fsFunc]; decide))
    · exact absurd h2 (hx _)
  · rintro ⟨hs, hp | ⟨a1, a2⟩⟩
    · refine ⟨factoryName S n1 c1, (declares_cases _).2 (.inl rfl), (declares_cases _).2 (.inl ?_)⟩
      exact factoryName_inj.2 ⟨hp, hs⟩
    · refine ⟨"base".toList ++ ("Lineage".toList ++ suffixAsked S n1 c1),
        (declares_cases _).2 (.inr (.inl ⟨a1, rfl⟩)), (declares_cases _).2 (.inr (.inl ⟨a2, ?_⟩))⟩
      rw [hs]

/-- Without `EmbedPath`, the function for the file system is missing. -/
example : Undefined (generateBinding ascii "ship".toList
    { loadDir := ".".toList, cueModName := "example.com/m".toList }) "getThemaFSForship".toList :=
  (C171_undefined ..).2 (.inr ⟨by decide, .inl rfl, rfl⟩)

/-- A private factory and a public one with the same suffix can share a package. -/
example : ¬ ∃ n, Declares (generateBinding ascii "a".toList { privateFactory := true }) n ∧
    Declares (generateBinding ascii "b".toList {}) n := by
  rw [C171_clash ascii (by decide)]
  rintro ⟨_, h | ⟨h, _⟩⟩ <;> simp at h

/-- Two convergent ones cannot. -/
example : ∃ n, Declares (generateBinding ascii "a".toList
      { privateFactory := true, assignee := some "A".toList }) n ∧
    Declares (generateBinding ascii "b".toList { assignee := some "B".toList }) n :=
  (C171_clash ascii (by decide) _ _).2 ⟨rfl, .inr ⟨rfl, rfl⟩⟩

/-! ### The package of types -/

/-- **C171** (types).  With one configuration for several lineages, the file of each is in the
package configured; without a configured name, in the one called like the first lineage so
far that has a name, in that case of letters. -/
theorem C171_types_package : ∀ (names : List Str) (cfg : TypeConfig) (k : Nat)
    (_ : k < names.length),
    (typesPackages names cfg)[k]? =
      some (((cfg.packageName :: names.take (k + 1)).find? (fun p => decide (p ≠ []))).getD [])
  | [], _, _, h => absurd h (Nat.not_lt_zero _)
  | n :: ns, cfg, 0, _ => by
    obtain ⟨p⟩ := cfg
    by_cases hp : p = []
    · subst hp
      by_cases hn : n = []
      · subst hn; rfl
      · simp [typesPackages, typesPackage, hn]
    · simp [typesPackages, typesPackage, hp]
  | n :: ns, cfg, k + 1, h => by
    obtain ⟨p⟩ := cfg
    have ih := C171_types_package ns (typesPackage n ⟨p⟩).2 k (Nat.lt_of_succ_lt_succ h)
    simp only [typesPackages, List.getElem?_cons_succ, ih]
    by_cases hp : p = []
    · subst hp
      simp [typesPackage]
    · simp [typesPackage, hp]

/-- Two lineages, one configuration: both files are in the package of the first. -/
example : (typesPackages ["Ship".toList, "dock".toList] ⟨[]⟩)[1]? = some "Ship".toList :=
  (C171_types_package _ _ 1 (by decide)).trans (by decide)

/-! ### C172: the commands -/

open Cli Printf

/-- The flags given are flags of the command, with values that mean something. -/
def Accepted (cmd : GCmd) (given : List (Str × Str)) : Prop :=
  ∀ g ∈ given, ∃ r ∈ genRegs, r.cmd = cmd ∧ r.flag = g.1 ∧ ∃ y, Means r g.2 y

/-- The value of a flag: given last, or initial. -/
def FlagIs (given : List (Str × Str)) (r : Reg) (initial y : Str) : Prop :=
  (∃ pre x post, given = pre ++ (r.flag, x) :: post ∧ (∀ g ∈ post, g.1 ≠ r.flag) ∧ Means r x y) ∨
  ((∀ g ∈ given, g.1 ≠ r.flag) ∧ y = initial)

theorem setFlags_accepted {cmd : GCmd} : ∀ (given : List (Str × Str)) (e : Vars),
    (∃ e', setFlags genRegs cmd given e = some e') ↔ Accepted cmd given
  | [], e => by
    refine ⟨fun _ g hg => (by cases hg), fun _ => ⟨e, rfl⟩⟩
  | (f, x) :: rest, e => by
    have hcons : Accepted cmd ((f, x) :: rest) ↔
        (∃ r ∈ genRegs, r.cmd = cmd ∧ r.flag = f ∧ ∃ y, Means r x y) ∧ Accepted cmd rest := by
      unfold Accepted
      rw [List.forall_mem_cons]
    rw [hcons]
    unfold setFlags
    cases hf : genRegs.find? (fun r => decide (r.cmd = cmd) && decide (r.flag = f)) with
    | none =>
      simp only [reduceCtorEq, exists_false, false_iff]
      rintro ⟨⟨r, h1, h2, h3, _⟩, _⟩
      have := List.find?_eq_none.1 hf r h1
      simp [h2, h3] at this
    | some r =>
      obtain ⟨h1, h2, h3⟩ := find_reg hf
      simp only
      cases hp : r.parse x with
      | none =>
        simp only [reduceCtorEq, exists_false, false_iff]
        rintro ⟨⟨r', h1', h2', h3', y, hy⟩, _⟩
        have := genRegs_unique r h1 r' h1' (h2.trans h2'.symm) (h3.trans h3'.symm)
        subst this
        rw [← parse_iff, hp] at hy
        cases hy
      | some y =>
        simp only
        rw [setFlags_accepted rest (e.set r.var y)]
        exact ⟨fun h => ⟨⟨r, h1, h2, h3, y, parse_iff.1 hp⟩, h⟩, fun h => h.2⟩

theorem means_unique {r : Reg} {x y z : Str} (h1 : Means r x y) (h2 : Means r x z) : y = z := by
  rw [← parse_iff] at h1 h2
  rw [h1] at h2
  injection h2

/-- The last occurrence of a flag, or none. -/
theorem last_or_none (f : Str) : ∀ (given : List (Str × Str)),
    (∃ pre x post, given = pre ++ (f, x) :: post ∧ ∀ g ∈ post, g.1 ≠ f) ∨
    (∀ g ∈ given, g.1 ≠ f)
  | [] => .inr fun g hg => by cases hg
  | (f', x) :: rest => by
    rcases last_or_none f rest with ⟨pre, y, post, h1, h2⟩ | h
    · exact .inl ⟨(f', x) :: pre, y, post, by rw [h1]; rfl, h2⟩
    · by_cases hf : f' = f
      · subst hf; exact .inl ⟨[], x, rest, rfl, h⟩
      · refine .inr fun g hg => ?_
        rcases List.mem_cons.1 hg with rfl | hg
        · exact hf
        · exact h g hg

/-- What the variables are when the command runs. -/
theorem genVars_flag {cmd : GCmd} {given : List (Str × Str)} {e : Vars}
    (h : genVars cmd given = some e) {r : Reg} (hr : r ∈ genRegs) (hc : r.cmd = cmd) {i : Str}
    (hi : register genRegs (fun _ => []) r.var = i) (y : Str) :
    FlagIs given r i y ↔ e r.var = y := by
  have key : FlagIs given r i (e r.var) := by
    rcases last_or_none r.flag given with ⟨pre, x, post, rfl, h2⟩ | hn
    · exact .inl ⟨pre, x, post, rfl, h2, C84_given h hr hc h2⟩
    · exact .inr ⟨hn, by rw [setFlags_keeps hr hc given _ e hn h, hi]⟩
  constructor
  · intro hy
    rcases hy with ⟨pre, x, post, rfl, h2, h3⟩ | ⟨hn, rfl⟩
    · exact means_unique (C84_given h hr hc h2) h3
    · rw [setFlags_keeps hr hc given _ e hn h, hi]
  · rintro rfl; exact key

/-- **C172** (usage).  A command refuses its flags exactly if one of them is not its own or a
boolean flag has a value that is neither true nor false. -/
theorem C172_usage (E : GenEnv) (cmd : GCmd) (given : List (Str × Str)) (doc : Cli.Errs Doc)
    (code : Cli.Errs Str) : runGen E cmd given doc code = none ↔ ¬ Accepted cmd given := by
  unfold runGen
  rw [← setFlags_accepted given (register genRegs fun _ => [])]
  unfold genVars
  cases setFlags genRegs cmd given (register genRegs fun _ => []) <;> simp

/-- What a command that generates a document does with it, by format. -/
inductive DocOutcome : Str → Cli.Errs Doc → Effect → Prop
  | notGenerated {f e} : DocOutcome f (.error e) ⟨[], e, [], 1⟩
  | json {d : Doc} {b t} : d.json = some b → d.indent b = .ok t →
      DocOutcome "json".toList (.ok d) ⟨fprintf t, [], [], 0⟩
  | notIndented {d : Doc} {b e} : d.json = some b → d.indent b = .error e →
      DocOutcome "json".toList (.ok d) ⟨[], e, [], 1⟩
  | notMarshalled {d : Doc} {e} : d.json = none → d.jsonErr = some e →
      DocOutcome "json".toList (.ok d) ⟨[], e, [], 1⟩
  | nothing {d : Doc} : d.json = none → d.jsonErr = none →
      DocOutcome "json".toList (.ok d) ⟨[], [], [], 0⟩
  | yaml {f} {d : Doc} {t} : f = "yaml".toList ∨ f = "yml".toList → d.yaml = .ok t →
      DocOutcome f (.ok d) ⟨fprintf t, [], [], 0⟩
  | notYaml {f} {d : Doc} {e} : f = "yaml".toList ∨ f = "yml".toList → d.yaml = .error e →
      DocOutcome f (.ok d) ⟨[], e, [], 1⟩
  | unknown {f} {d : Doc} : f ∉ ["json".toList, "yaml".toList, "yml".toList] →
      DocOutcome f (.ok d) ⟨[], "unrecognized output format ".toList ++ f, [], 0⟩

theorem runDoc_iff (f : Str) (doc : Cli.Errs Doc) (o : Effect) :
    runDoc f doc = o ↔ DocOutcome f doc o := by
  have fp : fprintf [] = [] := by decide
  constructor
  · rintro rfl
    cases doc with
    | error e => exact .notGenerated
    | ok d =>
      by_cases h1 : f = "json".toList
      · subst h1
        simp only [runDoc, renderDoc, if_true]
        cases hj : d.json with
        | some b =>
          cases hi : d.indent b with
          | ok t => simp only [hi]; exact .json hj hi
          | error e => simp only [hi, List.nil_append]; exact .notIndented hj hi
        | none =>
          cases he : d.jsonErr with
          | some e => simp only [List.nil_append]; exact .notMarshalled hj he
          | none => simp only [fp]; exact .nothing hj he
      · by_cases h2 : f = "yaml".toList ∨ f = "yml".toList
        · simp only [runDoc, renderDoc, if_neg h1, if_pos h2]
          cases hy : d.yaml with
          | ok t => exact .yaml h2 hy
          | error e => simp only [List.nil_append]; exact .notYaml h2 hy
        · simp only [runDoc, renderDoc, if_neg h1, if_neg h2, fp]
          refine .unknown ?_
          simp only [List.mem_cons, List.not_mem_nil, or_false, not_or]
          exact ⟨h1, fun h => h2 (.inl h), fun h => h2 (.inr h)⟩
  · intro h
    cases h with
    | notGenerated => rfl
    | json h1 h2 => simp [runDoc, renderDoc, h1, h2]
    | notIndented h1 h2 => simp [runDoc, renderDoc, h1, h2]
    | notMarshalled h1 h2 => simp [runDoc, renderDoc, h1, h2]
    | nothing h1 h2 => simp [runDoc, renderDoc, h1, h2, fp]
    | yaml hf h1 =>
      have hne : f ≠ "json".toList := by rcases hf with rfl | rfl <;> decide
      simp only [runDoc, renderDoc, if_neg hne, if_pos hf, h1]
    | notYaml hf h1 =>
      have hne : f ≠ "json".toList := by rcases hf with rfl | rfl <;> decide
      simp only [runDoc, renderDoc, if_neg hne, if_pos hf, h1, List.nil_append]
    | unknown hf =>
      simp only [List.mem_cons, List.not_mem_nil, or_false, not_or] at hf
      have h2 : ¬ (f = "yaml".toList ∨ f = "yml".toList) := by
        rintro (h | h)
        · exact hf.2.1 h
        · exact hf.2.2 h
      simp only [runDoc, renderDoc, if_neg hf.1, if_neg h2, fp]

/-- The flag `--format` of the two commands. -/
def formatReg (cmd : GCmd) : Reg :=
  ⟨cmd, "format".toList, .format, if cmd = .openapi then "yaml".toList else "json".toList⟩

/-- **C172** (documents).  What `gen openapi` and `gen jsonschema` print, to which of the
standard streams, and their status, for all flags and documents; without `--format` both
use JSON. -/
theorem C172_documents (E : GenEnv) {cmd : GCmd} (hc : cmd = .openapi ∨ cmd = .jsonschema)
    (given : List (Str × Str)) (doc : Cli.Errs Doc) (code : Cli.Errs Str) (o : Effect) :
    runGen E cmd given doc code = some o ↔
      Accepted cmd given ∧ ∃ f, FlagIs given (formatReg cmd) "json".toList f ∧
        DocOutcome f doc o := by
  have hr : formatReg cmd ∈ genRegs := by rcases hc with rfl | rfl <;> decide
  have hi : register genRegs (fun _ => []) (formatReg cmd).var = "json".toList := by
    show register genRegs (fun _ => []) .format = _
    rw [register_last]; decide
  unfold runGen
  rw [← setFlags_accepted given (register genRegs fun _ => [])]
  cases hv : genVars cmd given with
  | none =>
    simp only [Option.map_none, reduceCtorEq, false_iff]
    rintro ⟨⟨e, he⟩, _⟩
    unfold genVars at hv
    rw [hv] at he; cases he
  | some e =>
    have hd : dispatch E cmd e doc code = runDoc (e .format) doc := by
      rcases hc with rfl | rfl <;> rfl
    simp only [Option.map_some, Option.some.injEq, hd, runDoc_iff]
    constructor
    · intro h
      exact ⟨⟨e, hv⟩, e .format, (genVars_flag hv hr rfl hi _).2 rfl, h⟩
    · rintro ⟨_, f, h1, h2⟩
      have : e .format = f := (genVars_flag hv hr rfl hi _).1 h1
      rw [this]; exact h2

/-- What `gen gotypes` does with the code. -/
inductive TypesOutcome (E : GenEnv) : Cli.Errs Str → Effect → Prop
  | notGenerated {e} : TypesOutcome E (.error e) ⟨[], e, [], 1⟩
  | notWritten {b e} : E.writeErr = some e → TypesOutcome E (.ok b) ⟨[], e, [], 1⟩
  | written {b} : E.writeErr = none → TypesOutcome E (.ok b)
      ⟨[], [], [(E.dir ++ '/' :: (E.lname ++ "_types_gen.go".toList),
        fprintf (goheaderp E.epath) ++ b)], 0⟩

/-- **C172** (types).  `gen gotypes` writes one file and prints nothing, with `--stdout` or
without, `--quiet` or not; it fails exactly if the code cannot be generated or the file
cannot be written. -/
theorem C172_types (E : GenEnv) (given : List (Str × Str)) (doc : Cli.Errs Doc)
    (code : Cli.Errs Str) (o : Effect) :
    runGen E .gotypes given doc code = some o ↔
      Accepted .gotypes given ∧ TypesOutcome E code o := by
  have hoff : ¬ (off = on) := by decide
  unfold runGen
  rw [← setFlags_accepted given (register genRegs fun _ => [])]
  cases hv : genVars .gotypes given with
  | none =>
    simp only [Option.map_none, reduceCtorEq, false_iff]
    rintro ⟨⟨e, he⟩, _⟩
    unfold genVars at hv
    rw [hv] at he; cases he
  | some e =>
    have hx : ∃ e', setFlags genRegs .gotypes given (register genRegs fun _ => []) = some e' :=
      ⟨e, hv⟩
    simp only [Option.map_some, Option.some.injEq, dispatch, runGoTypes, gotypes_stdout_off hv,
      if_neg hoff, hx, true_and]
    constructor
    · rintro rfl
      cases code with
      | error e => exact .notGenerated
      | ok b =>
        cases hw : E.writeErr with
        | some e => exact .notWritten hw
        | none => exact .written hw
    · intro h
      cases h with
      | notGenerated => rfl
      | notWritten h => simp only [h]; rfl
      | written h => simp only [h]; rfl

/-- What `gen gobindings` does with the code; `out` and `quiet` are the values of `--stdout` and
`--quiet`. -/
inductive BindOutcome (E : GenEnv) : Str → Str → Cli.Errs Str → Effect → Prop
  | printed {q b} : BindOutcome E on q (.ok b) ⟨goheader ++ b, [], [], 0⟩
  | notPrinted {q e} : BindOutcome E on q (.error e) ⟨[], e, [], 1⟩
  | noRoot {q code e} : E.rootErr = some e → BindOutcome E off q code ⟨[], e, [], 1⟩
  | notGenerated {q e} : E.rootErr = none → BindOutcome E off q (.error e) ⟨[], e, [], 1⟩
  | notWritten {q b e} : E.rootErr = none → E.writeErr = some e →
      BindOutcome E off q (.ok b) ⟨[], e, [], 1⟩
  | quiet {b} : E.rootErr = none → E.writeErr = none → BindOutcome E off on (.ok b)
      ⟨[], [], [(E.dir ++ '/' :: (E.lname ++ "_bindings_gen.go".toList),
        fprintf (goheaderp E.epath) ++ b)], 0⟩
  | told {b} : E.rootErr = none → E.writeErr = none → BindOutcome E off off (.ok b)
      ⟨"generated go bindings for ".toList ++ E.name ++ " at ".toList ++
          (E.dir ++ '/' :: (E.lname ++ "_bindings_gen.go".toList)) ++ ['\n'], [],
        [(E.dir ++ '/' :: (E.lname ++ "_bindings_gen.go".toList),
          fprintf (goheaderp E.epath) ++ b)], 0⟩

theorem flag_bool {given : List (Str × Str)} {r : Reg} (hr : r.dflt = off) {y : Str}
    (h : FlagIs given r off y) : y = on ∨ y = off := by
  rcases h with ⟨_, _, _, _, _, h⟩ | ⟨_, h⟩
  · unfold Means at h
    rw [if_pos hr] at h
    exact h.imp And.right And.right
  · exact .inr h

/-- **C172** (bindings).  What `gen gobindings` prints and writes, for all flags: with
`--stdout` the code and no file; otherwise one file beside the lineage and, without
`--quiet`, a line that names it. -/
theorem C172_bindings (E : GenEnv) (given : List (Str × Str)) (doc : Cli.Errs Doc)
    (code : Cli.Errs Str) (o : Effect) :
    runGen E .gobindings given doc code = some o ↔
      Accepted .gobindings given ∧ ∃ out quiet,
        FlagIs given ⟨.gobindings, "stdout".toList, .stdout, off⟩ off out ∧
        FlagIs given ⟨.gobindings, "quiet".toList, .quiet, off⟩ off quiet ∧
        BindOutcome E out quiet code o := by
  have hoff : ¬ (off = on) := by decide
  have hi1 : register genRegs (fun _ => []) .stdout = off := by rw [register_last]; decide
  have hi2 : register genRegs (fun _ => []) .quiet = off := by rw [register_last]; decide
  have hr1 : (⟨.gobindings, "stdout".toList, .stdout, off⟩ : Reg) ∈ genRegs := by decide
  have hr2 : (⟨.gobindings, "quiet".toList, .quiet, off⟩ : Reg) ∈ genRegs := by decide
  unfold runGen
  rw [← setFlags_accepted given (register genRegs fun _ => [])]
  cases hv : genVars .gobindings given with
  | none =>
    simp only [Option.map_none, reduceCtorEq, false_iff]
    rintro ⟨⟨e, he⟩, _⟩
    unfold genVars at hv
    rw [hv] at he; cases he
  | some e =>
    have hx : ∃ e', setFlags genRegs .gobindings given (register genRegs fun _ => []) = some e' :=
      ⟨e, hv⟩
    have f1 := fun y => genVars_flag hv hr1 rfl hi1 y
    have f2 := fun y => genVars_flag hv hr2 rfl hi2 y
    have run : runGoBindings E e code = o ↔ BindOutcome E (e .stdout) (e .quiet) code o := by
      have b1 := flag_bool (r := ⟨.gobindings, "stdout".toList, .stdout, off⟩) rfl ((f1 _).2 rfl)
      have b2 := flag_bool (r := ⟨.gobindings, "quiet".toList, .quiet, off⟩) rfl ((f2 _).2 rfl)
      simp only at b1 b2
      unfold runGoBindings
      generalize e .stdout = a at *
      generalize e .quiet = q at *
      constructor
      · rintro rfl
        rcases b1 with rfl | rfl
        · cases code with
          | error e => exact .notPrinted
          | ok b => simp only [if_true]; exact .printed
        · simp only [if_neg hoff]
          cases hre : E.rootErr with
          | some e => exact .noRoot hre
          | none =>
            cases code with
            | error e => exact .notGenerated hre
            | ok b =>
              cases hw : E.writeErr with
              | some e => exact .notWritten hre hw
              | none =>
                rcases b2 with rfl | rfl
                · simp only [if_true]; exact .quiet hre hw
                · simp only [if_neg hoff]; exact .told hre hw
      · intro h
        cases h with
        | printed => simp
        | notPrinted => simp [failWith]
        | noRoot h => simp only [if_neg hoff, h]; rfl
        | notGenerated h => simp [h, failWith]
        | notWritten h1 h2 => simp [if_neg hoff, h1, h2, failWith]
        | quiet h1 h2 => simp only [if_neg hoff, h1, h2, if_true]; rfl
        | told h1 h2 => simp only [if_neg hoff, h1, h2]; rfl
    simp only [Option.map_some, Option.some.injEq, dispatch, run, hx, true_and]
    constructor
    · intro h
      exact ⟨_, _, (f1 _).2 rfl, (f2 _).2 rfl, h⟩
    · rintro ⟨a, q, h1, h2, h3⟩
      rw [f1] at h1
      rw [f2] at h2
      simp only at h1 h2
      rw [h1, h2]
      exact h3

/-- `gen gobindings --stdout=maybe` is refused. -/
example : runGen someGen .gobindings [("stdout".toList, "maybe".toList)] (.ok plainDoc) (.ok []) =
    none := by decide

example : ¬ Accepted .gobindings [("stdout".toList, "maybe".toList)] :=
  (C172_usage someGen .gobindings _ (.ok plainDoc) (.ok [])).1 (by decide)

/-- `gen gobindings --stdout=1 --quiet --stdout=F` writes the file quietly. -/
example : ∃ o, runGen someGen .gobindings [("stdout".toList, "1".toList), ("quiet".toList, on),
      ("stdout".toList, "F".toList)] (.ok plainDoc) (.ok "package ship".toList) = some o ∧
    o.stdout = [] ∧ o.files.map (·.1) = ["/a/ship_bindings_gen.go".toList] :=
  ⟨_, (C172_bindings someGen _ (.ok plainDoc) (.ok "package ship".toList) _).2
    ⟨(setFlags_accepted _ (register genRegs fun _ => [])).1 ⟨_, rfl⟩, off, on,
      .inl ⟨[("stdout".toList, "1".toList), ("quiet".toList, on)], "F".toList, [], rfl, by simp,
        .inr ⟨by decide, rfl⟩⟩,
      .inl ⟨[("stdout".toList, "1".toList)], on, [("stdout".toList, "F".toList)], rfl, by decide,
        .inl ⟨by decide, rfl⟩⟩,
      .quiet rfl rfl⟩, rfl, rfl⟩

/-- `gen openapi` without `--format`. -/
example : runGen someGen .openapi [] (.ok plainDoc) (.ok []) =
    some ⟨"{\"d\":1}".toList, [], [], 0⟩ := by
  rw [C172_documents someGen (.inl rfl)]
  refine ⟨(setFlags_accepted _ (register genRegs fun _ => [])).1 ⟨_, rfl⟩, "json".toList,
    .inr ⟨by simp, rfl⟩, ?_⟩
  exact (runDoc_iff _ _ _).1 (by decide)

/-- `gen gotypes --stdout` on a directory that cannot be written. -/
example : runGen { someGen with writeErr := some "read-only".toList } .gotypes
    [("stdout".toList, on)] (.ok plainDoc) (.ok "package ship".toList) =
      some ⟨[], "read-only".toList, [], 1⟩ :=
  (C172_types _ _ (.ok plainDoc) _ _).2
    ⟨(setFlags_accepted _ (register genRegs fun _ => [])).1 ⟨_, rfl⟩, .notWritten rfl⟩

end Thema.Props

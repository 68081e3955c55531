import Verif.Spec.GoGen
import Verif.Lemmas.Lit
import Verif.Props.Navigation

/-!
# Generated Go bindings (C87 - C93)
-/

namespace Thema.Props

open GoGen

variable {S : Std} {name : Str} {cfg : BindingConfig}

/-- The functions for ASCII are lawful. -/
theorem ascii_lawful : Lawful ascii := by
  refine ⟨?_, ?_, ?_, ?_⟩
  · intro c h1 h2
    simp only [ascii, Char.isUpper]
    have h1 : ('A' : Char).val ≤ c.val := h1
    have h2 : c.val ≤ ('Z' : Char).val := h2
    simp only [decide_eq_true_eq]
    exact ⟨h1, h2⟩
  · intro c h1 h2
    have h1 : ('a' : Char).val ≤ c.val := h1
    simp only [ascii, Char.isUpper, decide_eq_false_iff_not]
    rintro ⟨_, h3⟩
    have h4 : ('a' : Char).val ≤ ('Z' : Char).val := UInt32.le_trans h1 h3
    exact absurd h4 (by decide)
  · intro c h
    simp only [ascii, Char.isAlpha, Bool.or_eq_true, Char.isUpper, Char.isLower]
    rcases h with ⟨h1, h2⟩ | ⟨h1, h2⟩
    · right
      have h1 : ('a' : Char).val ≤ c.val := h1
      have h2 : c.val ≤ ('z' : Char).val := h2
      simp only [Bool.and_eq_true, decide_eq_true_eq]
      exact ⟨h1, h2⟩
    · left
      have h1 : ('A' : Char).val ≤ c.val := h1
      have h2 : c.val ≤ ('Z' : Char).val := h2
      simp only [decide_eq_true_eq]
      exact ⟨h1, h2⟩
  · intro c h
    simp only [Lit.illegal, Bool.or_eq_true, beq_iff_eq] at h
    rcases h with (h | h) | h <;> subst h <;> decide

/-! ### Names -/

/-- The name of the factory that the caller is meant to use. -/
def factoryName (S : Std) (name : Str) (cfg : BindingConfig) : Str :=
  (if cfg.privateFactory then "do".toList else []) ++ ("Lineage".toList ++ suffixAsked S name cfg)

theorem suffixOf_eq (S : Std) (name : Str) (cfg : BindingConfig) :
    suffixOf S name cfg = suffixAsked S name cfg := by
  unfold suffixOf suffixAsked
  cases cfg.factoryNameSuffix <;> cases cfg.titleName <;> simp

theorem base_cases (S : Std) (name : Str) (cfg : BindingConfig) :
    (bindingVars S name cfg).baseFactoryFuncName =
      if cfg.assignee.isSome then "base".toList ++ ("Lineage".toList ++ suffixAsked S name cfg)
      else factoryName S name cfg := by
  simp only [bindingVars, factoryName, suffixOf_eq]
  cases cfg.assignee.isSome <;> cases cfg.privateFactory <;> rfl

theorem factory_eq (h : cfg.assignee.isSome = true) :
    (bindingVars S name cfg).factoryFuncName = factoryName S name cfg := by
  simp only [bindingVars, factoryName, suffixOf_eq, h]
  cases cfg.privateFactory <;> rfl

theorem not_isEmpty_iff (s : Str) : (!s.isEmpty) = true ↔ ¬ s = [] := by cases s <;> simp

theorem decls_names (v : BindingVars) :
    (decls v).map (·.name) =
      (if v.isConvergent then [v.factoryFuncName] else []) ++ [v.baseFactoryFuncName] ++
      (if v.genEmbed then fsVar v.name :: (if v.genFSFunc then [fsFunc v.name] else []) else []) ++
      (if v.genLoaderFunc then [loadFunc v.name] else []) := by
  unfold decls
  cases v.isConvergent <;> cases v.genEmbed <;> cases v.genFSFunc <;> cases v.genLoaderFunc <;> rfl

/-- The declared names, in order. -/
theorem decl_names (S : Std) (name : Str) (cfg : BindingConfig) :
    (generateBinding S name cfg).decls.map (·.name) =
      [factoryName S name cfg] ++
      (if cfg.assignee.isSome then ["base".toList ++ ("Lineage".toList ++ suffixAsked S name cfg)]
        else []) ++
      (if cfg.embedPath = [] then []
        else fsVar name :: (if cfg.cueModName = [] then [] else [fsFunc name])) ++
      (if cfg.loadDir = [] then [] else [loadFunc name]) := by
  show (decls (bindingVars S name cfg)).map (·.name) = _
  rw [decls_names]
  have e1 : (if (bindingVars S name cfg).isConvergent then
      [(bindingVars S name cfg).factoryFuncName] else []) ++
        [(bindingVars S name cfg).baseFactoryFuncName] =
      [factoryName S name cfg] ++ (if cfg.assignee.isSome then
        ["base".toList ++ ("Lineage".toList ++ suffixAsked S name cfg)] else []) := by
    rw [base_cases, show (bindingVars S name cfg).isConvergent = cfg.assignee.isSome from rfl]
    cases h : cfg.assignee.isSome
    · rfl
    · rw [factory_eq h]; rfl
  have e2 : (if (bindingVars S name cfg).genFSFunc then [fsFunc (bindingVars S name cfg).name]
      else []) = if cfg.cueModName = [] then [] else [fsFunc name] := by
    by_cases h : cfg.cueModName = []
    · rw [if_pos h, if_neg]
      exact fun h' => (not_isEmpty_iff _).1 h' h
    · rw [if_neg h]
      exact if_pos ((not_isEmpty_iff _).2 h)
  have e3 : (if (bindingVars S name cfg).genLoaderFunc then [loadFunc (bindingVars S name cfg).name]
      else []) = if cfg.loadDir = [] then [] else [loadFunc name] := by
    by_cases h : cfg.loadDir = []
    · rw [if_pos h, if_neg]
      exact fun h' => (not_isEmpty_iff _).1 h' h
    · rw [if_neg h]
      exact if_pos ((not_isEmpty_iff _).2 h)
  rw [e1, e2, e3]
  congr 2
  by_cases h : cfg.embedPath = []
  · rw [if_pos h, if_neg]
    exact fun h' => (not_isEmpty_iff _).1 h' h
  · rw [if_neg h]
    exact if_pos ((not_isEmpty_iff _).2 h)

/-- First characters. -/
theorem head_fsVar (n : Str) : (fsVar n).head? = some 't' := rfl
theorem head_fsFunc (n : Str) : (fsFunc n).head? = some 'g' := rfl
theorem head_loadFunc (n : Str) : (loadFunc n).head? = some 'l' := rfl
theorem head_base (n : Str) : ("base".toList ++ ("Lineage".toList ++ n)).head? = some 'b' := rfl
theorem head_factory (S : Std) (name : Str) (cfg : BindingConfig) :
    (factoryName S name cfg).head? = some (if cfg.privateFactory then 'd' else 'L') := by
  unfold factoryName
  cases cfg.privateFactory <;> rfl

theorem ne_of_head {a b : Str} (h : a.head? ≠ b.head?) : a ≠ b := fun e => h (congrArg _ e)

theorem declares_iff {n : Str} :
    Declares (generateBinding S name cfg) n ↔
      n ∈ (generateBinding S name cfg).decls.map (·.name) := by
  rw [List.mem_map]; rfl

/-- What the file declares. -/
theorem declares_cases (n : Str) : Declares (generateBinding S name cfg) n ↔
    (n = factoryName S name cfg ∨
     (cfg.assignee.isSome = true ∧ n = "base".toList ++ ("Lineage".toList ++ suffixAsked S name cfg)) ∨
     (cfg.embedPath ≠ [] ∧ n = fsVar name) ∨
     (cfg.embedPath ≠ [] ∧ cfg.cueModName ≠ [] ∧ n = fsFunc name) ∨
     (cfg.loadDir ≠ [] ∧ n = loadFunc name)) := by
  rw [declares_iff, decl_names]
  by_cases h1 : cfg.assignee.isSome = true <;> by_cases h2 : cfg.embedPath = [] <;>
    by_cases h3 : cfg.cueModName = [] <;> by_cases h4 : cfg.loadDir = [] <;>
    simp [h1, h2, h3, h4]

/-- **C88** (no redeclaration).  The declared names differ, whatever the names of the
lineage, its title and the options. -/
theorem C88_distinct (S : Std) (name : Str) (cfg : BindingConfig) :
    ((generateBinding S name cfg).decls.map (·.name)).Nodup := by
  rw [decl_names]
  have f1 : factoryName S name cfg ≠ "base".toList ++ ("Lineage".toList ++ suffixAsked S name cfg) :=
    ne_of_head (by rw [head_factory, head_base]; split <;> decide)
  have f2 : factoryName S name cfg ≠ fsVar name :=
    ne_of_head (by rw [head_factory, head_fsVar]; split <;> decide)
  have f3 : factoryName S name cfg ≠ fsFunc name :=
    ne_of_head (by rw [head_factory, head_fsFunc]; split <;> decide)
  have f4 : factoryName S name cfg ≠ loadFunc name :=
    ne_of_head (by rw [head_factory, head_loadFunc]; split <;> decide)
  have b2 : "base".toList ++ ("Lineage".toList ++ suffixAsked S name cfg) ≠ fsVar name :=
    ne_of_head (by rw [head_base, head_fsVar]; decide)
  have b3 : "base".toList ++ ("Lineage".toList ++ suffixAsked S name cfg) ≠ fsFunc name :=
    ne_of_head (by rw [head_base, head_fsFunc]; decide)
  have b4 : "base".toList ++ ("Lineage".toList ++ suffixAsked S name cfg) ≠ loadFunc name :=
    ne_of_head (by rw [head_base, head_loadFunc]; decide)
  have v3 : fsVar name ≠ fsFunc name := ne_of_head (by rw [head_fsVar, head_fsFunc]; decide)
  have v4 : fsVar name ≠ loadFunc name := ne_of_head (by rw [head_fsVar, head_loadFunc]; decide)
  have g4 : fsFunc name ≠ loadFunc name := ne_of_head (by rw [head_fsFunc, head_loadFunc]; decide)
  generalize factoryName S name cfg = a at *
  generalize "base".toList ++ ("Lineage".toList ++ suffixAsked S name cfg) = b at *
  generalize fsVar name = c at *
  generalize fsFunc name = d at *
  generalize loadFunc name = e at *
  by_cases h1 : cfg.assignee.isSome = true <;> by_cases h2 : cfg.embedPath = [] <;>
    by_cases h3 : cfg.cueModName = [] <;> by_cases h4 : cfg.loadDir = [] <;>
    simp_all

/-- **C88** (the factory).  The file exports one name, the factory called `Lineage` and the
suffix asked for; nothing if the factory is to be private, and then there is a factory
called `doLineage` and the suffix.  It is the convergent factory if there is a type. -/
theorem C88_exported (hS : Lawful S) (name : Str) (cfg : BindingConfig) (n : Str) :
    (Declares (generateBinding S name cfg) n ∧ Exported S n ↔
      cfg.privateFactory = false ∧ n = "Lineage".toList ++ suffixAsked S name cfg) ∧
    (cfg.privateFactory = true →
      Declares (generateBinding S name cfg)
        ("do".toList ++ ("Lineage".toList ++ suffixAsked S name cfg))) := by
  have ex : ∀ {n : Str} {c : Char}, n.head? = some c → (Exported S n ↔ S.isUpper c = true) := by
    intro n c h
    cases n with
    | nil => cases h
    | cons a r =>
      have : a = c := by simpa using h
      subst this
      constructor
      · rintro ⟨c, r', h1, h2⟩; injection h1 with h1 _; rwa [h1]
      · intro h2; exact ⟨a, r, rfl, h2⟩
  have low : ∀ {c : Char}, ('a' ≤ c ∧ c ≤ 'z') → ¬ S.isUpper c = true := by
    intro c h; rw [hS.notUpper c h.1 h.2]; decide
  constructor
  · rw [declares_cases]
    constructor
    · rintro ⟨h | ⟨_, h⟩ | ⟨_, h⟩ | ⟨_, _, h⟩ | ⟨_, h⟩, he⟩
      · subst h
        rw [ex (head_factory S name cfg)] at he
        cases hp : cfg.privateFactory with
        | false => exact ⟨rfl, by simp [factoryName, hp]⟩
        | true => rw [hp] at he; exact absurd he (low (by decide))
      · subst h; rw [ex (head_base _)] at he; exact absurd he (low (by decide))
      · subst h; rw [ex (head_fsVar _)] at he; exact absurd he (low (by decide))
      · subst h; rw [ex (head_fsFunc _)] at he; exact absurd he (low (by decide))
      · subst h; rw [ex (head_loadFunc _)] at he; exact absurd he (low (by decide))
    · rintro ⟨hp, h⟩
      have hf : factoryName S name cfg = n := by rw [h]; simp [factoryName, hp]
      refine ⟨.inl hf.symm, ?_⟩
      rw [← hf, ex (head_factory S name cfg), hp]
      exact hS.upper 'L' (by decide) (by decide)
  · intro hp
    rw [declares_cases]
    exact .inl (by simp [factoryName, hp])

/-- The convergent factory is the one the caller is given. -/
theorem C88_convergent (S : Std) (name : Str) (cfg : BindingConfig) (h : cfg.assignee.isSome = true) :
    ∃ d ∈ (generateBinding S name cfg).decls,
      d.name = (if cfg.privateFactory then "do".toList else []) ++
        ("Lineage".toList ++ suffixAsked S name cfg) ∧
      d.uses = ["base".toList ++ ("Lineage".toList ++ suffixAsked S name cfg)] := by
  refine ⟨⟨(bindingVars S name cfg).factoryFuncName, [(bindingVars S name cfg).baseFactoryFuncName],
    []⟩, ?_, ?_, ?_⟩
  · have hc : (bindingVars S name cfg).isConvergent = true := h
    simp [generateBinding, decls, hc]
  · exact factory_eq h
  · simp [base_cases, h]

/-! ### Undefined names -/

/-- What the file uses. -/
theorem uses_cases (n : Str) : (∃ d ∈ (generateBinding S name cfg).decls, n ∈ d.uses) ↔
    ((cfg.assignee.isSome = true ∧ n = (bindingVars S name cfg).baseFactoryFuncName) ∨
     n = loadFunc name ∨
     (cfg.embedPath ≠ [] ∧ cfg.cueModName ≠ [] ∧ n = fsVar name) ∨
     (cfg.loadDir ≠ [] ∧ n = fsFunc name)) := by
  have e1 : ∀ s : Str, (!s.isEmpty) = true ↔ ¬ s = [] := by intro s; cases s <;> simp
  have e2 : (bindingVars S name cfg).genEmbed = true ↔ ¬ cfg.embedPath = [] := e1 _
  have e3 : (bindingVars S name cfg).genFSFunc = true ↔ ¬ cfg.cueModName = [] := e1 _
  have e4 : (bindingVars S name cfg).genLoaderFunc = true ↔ ¬ cfg.loadDir = [] := e1 _
  have e5 : (bindingVars S name cfg).isConvergent = cfg.assignee.isSome := rfl
  have e6 : (bindingVars S name cfg).name = name := rfl
  simp only [generateBinding, decls, e5, e6]
  by_cases h1 : cfg.assignee.isSome = true <;> by_cases h2 : cfg.embedPath = [] <;>
    by_cases h3 : cfg.cueModName = [] <;> by_cases h4 : cfg.loadDir = [] <;>
    simp [h1, h2, h3, h4, e2, e3, e4]

theorem base_declared (h : cfg.assignee.isSome = true) :
    Declares (generateBinding S name cfg) (bindingVars S name cfg).baseFactoryFuncName := by
  rw [declares_cases, base_cases, if_pos h]
  exact .inr (.inl ⟨h, rfl⟩)

theorem not_declares_load (h : cfg.loadDir = []) :
    ¬ Declares (generateBinding S name cfg) (loadFunc name) := by
  rw [declares_cases]
  rintro (h' | ⟨_, h'⟩ | ⟨_, h'⟩ | ⟨_, _, h'⟩ | ⟨h', _⟩)
  · exact ne_of_head (by rw [head_factory, head_loadFunc]; split <;> decide) h'.symm
  · exact ne_of_head (by rw [head_base, head_loadFunc]; decide) h'.symm
  · exact ne_of_head (by rw [head_fsVar, head_loadFunc]; decide) h'.symm
  · exact ne_of_head (by rw [head_fsFunc, head_loadFunc]; decide) h'.symm
  · exact h' h

theorem not_declares_fsFunc (h : cfg.embedPath = [] ∨ cfg.cueModName = []) :
    ¬ Declares (generateBinding S name cfg) (fsFunc name) := by
  rw [declares_cases]
  rintro (h' | ⟨_, h'⟩ | ⟨_, h'⟩ | ⟨h1, h2, _⟩ | ⟨_, h'⟩)
  · exact ne_of_head (by rw [head_factory, head_fsFunc]; split <;> decide) h'.symm
  · exact ne_of_head (by rw [head_base, head_fsFunc]; decide) h'.symm
  · exact ne_of_head (by rw [head_fsVar, head_fsFunc]; decide) h'.symm
  · rcases h with h | h
    · exact h1 h
    · exact h2 h
  · exact ne_of_head (by rw [head_loadFunc, head_fsFunc]; decide) h'.symm

/-- **C87** (partial).  Every function that the generated file calls is generated, but for
`loadInstanceFor$NAME` if `LoadDir` is empty, as documented.  Missing: `LoadDir` with an
empty `EmbedPath` or `CueModName` (`C87_fs_func_missing`). -/
theorem C87_self_contained_partial (S : Std) (name : Str) (cfg : BindingConfig)
    (h : cfg.loadDir ≠ [] → cfg.embedPath ≠ [] ∧ cfg.cueModName ≠ []) (n : Str) :
    Undefined (generateBinding S name cfg) n ↔ cfg.loadDir = [] ∧ n = loadFunc name := by
  constructor
  · rintro ⟨hu, hd⟩
    rcases (uses_cases n).1 hu with ⟨h1, h2⟩ | h2 | ⟨h1, h2, h3⟩ | ⟨h1, h2⟩
    · subst h2; exact absurd (base_declared h1) hd
    · refine ⟨Decidable.byContradiction fun hl => hd ?_, h2⟩
      rw [declares_cases]
      exact .inr (.inr (.inr (.inr ⟨hl, h2⟩)))
    · refine absurd ?_ hd
      rw [declares_cases]
      exact .inr (.inr (.inl ⟨h1, h3⟩))
    · refine absurd ?_ hd
      rw [declares_cases]
      exact .inr (.inr (.inr (.inl ⟨(h h1).1, (h h1).2, h2⟩)))
  · rintro ⟨h1, rfl⟩
    exact ⟨(uses_cases _).2 (.inr (.inl rfl)), not_declares_load h1⟩

/-- **C87** (refutation).  With a `LoadDir` but without `EmbedPath` the file calls
`getThemaFSFor$NAME`, which is not generated, even though `CueModName` is set, which is said
to generate it. -/
theorem C87_fs_func_missing (S : Std) (name : Str) (cfg : BindingConfig) (hl : cfg.loadDir ≠ [])
    (h : cfg.embedPath = [] ∨ cfg.cueModName = []) :
    Undefined (generateBinding S name cfg) (fsFunc name) :=
  ⟨(uses_cases _).2 (.inr (.inr (.inr ⟨hl, rfl⟩))), not_declares_fsFunc h⟩

theorem bindModName_ne {r : Cli.Rootfind} (hr : r.exists_ = true) (dir : Cli.Dir) :
    Cli.bindModName r false dir ≠ [] := by
  have hm : r.modname ≠ [] := by
    unfold Cli.Rootfind.modname
    rw [if_neg (by simp [hr])]
    unfold Cli.Rootfind.exists_ at hr
    by_cases hc : r.cuemod = []
    · rw [if_neg (by simp [hc])]
      intro hg
      rw [hc, hg] at hr; cases hr
    · rw [if_pos (by cases h : r.cuemod <;> simp_all)]
      exact hc
  unfold Cli.bindModName
  rw [if_neg (by simp [hr])]
  dsimp only
  split
  · intro h
    have := congrArg List.length h
    simp at this
  · exact hm

/-- **C87** (command line).  `thema lineage gen gobindings` on a lineage in a module, without
`--stdout`, `--no-embed` and `--no-fs-func`, generates a file that needs no other. -/
theorem C87_cli (S : Std) (name : Str) (B : CliBind) (h1 : B.stdout = false) (h2 : B.noembed = false)
    (h3 : B.nofsfunc = false) (hr : B.roots.exists_ = true) (he : B.epath ≠ []) (n : Str) :
    ¬ Undefined (generateBinding S name (cliConfig B)) n := by
  have hl : (cliConfig B).loadDir = ['.'] := by simp [cliConfig, h1, h3, hr]
  have hx : (cliConfig B).embedPath ≠ [] := by simpa [cliConfig, h1, h2] using he
  have hm : (cliConfig B).cueModName ≠ [] := by
    have : (cliConfig B).cueModName = Cli.bindModName B.roots false B.dir := by
      simp [cliConfig, h1, h3]
    rw [this]; exact bindModName_ne hr B.dir
  rw [C87_self_contained_partial S name _ (fun _ => ⟨hx, hm⟩), hl]
  rintro ⟨h, _⟩
  cases h

/-- **C87** (refutation).  With `--no-embed` in a module, and outside of any module without
any flag, the file is not complete. -/
theorem C87_cli_undefined (S : Std) (name : Str) (B : CliBind) (h1 : B.stdout = false)
    (h3 : B.nofsfunc = false) :
    (B.roots.exists_ = true → B.noembed = true →
      Undefined (generateBinding S name (cliConfig B)) (fsFunc name)) ∧
    (B.roots.exists_ = false →
      Undefined (generateBinding S name (cliConfig B)) (loadFunc name)) := by
  constructor
  · intro hr h2
    refine C87_fs_func_missing S name _ ?_ (.inl ?_)
    · simp [cliConfig, h1, h3, hr]
    · simp [cliConfig, h2]
  · intro hr
    have hl : (cliConfig B).loadDir = [] := by simp [cliConfig, hr]
    exact (C87_self_contained_partial S name _ (fun h => absurd hl h) _).2 ⟨hl, rfl⟩

/-- **C87** (refutation).  With `--stdout` the help says that the user must write
`themaFSFor$NAME()`; the file does not use it but `loadInstanceFor$NAME()`. -/
theorem C87_cli_stdout (S : Std) (name : Str) (B : CliBind) (h1 : B.stdout = true) (n : Str) :
    Undefined (generateBinding S name (cliConfig B)) n ↔ n = loadFunc name := by
  have hl : (cliConfig B).loadDir = [] := by simp [cliConfig, h1]
  rw [C87_self_contained_partial S name _ (fun h => absurd hl h)]
  simp [hl]

/-- A lineage in a directory `ship` of the module `example.com/fleet`. -/
def fleet : CliBind where
  suffix := false
  private_ := false
  noembed := false
  nofsfunc := false
  stdout := false
  bindtype := "*Ship".toList
  pkgname := []
  version := ⟨0, 1⟩
  epath := "ship.cue".toList
  roots := { cuemod := "example.com/fleet".toList, cuemodpath := some ["fleet".toList],
             gomod := [], gomodpath := none }
  dir := ["ship".toList, "fleet".toList]
  cuepath := "lin".toList

/-- What is generated for `fleet`, and that it fails with `--no-embed`. -/
example : fleet.roots.exists_ = true ∧ fleet.epath ≠ [] ∧
    (cliConfig fleet).cueModName = "example.com/fleet/ship".toList ∧
    (generateBinding ascii "ship".toList (cliConfig fleet)).decls.map (·.name) =
      ["Lineage".toList, "baseLineage".toList, "themaFSForship".toList,
        "getThemaFSForship".toList, "loadInstanceForship".toList] ∧
    (generateBinding ascii "ship".toList (cliConfig { fleet with noembed := true })).decls.map
      (·.name) = ["Lineage".toList, "baseLineage".toList, "loadInstanceForship".toList] := by
  decide

/-! ### Several lineages in a package -/

/-- **C89** (partial).  The bindings of two lineages can share a package if they have
different names and different suffixes.  Missing: equal suffixes
(`C89_same_suffix`). -/
theorem C89_share_package_partial (S : Std) {n1 n2 : Str} {c1 c2 : BindingConfig} (hn : n1 ≠ n2)
    (hs : suffixAsked S n1 c1 ≠ suffixAsked S n2 c2) (n : Str) :
    ¬ (Declares (generateBinding S n1 c1) n ∧ Declares (generateBinding S n2 c2) n) := by
  have fb : ∀ (m : Str) (c : BindingConfig) (x : Str),
      factoryName S m c ≠ "base".toList ++ ("Lineage".toList ++ x) := fun m c x =>
    ne_of_head (by rw [head_factory, head_base]; split <;> decide)
  have fv : ∀ (m : Str) (c : BindingConfig) (x : Str), factoryName S m c ≠ fsVar x := fun m c x =>
    ne_of_head (by rw [head_factory, head_fsVar]; split <;> decide)
  have fg : ∀ (m : Str) (c : BindingConfig) (x : Str), factoryName S m c ≠ fsFunc x := fun m c x =>
    ne_of_head (by rw [head_factory, head_fsFunc]; split <;> decide)
  have fl : ∀ (m : Str) (c : BindingConfig) (x : Str), factoryName S m c ≠ loadFunc x :=
    fun m c x => ne_of_head (by rw [head_factory, head_loadFunc]; split <;> decide)
  have ff : factoryName S n1 c1 ≠ factoryName S n2 c2 := by
    intro h
    have hh := congrArg List.head? h
    rw [head_factory, head_factory] at hh
    have hp : c1.privateFactory = c2.privateFactory := by
      cases h1 : c1.privateFactory <;> cases h2 : c2.privateFactory <;> simp_all
    unfold factoryName at h
    rw [hp] at h
    exact hs (List.append_cancel_left (List.append_cancel_left h))
  rintro ⟨h1, h2⟩
  rcases (declares_cases n).1 h1 with h1 | ⟨_, h1⟩ | ⟨_, h1⟩ | ⟨_, _, h1⟩ | ⟨_, h1⟩ <;>
  rcases (declares_cases n).1 h2 with h2 | ⟨_, h2⟩ | ⟨_, h2⟩ | ⟨_, _, h2⟩ | ⟨_, h2⟩ <;>
  subst h1
  · exact ff h2
  · exact fb _ _ _ h2
  · exact fv _ _ _ h2
  · exact fg _ _ _ h2
  · exact fl _ _ _ h2
  · exact fb _ _ _ h2.symm
  · exact hs (List.append_cancel_left (List.append_cancel_left h2))
  · exact ne_of_head (by rw [head_base, head_fsVar]; decide) h2
  · exact ne_of_head (by rw [head_base, head_fsFunc]; decide) h2
  · exact ne_of_head (by rw [head_base, head_loadFunc]; decide) h2
  · exact fv _ _ _ h2.symm
  · exact ne_of_head (by rw [head_base, head_fsVar]; decide) h2.symm
  · exact hn (List.append_cancel_left h2)
  · exact ne_of_head (by rw [head_fsVar, head_fsFunc]; decide) h2
  · exact ne_of_head (by rw [head_fsVar, head_loadFunc]; decide) h2
  · exact fg _ _ _ h2.symm
  · exact ne_of_head (by rw [head_base, head_fsFunc]; decide) h2.symm
  · exact ne_of_head (by rw [head_fsVar, head_fsFunc]; decide) h2.symm
  · exact hn (List.append_cancel_left h2)
  · exact ne_of_head (by rw [head_fsFunc, head_loadFunc]; decide) h2
  · exact fl _ _ _ h2.symm
  · exact ne_of_head (by rw [head_base, head_loadFunc]; decide) h2.symm
  · exact ne_of_head (by rw [head_fsVar, head_loadFunc]; decide) h2.symm
  · exact ne_of_head (by rw [head_fsFunc, head_loadFunc]; decide) h2.symm
  · exact hn (List.append_cancel_left h2)

/-- **C89** (refutation).  With equal suffixes the factories have the same name; without
`FactoryNameSuffix` they always do. -/
theorem C89_same_suffix (S : Std) {n1 n2 : Str} {c1 c2 : BindingConfig}
    (hp : c1.privateFactory = c2.privateFactory)
    (hs : (c1.factoryNameSuffix = false ∧ c2.factoryNameSuffix = false) ∨
      (c1.titleName = [] ∧ c2.titleName = [] ∧ c1.factoryNameSuffix = c2.factoryNameSuffix ∧
        S.title n1 = S.title n2)) :
    ∃ n, Declares (generateBinding S n1 c1) n ∧ Declares (generateBinding S n2 c2) n := by
  have hs' : suffixAsked S n1 c1 = suffixAsked S n2 c2 := by
    unfold suffixAsked
    rcases hs with ⟨h1, h2⟩ | ⟨h1, h2, h3, h4⟩
    · simp [h1, h2]
    · simp [h1, h2, h3, h4]
  refine ⟨factoryName S n1 c1, (declares_cases _).2 (.inl rfl), (declares_cases _).2 (.inl ?_)⟩
  unfold factoryName
  rw [hs', hp]

/-- Two lineages whose names differ only in the case of the first letter cannot share a
package even with `FactoryNameSuffix`. -/
example : ("foo".toList : Str) ≠ "Foo".toList ∧ ascii.title "foo".toList = ascii.title "Foo".toList := by
  decide

example : suffixAsked ascii "foo".toList { factoryNameSuffix := true } ≠
    suffixAsked ascii "bar".toList { factoryNameSuffix := true } := by decide

/-! ### Identifiers -/

theorem isIdent_append (hS : Lawful S) {p x : Str} {c : Char} (hc : p.head? = some c)
    (hl : ∀ d ∈ p, ('a' ≤ d ∧ d ≤ 'z') ∨ ('A' ≤ d ∧ d ≤ 'Z')) (hx : ∀ d ∈ x, IdentChar S d) :
    IsIdent S (p ++ x) := by
  cases p with
  | nil => cases hc
  | cons a r =>
    refine ⟨a, r ++ x, rfl, .inl (hS.letter _ (hl _ (List.mem_cons_self ..))), ?_⟩
    intro d hd
    rcases List.mem_append.1 hd with hd | hd
    · exact .inl (hS.letter _ (hl _ (List.mem_cons_of_mem _ hd)))
    · exact hx d hd

/-- **C90** (partial).  All names in the generated code are Go identifiers if the characters
of the name of the lineage and of the suffix are those of identifiers.  Missing: other names
(`C90_bad_name`, `C90_keyword`), which `#Lineage` allows. -/
theorem C90_identifiers_partial (hS : Lawful S) (name : Str) (cfg : BindingConfig)
    (hn : ∀ c ∈ name, IdentChar S c) (hs : ∀ c ∈ suffixAsked S name cfg, IdentChar S c) :
    ∀ d ∈ (generateBinding S name cfg).decls, IsIdent S d.name ∧ ∀ n ∈ d.uses, IsIdent S n := by
  have kl : IsIdent S (loadFunc name) := isIdent_append hS (c := 'l') rfl (by decide) hn
  have kg : IsIdent S (fsFunc name) := isIdent_append hS (c := 'g') rfl (by decide) hn
  have kv : IsIdent S (fsVar name) := isIdent_append hS (c := 't') rfl (by decide) hn
  have kb : IsIdent S ("base".toList ++ ("Lineage".toList ++ suffixAsked S name cfg)) := by
    rw [← List.append_assoc]
    exact isIdent_append hS (c := 'b') rfl (by decide) hs
  have kf : IsIdent S (factoryName S name cfg) := by
    unfold factoryName
    rw [← List.append_assoc]
    cases cfg.privateFactory
    · exact isIdent_append hS (c := 'L') rfl (by decide) hs
    · exact isIdent_append hS (c := 'd') rfl (by decide) hs
  intro d hd
  constructor
  · have : Declares (generateBinding S name cfg) d.name := ⟨d, hd, rfl⟩
    rcases (declares_cases _).1 this with h | ⟨_, h⟩ | ⟨_, h⟩ | ⟨_, _, h⟩ | ⟨_, h⟩ <;> rw [h] <;>
      assumption
  · intro n h
    rcases (uses_cases (S := S) (name := name) (cfg := cfg) n).1 ⟨d, hd, h⟩ with
      ⟨h1, h⟩ | h | ⟨_, _, h⟩ | ⟨_, h⟩ <;> rw [h]
    · rw [base_cases, if_pos h1]; exact kb
    · exact kl
    · exact kv
    · exact kg

/-- **C90** (refutation).  If a character of the name of the lineage is not one of
identifiers, the generated code contains a name that is not an identifier, whatever the
configuration. -/
theorem C90_bad_name (S : Std) (name : Str) (cfg : BindingConfig) {c : Char} (hc : c ∈ name)
    (hb : ¬ IdentChar S c) :
    ∃ d ∈ (generateBinding S name cfg).decls, ∃ n ∈ d.uses, ¬ IsIdent S n := by
  obtain ⟨d, hd, hu⟩ := (uses_cases (S := S) (name := name) (cfg := cfg) (loadFunc name)).2
    (.inr (.inl rfl))
  refine ⟨d, hd, _, hu, ?_⟩
  rintro ⟨a, r, h1, _, h2⟩
  have : r = "oadInstanceFor".toList ++ name := by
    have h3 : loadFunc name = 'l' :: ("oadInstanceFor".toList ++ name) := rfl
    rw [h3] at h1; injection h1 with _ h1; exact h1.symm
  exact hb (h2 c (this ▸ List.mem_append_right _ hc))

/-- **C90** (refutation).  A lineage called like a keyword gets a package clause that is not
Go, unless a package name is given. -/
theorem C90_keyword (S : Std) {name : Str} (cfg : BindingConfig) (hk : S.lower name ∈ keywords)
    (hp : cfg.packageName = []) : ¬ PackageName S (generateBinding S name cfg).package := by
  intro h
  have : (generateBinding S name cfg).package = S.lower name := by
    exact if_pos hp
  exact h.2.1 (this ▸ hk)

/-- A lineage that is called `my-kind` has no bindings; nor has `type`. -/
example : ('-' ∈ "my-kind".toList) ∧ ¬ IdentChar ascii '-' ∧
    ascii.lower "type".toList ∈ keywords := by
  refine ⟨by decide, ?_, by decide⟩
  rintro (h | h | h) <;> revert h <;> decide

example : ∀ c ∈ "ship".toList, IdentChar ascii c := by
  intro c hc
  left
  revert c
  decide

/-! ### Literals -/

/-- **C91** (partial).  The literals in the generated code denote what was configured: the
path of the lineage always does; the module name and the directory do exactly if none of
their characters needs an escape.  Missing: names with quotation marks, backslashes or line
feeds. -/
theorem C91_literals_partial (hS : Lawful S) (name : Str) (cfg : BindingConfig) :
    (∃ d ∈ (generateBinding S name cfg).decls, ∃ l, d.lits = [l] ∧
      d.uses = [loadFunc name] ∧ Lit.unquote Lit.goEsc l = some cfg.cuePath) ∧
    (cfg.embedPath ≠ [] → cfg.cueModName ≠ [] →
      ∃ d ∈ (generateBinding S name cfg).decls, ∃ l, d.name = fsFunc name ∧ d.lits = [l] ∧
        (Lit.unquote Lit.goEsc l = some cfg.cueModName ↔ Lit.Plain cfg.cueModName)) ∧
    (cfg.loadDir ≠ [] →
      ∃ d ∈ (generateBinding S name cfg).decls, ∃ l, d.name = loadFunc name ∧ d.lits = [l] ∧
        (Lit.unquote Lit.goEsc l = some cfg.loadDir ↔ Lit.Plain cfg.loadDir)) := by
  have e1 : ∀ s : Str, ¬ s = [] → (!s.isEmpty) = true := by intro s; cases s <;> simp
  refine ⟨⟨⟨(bindingVars S name cfg).baseFactoryFuncName, [loadFunc name],
    [Lit.goQuote S.isPrint cfg.cuePath]⟩, ?_, _, rfl, rfl, Lit.unquote_goQuote hS.noPrint _⟩,
    fun h1 h2 => ⟨⟨fsFunc name, [fsVar name], [Lit.inQuotes cfg.cueModName]⟩, ?_, _, rfl, rfl,
      Lit.unquote_inQuotes Lit.goEsc_shrinks _⟩,
    fun h1 => ⟨⟨loadFunc name, [fsFunc name], [Lit.inQuotes cfg.loadDir]⟩, ?_, _, rfl, rfl,
      Lit.unquote_inQuotes Lit.goEsc_shrinks _⟩⟩
  · show _ ∈ decls _
    unfold decls
    exact List.mem_append_left _ (List.mem_append_left _ (List.mem_append_right _
      (List.mem_singleton.2 rfl)))
  · show _ ∈ decls _
    unfold decls
    have a : (bindingVars S name cfg).genEmbed = true := e1 _ h1
    have b : (bindingVars S name cfg).genFSFunc = true := e1 _ h2
    refine List.mem_append_left _ (List.mem_append_right _ ?_)
    rw [if_pos a, if_pos b]
    exact List.mem_cons_of_mem _ (List.mem_singleton.2 rfl)
  · show _ ∈ decls _
    unfold decls
    have a : (bindingVars S name cfg).genLoaderFunc = true := e1 _ h1
    refine List.mem_append_right _ ?_
    rw [if_pos a]
    exact List.mem_singleton.2 rfl

/-- A directory with a quotation mark, and one with a backslash, as on Windows. -/
example : ¬ Lit.Plain "a\"b".toList ∧ ¬ Lit.Plain "kinds\\new".toList ∧
    Lit.unquote Lit.goEsc (Lit.inQuotes "kinds\\new".toList) = some "kinds\new".toList ∧
    Lit.Plain "github.com/grafana/thema".toList := by decide

/-! ### Package names -/

/-- **C92** (bindings).  Without a configured package name, bindings are generated for the
package with the lowercase name of the lineage. -/
theorem C92_bindings (S : Std) (name : Str) (cfg : BindingConfig) :
    (generateBinding S name cfg).package =
      if cfg.packageName = [] then S.lower name else cfg.packageName := rfl

/-- **C92** (types, partial).  With one configuration for several lineages, types are
generated for the configured package.  Missing: no configured package name
(`C92_types_default`, `C92_types_reused`). -/
theorem C92_types_partial (p : Str) (hp : p ≠ []) (names : List Str) :
    typesPackages names ⟨p⟩ = names.map fun _ => p := by
  induction names with
  | nil => rfl
  | cons n ns ih =>
    have : typesPackage n ⟨p⟩ = (p, ⟨p⟩) := by simp [typesPackage, hp]
    rw [typesPackages, this, ih]
    rfl

/-- **C92** (refutation).  Without a configured package name the name of the lineage is used
as it is, not in lower case. -/
theorem C92_types_default (S : Std) {name : Str} (h : S.lower name ≠ name) :
    (typesPackage name ⟨[]⟩).1 ≠ S.lower name := by
  simpa [typesPackage] using fun e => h e.symm

/-- **C92** (refutation).  `GenerateTypesOpenAPI` writes to the configuration of its caller:
used for several lineages, all types are generated for the package of the first. -/
theorem C92_types_reused {n : Str} (hn : n ≠ []) (ns : List Str) :
    typesPackages (n :: ns) ⟨[]⟩ = (n :: ns).map fun _ => n := by
  have : typesPackage n ⟨[]⟩ = (n, ⟨n⟩) := by simp [typesPackage]
  rw [typesPackages, this, C92_types_partial n hn]
  rfl

example : ascii.lower "Ship".toList ≠ "Ship".toList ∧
    typesPackages ["ship".toList, "crew".toList] ⟨[]⟩ = ["ship".toList, "ship".toList] := by decide

/-! ### The convergent factory -/

variable {V T : Type} {C : Cue V} {force : Bool} {r : RawLineage V} {opts : List (BindOption V)}

/-- **C93** (partial).  A generated convergent factory binds the type to the schema with the
configured version, if the lineage has it.  Missing: other versions
(`C93_unknown_version`). -/
theorem C93_target_partial {L : Lineage V} {target : SV} {bindType : Lineage V → Nat → Res (TypedSchema V T)}
    (hb : bindLineage C force r opts = .ok L) (ht : some target ∈ r.schemas.map (·.version)) :
    ∃ p, p < L.allsch.length ∧ L.ver p = target ∧
      convergentFactory target (bindLineage C force r opts) bindType = bindType L p := by
  obtain ⟨h1, _⟩ := (C04_schemaP hb target).1 ht
  obtain ⟨p, h2, h3, h4⟩ := (C04_schema_lookup hb target).1 ht
  refine ⟨p, h3, h4, ?_⟩
  simp [convergentFactory, hb, h1, h2]

/-- **C93** (partial, from the command line).  The factory that `gen gobindings` generates binds
the type to the schema with the version that was asked for, if the lineage has it. -/
theorem C93_command_partial {L : Lineage V} {S : Std} {name : Str} {B : CliBind}
    {bindType : Lineage V → Nat → Res (TypedSchema V T)}
    (hb : bindLineage C force r opts = .ok L) (ht : some B.version ∈ r.schemas.map (·.version)) :
    ∃ p, p < L.allsch.length ∧ L.ver p = B.version ∧
      convergentFactory (bindingVars S name (cliConfig B)).targetSchemaVersion
        (bindLineage C force r opts) bindType = bindType L p :=
  C93_target_partial hb ht

/-- **C93** (refutation).  The version is not checked when bindings are generated; the
factory, which is said to return an error, panics if the lineage does not have it. -/
theorem C93_unknown_version {L : Lineage V} {target : SV}
    {bindType : Lineage V → Nat → Res (TypedSchema V T)}
    (hb : bindLineage C force r opts = .ok L) (ht : some target ∉ r.schemas.map (·.version)) :
    (convergentFactory target (bindLineage C force r opts) bindType).Panics := by
  have h := (C04_schemaP hb target).2 ht
  unfold convergentFactory
  rw [hb, Res.bind_ok]
  cases hs : L.schemaP target with
  | ok p => rw [hs] at h; exact h.elim
  | err e => rw [hs] at h; exact h.elim
  | panic k => exact trivial
  | fuel => rw [hs] at h; exact h.elim

/-- The type of the two forms of Go expressions that make a fresh value of a named type `t`:
`new(t)` is a pointer to it, `t{}` is one. -/
inductive FreshValue : Str → Str → Prop
  | pointer (t : Str) : FreshValue ("new(".toList ++ t ++ ")".toList) ('*' :: t)
  | value (t : Str) (h : ∀ u, t ≠ '*' :: u) : FreshValue (t ++ "{}".toList) t

/-- **C93**.  The value that the factory hands to `BindType`, and the type parameter that it uses,
are of the configured type: a pointer to a fresh value for `*T`, a fresh value for `T`. -/
theorem C93_assignee {S : Std} {name : Str} {cfg : BindingConfig} {t : Str}
    (h : cfg.assignee = some t) :
    FreshValue (bindingVars S name cfg).assigneeInit t ∧ (bindingVars S name cfg).assignee = t ∧
      (bindingVars S name cfg).isConvergent = true ∧
      (bindingVars S name cfg).targetSchemaVersion = cfg.targetSchemaVersion := by
  refine ⟨?_, ?_, ?_, rfl⟩
  rotate_left
  · show cfg.assignee.getD [] = t
    rw [h]; rfl
  · show cfg.assignee.isSome = true
    rw [h]; rfl
  show FreshValue ((cfg.assignee.map assigneeInit).getD []) t
  rw [h, Option.map_some, Option.getD_some]
  unfold assigneeInit
  split
  · exact .pointer _
  · rename_i hne
    exact .value t fun u hu => hne u hu

/-- A pointer type is made with `new`. -/
example (S : Std) (cfg : BindingConfig) (h : cfg.assignee = some "*Ship".toList) :
    FreshValue "new(Ship)".toList "*Ship".toList ∧
    (bindingVars S "ship".toList cfg).assigneeInit = "new(Ship)".toList :=
  ⟨.pointer "Ship".toList, by
    show (cfg.assignee.map assigneeInit).getD [] = _
    rw [h]; rfl⟩

/-- Bindings for a type at version 0.1 work; those for 0.2 panic. -/
example : SetCue.bind threeVersions = .ok threeBound ∧
    some ⟨0, 1⟩ ∈ threeVersions.schemas.map (·.version) ∧
    some ⟨0, 2⟩ ∉ threeVersions.schemas.map (·.version) := by
  refine ⟨rfl, by decide, by decide⟩

/-! ### The theorems on concrete configurations -/

theorem ascii_ident_ship : ∀ c ∈ "ship".toList, IdentChar ascii c := by
  intro c hc
  left
  revert c
  decide

example : Declares (generateBinding ascii "ship".toList (cliConfig fleet)) "Lineage".toList :=
  ((C88_exported ascii_lawful "ship".toList (cliConfig fleet) "Lineage".toList).1.2
    (by decide)).1

example := C90_identifiers_partial ascii_lawful "ship".toList (cliConfig fleet) ascii_ident_ship
  (fun c h => absurd h (by simp [suffixAsked, cliConfig, fleet]))

example := C91_literals_partial ascii_lawful "ship".toList (cliConfig fleet)

example := C88_convergent ascii "ship".toList (cliConfig fleet) (by decide)

example : ¬ Undefined (generateBinding ascii "ship".toList (cliConfig fleet))
    "loadInstanceForship".toList := fun h =>
  absurd ((C87_self_contained_partial ascii "ship".toList (cliConfig fleet)
    (fun _ => by decide) _).1 h).1 (by decide)

example := C87_cli ascii "ship".toList fleet rfl rfl rfl (by decide) (by decide)

example : Undefined (generateBinding ascii "ship".toList (cliConfig { fleet with noembed := true }))
    (fsFunc "ship".toList) :=
  (C87_cli_undefined ascii "ship".toList { fleet with noembed := true } rfl rfl).1 (by decide) rfl

example := C87_fs_func_missing ascii "ship".toList (cliConfig { fleet with noembed := true })
  (by decide) (by decide)

example := (C87_cli_stdout ascii "ship".toList { fleet with stdout := true } rfl _).2 rfl

example (n : Str) := C89_share_package_partial ascii (n1 := "foo".toList) (n2 := "bar".toList)
  (c1 := { factoryNameSuffix := true }) (c2 := { factoryNameSuffix := true }) (by decide)
  (by decide) n

example := C89_same_suffix ascii (n1 := "foo".toList) (n2 := "Foo".toList)
  (c1 := { factoryNameSuffix := true }) (c2 := { factoryNameSuffix := true }) rfl
  (.inr ⟨rfl, rfl, rfl, by decide⟩)

example := C90_bad_name ascii "my-kind".toList {} (c := '-') (by decide)
  (by rintro (h | h | h) <;> revert h <;> decide)

example := C90_keyword ascii (name := "type".toList) {} (by decide) rfl

example : typesPackages ["ship".toList, "crew".toList] ⟨"kinds".toList⟩ =
    ["kinds".toList, "kinds".toList] := C92_types_partial _ (by decide) _

example := C92_types_default ascii (name := "Ship".toList) (by decide)

example := C92_types_reused (n := "ship".toList) (by decide) ["crew".toList]

example (bt : Lineage SetCue.Val → Nat → Res (TypedSchema SetCue.Val Nat)) :
    convergentFactory ⟨0, 1⟩ (bindLineage SetCue.cue false threeVersions []) bt = bt threeBound 1 := by
  obtain ⟨p, hp, hv, h⟩ := C93_target_partial (C := SetCue.cue) (force := false) (opts := [])
    (r := threeVersions) (L := threeBound) (target := ⟨0, 1⟩) (bindType := bt) rfl (by decide)
  match p, hp, hv, h with
  | 0, _, hv, _ => exact absurd hv (by decide)
  | 1, _, _, h => exact h
  | 2, _, hv, _ => exact absurd hv (by decide)

example (bt : Lineage SetCue.Val → Nat → Res (TypedSchema SetCue.Val Nat)) :=
  C93_command_partial (S := ascii) (name := "ship".toList) (B := fleet) (C := SetCue.cue)
    (force := false) (opts := []) (r := threeVersions) (L := threeBound) (bindType := bt) rfl
    (by decide)

example (bt : Lineage SetCue.Val → Nat → Res (TypedSchema SetCue.Val Nat)) :=
  C93_unknown_version (C := SetCue.cue) (force := false) (opts := []) (r := threeVersions)
    (L := threeBound) (target := ⟨0, 2⟩) (bindType := bt) rfl (by decide)

example := C93_assignee (S := ascii) (name := "ship".toList) (cfg := cliConfig fleet)
  (t := "*Ship".toList) (by decide)

end Thema.Props

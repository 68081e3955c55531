import Verif.Lemmas.Commands

/-!
# Which command lines run
-/

namespace Thema.Props

open Cmds Cmds.Spec

private theorem req_none (c : CId) (h : needs c = []) :
    (flagsOf c).filter (·.required) = [] := by
  rw [List.filter_eq_nil_iff]
  intro f hf
  obtain ⟨r, _, rfl⟩ := List.mem_map.1 hf
  simp [toFlag, h]

private theorem req_data (c : CId) (h : needs c = ["lineage".toList]) :
    (flagsOf c).filter (·.required) = [toFlag (needs c) (text "lineage" 'l')] := by
  revert h
  cases c <;> decide +kernel

private theorem req_translate : (flagsOf .translate).filter (·.required) =
    [toFlag (needs .translate) (text "to" 'v'), toFlag (needs .translate) (text "lineage" 'l')] := by
  decide +kernel

private theorem needs_cases (c : CId) :
    needs c = [] ∨ needs c = ["lineage".toList] ∨ c = .translate := by
  cases c <;> decide +kernel

private theorem row_lineage (c : CId) (h : needs c = ["lineage".toList] ∨ c = .translate) :
    text "lineage" 'l' ∈ takes c := by
  revert h
  cases c <;> decide +kernel

private theorem name_unique (c : CId) (r s : Row) (hr : r ∈ takes c) (hs : s ∈ takes c)
    (h : r.name = s.name) : r = s :=
  means_unique c (k := .long r.name) (by simp [rows, hr]) (by simp [rows, hs]) (Or.inl rfl)
    (Or.inl (by rw [h]))

private theorem given_iff (c : CId) (given : List (Key × Str)) (r : Row) (hr : r ∈ takes c) :
    Given c given r.name ↔ changed (flagsOf c) given (toFlag (needs c) r) = true := by
  rw [changed_iff c given r (by simp [rows, hr])]
  constructor
  · rintro ⟨s, hs, hn, h⟩
    rw [name_unique c r s hr hs hn.symm]
    exact h
  · intro h
    exact ⟨r, hr, rfl, h⟩

open Classical in
/-- The names in the message about missing flags. -/
private theorem missing_eq (c : CId) (given : List (Key × Str)) :
    sortNames (((flagsOf c).filter fun f => f.required && !changed (flagsOf c) given f).map
      (·.name)) = (needs c).filter fun n => decide (¬ Given c given n) := by
  have e : ((flagsOf c).filter fun f => f.required && !changed (flagsOf c) given f) =
      ((flagsOf c).filter (·.required)).filter fun f => !changed (flagsOf c) given f := by
    rw [List.filter_filter]
    congr 1
    funext f
    exact Bool.and_comm _ _
  rw [e]
  rcases needs_cases c with h | h | rfl
  · rw [req_none c h, h]; rfl
  · have g := given_iff c given _ (row_lineage c (Or.inl h))
    rw [req_data c h]
    rw [show (needs c).filter (fun n => decide (¬ Given c given n)) =
      [(text "lineage" 'l').name].filter (fun n => decide (¬ Given c given n)) from by rw [h]; rfl]
    cases hc : changed (flagsOf c) given (toFlag (needs c) (text "lineage" 'l')) with
    | true =>
      rw [List.filter_cons_of_neg (by simp [hc]), List.filter_cons_of_neg (by simp [g, hc])]
      rfl
    | false =>
      rw [List.filter_cons_of_pos (by simp [hc]), List.filter_cons_of_pos (by simp [g, hc])]
      rfl
  · have g := given_iff .translate given _ (row_lineage .translate (Or.inr rfl))
    have g' := given_iff .translate given (text "to" 'v') (by decide +kernel)
    rw [req_translate]
    rw [show (needs .translate).filter (fun n => decide (¬ Given .translate given n)) =
      [(text "lineage" 'l').name, (text "to" 'v').name].filter
        (fun n => decide (¬ Given .translate given n)) from rfl]
    cases hc : changed (flagsOf .translate) given
        (toFlag (needs .translate) (text "lineage" 'l')) with
    | true =>
      cases hc' : changed (flagsOf .translate) given
          (toFlag (needs .translate) (text "to" 'v')) with
      | true =>
        rw [List.filter_cons_of_neg (by simp [hc']), List.filter_cons_of_neg (by simp [hc]),
          List.filter_cons_of_neg (by simp [g, hc]), List.filter_cons_of_neg (by simp [g', hc'])]
        rfl
      | false =>
        rw [List.filter_cons_of_pos (by simp [hc']), List.filter_cons_of_neg (by simp [hc]),
          List.filter_cons_of_neg (by simp [g, hc]), List.filter_cons_of_pos (by simp [g', hc'])]
        rfl
    | false =>
      cases hc' : changed (flagsOf .translate) given
          (toFlag (needs .translate) (text "to" 'v')) with
      | true =>
        rw [List.filter_cons_of_neg (by simp [hc']), List.filter_cons_of_pos (by simp [hc]),
          List.filter_cons_of_pos (by simp [g, hc]), List.filter_cons_of_neg (by simp [g', hc'])]
        rfl
      | false =>
        rw [List.filter_cons_of_pos (by simp [hc']), List.filter_cons_of_pos (by simp [hc]),
          List.filter_cons_of_pos (by simp [g, hc]), List.filter_cons_of_pos (by simp [g', hc'])]
        exact show sortNames ["to".toList, "lineage".toList] = ["lineage".toList, "to".toList] by
          decide +kernel

open Classical in
private theorem ends_thema (fails : Step → Bool) (c : CId) (given : List (Key × Str))
    (args : List Str) :
    Ends fails c given args (thema fails c given args).1 (thema fails c given args).2 := by
  unfold thema
  rw [tree_eq]
  simp only [execute]
  by_cases hroot : c = .root ∧ args ≠ []
  · rw [if_pos hroot]; exact .unknown hroot.1 hroot.2
  rw [if_neg hroot, T_flags]
  have hr : c = .root → args = [] := fun h =>
    Classical.byContradiction fun h' => hroot ⟨h, h'⟩
  simp only
  by_cases hp : parses (flagsOf c) given = true
  rotate_left
  · rw [if_pos (by simpa using hp)]
    refine .badFlags hr ?_
    rw [parses_iff] at hp
    exact Classical.byContradiction fun h => hp fun g hg =>
      Classical.byContradiction fun h' => h ⟨g, hg, h'⟩
  rw [if_neg (by simpa using hp)]
  have ha := (parses_iff c given).1 hp
  have hh := helpAsked_iff c given false ha
  simp only [Bool.false_eq_true, false_and, or_false] at hh
  by_cases hk : helpAsked (flagsOf c) given false = true
  · rw [if_pos hk]; exact .help hr ha (Or.inl (hh.1 hk))
  rw [if_neg hk]
  have hk' : ¬ HelpAsked given := fun h => hk (hh.2 h)
  by_cases hg : (T c).runnable = true
  rotate_left
  · rw [if_pos (by simpa using hg)]
    refine .help hr ha (Or.inr ?_)
    rw [T_runnable] at hg
    exact Classical.byContradiction hg
  rw [if_neg (by simpa using hg)]
  have hg' := (T_runnable c).1 hg
  have ht := T_tooMany c args.length fun h => by rw [hr h]; rfl
  by_cases hm : (T c).maxArgs.any (fun m => decide (m < args.length)) = true
  · rw [if_pos hm]; exact .badArgs ha hk' hg' (ht.1 hm)
  rw [if_neg hm, T_checks]
  have hproper : Proper c given args := ⟨ha, hk', hg', fun h => hm (ht.2 h)⟩
  rcases first_failure fails (checks c) with hs | ⟨pre, s, post, h1, h2, h3⟩
  · rw [runSteps_ok fails _ hs, missing_eq]
    simp only
    split
    · rename_i hn
      refine .ran hproper hs fun n hn' => Classical.byContradiction fun h => ?_
      exact List.filter_eq_nil_iff.1 hn n hn' (by simpa using h)
    · rename_i hn
      exact .missing _ hproper hs hn rfl
  · rw [h1, runSteps_fail fails pre s post h2 h3]
    exact .failed pre s post hproper h1 h2 h3

private theorem root_not_proper {given : List (Key × Str)} {args : List Str} {c : CId}
    (h : Proper c given args) : c ≠ .root := by
  rintro rfl; exact h.command trivial

open Classical in
/-- No two ends. -/
private theorem ends_unique {fails : Step → Bool} {c : CId} {given : List (Key × Str)}
    {args : List Str} {d d' : List Step} {e e' : End} (h : Ends fails c given args d e)
    (h' : Ends fails c given args d' e') : d = d' ∧ e = e' := by
  have fl : ∀ {pre : List Step} {s : Step} {post : List Step}, checks c = pre ++ s :: post →
      fails s = true → ¬ ∀ x ∈ checks c, fails x = false := by
    intro pre s post h1 h2 h3
    have := h3 s (by rw [h1]; simp)
    rw [h2] at this; cases this
  cases h with
  | unknown hc hx =>
    cases h' with
    | unknown => exact ⟨rfl, rfl⟩
    | badFlags hr => exact absurd (hr hc) hx
    | help hr => exact absurd (hr hc) hx
    | badArgs => exact ⟨rfl, rfl⟩
    | failed _ _ _ hp => exact absurd hc (root_not_proper hp)
    | missing _ hp => exact absurd hc (root_not_proper hp)
    | ran hp => exact absurd hc (root_not_proper hp)
  | badFlags hr hb =>
    obtain ⟨g, hg, hn⟩ := hb
    cases h' with
    | unknown hc hx => exact absurd (hr hc) hx
    | badFlags => exact ⟨rfl, rfl⟩
    | help _ ha => exact absurd (ha g hg) hn
    | badArgs ha => exact absurd (ha g hg) hn
    | failed _ _ _ hp => exact absurd (hp.flags g hg) hn
    | missing _ hp => exact absurd (hp.flags g hg) hn
    | ran hp => exact absurd (hp.flags g hg) hn
  | help hr ha hh =>
    cases h' with
    | unknown hc hx => exact absurd (hr hc) hx
    | badFlags _ hb => obtain ⟨g, hg, hn⟩ := hb; exact absurd (ha g hg) hn
    | help => exact ⟨rfl, rfl⟩
    | badArgs _ h1 h2 => rcases hh with hh | hh <;> contradiction
    | failed _ _ _ hp => exact hh.elim (absurd · hp.noHelp) (absurd · hp.command)
    | missing _ hp => exact hh.elim (absurd · hp.noHelp) (absurd · hp.command)
    | ran hp => exact hh.elim (absurd · hp.noHelp) (absurd · hp.command)
  | badArgs ha h1 h2 h3 =>
    cases h' with
    | unknown => exact ⟨rfl, rfl⟩
    | badFlags _ hb => obtain ⟨g, hg, hn⟩ := hb; exact absurd (ha g hg) hn
    | help _ _ hh => rcases hh with hh | hh <;> contradiction
    | badArgs => exact ⟨rfl, rfl⟩
    | failed _ _ _ hp => exact absurd h3 hp.arguments
    | missing _ hp => exact absurd h3 hp.arguments
    | ran hp => exact absurd h3 hp.arguments
  | failed pre s post hp h1 h2 h3 =>
    cases h' with
    | unknown hc => exact absurd hc (root_not_proper hp)
    | badFlags _ hb => obtain ⟨g, hg, hn⟩ := hb; exact absurd (hp.flags g hg) hn
    | help _ _ hh => exact hh.elim (absurd · hp.noHelp) (absurd · hp.command)
    | badArgs _ _ _ h => exact absurd h hp.arguments
    | failed pre' s' post' _ h1' h2' h3' =>
      have a := runSteps_fail fails pre s post h2 h3
      have b := runSteps_fail fails pre' s' post' h2' h3'
      rw [← h1] at a
      rw [← h1', a] at b
      rw [Prod.mk.injEq, Option.some.injEq] at b
      exact ⟨b.1, by rw [b.2]⟩
    | missing _ _ hs => exact absurd hs (fl h1 h3)
    | ran _ hs => exact absurd hs (fl h1 h3)
  | missing ns hp hs hn he =>
    cases h' with
    | unknown hc => exact absurd hc (root_not_proper hp)
    | badFlags _ hb => obtain ⟨g, hg, hn⟩ := hb; exact absurd (hp.flags g hg) hn
    | help _ _ hh => exact hh.elim (absurd · hp.noHelp) (absurd · hp.command)
    | badArgs _ _ _ h => exact absurd h hp.arguments
    | failed _ _ _ _ h1 _ h3 => exact absurd hs (fl h1 h3)
    | missing ns' _ _ _ he' => exact ⟨rfl, by rw [he, he']⟩
    | ran _ _ hg =>
      exact absurd (by rw [he, List.filter_eq_nil_iff]; intro n h; simpa using hg n h) hn
  | ran hp hs hg =>
    cases h' with
    | unknown hc => exact absurd hc (root_not_proper hp)
    | badFlags _ hb => obtain ⟨g, hg, hn⟩ := hb; exact absurd (hp.flags g hg) hn
    | help _ _ hh => exact hh.elim (absurd · hp.noHelp) (absurd · hp.command)
    | badArgs _ _ _ h => exact absurd h hp.arguments
    | failed _ _ _ _ h1 _ h3 => exact absurd hs (fl h1 h3)
    | missing ns' _ _ hn he =>
      exact absurd (by rw [he, List.filter_eq_nil_iff]; intro n h; simpa using hg n h) hn
    | ran => exact ⟨rfl, rfl⟩

/-- **C190.** How every command line ends, and what is done before: exactly as the tables say. -/
theorem C190_ends_iff (fails : Step → Bool) (c : CId) (given : List (Key × Str)) (args : List Str)
    (done : List Step) (e : End) :
    thema fails c given args = (done, e) ↔ Ends fails c given args done e := by
  have h := ends_thema fails c given args
  constructor
  · intro he
    rw [he] at h
    exact h
  · intro he
    obtain ⟨h1, h2⟩ := ends_unique h he
    rw [← h1, ← h2]

/-- **C190.** No command line makes the registration of flags panic. -/
theorem C190_no_panic (fails : Step → Bool) (c : CId) (given : List (Key × Str)) (args : List Str) :
    (thema fails c given args).2 ≠ .panicked := by
  have h := ends_thema fails c given args
  intro he
  rw [he] at h
  generalize (thema fails c given args).1 = d at h
  cases h

/-- Non-vacuity: a command that runs, one that lacks its flags after all checks, one with a
misspelt flag, and one that a check stops. -/
example : Ends (fun _ => false) .translate
    [(.short 'l', "lin.cue".toList), (.long "to".toList, "1.0".toList)] ["data.json".toList]
    [.lineage, .version, .dataInput] .ran :=
  (C190_ends_iff ..).1 (by decide +kernel)
example : Ends (fun _ => false) .translate [] [] [.lineage, .version, .dataInput]
    (.missing ["lineage".toList, "to".toList]) :=
  (C190_ends_iff ..).1 (by decide +kernel)
example : Ends (fun _ => false) .genGobindings [(.long "bindversion".toList, "1.0".toList)] [] []
    .badFlags :=
  (C190_ends_iff ..).1 (by decide +kernel)
example : Ends (fun s => s == .dataInput) .validate [(.short 'l', [])] []
    [.lineage, .versionOptional, .dataInput] (.failed .dataInput) :=
  (C190_ends_iff ..).1 (by decide +kernel)

/-! ### Usage lines -/

/-- The usage lines are right: what is shown is accepted; the command does not run without what
is shown without brackets; and it runs without what is shown in brackets. -/
def UsageRight : Prop :=
  ∀ (c : CId) (u : Shown), u ∈ usage c →
    (∃ v, Accepted c (u.key, v)) ∧
    (u.optional = false → ∀ fails given args, (thema fails c given args).2 = .ran →
      ∃ r ∈ takes c, Means u.key r ∧ ∃ g ∈ given, Means g.1 r) ∧
    (u.optional = true → ∃ fails given args, (thema fails c given args).2 = .ran ∧
      ∀ r ∈ takes c, Means u.key r → ¬ ∃ g ∈ given, Means g.1 r)

/-- **C189 is violated**, in four ways: `gen gobindings` refuses `--bindversion`; the commands of
`gen` run without `-l`, as do `fix` and `bump`, on the current directory; `validate` runs without
`-v`; `translate` does not run without `--to`. -/
theorem C189_violated :
    ¬ UsageRight ∧
    (∀ v, ¬ Accepted .genGobindings (.long "bindversion".toList, v)) ∧
    (∀ c ∈ [CId.genOpenapi, .genJsonschema, .genGotypes, .genGobindings, .fix, .bump],
      (thema (fun _ => false) c [] []).2 = .ran) ∧
    (thema (fun _ => false) .validate [(.short 'l', ['.'])] []).2 = .ran ∧
    (∀ fails given args, (thema fails .translate given args).2 = .ran →
      Given .translate given "to".toList) := by
  have hb : ∀ v, ¬ Accepted .genGobindings (.long "bindversion".toList, v) := by
    rintro v ⟨r, hr, hm, _⟩
    have h : (helpRow :: takes .genGobindings).all
        (fun r => !(toFlag [] r).is (.long "bindversion".toList)) = true := by decide +kernel
    have := List.all_eq_true.1 h r hr
    rw [(means_iff _ [] r).2 hm] at this
    cases this
  refine ⟨fun h => ?_, hb, by decide +kernel, by decide +kernel, fun fails given args h => ?_⟩
  · obtain ⟨⟨v, hv⟩, _⟩ := h .genGobindings (mayL "bindversion") (by decide +kernel)
    exact hb v hv
  · have he := ends_thema fails .translate given args
    rw [h] at he
    generalize (thema fails .translate given args).1 = d at he
    cases he with
    | ran _ _ hg => exact hg _ (by decide +kernel)

/-- **C189, where it holds**: every flag shown in a usage line but `--bindversion` is accepted;
the data commands do not run without `-l`. -/
theorem C189_usage_partial :
    (∀ (c : CId) (u : Shown), u ∈ usage c → u.key ≠ .long "bindversion".toList →
      ∃ v, Accepted c (u.key, v)) ∧
    (∀ c ∈ [CId.validate, .validateAny, .translate, .hydrate, .dehydrate],
      ∀ fails given args, (thema fails c given args).2 = .ran →
        ∃ g ∈ given, g.1 = .short 'l' ∨ g.1 = .long "lineage".toList) := by
  constructor
  · intro c u hu hn
    refine ⟨"true".toList, ?_⟩
    rw [accepted_iff]
    revert u
    cases c <;> decide +kernel
  · intro c hc fails given args h
    have he := ends_thema fails c given args
    rw [h] at he
    generalize (thema fails c given args).1 = d at he
    cases he with
    | ran _ _ hg =>
      have hl : "lineage".toList ∈ needs c := by
        revert hc
        cases c <;> decide +kernel
      obtain ⟨r, hr, hn, g, hg', hm⟩ := hg _ hl
      have hrow : text "lineage" 'l' ∈ takes c := by
        revert hc
        cases c <;> decide +kernel
      have := name_unique c r _ hr hrow hn
      subst this
      refine ⟨g, hg', ?_⟩
      rcases hm with hm | ⟨x, hx, hm⟩
      · exact Or.inr hm
      · cases hx; exact Or.inl hm

end Thema.Props

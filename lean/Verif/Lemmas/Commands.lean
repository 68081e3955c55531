import Verif.Spec.Commands

/-!
# The command tree: lemmas
-/

namespace Thema.Cmds

open Spec

/-- A row of the tables as a registered flag. -/
def toFlag (ns : List Str) (r : Row) : Flag := ⟨r.name, r.short, r.isBool, decide (r.name ∈ ns)⟩

/-- The flags of a command. -/
def rows (c : CId) : List Row := takes c ++ [helpRow]

def flagsOf (c : CId) : List Flag := (rows c).map (toFlag (needs c))

theorem tree_some : tree.isSome = true := by decide +kernel

/-- The commands after the setup. -/
def T : Tree := tree.get tree_some

theorem tree_eq : tree = some T := by simp [T]

theorem T_flags (c : CId) : allFlags T c = some (flagsOf c) := by
  cases c <;> decide +kernel

theorem T_checks (c : CId) :
    nearestPreRun T (c :: parents T depth c) ++ ((T c).preRun.getD []) = checks c := by
  cases c <;> decide +kernel

theorem T_runnable (c : CId) : (T c).runnable = true ↔ ¬ Group c := by
  cases c <;> (simp only [Group, not_true, not_false_iff, iff_true, iff_false]; decide +kernel)

theorem T_max (c : CId) : (T c).maxArgs = (match c with
    | .initEmpty | .bump | .fix => some 0
    | .validate | .validateAny | .translate | .hydrate | .dehydrate | .initOpenapi
    | .initJsonschema => some 1
    | _ => none) := by
  cases c <;> decide +kernel

theorem T_tooMany (c : CId) (n : Nat) (h : c = .root → n = 0) :
    (T c).maxArgs.any (fun m => decide (m < n)) = true ↔ TooMany c n := by
  rw [T_max]
  cases c with
  | root => rw [h rfl]; exact ⟨(fun h => nomatch h), fun h => absurd h (Nat.lt_irrefl 0)⟩
  | _ => first | exact decide_eq_true_iff | exact ⟨(fun h => nomatch h), False.elim⟩

theorem means_iff (k : Key) (ns : List Str) (r : Row) :
    (toFlag ns r).is k = true ↔ Means k r := by
  cases k with
  | long n =>
    simp only [Flag.is, toFlag, Means, reduceCtorEq, and_false, exists_false, or_false, beq_iff_eq,
      Key.long.injEq]
    exact eq_comm
  | short c => 
    simp only [Flag.is, toFlag, Means, reduceCtorEq, false_or, beq_iff_eq, Key.short.injEq]
    constructor
    · intro h; exact ⟨c, h, rfl⟩
    · rintro ⟨d, h, rfl⟩; exact h

/-- No two flags of a command have the same name or shorthand. -/
theorem rows_apart (c : CId) :
    (rows c).Pairwise fun r s => r.name ≠ s.name ∧ (r.short = none ∨ r.short ≠ s.short) := by
  cases c <;> decide +kernel

theorem means_unique (c : CId) {k : Key} {r s : Row} (hr : r ∈ rows c) (hs : s ∈ rows c)
    (h : Means k r) (h' : Means k s) : r = s := by
  by_cases e : r = s
  · exact e
  · exfalso
    have key : ∀ a b : Row, Means k a → Means k b →
        (a.name ≠ b.name ∧ (a.short = none ∨ a.short ≠ b.short)) → False := by
      rintro a b (ha | ⟨x, ha, ha'⟩) (hb | ⟨y, hb, hb'⟩) ⟨hn, hsh⟩
      · rw [ha] at hb; exact hn (Key.long.inj hb)
      · rw [ha] at hb'; cases hb'
      · rw [hb] at ha'; cases ha'
      · rw [ha'] at hb'
        rcases hsh with hsh | hsh
        · rw [hsh] at ha; cases ha
        · exact hsh (by rw [ha, hb, Key.short.inj hb'])
    have p := rows_apart c
    have q : ∀ l : List Row, l.Pairwise (fun r s => r.name ≠ s.name ∧
        (r.short = none ∨ r.short ≠ s.short)) → r ∈ l → s ∈ l →
        (r.name ≠ s.name ∧ (r.short = none ∨ r.short ≠ s.short)) ∨
        (s.name ≠ r.name ∧ (s.short = none ∨ s.short ≠ r.short)) := by
      intro l hl
      induction l with
      | nil => intro h; cases h
      | cons a l ih =>
        rw [List.pairwise_cons] at hl
        intro m1 m2
        rcases List.mem_cons.1 m1 with rfl | h1
        · rcases List.mem_cons.1 m2 with rfl | h2
          · exact absurd rfl e
          · exact Or.inl (hl.1 _ h2)
        · rcases List.mem_cons.1 m2 with rfl | h2
          · exact Or.inr (hl.1 _ (by assumption))
          · exact ih hl.2 h1 h2
    rcases q _ p hr hs with x | x
    · exact key r s h h' x
    · exact key s r h' h x

theorem find_row (c : CId) {k : Key} {r : Row} (hr : r ∈ rows c) (h : Means k r) :
    (flagsOf c).find? (·.is k) = some (toFlag (needs c) r) := by
  have h1 : ((flagsOf c).find? (·.is k)).isSome = true := by
    rw [List.find?_isSome]
    exact ⟨_, List.mem_map_of_mem hr, (means_iff k _ r).2 h⟩
  obtain ⟨f, hf⟩ := Option.isSome_iff_exists.1 h1
  obtain ⟨s, hs, rfl⟩ := List.mem_map.1 (List.mem_of_find?_eq_some hf)
  have hm := (means_iff k _ s).1 (List.find?_some (p := fun f : Flag => f.is k) hf)
  rw [hf, means_unique c hr hs h hm]

theorem find_none (c : CId) {k : Key} (h : ∀ r ∈ rows c, ¬ Means k r) :
    (flagsOf c).find? (·.is k) = none := by
  rw [List.find?_eq_none]
  intro f hf
  obtain ⟨s, hs, rfl⟩ := List.mem_map.1 hf
  intro hm
  exact h s hs ((means_iff k _ s).1 hm)

theorem mem_rows (c : CId) (r : Row) : r ∈ rows c ↔ r ∈ helpRow :: takes c := by
  simp [rows, or_comm]

theorem parseBool_some (x : Str) : (Cli.parseBool x).isSome = true ↔ x ∈ yes ∨ x ∈ no := by
  unfold Cli.parseBool
  change (if x ∈ yes then some true else if x ∈ no then some false else none).isSome = true ↔ _
  by_cases h : x ∈ yes
  · simp [h]
  · by_cases h' : x ∈ no <;> simp [h, h']

theorem accepted_iff (c : CId) (g : Key × Str) : Accepted c g ↔
    (match (flagsOf c).find? (·.is g.1) with
      | none => false
      | some f => !f.isBool || (Cli.parseBool g.2).isSome) = true := by
  by_cases h : ∃ r ∈ rows c, Means g.1 r
  · obtain ⟨r, hr, hm⟩ := h
    rw [find_row c hr hm]
    constructor
    · rintro ⟨s, hs, hm', hb⟩
      have := means_unique c hr ((mem_rows c s).2 hs) hm hm'
      subst this
      cases hrb : r.isBool with
      | false => simp [toFlag, hrb]
      | true => simpa [toFlag, hrb] using (parseBool_some g.2).2 (hb hrb)
    · intro hx
      refine ⟨r, (mem_rows c r).1 hr, hm, fun hrb => ?_⟩
      simp only [toFlag, hrb, Bool.not_true, Bool.false_or] at hx
      exact (parseBool_some g.2).1 hx
  · rw [find_none c fun r hr hm => h ⟨r, hr, hm⟩]
    constructor
    · rintro ⟨r, hr, hm, _⟩
      exact absurd ⟨r, (mem_rows c r).2 hr, hm⟩ h
    · intro hx; cases hx

theorem parses_iff (c : CId) (given : List (Key × Str)) :
    parses (flagsOf c) given = true ↔ ∀ g ∈ given, Accepted c g := by
  unfold parses
  rw [List.all_eq_true]
  constructor
  · intro h g hg; exact (accepted_iff c g).2 (h g hg)
  · intro h g hg; exact (accepted_iff c g).1 (h g hg)

theorem help_mem (c : CId) : helpRow ∈ rows c := (mem_rows c _).2 (List.mem_cons_self ..)

theorem help_name (c : CId) (r : Row) (hr : r ∈ rows c) :
    (toFlag (needs c) r).name = helpFlag.name ↔ r = helpRow := by
  revert r
  cases c <;> decide +kernel

/-- What `helpAsked` computes, for accepted flags. -/
theorem helpAsked_iff (c : CId) (given : List (Key × Str)) (b : Bool)
    (ha : ∀ g ∈ given, Accepted c g) :
    helpAsked (flagsOf c) given b = true ↔
      HelpAsked given ∨ (b = true ∧ ∀ g ∈ given, ¬ Means g.1 helpRow) := by
  induction given generalizing b with
  | nil => simp [helpAsked, HelpAsked]
  | cons g rest ih =>
    have ih' := fun b => ih b fun x hx => ha x (List.mem_cons_of_mem _ hx)
    obtain ⟨r, hr, hm, hb⟩ := ha g (List.mem_cons_self ..)
    have hr' := (mem_rows c r).2 hr
    have hstep : helpAsked (flagsOf c) (g :: rest) b = helpAsked (flagsOf c) rest
        (if (toFlag (needs c) r).name = helpFlag.name then (Cli.parseBool g.2).getD b else b) := by
      rw [helpAsked, find_row c hr' hm]
    rw [hstep]
    have lift : HelpAsked rest → HelpAsked (g :: rest) := by
      rintro ⟨pre, x, post, h1, h2⟩
      exact ⟨g :: pre, x, post, by rw [h1]; rfl, h2⟩
    by_cases hh : r = helpRow
    · subst hh
      rw [if_pos ((help_name c _ hr').2 rfl), ih']
      have hval : (Cli.parseBool g.2).getD b = true ↔ g.2 ∈ yes := by
        unfold Cli.parseBool
        change (if g.2 ∈ yes then some true else if g.2 ∈ no then some false else none).getD b
          = true ↔ _
        by_cases h : g.2 ∈ yes
        · simp [h]
        · rcases hb rfl with h' | h'
          · exact absurd h' h
          · simp [h, h']
      rw [hval]
      constructor
      · rintro (h | ⟨h, h'⟩)
        · exact Or.inl (lift h)
        · exact Or.inl ⟨[], g, rest, rfl, hm, h, h'⟩
      · rintro (⟨pre, x, post, h1, h2, h3, h4⟩ | ⟨_, h⟩)
        · cases pre with
          | nil =>
            rw [List.nil_append, List.cons.injEq] at h1
            obtain ⟨rfl, rfl⟩ := h1
            exact Or.inr ⟨h3, h4⟩
          | cons a pre =>
            rw [List.cons_append, List.cons.injEq] at h1
            exact Or.inl ⟨pre, x, post, h1.2, h2, h3, h4⟩
        · exact absurd hm (h g (List.mem_cons_self ..))
    · rw [if_neg fun h => hh ((help_name c _ hr').1 h), ih']
      have hn : ¬ Means g.1 helpRow := fun h => hh (means_unique c hr' (help_mem c) hm h)
      constructor
      · rintro (h | ⟨h, h'⟩)
        · exact Or.inl (lift h)
        · refine Or.inr ⟨h, fun x hx => ?_⟩
          rcases List.mem_cons.1 hx with rfl | hx
          · exact hn
          · exact h' x hx
      · rintro (⟨pre, x, post, h1, h2, h3, h4⟩ | ⟨h, h'⟩)
        · cases pre with
          | nil =>
            rw [List.nil_append, List.cons.injEq] at h1
            obtain ⟨rfl, rfl⟩ := h1
            exact absurd h2 hn
          | cons a pre =>
            rw [List.cons_append, List.cons.injEq] at h1
            exact Or.inl ⟨pre, x, post, h1.2, h2, h3, h4⟩
        · exact Or.inr ⟨h, fun x hx => h' x (List.mem_cons_of_mem _ hx)⟩

theorem toFlag_inj (c : CId) {r s : Row} (h : toFlag (needs c) r = toFlag (needs c) s) : r = s := by
  cases r; cases s
  simp only [toFlag, Flag.mk.injEq] at h
  simp [h.1, h.2.1, h.2.2.1]

theorem changed_iff (c : CId) (given : List (Key × Str)) (r : Row) (hr : r ∈ rows c) :
    changed (flagsOf c) given (toFlag (needs c) r) = true ↔ ∃ g ∈ given, Means g.1 r := by
  unfold changed
  rw [List.any_eq_true]
  constructor
  · rintro ⟨g, hg, h⟩
    refine ⟨g, hg, ?_⟩
    rw [beq_iff_eq] at h
    exact (means_iff g.1 _ r).1 (List.find?_some (p := fun f : Flag => f.is g.1) h)
  · rintro ⟨g, hg, h⟩
    exact ⟨g, hg, by rw [find_row c hr h]; simp⟩

theorem runSteps_ok (fails : Step → Bool) (l : List Step) (h : ∀ x ∈ l, fails x = false) :
    runSteps fails l = (l, none) := by
  induction l with
  | nil => rfl
  | cons a l ih =>
    have ha : fails a = false := h a (List.mem_cons_self ..)
    simp [runSteps, ha, ih fun x hx => h x (List.mem_cons_of_mem _ hx)]

theorem runSteps_fail (fails : Step → Bool) (pre : List Step) (s : Step) (post : List Step)
    (h : ∀ x ∈ pre, fails x = false) (hs : fails s = true) :
    runSteps fails (pre ++ s :: post) = (pre ++ [s], some s) := by
  induction pre with
  | nil => simp [runSteps, hs]
  | cons a l ih =>
    have ha : fails a = false := h a (List.mem_cons_self ..)
    simp [runSteps, ha, ih fun x hx => h x (List.mem_cons_of_mem _ hx)]

theorem first_failure (fails : Step → Bool) (l : List Step) :
    (∀ x ∈ l, fails x = false) ∨
      ∃ pre s post, l = pre ++ s :: post ∧ (∀ x ∈ pre, fails x = false) ∧ fails s = true := by
  induction l with
  | nil => exact Or.inl fun _ h => nomatch h
  | cons a l ih =>
    cases ha : fails a with
    | true => exact Or.inr ⟨[], a, l, rfl, (fun _ h => nomatch h), ha⟩
    | false =>
      rcases ih with h | ⟨pre, s, post, rfl, h1, h2⟩
      · refine Or.inl fun x hx => ?_
        rcases List.mem_cons.1 hx with rfl | hx
        · exact ha
        · exact h x hx
      · refine Or.inr ⟨a :: pre, s, post, rfl, fun x hx => ?_, h2⟩
        rcases List.mem_cons.1 hx with rfl | hx
        · exact ha
        · exact h1 x hx

end Thema.Cmds

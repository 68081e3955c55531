import Verif.Props.LensText

/-!
# The texts on Go migrations can be told apart (C201)
-/

namespace Thema.Props

open Spec

private theorem str_digit (v : SV) : ∃ c l, v.str = c :: l ∧ c ∈ digits := by
  obtain ⟨a, b, h, ha, _⟩ := C02_str_denotes v
  cases a with
  | nil => exact absurd rfl ha.1.1
  | cons c a => exact ⟨c, a ++ '.' :: b, by rw [h]; rfl, ha.1.2.1 c (by simp)⟩

private theorem past_version {v w : SV} {c : Char} {x y : Str} (hc : c ∉ digits) (hd : c ≠ '.')
    (h : v.str ++ c :: x = w.str ++ c :: y) : v = w ∧ x = y := by
  obtain ⟨h1, h2⟩ := split_char (not_mem_str v hc hd) (not_mem_str w hc hd) h
  exact ⟨C02_str_injective _ _ h1, h2⟩

private theorem version_ne {v : SV} {c : Char} {x y : Str} (hc : c ∉ digits) :
    v.str ++ x ≠ c :: y := fun h => by
  obtain ⟨d, l, h1, h2⟩ := str_digit v
  rw [h1, List.cons_append, List.cons.injEq] at h
  exact hc (h.1 ▸ h2)

private theorem pair_then {i j : LensID} {c : Char} {x y : Str} (hc : c ∉ digits) (hd : c ≠ '.')
    (h : i.str ++ c :: x = j.str ++ c :: y) : i = j ∧ x = y := by
  unfold LensID.str at h
  rw [List.append_assoc, List.append_assoc, List.append_assoc, List.append_assoc] at h
  obtain ⟨h1, h2⟩ := past_version (c := ' ') (x := "-> ".toList ++ (i.to.str ++ c :: x))
    (y := "-> ".toList ++ (j.to.str ++ c :: y)) (by decide) (by decide) h
  rw [List.append_cancel_left_eq] at h2
  obtain ⟨h3, h4⟩ := past_version hc hd h2
  cases i; cases j
  simp only at h1 h3
  rw [h1, h3]
  exact ⟨rfl, h4⟩

private theorem pair_inj {i j : LensID} (h : i.str = j.str) : i = j := by
  have : i.str ++ ['\n'] = j.str ++ ['\n'] := by rw [h]
  exact (pair_then (by decide) (by decide) this).1

private theorem str_pred (p f t : SV) : (Reason.predecessorIs p f t).str =
    p.str ++ ' ' :: ("is predecessor of ".toList ++ (f.str ++ ',' :: (" not ".toList ++ t.str))) := by
  show p.str ++ " is predecessor of ".toList ++ f.str ++ ", not ".toList ++ t.str = _
  rw [List.append_assoc, List.append_assoc, List.append_assoc]
  rfl

private theorem str_succ (p f t : SV) : (Reason.successorIs p f t).str =
    p.str ++ ' ' :: ("is successor of ".toList ++ (f.str ++ ',' :: (" not ".toList ++ t.str))) := by
  show p.str ++ " is successor of ".toList ++ f.str ++ ", not ".toList ++ t.str = _
  rw [List.append_assoc, List.append_assoc, List.append_assoc]
  rfl

private theorem str_nosuch (v : SV) : (Reason.noSuchSchema v).str =
    's' :: 'c' :: ("hema version ".toList ++ (v.str ++ ' ' :: "does not exist".toList)) := by
  show "schema version ".toList ++ v.str ++ " does not exist".toList = _
  rw [List.append_assoc]
  rfl

private theorem str_self : Reason.selfMigration.str = 's' :: 'e' :: "lf-migrations not allowed".toList :=
  rfl

private theorem str_minor : Reason.minorAutomatic.str =
    'm' :: "inor version upgrades are handled automatically".toList := rfl

/-- **C201**.  Different reasons are printed differently. -/
theorem C201_reason_tells {r r' : Reason} (h : r.str = r'.str) : r = r' := by
  have dig : ∀ {c : Char}, c = 's' ∨ c = 'm' → c ∉ digits := by
    rintro c (rfl | rfl) <;> decide
  have three : ∀ {p q : SV} {x y : Str},
      p.str ++ ' ' :: ("is predecessor of ".toList ++ x) ≠
        q.str ++ ' ' :: ("is successor of ".toList ++ y) := fun h => by
    have h1 := (past_version (by decide) (by decide) h).2
    have h2 : some 'p' = some 's' := congrArg (fun l => l[3]?) h1
    exact absurd h2 (by decide)
  cases r <;> cases r' <;>
    simp only [str_pred, str_succ, str_nosuch, str_self, str_minor] at h
  case noSuchSchema.noSuchSchema v w =>
    rw [List.cons.injEq, List.cons.injEq, List.append_cancel_left_eq] at h
    rw [(past_version (by decide) (by decide) h.2.2).1]
  case noSuchSchema.selfMigration => exact absurd (List.cons.inj (List.cons.inj h).2).1 (by decide)
  case noSuchSchema.minorAutomatic => exact absurd (List.cons.inj h).1 (by decide)
  case noSuchSchema.predecessorIs => exact absurd h.symm (version_ne (by decide))
  case noSuchSchema.successorIs => exact absurd h.symm (version_ne (by decide))
  case selfMigration.noSuchSchema => exact absurd (List.cons.inj (List.cons.inj h).2).1 (by decide)
  case selfMigration.selfMigration => rfl
  case selfMigration.minorAutomatic => exact absurd (List.cons.inj h).1 (by decide)
  case selfMigration.predecessorIs => exact absurd h.symm (version_ne (by decide))
  case selfMigration.successorIs => exact absurd h.symm (version_ne (by decide))
  case minorAutomatic.noSuchSchema => exact absurd (List.cons.inj h).1 (by decide)
  case minorAutomatic.selfMigration => exact absurd (List.cons.inj h).1 (by decide)
  case minorAutomatic.minorAutomatic => rfl
  case minorAutomatic.predecessorIs => exact absurd h.symm (version_ne (by decide))
  case minorAutomatic.successorIs => exact absurd h.symm (version_ne (by decide))
  case predecessorIs.noSuchSchema => exact absurd h (version_ne (by decide))
  case predecessorIs.selfMigration => exact absurd h (version_ne (by decide))
  case predecessorIs.minorAutomatic => exact absurd h (version_ne (by decide))
  case predecessorIs.successorIs => exact absurd h three
  case successorIs.noSuchSchema => exact absurd h (version_ne (by decide))
  case successorIs.selfMigration => exact absurd h (version_ne (by decide))
  case successorIs.minorAutomatic => exact absurd h (version_ne (by decide))
  case successorIs.predecessorIs => exact absurd h.symm three
  case predecessorIs.predecessorIs =>
    obtain ⟨h1, h2⟩ := past_version (by decide) (by decide) h
    rw [List.append_cancel_left_eq] at h2
    obtain ⟨h3, h4⟩ := past_version (by decide) (by decide) h2
    rw [List.append_cancel_left_eq] at h4
    rw [h1, h3, C02_str_injective _ _ h4]
  case successorIs.successorIs =>
    obtain ⟨h1, h2⟩ := past_version (by decide) (by decide) h
    rw [List.append_cancel_left_eq] at h2
    obtain ⟨h3, h4⟩ := past_version (by decide) (by decide) h2
    rw [List.append_cancel_left_eq] at h4
    rw [h1, h3, C02_str_injective _ _ h4]

private theorem reason_no_paren (r : Reason) : ')' ∉ r.str := by
  have hv : ∀ v : SV, ')' ∉ v.str := fun v => not_mem_str v (by decide) (by decide)
  have app : ∀ {a b : Str}, ')' ∉ a → ')' ∉ b → ')' ∉ a ++ b := fun ha hb h =>
    (List.mem_append.1 h).elim ha hb
  have con : ∀ {c : Char} {b : Str}, ')' ≠ c → ')' ∉ b → ')' ∉ c :: b := fun ha hb h =>
    (List.mem_cons.1 h).elim ha hb
  cases r with
  | noSuchSchema v =>
    rw [str_nosuch]
    exact con (by decide) (con (by decide) (app (by decide) (app (hv v) (by decide))))
  | selfMigration => rw [str_self]; decide
  | minorAutomatic => rw [str_minor]; decide
  | predecessorIs p f t =>
    rw [str_pred]
    exact app (hv p) (con (by decide) (app (by decide) (app (hv f) (con (by decide)
      (app (by decide) (hv t))))))
  | successorIs p f t =>
    rw [str_succ]
    exact app (hv p) (con (by decide) (app (by decide) (app (hv f) (con (by decide)
      (app (by decide) (hv t))))))

private theorem missing_inj : ∀ ids ids' : List LensID,
    (ids.flatMap fun id => '\t' :: id.str ++ ['\n']) =
      (ids'.flatMap fun id => '\t' :: id.str ++ ['\n']) → ids = ids'
  | [], [], _ => rfl
  | [], j :: js, h => by simp at h
  | i :: is, [], h => by simp at h
  | i :: is, j :: js, h => by
    rw [List.flatMap_cons, List.flatMap_cons, List.cons_append, List.cons_append, List.cons_append,
      List.cons_append, List.cons.injEq, List.append_assoc, List.append_assoc] at h
    obtain ⟨h1, h2⟩ := pair_then (c := '\n') (by decide) (by decide) h.2
    rw [h1, missing_inj is js h2]

private theorem superfluous_inj : ∀ rep rep' : List (LensID × Reason),
    (rep.flatMap fun e => '\t' :: e.1.str ++ " (".toList ++ e.2.str ++ [')']) =
      (rep'.flatMap fun e => '\t' :: e.1.str ++ " (".toList ++ e.2.str ++ [')']) → rep = rep'
  | [], [], _ => rfl
  | [], j :: js, h => by simp at h
  | i :: is, [], h => by simp at h
  | i :: is, j :: js, h => by
    have key : ∀ (e : LensID × Reason) (x : Str),
        '\t' :: e.1.str ++ " (".toList ++ e.2.str ++ [')'] ++ x =
          '\t' :: (e.1.str ++ ' ' :: ('(' :: (e.2.str ++ ')' :: x))) := fun e x => by
      rw [List.append_assoc, List.append_assoc, List.append_assoc]
      rfl
    rw [List.flatMap_cons, List.flatMap_cons, key, key, List.cons.injEq] at h
    obtain ⟨h1, h2⟩ := pair_then (c := ' ') (by decide) (by decide) h.2
    rw [List.cons.injEq] at h2
    obtain ⟨h3, h4⟩ := split_char (reason_no_paren _) (reason_no_paren _) h2.2
    rw [superfluous_inj is js h4]
    congr 1
    exact Prod.ext h1 (C201_reason_tells h3)

private theorem text_duplicate (id : LensID) : (GoLensProblem.duplicate id).str =
    "duplicate Go migration ".toList ++ id.str := rfl

private theorem text_nil (id : LensID) : (GoLensProblem.nilFunc id).str =
    "nil Go migration func for ".toList ++ id.str := rfl

private theorem text_missing (ids : List LensID) : (GoLensProblem.missing ids).str =
    "Go migrations not provided for the following version pairs:".toList ++ '\n' ::
      ids.flatMap fun id => '\t' :: id.str ++ ['\n'] := rfl

private theorem text_superfluous (rep : List (LensID × Reason)) :
    (GoLensProblem.superfluous rep).str =
      "Go migrations erroneously provided for the following version pairs:".toList ++ '\n' ::
        rep.flatMap fun e => '\t' :: e.1.str ++ " (".toList ++ e.2.str ++ [')'] := rfl

private theorem heads (id : LensID) (ids : List LensID) (rep : List (LensID × Reason)) :
    (GoLensProblem.duplicate id).str.take 15 = "duplicate Go mi".toList ∧
    (GoLensProblem.nilFunc id).str.take 15 = "nil Go migratio".toList ∧
    (GoLensProblem.missing ids).str.take 15 = "Go migrations n".toList ∧
    (GoLensProblem.superfluous rep).str.take 15 = "Go migrations e".toList := ⟨rfl, rfl, rfl, rfl⟩

/-- **C201**.  What is wrong can be read off the text: errors with the same text are about the same
problem, and list the same pairs with the same reasons in the same order. -/
theorem C201_text_tells {p p' : GoLensProblem} (h : p.str = p'.str) : p = p' := by
  have h0 := congrArg (List.take 15) h
  cases p <;> cases p'
  case duplicate.duplicate =>
    rw [text_duplicate, text_duplicate, List.append_cancel_left_eq] at h
    rw [pair_inj h]
  case nilFunc.nilFunc =>
    rw [text_nil, text_nil, List.append_cancel_left_eq] at h
    rw [pair_inj h]
  case missing.missing =>
    rw [text_missing, text_missing, List.append_cancel_left_eq, List.cons.injEq] at h
    rw [missing_inj _ _ h.2]
  case superfluous.superfluous =>
    rw [text_superfluous, text_superfluous, List.append_cancel_left_eq, List.cons.injEq] at h
    rw [superfluous_inj _ _ h.2]
  all_goals
    rename_i a b
    first
      | (rw [(heads a [] []).1] at h0)
      | (rw [(heads a [] []).2.1] at h0)
      | (rw [(heads ⟨⟨0, 0⟩, ⟨0, 0⟩⟩ a []).2.2.1] at h0)
      | (rw [(heads ⟨⟨0, 0⟩, ⟨0, 0⟩⟩ [] a).2.2.2] at h0)
    first
      | (rw [(heads b [] []).1] at h0)
      | (rw [(heads b [] []).2.1] at h0)
      | (rw [(heads ⟨⟨0, 0⟩, ⟨0, 0⟩⟩ b []).2.2.1] at h0)
      | (rw [(heads ⟨⟨0, 0⟩, ⟨0, 0⟩⟩ [] b).2.2.2] at h0)
    exact absurd h0 (by decide)

/-- Two texts that differ in one digit. -/
example : (GoLensProblem.superfluous [(⟨⟨0, 0⟩, ⟨0, 1⟩⟩, .minorAutomatic)]).str ≠
    (GoLensProblem.superfluous [(⟨⟨0, 0⟩, ⟨0, 2⟩⟩, .minorAutomatic)]).str :=
  fun h => absurd (C201_text_tells h) (by decide)

end Thema.Props

import Verif.Model.Printf

/-!
# Lemmas about `fmt.Fprintf` without operands
-/

namespace Thema.Printf

/-- Characters that can stand between the percent sign and the verb. -/
def isModifier (c : Char) : Bool := isFlag c || isDigit c || c == '.' || c == '[' || c == '*'

theorem argNumber_of_ne {c : Char} {cs : Str} (h : c ≠ '[') :
    argNumber (c :: cs) = (false, true, c :: cs) := by
  unfold argNumber
  split
  · rename_i heq; injection heq with heq _; exact absurd heq h
  · rfl

theorem index_of_ne {c : Char} {cs : Str} (h : c ≠ '[') (o : Str) (g a : Bool) :
    index ⟨o, g, a, c :: cs⟩ = ⟨o, g, false, c :: cs⟩ := by
  simp only [index, argNumber_of_ne h, Bool.and_true]

theorem width_of_ne {c : Char} {cs : Str} (h : c ≠ '*') (hd : isDigit c = false) (o : Str)
    (g a : Bool) : width ⟨o, g, a, c :: cs⟩ = ⟨o, g, a, c :: cs⟩ := by
  have hp : parsenum (c :: cs) = (none, c :: cs) := by
    simp only [parsenum, parsenumLoop, hd, Bool.false_eq_true, if_false]
  unfold width
  split
  · rename_i heq; injection heq with heq _; exact absurd heq h
  · simp only [hp, Option.isSome_none, Bool.and_false, Bool.not_false, Bool.and_true]

theorem prec_of_ne {c : Char} {cs : Str} (h : c ≠ '.') (o : Str)
    (g a : Bool) : prec ⟨o, g, a, c :: cs⟩ = ⟨o, g, a, c :: cs⟩ := by
  unfold prec
  split
  · rename_i heq; injection heq with heq _; exact absurd heq h
  · rfl

/-- Everything between the percent sign and the verb is absent. -/
theorem directive_plain {c : Char} {cs : Str} (h : isModifier c = false) :
    directive (c :: cs) =
      (if c = '%' then ['%'] else '%' :: '!' :: c :: "(MISSING)".toList, cs) := by
  simp only [isModifier, Bool.or_eq_false_iff, beq_eq_false_iff_ne, ne_eq] at h
  obtain ⟨⟨⟨⟨h1, h2⟩, h3⟩, h4⟩, h5⟩ := h
  unfold directive
  rw [List.dropWhile_cons_of_neg (by simp [h1]), index_of_ne h4, width_of_ne h5 h2, prec_of_ne h3]
  unfold index2
  simp only [Bool.false_eq_true, if_false]
  rw [index_of_ne h4]
  unfold verb
  simp only [Bool.not_true, Bool.false_eq_true, if_false, List.nil_append]

theorem directive_nil : directive [] = (noVerb, []) := rfl

/-- A width given as `*` is an error: there is no operand. -/
theorem directive_star (cs : Str) : ∃ o, (directive ('*' :: cs)).1 = '%' :: '!' :: '(' :: o := by
  have e1 : index ⟨[], true, false, ('*' :: cs).dropWhile isFlag⟩ = ⟨[], true, false, '*' :: cs⟩ :=
    rfl
  unfold directive
  rw [e1]
  have e2 : width ⟨[], true, false, '*' :: cs⟩ = ⟨badWidth, true, false, cs⟩ := rfl
  rw [e2]
  have hi : ∀ s, (index s).out = s.out := fun _ => rfl
  have hi2 : ∀ s, (index2 s).out = s.out := by intro s; unfold index2; split <;> rfl
  have hp : ∀ s, ∃ t, (prec s).out = s.out ++ t := by
    intro s
    unfold prec
    split
    · simp only
      split
      · exact ⟨_, rfl⟩
      · exact ⟨[], by simp [hi]⟩
    · exact ⟨[], by simp⟩
  obtain ⟨t, ht⟩ := hp ⟨badWidth, true, false, cs⟩
  have hv : ∀ s, ∃ u, (verb s).1 = s.out ++ u := by
    intro s
    unfold verb
    split <;> exact ⟨_, rfl⟩
  obtain ⟨u, hu⟩ := hv (index2 (prec ⟨badWidth, true, false, cs⟩))
  refine ⟨"BADWIDTH)".toList ++ t ++ u, ?_⟩
  rw [hu, hi2, ht]
  rfl

theorem parsenumLoop_suffix : ∀ (s : Str) (n : Nat) (b : Bool), (parsenumLoop n b s).2 <:+ s
  | [], _, _ => List.suffix_refl _
  | c :: cs, n, b => by
    unfold parsenumLoop
    split
    · split
      · exact List.nil_suffix
      · exact (parsenumLoop_suffix cs _ _).trans (List.suffix_cons _ _)
    · exact List.suffix_refl _

theorem toBracket_suffix : ∀ {s a b : Str}, toBracket s = some (a, b) → b <:+ s
  | [], _, _, h => by cases h
  | c :: cs, a, b, h => by
    unfold toBracket at h
    split at h
    · simp only [Option.some.injEq, Prod.mk.injEq] at h
      rw [← h.2]; exact List.suffix_cons _ _
    · cases hb : toBracket cs with
      | none => rw [hb] at h; cases h
      | some p =>
        rw [hb] at h
        simp only [Option.map_some, Option.some.injEq, Prod.mk.injEq] at h
        rw [← h.2]
        exact (toBracket_suffix (s := cs) (a := p.1) (b := p.2) hb).trans (List.suffix_cons _ _)

theorem argNumber_suffix (s : Str) : (argNumber s).2.2 <:+ s := by
  unfold argNumber
  split
  · split
    · exact List.suffix_cons _ _
    · split
      · exact List.suffix_cons _ _
      · rename_i hb
        have := (toBracket_suffix hb).trans (List.suffix_cons '[' _)
        split <;> exact this
  · exact List.suffix_refl _

theorem index_suffix (s : St) : (index s).rest <:+ s.rest := argNumber_suffix _

theorem width_suffix (s : St) : (width s).rest <:+ s.rest := by
  unfold width
  split
  · rename_i h; rw [h]; exact List.suffix_cons _ _
  · exact parsenumLoop_suffix _ _ _

theorem prec_suffix (s : St) : (prec s).rest <:+ s.rest := by
  unfold prec
  split
  · rename_i cs h
    rw [h]
    refine List.IsSuffix.trans ?_ (List.suffix_cons '.' cs)
    simp only
    split
    · rename_i h2
      exact (List.suffix_cons _ _).trans (h2 ▸ index_suffix _)
    · exact (parsenumLoop_suffix _ _ _).trans (index_suffix _)
  · exact List.suffix_refl _

theorem index2_suffix (s : St) : (index2 s).rest <:+ s.rest := by
  unfold index2
  split
  · exact List.suffix_refl _
  · exact index_suffix _

theorem verb_suffix (s : St) : (verb s).2 <:+ s.rest := by
  unfold verb
  split
  · exact List.nil_suffix
  · rename_i h; rw [h]; exact List.suffix_cons _ _

/-- What remains after a verb is a suffix of the format. -/
theorem directive_suffix (s : Str) : (directive s).2 <:+ s := by
  unfold directive
  exact (verb_suffix _).trans ((index2_suffix _).trans ((prec_suffix _).trans ((width_suffix _).trans
    ((index_suffix _).trans (List.dropWhile_suffix _)))))

/-- The budget does not matter once it covers the format. -/
theorem printfLoop_enough : ∀ (n m : Nat) (s : Str), s.length ≤ n → s.length ≤ m →
    printfLoop n s = printfLoop m s
  | 0, 0, _, _, _ => rfl
  | 0, m + 1, [], _, _ => rfl
  | n + 1, 0, [], _, _ => rfl
  | n + 1, m + 1, [], _, _ => rfl
  | n + 1, m + 1, c :: cs, hn, hm => by
    simp only [List.length_cons] at hn hm
    have hd := (directive_suffix cs).length_le
    unfold printfLoop
    rw [printfLoop_enough n m cs (by omega) (by omega),
      printfLoop_enough n m (directive cs).2 (by omega) (by omega)]

theorem fprintf_nil : fprintf [] = [] := rfl

theorem fprintf_char {c : Char} (h : c ≠ '%') (cs : Str) : fprintf (c :: cs) = c :: fprintf cs := by
  unfold fprintf
  simp [printfLoop, h]

theorem fprintf_percent (cs : Str) :
    fprintf ('%' :: cs) = (directive cs).1 ++ fprintf (directive cs).2 := by
  have hd := (directive_suffix cs).length_le
  unfold fprintf
  simp only [List.length_cons, printfLoop, if_true]
  rw [printfLoop_enough cs.length (directive cs).2.length _ hd (Nat.le_refl _)]

theorem fprintf_append : ∀ (pre s : Str), '%' ∉ pre → fprintf (pre ++ s) = pre ++ fprintf s
  | [], _, _ => rfl
  | c :: pre, s, h => by
    simp only [List.mem_cons, not_or] at h
    rw [List.cons_append, fprintf_char (fun hc => h.1 hc.symm), fprintf_append pre s h.2]
    rfl

theorem fprintf_of_not_mem (s : Str) (h : '%' ∉ s) : fprintf s = s := by
  have := fprintf_append s [] h
  simpa [fprintf_nil] using this

/-- No text is the word `!(MISSING)` followed by its own output. -/
theorem no_missing_fix : ∀ (n : Nat) (t : Str), t.length ≤ n →
    t ≠ "!(MISSING)".toList ++ fprintf t
  | 0, t, hn, h => by
    have : t = [] := List.length_eq_zero_iff.1 (by omega)
    subst this
    cases h
  | n + 1, t, hn, h => by
    obtain ⟨u, hu⟩ : ∃ u, t = "!(MISSING)".toList ++ u := ⟨_, h⟩
    have hl : u.length + 10 = t.length := by
      rw [hu, List.length_append, Nat.add_comm]; rfl
    have h2 : fprintf t = "!(MISSING)".toList ++ fprintf u := by
      rw [hu]; exact fprintf_append _ _ (by decide)
    rw [h2] at h
    have h3 : u = "!(MISSING)".toList ++ fprintf u := by
      have := hu.symm.trans h
      exact List.append_cancel_left this
    exact no_missing_fix n u (by omega) h3

/-- Every percent sign is followed by a character that is the verb itself, or ends the
text. -/
def Plain : Str → Prop
  | [] => True
  | [_] => True
  | c :: d :: cs => (c = '%' → isModifier d = false) ∧ Plain (d :: cs)

theorem Plain.tail {c : Char} {cs : Str} (h : Plain (c :: cs)) : Plain cs := by
  cases cs with
  | nil => trivial
  | cons d cs => exact h.2

/-- The outcome for a plain text: parentheses are only added, and if none is added the
text does not get longer, and gets shorter when it has a percent sign. -/
theorem plain_count : ∀ (n : Nat) (s : Str), s.length ≤ n → Plain s →
    s.count '(' ≤ (fprintf s).count '(' ∧
    ((fprintf s).count '(' = s.count '(' →
      (fprintf s).length ≤ s.length ∧ ('%' ∈ s → (fprintf s).length < s.length))
  | 0, s, hn, _ => by
    have : s = [] := List.length_eq_zero_iff.1 (by omega)
    subst this; simp [fprintf_nil]
  | n + 1, [], _, _ => by simp [fprintf_nil]
  | n + 1, c :: cs, hn, hp => by
    simp only [List.length_cons] at hn
    by_cases hc : c = '%'
    · subst hc
      cases cs with
      | nil => rw [fprintf_percent, directive_nil]; decide
      | cons d ds =>
        simp only [List.length_cons] at hn
        have hm := hp.1 rfl
        rw [fprintf_percent, directive_plain hm]
        have ih := plain_count n ds (by omega) hp.tail.tail
        simp only [List.count_append, List.length_append, List.length_cons]
        by_cases hd : d = '%'
        · subst hd
          simp only [if_true, List.count_cons, List.count_nil, List.length_cons, List.length_nil,
            List.mem_cons]
          have e1 : (('%' == '(') : Bool) = false := by decide
          simp only [e1, Bool.false_eq_true, if_false, Nat.zero_add, Nat.add_zero]
          refine ⟨ih.1, fun h => ?_⟩
          have := ih.2 h
          exact ⟨by omega, fun _ => by omega⟩
        · rw [if_neg hd]
          have e : List.count '(' ('%' :: '!' :: d :: "(MISSING)".toList) =
              (if (d == '(') = true then 1 else 0) + 1 := by
            simp only [List.count_cons]
            have e1 : (('%' == '(') : Bool) = false := by decide
            have e2 : (('!' == '(') : Bool) = false := by decide
            have e3 : List.count '(' "(MISSING)".toList = 1 := by decide
            simp only [e1, e2, e3, Bool.false_eq_true, if_false, Nat.add_zero]
            omega
          rw [e]
          have e1 : (('%' == '(') : Bool) = false := by decide
          simp only [List.count_cons, e1, Bool.false_eq_true, if_false, Nat.add_zero]
          exact ⟨by omega, fun h => by omega⟩
    · rw [fprintf_char hc]
      have ih := plain_count n cs (by omega) hp.tail
      simp only [List.count_cons, List.length_cons, List.mem_cons]
      refine ⟨by omega, fun h => ?_⟩
      have := ih.2 (by omega)
      refine ⟨by omega, fun h => ?_⟩
      rcases h with h | h
      · exact absurd h.symm hc
      · have := this.2 h; omega

end Thema.Printf

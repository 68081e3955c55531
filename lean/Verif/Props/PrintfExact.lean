import Verif.Spec.Printf
import Verif.Lemmas.Printf
import Verif.Props.GenExact

/-!
# C172, C83: what is printed for documents with percent signs
-/

namespace Thema.Props

open Thema.Printf Thema.Spec

theorem digit_iff {c : Char} : Digit c ↔ isDigit c = true := by
  unfold Digit isDigit
  simp

theorem flag_iff {c : Char} : Flag c ↔ isFlag c = true := by
  unfold Flag isFlag
  simp [or_assoc]

/-- What follows does not begin with a digit. -/
def NoDigit (R : Str) : Prop := ∀ c cs, R = c :: cs → isDigit c = false

theorem NoDigit.cons {c : Char} {cs : Str} (h : isDigit c = false) : NoDigit (c :: cs) := by
  intro d ds hd
  injection hd with hd _
  rw [← hd]; exact h

theorem noDigit_nil : NoDigit [] := by
  intro d ds hd; cases hd

theorem digit_small {c : Char} (h : isDigit c = true) : c.toNat - 48 ≤ 9 := by
  have := (digit_iff.2 h).2
  have h9 : c.toNat ≤ '9'.toNat := this
  have : '9'.toNat = 57 := by decide
  omega

theorem parsenumLoop_stop {R : Str} (h : NoDigit R) (n : Nat) (b : Bool) :
    parsenumLoop n b R = (if b then some n else none, R) := by
  cases R with
  | nil => rfl
  | cons c cs =>
    unfold parsenumLoop
    rw [h c cs rfl]
    simp

theorem parsenumLoop_digits {R : Str} (hR : NoDigit R) : ∀ (D : Str) (n : Nat) (b : Bool) (k : Nat),
    (∀ c ∈ D, isDigit c = true) → n < 10 ^ k → k + D.length ≤ 7 →
    ∃ m, parsenumLoop n b (D ++ R) = (if b || !D.isEmpty then some m else none, R)
  | [], n, b, k, _, _, _ => ⟨n, by rw [List.nil_append, parsenumLoop_stop hR]; simp⟩
  | d :: D, n, b, k, hD, hn, hk => by
    have hd := hD d (List.mem_cons_self ..)
    simp only [List.length_cons] at hk
    have h6 : 10 ^ k ≤ 10 ^ 6 := Nat.pow_le_pow_right (by decide) (by omega)
    have h6' : (10 : Nat) ^ 6 = 1000000 := by decide
    have hs := digit_small hd
    obtain ⟨m, hm⟩ := parsenumLoop_digits hR D (n * 10 + (d.toNat - 48)) true (k + 1)
      (fun c hc => hD c (List.mem_cons_of_mem _ hc)) (by rw [Nat.pow_succ]; omega) (by omega)
    refine ⟨m, ?_⟩
    rw [List.cons_append]
    unfold parsenumLoop
    rw [if_pos hd, if_neg (by omega), hm]
    simp

theorem parsenum_small {D R : Str} (hD : SmallNumber D) (hR : NoDigit R) :
    ∃ m, parsenum (D ++ R) = (if D.isEmpty then none else some m, R) := by
  obtain ⟨m, hm⟩ := parsenumLoop_digits hR D 0 false 0
    (fun c hc => digit_iff.1 (hD.1 c hc)) (by decide) (by have := hD.2; omega)
  refine ⟨m, ?_⟩
  unfold parsenum
  rw [hm]
  cases D <;> rfl

theorem parsenum_rest {D R : Str} (hD : SmallNumber D) (hR : NoDigit R) :
    (parsenum (D ++ R)).2 = R := by
  obtain ⟨m, hm⟩ := parsenum_small hD hR
  rw [hm]

theorem parsenumLoop_huge {s : Str} : ∀ (D : Str) (n k : Nat) (b : Bool),
    (∀ c ∈ D, isDigit c = true) → 10 ^ k ≤ n → 8 ≤ k + D.length → D ≠ [] →
    parsenumLoop n b (D ++ s) = (none, [])
  | [], _, _, _, _, _, _, h => absurd rfl h
  | d :: D, n, k, b, hD, hn, hk, _ => by
    have hd := hD d (List.mem_cons_self ..)
    rw [List.cons_append]
    unfold parsenumLoop
    rw [if_pos hd]
    by_cases hb : n > 1000000
    · rw [if_pos hb]
    · rw [if_neg hb]
      simp only [List.length_cons] at hk
      have h7 : k < 7 := by
        apply Nat.lt_of_not_le
        intro h
        have h1 : 10 ^ 7 ≤ 10 ^ k := Nat.pow_le_pow_right (by decide) h
        have h2 : (10 : Nat) ^ 7 = 10000000 := by decide
        omega
      refine parsenumLoop_huge D _ (k + 1) true (fun c hc => hD c (List.mem_cons_of_mem _ hc))
        (by rw [Nat.pow_succ]; omega) (by omega) ?_
      intro h
      subst h
      simp at hk
      omega

theorem dropFlags {F : Str} (hF : ∀ c ∈ F, Flag c) (R : Str) :
    (F ++ R).dropWhile isFlag = R.dropWhile isFlag := by
  induction F with
  | nil => rfl
  | cons c F ih =>
    rw [List.cons_append, List.dropWhile_cons_of_pos (flag_iff.1 (hF c (List.mem_cons_self ..)))]
    exact ih fun c hc => hF c (List.mem_cons_of_mem _ hc)

theorem index_other {R : Str} (h : ∀ cs, R ≠ '[' :: cs) (o : Str) (g a : Bool) :
    index ⟨o, g, a, R⟩ = ⟨o, g, false, R⟩ := by
  cases R with
  | nil => simp [index, argNumber]
  | cons c cs => exact index_of_ne (fun hc => h cs (by rw [hc])) o g a

theorem dropWhile_append_stop {p : Char → Bool} {R : Str} (hR : ∀ c cs, R = c :: cs → p c = false) :
    ∀ W : Str, (W ++ R).dropWhile p = W.dropWhile p ++ R
  | [] => by
    cases R with
    | nil => rfl
    | cons c cs =>
      rw [List.nil_append, List.dropWhile_cons_of_neg (by rw [hR c cs rfl]; simp)]
      rfl
  | w :: W => by
    rw [List.cons_append]
    by_cases h : p w = true
    · rw [List.dropWhile_cons_of_pos h, List.dropWhile_cons_of_pos h, dropWhile_append_stop hR W]
    · rw [List.dropWhile_cons_of_neg h, List.dropWhile_cons_of_neg h]
      rfl

theorem small_drop {D : Str} (h : SmallNumber D) : SmallNumber (D.dropWhile isFlag) :=
  ⟨fun c hc => h.1 c ((List.dropWhile_suffix _).subset hc),
    Nat.le_trans (List.dropWhile_suffix _).length_le h.2⟩

theorem widthAs_drop {W w : Str} (h : WidthAs W w) : WidthAs (W.dropWhile isFlag) w := by
  cases h with
  | number h => exact .number (small_drop h)
  | star => exact .star

theorem width_as {W w R : Str} (h : WidthAs W w) (hR : NoDigit R) (hs : ∀ cs, R ≠ '*' :: cs)
    (o : Str) (g : Bool) : width ⟨o, g, false, W ++ R⟩ = ⟨o ++ w, g, false, R⟩ := by
  cases h with
  | star => rfl
  | number h =>
    have hp := parsenum_rest h hR
    unfold width
    split
    · rename_i cs heq
      exfalso
      simp only at heq
      cases W with
      | nil => exact hs cs heq
      | cons d D =>
        injection heq with heq _
        have := digit_iff.1 (h.1 d (List.mem_cons_self ..))
        rw [heq] at this
        exact absurd this (by decide)
    · simp only [hp, Bool.false_and, Bool.not_false, Bool.and_true, List.append_nil]

theorem noDigit_dot (D : Str) : NoDigit ('.' :: D) := .cons (by decide)

theorem index_number {D T : Str} (hD : SmallNumber D) (h : D ≠ [] ∨ ∀ cs, T ≠ '[' :: cs) (o : Str)
    (g a : Bool) : index ⟨o, g, a, D ++ T⟩ = ⟨o, g, false, D ++ T⟩ := by
  apply index_other
  intro cs heq
  cases D with
  | nil => exact (h.resolve_left fun h => h rfl) cs heq
  | cons d D =>
    injection heq with heq _
    have := digit_iff.1 (hD.1 d (List.mem_cons_self ..))
    rw [heq] at this
    exact absurd this (by decide)

theorem prec_as {P p T : Str} (h : PrecAs P p) (hT : NoDigit T) (hs : ∀ cs, T ≠ '*' :: cs)
    (hd : ∀ cs, T ≠ '.' :: cs) (hi : P = ['.'] → ∀ cs, T ≠ '[' :: cs) (o : Str) (g : Bool) :
    prec ⟨o, g, false, P ++ T⟩ = ⟨o ++ p, g, false, T⟩ := by
  cases h with
  | none =>
    unfold prec
    split
    · rename_i cs heq
      exact absurd heq (hd cs)
    · simp
  | @number D h =>
    have hx : index ⟨o, g && !false, false, D ++ T⟩ = ⟨o, g, false, D ++ T⟩ := by
      rw [index_number h]
      · simp
      · cases D with
        | nil => exact .inr (hi rfl)
        | cons d D => exact .inl (by simp)
    show (match (index ⟨o, g && !false, false, D ++ T⟩).rest with
      | '*' :: cs => { index ⟨o, g && !false, false, D ++ T⟩ with
          out := (index ⟨o, g && !false, false, D ++ T⟩).out ++ badPrec, after := false, rest := cs }
      | _ => { index ⟨o, g && !false, false, D ++ T⟩ with
          rest := (parsenum (index ⟨o, g && !false, false, D ++ T⟩).rest).2 }) = _
    rw [hx]
    split
    · rename_i cs heq
      exfalso
      simp only at heq
      cases D with
      | nil => exact hs cs heq
      | cons d D =>
        injection heq with heq _
        have := digit_iff.1 (h.1 d (List.mem_cons_self ..))
        rw [heq] at this
        exact absurd this (by decide)
    · simp only [parsenum_rest h hT, List.append_nil]
  | star =>
    show (match (index ⟨o, g && !false, false, '*' :: T⟩).rest with
      | '*' :: cs => { index ⟨o, g && !false, false, '*' :: T⟩ with
          out := (index ⟨o, g && !false, false, '*' :: T⟩).out ++ badPrec, after := false, rest := cs }
      | _ => { index ⟨o, g && !false, false, '*' :: T⟩ with
          rest := (parsenum (index ⟨o, g && !false, false, '*' :: T⟩).rest).2 }) = _
    rw [index_of_ne (by decide)]
    simp only [Bool.not_false, Bool.and_true]
    rfl

theorem prec_head {P p T : Str} (h : PrecAs P p) (hT : NoDigit T) : NoDigit (P ++ T) := by
  cases h with
  | none => exact hT
  | number _ => exact noDigit_dot _
  | star => exact noDigit_dot _

theorem prec_head_ne {P p T : Str} (h : PrecAs P p) {x : Char} (hx : x ≠ '.')
    (hT : ∀ cs, T ≠ x :: cs) : ∀ cs, P ++ T ≠ x :: cs := by
  intro cs heq
  cases h with
  | none => exact hT cs heq
  | number _ => injection heq with heq _; exact hx heq.symm
  | star => injection heq with heq _; exact hx heq.symm

theorem prec_head_flag {P p T : Str} (h : PrecAs P p) (hT : ∀ c cs, T = c :: cs → isFlag c = false) :
    ∀ c cs, P ++ T = c :: cs → isFlag c = false := by
  intro c cs heq
  cases h with
  | none => exact hT c cs heq
  | number _ => injection heq with heq _; rw [← heq]; decide
  | star => injection heq with heq _; rw [← heq]; decide

theorem width_head {W w R : Str} (h : WidthAs W w) (hR : W = [] → ∀ cs, R ≠ '[' :: cs) :
    ∀ cs, W ++ R ≠ '[' :: cs := by
  intro cs heq
  cases h with
  | star => injection heq with heq _; exact absurd heq (by decide)
  | number h =>
    cases W with
    | nil => exact hR rfl cs heq
    | cons d D =>
      injection heq with heq _
      have := digit_iff.1 (h.1 d (List.mem_cons_self ..))
      rw [heq] at this
      exact absurd this (by decide)

/-- Flags, width and precision have been read. -/
theorem mods_as {F W w P p T : Str} (hF : ∀ c ∈ F, Flag c) (hW : WidthAs W w) (hP : PrecAs P p)
    (hf : ∀ c cs, T = c :: cs → isFlag c = false) (hT : NoDigit T) (hs : ∀ cs, T ≠ '*' :: cs)
    (hd : ∀ cs, T ≠ '.' :: cs)
    (hi : (W.dropWhile isFlag = [] ∧ P = [] → ∀ cs, T ≠ '[' :: cs) ∧ (P = ['.'] → ∀ cs, T ≠ '[' :: cs)) :
    prec (width (index ⟨[], true, false, (F ++ (W ++ (P ++ T))).dropWhile isFlag⟩)) =
      ⟨w ++ p, true, false, T⟩ := by
  rw [dropFlags hF, dropWhile_append_stop (prec_head_flag hP hf)]
  have hW' := widthAs_drop hW
  rw [index_other (width_head hW' fun h0 => by
    intro cs heq
    cases P with
    | nil => exact hi.1 ⟨h0, rfl⟩ cs heq
    | cons c P => cases hP <;> cases heq), width_as hW' (prec_head hP hT)
      (prec_head_ne hP (by decide) hs), prec_as hP hT hs hd hi.2]
  simp

theorem head_of {T : Str} {v : Char} {s : Str} {P : Char → Prop} (h : P v) (hT : T = v :: s) :
    ∀ c cs, T = c :: cs → P c := by
  intro c cs hc
  rw [hT] at hc
  injection hc with hc _
  rw [← hc]; exact h

theorem directive_verb {F W w P p : Str} {v : Char} {s : Str} (hF : ∀ c ∈ F, Flag c)
    (hW : WidthAs W w) (hP : PrecAs P p) (h1 : ¬ Digit v) (h2 : ¬ Flag v) (h3 : v ≠ '.')
    (h4 : v ≠ '*') (h5 : v ≠ '[') :
    directive (F ++ (W ++ (P ++ v :: s))) = (w ++ (p ++ missing v), s) := by
  have hne : ∀ {x : Char}, v ≠ x → ∀ cs, v :: s ≠ x :: cs := by
    intro x hx cs heq
    injection heq with heq _
    exact hx heq
  unfold directive
  rw [mods_as hF hW hP (head_of (P := fun c => isFlag c = false)
      (by rw [flag_iff] at h2; simpa using h2) rfl)
    (NoDigit.cons (by rw [digit_iff] at h1; simpa using h1)) (hne h4) (hne h3)
    ⟨fun _ => hne h5, fun _ => hne h5⟩]
  unfold index2
  simp only [Bool.false_eq_true, if_false]
  rw [index_other (hne h5)]
  unfold verb missing
  simp only [Bool.not_true, Bool.false_eq_true, if_false, List.append_assoc]

theorem directive_stops {F W w P p : Str} (hF : ∀ c ∈ F, Flag c)
    (hW : WidthAs W w) (hP : PrecAs P p) :
    directive (F ++ (W ++ P)) = (w ++ (p ++ "%!(NOVERB)".toList), []) := by
  have := mods_as hF hW hP (T := []) (by intro c cs h; cases h) noDigit_nil (by intro cs h; cases h)
    (by intro cs h; cases h) ⟨fun _ cs h => (nomatch h), fun _ cs h => (nomatch h)⟩
  rw [List.append_nil] at this
  unfold directive
  rw [this]
  unfold index2
  simp only [Bool.false_eq_true, if_false]
  rw [index_other (by intro cs h; cases h)]
  unfold verb noVerb
  simp only [List.append_assoc]

theorem toBracket_digits {r : Str} : ∀ (D : Str), (∀ c ∈ D, Digit c) →
    toBracket (D ++ ']' :: r) = some (D, r)
  | [], _ => by simp [toBracket]
  | d :: D, h => by
    have hd : d ≠ ']' := by
      intro hc
      have := digit_iff.1 (h d (List.mem_cons_self ..))
      rw [hc] at this
      exact absurd this (by decide)
    rw [List.cons_append]
    unfold toBracket
    rw [if_neg hd, toBracket_digits D fun c hc => h c (List.mem_cons_of_mem _ hc)]
    rfl

theorem argNumber_number {D : Str} (hD : SmallNumber D) (h0 : D ≠ []) (r : Str) :
    argNumber ('[' :: (D ++ ']' :: r)) = (true, false, r) := by
  obtain ⟨m, hm⟩ := parsenum_small hD noDigit_nil
  rw [List.append_nil] at hm
  have hl : ¬ (D ++ ']' :: r).length < 2 := by
    cases D with
    | nil => exact absurd rfl h0
    | cons d D => simp only [List.length_append, List.length_cons]; omega
  have he : D.isEmpty = false := by cases D with
    | nil => exact absurd rfl h0
    | cons d D => rfl
  simp only [argNumber]
  rw [if_neg hl, toBracket_digits D hD.1]
  simp only [hm, he, Bool.false_eq_true, if_false]

theorem index_good {D : Str} (hD : SmallNumber D) (h0 : D ≠ []) (r o : Str) (g a : Bool) :
    index ⟨o, g, a, '[' :: (D ++ ']' :: r)⟩ = ⟨o, false, true, r⟩ := by
  simp only [index, argNumber_number hD h0, Bool.and_false]

theorem verb_bad (o : Str) (a : Bool) (v : Char) (s : Str) :
    verb ⟨o, false, a, v :: s⟩ = (o ++ badIndex v, s) := by
  unfold verb badIndex
  simp only [Bool.not_false, if_true]

theorem directive_index {F W w P p D : Str} {v : Char} {s : Str} (hF : ∀ c ∈ F, Flag c)
    (hW : WidthAs W w) (hP : PrecAs P p) (h0 : D ≠ []) (hD : SmallNumber D) (h1 : ¬ Digit v)
    (h3 : v ≠ '.') (h4 : v ≠ '*') :
    directive (F ++ (W ++ (P ++ ('[' :: (D ++ ']' :: v :: s))))) = (w ++ (p ++ badIndex v), s) := by
  have hne : ∀ {x : Char}, '[' ≠ x → ∀ cs, '[' :: (D ++ ']' :: v :: s) ≠ x :: cs := by
    intro x hx cs heq
    injection heq with heq _
    exact hx heq
  have hfl := head_of (T := '[' :: (D ++ ']' :: v :: s)) (P := fun c => isFlag c = false)
    (v := '[') (by decide) rfl
  have hnd : isDigit v = false := by rw [digit_iff] at h1; simpa using h1
  by_cases hA : W.dropWhile isFlag = [] ∧ P = []
  · obtain ⟨hW0, rfl⟩ := hA
    have hp : p = [] := by cases hP; rfl
    have hw : w = [] := by
      have := widthAs_drop hW
      rw [hW0] at this
      cases this; rfl
    subst hp; subst hw
    unfold directive
    rw [dropFlags hF, dropWhile_append_stop (prec_head_flag hP hfl), hW0, List.nil_append,
      List.nil_append, index_good hD h0, width_of_ne h4 hnd, prec_of_ne h3]
    unfold index2
    simp only [if_true]
    rw [verb_bad]
    rfl
  · by_cases hB : P = ['.']
    · subst hB
      have hp : p = [] := by cases hP; rfl
      subst hp
      unfold directive
      rw [dropFlags hF, dropWhile_append_stop (prec_head_flag hP hfl)]
      have hW' := widthAs_drop hW
      rw [index_other (width_head hW' fun _ cs heq => by cases heq),
        width_as hW' (R := ['.'] ++ '[' :: (D ++ ']' :: v :: s)) (noDigit_dot _)
          (by intro cs heq; cases heq)]
      have hx : prec ⟨[] ++ w, true, false, ['.'] ++ '[' :: (D ++ ']' :: v :: s)⟩ =
          ⟨w, false, true, v :: s⟩ := by
        show (match (index ⟨[] ++ w, true && !false, false, '[' :: (D ++ ']' :: v :: s)⟩).rest with
          | '*' :: cs => { index ⟨[] ++ w, true && !false, false, '[' :: (D ++ ']' :: v :: s)⟩ with
              out := (index ⟨[] ++ w, true && !false, false, '[' :: (D ++ ']' :: v :: s)⟩).out ++ badPrec,
              after := false, rest := cs }
          | _ => { index ⟨[] ++ w, true && !false, false, '[' :: (D ++ ']' :: v :: s)⟩ with
              rest := (parsenum
                (index ⟨[] ++ w, true && !false, false, '[' :: (D ++ ']' :: v :: s)⟩).rest).2 }) = _
        rw [index_good hD h0]
        split
        · rename_i cs heq
          simp only at heq
          injection heq with heq _
          exact absurd heq h4
        · have : (parsenum (v :: s)).2 = v :: s :=
            parsenum_rest (D := []) ⟨by simp, by simp⟩ (NoDigit.cons hnd)
          simp only [this, List.nil_append]
      rw [hx]
      unfold index2
      simp only [if_true]
      rw [verb_bad]
      simp
    · unfold directive
      rw [mods_as hF hW hP hfl (NoDigit.cons (by decide)) (hne (by decide)) (hne (by decide))
        ⟨fun h => absurd h hA, fun h => absurd h hB⟩]
      unfold index2
      simp only [Bool.false_eq_true, if_false]
      rw [index_good hD h0, verb_bad, List.append_assoc]

theorem directive_huge {F D : Str} {d : Char} {s : Str} (hF : ∀ c ∈ F, Flag c) (hd : Digit d)
    (h0 : d ≠ '0') (hD : ∀ c ∈ D, Digit c) (hl : 8 ≤ D.length) :
    directive (F ++ (d :: D ++ s)) = ("%!(NOVERB)".toList, []) := by
  have hdd := digit_iff.1 hd
  have hfl : isFlag d = false := by
    cases hc : isFlag d with
    | false => rfl
    | true =>
      rcases flag_iff.2 hc with h | h | h | h | h
      · rw [h] at hdd; exact absurd hdd (by decide)
      · exact absurd h h0
      · rw [h] at hdd; exact absurd hdd (by decide)
      · rw [h] at hdd; exact absurd hdd (by decide)
      · rw [h] at hdd; exact absurd hdd (by decide)
  have hnum : parsenum (d :: (D ++ s)) = (none, []) := by
    unfold parsenum parsenumLoop
    rw [if_pos hdd, if_neg (by decide)]
    have h1 : 1 ≤ d.toNat - 48 := by
      have hge : '0'.toNat ≤ d.toNat := hd.1
      have h48 : '0'.toNat = 48 := by decide
      have : d.toNat ≠ 48 := fun h => h0 (Char.toNat_inj.1 (h.trans h48.symm))
      omega
    exact parsenumLoop_huge D _ 0 true (fun c hc => digit_iff.1 (hD c hc)) (by simpa using h1)
      (by omega) (by intro h; subst h; simp at hl)
  unfold directive
  rw [dropFlags hF, List.cons_append, List.dropWhile_cons_of_neg (by rw [hfl]; simp),
    index_of_ne (by intro h; rw [h] at hdd; exact absurd hdd (by decide))]
  have hw : width ⟨[], true, false, d :: (D ++ s)⟩ = ⟨[], true, false, []⟩ := by
    unfold width
    split
    · rename_i cs heq
      injection heq with heq _
      rw [heq] at hdd
      exact absurd hdd (by decide)
    · simp only [hnum]
      rfl
  rw [hw]
  rfl

/-- **C172**.  What is printed for a document that has percent signs: `%%` is printed as `%`; any other
percent sign, together with the flags, width, precision and verb that follow it, as a complaint about
the missing operand; an asterisk in it is one complaint more; and a number that is too large takes all
the rest with it. -/
theorem C172_printed {s o : Str} (h : PrintedAs s o) : fprintf s = o := by
  induction h with
  | nil => rfl
  | text hc _ ih => rw [fprintf_char hc, ih]
  | verb hF hW hP h1 h2 h3 h4 h5 _ ih =>
    rw [fprintf_percent, directive_verb hF hW hP h1 h2 h3 h4 h5, ih]
    simp only [List.append_assoc]
  | stops hF hW hP =>
    rw [fprintf_percent, directive_stops hF hW hP]
    simp only [fprintf_nil, List.append_nil]
  | index hF hW hP h0 hD h1 h3 h4 _ ih =>
    rw [fprintf_percent, directive_index hF hW hP h0 hD h1 h3 h4, ih]
    simp only [List.append_assoc]
  | huge hF hd h0 hD hl =>
    rw [fprintf_percent, directive_huge hF hd h0 hD hl]
    simp only [fprintf_nil, List.append_nil]

/-- `100%, 5% off, %+08.3f, %*d, %[1]s`: the hypothesis of the theorem is met. -/
example : fprintf "a%+08.3f%*d%[1]s%%b%".toList =
    "a%!f(MISSING)%!(BADWIDTH)%!d(MISSING)%!s(BADINDEX)%b%!(NOVERB)".toList :=
  C172_printed (.text (by decide)
    (.verb (F := "+0".toList) (W := "8".toList) (P := ".3".toList) (by unfold Flag; decide)
      (.number ⟨by unfold Digit; decide, by decide⟩)
      (.number (D := "3".toList) ⟨by unfold Digit; decide, by decide⟩) (by unfold Digit; decide)
      (by unfold Flag; decide) (by decide) (by decide) (by decide)
    (.verb (F := []) (W := "*".toList) (P := []) (by simp) .star .none (by unfold Digit; decide)
      (by unfold Flag; decide) (by decide) (by decide) (by decide)
    (.index (F := []) (W := []) (P := []) (D := "1".toList) (by simp)
      (.number ⟨by simp, by simp⟩) .none (by decide) ⟨by unfold Digit; decide, by decide⟩
      (by unfold Digit; decide) (by decide) (by decide)
    (.verb (F := []) (W := []) (P := []) (by simp) (.number ⟨by simp, by simp⟩) .none
      (by unfold Digit; decide) (by unfold Flag; decide) (by decide) (by decide) (by decide)
    (.text (by decide)
    (.stops (F := []) (W := []) (P := []) (by simp) (.number ⟨by simp, by simp⟩) .none)))))))

end Thema.Props

import Verif.Spec.Version

/-! Lemmas about versions, printing and parsing. -/

namespace Thema

open Spec

theorem less_iff {a b : SV} : a.less b = true ↔
    a.major < b.major ∨ (a.major = b.major ∧ a.minor < b.minor) := by
  simp [SV.less]

theorem less_false_iff {a b : SV} : a.less b = false ↔
    ¬ (a.major < b.major ∨ (a.major = b.major ∧ a.minor < b.minor)) := by
  rw [← less_iff]; simp

theorem before_iff {a b : SV} : Before a b ↔
    a.major < b.major ∨ (a.major = b.major ∧ a.minor < b.minor) := by
  simp [Before, Prod.lex_def]

theorem less_iff_before {a b : SV} : a.less b = true ↔ Before a b := by
  rw [less_iff, before_iff]

theorem SV.ext_iff' {a b : SV} : a = b ↔ a.major = b.major ∧ a.minor = b.minor := by
  cases a; cases b; simp

theorem less_irrefl (a : SV) : a.less a = false := by simp [SV.less]

theorem less_trans {a b c : SV} (h₁ : a.less b = true) (h₂ : b.less c = true) :
    a.less c = true := by
  rw [less_iff] at *; omega

theorem less_total (a b : SV) : a.less b = true ∨ a = b ∨ b.less a = true := by
  rw [less_iff, less_iff, SV.ext_iff']; omega

theorem less_asymm {a b : SV} (h : a.less b = true) : b.less a = false := by
  rw [less_iff] at h; rw [less_false_iff]; omega

theorem not_less_trans {a b c : SV} (h₁ : b.less a = false) (h₂ : c.less b = false) :
    c.less a = false := by
  rw [less_false_iff] at *; omega

theorem eq_of_not_less {a b : SV} (h₁ : a.less b = false) (h₂ : b.less a = false) : a = b := by
  rcases less_total a b with h | h | h
  · simp [h] at h₁
  · exact h
  · simp [h] at h₂

/-! ### Digits -/

theorem digitVal_digitChar {d : Nat} (h : d < 10) : digitVal (digitChar d) = some d := by
  have : d = 0 ∨ d = 1 ∨ d = 2 ∨ d = 3 ∨ d = 4 ∨ d = 5 ∨ d = 6 ∨ d = 7 ∨ d = 8 ∨ d = 9 := by
    omega
  rcases this with h | h | h | h | h | h | h | h | h | h <;> subst h <;> decide

theorem digitChar_mem {d : Nat} (h : d < 10) : digitChar d ∈ digits := by
  have : d = 0 ∨ d = 1 ∨ d = 2 ∨ d = 3 ∨ d = 4 ∨ d = 5 ∨ d = 6 ∨ d = 7 ∨ d = 8 ∨ d = 9 := by
    omega
  rcases this with h | h | h | h | h | h | h | h | h | h <;> subst h <;> decide

theorem idxOf_digitChar {d : Nat} (h : d < 10) : digits.idxOf (digitChar d) = d := by
  have : d = 0 ∨ d = 1 ∨ d = 2 ∨ d = 3 ∨ d = 4 ∨ d = 5 ∨ d = 6 ∨ d = 7 ∨ d = 8 ∨ d = 9 := by
    omega
  rcases this with h | h | h | h | h | h | h | h | h | h <;> subst h <;> decide

theorem digitVal_some_iff {c : Char} {d : Nat} :
    digitVal c = some d ↔ c ∈ digits ∧ digits.idxOf c = d := by
  constructor
  · intro h
    unfold digitVal at h
    split at h
    · rename_i hc
      obtain ⟨h1, h2⟩ := hc
      have h1' : 48 ≤ c.toNat := h1
      have h2' : c.toNat ≤ 57 := h2
      have hd : d = c.toNat - 48 := by simpa using h.symm
      have hlt : d < 10 := by omega
      have hc' : c = digitChar d := by
        have : c.toNat = 48 + d := by omega
        rw [digitChar, ← this, Char.ofNat_toNat]
      rw [hc']
      exact ⟨digitChar_mem hlt, idxOf_digitChar hlt⟩
    · simp at h
  · rintro ⟨h1, h2⟩
    simp only [digits, List.mem_cons, List.not_mem_nil, or_false] at h1
    rcases h1 with h | h | h | h | h | h | h | h | h | h <;> subst h <;> subst h2 <;> decide

theorem digitVal_none_iff {c : Char} : digitVal c = none ↔ c ∉ digits := by
  constructor
  · intro h hc
    have := (digitVal_some_iff (c := c) (d := digits.idxOf c)).2 ⟨hc, rfl⟩
    simp [h] at this
  · intro h
    cases hd : digitVal c with
    | none => rfl
    | some d => exact absurd (digitVal_some_iff.1 hd).1 h

/-! ### Parsing numbers -/

/-- Denotation with an accumulator. -/
def denoteFrom (n : Nat) (s : List Char) : Nat :=
  s.foldl (fun n c => 10 * n + digits.idxOf c) n

theorem le_denoteFrom (s : List Char) : ∀ n, n ≤ denoteFrom n s := by
  induction s with
  | nil => intro n; simp [denoteFrom]
  | cons c cs ih =>
    intro n
    have := ih (10 * n + digits.idxOf c)
    simp only [denoteFrom, List.foldl_cons] at *
    omega

theorem parseUintLoop_iff (s : List Char) : ∀ (n m : Nat), n < 2 ^ 32 →
    (parseUintLoop n s = some m ↔
      (∀ c ∈ s, c ∈ digits) ∧ denoteFrom n s = m ∧ m < 2 ^ 32) := by
  induction s with
  | nil =>
    intro n m hn
    simp only [parseUintLoop, denoteFrom]
    constructor
    · intro h; simp at h; subst h; simp; exact hn
    · rintro ⟨_, h, _⟩; simp at h; simp [h]
  | cons c cs ih =>
    intro n m hn
    simp only [parseUintLoop]
    cases hd : digitVal c with
    | none =>
      have := digitVal_none_iff.1 hd
      simp [this]
    | some d =>
      obtain ⟨hmem, hidx⟩ := digitVal_some_iff.1 hd
      have hden : denoteFrom n (c :: cs) = denoteFrom (n * 10 + d) cs := by
        simp [denoteFrom, hidx, Nat.mul_comm]
      simp only
      split
      · rename_i hbig
        constructor
        · intro h; simp at h
        · rintro ⟨_, h2, h3⟩
          have := le_denoteFrom cs (n * 10 + d)
          rw [hden] at h2
          omega
      · rename_i hsmall
        rw [ih _ _ (by omega), hden]
        simp [hmem]

theorem parseUint_iff (s : List Char) (m : Nat) :
    parseUint s = some m ↔ Numeral s m ∧ m < 2 ^ 32 := by
  cases s with
  | nil => simp [parseUint, Numeral]
  | cons c cs =>
    simp only [parseUint]
    rw [parseUintLoop_iff _ _ _ (by decide)]
    simp only [Numeral]
    constructor
    · rintro ⟨h1, h2, h3⟩; exact ⟨⟨by simp, h1, h2⟩, h3⟩
    · rintro ⟨⟨_, h1, h2⟩, h3⟩; exact ⟨h1, h2, h3⟩

theorem parseUint_none_or (s : List Char) :
    parseUint s = none ∨ ∃ m, parseUint s = some m := by
  cases parseUint s <;> simp

/-! ### Splitting -/

theorem splitOn_ne_nil (sep : Char) (s : List Char) : splitOn sep s ≠ [] := by
  induction s with
  | nil => simp [splitOn]
  | cons c cs ih =>
    simp only [splitOn]
    split
    · simp
    · split <;> simp

theorem splitOn_no_sep {sep : Char} {s : List Char} (h : sep ∉ s) : splitOn sep s = [s] := by
  induction s with
  | nil => simp [splitOn]
  | cons c cs ih =>
    simp only [List.mem_cons, not_or] at h
    have hne : ¬ c = sep := fun e => h.1 e.symm
    simp [splitOn, hne, ih h.2]

theorem splitOn_append {sep : Char} {a b : List Char} (h : sep ∉ a) :
    splitOn sep (a ++ sep :: b) = a :: splitOn sep b := by
  induction a with
  | nil => simp [splitOn]
  | cons c cs ih =>
    simp only [List.mem_cons, not_or] at h
    have hne : ¬ c = sep := fun e => h.1 e.symm
    simp [splitOn, hne, ih h.2]

theorem splitOn_eq_single {sep : Char} {s p : List Char} (h : splitOn sep s = [p]) :
    s = p ∧ sep ∉ s := by
  induction s generalizing p with
  | nil => simp [splitOn] at h; simp [h]
  | cons c cs ih =>
    simp only [splitOn] at h
    split at h
    · simp at h; exact absurd h.2 (splitOn_ne_nil _ _)
    · rename_i hne
      split at h
      · rename_i h0; exact absurd h0 (splitOn_ne_nil _ _)
      · rename_i q qs h0
        simp at h
        obtain ⟨h1, h2⟩ := h
        subst h2
        obtain ⟨h3, h4⟩ := ih h0
        subst h1 h3
        exact ⟨rfl, by simp [h4]; exact fun e => hne e.symm⟩

theorem splitOn_eq_pair {sep : Char} {s p q : List Char} (h : splitOn sep s = [p, q]) :
    s = p ++ sep :: q ∧ sep ∉ p ∧ sep ∉ q := by
  induction s generalizing p with
  | nil => simp [splitOn] at h
  | cons c cs ih =>
    simp only [splitOn] at h
    split at h
    · rename_i heq
      simp at h
      obtain ⟨h1, h2⟩ := h
      obtain ⟨h3, h4⟩ := splitOn_eq_single h2
      subst h1 h3 heq
      simp [h4]
    · rename_i hne
      split at h
      · rename_i h0; exact absurd h0 (splitOn_ne_nil _ _)
      · rename_i r rs h0
        simp at h
        obtain ⟨h1, h2⟩ := h
        subst h2
        obtain ⟨h3, h4, h5⟩ := ih h0
        subst h1 h3
        exact ⟨rfl, by simp [h4]; exact fun e => hne e.symm, h5⟩

theorem dot_not_digit : '.' ∉ digits := by decide

theorem numeral_no_dot {s : List Char} {n : Nat} (h : Numeral s n) : '.' ∉ s :=
  fun hm => dot_not_digit (h.2.1 _ hm)

/-! ### Printing -/

theorem denote_append_single (s : List Char) (c : Char) :
    denote (s ++ [c]) = 10 * denote s + digits.idxOf c := by
  simp [denote]

theorem digitsRev_spec (fuel : Nat) : ∀ n, n < fuel →
    (∀ c ∈ digitsRev fuel n, c ∈ digits) ∧ digitsRev fuel n ≠ [] ∧
      denote (digitsRev fuel n).reverse = n := by
  induction fuel with
  | zero => intro n h; omega
  | succ f ih =>
    intro n hn
    simp only [digitsRev]
    split
    · rename_i h10
      refine ⟨?_, by simp, ?_⟩
      · intro c hc; simp at hc; subst hc; exact digitChar_mem h10
      · simp [denote, idxOf_digitChar h10]
    · rename_i h10
      have hlt : n / 10 < f := by omega
      obtain ⟨h1, h2, h3⟩ := ih _ hlt
      have hm : n % 10 < 10 := Nat.mod_lt _ (by decide)
      refine ⟨?_, by simp, ?_⟩
      · intro c hc
        simp only [List.mem_cons] at hc
        rcases hc with hc | hc
        · subst hc; exact digitChar_mem hm
        · exact h1 _ hc
      · rw [List.reverse_cons, denote_append_single, h3, idxOf_digitChar hm]
        omega

/-- The most significant digit printed for a positive number is not '0'. -/
theorem digitsRev_getLast (fuel : Nat) : ∀ n, n < fuel → 0 < n →
    (digitsRev fuel n).getLast? ≠ some '0' := by
  induction fuel with
  | zero => intro n h; omega
  | succ f ih =>
    intro n hn hpos
    simp only [digitsRev]
    split
    · rename_i h10
      intro h
      have h' : digitChar n = '0' := by simpa using h
      have := idxOf_digitChar h10
      rw [h'] at this
      have h0 : digits.idxOf '0' = 0 := by decide
      omega
    · rename_i h10
      have hne := (digitsRev_spec f (n / 10) (by omega)).2.1
      have := ih (n / 10) (by omega) (by omega)
      cases hd : digitsRev f (n / 10) with
      | nil => exact absurd hd hne
      | cons c cs => rw [List.getLast?_cons_cons, ← hd]; exact this

theorem decimal_head (n : Nat) (h : 0 < n) : (decimal n).head? ≠ some '0' := by
  have := digitsRev_getLast (n + 1) n (by omega) h
  simpa [decimal] using this

theorem numeral_decimal (n : Nat) : Numeral (decimal n) n := by
  obtain ⟨h1, h2, h3⟩ := digitsRev_spec (n + 1) n (by omega)
  refine ⟨by simpa [decimal] using h2, ?_, h3⟩
  intro c hc
  exact h1 c (by simpa [decimal] using hc)

theorem versionString_str (v : SV) : VersionString v.str v :=
  ⟨_, _, rfl, numeral_decimal _, numeral_decimal _⟩

theorem versionString_unique {s : List Char} {v w : SV}
    (hv : VersionString s v) (hw : VersionString s w) : v = w := by
  obtain ⟨a, b, h1, ha, hb⟩ := hv
  obtain ⟨c, d, h2, hc, hd⟩ := hw
  have e1 := splitOn_append (b := b) (numeral_no_dot ha)
  have e2 := splitOn_append (b := d) (numeral_no_dot hc)
  rw [← h1] at e1
  rw [← h2, e1] at e2
  rw [splitOn_no_sep (numeral_no_dot hb), splitOn_no_sep (numeral_no_dot hd)] at e2
  simp at e2
  obtain ⟨rfl, rfl⟩ := e2
  rw [SV.ext_iff']
  exact ⟨ha.2.2.symm.trans hc.2.2, hb.2.2.symm.trans hd.2.2⟩

theorem parseSV_ok_iff {s : List Char} {v : SV} :
    parseSV s = .ok v ↔ VersionString s v ∧ v.major < 2 ^ 32 ∧ v.minor < 2 ^ 32 := by
  constructor
  · intro h
    unfold parseSV at h
    split at h
    · rename_i p0 p1 hs
      obtain ⟨h1, _, _⟩ := splitOn_eq_pair hs
      split at h
      · cases h
      · rename_i a ha
        split at h
        · cases h
        · rename_i b hb
          cases h
          obtain ⟨ha1, ha2⟩ := (parseUint_iff _ _).1 ha
          obtain ⟨hb1, hb2⟩ := (parseUint_iff _ _).1 hb
          exact ⟨⟨p0, p1, h1, ha1, hb1⟩, ha2, hb2⟩
    · cases h
  · rintro ⟨⟨a, b, h1, ha, hb⟩, hma, hmi⟩
    have e := splitOn_append (b := b) (numeral_no_dot ha)
    rw [← h1, splitOn_no_sep (numeral_no_dot hb)] at e
    have ea := (parseUint_iff a v.major).2 ⟨ha, hma⟩
    have eb := (parseUint_iff b v.minor).2 ⟨hb, hmi⟩
    simp [parseSV, e, ea, eb]

theorem parseSV_cases (s : List Char) :
    (∃ v, parseSV s = .ok v) ∨ parseSV s = .err malformed := by
  unfold parseSV
  split
  · split
    · simp
    · split
      · simp
      · left; exact ⟨_, rfl⟩
  · simp

end Thema

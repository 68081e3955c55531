import Verif.Model.Lit

/-!
# Lemmas on string literals
-/

namespace Thema.Lit

/-- No character of the string needs an escape. -/
def Plain (s : Str) : Prop := ∀ c ∈ s, c ≠ '"' ∧ c ≠ '\\' ∧ illegal c = false

instance (s : Str) : Decidable (Plain s) := by unfold Plain; infer_instance

/-- An escape consumes something. -/
def Shrinks (esc : Str → Option (Char × Str)) : Prop :=
  ∀ s c r, esc s = some (c, r) → r.length < s.length

theorem hexRead_length : ∀ (n acc : Nat) (s : Str) (k : Nat) (r : Str),
    hexRead n acc s = some (k, r) → s.length = r.length + n
  | 0, _, s, _, r, h => by injection h with h; injection h with _ h; simp [h]
  | n + 1, _, [], _, _, h => by cases h
  | n + 1, acc, c :: s, k, r, h => by
    unfold hexRead at h
    split at h
    · cases h
    · have := hexRead_length n _ s k r h
      simp only [List.length_cons]; omega

theorem hexEsc_length {n : Nat} {s r : Str} {c : Char} (h : hexEsc n s = some (c, r)) :
    s.length = r.length + n := by
  unfold hexEsc at h
  rcases Option.bind_eq_some_iff.1 h with ⟨⟨k, r'⟩, h1, h2⟩
  rcases Option.map_eq_some_iff.1 h2 with ⟨d, _, h3⟩
  injection h3 with _ h3
  subst h3
  exact hexRead_length _ _ _ _ _ h1

theorem simple_shrinks {c d : Char} {cs r : Str}
    (h : ((simpleEsc c).map fun d => (d, cs)) = some (d, r)) : r.length < (c :: cs).length := by
  rcases Option.map_eq_some_iff.1 h with ⟨e, _, h3⟩
  injection h3 with _ h3
  subst h3; simp

theorem goEsc_shrinks : Shrinks goEsc := by
  intro s d r h
  cases s with
  | nil => cases h
  | cons c cs =>
    unfold goEsc at h
    dsimp only at h
    split at h
    · have := hexEsc_length h; simp; omega
    · split at h
      · have := hexEsc_length h; simp; omega
      · split at h
        · have := hexEsc_length h; simp; omega
        · exact simple_shrinks h

theorem cueEsc_shrinks : Shrinks cueEsc := by
  intro s d r h
  cases s with
  | nil => cases h
  | cons c cs =>
    unfold cueEsc at h
    dsimp only at h
    split at h
    · have := hexEsc_length h; simp; omega
    · split at h
      · have := hexEsc_length h; simp; omega
      · split at h
        · injection h with h; injection h with _ h; subst h; simp
        · exact simple_shrinks h

theorem unquoteLoop_length {esc : Str → Option (Char × Str)} (he : Shrinks esc) :
    ∀ (n : Nat) (s t : Str), unquoteLoop esc n s = some t → t.length + 1 ≤ s.length
  | 0, _, _, h => by cases h
  | n + 1, [], _, h => by cases h
  | n + 1, c :: cs, t, h => by
    unfold unquoteLoop at h
    split at h
    · split at h
      · injection h with h; subst h; simp
      · cases h
    · split at h
      · split at h
        · cases h
        · rename_i d r hd
          rcases Option.map_eq_some_iff.1 h with ⟨t', h1, h2⟩
          have := unquoteLoop_length he n r t' h1
          have := he _ _ _ hd
          subst h2
          simp only [List.length_cons]; omega
      · split at h
        · cases h
        · rcases Option.map_eq_some_iff.1 h with ⟨t', h1, h2⟩
          have := unquoteLoop_length he n cs t' h1
          subst h2
          simp only [List.length_cons]; omega

theorem unquoteLoop_plain {esc : Str → Option (Char × Str)} :
    ∀ (s : Str) (n : Nat), Plain s → s.length < n →
      unquoteLoop esc n (s ++ ['"']) = some s
  | [], n + 1, _, _ => by simp [unquoteLoop]
  | c :: cs, n + 1, hp, hn => by
    have hc := hp c (List.mem_cons_self ..)
    have ih := unquoteLoop_plain (esc := esc) cs n
      (fun d hd => hp d (List.mem_cons_of_mem _ hd)) (by simp at hn; omega)
    rw [List.cons_append, unquoteLoop, if_neg hc.1, if_neg hc.2.1, if_neg (by simp [hc.2.2]), ih]
    rfl

theorem unquoteLoop_only_plain {esc : Str → Option (Char × Str)} (he : Shrinks esc) :
    ∀ (s : Str) (n : Nat), unquoteLoop esc n (s ++ ['"']) = some s → Plain s
  | [], _, _ => by intro c hc; cases hc
  | c :: cs, 0, h => by cases h
  | c :: cs, n + 1, h => by
    rw [List.cons_append, unquoteLoop] at h
    split at h
    · rw [if_neg (by simp)] at h; cases h
    · rename_i hq
      split at h
      · split at h
        · cases h
        · rename_i d r hd
          rcases Option.map_eq_some_iff.1 h with ⟨t', h1, h2⟩
          have h3 := unquoteLoop_length he n r t' h1
          have h4 := he _ _ _ hd
          have h5 := congrArg List.length h2
          simp only [List.length_cons, List.length_append, List.length_nil] at h4 h5
          omega
      · rename_i hb
        split at h
        · cases h
        · rename_i hi
          rcases Option.map_eq_some_iff.1 h with ⟨t', h1, h2⟩
          injection h2 with _ h2
          subst h2
          have ih := unquoteLoop_only_plain he t' n h1
          intro d hd
          rcases List.mem_cons.1 hd with rfl | hd
          · exact ⟨hq, hb, by simpa using hi⟩
          · exact ih d hd

/-- A name between quotation marks is a literal for that name exactly if no character
needs an escape. -/
theorem unquote_inQuotes {esc : Str → Option (Char × Str)} (he : Shrinks esc) (s : Str) :
    unquote esc (inQuotes s) = some s ↔ Plain s := by
  have hu : unquote esc (inQuotes s) = unquoteLoop esc ((s ++ ['"']).length + 1) (s ++ ['"']) := rfl
  rw [hu]
  exact ⟨unquoteLoop_only_plain he s _, fun h => unquoteLoop_plain s _ h (by simp; omega)⟩

/-! ### `%q` -/

theorem hexVal_hexChar : ∀ n < 16, hexVal (hexChar n) = some n := by decide

theorem hexRead_hexDigits : ∀ (n acc k : Nat) (s : Str),
    hexRead n acc (hexDigits n k ++ s) = some (acc * 16 ^ n + k % 16 ^ n, s)
  | 0, acc, k, s => by simp [hexRead, hexDigits, Nat.mod_one]
  | n + 1, acc, k, s => by
    rw [hexDigits, List.cons_append, hexRead, hexVal_hexChar _ (Nat.mod_lt _ (by decide))]
    dsimp only
    rw [hexRead_hexDigits n]
    congr 2
    have h1 : k % 16 ^ (n + 1) = 16 ^ n * (k / 16 ^ n % 16) + k % 16 ^ n := by
      rw [Nat.pow_succ, Nat.mod_mul]; omega
    rw [h1, Nat.pow_succ, Nat.add_mul, Nat.add_assoc]
    congr 1
    · rw [Nat.mul_assoc, Nat.mul_comm 16]
    · rw [Nat.mul_comm]

theorem charOf_toNat (c : Char) : charOf c.toNat = some c := by
  unfold charOf
  rw [if_pos (show c.toNat.isValidChar from c.valid)]
  rw [Char.ofNat_toNat]

theorem hexEsc_hexDigits (n : Nat) (c : Char) (s : Str) (h : c.toNat < 16 ^ n) :
    hexEsc n (hexDigits n c.toNat ++ s) = some (c, s) := by
  unfold hexEsc
  rw [hexRead_hexDigits, Nat.zero_mul, Nat.zero_add, Nat.mod_eq_of_lt h]
  simp [charOf_toNat]

/-- What reading one quoted character gives. -/
theorem unquoteLoop_rune {isPrint : Char → Bool} (hp : ∀ c, illegal c = true → isPrint c = false)
    (c : Char) (n : Nat) (s : Str) :
    unquoteLoop goEsc (n + 1) (quoteRune isPrint c ++ s) =
      (unquoteLoop goEsc n s).map (c :: ·) := by
  have esc : ∀ (r : Str), goEsc r = some (c, s) →
      unquoteLoop goEsc (n + 1) ('\\' :: r) = (unquoteLoop goEsc n s).map (c :: ·) := by
    intro r hr
    rw [unquoteLoop, if_neg (by decide), if_pos rfl, hr]
  unfold quoteRune
  split
  · rename_i h
    refine esc (c :: s) ?_
    rcases h with rfl | rfl
    · rfl
    · rfl
  rename_i hq
  split
  · rename_i h
    have h1 : c ≠ '"' := fun e => hq (.inl e)
    have h2 : c ≠ '\\' := fun e => hq (.inr e)
    have h3 : ¬ illegal c = true := fun e => by rw [hp c e] at h; cases h
    rw [List.cons_append, List.nil_append, unquoteLoop, if_neg h1, if_neg h2, if_neg h3]
  split
  · rename_i h; exact esc ('a' :: s) (by rw [h]; rfl)
  split
  · rename_i h; exact esc ('b' :: s) (by rw [h]; rfl)
  split
  · rename_i h; exact esc ('f' :: s) (by rw [h]; rfl)
  split
  · rename_i h; exact esc ('n' :: s) (by rw [h]; rfl)
  split
  · rename_i h; exact esc ('r' :: s) (by rw [h]; rfl)
  split
  · rename_i h; exact esc ('t' :: s) (by rw [h]; rfl)
  split
  · rename_i h; exact esc ('v' :: s) (by rw [h]; rfl)
  split
  · rename_i h
    refine esc ('x' :: (hexDigits 2 c.toNat ++ s)) ?_
    rw [goEsc, if_pos rfl, hexEsc_hexDigits]
    omega
  split
  · rename_i h
    refine esc ('u' :: (hexDigits 4 c.toNat ++ s)) ?_
    rw [goEsc, if_neg (by decide), if_pos rfl, hexEsc_hexDigits]
    omega
  · refine esc ('U' :: (hexDigits 8 c.toNat ++ s)) ?_
    rw [goEsc, if_neg (by decide), if_neg (by decide), if_pos rfl, hexEsc_hexDigits]
    have h1 := c.valid
    have : c.toNat < 0x110000 := by
      rcases h1 with h1 | h1
      · have : c.toNat < 0xd800 := h1
        omega
      · exact h1.2
    omega

theorem quoteRune_length (isPrint : Char → Bool) (c : Char) :
    1 ≤ (quoteRune isPrint c).length := by
  unfold quoteRune
  repeat' split
  all_goals simp

theorem unquoteLoop_quote {isPrint : Char → Bool}
    (hp : ∀ c, illegal c = true → isPrint c = false) :
    ∀ (s : Str) (n : Nat), s.length < n →
      unquoteLoop goEsc n (s.flatMap (quoteRune isPrint) ++ ['"']) = some s
  | [], n + 1, _ => by simp [unquoteLoop]
  | c :: cs, n + 1, hn => by
    rw [List.flatMap_cons, List.append_assoc, unquoteLoop_rune hp,
      unquoteLoop_quote hp cs n (by simp at hn; omega)]
    rfl

theorem flatMap_quote_length (isPrint : Char → Bool) (s : Str) :
    s.length ≤ (s.flatMap (quoteRune isPrint)).length := by
  induction s with
  | nil => simp
  | cons c cs ih =>
    have := quoteRune_length isPrint c
    rw [List.flatMap_cons, List.length_append, List.length_cons]; omega

/-- `%q` writes a literal for its operand. -/
theorem unquote_goQuote {isPrint : Char → Bool} (hp : ∀ c, illegal c = true → isPrint c = false)
    (s : Str) : unquote goEsc (goQuote isPrint s) = some s := by
  have hu : unquote goEsc (goQuote isPrint s) =
      unquoteLoop goEsc ((s.flatMap (quoteRune isPrint) ++ ['"']).length + 1)
        (s.flatMap (quoteRune isPrint) ++ ['"']) := rfl
  rw [hu]
  refine unquoteLoop_quote hp s _ ?_
  have := flatMap_quote_length isPrint s
  simp only [List.length_append, List.length_cons, List.length_nil]; omega

end Thema.Lit

import Verif.Spec.OGen

/-!
# Lemmas on the names of generated Go types
-/

namespace Thema.OGen

open Thema.GoTypes

variable {U : Uni}

theorem UniLaws.lower_not_upper (L : UniLaws U) {c : Char} (h : U.isLower c) :
    U.isUpper c = false := by
  cases hu : U.isUpper c with
  | false => rfl
  | true => rw [L.upper_not_lower c hu] at h; cases h

theorem UniLaws.lower_not_digit (L : UniLaws U) {c : Char} (h : U.isLower c) :
    U.isDigit c = false := L.letter_not_digit c (L.lower_letter c h)

theorem UniLaws.upper_not_digit (L : UniLaws U) {c : Char} (h : U.isUpper c) :
    U.isDigit c = false := L.letter_not_digit c (L.upper_letter c h)

theorem UniLaws.digit_not_upper (L : UniLaws U) {c : Char} (h : U.isDigit c) :
    U.isUpper c = false := by
  cases hu : U.isUpper c with
  | false => rfl
  | true => rw [L.upper_not_digit hu] at h; cases h

theorem UniLaws.digit_not_lower (L : UniLaws U) {c : Char} (h : U.isDigit c) :
    U.isLower c = false := by
  cases hu : U.isLower c with
  | false => rfl
  | true => rw [L.lower_not_digit hu] at h; cases h

/-- What is made of a character that is kept. -/
def img (U : Uni) (cap : Bool) (c : Char) : Char :=
  if U.isLower c && cap then U.toUpper c else c

theorem isSep_mem {c : Char} (h : isSep c = true) : c.toNat < 128 ∧ c.isAlphanum = false := by
  have h : c ∈ "-#@!$&=.+:;_~ (){}[]".toList := by simpa [isSep] using h
  have : ∀ c ∈ "-#@!$&=.+:;_~ (){}[]".toList, c.toNat < 128 ∧ c.isAlphanum = false := by decide
  exact this c h

theorem UniLaws.sep (L : UniLaws U) {c : Char} (h : isSep c = true) : kept U c = false :=
  L.other c (isSep_mem h).1 (isSep_mem h).2

theorem UniLaws.kept_sep (L : UniLaws U) {c : Char} (h : kept U c = true) : isSep c = false := by
  cases hs : isSep c with
  | false => rfl
  | true => rw [L.sep hs] at h; cases h

theorem camelGo_not_kept {b : Bool} {c : Char} {s : Str} (h : kept U c = false) :
    camelGo U b (c :: s) = camelGo U (isSep c) s := by
  simp only [kept, Bool.or_eq_false_iff] at h
  simp [camelGo, h.1.1, h.1.2, h.2]

theorem camelGo_kept (L : UniLaws U) {b : Bool} {c : Char} {s : Str} (h : kept U c = true) :
    camelGo U b (c :: s) = img U b c :: camelGo U false s := by
  have hs := L.kept_sep h
  simp only [kept, Bool.or_eq_true] at h
  rw [camelGo, hs, img]
  rcases h with (h | h) | h
  · simp [h, L.upper_not_lower c h, L.upper_not_digit h]
  · cases b <;> simp [h, L.lower_not_upper h, L.lower_not_digit h]
  · simp [h, L.digit_not_upper h, L.digit_not_lower h]

/-- Whether the character after `a` begins a word. -/
def capAfter (b : Bool) (a : Str) : Bool :=
  match a.getLast? with
  | none => b
  | some s => isSep s

theorem camelGo_skip : ∀ (a : Str) (b : Bool) (s : Str), (∀ x ∈ a, kept U x = false) →
    camelGo U b (a ++ s) = camelGo U (capAfter b a) s
  | [], b, s, _ => rfl
  | c :: a, b, s, h => by
    rw [List.cons_append, camelGo_not_kept (h c (List.mem_cons_self ..)),
      camelGo_skip a _ s (fun x hx => h x (List.mem_cons_of_mem _ hx))]
    congr 1
    cases a with
    | nil => rfl
    | cons d a =>
      unfold capAfter
      rw [List.getLast?_cons_cons]
      cases hl : (d :: a).getLast? with
      | none => simp at hl
      | some y => rfl

theorem camelGo_append_spaces : ∀ (s : Str) (b : Bool) (t : Str), kept U ' ' = false →
    (∀ x ∈ t, x = ' ') → camelGo U b (s ++ t) = camelGo U b s
  | [], b, t, hk, h => by
    have := camelGo_skip (U := U) t b [] (fun x hx => by rw [h x hx]; exact hk)
    simpa [camelGo] using this
  | c :: s, b, t, hk, h => by
    rw [List.cons_append, camelGo, camelGo, camelGo_append_spaces s _ t hk h]

theorem mem_takeWhile {α : Type} {p : α → Bool} : ∀ {l : List α} {x : α},
    x ∈ l.takeWhile p → p x = true
  | a :: l, x, h => by
    rw [List.takeWhile_cons] at h
    split at h
    · rcases List.mem_cons.1 h with rfl | h
      · assumption
      · exact mem_takeWhile h
    · cases h

theorem camel_eq (L : UniLaws U) (s : Str) : camel U s = camelGo U true s := by
  have hk : kept U ' ' = false := L.other ' ' (by decide) (by decide)
  have h1 : camelGo U true s = camelGo U true (s.dropWhile (· == ' ')) := by
    have e := List.takeWhile_append_dropWhile (p := (· == ' ')) (l := s)
    have hx : ∀ x ∈ s.takeWhile (· == ' '), x = ' ' := fun x hx => by
      have := mem_takeWhile hx; simpa using this
    conv => lhs; rw [← e]
    rw [camelGo_skip _ _ _ (fun x h => by rw [hx x h]; exact hk)]
    congr 1
    unfold capAfter
    cases hl : (s.takeWhile (· == ' ')).getLast? with
    | none => rfl
    | some y => rw [hx y (List.mem_of_getLast? hl)]; rfl
  rw [h1, camel, trimSpaces]
  generalize s.dropWhile (· == ' ') = t
  have e := List.takeWhile_append_dropWhile (p := (· == ' ')) (l := t.reverse)
  have e2 := congrArg List.reverse e
  rw [List.reverse_append, List.reverse_reverse] at e2
  conv => rhs; rw [← e2]
  rw [camelGo_append_spaces _ _ _ hk]
  intro x hx
  have := mem_takeWhile (List.mem_reverse.1 hx)
  simpa using this

/-- Letters and digits only. -/
def LD (U : Uni) (s : Str) : Prop := ∀ x ∈ s, U.isLetter x = true ∨ U.isDigit x = true

theorem LD.append {s t : Str} (hs : LD U s) (ht : LD U t) : LD U (s ++ t) := fun x hx =>
  (List.mem_append.1 hx).elim (hs x) (ht x)

theorem img_ld (L : UniLaws U) {b : Bool} {c : Char} (h : kept U c = true) :
    U.isLetter (img U b c) = true ∨ U.isDigit (img U b c) = true := by
  unfold img
  simp only [kept, Bool.or_eq_true] at h
  split
  · rename_i h'
    simp only [Bool.and_eq_true] at h'
    exact .inl (L.toUpper_letter c h'.1)
  · rcases h with (h | h) | h
    · exact .inl (L.upper_letter c h)
    · exact .inl (L.lower_letter c h)
    · exact .inr h

theorem camelGo_ld (L : UniLaws U) : ∀ (s : Str) (b : Bool), LD U (camelGo U b s)
  | [], _ => fun x hx => by simp [camelGo] at hx
  | c :: s, b => by
    cases h : kept U c with
    | false => rw [camelGo_not_kept h]; exact camelGo_ld L s _
    | true =>
      rw [camelGo_kept L h]
      intro x hx
      rcases List.mem_cons.1 hx with rfl | hx
      · exact img_ld L h
      · exact camelGo_ld L s _ x hx

/-- ASCII letters of which the first is a capital. -/
def Word (s : Str) : Prop :=
  (∃ c r, s = c :: r ∧ c.isUpper = true) ∧ ∀ x ∈ s, x.isUpper = true ∨ x.isLower = true

theorem Word.append {s t : Str} (hs : Word s) (ht : ∀ x ∈ t, x.isUpper = true ∨ x.isLower = true) :
    Word (s ++ t) := by
  rcases hs with ⟨⟨c, r, rfl, h⟩, h2⟩
  exact ⟨⟨c, r ++ t, rfl, h⟩, fun x hx => (List.mem_append.1 hx).elim (h2 x) (ht x)⟩

theorem word_of_decide (s : Str) (h : (match s with | [] => false | c :: _ => c.isUpper) = true)
    (h2 : s.all (fun x => x.isUpper || x.isLower) = true) : Word s := by
  cases s with
  | nil => cases h
  | cons c r =>
    refine ⟨⟨c, r, rfl, h⟩, fun x hx => ?_⟩
    have := List.all_eq_true.1 h2 x hx
    simpa using this

theorem signWord_word {c : Char} {w : Str} (h : signWord c = some w) : Word w := by
  unfold signWord at h
  repeat' split at h
  all_goals first
    | cases h; done
    | (injection h with h; subst h; exact word_of_decide _ (by decide) (by decide))

theorem signWord_isSome (c : Char) : (signWord c).isSome = hasWord c := by
  have h2 : hasWord c = true ↔ c ∈ "-+&|~=#.*^%".toList := by simp [hasWord]
  unfold signWord
  repeat' split
  all_goals rename_i h
  all_goals try (have := eq_of_beq h; subst this; rfl)
  symm
  rw [Option.isSome_none, ← Bool.not_eq_true, h2]
  simp_all

theorem hasWord_other {c : Char} (h : hasWord c = true) :
    c.toNat < 128 ∧ c.isAlphanum = false ∧ c ≠ '$' := by
  have h : c ∈ "-+&|~=#.*^%".toList := by simpa [hasWord] using h
  have : ∀ c ∈ "-+&|~=#.*^%".toList, c.toNat < 128 ∧ c.isAlphanum = false ∧ c ≠ '$' := by decide
  exact this c h

theorem prefixGo_word : ∀ (s pre : Str), Word pre → Word (prefixGo U false pre s)
  | [], pre, h => h
  | r :: s, pre, h => by
    rw [prefixGo]
    split
    · exact prefixGo_word s pre h
    · split
      · rename_i w hw
        exact prefixGo_word s _ (h.append (signWord_word hw).2)
      · split
        · exact word_of_decide _ (by decide) (by decide)
        · exact h

/-- What the prefix of a name is, but for the empty name and `$`. -/
theorem prefixGo_nil : ∀ (s : Str),
    (match (s.dropWhile (· == '$')).head? with
      | none => prefixGo U false [] s = []
      | some c => if hasWord c || U.isDigit c then Word (prefixGo U false [] s)
          else prefixGo U false [] s = [])
  | [] => rfl
  | r :: s => by
    rw [List.dropWhile_cons, prefixGo]
    cases h : (r == '$') with
    | true => simpa using prefixGo_nil s
    | false =>
      have hw := signWord_isSome r
      simp only [Bool.false_eq_true, if_false, List.head?_cons]
      cases hs : signWord r with
      | some w =>
        rw [hs] at hw
        rw [← hw]
        simp only [Option.isSome_some, Bool.true_or, if_true, List.nil_append]
        exact prefixGo_word s w (signWord_word hs)
      | none =>
        rw [hs] at hw
        rw [← hw]
        cases hd : U.isDigit r with
        | true => simpa using word_of_decide "N".toList (by decide) (by decide)
        | false => simp

theorem typeNamePrefix_cases (name : Str) (h1 : name ≠ []) (h2 : name ≠ ['$']) :
    typeNamePrefix U name = prefixGo U false [] name := by
  unfold typeNamePrefix
  rw [if_neg (by simpa using h1)]
  congr 1
  simpa using h2

theorem Word.exported (L : UniLaws U) {s : Str} (h : Word s) (t : Str) : Exported U (s ++ t) := by
  rcases h with ⟨⟨c, r, rfl, h⟩, _⟩
  exact ⟨c, r ++ t, rfl, L.ascii_upper c h⟩

theorem Word.ld (L : UniLaws U) {s : Str} (h : Word s) : LD U s := fun x hx =>
  .inl ((h.2 x hx).elim (fun h => L.upper_letter _ (L.ascii_upper x h))
    (fun h => L.lower_letter _ (L.ascii_lower x h)))

theorem Word.kept (L : UniLaws U) {s : Str} (h : Word s) : ∀ x ∈ s, kept U x = true := fun x hx =>
  (h.2 x hx).elim (fun h => by simp [OGen.kept, L.ascii_upper x h])
    (fun h => by simp [OGen.kept, L.ascii_lower x h])

/-- The prefix of a name: a word or nothing. -/
theorem prefix_word_or_nil (name : Str) : Word (typeNamePrefix U name) ∨ typeNamePrefix U name = [] := by
  by_cases h1 : name = []
  · subst h1; exact .inl (word_of_decide "Empty".toList (by decide) (by decide))
  by_cases h2 : name = ['$']
  · subst h2; exact .inl (word_of_decide "DollarSign".toList (by decide) (by decide))
  rw [typeNamePrefix_cases name h1 h2]
  have := prefixGo_nil (U := U) name
  split at this
  · exact .inr this
  · split at this
    · exact .inl this
    · exact .inr this

theorem typeName_ld (L : UniLaws U) (name : Str) : LD U (typeName U name) := by
  unfold typeName
  refine LD.append ?_ (by rw [camel_eq L]; exact camelGo_ld L _ _)
  rcases prefix_word_or_nil (U := U) name with h | h
  · exact h.ld L
  · rw [h]; intro x hx; cases hx

/-- A name is split at its first character that is kept. -/
theorem split_kept : ∀ (s : Str), (∀ x ∈ s, kept U x = false) ∨
    ∃ a c b, s = a ++ c :: b ∧ (∀ x ∈ a, kept U x = false) ∧ kept U c = true
  | [] => .inl (fun x hx => by cases hx)
  | c :: s => by
    cases h : kept U c with
    | true => exact .inr ⟨[], c, s, rfl, (fun x hx => by cases hx), h⟩
    | false =>
      rcases split_kept s with hs | ⟨a, d, b, rfl, ha, hd⟩
      · exact .inl fun x hx => (List.mem_cons.1 hx).elim (fun e => e ▸ h) (hs x)
      · exact .inr ⟨c :: a, d, b, rfl,
          fun x hx => (List.mem_cons.1 hx).elim (fun e => e ▸ h) (ha x), hd⟩

theorem capAfter_iff (a : Str) : capAfter true a = true ↔ a = [] ∨ ∃ a' s, a = a' ++ [s] ∧ isSep s = true := by
  rcases List.eq_nil_or_concat a with rfl | ⟨a', s, rfl⟩
  · simp [capAfter]
  · simp only [capAfter, List.concat_eq_append, List.getLast?_append]
    constructor
    · intro h
      exact .inr ⟨a', s, rfl, by simpa using h⟩
    · rintro (h | ⟨a'', s', h, hs⟩)
      · simp at h
      · have := List.append_inj' h rfl
        have e := this.2
        injection e with e
        subst e
        simpa using hs

/-- The exported names. -/
theorem exported_iff (L : UniLaws U) (name : Str) :
    Exported U (typeName U name) ↔ GoodName U name := by
  constructor
  · intro h
    by_cases h1 : name = []
    · exact .inl h1
    by_cases h2 : name = ['$']
    · exact .inr (.inl h2)
    refine .inr (.inr ?_)
    have hp := prefixGo_nil (U := U) name
    rw [← typeNamePrefix_cases name h1 h2] at hp
    by_cases h3 : ∃ c, (name.dropWhile (· == '$')).head? = some c ∧ (hasWord c = true ∨ U.isDigit c = true)
    · exact .inl h3
    have hnil : typeNamePrefix U name = [] := by
      split at hp
      · exact hp
      · rename_i c hc
        rw [if_neg ?_] at hp
        · exact hp
        · intro hb
          exact h3 ⟨c, hc, by simpa using hb⟩
    unfold typeName at h
    rw [hnil, List.nil_append, camel_eq L] at h
    rcases h with ⟨x, r, hx, hu⟩
    rcases split_kept (U := U) name with ha | ⟨a, c, b, rfl, ha, hc⟩
    · have := camelGo_skip (U := U) name true [] ha
      rw [List.append_nil, camelGo] at this
      rw [this] at hx
      cases hx
    · refine .inr ⟨a, c, b, rfl, ha, ?_⟩
      rw [camelGo_skip a _ _ ha, camelGo_kept L hc] at hx
      injection hx with hx _
      subst hx
      rw [img] at hu
      cases hl : U.isLower c with
      | false => rw [hl] at hu; exact .inl (by simpa using hu)
      | true =>
        cases hcap : capAfter true a with
        | false => rw [hl, hcap] at hu; exact .inl (by simpa using hu)
        | true => rw [hl, hcap] at hu; exact .inr ⟨rfl, by simpa using hu, (capAfter_iff a).1 hcap⟩
  · rintro (rfl | rfl | ⟨c, hc, h⟩ | ⟨a, c, b, rfl, ha, h⟩)
    · exact (word_of_decide _ (by decide) (by decide) : Word "Empty".toList).exported L _
    · exact (word_of_decide _ (by decide) (by decide) : Word "DollarSign".toList).exported L _
    · by_cases h1 : name = []
      · subst h1; cases hc
      by_cases h2 : name = ['$']
      · subst h2; cases hc
      have hp := prefixGo_nil (U := U) name
      rw [← typeNamePrefix_cases name h1 h2, hc] at hp
      simp only at hp
      rw [if_pos (by simpa using h)] at hp
      exact hp.exported L _
    · rcases prefix_word_or_nil (U := U) (a ++ c :: b) with hp | hp
      · exact hp.exported L _
      · unfold typeName
        rw [hp, List.nil_append, camel_eq L, camelGo_skip a _ _ ha]
        rcases h with h | ⟨hl, hu, hcap⟩
        · rw [camelGo_kept L (by simp [kept, h])]
          exact ⟨_, _, rfl, by simp [img, L.upper_not_lower c h, h]⟩
        · rw [camelGo_kept L (by simp [kept, hl])]
          exact ⟨_, _, rfl, by simp [img, hl, (capAfter_iff a).2 hcap, hu]⟩

theorem exported_ident (L : UniLaws U) {s : Str} (h : Exported U s) (hl : LD U s) : GoIdent U s := by
  rcases h with ⟨c, r, rfl, h⟩
  refine ⟨c, r, rfl, .inl (L.upper_letter c h), fun x hx => ?_⟩
  rcases hl x (List.mem_cons_of_mem _ hx) with h | h
  · exact .inl h
  · exact .inr (.inl h)

/-! ### Names of letters and digits -/

theorem camelGo_all_kept (L : UniLaws U) : ∀ (s : Str), (∀ x ∈ s, kept U x = true) →
    camelGo U false s = s
  | [], _ => rfl
  | c :: s, h => by
    rw [camelGo_kept L (h c (List.mem_cons_self ..)),
      camelGo_all_kept L s (fun x hx => h x (List.mem_cons_of_mem _ hx))]
    simp [img]

theorem UniLaws.kept_no_word (L : UniLaws U) {c : Char} (h : kept U c = true) :
    signWord c = none ∧ (c == '$') = false := by
  constructor
  · cases hs : signWord c with
    | none => rfl
    | some w =>
      have := signWord_isSome c
      rw [hs] at this
      have := hasWord_other this.symm
      rw [L.other c this.1 this.2.1] at h
      cases h
  · cases hd : (c == '$') with
    | false => rfl
    | true =>
      have := eq_of_beq hd
      subst this
      rw [L.other '$' (by decide) (by decide)] at h
      cases h

/-- A name of letters and digits that begins with a letter keeps everything but the case of
that letter. -/
theorem typeName_letters (L : UniLaws U) {c : Char} {s : Str}
    (hc : U.isUpper c = true ∨ U.isLower c = true) (hs : ∀ x ∈ s, kept U x = true) :
    typeName U (c :: s) = U.toUpper c :: s := by
  have hk : kept U c = true := by rcases hc with h | h <;> simp [kept, h]
  have hd : U.isDigit c = false := by
    rcases hc with h | h
    · exact L.upper_not_digit h
    · exact L.lower_not_digit h
  have hw := L.kept_no_word hk
  have h2 : c :: s ≠ ['$'] := by
    intro e; injection e with e _; subst e; exact absurd hw.2 (by decide)
  unfold typeName
  rw [typeNamePrefix_cases _ (by simp) h2, prefixGo, hw.2, hw.1, camel_eq L, camelGo_kept L hk,
    camelGo_all_kept L s hs]
  simp only [hd, Bool.and_false, Bool.false_eq_true, if_false, List.nil_append, img, Bool.and_true]
  rcases hc with h | h
  · simp [L.upper_not_lower c h, L.toUpper_upper c h]
  · simp [h]

theorem typeName_plain (L : UniLaws U) {s : Str} (h : PlainName U s) : typeName U s = s := by
  rcases h with ⟨⟨c, r, rfl, hc⟩, hk⟩
  rw [typeName_letters L (.inl hc) (fun x hx => hk x (List.mem_cons_of_mem _ hx)),
    L.toUpper_upper c hc]

theorem sanRunes_plain (L : UniLaws U) : ∀ (s : Str) (b : Bool), (∀ x ∈ s, kept U x = true) →
    (b = true → ∃ c r, s = c :: r ∧ U.isUpper c = true) → sanRunes U b s = s
  | [], _, _, _ => rfl
  | c :: s, b, h, hb => by
    rw [sanRunes, sanRunes_plain L s false (fun x hx => h x (List.mem_cons_of_mem _ hx)) (by simp)]
    have hk := h c (List.mem_cons_self ..)
    have : validRune U b c = true := by
      unfold validRune
      simp only [kept, Bool.or_eq_true] at hk
      have hv : (U.isLetter c || c == '_' || U.isNumber c) = true := by
        rcases hk with (h | h) | h
        · simp [L.upper_letter c h]
        · simp [L.lower_letter c h]
        · simp [L.digit_number c h]
      cases b with
      | false => simpa using hv
      | true =>
        rcases hb rfl with ⟨c', r, e, hu⟩
        injection e with e _
        subst e
        simp [L.letter_not_number _ (L.upper_letter _ hu), L.upper_letter _ hu]
    rw [if_pos this]

theorem lower_keyword {s : Str} (h : keywords.contains s = true ∨ predeclared.contains s = true) :
    ∃ c r, s = c :: r ∧ c.isLower = true := by
  have k : ∀ s ∈ keywords ++ predeclared, (match s with | [] => false | c :: _ => c.isLower) = true := by
    decide
  have hm : s ∈ keywords ++ predeclared := by simpa using h
  have := k s hm
  cases s with
  | nil => cases this
  | cons c r => exact ⟨c, r, rfl, this⟩

theorem sanitize_plain (L : UniLaws U) {s : Str} (h : PlainName U s) : sanitize U s = s := by
  unfold sanitize
  have e : sanRunes U true s = s := sanRunes_plain L s true h.2 (fun _ => h.1)
  dsimp only
  rw [e, if_neg]
  intro hk
  rw [Bool.or_eq_true] at hk
  rcases lower_keyword hk with ⟨c, r, rfl, hl⟩
  rcases h.1 with ⟨c', r', e, hu⟩
  injection e with e _
  subst e
  exact absurd (L.ascii_lower _ hl) (by rw [L.upper_not_lower _ hu]; decide)

theorem upperFirst_plain (L : UniLaws U) {s : Str} (h : PlainName U s) : upperFirst U s = s := by
  rcases h with ⟨⟨c, r, rfl, hc⟩, _⟩
  rw [upperFirst, L.toUpper_upper c hc]

/-- Good names whose lower case letters have upper case forms give plain names. -/
theorem typeName_isPlain (L : UniLaws U) {v : Str} (h : GoodName U v)
    (hu : ∀ c ∈ v, U.isLower c = true → U.isUpper (U.toUpper c) = true) :
    PlainName U (typeName U v) := by
  refine ⟨(exported_iff L v).2 h, fun x hx => ?_⟩
  unfold typeName at hx
  rcases List.mem_append.1 hx with hx | hx
  · rcases prefix_word_or_nil (U := U) v with hw | hw
    · exact hw.kept L x hx
    · rw [hw] at hx; cases hx
  · rw [camel_eq L] at hx
    have go : ∀ (s : Str) (b : Bool), (∀ c ∈ s, U.isLower c = true → U.isUpper (U.toUpper c) = true) →
        ∀ x ∈ camelGo U b s, kept U x = true := by
      intro s
      induction s with
      | nil => intro b _ x hx; simp [camelGo] at hx
      | cons c s ih =>
        intro b hs x hx
        have ih' := fun b => ih b (fun c hc => hs c (List.mem_cons_of_mem _ hc))
        cases h : kept U c with
        | false => rw [camelGo_not_kept h] at hx; exact ih' _ x hx
        | true =>
          rw [camelGo_kept L h] at hx
          rcases List.mem_cons.1 hx with rfl | hx
          · unfold img
            split
            · rename_i hl
              simp only [Bool.and_eq_true] at hl
              simp [kept, hs c (List.mem_cons_self ..) hl.1]
            · exact h
          · exact ih' _ x hx
    exact go v true hu x hx

/-! ### ASCII -/

theorem small (p : Char → Prop) (h : ∀ n < 128, p (Char.ofNat n)) (c : Char) (hc : c.toNat < 128) : p c := by
  have := h c.toNat hc
  rwa [Char.ofNat_toNat] at this

theorem alpha_small {c : Char} (h : c.isAlphanum = true) : c.toNat < 128 := by
  simp only [Char.isAlphanum, Char.isAlpha, Char.isUpper, Char.isLower, Char.isDigit, Bool.or_eq_true,
    Bool.and_eq_true, decide_eq_true_eq, ge_iff_le, UInt32.le_iff_toNat_le] at h
  simp only [Char.toNat_val] at h
  simp at h
  omega

theorem ascii_toUpper (c : Char) (h : c.isLower = true) : c.toUpper.isUpper = true :=
  small (fun c => c.isLower = true → c.toUpper.isUpper = true) (by decide) c
    (alpha_small (by simp [Char.isAlphanum, Char.isAlpha, h])) h

theorem ascii_laws : UniLaws ascii where
  ascii_letter c h := h
  ascii_upper c h := h
  ascii_lower c h := h
  other c h1 h2 := by
    simp [kept, ascii]
    simp [Char.isAlphanum, Char.isAlpha] at h2
    exact h2
  letter_alpha c _ h := h
  upper_letter c h := by simp [ascii] at *; simp [Char.isAlpha, h]
  lower_letter c h := by simp [ascii] at *; simp [Char.isAlpha, h]
  toUpper_letter c h := by simp [ascii] at *; simp [Char.isAlpha, ascii_toUpper c h]
  toUpper_upper c h := small (fun c => ascii.isUpper c = true → ascii.toUpper c = c) (by decide) c
    (alpha_small (by simp [ascii] at h; simp [Char.isAlphanum, Char.isAlpha, h])) h
  letter_not_digit c h := small (fun c => ascii.isLetter c = true → ascii.isDigit c = false) (by decide) c
    (alpha_small (by simp [ascii] at h; simp [Char.isAlphanum, h])) h
  letter_not_number c h := small (fun c => ascii.isLetter c = true → ascii.isNumber c = false) (by decide) c
    (alpha_small (by simp [ascii] at h; simp [Char.isAlphanum, h])) h
  digit_number c h := h
  upper_not_lower c h := small (fun c => ascii.isUpper c = true → ascii.isLower c = false) (by decide) c
    (alpha_small (by simp [ascii] at h; simp [Char.isAlphanum, Char.isAlpha, h])) h

end Thema.OGen

import Verif.Spec.Path

/-!
# Path helpers and label sanitising (C50, C51, C58)
-/

namespace Thema.Props

open Thema.Path Thema.Spec

theorem selEq_iff (a b : Sel) : selEq a b = true ↔ SelSame a b := by
  obtain ⟨ta, oa⟩ := a
  obtain ⟨tb, ob⟩ := b
  simp [selEq, Sel.optional, SelSame]
  exact fun h _ => h

theorem pathsEqLoop_iff : ∀ (a b : P), a.length = b.length →
    (pathsEqLoop a b = true ↔ PathSame a b) := by
  intro a
  induction a with
  | nil => intro b h; cases b <;> simp_all [pathsEqLoop, PathSame]
  | cons x a ih =>
    intro b h
    cases b with
    | nil => simp at h
    | cons y b =>
      have ih' := ih b (by simpa using h)
      have hs := selEq_iff y x
      unfold pathsEqLoop
      unfold PathSame at *
      cases hc : selEq y x with
      | false =>
        have : ¬ SelSame y x := fun h => by simp [hs.2 h] at hc
        simp only [SelSame] at this
        simp [Ne.symm this]
      | true =>
        have : SelSame y x := hs.1 hc
        simp only [SelSame] at this
        simp [this, ih']

theorem pathsAreEq_iff (a b : P) : pathsAreEq a b = true ↔ PathSame a b := by
  unfold pathsAreEq
  by_cases h : a.length = b.length
  · rw [if_neg (by simpa using h)]; exact pathsEqLoop_iff a b h
  · rw [if_pos (by simpa using h)]
    constructor
    · simp
    · intro hs
      exact absurd (by simpa using congrArg List.length hs) h

theorem pathSame_length {a b : P} (h : PathSame a b) : a.length = b.length := by
  simpa using congrArg List.length h

/-- **C50**.  `PathsAreEq` holds exactly of paths that differ at most in
optionality. -/
theorem C50_paths_equal (a b : P) : pathsAreEq a b = true ↔ PathSame a b := pathsAreEq_iff a b

/-- **C50**.  `PathHasPrefix(p, q)` holds exactly if `q` is a prefix of `p` up to
optionality. -/
theorem C50_has_prefix (p q : P) : pathHasPrefix p q = true ↔ PathPrefix q p := by
  unfold pathHasPrefix PathPrefix
  by_cases h : q.length > p.length
  · rw [if_pos h]
    constructor
    · simp
    · rintro ⟨x, rest, rfl, hs⟩
      have := pathSame_length hs
      simp at h; omega
  · rw [if_neg h, pathsAreEq_iff]
    constructor
    · intro hs
      exact ⟨_, _, (List.take_append_drop q.length p).symm, hs⟩
    · rintro ⟨x, rest, rfl, hs⟩
      rw [← pathSame_length hs]
      simpa using hs

/-- **C50**.  `ReplacePathPrefix` replaces a prefix (up to optionality) that is
followed by at least one more selector, and otherwise returns the path. -/
theorem C50_replace_prefix (p old new : P) :
    (∀ q rest, p = q ++ rest → PathSame q old → rest ≠ [] →
      replacePathPrefix p old new = new ++ rest) ∧
    ((¬ ∃ q rest, p = q ++ rest ∧ PathSame q old ∧ rest ≠ []) →
      replacePathPrefix p old new = p) := by
  constructor
  · rintro q rest rfl hs hr
    have hl := pathSame_length hs
    have : 0 < rest.length := List.length_pos_iff.2 hr
    unfold replacePathPrefix
    rw [if_neg (by simp; omega), ← hl]
    have : pathsAreEq q old = true := (pathsAreEq_iff _ _).2 hs
    simp [this]
  · intro h
    unfold replacePathPrefix
    by_cases h1 : old.length ≥ p.length
    · rw [if_pos h1]
    · rw [if_neg h1]
      cases hc : pathsAreEq (p.take old.length) old with
      | false => simp
      | true =>
        exfalso
        apply h
        refine ⟨_, _, (List.take_append_drop old.length p).symm, (pathsAreEq_iff _ _).1 hc, ?_⟩
        intro hd
        have := List.drop_eq_nil_iff.1 hd
        omega

/-- The loop of `TrimPathPrefix` stops at the end of the longest common prefix. -/
theorem trimLoop_spec (pre : P) : ∀ (path : P),
    trimLoop pre path ≤ pre.length ∧ trimLoop pre path ≤ path.length ∧
    PathSame (path.take (trimLoop pre path)) (pre.take (trimLoop pre path)) ∧
    (∀ a b, pre[trimLoop pre path]? = some a → path[trimLoop pre path]? = some b →
      ¬ SelSame a b) := by
  induction pre with
  | nil => intro path; simp [trimLoop, PathSame]
  | cons x pre ih =>
    intro path
    cases path with
    | nil => simp [trimLoop, PathSame]
    | cons y path =>
      unfold trimLoop
      cases hc : selEq x y with
      | false =>
        simp only [Bool.not_false, if_true]
        refine ⟨by omega, by omega, by simp [PathSame], ?_⟩
        intro a b ha hb hs
        simp only [List.getElem?_cons_zero, Option.some.injEq] at ha hb
        subst ha hb
        simp [(selEq_iff _ _).2 hs] at hc
      | true =>
        simp only [Bool.not_true, Bool.false_eq_true, if_false]
        obtain ⟨h1, h2, h3, h4⟩ := ih path
        refine ⟨by simp; omega, by simp; omega, ?_, ?_⟩
        · have hxy : SelSame x y := (selEq_iff _ _).1 hc
          unfold PathSame at *
          simp only [List.take_succ_cons, List.map_cons, h3]
          rw [show y.text = x.text from hxy.symm]
        · intro a b ha hb
          exact h4 a b (by simpa using ha) (by simpa using hb)

/-- **C50** (partial).  `TrimPathPrefix` removes a prefix (up to optionality) from
a path that does not consist of exactly one selector, and returns a path of one
selector unchanged.  Missing from the full claim: that the path is returned
unchanged when the prefix does not match (`C50_trim_overtrims`), and that a
one-selector path equal to the prefix is trimmed. -/
theorem C50_trim_prefix_partial (path pre : P) :
    (∀ q rest, path = q ++ rest → PathSame q pre → path.length ≠ 1 →
      trimPathPrefix path pre = rest) ∧
    (path.length = 1 → trimPathPrefix path pre = path) := by
  constructor
  · rintro q rest rfl hs hl
    have hlen := pathSame_length hs
    unfold trimPathPrefix
    rw [if_neg hl]
    obtain ⟨h1, h2, h3, h4⟩ := trimLoop_spec pre (q ++ rest)
    have : trimLoop pre (q ++ rest) = q.length := by
      rcases Nat.lt_or_ge (trimLoop pre (q ++ rest)) q.length with hlt | hge
      · exfalso
        generalize trimLoop pre (q ++ rest) = k at *
        have hk : k < pre.length := by omega
        refine h4 pre[k] q[k] (List.getElem?_eq_getElem hk)
          (by rw [List.getElem?_append_left hlt]; exact List.getElem?_eq_getElem hlt) ?_
        have := congrArg (fun l => l[k]?) hs
        simp only [List.getElem?_map, List.getElem?_eq_getElem hk, List.getElem?_eq_getElem hlt,
          Option.map_some, Option.some.injEq] at this
        exact this.symm
      · omega
    rw [this]
    simp
  · intro h
    unfold trimPathPrefix
    rw [if_pos h]

/-- **C50** (refutation).  On every path that shares its first selector with the
prefix, `TrimPathPrefix` removes something even though the prefix does not match:
the result is never the path itself. -/
theorem C50_trim_overtrims {path pre : P} {a b : Sel} (ha : path[0]? = some a)
    (hb : pre[0]? = some b) (hab : SelSame a b) (hl : path.length ≠ 1)
    (hn : ¬ PathPrefix pre path) :
    trimPathPrefix path pre ≠ path ∧
    ∃ k, 0 < k ∧ k < pre.length ∧ trimPathPrefix path pre = path.drop k := by
  obtain ⟨h1, h2, h3, h4⟩ := trimLoop_spec pre path
  have hpos : 0 < trimLoop pre path := by
    rcases Nat.eq_zero_or_pos (trimLoop pre path) with h0 | h0
    · rw [h0] at h4
      exact absurd hab.symm (h4 b a hb ha)
    · exact h0
  have hlt : trimLoop pre path < pre.length := by
    rcases Nat.lt_or_ge (trimLoop pre path) pre.length with h | h
    · exact h
    · exfalso
      apply hn
      refine ⟨_, _, (List.take_append_drop (trimLoop pre path) path).symm, ?_⟩
      rwa [List.take_of_length_le (l := pre) h] at h3
  have he : trimPathPrefix path pre = path.drop (trimLoop pre path) := by
    unfold trimPathPrefix; rw [if_neg hl]
  refine ⟨?_, _, hpos, hlt, he⟩
  rw [he]
  intro hd
  have := congrArg List.length hd
  rw [List.length_drop] at this
  omega

/-- A selector by its text. -/
def sel (s : String) (opt : Bool := false) : Sel := ⟨s.toList, opt⟩

/-- `a.b.c` trimmed by `a.x` gives `b.c`; `a?.b.c` by `a.b` gives `c`. -/
example : trimPathPrefix [sel "a", sel "b", sel "c"] [sel "a", sel "x"] = [sel "b", sel "c"] ∧
    trimPathPrefix [sel "a" true, sel "b", sel "c"] [sel "a", sel "b"] = [sel "c"] ∧
    replacePathPrefix [sel "a" true, sel "b"] [sel "a"] [sel "x", sel "y"]
      = [sel "x", sel "y", sel "b"] ∧
    pathHasPrefix [sel "a" true, sel "b"] [sel "a"] = true := by decide

/-- **C50**.  `LastSelectorEq` panics on the empty path and otherwise compares the
last selector up to optionality. -/
theorem C50_last_selector (p : P) (s : Sel) :
    lastSelectorEq [] s = .panic .indexOutOfRange ∧
    ∀ l, ∃ b, lastSelectorEq (p ++ [l]) s = .ok b ∧ (b = true ↔ SelSame l s) := by
  refine ⟨rfl, fun l => ⟨selEq l s, ?_, selEq_iff l s⟩⟩
  simp [lastSelectorEq]

/-! ### C51 -/

theorem keepRune_iff (c : Char) : keepRune c = true ↔ LabelChar c := by
  have e : ∀ a b : Char, a ≤ b ↔ a.toNat ≤ b.toNat := by
    intro a b
    rw [Char.le_def, UInt32.le_iff_toNat_le]; rfl
  have hu : c = '_' ↔ c.toNat = 95 := by
    constructor
    · rintro rfl; rfl
    · intro h
      apply Char.ext
      apply UInt32.toNat_inj.1
      exact h
  simp only [keepRune, LabelChar, Bool.or_eq_true, Bool.and_eq_true, decide_eq_true_eq, beq_iff_eq,
    e, hu]
  simp only [show 'a'.toNat = 97 from rfl, show 'z'.toNat = 122 from rfl,
    show 'A'.toNat = 65 from rfl, show 'Z'.toNat = 90 from rfl, show '0'.toNat = 48 from rfl,
    show '9'.toNat = 57 from rfl]
  simp only [or_assoc]

theorem struck_of (s : Str) : Struck s (sanitizeLabelString s) := by
  induction s with
  | nil => exact .nil
  | cons c s ih =>
    unfold sanitizeLabelString at *
    by_cases h : keepRune c = true
    · rw [List.filterMap_cons_some (by rw [if_pos h])]
      exact .keep ((keepRune_iff c).1 h) ih
    · rw [List.filterMap_cons_none (by rw [if_neg h])]
      exact .drop (fun hl => h ((keepRune_iff c).2 hl)) ih

theorem struck_unique {s t u : Str} (h1 : Struck s t) (h2 : Struck s u) : t = u := by
  induction h1 generalizing u with
  | nil => cases h2; rfl
  | keep hc _ ih =>
    cases h2 with
    | keep _ h => rw [ih h]
    | drop hn _ => exact absurd hc hn
  | drop hn _ ih =>
    cases h2 with
    | keep hc _ => exact absurd hc hn
    | drop _ h => exact ih h

theorem struck_label {s t : Str} (h : Struck s t) : ∀ c ∈ t, LabelChar c := by
  induction h with
  | nil => simp
  | keep hc _ ih => simp only [List.mem_cons, forall_eq_or_imp]; exact ⟨hc, ih⟩
  | drop _ _ ih => exact ih

theorem struck_self {s : Str} (h : ∀ c ∈ s, LabelChar c) : Struck s s := by
  induction s with
  | nil => exact .nil
  | cons c s ih =>
    simp only [List.mem_cons, forall_eq_or_imp] at h
    exact .keep h.1 (ih h.2)

/-- **C51**.  `SanitizeLabelString` returns exactly the ASCII letters, digits and
underscores of its input, in order. -/
theorem C51_exact (s t : Str) : sanitizeLabelString s = t ↔ Struck s t :=
  ⟨fun h => h ▸ struck_of s, fun h => struck_unique (struck_of s) h⟩

/-- **C51**.  It changes a string exactly if the string contains another
character, and doing it twice is the same as doing it once. -/
theorem C51_noop (s : Str) :
    (sanitizeLabelString s = s ↔ ∀ c ∈ s, LabelChar c) ∧
    sanitizeLabelString (sanitizeLabelString s) = sanitizeLabelString s :=
  ⟨⟨fun h => struck_label ((C51_exact s s).1 h), fun h => (C51_exact s s).2 (struck_self h)⟩,
   (C51_exact _ _).2 (struck_self (struck_label (struck_of s)))⟩

example : sanitizeLabelString "my-lin.v1_é".toList = "mylinv1_".toList := by decide

/-! ### C58 -/

/-- **C58**.  What the OpenAPI encoder does with the path of a schema element:
a path outside the schema is kept; the schema itself becomes the empty path; below
it, the path relative to the schema is returned, without the field that holds the
body. -/
theorem C58_schema_relative (p base : P) :
    (¬ PathPrefix base p → trimThemaPathPrefix p base = p) ∧
    (PathSame p base → trimThemaPathPrefix p base = []) ∧
    (∀ q s rest, PathSame q base → p = q ++ s :: rest →
      trimThemaPathPrefix p base =
        if s ∈ [sel "schema", sel "_#schema", sel "_join", sel "joinSchema"] then rest
        else s :: rest) := by
  refine ⟨?_, ?_, ?_⟩
  · intro h
    unfold trimThemaPathPrefix
    rw [if_pos]
    cases hc : pathHasPrefix p base with
    | false => rfl
    | true => exact absurd ((C50_has_prefix _ _).1 hc) h
  · intro h
    unfold trimThemaPathPrefix
    have hp : pathHasPrefix p base = true := (C50_has_prefix _ _).2 ⟨p, [], by simp, h⟩
    have : p.drop base.length = [] := by simp [pathSame_length h]
    simp [hp, this]
  · rintro q s rest h rfl
    unfold trimThemaPathPrefix
    have hp : pathHasPrefix (q ++ s :: rest) base = true :=
      (C50_has_prefix _ _).2 ⟨q, _, rfl, h⟩
    have hd : (q ++ s :: rest).drop base.length = s :: rest := by simp [← pathSame_length h]
    have hf : isSchemaField s = true ↔
        s ∈ [sel "schema", sel "_#schema", sel "_join", sel "joinSchema"] := by
      obtain ⟨t, o⟩ := s
      simp only [isSchemaField, sel, List.mem_cons, List.not_mem_nil, or_false, Sel.mk.injEq,
        Bool.and_eq_true, Bool.or_eq_true, beq_iff_eq, Bool.not_eq_true']
      constructor
      · rintro ⟨ho, ((h | h) | h) | h⟩ <;> simp [h, ho]
      · rintro (h | h | h | h) <;> simp [h.1, h.2]
    simp only [hp, hd, Bool.not_true, Bool.false_eq_true, if_false]
    by_cases hs : isSchemaField s = true
    · rw [if_pos hs, if_pos (hf.1 hs)]
    · rw [if_neg hs, if_neg (fun h => hs (hf.2 h))]

/-- The element `#Foo` of the schema at `lin.schemas[0]`. -/
example : trimThemaPathPrefix
    [sel "lin", sel "schemas", sel "0", sel "_#schema", sel "#Foo"]
    [sel "lin", sel "schemas", sel "0"] = [sel "#Foo"] := by decide

end Thema.Props

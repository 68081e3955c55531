import Verif.Model.ErrText
import Verif.Spec.ErrText
import Verif.Props.Validate

/-!
# C133: the message of a validation failure
-/

namespace Thema.Props

open Thema.ErrText

theorem plainMeaning_means : Means plainMeaning := by
  have names : ∀ p ∈ cueTypes, ErrText.conj p.1 = none := by
    intro p hp
    simp only [cueTypes, List.mem_cons, List.not_mem_nil, or_false] at hp
    rcases hp with rfl | rfl | rfl | rfl | rfl | rfl | rfl | rfl | rfl | rfl <;> decide
  refine ⟨?_, ?_⟩
  · intro s l h x
    unfold plainMeaning
    have : cueTypes.find? (fun p => p.1 = s) = none := by
      rw [List.find?_eq_none]
      intro p hp he
      have he : p.1 = s := by simpa using he
      rw [← he, names p hp] at h
      cases h
    simp only [this, h]
  · intro n P h x
    unfold plainMeaning
    simp only [cueTypes, List.mem_cons, List.not_mem_nil, or_false] at h
    rcases h with h | h | h | h | h | h | h | h | h | h <;> cases h <;> rfl

/-- **C133** (types).  Every constraint that is replaced by the name of a type has the meaning of
this type. -/
theorem C133_types {M : Str → CVal → Prop} (hM : Means M) {text name : Str}
    (h : (text, name) ∈ schErrMsgFormatMap) (x : CVal) : M text x ↔ M name x := by
  have i1 : ∀ {t n : Str} {lo hi : Int}, conj t = some [.int, .ge lo, .le hi] →
      (n, ints lo hi) ∈ cueTypes → (M t x ↔ M n x) := by
    intro t n lo hi hc hn
    rw [hM.conj t _ hc x, hM.types n _ hn x]
    simp [ints, Tok.holds]
  have i2 : ∀ {t n : Str} {lo hi : Int}, conj t = some [.ge lo, .le hi, .int] →
      (n, ints lo hi) ∈ cueTypes → (M t x ↔ M n x) := by
    intro t n lo hi hc hn
    rw [hM.conj t _ hc x, hM.types n _ hn x]
    simp only [ints, Tok.holds, List.mem_cons, List.not_mem_nil, or_false, forall_eq_or_imp,
      forall_eq]
    constructor
    · rintro ⟨a, b, c⟩; exact ⟨c, a, b⟩
    · rintro ⟨a, b, c⟩; exact ⟨b, c, a⟩
  have i3 : ∀ {t n : Str} {lo hi : Int}, conj t = some [.ge lo, .le hi] →
      (n, nums lo hi) ∈ cueTypes → (M t x ↔ M n x) := by
    intro t n lo hi hc hn
    rw [hM.conj t _ hc x, hM.types n _ hn x]
    simp [nums, Tok.holds]
  simp only [schErrMsgFormatMap, List.map, List.mem_cons, List.not_mem_nil, or_false,
    Prod.mk.injEq] at h
  rcases h with ⟨rfl, rfl⟩ | ⟨rfl, rfl⟩ | ⟨rfl, rfl⟩ | ⟨rfl, rfl⟩ | ⟨rfl, rfl⟩ | ⟨rfl, rfl⟩ |
    ⟨rfl, rfl⟩ | ⟨rfl, rfl⟩ | ⟨rfl, rfl⟩ | ⟨rfl, rfl⟩ | ⟨rfl, rfl⟩ | ⟨rfl, rfl⟩ | ⟨rfl, rfl⟩ |
    ⟨rfl, rfl⟩ | ⟨rfl, rfl⟩ | ⟨rfl, rfl⟩ | ⟨rfl, rfl⟩ | ⟨rfl, rfl⟩
  · exact i1 (lo := 0) (hi := 2 ^ 8 - 1) (by decide) (by simp [cueTypes])
  · exact i1 (lo := 0) (hi := 2 ^ 16 - 1) (by decide) (by simp [cueTypes])
  · exact i1 (lo := 0) (hi := 2 ^ 32 - 1) (by decide) (by simp [cueTypes])
  · exact i1 (lo := 0) (hi := 2 ^ 64 - 1) (by decide) (by simp [cueTypes])
  · exact i2 (lo := 0) (hi := 2 ^ 8 - 1) (by decide) (by simp [cueTypes])
  · exact i2 (lo := 0) (hi := 2 ^ 16 - 1) (by decide) (by simp [cueTypes])
  · exact i2 (lo := 0) (hi := 2 ^ 32 - 1) (by decide) (by simp [cueTypes])
  · exact i2 (lo := 0) (hi := 2 ^ 64 - 1) (by decide) (by simp [cueTypes])
  · exact i1 (lo := -2 ^ 7) (hi := 2 ^ 7 - 1) (by decide) (by simp [cueTypes])
  · exact i2 (lo := -2 ^ 7) (hi := 2 ^ 7 - 1) (by decide) (by simp [cueTypes])
  · exact i1 (lo := -2 ^ 15) (hi := 2 ^ 15 - 1) (by decide) (by simp [cueTypes])
  · exact i2 (lo := -2 ^ 15) (hi := 2 ^ 15 - 1) (by decide) (by simp [cueTypes])
  · exact i1 (lo := -2 ^ 31) (hi := 2 ^ 31 - 1) (by decide) (by simp [cueTypes])
  · exact i2 (lo := -2 ^ 31) (hi := 2 ^ 31 - 1) (by decide) (by simp [cueTypes])
  · exact i1 (lo := -2 ^ 63) (hi := 2 ^ 63 - 1) (by decide) (by simp [cueTypes])
  · exact i2 (lo := -2 ^ 63) (hi := 2 ^ 63 - 1) (by decide) (by simp [cueTypes])
  · exact i3 (lo := -((2 ^ 24 - 1) * 2 ^ 104)) (hi := (2 ^ 24 - 1) * 2 ^ 104) (by decide +kernel)
      (by simp [cueTypes])
  · exact i3 (lo := -(1797693134862315708145274237317043567981 * 10 ^ 269))
      (hi := 1797693134862315708145274237317043567981 * 10 ^ 269) (by decide +kernel)
      (by simp [cueTypes])

/-! ## What the message shows -/

theorem inOrder_skip {ps : List Str} {s : Str} (a : Str) (h : InOrder ps s) :
    InOrder ps (a ++ s) := by
  cases ps with
  | nil => trivial
  | cons p ps =>
    obtain ⟨pre, rest, hs, hr⟩ := h
    exact ⟨a ++ pre, rest, by simp [hs], hr⟩

theorem inOrder_here {ps : List Str} {s : Str} (p : Str) (h : InOrder ps s) :
    InOrder (p :: ps) (p ++ s) := ⟨[], s, by simp, h⟩

theorem inOrder_positions (pos : Str → Str) (l : List Str) {ps : List Str} {s : Str}
    (h : InOrder ps s) : InOrder (l.map pos ++ ps) (positions pos l ++ s) := by
  induction l with
  | nil => exact h
  | cons a l ih =>
    have : positions pos (a :: l) ++ s = ['\n', '\t', '\t'] ++ (pos a ++ (positions pos l ++ s)) := by
      simp [positions]
    rw [this]
    exact inOrder_skip _ (inOrder_here _ ih)

theorem fieldText_shows (pos : Str → Str) (name : Str) (v : SV) (e : FieldErr) :
    InOrder (facts pos (coordsText name v) e) (fieldText pos name v e) := by
  have last : ∀ l, InOrder (l.map pos) (positions pos l) := by
    intro l
    have := inOrder_positions pos l (ps := []) (s := []) trivial
    simpa using this
  cases e with
  | twoSided sp dp code path sv dv =>
    have e1 : fieldText pos name v (.twoSided sp dp code path sv dv) =
        coordsText name v path ++ ((": validation failed, data is not an instance:".toList ++
          '\n' :: '\t' :: "schema expected ".toList) ++ (quoted sv ++ (positions pos sp ++
            (('\n' :: '\t' :: "but data contained ".toList) ++
              (quoted dv ++ positions pos dp))))) := by
      simp only [fieldText, List.append_assoc, List.cons_append]
    rw [e1]
    exact inOrder_here _ (inOrder_skip _ (inOrder_here _ (inOrder_positions pos sp
      (inOrder_skip _ (inOrder_here _ (last dp))))))
  | oneSided sp dp code path val =>
    have other : ∀ t : Str, InOrder [coordsText name v path] (coordsText name v path ++
        ": validation failed, data is not an instance:".toList ++ t) := by
      intro t
      rw [List.append_assoc]
      exact inOrder_here _ trivial
    cases code
    case missingField =>
      have e1 : fieldText pos name v (.oneSided sp dp .missingField path val) =
          coordsText name v path ++ ((": validation failed, data is not an instance:".toList ++
            '\n' :: '\t' :: "schema specifies that field exists with type ".toList) ++
            (quoted val ++ (positions pos sp ++ (('\n' :: '\t' :: "but field was ".toList) ++
              ("absent".toList ++ (" from data".toList ++ positions pos dp)))))) := by
        simp only [fieldText, List.append_assoc, List.cons_append]
        rfl
      rw [e1]
      exact inOrder_here _ (inOrder_skip _ (inOrder_here _ (inOrder_positions pos sp
        (inOrder_skip _ (inOrder_here _ (inOrder_skip _ (last dp)))))))
    case excessField =>
      have e1 : fieldText pos name v (.oneSided sp dp .excessField path val) =
          coordsText name v path ++ ((": validation failed, data is not an instance:".toList ++
            '\n' :: '\t' :: "schema is ".toList) ++ ("closed".toList ++
            (" and does not specify field".toList ++ (positions pos sp ++
            (('\n' :: '\t' :: "but field exists in data with value ".toList) ++
              (quoted val ++ positions pos dp)))))) := by
        simp only [fieldText, List.append_assoc, List.cons_append]
        rfl
      rw [e1]
      exact inOrder_here _ (inOrder_skip _ (inOrder_here _ (inOrder_skip _
        (inOrder_positions pos sp (inOrder_skip _ (inOrder_here _ (last dp)))))))
    all_goals exact other _

/-- **C133** (shows).  The message of a failure has a part for every reported problem, and no
other: where it is, what the schema expects and where, and what the data contain and where. -/
theorem C133_shows (pos : Str → Str) (name : Str) (v : SV) (es : List FieldErr) :
    ∃ parts : List Str, failureText pos name v es = (parts.map (· ++ ['\n'])).flatten ∧
      List.Forall₂ (fun e t => InOrder (facts pos (coordsText name v) e) t) es parts := by
  induction es with
  | nil => exact ⟨[], rfl, .nil⟩
  | cons e es ih =>
    obtain ⟨parts, h1, h2⟩ := ih
    refine ⟨fieldText pos name v e :: parts, ?_, .cons (fieldText_shows pos name v e) h2⟩
    simp [failureText, h1]

/-! ## Readable types -/

theorem mem_of_lookup {l : List (Str × Str)} {a b : Str} (h : l.lookup a = some b) :
    (a, b) ∈ l := by
  induction l with
  | nil => cases h
  | cons p l ih =>
    obtain ⟨c, d⟩ := p
    rw [List.lookup_cons] at h
    split at h
    · rename_i he
      cases h
      rw [beq_iff_eq.1 he]
      exact List.mem_cons_self
    · exact List.mem_cons_of_mem _ (ih h)

theorem splitStr_skip (k : Nat) (cur cs : Str) (hk : k ≤ cs.length) (sep : Str) :
    splitStrAux sep k cur cs = splitStrAux sep 0 cur (cs.drop k) := by
  induction cs generalizing k with
  | nil => cases k with
    | zero => rfl
    | succ k => simp at hk
  | cons c cs ih =>
    cases k with
    | zero => rfl
    | succ k =>
      simp only [splitStrAux, List.drop_succ_cons]
      exact ih k (by simpa using hk)

/-- No cut inside a text without a bar, when what follows does not begin with a bar either. -/
theorem splitStr_atom (a rest cur : Str) (ha : '|' ∉ a) (hr : ∀ c t, rest = c :: t → c = ' ' ∧
    ∃ t', t = '|' :: ' ' :: t') :
    splitStrAux " | ".toList 0 cur (a ++ rest) =
      splitStrAux " | ".toList 0 (a.reverse ++ cur) rest := by
  induction a generalizing cur with
  | nil => rfl
  | cons c a ih =>
    have hno : (" | ".toList).isPrefixOf (c :: (a ++ rest)) = false := by
      rw [Bool.eq_false_iff]
      intro h
      obtain ⟨t, ht⟩ := List.isPrefixOf_iff_prefix.1 h
      cases a with
      | nil =>
        have h1 : ' ' = c ∧ '|' :: ' ' :: t = rest := by simpa using ht
        obtain ⟨e, _⟩ := hr '|' (' ' :: t) h1.2.symm
        exact absurd e (by decide)
      | cons d a =>
        have h1 : ' ' = c ∧ '|' = d ∧ ' ' :: t = a ++ rest := by simpa using ht
        exact ha (h1.2.1 ▸ by simp)
    simp only [List.cons_append, splitStrAux, hno, Bool.false_eq_true, if_false]
    rw [ih _ (fun h => ha (List.mem_cons_of_mem _ h))]
    simp

theorem splitStr_join (atoms : List Str) (hne : atoms ≠ []) (ha : ∀ a ∈ atoms, '|' ∉ a) :
    splitStr " | ".toList (joinWith " | ".toList atoms) = atoms := by
  unfold splitStr
  induction atoms with
  | nil => exact absurd rfl hne
  | cons a rest ih =>
    cases rest with
    | nil =>
      have h := splitStr_atom a [] [] (ha a (by simp)) (by simp)
      simp only [List.append_nil] at h
      simp only [joinWith]
      rw [h]
      simp [splitStrAux]
    | cons b rest =>
      have e1 : joinWith " | ".toList (a :: b :: rest) =
          a ++ (' ' :: '|' :: ' ' :: joinWith " | ".toList (b :: rest)) := by
        simp [joinWith]
      rw [e1, splitStr_atom a _ [] (ha a (by simp)) (by
        intro c t h
        cases h
        exact ⟨rfl, _, rfl⟩)]
      have e2 : (" | ".toList).isPrefixOf
          (' ' :: '|' :: ' ' :: joinWith " | ".toList (b :: rest)) = true := by
        rw [List.isPrefixOf_iff_prefix]
        exact ⟨_, rfl⟩
      simp only [splitStrAux, e2, if_true]
      have e3 : (" | ".toList).length - 1 = 2 := rfl
      rw [e3]
      simp only [splitStrAux]
      rw [ih (by simp) (fun x hx => ha x (List.mem_cons_of_mem _ hx))]
      simp

/-- **C133** (readable).  Alternatives without a bar are shown one by one, in the order of the
schema, each with the meaning that it has in CUE. -/
theorem C133_readable {M : Str → CVal → Prop} (hM : Means M) (atoms : List Str)
    (hne : atoms ≠ []) (ha : ∀ a ∈ atoms, '|' ∉ a) :
    ∃ shown : List Str, humanReadableCUEType (joinWith " | ".toList atoms) =
      joinWith " | ".toList shown ∧ (∀ a ∈ shown, '|' ∉ a) ∧
      List.Forall₂ (fun a b => ∀ x, M a x ↔ M b x) atoms shown := by
  refine ⟨atoms.map readablePart, ?_, ?_, ?_⟩
  · unfold humanReadableCUEType
    rw [splitStr_join atoms hne ha]
  · intro b hb
    obtain ⟨a, hm, rfl⟩ := List.mem_map.1 hb
    unfold readablePart
    cases hl : schErrMsgFormatMap.lookup a with
    | none => exact ha a hm
    | some m =>
      have := mem_of_lookup hl
      have hall : ∀ p ∈ schErrMsgFormatMap, '|' ∉ p.2 := by decide
      exact hall _ this
  · clear hne ha
    induction atoms with
    | nil => exact .nil
    | cons a atoms ih =>
      refine .cons ?_ ih
      intro x
      unfold readablePart
      cases hl : schErrMsgFormatMap.lookup a with
      | none => exact Iff.rfl
      | some m => exact C133_types hM (mem_of_lookup hl) x

/-! ## Refutations -/

/-- **C133** (literal changed).  A text of the schema, such as a string literal, with a type
between bars in it is shown as another text: the reader is told that another string is expected. -/
theorem C133_literal_changed (a b text name : Str) (ha : '|' ∉ a) (hb : '|' ∉ b)
    (h : (text, name) ∈ schErrMsgFormatMap)
    (hna : schErrMsgFormatMap.lookup ('"' :: a) = none)
    (hnb : schErrMsgFormatMap.lookup (b ++ ['"']) = none) :
    humanReadableCUEType ('"' :: a ++ " | ".toList ++ text ++ " | ".toList ++ b ++ ['"']) =
      '"' :: a ++ " | ".toList ++ name ++ " | ".toList ++ b ++ ['"'] := by
  have hall : ∀ p ∈ schErrMsgFormatMap, '|' ∉ p.1 ∧ schErrMsgFormatMap.lookup p.1 = some p.2 := by
    decide +kernel
  obtain ⟨h1, h2⟩ := hall _ h
  have e : '"' :: a ++ " | ".toList ++ text ++ " | ".toList ++ b ++ ['"'] =
      joinWith " | ".toList ['"' :: a, text, b ++ ['"']] := by
    simp [joinWith]
  rw [e]
  unfold humanReadableCUEType
  rw [splitStr_join _ (by simp) (by
    intro x hx
    simp only [List.mem_cons, List.not_mem_nil, or_false] at hx
    rcases hx with rfl | rfl | rfl
    · simpa using ha
    · exact h1
    · simpa using hb)]
  simp only [List.map, readablePart, hna, hnb, h2]
  simp [joinWith]

/-- Dots in names make the location ambiguous. -/
theorem C133_path_ambiguous (name : Str) (v : SV) (pre post : List Str) (a b : Str) :
    coordsText name v (pre ++ [a ++ '.' :: b] ++ post) = coordsText name v (pre ++ [a, b] ++ post) := by
  have key : ∀ p : List Str, joinWith ['.'] (p ++ [a ++ '.' :: b] ++ post) =
      joinWith ['.'] (p ++ [a, b] ++ post) := by
    intro p
    induction p with
    | nil => cases post <;> simp [joinWith]
    | cons c p ih =>
      cases p with
      | nil => simpa [joinWith] using ih
      | cons d p => simpa [joinWith] using ih
  simp only [coordsText, key]

theorem splitOn_joinWith {path : List Str} (hne : path ≠ []) (h : ∀ l ∈ path, '.' ∉ l) :
    splitOn '.' (joinWith ['.'] path) = path := by
  induction path with
  | nil => exact absurd rfl hne
  | cons a path ih =>
    cases path with
    | nil => exact splitOn_no_sep (h a (by simp))
    | cons b path =>
      have e : joinWith ['.'] (a :: b :: path) = a ++ '.' :: joinWith ['.'] (b :: path) := by
        simp [joinWith]
      rw [e, splitOn_append (h a (by simp)),
        ih (by simp) (fun l hl => h l (List.mem_cons_of_mem _ hl))]

/-- **C133** (where).  Names without dots are found again in the location. -/
theorem C133_path (name : Str) (v : SV) {p q : List Str} (hp : p ≠ []) (hq : q ≠ [])
    (hdp : ∀ l ∈ p, '.' ∉ l) (hdq : ∀ l ∈ q, '.' ∉ l)
    (h : coordsText name v p = coordsText name v q) : p = q := by
  have h : joinWith ['.'] p = joinWith ['.'] q := by
    simpa [coordsText] using h
  rw [← splitOn_joinWith hp hdp, ← splitOn_joinWith hq hdq, h]

/-- **C133** (excess value).  For a field that the schema does not have, the message shows the name
of the field where it promises its value. -/
theorem C133_excess_value (pos : Str → Str) (name : Str) (v : SV) (path out : List Str)
    (label : Str) (ps : List Str) (hpath : trimThemaPath path = .ok out)
    (hl : humanReadableCUEType label = label) :
    ∃ e, mungeOne (excessErr path label ps) = .ok (some e) ∧
      ∃ pre post, fieldText pos name v e = pre ++ "but field exists in data with value `".toList ++
        label ++ '`' :: post := by
  have hm : mungeOne (excessErr path label ps) =
      .ok (some (.oneSided (splitTokens ps).1 (splitTokens ps).2 .excessField out label)) := by
    have h1 : containsStr "field not allowed: %s".toList "incomplete".toList = false := by decide
    have h2 : containsStr "field not allowed: %s".toList "not allowed".toList = true := by decide
    simp only [mungeOne, excessErr, hpath, Res.map, mungeSwitch, h1, h2, hl]
    rfl
  refine ⟨_, hm, coordsText name v out ++ ": validation failed, data is not an instance:".toList ++
    '\n' :: '\t' :: "schema is closed and does not specify field".toList ++
    positions pos (splitTokens ps).1 ++ ['\n', '\t'], positions pos (splitTokens ps).2, ?_⟩
  have e : "but field exists in data with value `".toList =
      "but field exists in data with value ".toList ++ ['`'] := by decide
  rw [e]
  simp only [fieldText, quoted, List.append_assoc, List.cons_append, List.nil_append]

/-! ## Examples -/

example : Means plainMeaning := plainMeaning_means

example : plainMeaning "uint8".toList (.int 255) ∧ ¬ plainMeaning "uint8".toList (.int 256) ∧
    ¬ plainMeaning "int & >=0 & <=255".toList (.float 15 1) := by
  have h := (C133_types plainMeaning_means (text := "int & >=0 & <=255".toList)
    (name := "uint8".toList) (by decide))
  have t := plainMeaning_means.types "uint8".toList _ (by simp [cueTypes]; rfl)
  rw [h, t, t, t]
  simp [ints, CVal.isInt, CVal.atLeast, CVal.atMost]

example : humanReadableCUEType "string | int & >=0 & <=255".toList = "string | uint8".toList := by
  decide

example : ∃ shown : List Str, humanReadableCUEType
    (joinWith " | ".toList ["string".toList, ">=0 & <=255 & int".toList]) =
      joinWith " | ".toList shown ∧ (∀ a ∈ shown, '|' ∉ a) ∧
      List.Forall₂ (fun a b => ∀ x, plainMeaning a x ↔ plainMeaning b x)
        ["string".toList, ">=0 & <=255 & int".toList] shown :=
  C133_readable plainMeaning_means _ (by simp) (by decide)

example : humanReadableCUEType "\"x | int & >=0 & <=255 | y\"".toList =
    "\"x | uint8 | y\"".toList :=
  C133_literal_changed ['x'] ['y'] "int & >=0 & <=255".toList "uint8".toList (by decide)
    (by decide) (by decide) (by decide) (by decide)

example : coordsText "dashboard".toList ⟨0, 1⟩ ["a.b".toList] =
    coordsText "dashboard".toList ⟨0, 1⟩ ["a".toList, "b".toList] :=
  C133_path_ambiguous _ _ [] [] ['a'] ['b']

example : coordsText "dashboard".toList ⟨0, 1⟩ ["a".toList, "b".toList] ≠
    coordsText "dashboard".toList ⟨0, 1⟩ ["a".toList, "c".toList] := by
  intro h
  have := C133_path _ _ (by simp) (by simp) (by decide) (by decide) h
  exact absurd this (by decide)

/-- `{"title": 3, "extra": "yes"}`: the message for `extra` speaks of the value `extra`. -/
example : ∃ e, mungeOne (excessErr ["#schema".toList, "extra".toList] "extra".toList
      ["data.json".toList]) = .ok (some e) ∧
    ∃ pre post, fieldText id "dashboard".toList ⟨0, 1⟩ e =
      pre ++ "but field exists in data with value `".toList ++ "extra".toList ++ '`' :: post :=
  C133_excess_value id "dashboard".toList ⟨0, 1⟩ _ ["extra".toList] _ _ rfl (by decide)

example : failureText id "d".toList ⟨0, 1⟩ [.twoSided ["s.cue".toList] ["d.json".toList] .outOfBounds
      ["a".toList] "uint8".toList "300".toList] =
    ("<d@v0.1>.a: validation failed, data is not an instance:\n\tschema expected `uint8`" ++
      "\n\t\ts.cue\n\tbut data contained `300`\n\t\td.json\n").toList := by
  decide +kernel

end Thema.Props

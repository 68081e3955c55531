import Verif.Spec.ErrTextExact
import Verif.Props.ErrText
import Verif.Props.AssignText
import Verif.Props.LensText

/-!
# The text of a validation failure can be read back (C206)
-/

namespace Thema.Props

open Thema.ErrText Thema.Spec

/-- Lists of which the first parts have a property that the next element does not have. -/
theorem split_at {α : Type} {P : α → Prop} {a a' d d' : List α} {c c' : α} (ha : ∀ x ∈ a, P x)
    (ha' : ∀ x ∈ a', P x) (hc : ¬ P c) (hc' : ¬ P c') (h : a ++ c :: d = a' ++ c' :: d') :
    a = a' ∧ c = c' ∧ d = d' := by
  induction a generalizing a' with
  | nil =>
    cases a' with
    | nil => simpa using h
    | cons x a' =>
      simp only [List.nil_append, List.cons_append, List.cons.injEq] at h
      exact absurd (h.1 ▸ ha' x (by simp)) hc
  | cons x a ih =>
    cases a' with
    | nil =>
      simp only [List.nil_append, List.cons_append, List.cons.injEq] at h
      exact absurd (h.1 ▸ ha x (by simp)) hc'
    | cons y a' =>
      simp only [List.cons_append, List.cons.injEq] at h
      obtain ⟨h1, h2⟩ := ih (a' := a') (fun z hz => ha z (by simp [hz]))
        (fun z hz => ha' z (by simp [hz])) h.2
      exact ⟨by rw [h.1, h1], h2⟩

theorem split_end {α : Type} {P : α → Prop} {a a' r r' : List α} (ha : ∀ x ∈ a, P x)
    (ha' : ∀ x ∈ a', P x) (hr : ∀ x t, r = x :: t → ¬ P x) (hr' : ∀ x t, r' = x :: t → ¬ P x)
    (h : a ++ r = a' ++ r') : a = a' ∧ r = r' := by
  induction a generalizing a' with
  | nil =>
    cases a' with
    | nil => exact ⟨rfl, h⟩
    | cons x a' => exact absurd (ha' x (by simp)) (hr x _ h)
  | cons x a ih =>
    cases a' with
    | nil => exact absurd (ha x (by simp)) (hr' x _ h.symm)
    | cons y a' =>
      simp only [List.cons_append, List.cons.injEq] at h
      obtain ⟨h1, h2⟩ := ih (a' := a') (fun z hz => ha z (by simp [hz]))
        (fun z hz => ha' z (by simp [hz])) h.2
      exact ⟨by rw [h.1, h1], h2⟩

/-- A line for a position. -/
def posLine (pos : Str → Str) (p : Str) : Str := '\t' :: '\t' :: pos p

/-- The first line for a problem. -/
def headLine (name : Str) (v : SV) (path : List Str) : Str :=
  coordsText name v path ++ ": validation failed, data is not an instance:".toList

def missingLine (val : Str) : Str :=
  '\t' :: "schema specifies that field exists with type ".toList ++ quoted val
def absentLine : Str := '\t' :: "but field was absent from data".toList
def closedLine : Str := '\t' :: "schema is closed and does not specify field".toList
def existsLine (val : Str) : Str :=
  '\t' :: "but field exists in data with value ".toList ++ quoted val
def expectedLine (val : Str) : Str := '\t' :: "schema expected ".toList ++ quoted val
def containedLine (val : Str) : Str := '\t' :: "but data contained ".toList ++ quoted val

/-- The other lines for a problem. -/
def bodyLines (pos : Str → Str) : FieldErr → List Str
  | .oneSided sp dp code _ val =>
    (match code with
    | .missingField => missingLine val :: (sp.map (posLine pos) ++ absentLine :: dp.map (posLine pos))
    | .excessField => closedLine :: (sp.map (posLine pos) ++ existsLine val :: dp.map (posLine pos))
    | _ => [])
  | .twoSided sp dp _ _ sv dv =>
    expectedLine sv :: (sp.map (posLine pos) ++ containedLine dv :: dp.map (posLine pos))

def pathOf : FieldErr → List Str
  | .oneSided _ _ _ path _ => path
  | .twoSided _ _ _ path _ _ => path

/-- A text of lines each of which ends with a line feed. -/
def ended (ls : List Str) : Str := (ls.map (· ++ ['\n'])).flatten

theorem ended_append (a b : List Str) : ended (a ++ b) = ended a ++ ended b := by simp [ended]

theorem positions_ended (pos : Str → Str) (ps : List Str) :
    '\n' :: ended (ps.map (posLine pos)) = positions pos ps ++ ['\n'] := by
  induction ps with
  | nil => rfl
  | cons p ps ih =>
    simp only [positions, List.map_cons, ended, List.flatten_cons, posLine, List.cons_append,
      List.append_assoc] at ih ⊢
    rw [List.nil_append, ih]

theorem fieldText_ended (pos : Str → Str) (name : Str) (v : SV) (e : FieldErr) :
    fieldText pos name v e ++ ['\n'] = ended (headLine name v (pathOf e) :: bodyLines pos e) := by
  have key : ∀ (a b : Str) (sp dp : List Str),
      ended (a :: (sp.map (posLine pos) ++ b :: dp.map (posLine pos))) =
        a ++ positions pos sp ++ '\n' :: b ++ positions pos dp ++ ['\n'] := by
    intro a b sp dp
    have h1 := positions_ended pos sp
    have h2 := positions_ended pos dp
    have e1 : ended (a :: (sp.map (posLine pos) ++ b :: dp.map (posLine pos))) =
        a ++ ('\n' :: ended (sp.map (posLine pos)) ++ (b ++ ('\n' :: ended (dp.map (posLine pos))))) := by
      simp [ended]
    rw [e1, h1, h2]
    simp
  have hd : ∀ (h : Str) (ls : List Str), ended (h :: ls) = h ++ '\n' :: ended ls := by
    intro h ls
    simp [ended]
  rw [hd]
  cases e with
  | oneSided sp dp code path val =>
    cases code
    case missingField =>
      simp only [bodyLines, key, pathOf]
      simp only [fieldText, headLine, missingLine, absentLine, List.append_assoc, List.cons_append]
    case excessField =>
      simp only [bodyLines, key, pathOf]
      simp only [fieldText, headLine, closedLine, existsLine, List.append_assoc, List.cons_append]
    all_goals simp only [bodyLines, pathOf, fieldText, headLine, ended, List.map_nil,
      List.flatten_nil, List.append_nil]
  | twoSided sp dp code path sv dv =>
    simp only [bodyLines, key, pathOf]
    simp only [fieldText, headLine, expectedLine, containedLine, List.append_assoc, List.cons_append]

def block (pos : Str → Str) (name : Str) (v : SV) (e : FieldErr) : List Str :=
  headLine name v (pathOf e) :: bodyLines pos e

theorem failureText_ended (pos : Str → Str) (name : Str) (v : SV) (es : List FieldErr) :
    failureText pos name v es = ended (es.flatMap (block pos name v)) := by
  induction es with
  | nil => rfl
  | cons e es ih =>
    rw [List.flatMap_cons, ended_append, block, ← fieldText_ended, ← ih]
    simp [failureText]

theorem linesOf_ended {ls : List Str} (h : ∀ l ∈ ls, '\n' ∉ l) : linesOf (ended ls) = ls ++ [[]] := by
  induction ls with
  | nil => rfl
  | cons l ls ih =>
    have : ended (l :: ls) = l ++ '\n' :: ended ls := by simp [ended]
    rw [this, linesOf_append (h l (by simp)), ih (fun x hx => h x (by simp [hx]))]
    rfl

/-- The first characters of a line. -/
def tabbed (l : Str) : Prop := l.head? = some '\t'

def twiceTabbed (l : Str) : Prop := l.take 2 = ['\t', '\t']

theorem bodyLines_tabbed (pos : Str → Str) (e : FieldErr) : ∀ l ∈ bodyLines pos e, tabbed l := by
  intro l hl
  have hp : ∀ p, tabbed (posLine pos p) := fun _ => rfl
  cases e with
  | oneSided sp dp code path val =>
    cases code <;> simp only [bodyLines, List.mem_cons, List.mem_append, List.mem_map,
      List.not_mem_nil] at hl
    · rcases hl with rfl | ⟨p, _, rfl⟩ | rfl | ⟨p, _, rfl⟩ <;> rfl
    · rcases hl with rfl | ⟨p, _, rfl⟩ | rfl | ⟨p, _, rfl⟩ <;> rfl
  | twoSided sp dp code path sv dv =>
    simp only [bodyLines, List.mem_cons, List.mem_append, List.mem_map] at hl
    rcases hl with rfl | ⟨p, _, rfl⟩ | rfl | ⟨p, _, rfl⟩ <;> rfl

theorem headLine_not_tabbed (name : Str) (v : SV) (path : List Str) :
    ¬ tabbed (headLine name v path) := by
  intro h
  simp [tabbed, headLine, coordsText] at h

theorem nl_joinWith {path : List Str} (h : ∀ l ∈ path, '\n' ∉ l) : '\n' ∉ joinWith ['.'] path := by
  induction path with
  | nil => simp [joinWith]
  | cons a path ih =>
    cases path with
    | nil => simpa [joinWith] using h
    | cons b path =>
      have := ih (fun l hl => h l (by simp [hl]))
      simp only [joinWith, List.mem_append, not_or]
      exact ⟨⟨h a (by simp), by decide⟩, this⟩

theorem block_one_line {pos : Str → Str} {name : Str} {v : SV} {e : FieldErr} (hn : '\n' ∉ name)
    (h : OneLine pos e) : ∀ l ∈ block pos name v e, '\n' ∉ l := by
  have hh : ∀ path : List Str, (∀ l ∈ path, '\n' ∉ l) → '\n' ∉ headLine name v path := by
    intro path hp
    have h1 := nl_joinWith hp
    have h2 := not_mem_str v (c := '\n') (by decide) (by decide)
    simp only [headLine, coordsText, List.mem_append, List.mem_cons, not_or]
    exact ⟨⟨⟨⟨⟨⟨by decide, hn⟩, by decide⟩, h2⟩, by decide⟩, h1⟩, by decide⟩
  have hp : ∀ p, '\n' ∉ pos p → '\n' ∉ posLine pos p := by
    intro p hp
    simp [posLine, hp]
  have hq : ∀ (a val : Str), '\n' ∉ a → '\n' ∉ val → '\n' ∉ '\t' :: a ++ quoted val := by
    intro a val ha hv
    simp [quoted, ha, hv]
  intro l hl
  cases e with
  | oneSided sp dp code path val =>
    obtain ⟨h1, h2, h3⟩ := h
    rcases List.mem_cons.1 hl with rfl | hl
    · exact hh path h2
    · cases code <;> simp only [bodyLines, List.mem_cons, List.mem_append, List.mem_map,
        List.not_mem_nil] at hl
      · rcases hl with rfl | ⟨p, hm, rfl⟩ | rfl | ⟨p, hm, rfl⟩
        · exact hq _ _ (by decide) h3
        · exact hp p (h1 p (by simp [hm]))
        · decide
        · exact hp p (h1 p (by simp [hm]))
      · rcases hl with rfl | ⟨p, hm, rfl⟩ | rfl | ⟨p, hm, rfl⟩
        · decide
        · exact hp p (h1 p (by simp [hm]))
        · exact hq _ _ (by decide) h3
        · exact hp p (h1 p (by simp [hm]))
  | twoSided sp dp code path sv dv =>
    obtain ⟨h1, h2, h3, h4⟩ := h
    rcases List.mem_cons.1 hl with rfl | hl
    · exact hh path h2
    · simp only [bodyLines, List.mem_cons, List.mem_append, List.mem_map] at hl
      rcases hl with rfl | ⟨p, hm, rfl⟩ | rfl | ⟨p, hm, rfl⟩
      · exact hq _ _ (by decide) h3
      · exact hp p (h1 p (by simp [hm]))
      · exact hq _ _ (by decide) h4
      · exact hp p (h1 p (by simp [hm]))

theorem headLine_inj {name name' : Str} {v v' : SV} {p p' : List Str} (hn : '@' ∉ name)
    (hn' : '@' ∉ name') (h : headLine name v p = headLine name' v' p') :
    name = name' ∧ v = v' ∧ joinWith ['.'] p = joinWith ['.'] p' := by
  have e : ∀ (n : Str) (w : SV) (q : List Str), headLine n w q =
      '<' :: (n ++ '@' :: ('v' :: (w.str ++ '>' :: ('.' :: (joinWith ['.'] q ++
        ": validation failed, data is not an instance:".toList))))) := by
    intro n w q
    have e1 : "@v".toList = ['@', 'v'] := rfl
    have e2 : ">.".toList = ['>', '.'] := rfl
    simp only [headLine, coordsText, e1, e2, List.append_assoc, List.cons_append, List.nil_append]
  rw [e, e] at h
  obtain ⟨h1, h2⟩ := split_char hn hn' (List.cons.inj h).2
  have h2 := (List.cons.inj h2).2
  obtain ⟨h3, h4⟩ := split_char (not_mem_str v (by decide) (by decide))
    (not_mem_str v' (by decide) (by decide)) h2
  exact ⟨h1, C02_str_injective _ _ h3, List.append_cancel_right (List.cons.inj h4).2⟩

theorem quoted_inj {a b : Str} (h : quoted a = quoted b) : a = b := by
  simp only [quoted, List.cons_append, List.cons.injEq, true_and] at h
  exact List.append_cancel_right h

theorem posLines_inj {pos : Str → Str} {a b : List Str} :
    a.map (posLine pos) = b.map (posLine pos) ↔ a.map pos = b.map pos := by
  induction a generalizing b with
  | nil => simp
  | cons x a ih =>
    cases b with
    | nil => simp
    | cons y b => simp [posLine, ih]

theorem body_split {pos : Str → Str} {a a' b b' : Str} {sp sp' dp dp' : List Str}
    (hb : ¬ twiceTabbed b) (hb' : ¬ twiceTabbed b')
    (h : a :: (sp.map (posLine pos) ++ b :: dp.map (posLine pos)) =
      a' :: (sp'.map (posLine pos) ++ b' :: dp'.map (posLine pos))) :
    a = a' ∧ b = b' ∧ sp.map pos = sp'.map pos ∧ dp.map pos = dp'.map pos := by
  simp only [List.cons.injEq] at h
  have ht : ∀ (l : List Str), ∀ x ∈ l.map (posLine pos), twiceTabbed x := by
    intro l x hx
    obtain ⟨p, _, rfl⟩ := List.mem_map.1 hx
    rfl
  obtain ⟨h1, h2, h3⟩ := split_at (P := twiceTabbed) (ht sp) (ht sp') hb hb' h.2
  exact ⟨h.1, h2, posLines_inj.1 h1, posLines_inj.1 h3⟩

theorem lines_differ {a b : Str} (n : Nat) (h : a.take n ≠ b.take n) : a ≠ b := fun e => h (e ▸ rfl)

theorem not_twice {c : Char} {l : Str} (h : c ≠ '\t') : ¬ twiceTabbed ('\t' :: c :: l) := by
  simp [twiceTabbed, h]

theorem bodyLines_other {pos : Str → Str} {sp dp path : List Str} {code : Code} {val : Str}
    (h : code ≠ .missingField ∧ code ≠ .excessField) :
    bodyLines pos (.oneSided sp dp code path val) = [] := by
  cases code <;> simp_all [bodyLines]

theorem code_cases (code : Code) : code = .missingField ∨ code = .excessField ∨
    (code ≠ .missingField ∧ code ≠ .excessField) := by
  cases code <;> simp

theorem bodyLines_same {pos : Str → Str} {e e' : FieldErr}
    (hp : joinWith ['.'] (pathOf e) = joinWith ['.'] (pathOf e')) :
    bodyLines pos e = bodyLines pos e' ↔ SameShown pos e e' := by
  have t1 : ¬ twiceTabbed absentLine := not_twice (by decide)
  have t2 : ∀ v, ¬ twiceTabbed (existsLine v) := fun v => not_twice (by decide)
  have t3 : ∀ v, ¬ twiceTabbed (containedLine v) := fun v => not_twice (by decide)
  have m9 : ∀ v, (missingLine v).take 9 = "\tschema s".toList := fun v => rfl
  have c9 : closedLine.take 9 = "\tschema i".toList := rfl
  have e9 : ∀ v, (expectedLine v).take 9 = "\tschema e".toList := fun v => rfl
  have d1 : ∀ v, missingLine v ≠ closedLine := fun v => lines_differ 9 (by
    rw [m9, c9]; decide)
  have d2 : ∀ v w, missingLine v ≠ expectedLine w := fun v w => lines_differ 9 (by
    rw [m9, e9]; decide)
  have d3 : ∀ v, closedLine ≠ expectedLine v := fun v => lines_differ 9 (by
    rw [e9, c9]; decide)
  have i1 : ∀ v w, missingLine v = missingLine w → v = w := fun v w h =>
    quoted_inj (List.append_cancel_left h)
  have i2 : ∀ v w, existsLine v = existsLine w → v = w := fun v w h =>
    quoted_inj (List.append_cancel_left h)
  have i3 : ∀ v w, expectedLine v = expectedLine w → v = w := fun v w h =>
    quoted_inj (List.append_cancel_left h)
  have i4 : ∀ v w, containedLine v = containedLine w → v = w := fun v w h =>
    quoted_inj (List.append_cancel_left h)
  cases e with
  | oneSided sp dp code path val =>
    cases e' with
    | oneSided sp' dp' code' path' val' =>
      simp only [pathOf] at hp
      simp only [SameShown]
      rcases code_cases code with rfl | rfl | hco <;> rcases code_cases code' with rfl | rfl | hco'
      · constructor
        · intro h
          simp only [bodyLines] at h
          obtain ⟨h1, _, h2, h3⟩ := body_split t1 t1 h
          exact ⟨hp, .inl ⟨.inl ⟨rfl, rfl⟩, i1 _ _ h1, h2, h3⟩⟩
        · rintro ⟨_, ⟨_, rfl, h2, h3⟩ | ⟨hh, _⟩⟩
          · simp only [bodyLines, posLines_inj.2 h2, posLines_inj.2 h3]
          · exact absurd rfl hh.1
      · constructor
        · intro h
          simp only [bodyLines] at h
          exact absurd (List.cons.inj h).1 (d1 _)
        · rintro ⟨_, ⟨⟨_, hh⟩ | ⟨hh, _⟩, _⟩ | ⟨hh, _⟩⟩
          · cases hh
          · cases hh
          · exact absurd rfl hh.1
      · rw [bodyLines_other hco']
        constructor
        · intro h
          simp only [bodyLines] at h
          cases h
        · rintro ⟨_, ⟨⟨_, hh⟩ | ⟨hh, _⟩, _⟩ | ⟨hh, _⟩⟩
          · exact absurd hh hco'.1
          · cases hh
          · exact absurd rfl hh.1
      · constructor
        · intro h
          simp only [bodyLines] at h
          exact absurd (List.cons.inj h).1.symm (d1 _)
        · rintro ⟨_, ⟨⟨hh, _⟩ | ⟨_, hh⟩, _⟩ | ⟨hh, _⟩⟩
          · cases hh
          · cases hh
          · exact absurd rfl hh.2
      · constructor
        · intro h
          simp only [bodyLines] at h
          obtain ⟨_, h1, h2, h3⟩ := body_split (t2 _) (t2 _) h
          exact ⟨hp, .inl ⟨.inr ⟨rfl, rfl⟩, i2 _ _ h1, h2, h3⟩⟩
        · rintro ⟨_, ⟨_, rfl, h2, h3⟩ | ⟨hh, _⟩⟩
          · simp only [bodyLines, posLines_inj.2 h2, posLines_inj.2 h3]
          · exact absurd rfl hh.2
      · rw [bodyLines_other hco']
        constructor
        · intro h
          simp only [bodyLines] at h
          cases h
        · rintro ⟨_, ⟨⟨hh, _⟩ | ⟨_, hh⟩, _⟩ | ⟨hh, _⟩⟩
          · cases hh
          · exact absurd hh hco'.2
          · exact absurd rfl hh.2
      · rw [bodyLines_other hco]
        constructor
        · intro h
          simp only [bodyLines] at h
          cases h
        · rintro ⟨_, ⟨⟨hh, _⟩ | ⟨_, hh⟩, _⟩ | ⟨_, hh⟩⟩
          · exact absurd hh hco.1
          · cases hh
          · exact absurd rfl hh.1
      · rw [bodyLines_other hco]
        constructor
        · intro h
          simp only [bodyLines] at h
          cases h
        · rintro ⟨_, ⟨⟨_, hh⟩ | ⟨hh, _⟩, _⟩ | ⟨_, hh⟩⟩
          · cases hh
          · exact absurd hh hco.2
          · exact absurd rfl hh.2
      · rw [bodyLines_other hco, bodyLines_other hco']
        exact ⟨fun _ => ⟨hp, .inr ⟨hco, hco'⟩⟩, fun _ => rfl⟩
    | twoSided sp' dp' code' path' sv' dv' =>
      simp only [SameShown, iff_false]
      rcases code_cases code with rfl | rfl | hco
      · exact fun h => d2 _ _ (List.cons.inj h).1
      · exact fun h => d3 _ (List.cons.inj h).1
      · rw [bodyLines_other hco]
        intro h
        cases h
  | twoSided sp dp code path sv dv =>
    cases e' with
    | oneSided sp' dp' code' path' val' =>
      simp only [SameShown, iff_false]
      rcases code_cases code' with rfl | rfl | hco
      · exact fun h => d2 _ _ (List.cons.inj h).1.symm
      · exact fun h => d3 _ (List.cons.inj h).1.symm
      · rw [bodyLines_other hco]
        intro h
        cases h
    | twoSided sp' dp' code' path' sv' dv' =>
      simp only [pathOf] at hp
      simp only [SameShown]
      constructor
      · intro h
        simp only [bodyLines] at h
        obtain ⟨h1, h2, h3, h4⟩ := body_split (t3 _) (t3 _) h
        exact ⟨hp, i3 _ _ h1, i4 _ _ h2, h3, h4⟩
      · rintro ⟨_, rfl, rfl, h3, h4⟩
        simp only [bodyLines, posLines_inj.2 h3, posLines_inj.2 h4]

theorem sameShown_path {pos : Str → Str} {e e' : FieldErr} (h : SameShown pos e e') :
    joinWith ['.'] (pathOf e) = joinWith ['.'] (pathOf e') := by
  cases e <;> cases e' <;> simp only [SameShown] at h
  · exact h.1
  · exact h.1

theorem blocks_same {pos : Str → Str} {name name' : Str} {v v' : SV} (hn : '@' ∉ name)
    (hn' : '@' ∉ name') : ∀ {es es' : List FieldErr},
    es.flatMap (block pos name v) = es'.flatMap (block pos name' v') →
      List.Forall₂ (SameShown pos) es es' ∧ (es = [] ∨ name = name' ∧ v = v')
  | [], [], _ => ⟨.nil, .inl rfl⟩
  | [], e' :: es', h => by simp [block] at h
  | e :: es, [], h => by simp [block] at h
  | e :: es, e' :: es', h => by
    simp only [List.flatMap_cons, block, List.cons_append, List.cons.injEq] at h
    obtain ⟨h1, h2, h3⟩ := headLine_inj hn hn' h.1
    have hr : ∀ (n : Str) (w : SV) (l : List FieldErr) x t,
        l.flatMap (block pos n w) = x :: t → ¬ tabbed x := by
      intro n w l x t hl
      cases l with
      | nil => cases hl
      | cons a l =>
        simp only [List.flatMap_cons, block, List.cons_append, List.cons.injEq] at hl
        rw [← hl.1]
        exact headLine_not_tabbed _ _ _
    obtain ⟨h4, h5⟩ := split_end (bodyLines_tabbed pos e) (bodyLines_tabbed pos e')
      (hr name v es) (hr name' v' es') h.2
    exact ⟨.cons ((bodyLines_same h3).1 h4) (blocks_same hn hn' h5).1, .inr ⟨h1, h2⟩⟩

/-- **C206**.  The text of a validation failure, if all that it shows is without line feeds, can be read
back: two failures have the same text exactly if they are of the same lineage and version and their
problems are, one by one, of the same sort, at the same place, with the same values and positions. -/
theorem C206_text_iff (pos : Str → Str) {name name' : Str} {v v' : SV} {es es' : List FieldErr}
    (hn : '@' ∉ name) (hn' : '@' ∉ name') (hl : '\n' ∉ name) (hl' : '\n' ∉ name')
    (ho : ∀ e ∈ es, OneLine pos e) (ho' : ∀ e ∈ es', OneLine pos e) :
    failureText pos name v es = failureText pos name' v' es' ↔
      List.Forall₂ (SameShown pos) es es' ∧ (es = [] ∨ name = name' ∧ v = v') := by
  rw [failureText_ended, failureText_ended]
  constructor
  · intro h
    have key : ∀ (n : Str) (w : SV) (l : List FieldErr), '\n' ∉ n → (∀ e ∈ l, OneLine pos e) →
        linesOf (ended (l.flatMap (block pos n w))) = l.flatMap (block pos n w) ++ [[]] := by
      intro n w l h1 h2
      refine linesOf_ended fun x hx => ?_
      obtain ⟨e, he, hxe⟩ := List.mem_flatMap.1 hx
      exact block_one_line h1 (h2 e he) x hxe
    have h1 := key name v es hl ho
    rw [h, key name' v' es' hl' ho'] at h1
    exact blocks_same hn hn' (List.append_cancel_right h1).symm
  · rintro ⟨h, hh⟩
    have : es.flatMap (block pos name v) = es'.flatMap (block pos name' v') := by
      rcases hh with rfl | ⟨rfl, rfl⟩
      · cases h
        rfl
      · clear ho ho'
        induction h with
        | nil => rfl
        | cons h1 _ ih =>
          have hp := sameShown_path h1
          rw [List.flatMap_cons, List.flatMap_cons, ih, block, block, (bodyLines_same hp).2 h1]
          simp only [headLine, coordsText, hp]
    rw [this]

/-- **C206** (places).  If no name has a dot, and no path is empty, then the same text also means the
same places. -/
theorem C206_places (pos : Str → Str) {name name' : Str} {v v' : SV} {es es' : List FieldErr}
    (hn : '@' ∉ name) (hn' : '@' ∉ name') (hl : '\n' ∉ name) (hl' : '\n' ∉ name')
    (ho : ∀ e ∈ es, OneLine pos e) (ho' : ∀ e ∈ es', OneLine pos e)
    (hp : ∀ e ∈ es ++ es', pathOf e ≠ [] ∧ ∀ l ∈ pathOf e, '.' ∉ l)
    (h : failureText pos name v es = failureText pos name' v' es') :
    es.map pathOf = es'.map pathOf := by
  have hs := ((C206_text_iff pos hn hn' hl hl' ho ho').1 h).1
  clear h ho ho'
  induction hs with
  | nil => rfl
  | @cons e e' _ _ h1 _ ih =>
    have hj := sameShown_path h1
    have a := hp e (by simp)
    have a' := hp e' (by simp)
    rw [List.map_cons, List.map_cons, ih (fun x hx => hp x (by
      simp only [List.mem_append, List.mem_cons] at hx ⊢
      rcases hx with hx | hx
      · exact .inl (.inr hx)
      · exact .inr (.inr hx))), ← splitOn_joinWith a.1 a.2, hj, splitOn_joinWith a'.1 a'.2]

/-- **C206** (limit).  A value with line feeds, such as a struct of CUE, can look like another
problem: here one failure has one problem, the other has two, and the texts are the same. -/
theorem C206_line_feed (pos : Str → Str) (name : Str) (v : SV) (p q : List Str) (a b c : Str) :
    failureText pos name v [.twoSided [] [] .kindConflict p a b, .twoSided [] [] .kindConflict q c b] =
      failureText pos name v [.twoSided [] [] .kindConflict p a (b ++ "`\n".toList ++
        headLine name v q ++ "\n\tschema expected ".toList ++ quoted c ++
        "\n\tbut data contained `".toList ++ b)] := by
  have e1 : "`\n".toList = ['`', '\n'] := rfl
  have e2 : "\n\tschema expected ".toList = '\n' :: '\t' :: "schema expected ".toList := rfl
  have e3 : "\n\tbut data contained `".toList =
      '\n' :: '\t' :: ("but data contained ".toList ++ ['`']) := by decide
  simp only [failureText, fieldText, positions, quoted, headLine, e1, e2, e3, List.append_assoc,
    List.cons_append, List.nil_append, List.append_nil]

/-! ## Examples -/

/-- Data with a wrong value and without a required field. -/
def twoProblems : List FieldErr :=
  [.twoSided ["s.cue".toList] ["d.json".toList] .outOfBounds ["a".toList] "uint8".toList "300".toList,
   .oneSided ["s.cue".toList] [] .missingField ["b".toList, "c".toList] "string".toList]

theorem twoProblems_oneLine : ∀ e ∈ twoProblems, OneLine id e := by
  intro e he
  simp only [twoProblems, List.mem_cons, List.not_mem_nil, or_false] at he
  rcases he with rfl | rfl
  · exact ⟨by decide, by decide, by decide, by decide⟩
  · exact ⟨by decide, by decide, by decide⟩

example {v : SV} {es : List FieldErr} (ho : ∀ e ∈ es, OneLine id e)
    (h : failureText id "dash".toList ⟨0, 1⟩ twoProblems = failureText id "dash".toList v es) :
    List.Forall₂ (SameShown id) twoProblems es ∧ v = ⟨0, 1⟩ := by
  have := (C206_text_iff id (by decide) (by decide) (by decide) (by decide) twoProblems_oneLine ho).1 h
  refine ⟨this.1, ?_⟩
  rcases this.2 with hh | hh
  · cases hh
  · exact hh.2.symm

example : failureText id "dash".toList ⟨0, 1⟩ twoProblems ≠
    failureText id "dash".toList ⟨0, 1⟩ twoProblems.reverse := by
  intro h
  have := ((C206_text_iff id (by decide) (by decide) (by decide) (by decide) twoProblems_oneLine
    (fun e he => twoProblems_oneLine e (by simpa using he))).1 h).1
  simp only [twoProblems, List.reverse_cons, List.reverse_nil, List.nil_append, List.cons_append] at this
  cases this with
  | cons h1 _ => exact h1

example : ¬ (∀ l ∈ ["a.b".toList], '.' ∉ l) := by decide

end Thema.Props

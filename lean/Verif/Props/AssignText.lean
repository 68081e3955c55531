import Verif.Model.AssignText
import Verif.Spec.AssignText
import Verif.Props.Assign
import Mathlib.Data.List.Perm.Basic
import Mathlib.Data.List.Nodup

/-!
# The text of the error of `AssignableTo` (C148)
-/

namespace Thema.Props

open Assign Spec Spec.Assign

theorem errMap_keys_mem (es : Errs) (p : P) : p ∈ (errMap es).map (·.1) ↔ p ∈ es.map (·.1) := by
  induction es with
  | nil => simp [errMap]
  | cons e es ih =>
    obtain ⟨q, m⟩ := e
    unfold errMap
    split
    · rename_i h
      rw [ih, List.map_cons, List.mem_cons]
      constructor
      · exact .inr
      · rintro (rfl | h')
        · simpa using h
        · exact h'
    · simp only [List.map_cons, List.mem_cons, ih]

theorem errMap_nodup (es : Errs) : ((errMap es).map (·.1)).Nodup := by
  induction es with
  | nil => simp [errMap]
  | cons e es ih =>
    obtain ⟨q, m⟩ := e
    unfold errMap
    split
    · exact ih
    · rename_i h
      rw [List.map_cons, List.nodup_cons]
      refine ⟨fun hm => h ?_, ih⟩
      simpa using (errMap_keys_mem es q).1 hm

/-- An entry of the map is the last assignment to its key. -/
theorem errMap_mem_iff (es : Errs) (p : P) (m : Msg) :
    (p, m) ∈ errMap es ↔ ∃ pre post, es = pre ++ (p, m) :: post ∧ p ∉ post.map (·.1) := by
  induction es with
  | nil => simp [errMap]
  | cons e es ih =>
    obtain ⟨q, m'⟩ := e
    unfold errMap
    split
    · rename_i h
      rw [ih]
      constructor
      · rintro ⟨pre, post, rfl, hn⟩
        exact ⟨(q, m') :: pre, post, rfl, hn⟩
      · rintro ⟨pre, post, he, hn⟩
        cases pre with
        | nil =>
          simp only [List.nil_append, List.cons.injEq, Prod.mk.injEq] at he
          obtain ⟨⟨rfl, rfl⟩, rfl⟩ := he
          exact absurd (by simpa using h) hn
        | cons a pre =>
          simp only [List.cons_append, List.cons.injEq] at he
          exact ⟨pre, post, he.2, hn⟩
    · rename_i h
      rw [List.mem_cons, ih]
      constructor
      · rintro (he | ⟨pre, post, rfl, hn⟩)
        · cases he
          exact ⟨[], es, rfl, by simpa using h⟩
        · exact ⟨(q, m') :: pre, post, rfl, hn⟩
      · rintro ⟨pre, post, he, hn⟩
        cases pre with
        | nil =>
          simp only [List.nil_append, List.cons.injEq] at he
          exact .inl he.1.symm
        | cons a pre =>
          simp only [List.cons_append, List.cons.injEq] at he
          exact .inr ⟨pre, post, he.2, hn⟩

theorem linesOf_ne_nil (s : Str) : linesOf s ≠ [] := by
  cases s with
  | nil => simp [linesOf]
  | cons c cs =>
    unfold linesOf
    split
    · simp
    · split <;> simp

theorem linesOf_line {a : Str} (h : '\n' ∉ a) : linesOf a = [a] := by
  induction a with
  | nil => rfl
  | cons c cs ih =>
    simp only [List.mem_cons, not_or] at h
    unfold linesOf
    rw [if_neg (fun e => h.1 e.symm), ih h.2]

theorem linesOf_append {a : Str} (h : '\n' ∉ a) (b : Str) :
    linesOf (a ++ '\n' :: b) = a :: linesOf b := by
  induction a with
  | nil => simp [linesOf]
  | cons c cs ih =>
    simp only [List.mem_cons, not_or] at h
    rw [List.cons_append, linesOf, if_neg (fun e => h.1 e.symm), ih h.2]

theorem linesOf_errorText {render : P × Msg → Str} : ∀ {es : Errs}, es ≠ [] →
    (∀ e ∈ es, '\n' ∉ render e) → linesOf (errorText render es) = es.map render
  | [], h, _ => absurd rfl h
  | [e], _, hr => linesOf_line (hr e (by simp))
  | e :: e' :: es, _, hr => by
    rw [errorText, linesOf_append (hr e (by simp)),
      linesOf_errorText (es := e' :: es) (by simp) (fun x hx => hr x (by simp [hx]))]
    · rfl
    · simp

/-- **C148** (part).  Whatever order the map is walked over in, the text has one line for each path at
which a discrepancy was recorded, and this line is the message recorded last for this path: the lines
are the messages of distinct entries, every recorded path has exactly one, and no other lines are
there. -/
theorem C148_lines_partial {render : P × Msg → Str} {es : Errs} {t : Str} (hne : es ≠ [])
    (hr : ∀ e ∈ es, '\n' ∉ render e) (h : ErrorTexts render es t) :
    ∃ entries : Errs, linesOf t = entries.map render ∧ (entries.map (·.1)).Nodup ∧
      (∀ p, p ∈ entries.map (·.1) ↔ p ∈ es.map (·.1)) ∧
      ∀ p m, (p, m) ∈ entries ↔ ∃ pre post, es = pre ++ (p, m) :: post ∧ p ∉ post.map (·.1) := by
  obtain ⟨entries, hp, rfl⟩ := h
  have hmem : ∀ e, e ∈ entries → e ∈ es := by
    rintro ⟨p, m⟩ he
    obtain ⟨pre, post, rfl, _⟩ := (errMap_mem_iff es p m).1 (hp.mem_iff.1 he)
    simp
  have hne' : entries ≠ [] := by
    rintro rfl
    obtain ⟨e, es', rfl⟩ := List.exists_cons_of_ne_nil hne
    have := (errMap_keys_mem (e :: es') e.1).2 (by simp)
    rw [List.nil_perm] at hp
    rw [hp] at this
    simp at this
  refine ⟨entries, linesOf_errorText hne' fun e he => hr e (hmem e he), ?_, fun p => ?_, fun p m => ?_⟩
  · exact (hp.map _).nodup_iff.2 (errMap_nodup es)
  · rw [(hp.map (·.1)).mem_iff, errMap_keys_mem]
  · rw [hp.mem_iff, errMap_mem_iff]

/-- **C148** (part): a single discrepancy always gives the same text. -/
theorem C148_single_stable {render : P × Msg → Str} {es : Errs} {t t' : Str} {p : P}
    (hs : ∀ e ∈ es, e.1 = p) (h : ErrorTexts render es t) (h' : ErrorTexts render es t') : t = t' := by
  have hlen : (errMap es).length ≤ 1 := by
    have hn := errMap_nodup es
    have hk : ∀ q ∈ (errMap es).map (·.1), q = p := by
      intro q hq
      obtain ⟨e, he, rfl⟩ := List.mem_map.1 ((errMap_keys_mem es q).1 hq)
      exact hs e he
    generalize he : errMap es = l at hn hk
    match l with
    | [] => simp
    | [_] => simp
    | a :: b :: l =>
      simp only [List.map_cons, List.nodup_cons, List.mem_cons, not_or] at hn
      have h1 := hk a.1 (by simp)
      have h2 := hk b.1 (by simp)
      exact absurd (h1.trans h2.symm) hn.1.1
  obtain ⟨l, hl, rfl⟩ := h
  obtain ⟨l', hl', rfl⟩ := h'
  generalize errMap es = l0 at hlen hl hl'
  match l0 with
  | [] => rw [List.perm_nil.1 hl, List.perm_nil.1 hl']
  | [_] => rw [List.perm_singleton.1 hl, List.perm_singleton.1 hl']
  | _ :: _ :: _ => simp at hlen

/-- **C148** fails: with discrepancies at two paths, whose messages differ, calls may give different
texts. -/
theorem C148_order_varies {render : P × Msg → Str} {es : Errs} {a b : P × Msg}
    (hr : ∀ e ∈ es, '\n' ∉ render e) (ha : a ∈ errMap es) (hb : b ∈ errMap es)
    (hab : render a ≠ render b) :
    ∃ t t', ErrorTexts render es t ∧ ErrorTexts render es t' ∧ t ≠ t' := by
  have hne : a ≠ b := fun e => hab (by rw [e])
  have hm : ∀ {e}, e ∈ errMap es → '\n' ∉ render e := by
    rintro ⟨p, m⟩ he
    obtain ⟨pre, post, he', _⟩ := (errMap_mem_iff es p m).1 he
    exact hr _ (by rw [he']; simp)
  obtain ⟨l1, hl1⟩ : ∃ l, (a :: l).Perm (errMap es) := by
    obtain ⟨s, t, h⟩ := List.append_of_mem ha
    exact ⟨s ++ t, by rw [h]; exact List.perm_middle.symm⟩
  obtain ⟨l2, hl2⟩ : ∃ l, (b :: l).Perm (errMap es) := by
    obtain ⟨s, t, h⟩ := List.append_of_mem hb
    exact ⟨s ++ t, by rw [h]; exact List.perm_middle.symm⟩
  refine ⟨_, _, ⟨_, hl1, rfl⟩, ⟨_, hl2, rfl⟩, fun he => ?_⟩
  have e1 := linesOf_errorText (render := render) (es := a :: l1) (by simp)
    fun e h => hm (hl1.mem_iff.1 h)
  have e2 := linesOf_errorText (render := render) (es := b :: l2) (by simp)
    fun e h => hm (hl2.mem_iff.1 h)
  rw [he, e2] at e1
  simp only [List.map_cons, List.cons.injEq] at e1
  exact hab e1.1.symm

open TyCue in
/-- The schema has `x: int` and a struct `z` without fields. -/
def hidSchema : Ty := .st [("x".toList, .sc .int 7 false), ("z".toList, .st [])]

open TyCue in
/-- The Go type has a string `x`, and `z` has a field `x`. -/
def hidGo : Ty := .st [("x".toList, .sc .str 1 false), ("z".toList, .st [("x".toList, .any)])]

open TyCue in
/-- **C148** fails: the discrepancy at a path is not in the text if a field that is only in the Go type,
at another place, has the same name.  Here the text says that `x` is absent from the schema, which it is
not, and does not say that its kind is wrong. -/
theorem C148_hidden : ∃ es, check obs 5 hidGo hidSchema [] = .ok es ∧
    Disc obs hidGo hidSchema [some "x".toList] .kindMismatch ∧
    errMap es = [([some "x".toList], .absentInSchema)] := by
  have h : check obs 5 hidGo hidSchema [] = .ok
      [([some "x".toList], .kindMismatch), ([some "x".toList], .absentInSchema)] := rfl
  refine ⟨_, h, ?_, rfl⟩
  rcases (C63_reports_partial TyCue.coherent 5 _ _ _ h [some "x".toList] .kindMismatch).1 (by simp) with
    ⟨_, hd⟩ | ⟨hm, _⟩
  · exact hd
  · cases hm

open TyCue in
/-- Three discrepancies: the hypotheses of the theorems are met. -/
example : ∃ es, check obs 5 badGo badSchema [] = .ok es ∧ es ≠ [] ∧ (errMap es).length = 3 ∧
    ∃ t, ErrorTexts (fun e => e.1.flatMap fun s => s.getD ['?']) es t ∧
      linesOf t = ["n".toList, "l?x".toList, "z".toList] :=
  ⟨_, badErrs, by simp, by decide, _, ⟨_, .refl _, rfl⟩, by decide⟩

/-- Two of the three discrepancies of that example have different messages. -/
example : ∃ t t', ErrorTexts (fun e => e.1.flatMap fun s => s.getD ['?'])
      [([some "n".toList], .kindMismatch), ([some "z".toList], .absentInSchema)] t ∧
    ErrorTexts (fun e => e.1.flatMap fun s => s.getD ['?'])
      [([some "n".toList], .kindMismatch), ([some "z".toList], .absentInSchema)] t' ∧ t ≠ t' :=
  C148_order_varies (a := ([some "n".toList], .kindMismatch)) (b := ([some "z".toList], .absentInSchema))
    (by decide) (by decide) (by decide) (by decide)

/-- Two assignments to one path. -/
example : ErrorTexts (fun e => e.1.flatMap fun s => s.getD ['?'])
    [([some "x".toList], .kindMismatch), ([some "x".toList], .absentInSchema)] "x".toList :=
  ⟨[([some "x".toList], .absentInSchema)], .refl _, rfl⟩

end Thema.Props

import Verif.Model.Validate

/-!
# What `fmt.Fprintf` writes for a format without operands

The documentation of package `fmt`, for the case that there are no operands: the grammar of verbs and the
error strings that are written in their place.
-/

namespace Thema.Spec

/-- A decimal digit. -/
def Digit (c : Char) : Prop := '0' ≤ c ∧ c ≤ '9'

/-- A flag of a verb. -/
def Flag (c : Char) : Prop := c = '#' ∨ c = '0' ∨ c = '+' ∨ c = '-' ∨ c = ' '

/-- A number of at most seven digits, or none. -/
def SmallNumber (D : Str) : Prop := (∀ c ∈ D, Digit c) ∧ D.length ≤ 7

/-- The width of a verb, and what is written for it: the operand of `*` is missing. -/
inductive WidthAs : Str → Str → Prop
  | number {D} : SmallNumber D → WidthAs D []
  | star : WidthAs ['*'] "%!(BADWIDTH)".toList

/-- The precision of a verb, and what is written for it. -/
inductive PrecAs : Str → Str → Prop
  | none : PrecAs [] []
  | number {D} : SmallNumber D → PrecAs ('.' :: D) []
  | star : PrecAs ['.', '*'] "%!(BADPREC)".toList

/-- What is written for a verb whose operand is missing. -/
def missing (v : Char) : Str := if v = '%' then ['%'] else '%' :: '!' :: v :: "(MISSING)".toList

/-- What is written for a verb with an explicit argument index: there is no such operand. -/
def badIndex (v : Char) : Str := if v = '%' then ['%'] else '%' :: '!' :: v :: "(BADINDEX)".toList

/-- What is printed for a format without operands. -/
inductive PrintedAs : Str → Str → Prop
  | nil : PrintedAs [] []
  | text {c s o} : c ≠ '%' → PrintedAs s o → PrintedAs (c :: s) (c :: o)
  | verb {F W w P p v s o} : (∀ c ∈ F, Flag c) → WidthAs W w → PrecAs P p →
      ¬ Digit v → ¬ Flag v → v ≠ '.' → v ≠ '*' → v ≠ '[' → PrintedAs s o →
      PrintedAs ('%' :: (F ++ (W ++ (P ++ v :: s)))) (w ++ (p ++ (missing v ++ o)))
  | stops {F W w P p} : (∀ c ∈ F, Flag c) → WidthAs W w → PrecAs P p →
      PrintedAs ('%' :: (F ++ (W ++ P))) (w ++ (p ++ "%!(NOVERB)".toList))
  | index {F W w P p D v s o} : (∀ c ∈ F, Flag c) → WidthAs W w → PrecAs P p →
      D ≠ [] → SmallNumber D → ¬ Digit v → v ≠ '.' → v ≠ '*' → PrintedAs s o →
      PrintedAs ('%' :: (F ++ (W ++ (P ++ ('[' :: (D ++ ']' :: v :: s))))))
        (w ++ (p ++ (badIndex v ++ o)))
  | huge {F d D s} : (∀ c ∈ F, Flag c) → Digit d → d ≠ '0' → (∀ c ∈ D, Digit c) → 8 ≤ D.length →
      PrintedAs ('%' :: (F ++ (d :: D ++ s))) "%!(NOVERB)".toList

end Thema.Spec

import Verif.Model.Path

/-!
# Specification vocabulary for paths
-/

namespace Thema.Spec

open Thema.Path

/-- Selectors that differ at most in optionality. -/
def SelSame (a b : Sel) : Prop := a.text = b.text

/-- Paths that differ at most in optionality. -/
def PathSame (a b : P) : Prop := a.map (·.text) = b.map (·.text)

/-- `pre` is a prefix of `p`, up to optionality. -/
def PathPrefix (pre p : P) : Prop := ∃ q rest, p = q ++ rest ∧ PathSame q pre

/-- ASCII letters, digits and the underscore, by code point. -/
def LabelChar (c : Char) : Prop :=
  (97 ≤ c.toNat ∧ c.toNat ≤ 122) ∨ (65 ≤ c.toNat ∧ c.toNat ≤ 90) ∨
    (48 ≤ c.toNat ∧ c.toNat ≤ 57) ∨ c.toNat = 95

/-- `t` is what is left of `s` when every character that is not a label character
is struck out. -/
inductive Struck : Str → Str → Prop
  | nil : Struck [] []
  | keep {c s t} : LabelChar c → Struck s t → Struck (c :: s) (c :: t)
  | drop {c s t} : ¬ LabelChar c → Struck s t → Struck (c :: s) t

end Thema.Spec

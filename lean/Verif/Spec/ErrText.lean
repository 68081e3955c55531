import Verif.Model.Validate

/-!
# The meaning of the types in validation errors
-/

namespace Thema.ErrText

/-- Values of CUE, as far as the types of `schErrMsgFormatMap` are concerned: an integer, the
decimal `m / 10 ^ e`, or anything else. -/
inductive CVal
  | int (z : Int)
  | float (m : Int) (e : Nat)
  | other

/-- At least `c`. -/
def CVal.atLeast (c : Int) : CVal → Prop
  | .int z => c ≤ z
  | .float m e => c * 10 ^ e ≤ m
  | .other => False

/-- At most `c`. -/
def CVal.atMost (c : Int) : CVal → Prop
  | .int z => z ≤ c
  | .float m e => m ≤ c * 10 ^ e
  | .other => False

/-- An integer. -/
def CVal.isInt : CVal → Prop
  | .int _ => True
  | _ => False

/-- The value of digits. -/
def digitsVal : Str → Option Nat
  | [] => some 0
  | l => l.foldl (fun acc c => acc.bind fun n =>
      if '0' ≤ c ∧ c ≤ '9' then some (10 * n + (c.toNat - 48)) else none) (some 0)

/-- The value of digits, perhaps with a fraction and an exponent that is large enough to make it
an integer. -/
def natVal (s : Str) : Option Nat :=
  match splitStr "E+".toList s with
  | [a] => digitsVal a
  | [a, e] =>
    match splitOn '.' a, digitsVal e with
    | [i, f], some e =>
      if f.length ≤ e then (digitsVal (i ++ f)).map (· * 10 ^ (e - f.length)) else none
    | _, _ => none
  | _ => none

/-- The value of a literal. -/
def litVal : Str → Option Int
  | '-' :: s => (natVal s).map fun n => - (n : Int)
  | s => (natVal s).map fun n => (n : Int)

/-- A part of a conjunction. -/
inductive Tok
  | int
  | ge (c : Int)
  | le (c : Int)
  deriving DecidableEq

/-- The part that a text stands for. -/
def tok : Str → Option Tok
  | '>' :: '=' :: s => (litVal s).map .ge
  | '<' :: '=' :: s => (litVal s).map .le
  | s => if s = "int".toList then some .int else none

/-- A value satisfies a part. -/
def Tok.holds : Tok → CVal → Prop
  | .int, x => x.isInt
  | .ge c, x => x.atLeast c
  | .le c, x => x.atMost c

/-- The parts of a conjunction. -/
def conj (s : Str) : Option (List Tok) := (splitStr " & ".toList s).mapM tok

/-- Integers between bounds. -/
def ints (lo hi : Int) (x : CVal) : Prop := x.isInt ∧ x.atLeast lo ∧ x.atMost hi

/-- Numbers between bounds. -/
def nums (lo hi : Int) (x : CVal) : Prop := x.atLeast lo ∧ x.atMost hi

/-- The predeclared types of CUE.  The bounds of `float32` are those of Go; the one of `float64`
is rounded. -/
def cueTypes : List (Str × (CVal → Prop)) :=
  [ ("uint8".toList, ints 0 (2 ^ 8 - 1)),
    ("uint16".toList, ints 0 (2 ^ 16 - 1)),
    ("uint32".toList, ints 0 (2 ^ 32 - 1)),
    ("uint64".toList, ints 0 (2 ^ 64 - 1)),
    ("int8".toList, ints (-2 ^ 7) (2 ^ 7 - 1)),
    ("int16".toList, ints (-2 ^ 15) (2 ^ 15 - 1)),
    ("int32".toList, ints (-2 ^ 31) (2 ^ 31 - 1)),
    ("int64".toList, ints (-2 ^ 63) (2 ^ 63 - 1)),
    ("float32".toList, nums (-((2 ^ 24 - 1) * 2 ^ 104)) ((2 ^ 24 - 1) * 2 ^ 104)),
    ("float64".toList, nums (-(1797693134862315708145274237317043567981 * 10 ^ 269))
      (1797693134862315708145274237317043567981 * 10 ^ 269)) ]

/-- `M` gives texts their meaning in CUE: conjunctions of `int` and bounds, and predeclared types;
other texts may mean anything. -/
structure Means (M : Str → CVal → Prop) : Prop where
  conj : ∀ s l, conj s = some l → ∀ x, M s x ↔ ∀ t ∈ l, t.holds x
  types : ∀ n P, (n, P) ∈ cueTypes → ∀ x, M n x ↔ P x

/-- The meaning of conjunctions and types, with nothing for other texts. -/
def plainMeaning (s : Str) (x : CVal) : Prop :=
  match cueTypes.find? (fun p => p.1 = s) with
  | some p => p.2 x
  | none => match ErrText.conj s with
    | some l => ∀ t ∈ l, t.holds x
    | none => False

/-- The texts occur in `s` one after the other. -/
def InOrder : List Str → Str → Prop
  | [], _ => True
  | p :: ps, s => ∃ pre rest, s = pre ++ p ++ rest ∧ InOrder ps rest

/-- What a reader has to learn about a problem, in this order.  `loc` is where the problem is. -/
def facts (pos : Str → Str) (loc : List Str → Str) : FieldErr → List Str
  | .twoSided schpos datapos _ path sv dv =>
    loc path :: ('`' :: sv ++ ['`']) :: schpos.map pos ++ ('`' :: dv ++ ['`']) :: datapos.map pos
  | .oneSided schpos datapos .missingField path val =>
    loc path :: ('`' :: val ++ ['`']) :: schpos.map pos ++ "absent".toList :: datapos.map pos
  | .oneSided schpos datapos .excessField path val =>
    loc path :: "closed".toList :: schpos.map pos ++ ('`' :: val ++ ['`']) :: datapos.map pos
  | .oneSided _ _ _ path _ => [loc path]

end Thema.ErrText

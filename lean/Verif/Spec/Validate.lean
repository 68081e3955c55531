import Verif.Model.Lineage

/-!
# Specification vocabulary for validation
-/

namespace Thema.Spec

/-- `sub` occurs in `s`. -/
def Contains (s sub : Str) : Prop := ∃ pre post, s = pre ++ sub ++ post

/-- A file name ending in ".cue". -/
def CueFile (f : Str) : Prop := ∃ base, f = base ++ ".cue".toList

/-- `out` is the part of an error path below the schema: what follows the first
"schemas" and the two elements after it, or, without "schemas", all but the first
element. -/
def FieldPath (path out : List Str) : Prop :=
  (∃ pre a b, path = pre ++ ["schemas".toList, a, b] ++ out ∧ "schemas".toList ∉ pre) ∨
  ("schemas".toList ∉ path ∧ ∃ a, path = a :: out)

/-- The error path has a part below the schema. -/
def PathOk (path : List Str) : Prop := ∃ out, FieldPath path out

/-- The first position of an error is that of the data: there are several and the
first is not in a CUE file. -/
def DataFirst (positions : List Str) : Prop :=
  ∃ p q rest, positions = p :: q :: rest ∧ ¬ CueFile p

/-- `parts` is `v` cut at the occurrences of `sep`, each being the first one after the end
of the one before. -/
inductive Cut (sep : Str) : Str → List Str → Prop
  | last {v} (hno : ¬ Contains v sep) : Cut sep v [v]
  | step {v p rest parts} (heq : v = p ++ sep ++ rest)
      (hfirst : ∀ p' rest', v = p' ++ sep ++ rest' → p.length ≤ p'.length)
      (hrest : Cut sep rest parts) : Cut sep v (p :: parts)

/-- `out` is `v` with every " | "-separated alternative replaced by its short name
if it has one. -/
def Readable (v out : Str) : Prop :=
  ∃ parts : List Str, Cut " | ".toList v parts ∧
    out = joinWith " | ".toList (parts.map fun p => (schErrMsgFormatMap.lookup p).getD p)

/-- `schpos` and `datapos` are the positions in, respectively not in, CUE files. -/
def Positions (all schpos datapos : List Str) : Prop :=
  schpos.Sublist all ∧ datapos.Sublist all ∧ schpos.length + datapos.length = all.length ∧
  (∀ p ∈ schpos, CueFile p) ∧ (∀ p ∈ datapos, ¬ CueFile p)

/-- The error `fe` that reports the CUE error `ee`. -/
inductive Reports (ee : CueErr) : FieldErr → Prop
  | missing {sp dp path v out} (hp : Positions ee.positions sp dp) (hpath : FieldPath ee.path path)
      (hv : ee.vals = [.str v]) (hm : Contains ee.msg "incomplete".toList) (hr : Readable v out) :
      Reports ee (.oneSided sp dp .missingField path out)
  | excess {sp dp path v out} (hp : Positions ee.positions sp dp) (hpath : FieldPath ee.path path)
      (hv : ee.vals = [.str v]) (hm : ¬ Contains ee.msg "incomplete".toList)
      (hm' : Contains ee.msg "not allowed".toList) (hr : Readable v out) :
      Reports ee (.oneSided sp dp .excessField path out)
  | bounds {sp dp path s d out} (hp : Positions ee.positions sp dp) (hpath : FieldPath ee.path path)
      (hs : ¬ DataFirst ee.positions → ee.vals = [.str s, .str d])
      (hd : DataFirst ee.positions → ee.vals = [.str d, .str s]) (hr : Readable s out) :
      Reports ee (.twoSided sp dp .outOfBounds path out d)
  | kinds {sp dp path s d out sk dk code} (hp : Positions ee.positions sp dp)
      (hpath : FieldPath ee.path path)
      (hs : ¬ DataFirst ee.positions → ee.vals = [.str s, .str d, .kind sk, .kind dk])
      (hd : DataFirst ee.positions → ee.vals = [.str d, .str s, .kind dk, .kind sk])
      (hover : code = .outOfBounds ↔ ∃ i, sk.testBit i = true ∧ dk.testBit i = true)
      (hcode : code = .outOfBounds ∨ code = .kindConflict) (hr : Readable s out) :
      Reports ee (.twoSided sp dp code path out d)

/-- The operands have one of the shapes that thema knows how to report. -/
def KnownShape (ee : CueErr) : Prop :=
  (∃ v, ee.vals = [.str v] ∧
    (Contains ee.msg "incomplete".toList ∨ Contains ee.msg "not allowed".toList)) ∨
  (∃ a b, ee.vals = [.str a, .str b]) ∨
  (∃ a b k l, ee.vals = [.str a, .str b, .kind k, .kind l])

variable {V : Type}

/-- All errors the evaluator can return carry paths with a part below the
schema. -/
def PathsOk (C : Cue V) : Prop :=
  ∀ v es, C.validate v = some (.cue es) → ∀ ee ∈ es, PathOk ee.path

end Thema.Spec

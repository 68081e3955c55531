import Verif.Model.OGen

/-!
# Schemas that differ only in the order of their properties
-/

namespace Thema.Spec

open Thema.OGen

mutual
/-- Two schemas are the same but for the order of properties, at any depth. -/
inductive SameS : OS → OS → Prop
  | refl (s : OS) : SameS s s
  | arr {s t : OS} : SameS s t → SameS (.arr s) (.arr t)
  | obj {typed : Bool} {allOf : List Str} {p q : OPs} {a b : OAs} {x y : OEs} :
      SameP p q → SameA a b → SameE x y → SameS (.obj typed allOf p a x) (.obj typed allOf q b y)
/-- Properties.  Two properties with different names may change places. -/
inductive SameP : OPs → OPs → Prop
  | nil : SameP .nil .nil
  | cons {n : Str} {r nl : Bool} {s t : OS} {p q : OPs} :
      SameS s t → SameP p q → SameP (.cons n r nl s p) (.cons n r nl t q)
  | swap {n m : Str} {r nl r' nl' : Bool} {s t : OS} {p : OPs} : n ≠ m →
      SameP (.cons n r nl s (.cons m r' nl' t p)) (.cons m r' nl' t (.cons n r nl s p))
  | trans {p q u : OPs} : SameP p q → SameP q u → SameP p u
/-- Additional properties. -/
inductive SameA : OAs → OAs → Prop
  | refl (a : OAs) : SameA a a
  | of {s t : OS} : SameS s t → SameA (.of s) (.of t)
/-- Alternatives, whose order matters. -/
inductive SameE : OEs → OEs → Prop
  | nil : SameE .nil .nil
  | cons {d : Bool} {s t : OS} {x y : OEs} :
      SameS s t → SameE x y → SameE (.cons d s x) (.cons d t y)
end

/-- Two documents are the same but for the order of definitions and properties. -/
inductive SameDoc : List (Str × OS) → List (Str × OS) → Prop
  | nil : SameDoc [] []
  | cons {n : Str} {s t : OS} {c d : List (Str × OS)} :
      SameS s t → SameDoc c d → SameDoc ((n, s) :: c) ((n, t) :: d)
  | swap {e f : Str × OS} {c : List (Str × OS)} : e.1 ≠ f.1 → SameDoc (e :: f :: c) (f :: e :: c)
  | trans {c d e : List (Str × OS)} : SameDoc c d → SameDoc d e → SameDoc c e

/-- The names of properties. -/
def labelsOf : OPs → List Str
  | .nil => []
  | .cons n _ _ _ rest => n :: labelsOf rest

mutual
/-- No object has two properties of one name. -/
def DistinctS : OS → Prop
  | .arr s => DistinctS s
  | .obj _ _ p a x => (labelsOf p).Nodup ∧ DistinctP p ∧ DistinctA a ∧ DistinctE x
  | _ => True
/-- Of the schemas of properties. -/
def DistinctP : OPs → Prop
  | .nil => True
  | .cons _ _ _ s rest => DistinctS s ∧ DistinctP rest
/-- Of additional properties. -/
def DistinctA : OAs → Prop
  | .of s => DistinctS s
  | _ => True
/-- Of alternatives. -/
def DistinctE : OEs → Prop
  | .nil => True
  | .cons _ s rest => DistinctS s ∧ DistinctE rest
end

mutual
/-- The properties of each object come in the order of their names. -/
def SortedS : OS → Prop
  | .arr s => SortedS s
  | .obj _ _ p a x =>
    (labelsOf p).Pairwise (fun m n => m.map Char.toNat < n.map Char.toNat) ∧ SortedP p ∧ SortedA a ∧ SortedE x
  | _ => True
/-- Of the schemas of properties. -/
def SortedP : OPs → Prop
  | .nil => True
  | .cons _ _ _ s rest => SortedS s ∧ SortedP rest
/-- Of additional properties. -/
def SortedA : OAs → Prop
  | .of s => SortedS s
  | _ => True
/-- Of alternatives. -/
def SortedE : OEs → Prop
  | .nil => True
  | .cons _ s rest => SortedS s ∧ SortedE rest
end

end Thema.Spec

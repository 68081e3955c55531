import Verif.Spec.GoTypes

/-!
# Specification vocabulary for C203 and C204: positions in Go types
-/

namespace Thema.GoTypes

/-- From a type to a part of it: the type of field `i`, what a pointer points to, the elements of
a slice, the keys and the values of a map. -/
inductive Step
  | fld (i : Nat)
  | ptr
  | elt
  | key
  | val
  deriving DecidableEq, Repr

mutual
/-- The name that is at a position. -/
def nameAt : GT → List Step → Option Str
  | .ident n, [] => some n
  | .star t, .ptr :: p => nameAt t p
  | .arr e, .elt :: p => nameAt e p
  | .map k _, .key :: p => nameAt k p
  | .map _ v, .val :: p => nameAt v p
  | .struct fs, .fld i :: p => nameAtFs fs i p
  | _, _ => none
def nameAtFs : GFs → Nat → List Step → Option Str
  | .nil, _, _ => none
  | .cons _ t _, 0, p => nameAt t p
  | .cons _ _ r, i + 1, p => nameAtFs r i p
end

/-- The types are the same but for the names in them. -/
def SameShape (t t' : GT) : Prop := mapNames (fun _ => []) t = mapNames (fun _ => []) t'

/-- Values of maps (any number of times), then elements of slices (any number of times). -/
def chain (a b : Nat) : List Step := List.replicate a .val ++ List.replicate b .elt

/-- Fields of structs, with or without a pointer, each with a chain behind it; a struct that is
the value of a map (`a ≠ 0 ∧ b = 0`) is not entered. -/
inductive Blocks : List Step → Prop
  | nil : Blocks []
  | plain (i a b : Nat) {p : List Step} (h : p ≠ [] → a ≠ 0 → b ≠ 0) (hp : Blocks p) :
      Blocks (.fld i :: (chain a b ++ p))
  | ptr (i a b : Nat) {p : List Step} (h : p ≠ [] → a ≠ 0 → b ≠ 0) (hp : Blocks p) :
      Blocks (.fld i :: .ptr :: (chain a b ++ p))

/-- The positions in a declared type that `iterateStruct`, `iterateMap` and `iterateArray` find. -/
def Found (p : List Step) : Prop :=
  p ≠ [] ∧ ∃ a b q, p = chain a b ++ q ∧ Blocks q ∧ (q ≠ [] → a ≠ 0 → b ≠ 0)

/-- The positions in a declared type where underscores are removed: those, and, wherever a struct
is, the type of each field, what it points to, what a chain leads to from there, and what is found
from the structs at the end of a chain of slices. -/
def FoundUs (p : List Step) : Prop :=
  Found p ∨ (∃ o i, p = o ++ [.fld i, .ptr]) ∨
    ∃ o i a b q, p = o ++ .fld i :: (chain a b ++ q) ∧ Blocks q ∧ (q ≠ [] → b ≠ 0)

/-- Every used type is declared or predeclared, and no type is declared twice. -/
def Compiles (pre : List Str) (ds : List Decl) : Prop :=
  (∀ n, ¬ UndefinedType pre ds n) ∧ (declared ds).Nodup

/-- The declaration stays: it is not that of a raw type, and its comment names a model. -/
def Stays (ds : List Decl) (d : List Str) (n : Str) : Prop := ¬ RawType ds n ∧ ¬ Unnamed d

/-- Fields of structs in structs. -/
def Within (p : List Step) : Prop := ∀ s ∈ p, ∃ i, s = .fld i

/-- Fields of structs in structs, with at most one pointer each. -/
inductive WithinOpt : List Step → Prop
  | nil : WithinOpt []
  | plain (i : Nat) {p : List Step} (hp : WithinOpt p) : WithinOpt (.fld i :: p)
  | ptr (i : Nat) {p : List Step} (hp : WithinOpt p) : WithinOpt (.fld i :: .ptr :: p)

/-- A value of the declared type `n` contains one of the type `m`. -/
def Holds (ds : List Decl) (n m : Str) : Prop :=
  ∃ d t p, Decl.typ d n t ∈ ds ∧ nameAt t p = some m ∧ Within p

/-- The same if the pointers of fields are left out. -/
def HoldsOpt (ds : List Decl) (n m : Str) : Prop :=
  ∃ d t p, Decl.typ d n t ∈ ds ∧ nameAt t p = some m ∧ WithinOpt p

/-- One can come from `n` to `m` in one or more steps. -/
inductive Leads (R : Str → Str → Prop) : Str → Str → Prop
  | one {n m : Str} : R n m → Leads R n m
  | more {n k m : Str} : R n k → Leads R k m → Leads R n m

/-- Go has no types that contain themselves (specification, "Type declarations"). -/
def NoneContainsItself (ds : List Decl) : Prop := ∀ n, ¬ Leads (Holds ds) n n

end Thema.GoTypes

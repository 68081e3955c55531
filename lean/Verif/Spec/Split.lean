import Verif.Model.Split
import Mathlib.Data.List.Forall2

/-!
# Specification vocabulary for conjunct splitting
-/

namespace Thema.Spec

variable {α : Type}

/-- All conjuncts of nested applications of `op`, left to right, nothing dropped.
A `NoOp` wrapper around one value stands for that value. -/
def leaves (op : Op) : CVal α → List (CVal α)
  | .atom a => [.atom a]
  | .node o a args =>
    if o = .noOp ∧ args.length = 1 then args
    else if o ≠ op then [.node o a args]
    else args.attach.flatMap (fun ⟨x, _⟩ => leaves op x)
termination_by v => v.size
decreasing_by
  rename_i h
  exact CVal.size_lt h

/-- `kept` is `args` without the elements that are equal to an earlier element
that was kept. -/
def KeepFirst (eq : CVal α → CVal α → Bool) (args kept : List (CVal α)) : Prop :=
  ∃ keep : Nat → Bool,
    kept = ((args.zipIdx.filter (fun p => keep p.2)).map (·.1)) ∧
    ∀ i (hi : i < args.length),
      (keep i = false ↔ ∃ j, ∃ _ : j < i, keep j = true ∧ eq args[i] args[j] = true)

/-- `out` is a splitting of a value by `op` in which, at every level, only
conjuncts equal to an earlier kept sibling are dropped. -/
inductive Splits (eq : CVal α → CVal α → Bool) (op : Op) : CVal α → List (CVal α) → Prop
  | atom (a : α) : Splits eq op (.atom a) [.atom a]
  | wrap (a : α) (args kept : List (CVal α)) (h : KeepFirst eq args kept) (h1 : kept.length = 1) :
      Splits eq op (.node .noOp a args) kept
  | whole (o : Op) (a : α) (args kept : List (CVal α)) (h : KeepFirst eq args kept)
      (hn : ¬ (o = .noOp ∧ kept.length = 1)) (ho : o ≠ op) :
      Splits eq op (.node o a args) [.node o a args]
  | split (a : α) (args kept : List (CVal α)) (outs : List (List (CVal α)))
      (h : KeepFirst eq args kept) (hn : ¬ (op = .noOp ∧ kept.length = 1))
      (hs : List.Forall₂ (Splits eq op) kept outs) :
      Splits eq op (.node op a args) outs.flatten

/-- At no level are two siblings equal. -/
def NoRepeats (eq : CVal α → CVal α → Bool) : CVal α → Prop
  | .atom _ => True
  | .node _ _ args =>
    args.Pairwise (fun x y => eq y x = false) ∧ ∀ x (_ : x ∈ args), NoRepeats eq x
termination_by v => v.size
decreasing_by
  rename_i h
  exact CVal.size_lt h

/-- An interpretation of values as sets of data: unification is intersection, a
`NoOp` wrapper changes nothing. -/
structure Meaning (α : Type) (D : Type) where
  sem : CVal α → D → Prop
  and_sem : ∀ a args d, sem (.node .and a args) d ↔ ∀ x ∈ args, sem x d
  noOp_sem : ∀ a args d, sem (.node .noOp a args) d ↔ ∀ x ∈ args, sem x d

/-- How often `#Lineage` is among the conjuncts of a value. -/
def linCount (isLin : α → Bool) (v : CVal α) : Nat :=
  (leaves .and v).countP (fun x => x.refLineage isLin)

end Thema.Spec

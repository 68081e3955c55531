import Verif.Model.Hydrate
import Mathlib.Data.List.Forall2
import Mathlib.Order.Lattice

/-!
# What values mean, for hydration

The meaning of a value is an element of a meet-semilattice, in which less means more specific and
unification is the meet.  `at_ l d` is the struct whose field `l` is `d`, `lst` the closed list with
the given elements, `all d` the list of any length of `d`.
-/

namespace Thema.Spec.Hydrate

open Thema.Hydrate

/-- What is relied on about CUE.  `K` are concrete data: their lists are closed. -/
structure Means {V D : Type} [SemilatticeInf D] (H : HCue V) (m : V → D) (at_ : Str → D → D)
    (lst : List D → D) (all : D → D) (K : V → Prop) : Prop where
  unify : ∀ a b, m (H.unify a b) = m a ⊓ m b
  fill : ∀ d l v, m (H.fill d l v) = m d ⊓ at_ l (m v)
  fillOther : ∀ d l v k, k ≠ l → H.lookup (H.fill d l v) k = H.lookup d k
  eval : ∀ v, m (H.eval v) = m v
  atInf : ∀ l a b, at_ l (a ⊓ b) = at_ l a ⊓ at_ l b
  lookup : ∀ d l x, H.lookup d l = some x → m d ≤ at_ l (m x)
  /-- a field has the value of the field, and an optional one has it where there is one -/
  regular : ∀ s fs l v, H.fields s = some fs → (l, v, false) ∈ fs → m s ≤ at_ l (m v)
  optional : ∀ s fs l v d x, H.fields s = some fs → (l, v, true) ∈ fs → H.lookup d l = some x →
    m s ⊓ m d ≤ at_ l (m v)
  labels : ∀ s fs, H.fields s = some fs → (fs.map (·.1)).Nodup
  elems : ∀ d xs, K d → H.elems d = some xs → m d = lst (xs.map m)
  newList : ∀ xs, m (H.newList xs) = lst (xs.map m)
  anyIdx : ∀ s e, H.anyIdx s = some e → m s ≤ all (m e)
  lstAll : ∀ ds e, lst ds ⊓ all e ≤ lst (ds.map (· ⊓ e))
  lstMono : ∀ ds es, List.Forall₂ (· ≤ ·) ds es → lst ds ≤ lst es
  regularFields : ∀ d k v, (k, v) ∈ H.regular d → m d ≤ at_ k (m v)
  empty : ∀ s, H.kind s = .struct → m s ≤ m H.empty
  dataAnyIdx : ∀ d, K d → H.anyIdx d = none
  dataLookup : ∀ d l x, K d → H.lookup d l = some x → K x
  dataFields : ∀ d fs f, K d → H.fields d = some fs → f ∈ fs → K f.2.1
  dataRegular : ∀ d f, K d → f ∈ H.regular d → K f.2
  dataFill : ∀ d l v, K d → K v → K (H.fill d l v)
  dataEmpty : K H.empty
  dataNewList : ∀ xs, (∀ x ∈ xs, K x) → K (H.newList xs)
  dataElems : ∀ d xs x, K d → H.elems d = some xs → x ∈ xs → K x

/-- The schema has no disjunctions as list elements, and CUE lists the fields of structs and makes
lists without errors. -/
structure Plain {V : Type} (H : HCue V) : Prop where
  branch : ∀ s e, H.anyIdx s = some e → H.isOr e = false
  fields : ∀ v, H.kind v = .struct → H.fields v ≠ none
  newList : ∀ l, H.isErr (H.newList l) = false

/-- `ref` describes the element `x` of a list whose elements are described by `ele`: `ele` itself, or
if it is a disjunction, the first alternative that `x` satisfies. -/
def BranchOf {V : Type} (H : HCue V) (ele x ref : V) : Prop :=
  (H.isOr ele = false ∧ ref = ele) ∨
    (H.isOr ele = true ∧ ∃ pre post, H.alts ele = pre ++ ref :: post ∧
      H.concrete (H.unify ref x) = true ∧ ∀ d ∈ pre, H.concrete (H.unify d x) = false)

/-- `d` is the default of `v`.  CUE gives `[...T]` the default `[]`; this counts only if it was
written down. -/
def DefaultOf {V : Type} (H : HCue V) (v d : V) : Prop :=
  H.dflt v = some d ∧ (H.isList d = true → ∃ n, H.len d = some n ∧
    (n ≤ 0 → H.isOr v = true ∧ ∃ x ∈ H.alts v, H.isList x = true ∧ (H.len x).getD 0 ≤ 0))

/-- `x` is the default of `v`, as far as subsumption can tell. -/
def IsDefault {V : Type} (H : HCue V) (v x : V) : Prop :=
  ∃ d, DefaultOf H v d ∧ H.subsume x d = true ∧ H.subsume d x = true

end Thema.Spec.Hydrate

import Verif.Model.Hydrate

/-!
# Vocabulary for hydration
-/

namespace Thema.Spec.Hydrate

open Thema.Hydrate

variable {V : Type}

/-- What is relied on about filling fields of structs.  `St`: the structs. -/
structure FillLaws (H : HCue V) (St : V → Prop) : Prop where
  fillSt : ∀ d l v, St d → St (H.fill d l v)
  other : ∀ d l v k, St d → k ≠ l → H.lookup (H.fill d l v) k = H.lookup d k
  same : ∀ d l v, St d → H.lookup d l = none → H.lookup (H.fill d l v) l = some v
  present : ∀ d l v, St d → (H.lookup (H.fill d l v) l).isSome
  emptySt : St H.empty
  emptyLookup : ∀ k, H.lookup H.empty k = none
  regular : ∀ d, St d → (∀ k v, (k, v) ∈ H.regular d ↔ H.lookup d k = some v) ∧
    ((H.regular d).map (·.1)).Nodup

/-- The regular fields of a `#SchemaDef` (`lineage.cue:207-241`). -/
def reserved : List Str := ["version".toList, "schema".toList, "examples".toList]

/-- `ref` is a `#SchemaDef`: fields `version` and `schema`, and possibly `examples`. -/
structure IsSchemaDef (H : HCue V) (ref : V) : Prop where
  kind : H.kind ref = .struct
  fields : ∃ v s rest, H.fields ref =
    some (("version".toList, v, false) :: ("schema".toList, s, false) :: rest) ∧
    ∀ f ∈ rest, f.1 = "examples".toList

end Thema.Spec.Hydrate

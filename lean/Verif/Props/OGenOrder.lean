import Verif.Props.OGen
import Mathlib.Data.List.Lex

/-!
# The order of fields in generated Go types (C119)
-/

namespace Thema.Props

open GoTypes OGen

variable {U : Uni}

/-- The order of strings by their characters. -/
def nameLt (a b : Str) : Prop := a.map Char.toNat < b.map Char.toNat

/-- The name that a field stands under: the type, for an embedded one. -/
def fieldLabels : GFs → List Str
  | .nil => []
  | .cons f t r => (if f.go = [] then (match t with | .ident n => n | _ => []) else f.go) :: fieldLabels r

theorem toNat_inj {a b : Char} (h : a.toNat = b.toNat) : a = b := Char.toNat_inj.1 h

theorem strLt_iff (a b : Str) : strLt a b = true ↔ nameLt a b := by
  induction a generalizing b with
  | nil => cases b <;> simp [strLt, nameLt]
  | cons x xs ih =>
    cases b with
    | nil => simp [strLt, nameLt]
    | cons y ys =>
      simp only [strLt, nameLt, List.map_cons, List.cons_lt_cons_iff]
      by_cases h1 : x.toNat < y.toNat
      · simp [h1]
      · by_cases h2 : x = y
        · subst h2
          simp [ih ys, nameLt]
        · have : x.toNat ≠ y.toNat := fun e => h2 (toNat_inj e)
          simp [h1, h2, this]

theorem nameLt_total {a b : Str} (h : a ≠ b) : nameLt a b ∨ nameLt b a := by
  have : a.map Char.toNat ≠ b.map Char.toNat := fun e =>
    h (List.map_injective_iff.2 (fun _ _ => toNat_inj) e)
  exact lt_or_gt_of_ne this

theorem nameLt_trans {a b c : Str} (h : nameLt a b) (h' : nameLt b c) : nameLt a c :=
  lt_trans h h'

theorem setInner_sorted {n : Str} : ∀ {l : List Prop'}, (l.map (·.name)).Pairwise nameLt →
    ((setInner n l).map (·.name)).Pairwise nameLt ∧
      ∀ k, k ∈ (setInner n l).map (·.name) ↔ k = n ∨ k ∈ l.map (·.name)
  | [], _ => by simp [setInner]
  | p :: l, h => by
    rw [List.map_cons, List.pairwise_cons] at h
    unfold setInner
    split
    · rename_i e
      subst e
      refine ⟨?_, fun k => by simp⟩
      rw [List.map_cons, List.pairwise_cons]
      exact h
    · rename_i hne
      split
      · rename_i hlt
        rw [strLt_iff] at hlt
        refine ⟨?_, fun k => by simp⟩
        simp only [List.map_cons, List.pairwise_cons, List.mem_cons, forall_eq_or_imp]
        exact ⟨⟨hlt, fun k hk => nameLt_trans hlt (h.1 k hk)⟩, h⟩
      · rename_i hlt
        rw [strLt_iff] at hlt
        obtain ⟨h1, h2⟩ := setInner_sorted (n := n) h.2
        refine ⟨?_, fun k => by rw [List.map_cons, List.mem_cons, h2]; simp; tauto⟩
        rw [List.map_cons, List.pairwise_cons]
        refine ⟨fun k hk => ?_, h1⟩
        rcases (h2 k).1 hk with rfl | hk
        · exact (nameLt_total hne).resolve_left hlt
        · exact h.1 k hk

theorem embed_sorted : ∀ {ms : List Str} {l : List Prop'}, (l.map (·.name)).Pairwise nameLt →
    ((embed ms l).map (·.name)).Pairwise nameLt ∧
      ∀ k, k ∈ (embed ms l).map (·.name) ↔ (k ∈ ms ∧ '_' ∉ k) ∨ k ∈ l.map (·.name)
  | [], l, h => ⟨h, by simp [embed]⟩
  | m :: ms, l, h => by
    unfold embed
    split
    · rename_i hu
      obtain ⟨h1, h2⟩ := embed_sorted (ms := ms) h
      refine ⟨h1, fun k => ?_⟩
      rw [h2, List.mem_cons]
      have : '_' ∈ m := by simpa using hu
      constructor
      · rintro (⟨a, b⟩ | a)
        · exact .inl ⟨.inr a, b⟩
        · exact .inr a
      · rintro (⟨rfl | a, b⟩ | a)
        · exact absurd this b
        · exact .inl ⟨a, b⟩
        · exact .inr a
    · rename_i hu
      have hu' : '_' ∉ m := by simpa using hu
      obtain ⟨h3, h4⟩ := setInner_sorted (n := m) h
      obtain ⟨h1, h2⟩ := embed_sorted (ms := ms) h3
      refine ⟨h1, fun k => ?_⟩
      rw [h2, h4, List.mem_cons]
      constructor
      · rintro (⟨a, b⟩ | rfl | a)
        · exact .inl ⟨.inr a, b⟩
        · exact .inl ⟨.inl rfl, hu'⟩
        · exact .inr a
      · rintro (⟨rfl | a, b⟩ | a)
        · exact .inr (.inl rfl)
        · exact .inl ⟨a, b⟩
        · exact .inr (.inr a)

theorem fieldLabels_fieldsOf (ps : List Prop') (hne : ∀ p ∈ ps, typeName U p.name ≠ []) :
    fieldLabels (fieldsOf U .nil ps) = ps.map fun p => typeName U p.name := by
  induction ps with
  | nil => rfl
  | cons p ps ih =>
    simp only [fieldsOf, fieldLabels, List.map_cons]
    rw [ih fun q hq => hne q (by simp [hq])]
    congr 1
    unfold Prop'.field
    split
    · rfl
    · simp [hne p (by simp)]

/-- **C119** (part), the order.  The fields of the struct for an object whose properties are listed in
the order of their names, and those for the schemas it refers to with `allOf`, come together in the
order of the names, and there is one for each name. -/
theorem C119_field_order {path : List Str} {typed : Bool} {allOf : List Str} {props : OPs} {g : GSch}
    (hp : props ≠ .nil ∨ ∃ m ∈ allOf, '_' ∉ m) (hn : NoInner props)
    (hs : (propNames props).Pairwise nameLt)
    (hne : ∀ n, n ∈ allOf ∨ n ∈ propNames props → typeName U n ≠ [])
    (h : gen U path (.obj typed allOf props .no .nil) = .ok g) :
    ∃ (fs : GFs) (names : List Str), g.goType = .struct fs ∧ fieldLabels fs = names.map (typeName U) ∧
      names.Pairwise nameLt ∧
      ∀ k, k ∈ names ↔ (k ∈ allOf ∧ '_' ∉ k) ∨ k ∈ propNames props := by
  have hnp : ¬ (props = .nil ∧ allOf.all (·.contains '_') = true) := by
    rintro ⟨a, b⟩
    rcases hp with hp | ⟨m, hm, hu⟩
    · exact hp a
    · have := List.all_eq_true.1 b m hm
      simp at this
      exact hu this
  rw [gen] at h
  dsimp only at h
  rw [if_neg (fun hh => hnp hh.1)] at h
  simp only [genA, Res.bind] at h
  rw [if_neg (fun hh => hnp hh.1)] at h
  cases hps : genPs U path props with
  | err e => rw [hps] at h; cases h
  | panic e => rw [hps] at h; cases h
  | fuel => rw [hps] at h; cases h
  | ok ps =>
    rw [hps] at h
    simp only [genEs] at h
    injection h with h
    subst h
    have hnm := (genPs_names hn hps).1
    obtain ⟨h1, h2⟩ := embed_sorted (ms := allOf) (l := ps) (by rw [hnm]; exact hs)
    refine ⟨_, (embed allOf ps).map (·.name), rfl, ?_, h1, fun k => by rw [h2, hnm]⟩
    simp only [if_true, ne_eq, not_true_eq_false, decide_false, Bool.false_eq_true, if_false]
    rw [fieldLabels_fieldsOf, List.map_map]
    · rfl
    · intro p hp
      refine hne _ ?_
      rcases (h2 p.name).1 (List.mem_map_of_mem hp) with a | a
      · exact .inl a.1
      · rw [hnm] at a; exact .inr a

/-- Two references among two properties. -/
def orderProps : OPs :=
  .cons "a".toList true false (.prim .string [] []) (.cons "z".toList false false (.prim .boolean [] []) .nil)

example : (propNames orderProps).Pairwise nameLt ∧ NoInner orderProps ∧
    ∃ g fs, gen ascii ["T".toList] (.obj true ["B".toList, "n".toList] orderProps .no .nil) = .ok g ∧
      g.goType = .struct fs ∧ fieldLabels fs = ["B".toList, "A".toList, "N".toList, "Z".toList] :=
  ⟨by unfold nameLt; decide, by simp [orderProps, NoInner], _, _, rfl, rfl, by decide⟩

end Thema.Props

import Verif.Model.OSort
import Verif.Spec.OSort
import Verif.Props.OGenOrder

/-!
# C212: the order of properties and definitions does not matter to generated Go types
-/

namespace Thema.Props

open GoTypes OGen Thema.Spec

variable {U : Uni}

private theorem lt_asymm' {a b : Str} (h : strLt a b = true) : strLt b a = false := by
  rw [strLt_iff] at h
  rw [Bool.eq_false_iff, ne_eq, strLt_iff]
  exact lt_asymm h

private theorem lt_or {a b : Str} (h : a ≠ b) : strLt a b = true ∨ strLt b a = true := by
  rw [strLt_iff, strLt_iff]; exact nameLt_total h

private theorem lt_tr {a b c : Str} (h : strLt a b = true) (h' : strLt b c = true) :
    strLt a c = true := by
  rw [strLt_iff] at *; exact nameLt_trans h h'

private theorem insP_lt {n m : Str} {r nl r' nl' : Bool} {s t : OS} (h : strLt n m = true) :
    ∀ p, insP n r nl s (insP m r' nl' t p) = insP m r' nl' t (insP n r nl s p)
  | .nil => by simp [insP, h, lt_asymm' h]
  | .cons k rk nk u rest => by
    have ih := insP_lt (r := r) (nl := nl) (r' := r') (nl' := nl') (s := s) (t := t) h rest
    by_cases h1 : strLt m k = true
    · have h2 := lt_tr h h1
      simp [insP, h1, h2, h, lt_asymm' h]
    · by_cases h2 : strLt n k = true
      · simp [insP, h1, h2, lt_asymm' h]
      · simp [insP, h1, h2, ih]

private theorem insP_comm {n m : Str} {r nl r' nl' : Bool} {s t : OS} (h : n ≠ m) (p : OPs) :
    insP n r nl s (insP m r' nl' t p) = insP m r' nl' t (insP n r nl s p) := by
  rcases lt_or h with h | h
  · exact insP_lt h p
  · exact (insP_lt h p).symm

private theorem insC_lt {n m : Str} {s t : OS} (h : strLt n m = true) :
    ∀ p, insC n s (insC m t p) = insC m t (insC n s p)
  | [] => by simp [insC, h, lt_asymm' h]
  | (k, u) :: rest => by
    have ih := insC_lt (s := s) (t := t) h rest
    by_cases h1 : strLt m k = true
    · have h2 := lt_tr h h1
      simp [insC, h1, h2, h, lt_asymm' h]
    · by_cases h2 : strLt n k = true
      · simp [insC, h1, h2, lt_asymm' h]
      · simp [insC, h1, h2, ih]

mutual
private theorem sortOS_same {s t : OS} : SameS s t → sortOS s = sortOS t
  | .refl _ => rfl
  | .arr h => by simp only [sortOS]; rw [sortOS_same h]
  | .obj h1 h2 h3 => by
    simp only [sortOS]; rw [sortPs_same h1, sortAs_same h2, sortEs_same h3]
private theorem sortPs_same {p q : OPs} : SameP p q → sortPs p = sortPs q
  | .nil => rfl
  | .cons h1 h2 => by simp only [sortPs]; rw [sortOS_same h1, sortPs_same h2]
  | .swap h => by simp only [sortPs]; exact insP_comm h _
  | .trans h1 h2 => (sortPs_same h1).trans (sortPs_same h2)
private theorem sortAs_same {a b : OAs} : SameA a b → sortAs a = sortAs b
  | .refl _ => rfl
  | .of h => by simp only [sortAs]; rw [sortOS_same h]
private theorem sortEs_same {x y : OEs} : SameE x y → sortEs x = sortEs y
  | .nil => rfl
  | .cons h1 h2 => by simp only [sortEs]; rw [sortOS_same h1, sortEs_same h2]
end

private theorem sortComps_same {c d : List (Str × OS)} (h : SameDoc c d) :
    sortComps c = sortComps d := by
  induction h with
  | nil => rfl
  | cons h _ ih => simp only [sortComps]; rw [sortOS_same h, ih]
  | swap h =>
    simp only [sortComps]
    rcases lt_or h with h | h
    · exact insC_lt h _
    · exact (insC_lt h _).symm
  | trans _ _ h1 h2 => exact h1.trans h2

/-- **C212**.  Documents that differ only in the order of definitions and of properties, at any
depth, give the same Go types, or the same error. -/
theorem C212_same_output {c d : List (Str × OS)} (h : SameDoc c d) (replace : Str → Str)
    (noPtr : Bool) : goTypesAny U replace noPtr c = goTypesAny U replace noPtr d := by
  unfold goTypesAny
  rw [sortComps_same h]

/-! ### What is sorted is the document itself -/

private theorem SameP.refl' : ∀ p, SameP p p
  | .nil => .nil
  | .cons _ _ _ s rest => .cons (.refl s) (SameP.refl' rest)

private theorem insP_same {n : Str} {r nl : Bool} {s : OS} : ∀ {p : OPs}, n ∉ labelsOf p →
    SameP (.cons n r nl s p) (insP n r nl s p)
  | .nil, _ => SameP.refl' _
  | .cons m r' nl' t rest, h => by
    simp only [labelsOf, List.mem_cons, not_or] at h
    simp only [insP]
    split
    · exact SameP.refl' _
    · exact .trans (.swap h.1) (.cons (.refl t) (insP_same h.2))

private theorem mem_insP {n k : Str} {r nl : Bool} {s : OS} : ∀ {p : OPs},
    k ∈ labelsOf (insP n r nl s p) ↔ k = n ∨ k ∈ labelsOf p
  | .nil => by simp [insP, labelsOf]
  | .cons m r' nl' t rest => by
    simp only [insP]
    split
    · simp [labelsOf]
    · simp only [labelsOf, List.mem_cons, mem_insP (p := rest)]
      tauto

private theorem mem_sortPs {k : Str} : ∀ {p : OPs}, k ∈ labelsOf (sortPs p) ↔ k ∈ labelsOf p
  | .nil => by simp [sortPs]
  | .cons n r nl s rest => by
    simp only [sortPs, mem_insP, labelsOf, List.mem_cons, mem_sortPs (p := rest)]

mutual
private theorem same_sortOS : ∀ {s : OS}, DistinctS s → SameS s (sortOS s)
  | .ref _, _ => .refl _
  | .prim _ _ _, _ => .refl _
  | .inner, _ => .refl _
  | .arr s, h => by
    simp only [DistinctS] at h
    simp only [sortOS]
    exact .arr (same_sortOS h)
  | .obj _ _ p a x, h => by
    simp only [DistinctS] at h
    simp only [sortOS]
    exact .obj (same_sortPs h.1 h.2.1) (same_sortAs h.2.2.1) (same_sortEs h.2.2.2)
private theorem same_sortPs : ∀ {p : OPs}, (labelsOf p).Nodup → DistinctP p → SameP p (sortPs p)
  | .nil, _, _ => by simp only [sortPs]; exact .nil
  | .cons n r nl s rest, hn, h => by
    simp only [DistinctP] at h
    simp only [labelsOf, List.nodup_cons] at hn
    simp only [sortPs]
    exact .trans (.cons (same_sortOS h.1) (same_sortPs hn.2 h.2))
      (insP_same (fun hm => hn.1 (mem_sortPs.1 hm)))
private theorem same_sortAs : ∀ {a : OAs}, DistinctA a → SameA a (sortAs a)
  | .no, _ => .refl _
  | .free, _ => .refl _
  | .of s, h => by
    simp only [DistinctA] at h
    simp only [sortAs]
    exact .of (same_sortOS h)
private theorem same_sortEs : ∀ {x : OEs}, DistinctE x → SameE x (sortEs x)
  | .nil, _ => by simp only [sortEs]; exact .nil
  | .cons d s rest, h => by
    simp only [DistinctE] at h
    simp only [sortEs]
    exact .cons (same_sortOS h.1) (same_sortEs h.2)
end

private theorem insC_same {n : Str} {s : OS} : ∀ {c : List (Str × OS)}, n ∉ c.map (·.1) →
    SameDoc ((n, s) :: c) (insC n s c)
  | [], _ => .cons (.refl _) .nil
  | e :: rest, h => by
    have hr : ∀ c, SameDoc c c := fun c => by
      induction c with
      | nil => exact .nil
      | cons e _ ih => exact .cons (.refl e.2) ih
    simp only [List.map_cons, List.mem_cons, not_or] at h
    simp only [insC]
    split
    · exact hr _
    · exact .trans (.swap h.1) (.cons (.refl e.2) (insC_same h.2))

private theorem mem_insC {n k : Str} {s : OS} : ∀ {c : List (Str × OS)},
    k ∈ (insC n s c).map (·.1) ↔ k = n ∨ k ∈ c.map (·.1)
  | [] => by simp [insC]
  | e :: rest => by
    simp only [insC]
    split
    · simp
    · simp only [List.map_cons, List.mem_cons, mem_insC (c := rest)]
      tauto

private theorem mem_sortComps {k : Str} : ∀ {c : List (Str × OS)},
    k ∈ (sortComps c).map (·.1) ↔ k ∈ c.map (·.1)
  | [] => by simp [sortComps]
  | e :: rest => by
    simp only [sortComps, mem_insC, List.map_cons, List.mem_cons, mem_sortComps (c := rest)]

private theorem insP_sorted {n : Str} {r nl : Bool} {s : OS} : ∀ {p : OPs}, n ∉ labelsOf p →
    (labelsOf p).Pairwise nameLt → (labelsOf (insP n r nl s p)).Pairwise nameLt
  | .nil, _, _ => by simp [insP, labelsOf]
  | .cons m r' nl' t rest, h, hp => by
    simp only [labelsOf, List.mem_cons, not_or] at h
    simp only [labelsOf, List.pairwise_cons] at hp
    simp only [insP]
    split
    · rename_i hlt
      rw [strLt_iff] at hlt
      simp only [labelsOf, List.pairwise_cons, List.mem_cons, forall_eq_or_imp]
      exact ⟨⟨hlt, fun k hk => nameLt_trans hlt (hp.1 k hk)⟩, hp⟩
    · rename_i hlt
      rw [strLt_iff] at hlt
      simp only [labelsOf, List.pairwise_cons]
      refine ⟨fun k hk => ?_, insP_sorted h.2 hp.2⟩
      rcases mem_insP.1 hk with rfl | hk
      · exact (nameLt_total h.1).resolve_left hlt
      · exact hp.1 k hk

private theorem insP_sortedP {n : Str} {r nl : Bool} {s : OS} (hs : SortedS s) : ∀ {p : OPs},
    SortedP p → SortedP (insP n r nl s p)
  | .nil, _ => by simp [insP, SortedP, hs]
  | .cons m r' nl' t rest, h => by
    simp only [SortedP] at h
    simp only [insP]
    split
    · simp [SortedP, hs, h]
    · simp only [SortedP]
      exact ⟨h.1, insP_sortedP hs h.2⟩

mutual
private theorem sortOS_sorted : ∀ {s : OS}, DistinctS s → SortedS (sortOS s)
  | .ref _, _ => by simp [sortOS, SortedS]
  | .prim _ _ _, _ => by simp [sortOS, SortedS]
  | .inner, _ => by simp [sortOS, SortedS]
  | .arr s, h => by
    simp only [DistinctS] at h
    simp only [sortOS, SortedS]
    exact sortOS_sorted h
  | .obj _ _ p a x, h => by
    simp only [DistinctS] at h
    simp only [sortOS, SortedS]
    have := sortPs_sorted h.1 h.2.1
    exact ⟨this.1, this.2, sortAs_sorted h.2.2.1, sortEs_sorted h.2.2.2⟩
private theorem sortPs_sorted : ∀ {p : OPs}, (labelsOf p).Nodup → DistinctP p →
    (labelsOf (sortPs p)).Pairwise nameLt ∧ SortedP (sortPs p)
  | .nil, _, _ => by simp [sortPs, labelsOf, SortedP]
  | .cons n r nl s rest, hn, h => by
    simp only [DistinctP] at h
    simp only [labelsOf, List.nodup_cons] at hn
    have ih := sortPs_sorted hn.2 h.2
    have hm : n ∉ labelsOf (sortPs rest) := fun hm => hn.1 (mem_sortPs.1 hm)
    simp only [sortPs]
    refine ⟨insP_sorted hm ih.1, ?_⟩
    have hs := sortOS_sorted h.1
    exact insP_sortedP hs ih.2
private theorem sortAs_sorted : ∀ {a : OAs}, DistinctA a → SortedA (sortAs a)
  | .no, _ => by simp [sortAs, SortedA]
  | .free, _ => by simp [sortAs, SortedA]
  | .of s, h => by
    simp only [DistinctA] at h
    simp only [sortAs, SortedA]
    exact sortOS_sorted h
private theorem sortEs_sorted : ∀ {x : OEs}, DistinctE x → SortedE (sortEs x)
  | .nil, _ => by simp [sortEs, SortedE]
  | .cons d s rest, h => by
    simp only [DistinctE] at h
    simp only [sortEs, SortedE]
    exact ⟨sortOS_sorted h.1, sortEs_sorted h.2⟩
end

private theorem insC_sorted {n : Str} {s : OS} : ∀ {c : List (Str × OS)}, n ∉ c.map (·.1) →
    (c.map (·.1)).Pairwise nameLt → ((insC n s c).map (·.1)).Pairwise nameLt
  | [], _, _ => by simp [insC]
  | e :: rest, h, hp => by
    simp only [List.map_cons, List.mem_cons, not_or] at h
    simp only [List.map_cons, List.pairwise_cons] at hp
    simp only [insC]
    split
    · rename_i hlt
      rw [strLt_iff] at hlt
      simp only [List.map_cons, List.pairwise_cons, List.mem_cons, forall_eq_or_imp]
      exact ⟨⟨hlt, fun k hk => nameLt_trans hlt (hp.1 k hk)⟩, hp⟩
    · rename_i hlt
      rw [strLt_iff] at hlt
      simp only [List.map_cons, List.pairwise_cons]
      refine ⟨fun k hk => ?_, insC_sorted h.2 hp.2⟩
      rcases mem_insC.1 hk with rfl | hk
      · exact (nameLt_total h.1).resolve_left hlt
      · exact hp.1 k hk

private theorem mem_insC' {n : Str} {s : OS} {e : Str × OS} : ∀ {c : List (Str × OS)},
    e ∈ insC n s c ↔ e = (n, s) ∨ e ∈ c
  | [] => by simp [insC]
  | f :: rest => by
    simp only [insC]
    split
    · simp
    · simp only [List.mem_cons, mem_insC' (c := rest)]
      tauto

/-- **C212**.  The types are those for one arrangement of the document: the same definitions and
properties, each in the increasing order of names. -/
theorem C212_sorted (replace : Str → Str) (noPtr : Bool) {c : List (Str × OS)}
    (hn : (c.map (·.1)).Nodup) (hd : ∀ e ∈ c, DistinctS e.2) :
    ∃ d, SameDoc c d ∧ (d.map (·.1)).Pairwise (fun m n => m.map Char.toNat < n.map Char.toNat) ∧
      (∀ e ∈ d, SortedS e.2) ∧
      goTypesAny U replace noPtr c = goTypes U replace noPtr d := by
  refine ⟨sortComps c, ?_, ?_, ?_, rfl⟩
  · induction c with
    | nil => exact .nil
    | cons e rest ih =>
      simp only [List.map_cons, List.nodup_cons] at hn
      simp only [sortComps]
      exact .trans (.cons (same_sortOS (hd e (by simp)))
        (ih hn.2 fun x hx => hd x (List.mem_cons_of_mem _ hx)))
        (insC_same fun hm => hn.1 (mem_sortComps.1 hm))
  · induction c with
    | nil => exact .nil
    | cons e rest ih =>
      simp only [List.map_cons, List.nodup_cons] at hn
      simp only [sortComps]
      exact insC_sorted (fun hm => hn.1 (mem_sortComps.1 hm))
        (ih hn.2 fun x hx => hd x (List.mem_cons_of_mem _ hx))
  · induction c with
    | nil => intro e he; cases he
    | cons e rest ih =>
      simp only [List.map_cons, List.nodup_cons] at hn
      intro x hx
      simp only [sortComps] at hx
      rcases mem_insC'.1 hx with rfl | hx
      · exact sortOS_sorted (hd e (by simp))
      · exact ih hn.2 (fun x hx => hd x (List.mem_cons_of_mem _ hx)) x hx

/-- The properties `b` and `a` of a definition, and two definitions. -/
example (replace : Str → Str) (noPtr : Bool) (s t : OS) :
    goTypesAny U replace noPtr
      [("Y".toList, .ref "X".toList),
       ("X".toList, .obj true [] (.cons "b".toList true false s
          (.cons "a".toList false false t .nil)) .no .nil)] =
    goTypesAny U replace noPtr
      [("X".toList, .obj true [] (.cons "a".toList false false t
          (.cons "b".toList true false s .nil)) .no .nil),
       ("Y".toList, .ref "X".toList)] := by
  refine C212_same_output (.trans (.swap (by simp)) (.cons ?_ (.cons (.refl _) .nil))) _ _
  exact .obj (.swap (by decide)) (.refl _) .nil

example (replace : Str → Str) (noPtr : Bool) : ∃ d,
    SameDoc [("Y".toList, OS.ref "X".toList), ("X".toList, .prim .string [] [])] d ∧
    (d.map (·.1)).Pairwise (fun m n => m.map Char.toNat < n.map Char.toNat) := by
  obtain ⟨d, h1, h2, _⟩ := C212_sorted (U := U) replace noPtr
    (c := [("Y".toList, OS.ref "X".toList), ("X".toList, .prim .string [] [])]) (by decide)
    (by simp [DistinctS])
  exact ⟨d, h1, h2⟩

end Thema.Props

import Verif.Model.CueArgs
import Mathlib.Data.List.Perm.Basic

/-!
# Calling CUE functions (C47)
-/

namespace Thema.Props

open Thema.CueArgs

variable {V : Type} {F : Fill V}

/-- Filling different arguments commutes, and filling an argument does not change
which others the function takes. -/
structure FillLaws (F : Fill V) : Prop where
  comm : ∀ v a b x y, a ≠ b →
    F.fillPath (F.fillPath v a x) b y = F.fillPath (F.fillPath v b y) a x
  allows : ∀ v a b x, a ≠ b → F.allows (F.fillPath v a x) b = F.allows v b

theorem fillLoop_perm (hF : FillLaws F) {l l' : List (Str × V)} (hp : l.Perm l') :
    ∀ v, (l.map (·.1)).Nodup → fillLoop F v l = fillLoop F v l' := by
  induction hp with
  | nil => intro v _; rfl
  | cons p _ ih =>
    intro v hn
    obtain ⟨a, x⟩ := p
    simp only [List.map_cons, List.nodup_cons] at hn
    unfold fillLoop
    rw [ih _ hn.2]
  | swap p q l =>
    intro v hn
    obtain ⟨a, x⟩ := p
    obtain ⟨b, y⟩ := q
    simp only [List.map_cons, List.nodup_cons, List.mem_cons, not_or] at hn
    have hab : a ≠ b := fun h => hn.1.1 h.symm
    simp only [fillLoop, hF.allows v b a y (Ne.symm hab), hF.allows v a b x hab,
      hF.comm v a b x y hab]
    cases F.allows v a <;> cases F.allows v b <;> simp
  | trans h1 _ ih1 ih2 =>
    intro v hn
    rw [ih1 v hn, ih2 v ((h1.map _).nodup_iff.1 hn)]

theorem checkLoop_none (F : Fill V) (v : V) (l : List Str) :
    checkLoop F v l = none ↔ ∀ a ∈ l, F.argErr v a = false := by
  induction l with
  | nil => simp [checkLoop]
  | cons a l ih =>
    unfold checkLoop
    cases h : F.argErr v a <;> simp [h, ih]

/-- The outcomes agree, except possibly in which bad argument is named. -/
def SameOutcome (r r' : Res (V ⊕ Str)) : Prop :=
  r = r' ∨ ∃ a a', r = .ok (.inr a) ∧ r' = .ok (.inr a')

/-- **C47**.  Passing arguments to a CUE function has the same outcome for all
orders in which Go may iterate over the argument map (separately for the two
iterations): the same value, or a panic, or an error naming some bad argument. -/
theorem C47_order_irrelevant (hF : FillLaws F) (isErr : V → Bool) (func : Option V)
    {args args' : List (Str × V)} {names names' : List Str}
    (hn : (args.map (·.1)).Nodup) (hp : args.Perm args') (hq : names.Perm names') :
    SameOutcome (call F isErr func args names) (call F isErr func args' names') := by
  unfold call make SameOutcome
  cases func with
  | none => left; rfl
  | some f =>
    simp only
    cases isErr f with
    | true => left; rfl
    | false =>
      simp only [Bool.false_eq_true, if_false]
      rw [fillLoop_perm hF hp f hn]
      cases hl : fillLoop F f args' with
      | ok last =>
        simp only [Res.bind_ok]
        have hiff : checkLoop F last names = none ↔ checkLoop F last names' = none := by
          rw [checkLoop_none, checkLoop_none]
          exact ⟨fun h a ha => h a (hq.mem_iff.2 ha), fun h a ha => h a (hq.mem_iff.1 ha)⟩
        cases h1 : checkLoop F last names with
        | none =>
          rw [hiff.1 h1]; left; rfl
        | some a =>
          cases h2 : checkLoop F last names' with
          | none => rw [hiff.2 h2] at h1; cases h1
          | some b => right; exact ⟨a, b, rfl, rfl⟩
      | err e => left; rfl
      | panic k => left; rfl
      | fuel => left; rfl

/-- **C47**.  The value is the one obtained by filling all arguments; an error
occurs exactly if some argument ends up bad; the only panics are a missing or
erroneous function and an argument it does not take. -/
theorem C47_outcome (hF : FillLaws F) (isErr : V → Bool) (f : V) (hf : isErr f = false)
    {args : List (Str × V)} {names : List Str} (hn : (args.map (·.1)).Nodup) :
    ((∃ p ∈ args, F.allows f p.1 = false) → call F isErr (some f) args names = .panic .explicit) ∧
    ((∀ p ∈ args, F.allows f p.1 = true) →
      let v := args.foldl (fun v p => F.fillPath v p.1 p.2) f
      ((∀ a ∈ names, F.argErr v a = false) →
        call F isErr (some f) args names = .ok (.inl (F.out v))) ∧
      ((∃ a ∈ names, F.argErr v a = true) →
        ∃ a ∈ names, F.argErr v a = true ∧ call F isErr (some f) args names = .ok (.inr a))) := by
  have key : ∀ (l : List (Str × V)) (v : V), (l.map (·.1)).Nodup →
      ((∃ p ∈ l, F.allows v p.1 = false) → fillLoop F v l = .panic .explicit) ∧
      ((∀ p ∈ l, F.allows v p.1 = true) →
        fillLoop F v l = .ok (l.foldl (fun v p => F.fillPath v p.1 p.2) v)) := by
    intro l
    induction l with
    | nil => intro v _; simp [fillLoop]
    | cons p l ih =>
      intro v hn
      obtain ⟨a, x⟩ := p
      simp only [List.map_cons, List.nodup_cons] at hn
      obtain ⟨i1, i2⟩ := ih (F.fillPath v a x) hn.2
      have hal : ∀ q ∈ l, F.allows (F.fillPath v a x) q.1 = F.allows v q.1 := by
        intro q hq
        apply hF.allows
        rintro rfl
        exact hn.1 (List.mem_map_of_mem hq)
      unfold fillLoop
      constructor
      · rintro ⟨q, hq, hqf⟩
        cases ha : F.allows v a with
        | false => simp
        | true =>
          simp only [Bool.not_true, Bool.false_eq_true, if_false]
          apply i1
          rcases List.mem_cons.1 hq with rfl | hq
          · simp only at hqf; rw [ha] at hqf; cases hqf
          · exact ⟨q, hq, by rw [hal q hq]; exact hqf⟩
      · intro h
        have ha : F.allows v a = true := h (a, x) (by simp)
        simp only [ha, Bool.not_true, Bool.false_eq_true, if_false, List.foldl_cons]
        exact i2 fun q hq => by rw [hal q hq]; exact h q (by simp [hq])
  have chk : ∀ (v : V) (l : List Str), (∃ a ∈ l, F.argErr v a = true) →
      ∃ a ∈ l, F.argErr v a = true ∧ checkLoop F v l = some a := by
    intro v l
    induction l with
    | nil => simp
    | cons b l ih =>
      rintro ⟨a, ha, he⟩
      unfold checkLoop
      cases hb : F.argErr v b with
      | true => exact ⟨b, by simp, hb, by simp⟩
      | false =>
        rcases List.mem_cons.1 ha with rfl | ha
        · rw [hb] at he; cases he
        · obtain ⟨c, hc, h1, h2⟩ := ih ⟨a, ha, he⟩
          exact ⟨c, by simp [hc], h1, by simpa using h2⟩
  obtain ⟨k1, k2⟩ := key args f hn
  unfold call make
  simp only [hf, Bool.false_eq_true, if_false]
  constructor
  · intro h; rw [k1 h]; rfl
  · intro h
    rw [k2 h]
    simp only [Res.bind_ok]
    constructor
    · intro hv
      rw [(checkLoop_none F _ _).2 hv]; rfl
    · intro hv
      obtain ⟨a, ha, he, hc⟩ := chk _ _ hv
      exact ⟨a, ha, he, by rw [hc]; rfl⟩

/-- A function value as a finite map from the declared argument names to the
values filled in so far. -/
def tblFill : Fill (Str → Option Nat) where
  allows _ a := a == "inst".toList || a == "to".toList
  fillPath v a x := fun b => if b = a then (if v a = none then x a else some 0) else v b
  argErr v a := v a == some 0
  out v := v

/-- Evidence for the laws, with two arguments of which one is bad. -/
example : FillLaws tblFill ∧
    call tblFill (fun _ => false) (some fun _ => none)
      [("inst".toList, fun _ => some 3), ("to".toList, fun _ => some 0)]
      ["to".toList, "inst".toList] = .ok (.inr "to".toList) := by
  refine ⟨⟨?_, fun _ _ _ _ _ => rfl⟩, rfl⟩
  intro v a b x y hab
  funext c
  simp only [tblFill]
  by_cases h1 : c = a <;> by_cases h2 : c = b
  · exact absurd (h1.symm.trans h2) hab
  · subst h1; simp [hab]
  · subst h2; simp [Ne.symm hab]
  · simp [h1, h2]

end Thema.Props

import Verif.Spec.Runtime

/-!
# C208: making runtimes on any number of goroutines
-/

namespace Thema.Props

open Thema.Runtime

variable {β : Type} {o : Load β} {ctxs : List Bool}

/-- Loading panics. -/
private def fails : Load β → Bool
  | .valid _ => false
  | _ => true

/-- What is known of a call. -/
private def Fine (o : Load β) (ctxs : List Bool) (s : St β) (i : Nat) : Pc β → Prop
  | .start c => ctxs[i]? = some c ∧ s.holder ≠ some i ∧ i ∉ s.loads
  | .slow => ctxs[i]? = some true ∧ s.holder ≠ some i ∧ i ∉ s.loads
  | .locked => ctxs[i]? = some true ∧ s.holder = some i ∧ i ∉ s.loads
  | .overlay => ctxs[i]? = some true ∧ s.holder = some i ∧ s.loads = [i] ∧ s.done = false ∧
      s.bi = none
  | .instances => ctxs[i]? = some true ∧ s.holder = some i ∧ s.loads = [i] ∧ s.done = false ∧
      o.inst.isSome = true
  | .validating => ctxs[i]? = some true ∧ s.holder = some i ∧ s.loads = [i] ∧ s.done = false ∧
      s.bi = o.inst
  | .storing p => ctxs[i]? = some true ∧ s.holder = some i ∧ s.loads = [i] ∧ s.done = false ∧
      s.bi = o.inst ∧ p = fails o
  | .unlocking p => ctxs[i]? = some true ∧ s.holder = some i ∧ s.done = true ∧
      (s.loads = [i] ∧ p = fails o ∨ i ∉ s.loads ∧ p = false)
  | .reading => ctxs[i]? = some true ∧ s.holder ≠ some i ∧ s.done = true ∧
      (i ∈ s.loads → fails o = false)
  | .building x => ctxs[i]? = some true ∧ s.holder ≠ some i ∧ s.done = true ∧
      (i ∈ s.loads → fails o = false) ∧ x = o.inst
  | .returned b => ctxs[i]? = some true ∧ s.holder ≠ some i ∧ s.done = true ∧
      (i ∈ s.loads → fails o = false) ∧ o.inst = some b
  | .panicked .nilContext => ctxs[i]? = some false ∧ s.holder ≠ some i ∧ i ∉ s.loads
  | .panicked .load => ctxs[i]? = some true ∧ s.holder ≠ some i ∧ s.done = true ∧
      s.loads = [i] ∧ fails o = true
  | .panicked .nilInstance => ctxs[i]? = some true ∧ s.holder ≠ some i ∧ s.done = true ∧
      i ∉ s.loads ∧ o.inst = none

/-- What is known of what is shared. -/
private structure Inv (o : Load β) (ctxs : List Bool) (s : St β) : Prop where
  len : s.pcs.length = ctxs.length
  fine : ∀ i pc, s.pcs[i]? = some pc → Fine o ctxs s i pc
  held : ∀ i, s.holder = some i → i < s.pcs.length
  before : s.done = false →
    s.bi = none ∧ s.loads = [] ∨ ∃ i, s.holder = some i ∧ s.loads = [i]
  after : s.done = true → s.bi = o.inst ∧ ∃ i, ctxs[i]? = some true ∧ s.loads = [i]

private theorem inv_init : Inv o ctxs (Runtime.init ctxs) := by
  refine ⟨by simp [Runtime.init], ?_, by simp [Runtime.init], by simp [Runtime.init],
    by simp [Runtime.init]⟩
  intro i pc h
  simp only [Runtime.init, List.getElem?_map, Option.map_eq_some_iff] at h
  obtain ⟨c, hc, rfl⟩ := h
  simp [Fine, Runtime.init, hc]

private theorem inv_step {s t : St β} {i : Nat} (h : Inv o ctxs s) (hs : step o s i = some t) :
    Inv o ctxs t := by
  obtain ⟨len, fine, held, before, after⟩ := h
  unfold step at hs
  cases hp : s.pcs[i]? with
  | none => simp [hp] at hs
  | some pc =>
    have hi : i < s.pcs.length := (List.getElem?_eq_some_iff.1 hp).1
    have hf := fine i pc hp
    simp only [hp, Option.map_eq_some_iff] at hs
    obtain ⟨r, hr, rfl⟩ := hs
    have other : ∀ (u : St β) (q : Pc β),
        u.pcs = s.pcs → Fine o ctxs { u with pcs := u.pcs.set i q } i q →
        (∀ j pc', j ≠ i → Fine o ctxs s j pc' → Fine o ctxs { u with pcs := u.pcs.set i q } j pc') →
        ∀ j pc', (u.pcs.set i q)[j]? = some pc' →
          Fine o ctxs { u with pcs := u.pcs.set i q } j pc' := by
      intro u q hu h1 h2 j pc' hj
      by_cases hji : j = i
      · subst hji
        rw [hu, List.getElem?_set_self hi] at hj
        cases hj
        exact h1
      · rw [hu, List.getElem?_set_ne (Ne.symm hji)] at hj
        exact h2 j pc' hji (fine j pc' hj)
    unfold next at hr
    split at hr
    all_goals (try split at hr)
    all_goals cases hr
    all_goals
      refine ⟨by simpa using len, other _ _ rfl ?_ ?_, ?_, ?_, ?_⟩
    all_goals clear other fine
    all_goals first
      | (intro j pc' hj hfj
         cases pc' <;> (try (rename_i w; cases w)) <;> simp only [Fine] at hf hfj ⊢ <;> grind)
      | (simp only [Fine] at hf ⊢; grind [Load.inst, fails])
      | grind [Load.inst, fails, Fine]
      | (cases o <;> grind [Load.inst, fails, Fine])

private theorem inv {n : Nat} {s : St β} (h : Run o ctxs n s) : Inv o ctxs s := by
  induction h with
  | init => exact inv_init
  | step _ hs ih => exact inv_step ih hs

/-- The call that holds the mutex can go on. -/
private theorem holder_steps {s : St β} {j : Nat} (h : Inv o ctxs s) (hj : s.holder = some j) :
    ctxs[j]? = some true ∧ ∃ t, step o s j = some t := by
  have hlt := h.held j hj
  have hp : s.pcs[j]? = some s.pcs[j] := List.getElem?_eq_getElem hlt
  have hf := h.fine j _ hp
  simp only [step, hp]
  generalize s.pcs[j] = pc at hf
  cases pc with
  | start c => simp [Fine, hj] at hf
  | panicked w => cases w <;> simp [Fine, hj] at hf
  | _ => first
    | (simp [Fine, hj] at hf; done)
    | (refine ⟨hf.1, Option.isSome_iff_exists.1 ?_⟩
       cases o <;> by_cases hd : s.done <;> simp [next, hd])

/-- **C208**: however many calls there are, and however they interleave, the package is loaded at most
once, and by one of the calls. -/
theorem C208_loaded_once {n : Nat} {s : St β} (h : Run o ctxs n s) :
    s.loads = [] ∨ ∃ i, ctxs[i]? = some true ∧ s.loads = [i] := by
  have hi := inv h
  cases hd : s.done with
  | true => exact .inr (hi.after hd).2
  | false =>
    rcases hi.before hd with h1 | ⟨i, h1, h2⟩
    · exact .inl h1.2
    · exact .inr ⟨i, (holder_steps hi h1).1, h2⟩

/-- **C208**: no call has a runtime, or has panicked but for its context, before loading has come to
its end. -/
theorem C208_not_before {n i : Nat} {s : St β} {pc : Pc β} (h : Run o ctxs n s)
    (hi : s.pcs[i]? = some pc) (he : pc.ended) (hc : ctxs[i]? = some true) :
    s.done = true ∧ s.bi = o.inst ∧ ∃ l, ctxs[l]? = some true ∧ s.loads = [l] := by
  have hv := inv h
  have hf := hv.fine i pc hi
  have hd : s.done = true := by
    cases pc with
    | returned b => exact hf.2.2.1
    | panicked w =>
      cases w with
      | nilContext => simp [Fine, hc] at hf
      | load => exact hf.2.2.1
      | nilInstance => exact hf.2.2.1
    | _ => exact he.elim
  exact ⟨hd, hv.after hd⟩

/-- **C208**: if the package is valid, then a call returns a runtime that is made from it, and panics
only for want of a context. -/
theorem C208_valid {b : β} {n i : Nat} {s : St β} (h : Run (.valid b) ctxs n s) :
    (∀ x, s.pcs[i]? = some (.returned x) → x = b ∧ ctxs[i]? = some true) ∧
    ∀ w, s.pcs[i]? = some (.panicked w) → w = .nilContext ∧ ctxs[i]? = some false := by
  have hv := inv h
  constructor
  · intro x hx
    have hf := hv.fine i _ hx
    simp only [Fine, Load.inst, Option.some.injEq] at hf
    exact ⟨hf.2.2.2.2.symm, hf.1⟩
  · intro w hw
    have hf := hv.fine i _ hw
    cases w <;> simp [Fine, Load.inst, fails] at hf ⊢
    exact hf.1

/-- A schedule. -/
def runSchedule (o : Load β) : St β → List Nat → Option (St β)
  | s, [] => some s
  | s, i :: is => (step o s i).bind fun t => runSchedule o t is

theorem run_schedule {n : Nat} (is : List Nat) : ∀ {m : Nat} {s t : St β}, Run o ctxs m s →
    runSchedule o s is = some t → m + is.length = n → Run o ctxs n t := by
  induction is with
  | nil => intro m s t h he hn; cases he; simpa [← hn] using h
  | cons i is ih =>
    intro m s t h he hn
    simp only [runSchedule, Option.bind_eq_some_iff] at he
    obtain ⟨u, h1, h2⟩ := he
    exact ih (.step h h1) h2 (by simp at hn; omega)

/-- Two calls with a context and one without, the second one waiting for the first. -/
def someSchedule : List Nat := [0, 1, 0, 0, 0, 2, 0, 0, 0, 0, 1, 0, 1, 0, 1, 1, 1]

example : ∃ s : St Nat, Run (.valid 7) [true, true, false] 17 s ∧
    s.pcs[0]? = some (.returned 7) ∧ s.pcs[1]? = some (.returned 7) ∧
    s.pcs[2]? = some (.panicked .nilContext) ∧ s.loads = [0] ∧ s.done = true :=
  ⟨_, run_schedule (m := 0) someSchedule .init rfl rfl, rfl, rfl, rfl, rfl, rfl⟩

/-- **C208**: an invalid package does not keep later calls from returning a runtime. -/
theorem C208_invalid_returned : ∃ s : St Nat, Run (.invalid 7) [true, true] 11 s ∧
    s.pcs[0]? = some (.panicked .load) ∧ s.pcs[1]? = some (.returned 7) :=
  ⟨_, run_schedule (m := 0) [0, 0, 0, 0, 0, 0, 0, 0, 1, 1, 1] .init rfl rfl, rfl, rfl⟩

/-- How many steps a call can still do. -/
private def rank : Pc β → Nat
  | .start _ => 10
  | .slow => 9
  | .locked => 8
  | .overlay => 7
  | .instances => 6
  | .validating => 5
  | .storing _ => 4
  | .unlocking _ => 3
  | .reading => 2
  | .building _ => 1
  | .returned _ => 0
  | .panicked _ => 0

private theorem sum_set (l : List (Pc β)) : ∀ (i : Nat) (p q : Pc β), l[i]? = some p →
    rank q < rank p → ((l.set i q).map rank).sum < (l.map rank).sum := by
  induction l with
  | nil => intro i p q h; simp at h
  | cons x xs ih =>
    intro i p q h hlt
    cases i with
    | zero => simp at h; subst h; simpa using hlt
    | succ i => simp at h; have := ih i p q h hlt; simp only [List.set_cons_succ, List.map_cons, List.sum_cons]; omega

private theorem next_rank {s : St β} {i : Nat} {pc : Pc β} {r : St β × Pc β}
    (h : next o s i pc = some r) : r.1.pcs = s.pcs ∧ rank r.2 < rank pc := by
  unfold next at h
  split at h
  all_goals (try split at h)
  all_goals cases h
  all_goals (refine ⟨rfl, ?_⟩; simp only [rank] <;> (try split) <;> simp)

/-- **C208**: every call ends: no schedule can go on for more than ten steps for each of them, and when
none can go on all have ended, so that there is no deadlock. -/
theorem C208_ends {n : Nat} {s : St β} (h : Run o ctxs n s) :
    n ≤ 10 * ctxs.length ∧ (Over o s → ∀ pc ∈ s.pcs, pc.ended) := by
  constructor
  · have : n + (s.pcs.map rank).sum ≤ 10 * ctxs.length := by
      induction h with
      | init =>
        simp only [Runtime.init, List.map_map]
        clear s n
        induction ctxs with
        | nil => simp
        | cons c cs ih => simp [rank] at ih ⊢; omega
      | @step n s i t _ hs ih =>
        unfold step at hs
        cases hp : s.pcs[i]? with
        | none => simp [hp] at hs
        | some pc =>
          simp only [hp, Option.map_eq_some_iff] at hs
          obtain ⟨r, hr, rfl⟩ := hs
          obtain ⟨h1, h2⟩ := next_rank hr
          have := sum_set s.pcs i pc r.2 hp h2
          simp only [h1]
          omega
    omega
  · intro ho pc hpc
    have hv := inv h
    obtain ⟨i, hi⟩ := List.mem_iff_getElem?.1 hpc
    have hs := ho i
    simp only [step, hi, Option.map_eq_none_iff] at hs
    cases pc with
    | returned b => trivial
    | panicked w => trivial
    | slow =>
      simp only [next, ite_eq_left_iff, reduceCtorEq, imp_false, Decidable.not_not] at hs
      obtain ⟨j, hj⟩ := Option.isSome_iff_exists.1 hs
      obtain ⟨t, ht⟩ := (holder_steps hv hj).2
      rw [ho j] at ht
      cases ht
    | start c => cases c <;> simp [next] at hs
    | building x => cases x <;> simp [next] at hs
    | _ => cases o <;> simp [next] at hs <;> (try split at hs) <;> simp at hs

/-- **C208**: how calls end.  If the package is valid then all that have a context get a runtime made
from it; if it is not, then one of them panics, and the others get a runtime made from the invalid
package; if it cannot be loaded then one panics with that, and the others because of a nil pointer. -/
theorem C208_outcomes {n : Nat} {s : St β} (h : Run o ctxs n s) (ho : Over o s) :
    s.pcs.length = ctxs.length ∧
    (∀ i : Nat, ctxs[i]? = some false → s.pcs[i]? = some (Pc.panicked .nilContext)) ∧
    match o with
    | .valid b => ∀ i : Nat, ctxs[i]? = some true → s.pcs[i]? = some (Pc.returned b)
    | .invalid b => true ∈ ctxs → ∃ l : Nat, ctxs[l]? = some true ∧
        s.pcs[l]? = some (Pc.panicked .load) ∧
        ∀ i : Nat, i ≠ l → ctxs[i]? = some true → s.pcs[i]? = some (Pc.returned b)
    | .noOverlay => true ∈ ctxs → ∃ l : Nat, ctxs[l]? = some true ∧
        s.pcs[l]? = some (Pc.panicked .load) ∧
        ∀ i : Nat, i ≠ l → ctxs[i]? = some true → s.pcs[i]? = some (Pc.panicked .nilInstance) := by
  have hv := inv h
  have he := (C208_ends h).2 ho
  have get : ∀ (i : Nat) (c : Bool), ctxs[i]? = some c → ∃ pc, s.pcs[i]? = some pc ∧ pc.ended ∧
      Fine o ctxs s i pc := by
    intro i c hc
    have hlt : i < s.pcs.length := by
      rw [hv.len]; exact (List.getElem?_eq_some_iff.1 hc).1
    exact ⟨s.pcs[i], List.getElem?_eq_getElem hlt, he _ (List.getElem_mem hlt),
      hv.fine i _ (List.getElem?_eq_getElem hlt)⟩
  have loader : true ∈ ctxs → ∃ l : Nat, ctxs[l]? = some true ∧ s.loads = [l] := by
    intro hm
    obtain ⟨i, hi⟩ := List.mem_iff_getElem?.1 hm
    obtain ⟨pc, h1, h2, _⟩ := get i _ hi
    exact (C208_not_before h h1 h2 hi).2.2
  refine ⟨hv.len, ?_, ?_⟩
  · intro i hi
    obtain ⟨pc, h1, h2, h3⟩ := get i _ hi
    cases pc with
    | returned b => simp [Fine, hi] at h3
    | panicked w => cases w <;> simp [Fine, hi] at h3; exact h1
    | _ => exact h2.elim
  · cases o with
    | valid b =>
      intro i hi
      obtain ⟨pc, h1, h2, h3⟩ := get i _ hi
      cases pc with
      | returned x => simp [Fine, Load.inst] at h3; rw [h1, h3.2.2.2.2]
      | panicked w => cases w <;> simp [Fine, hi, fails, Load.inst] at h3
      | _ => exact h2.elim
    | invalid b =>
      intro hm
      obtain ⟨l, hl, hL⟩ := loader hm
      refine ⟨l, hl, ?_, ?_⟩
      · obtain ⟨pc, h1, h2, h3⟩ := get l _ hl
        cases pc with
        | returned x => simp [Fine, hL, fails] at h3
        | panicked w => cases w <;> simp [Fine, hl, hL, fails, Load.inst] at h3; exact h1
        | _ => exact h2.elim
      · intro i hil hi
        obtain ⟨pc, h1, h2, h3⟩ := get i _ hi
        cases pc with
        | returned x => simp [Fine, Load.inst] at h3; rw [h1, h3.2.2.2.2]
        | panicked w =>
          cases w <;> simp [Fine, hi, hL, fails, Load.inst] at h3
          exact absurd h3.2.2.symm hil
        | _ => exact h2.elim
    | noOverlay =>
      intro hm
      obtain ⟨l, hl, hL⟩ := loader hm
      refine ⟨l, hl, ?_, ?_⟩
      · obtain ⟨pc, h1, h2, h3⟩ := get l _ hl
        cases pc with
        | returned x => simp [Fine, hL, fails] at h3
        | panicked w => cases w <;> simp [Fine, hl, hL, fails, Load.inst] at h3; exact h1
        | _ => exact h2.elim
      · intro i hil hi
        obtain ⟨pc, h1, h2, h3⟩ := get i _ hi
        cases pc with
        | returned x => simp [Fine, Load.inst] at h3
        | panicked w =>
          cases w <;> simp [Fine, hi, hL, fails, Load.inst] at h3
          · exact absurd h3.2.2.symm hil
          · exact h1
        | _ => exact h2.elim

example : ∃ (s : St Nat), Run (.noOverlay) [true, true] 9 s ∧ Over .noOverlay s ∧
    s.pcs[0]? = some (.panicked .load) ∧ s.pcs[1]? = some (.panicked .nilInstance) := by
  refine ⟨_, run_schedule (m := 0) [0, 0, 0, 0, 0, 0, 1, 1, 1] .init rfl rfl, ?_, rfl, rfl⟩
  intro i
  rcases i with _ | _ | i <;> rfl

end Thema.Props

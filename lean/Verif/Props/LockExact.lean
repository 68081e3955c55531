import Verif.Props.Lock

/-!
# Which calls may run at the same time (C156)
-/

namespace Thema.Props

open Spec Thema.Lock

variable {s s' : St} {block : St → Nat → Prop} {mp : Bool} {S : List Api}

/-- Where a goroutine is comes from an action that satisfies `P`. -/
def CameBy (P : Act → Prop) : Status → Prop
  | .out => True
  | .waiting d => P (.sec .w d)
  | .inside k d => P (.sec k d)
  | .evaluating => P .free
  | .stuck k => P (.sec k false)

theorem cameBy_set {P : Act → Prop} {i : Nat} {v : Thr}
    (h : ∀ t ∈ s, CameBy P t.st ∧ ∀ x ∈ t.prog, P x) (hv : CameBy P v.st ∧ ∀ x ∈ v.prog, P x) :
    ∀ t ∈ s.set i v, CameBy P t.st ∧ ∀ x ∈ t.prog, P x := by
  intro u hu
  rcases List.mem_or_eq_of_mem_set hu with hu | rfl
  · exact h u hu
  · exact hv

theorem cameBy_step {P : Act → Prop} (h : ∀ t ∈ s, CameBy P t.st ∧ ∀ x ∈ t.prog, P x)
    (hs : Step block mp s s') : ∀ t ∈ s', CameBy P t.st ∧ ∀ x ∈ t.prog, P x := by
  cases hs with
  | enterR hi _ _ =>
    have := (h _ (List.mem_of_getElem? hi)).2
    exact cameBy_set h ⟨this _ List.mem_cons_self, fun x hx => this x (List.mem_cons_of_mem _ hx)⟩
  | callLock hi =>
    have := (h _ (List.mem_of_getElem? hi)).2
    exact cameBy_set h ⟨this _ List.mem_cons_self, fun x hx => this x (List.mem_cons_of_mem _ hx)⟩
  | beginFree hi =>
    have := (h _ (List.mem_of_getElem? hi)).2
    exact cameBy_set h ⟨this _ List.mem_cons_self, fun x hx => this x (List.mem_cons_of_mem _ hx)⟩
  | enterW hi _ _ =>
    have := h _ (List.mem_of_getElem? hi)
    exact cameBy_set h ⟨this.1, this.2⟩
  | leave hi => exact cameBy_set h ⟨trivial, (h _ (List.mem_of_getElem? hi)).2⟩
  | endFree hi => exact cameBy_set h ⟨trivial, (h _ (List.mem_of_getElem? hi)).2⟩
  | panicDeferred _ hi => exact cameBy_set h ⟨trivial, by simp⟩
  | panicHeld _ hi =>
    exact cameBy_set h ⟨(h _ (List.mem_of_getElem? hi)).1, by simp⟩

/-- What goroutines do is among the actions of the calls. -/
theorem cameBy_of {P : Act → Prop} (hS : ∀ a ∈ S, ∀ x ∈ a.acts, P x) (h0 : InitialOf S s)
    (h : Steps block mp s s') : ∀ t ∈ s', CameBy P t.st ∧ ∀ x ∈ t.prog, P x := by
  induction h with
  | refl =>
    intro t ht
    refine ⟨?_, callsOf_acts hS (h0 t ht).2⟩
    rw [(h0 t ht).1]
    trivial
  | tail _ hs ih => exact cameBy_step ih hs

theorem steps_trans {a b c : St} (h : Steps block mp a b) (h' : Steps block mp b c) :
    Steps block mp a c := by
  induction h' with
  | refl => exact h
  | tail _ hs ih => exact .tail ih hs

/-- Nobody holds the lock or waits for it. -/
def Idle (t : Thr) : Prop :=
  (∀ k d, t.st ≠ .inside k d) ∧ (∀ k, t.st ≠ .stuck k) ∧ ∀ d, t.st ≠ .waiting d

theorem two_noHolder {t u : Thr} (k : Kind) (ht : Idle t) (hu : (∀ d, u.st ≠ .inside k d) ∧
    u.st ≠ .stuck k) : noHolder [u, t] k := by
  intro x hx hh
  simp only [List.mem_cons, List.not_mem_nil, or_false] at hx
  rcases hx with rfl | rfl
  · rcases hh with ⟨d, hh⟩ | hh
    · exact hu.1 d hh
    · exact hu.2 hh
  · rcases hh with ⟨d, hh⟩ | hh
    · exact ht.1 k d hh
    · exact ht.2.1 k hh

theorem two_noBlock {t u : Thr} (i : Nat) (ht : Idle t) (hu : ∀ d, u.st ≠ .waiting d) :
    ¬ goBlock [u, t] i := by
  rintro ⟨x, hx, d, hh⟩
  simp only [List.mem_cons, List.not_mem_nil, or_false] at hx
  rcases hx with rfl | rfl
  · exact hu d hh
  · exact ht.2.2 d hh

/-- A goroutine that is alone with an idle one can do all its actions. -/
theorem run_alone {t : Thr} (ht : Idle t) (p : List Act) : ∀ pre : List Act,
    Steps goBlock mp [⟨.out, pre ++ p⟩, t] [⟨.out, p⟩, t] := by
  intro pre
  induction pre with
  | nil => exact .refl
  | cons a pre ih =>
    refine steps_trans ?_ ih
    cases a with
    | free =>
      exact .tail (.tail .refl (.beginFree (i := 0) (p := pre ++ p) rfl))
        (.endFree (i := 0) (p := pre ++ p) rfl)
    | sec k d =>
      cases k with
      | r =>
        exact .tail (.tail .refl (.enterR (i := 0) (d := d) (p := pre ++ p) rfl
          (two_noHolder _ ht (by simp)) (two_noBlock _ ht (by simp))))
          (.leave (i := 0) (k := .r) (d := d) (p := pre ++ p) rfl)
      | w =>
        exact .tail (.tail (.tail .refl (.callLock (i := 0) (d := d) (p := pre ++ p) rfl))
          (.enterW (i := 0) (d := d) (p := pre ++ p) rfl
            (two_noHolder _ ht (by simp)) (two_noHolder _ ht (by simp))))
          (.leave (i := 0) (k := .w) (d := d) (p := pre ++ p) rfl)

theorem initial_two {a b : Api} (ha : a ∈ S) (hb : b ∈ S) :
    InitialOf S [⟨.out, a.acts⟩, ⟨.out, b.acts⟩] := by
  intro t ht
  simp only [List.mem_cons, List.not_mem_nil, or_false] at ht
  rcases ht with rfl | rfl
  · exact ⟨rfl, by simpa using CallsOf.call ha (List.prefix_refl _) .nil⟩
  · exact ⟨rfl, by simpa using CallsOf.call hb (List.prefix_refl _) .nil⟩

/-- The calls that write. -/
theorem writer_acts {a : Api} (h : a = .bindLineage ∨ a = .translate) :
    ∃ p, a.acts = .sec .w true :: p := by
  rcases h with rfl | rfl <;> exact ⟨_, rfl⟩

/-- **C156**.  Programs made of the calls in `S` can come to a state in which one
goroutine has the runtime exclusively and another evaluates CUE values of it, exactly
if `S` has a call that writes (BindLineage, Translate with CUE lenses) and a call that
evaluates without the lock (BindType, Value, Translate, Hydrate or Dehydrate). -/
theorem C156_race_iff :
    (∃ (s s' : St) (i j : Nat) (ti tj : Thr) (d : Bool), InitialOf S s ∧
      Steps goBlock false s s' ∧ s'[i]? = some ti ∧ s'[j]? = some tj ∧ i ≠ j ∧
      ti.st = .inside .w d ∧ Evaluates tj) ↔
    (.bindLineage ∈ S ∨ .translate ∈ S) ∧
      (.bindType ∈ S ∨ .typedValue ∈ S ∨ .translate ∈ S ∨ .hydrate ∈ S) := by
  constructor
  · rintro ⟨s, s', i, j, ti, tj, d, h0, h, hi, hj, hij, hw, he⟩
    refine ⟨Classical.byContradiction fun hn => ?_, Classical.byContradiction fun hn => ?_⟩
    · have hS : ∀ a ∈ S, ∀ x ∈ a.acts, x ≠ .sec .w true ∧ x ≠ .sec .w false := by
        intro a ha x hx
        cases a <;> simp only [Api.acts, List.mem_cons, List.not_mem_nil, or_false] at hx
        case bindLineage => exact absurd (.inl ha) hn
        case translate => exact absurd (.inr ha) hn
        all_goals (rcases hx with rfl | rfl <;> simp)
      have := (cameBy_of (P := fun x => x ≠ .sec .w true ∧ x ≠ .sec .w false) hS h0 h ti
        (List.mem_of_getElem? hi)).1
      rw [hw] at this
      cases d
      · exact this.2 rfl
      · exact this.1 rfl
    · have hS : ∀ a ∈ S, ∀ x ∈ a.acts, x ≠ .free := by
        intro a ha x hx
        cases a <;> simp only [Api.acts, List.mem_cons, List.not_mem_nil, or_false] at hx
        case bindType => exact absurd (.inl ha) hn
        case typedValue => exact absurd (.inr (.inl ha)) hn
        case translate => exact absurd (.inr (.inr (.inl ha))) hn
        case hydrate => exact absurd (.inr (.inr (.inr ha))) hn
        all_goals (subst hx; simp)
      have := (cameBy_of (P := fun x => x ≠ .free) hS h0 h tj (List.mem_of_getElem? hj)).1
      rcases he with he | he
      · exact C45_writers_exclusive (initial_of h0) h hi hj hw hij he
      · rw [he] at this
        exact this rfl
  · rintro ⟨hw, hf⟩
    obtain ⟨w, hwS, hwa⟩ : ∃ w ∈ S, w = Api.bindLineage ∨ w = .translate := by
      rcases hw with h | h
      · exact ⟨_, h, .inl rfl⟩
      · exact ⟨_, h, .inr rfl⟩
    obtain ⟨a, haS, pre, post, hacts⟩ : ∃ a ∈ S, ∃ pre post, a.acts = pre ++ Act.free :: post := by
      rcases hf with h | h | h | h
      · exact ⟨_, h, [.sec .r true], [], rfl⟩
      · exact ⟨_, h, [.sec .r false], [], rfl⟩
      · exact ⟨_, h, [.sec .w true, .sec .r false], [.sec .r true], rfl⟩
      · exact ⟨_, h, [], [], rfl⟩
    obtain ⟨p, hp⟩ := writer_acts hwa
    refine ⟨_, [⟨.evaluating, post⟩, ⟨.inside .w true, p⟩], 1, 0, _, _, true,
      initial_two haS hwS, ?_, rfl, rfl, by decide, rfl, .inr rfl⟩
    rw [hacts, hp]
    have hidle : Idle ⟨.out, .sec .w true :: p⟩ := by simp [Idle]
    have hev : ∀ (k : Kind) (q : List Act), noHolder [⟨.evaluating, post⟩, ⟨.waiting true, q⟩] k := by
      intro k q x hx hh
      simp only [List.mem_cons, List.not_mem_nil, or_false] at hx
      rcases hx with rfl | rfl <;> simp [Thr.holds] at hh
    exact .tail (.tail (.tail (run_alone hidle (.free :: post) pre)
      (.beginFree (i := 0) (p := post) rfl))
      (.callLock (i := 1) (d := true) (p := p) rfl))
      (.enterW (i := 1) (d := true) (p := p) rfl (hev _ _) (hev _ _))

theorem held_acts (hn : ¬ (.newT ∈ S ∨ .typedValue ∈ S ∨ .translate ∈ S)) :
    ∀ a ∈ S, ∀ x ∈ a.acts, ∀ k, x ≠ .sec k false := by
  intro a ha x hx k
  cases a <;> simp only [Api.acts, List.mem_cons, List.not_mem_nil, or_false] at hx
  case newT => exact absurd (.inl ha) hn
  case typedValue => exact absurd (.inr (.inl ha)) hn
  case translate => exact absurd (.inr (.inr ha)) hn
  case bindType => rcases hx with rfl | rfl <;> simp
  all_goals (subst hx; simp)

theorem leaker_acts (h : .newT ∈ S ∨ .typedValue ∈ S ∨ .translate ∈ S) :
    ∃ a ∈ S, ∃ pre post, a.acts = pre ++ Act.sec .r false :: post := by
  rcases h with h | h | h
  · exact ⟨_, h, [], [], rfl⟩
  · exact ⟨_, h, [], [.free], rfl⟩
  · exact ⟨_, h, [.sec .w true], [.free, .sec .r true], rfl⟩

/-- The first goroutine ends by a panic with the lock held. -/
theorem run_leak {t : Thr} (ht : Idle t) {pre post : List Act} :
    Steps goBlock true [⟨.out, pre ++ .sec .r false :: post⟩, t] [⟨.stuck .r, []⟩, t] :=
  .tail (.tail (run_alone ht _ pre) (.enterR (i := 0) (d := false) (p := post) rfl
    (two_noHolder _ ht (by simp)) (two_noBlock _ ht (by simp))))
    (.panicHeld (i := 0) (k := .r) (p := post) rfl rfl)

/-- **C156**.  A panic inside CUE can leave the runtime locked exactly if the program
calls NewT, Value or Translate with CUE lenses. -/
theorem C156_leak_iff :
    (∃ (s s' : St) (t : Thr) (k : Kind), InitialOf S s ∧ Steps goBlock true s s' ∧ t ∈ s' ∧
      t.st = .stuck k) ↔ .newT ∈ S ∨ .typedValue ∈ S ∨ .translate ∈ S := by
  constructor
  · rintro ⟨s, s', t, k, h0, h, ht, hst⟩
    refine Classical.byContradiction fun hn => ?_
    have := (cameBy_of (P := fun x => ∀ k, x ≠ .sec k false) (held_acts hn) h0 h t ht).1
    rw [hst] at this
    exact this k rfl
  · intro hl
    obtain ⟨a, haS, pre, post, hacts⟩ := leaker_acts hl
    refine ⟨[⟨.out, a.acts⟩, ⟨.out, []⟩], [⟨.stuck .r, []⟩, ⟨.out, []⟩], ⟨.stuck .r, []⟩, .r, ?_, ?_, by simp, rfl⟩
    · intro t ht
      simp only [List.mem_cons, List.not_mem_nil, or_false] at ht
      rcases ht with rfl | rfl
      · exact ⟨rfl, by simpa using CallsOf.call haS (List.prefix_refl _) .nil⟩
      · exact ⟨rfl, .nil⟩
    · rw [hacts]
      exact run_leak (by simp [Idle])

/-- Nobody writes: everybody that has not ended can go on, stuck readers or not. -/
theorem readers_progress (hnw : ∀ t ∈ s, CameBy (fun x => ∀ d, x ≠ .sec .w d) t.st ∧
    ∀ x ∈ t.prog, ∀ d, x ≠ .sec .w d) (hd : ∃ t ∈ s, ¬ t.done ∧ ∀ k, t.st ≠ .stuck k) :
    ∃ u, Step goBlock mp s u := by
  obtain ⟨⟨st, p⟩, ht, hnd, hns⟩ := hd
  obtain ⟨i, hi⟩ := List.getElem?_of_mem ht
  cases st with
  | out =>
    cases p with
    | nil => exact absurd ⟨rfl, rfl⟩ hnd
    | cons a p =>
      cases a with
      | free => exact ⟨_, .beginFree hi⟩
      | sec k d =>
        cases k with
        | r =>
          refine ⟨_, .enterR hi ?_ ?_⟩
          · intro u hu hh
            have := (hnw u hu).1
            rcases hh with ⟨d, hh⟩ | hh <;> rw [hh] at this
            · exact this d rfl
            · exact this false rfl
          · rintro ⟨u, hu, d, hh⟩
            have := (hnw u hu).1
            rw [hh] at this
            exact this d rfl
        | w => exact absurd rfl ((hnw _ ht).2 (.sec .w d) (by simp) d)
  | waiting d => exact absurd rfl ((hnw _ ht).1 d)
  | inside k d => exact ⟨_, .leave hi⟩
  | evaluating => exact ⟨_, .endFree hi⟩
  | stuck k => exact absurd rfl (hns k)

/-- **C156**.  After a panic inside CUE, goroutines can be blocked for ever exactly if
the program calls one of NewT, Value and Translate, and a call that writes. -/
theorem C156_deadlock_iff :
    (∃ s s' : St, InitialOf S s ∧ Steps goBlock true s s' ∧
      (∃ t ∈ s', ¬ t.done ∧ ∀ k, t.st ≠ .stuck k) ∧ ¬ ∃ u, Step goBlock true s' u) ↔
    (.newT ∈ S ∨ .typedValue ∈ S ∨ .translate ∈ S) ∧ (.bindLineage ∈ S ∨ .translate ∈ S) := by
  constructor
  · rintro ⟨s, s', h0, h, hd, hno⟩
    refine ⟨Classical.byContradiction fun hn => ?_, Classical.byContradiction fun hn => ?_⟩
    · have hns : NoStuck s' := by
        intro t ht k hst
        have := (cameBy_of (P := fun x => ∀ k, x ≠ .sec k false) (held_acts hn) h0 h t ht).1
        rw [hst] at this
        exact this k rfl
      obtain ⟨t, ht, hnd, _⟩ := hd
      exact hno (progress_of_noStuck goBlock_pref hns ⟨t, ht, hnd⟩)
    · have hS : ∀ a ∈ S, ∀ x ∈ a.acts, ∀ d, x ≠ .sec .w d := by
        intro a ha x hx d
        cases a <;> simp only [Api.acts, List.mem_cons, List.not_mem_nil, or_false] at hx
        case bindLineage => exact absurd (.inl ha) hn
        case translate => exact absurd (.inr ha) hn
        case bindType => rcases hx with rfl | rfl <;> simp
        case typedValue => rcases hx with rfl | rfl <;> simp
        all_goals (subst hx; simp)
      exact hno (readers_progress
        (cameBy_of (P := fun x => ∀ d, x ≠ .sec .w d) hS h0 h) hd)
  · rintro ⟨hl, hw⟩
    obtain ⟨a, haS, pre, post, hacts⟩ := leaker_acts hl
    obtain ⟨w, hwS, hwa⟩ : ∃ w ∈ S, w = Api.bindLineage ∨ w = .translate := by
      rcases hw with h | h
      · exact ⟨_, h, .inl rfl⟩
      · exact ⟨_, h, .inr rfl⟩
    obtain ⟨p, hp⟩ := writer_acts hwa
    refine ⟨_, [⟨.stuck .r, []⟩, ⟨.waiting true, p⟩], initial_two haS hwS, ?_, ?_, ?_⟩
    · rw [hacts, hp]
      exact .tail (run_leak (by simp [Idle])) (.callLock (i := 1) (d := true) (p := p) rfl)
    · exact ⟨⟨.waiting true, p⟩, by simp, by simp [Thr.done], by simp⟩
    · rintro ⟨u, hu⟩
      have get : ∀ (i : Nat) (t : Thr), ([⟨.stuck .r, []⟩, ⟨.waiting true, p⟩] : St)[i]? = some t →
          t = ⟨.stuck .r, []⟩ ∨ t = ⟨.waiting true, p⟩ := by
        intro i t h
        have := List.mem_of_getElem? h
        simpa using this
      cases hu with
      | enterR hi _ _ | callLock hi | leave hi | endFree hi | beginFree hi
      | panicDeferred _ hi | panicHeld _ hi => rcases get _ _ hi with h | h <;> simp at h
      | enterW hi hw hr => exact hr ⟨.stuck .r, []⟩ (by simp) (Or.inr rfl)

/-- A server that binds while it validates and makes typed values. -/
example : (∃ (s s' : St) (i j : Nat) (ti tj : Thr) (d : Bool),
      InitialOf [.bindLineage, .validate, .typedValue] s ∧ Steps goBlock false s s' ∧
      s'[i]? = some ti ∧ s'[j]? = some tj ∧ i ≠ j ∧ ti.st = .inside .w d ∧ Evaluates tj) ∧
    ∃ s s' : St, InitialOf [.bindLineage, .validate, .typedValue] s ∧ Steps goBlock true s s' ∧
      (∃ t ∈ s', ¬ t.done ∧ ∀ k, t.st ≠ .stuck k) ∧ ¬ ∃ u, Step goBlock true s' u :=
  ⟨C156_race_iff.2 (by simp), C156_deadlock_iff.2 (by simp)⟩

/-- One that only validates data with lineages bound before: no lock stays held. -/
example : ¬ ∃ (s s' : St) (t : Thr) (k : Kind), InitialOf [.bindLineage, .validate] s ∧
    Steps goBlock true s s' ∧ t ∈ s' ∧ t.st = .stuck k :=
  fun h => by simpa using C156_leak_iff.1 h

end Thema.Props

import Verif.Spec.Lock
import Mathlib.Data.List.Basic

/-!
# Runtime locking (C45, C46, C60)
-/

namespace Thema.Props

open Thema.Lock Thema.Spec

variable {block : St → Nat → Prop} {mp : Bool} {s s' : St}

/-- Writers are alone. -/
def Exclusive (s : St) : Prop :=
  ∀ (i j : Nat) (ti tj : Thr), s[i]? = some ti → s[j]? = some tj → ti.holds .w → (∃ k, tj.holds k) → i = j

theorem holds_kind {t : Thr} {k k' : Kind} (h : t.holds k) (h' : t.holds k') : k = k' := by
  rcases h with ⟨d, h⟩ | h <;> rcases h' with ⟨d', h'⟩ | h' <;> rw [h] at h' <;>
    simp at h'
  · exact h'.1
  · exact h'

theorem set_get {s : St} {i j : Nat} {t u : Thr} (h : (s.set i t)[j]? = some u) :
    (i = j ∧ u = t) ∨ (i ≠ j ∧ s[j]? = some u) := by
  rw [List.getElem?_set] at h
  split at h
  · split at h
    · left; exact ⟨by assumption, (Option.some.inj h).symm⟩
    · cases h
  · right; exact ⟨by assumption, h⟩

theorem exclusive_set_nonholder (h : Exclusive s) {i : Nat} {t : Thr} (ht : ∀ k, ¬ t.holds k) :
    Exclusive (s.set i t) := by
  intro a b ta tb ha hb hw hk
  rcases set_get ha with ⟨_, rfl⟩ | ⟨_, ha⟩
  · exact absurd hw (ht _)
  · rcases set_get hb with ⟨_, rfl⟩ | ⟨_, hb⟩
    · obtain ⟨k, hk⟩ := hk; exact absurd hk (ht k)
    · exact h a b ta tb ha hb hw hk

/-- Replacing a holder by a holder of the same kind. -/
theorem exclusive_set_same (h : Exclusive s) {i : Nat} {t u : Thr} {k : Kind}
    (hi : s[i]? = some u) (hu : u.holds k) (ht : ∀ k', t.holds k' → k' = k) :
    Exclusive (s.set i t) := by
  intro a b ta tb ha hb hw hk
  rcases set_get ha with ⟨rfl, rfl⟩ | ⟨_, ha'⟩
  · have := ht _ hw
    subst this
    rcases set_get hb with ⟨rfl, rfl⟩ | ⟨_, hb⟩
    · rfl
    · exact h i b u tb hi hb hu hk
  · rcases set_get hb with ⟨rfl, rfl⟩ | ⟨_, hb⟩
    · obtain ⟨k', hk⟩ := hk
      have := ht _ hk
      subst this
      exact h a i ta u ha' hi hw ⟨_, hu⟩
    · exact h a b ta tb ha' hb hw hk

theorem not_holds_out {p : List Act} (k : Kind) : ¬ (Thr.mk .out p).holds k := by
  simp [Thr.holds]

theorem exclusive_step (h : Exclusive s) (hs : Step block mp s s') : Exclusive s' := by
  cases hs with
  | @enterR i d p hi hn hb =>
    intro a b ta tb ha hb hw hk
    rcases set_get ha with ⟨rfl, rfl⟩ | ⟨hia, ha⟩
    · simp [Thr.holds] at hw
    · exact absurd hw (hn ta (List.mem_of_getElem? ha))
  | @callLock i d p hi => exact exclusive_set_nonholder h (by simp [Thr.holds])
  | @enterW i d p hi hw' hr =>
    intro a b ta tb ha hb hw hk
    have hnone : ∀ (j : Nat) (u : Thr), s[j]? = some u → ∀ k, ¬ u.holds k := by
      intro j u hj k
      cases k
      · exact hr u (List.mem_of_getElem? hj)
      · exact hw' u (List.mem_of_getElem? hj)
    rcases set_get ha with ⟨rfl, rfl⟩ | ⟨_, ha⟩
    · rcases set_get hb with ⟨rfl, rfl⟩ | ⟨_, hb⟩
      · rfl
      · obtain ⟨k, hk⟩ := hk
        exact absurd hk (hnone b tb hb k)
    · exact absurd hw (hnone a ta ha _)
  | @leave i k d p hi => exact exclusive_set_nonholder h (by simp [Thr.holds])
  | @beginFree i p hi => exact exclusive_set_nonholder h (by simp [Thr.holds])
  | @endFree i p hi => exact exclusive_set_nonholder h (by simp [Thr.holds])
  | @panicDeferred i k p _ hi => exact exclusive_set_nonholder h (by simp [Thr.holds])
  | @panicHeld i k p _ hi =>
    refine exclusive_set_same h hi (k := k) (Or.inl ⟨_, rfl⟩) ?_
    intro k' hk'
    simpa [Thr.holds, eq_comm] using hk'

theorem exclusive_initial (h : Initial s) : Exclusive s := by
  intro i j ti tj hi _ hw _
  have := (h ti (List.mem_of_getElem? hi)).1
  rcases hw with ⟨d, hw⟩ | hw <;> rw [this] at hw <;> cases hw

/-- **C45**.  In every state that any number of goroutines can reach by any
interleaving of public calls: while a goroutine is inside a writer section, no
other goroutine is inside any section.  Also if CUE panics, and whatever the
mutex's policy towards readers. -/
theorem C45_writers_exclusive (h0 : Initial s) (h : Steps block mp s s') {i j : Nat}
    {ti tj : Thr} (hi : s'[i]? = some ti) (hj : s'[j]? = some tj) {d : Bool}
    (hw : ti.st = .inside .w d) (hij : i ≠ j) : ¬ ∃ k d', tj.st = .inside k d' := by
  have : Exclusive s' := by
    clear hi hj
    induction h with
    | refl => exact exclusive_initial h0
    | tail _ hs ih => exact exclusive_step ih hs
  rintro ⟨k, d', hk⟩
  exact hij (this i j ti tj hi hj (Or.inl ⟨d, hw⟩) ⟨k, Or.inl ⟨d', hk⟩⟩)

/-- **C45**.  Binding a lineage is exclusive: while a goroutine that was started to call
`BindLineage` is inside a section, no other goroutine is inside any. -/
theorem C45_bind_exclusive (h0 : Initial s) (h : Steps block mp s s') {i j : Nat}
    (hs : s[i]? = some ⟨.out, Api.bindLineage.acts⟩) {ti tj : Thr} (hi : s'[i]? = some ti)
    (hj : s'[j]? = some tj) {k : Kind} {d : Bool} (hw : ti.st = .inside k d) (hij : i ≠ j) :
    ¬ ∃ k d', tj.st = .inside k d' := by
  have inv : ∀ t, s'[i]? = some t → t = ⟨.out, [.sec .w true]⟩ ∨ t = ⟨.waiting true, []⟩ ∨
      t = ⟨.inside .w true, []⟩ ∨ t = ⟨.out, []⟩ := by
    clear hi hj
    induction h with
    | refl => intro t ht; rw [hs] at ht; cases ht; exact .inl rfl
    | @tail b _ _ hst ih =>
      have key : ∀ {x : Nat} {a c : Thr}, b[x]? = some a →
          (a = ⟨.out, [.sec .w true]⟩ ∨ a = ⟨.waiting true, []⟩ ∨
            a = ⟨.inside .w true, []⟩ ∨ a = ⟨.out, []⟩ →
          c = ⟨.out, [.sec .w true]⟩ ∨ c = ⟨.waiting true, []⟩ ∨
            c = ⟨.inside .w true, []⟩ ∨ c = ⟨.out, []⟩) →
          ∀ t, (b.set x c)[i]? = some t → t = ⟨.out, [.sec .w true]⟩ ∨ t = ⟨.waiting true, []⟩ ∨
            t = ⟨.inside .w true, []⟩ ∨ t = ⟨.out, []⟩ := by
        intro x a c hx hc t ht
        rw [List.getElem?_set] at ht
        split at ht
        · next he =>
          subst he
          split at ht
          · cases ht; exact hc (ih _ hx)
          · cases ht
        · exact ih _ ht
      cases hst with
      | enterR hx _ _ | callLock hx | enterW hx _ _ | leave hx | beginFree hx | endFree hx
      | panicDeferred _ hx | panicHeld _ hx =>
        refine key hx fun hc => ?_
        simp only [Thr.mk.injEq, reduceCtorEq, List.cons.injEq, Act.sec.injEq, false_and,
          and_false, or_false, false_or, Status.inside.injEq, Status.waiting.injEq] at hc ⊢
        try simp_all
  rcases inv ti hi with he | he | he | he <;> rw [he] at hw
  · cases hw
  · cases hw
  · exact C45_writers_exclusive h0 h hi hj (d := true) (by rw [he]) hij
  · cases hw

/-- No goroutine has ended with the lock held. -/
def NoStuck (s : St) : Prop := ∀ t ∈ s, ∀ k, t.st ≠ .stuck k

theorem noStuck_set {i : Nat} {t : Thr} (h : NoStuck s) (ht : ∀ k, t.st ≠ .stuck k) :
    NoStuck (s.set i t) := by
  intro u hu k
  rcases List.mem_or_eq_of_mem_set hu with hu | rfl
  · exact h u hu k
  · exact ht k

theorem noStuck_step (h : NoStuck s) (hs : Step block false s s') : NoStuck s' := by
  cases hs with
  | panicDeferred hm _ => cases hm
  | panicHeld hm _ => cases hm
  | _ => exact noStuck_set h (by simp)

/-- In a state without stuck goroutines, somebody can take a step unless all have
finished. -/
theorem progress_of_noStuck (hb : WriterPreference block) (hn : NoStuck s)
    (hd : ∃ t ∈ s, ¬ t.done) : ∃ s', Step block mp s s' := by
  by_cases hin : ∃ (i : Nat) (t : Thr), s[i]? = some t ∧ ∃ k d, t.st = .inside k d
  · obtain ⟨i, ⟨st, p⟩, hi, k, d, hst⟩ := hin
    simp only at hst
    subst hst
    exact ⟨_, .leave hi⟩
  · have hno : ∀ k, noHolder s k := by
      intro k t ht hh
      rcases hh with ⟨d, hh⟩ | hh
      · obtain ⟨i, hi⟩ := List.getElem?_of_mem ht
        exact hin ⟨i, t, hi, k, d, hh⟩
      · exact hn t ht k hh
    by_cases hw : ∃ (i : Nat) (t : Thr), s[i]? = some t ∧ ∃ d, t.st = .waiting d
    · obtain ⟨i, ⟨st, p⟩, hi, d, hst⟩ := hw
      simp only at hst
      subst hst
      exact ⟨_, .enterW hi (hno _) (hno _)⟩
    · have hnb : ∀ i, ¬ block s i := by
        intro i hbl
        obtain ⟨t, ht, d, hst⟩ := hb s i hbl
        obtain ⟨j, hj⟩ := List.getElem?_of_mem ht
        exact hw ⟨j, t, hj, d, hst⟩
      obtain ⟨⟨st, p⟩, ht, hnd⟩ := hd
      obtain ⟨i, hi⟩ := List.getElem?_of_mem ht
      cases st with
      | out =>
        cases p with
        | nil => exact absurd ⟨rfl, rfl⟩ hnd
        | cons a p =>
          cases a with
          | free => exact ⟨_, .beginFree hi⟩
          | sec k d =>
            cases k with
            | r => exact ⟨_, .enterR hi (hno _) (hnb i)⟩
            | w => exact ⟨_, .callLock hi⟩
      | waiting d => exact absurd ⟨i, _, hi, d, rfl⟩ hw
      | inside k d => exact absurd ⟨i, _, hi, k, d, rfl⟩ hin
      | evaluating => exact ⟨_, .endFree hi⟩
      | stuck k => exact absurd rfl (hn _ ht k)

theorem noStuck_initial (h : Initial s) : NoStuck s := by
  intro t ht k hk
  rw [(h t ht).1] at hk
  cases hk

/-- **C45**.  No deadlock: as long as CUE does not panic, in every reachable state
in which some goroutine has not finished, some goroutine can take a step, even if
waiting writers keep new readers out. -/
theorem C45_progress (hb : WriterPreference block) (h0 : Initial s)
    (h : Steps block false s s') (hd : ∃ t ∈ s', ¬ t.done) : ∃ u, Step block false s' u := by
  refine progress_of_noStuck hb ?_ hd
  clear hd
  induction h with
  | refl => exact noStuck_initial h0
  | tail _ hs ih => exact noStuck_step ih hs

/-- Remaining work of a goroutine. -/
def work (t : Thr) : Nat :=
  3 * t.prog.length + (match t.st with
    | .out => 0
    | .waiting _ => 2
    | .inside _ _ => 1
    | .evaluating => 1
    | .stuck _ => 0)

theorem work_set {i : Nat} {t u : Thr} (hi : s[i]? = some u) (h : work t < work u) :
    ((s.set i t).map work).sum < (s.map work).sum := by
  induction s generalizing i with
  | nil => simp at hi
  | cons x s ih =>
    cases i with
    | zero =>
      simp only [List.getElem?_cons_zero, Option.some.injEq] at hi
      subst hi
      simp only [List.set_cons_zero, List.map_cons, List.sum_cons]
      omega
    | succ i =>
      have := ih (by simpa using hi)
      simp only [List.set_cons_succ, List.map_cons, List.sum_cons]
      omega

theorem step_work (hs : Step block mp s s') : (s'.map work).sum < (s.map work).sum := by
  cases hs with
  | enterR hi _ _ => exact work_set hi (by simp [work]; omega)
  | callLock hi => exact work_set hi (by simp [work]; omega)
  | enterW hi _ _ => exact work_set hi (by simp [work])
  | leave hi => exact work_set hi (by simp [work])
  | beginFree hi => exact work_set hi (by simp [work]; omega)
  | endFree hi => exact work_set hi (by simp [work])
  | panicDeferred _ hi => exact work_set hi (by simp [work])
  | panicHeld _ hi => exact work_set hi (by simp [work])

/-- **C45**.  Every execution ends: there is no infinite sequence of steps, so
together with `C45_progress` every schedule runs all calls to completion. -/
theorem C45_terminates (e : Nat → St) : ¬ ∀ n, Step block mp (e n) (e (n + 1)) := by
  intro h
  have key : ∀ n, ((e n).map work).sum + n ≤ ((e 0).map work).sum := by
    intro n
    induction n with
    | zero => omega
    | succ n ih => have := step_work (h n); omega
  have := key (((e 0).map work).sum + 1)
  omega

/-- Go's policy: a waiting writer keeps all new readers out. -/
def goBlock (s : St) (_ : Nat) : Prop := ∃ t ∈ s, ∃ d, t.st = .waiting d

theorem goBlock_pref : WriterPreference goBlock := fun _ _ h => h

theorem callProg_one (a : Api) : CallProg a.acts := by
  have := CallProg.call (List.prefix_refl a.acts) .nil
  simpa using this

/-- Three goroutines, with different calls. -/
example : Initial [⟨.out, Api.translate.acts⟩, ⟨.out, Api.bindLineage.acts⟩,
    ⟨.out, Api.validate.acts⟩] ∧ WriterPreference goBlock := by
  refine ⟨?_, goBlock_pref⟩
  intro t ht
  simp only [List.mem_cons, List.not_mem_nil, or_false] at ht
  rcases ht with rfl | rfl | rfl
  · exact ⟨rfl, callProg_one .translate⟩
  · exact ⟨rfl, callProg_one .bindLineage⟩
  · exact ⟨rfl, callProg_one .validate⟩

/-! ### C46 -/

theorem initial_of {S : List Api} (h : InitialOf S s) : Initial s := fun t ht => by
  refine ⟨(h t ht).1, ?_⟩
  have := (h t ht).2
  generalize t.prog = p at this
  induction this with
  | nil => exact .nil
  | call _ hp _ ih => exact .call hp ih

theorem callsOf_acts {S : List Api} {P : Act → Prop} (hS : ∀ a ∈ S, ∀ x ∈ a.acts, P x)
    {p : List Act} (h : CallsOf S p) : ∀ x ∈ p, P x := by
  induction h with
  | nil => intro x hx; cases hx
  | call ha hp _ ih =>
    intro x hx
    rcases List.mem_append.1 hx with hx | hx
    · exact hS _ ha x (hp.subset hx)
    · exact ih x hx

/-- **C46** (partial).  If only BindLineage, Validate (and so ValidateAny), AssignableTo and
NewT are called, then while one goroutine is in a writer section, no other evaluates CUE
values. -/
theorem C46_no_eval_during_write_partial
    (hi0 : InitialOf [.bindLineage, .validate, .assignableTo, .newT] s)
    (h : Steps block mp s s') {i j : Nat} {ti tj : Thr} (hi : s'[i]? = some ti)
    (hj : s'[j]? = some tj) {d : Bool} (hw : ti.st = .inside .w d) (hij : i ≠ j) :
    ¬ Evaluates tj := by
  have h0 := initial_of hi0
  have hf : ∀ t ∈ s, Act.free ∉ t.prog := fun t ht hm =>
    callsOf_acts (P := fun x => x ≠ .free) (by decide) (hi0 t ht).2 _ hm rfl
  have inv : ∀ t ∈ s', Act.free ∉ t.prog ∧ t.st ≠ .evaluating := by
    clear hi hj
    induction h with
    | refl => intro t ht; exact ⟨hf t ht, by rw [(h0 t ht).1]; simp⟩
    | tail _ hs ih =>
      cases hs with
      | enterR hi _ _ | callLock hi | enterW hi _ _ | leave hi | endFree hi
      | panicDeferred _ hi | panicHeld _ hi =>
        have hi' := ih _ (List.mem_of_getElem? hi)
        intro u hu
        rcases List.mem_or_eq_of_mem_set hu with hu | rfl
        · exact ih u hu
        · simp_all
      | beginFree hi =>
        have hi' := ih _ (List.mem_of_getElem? hi)
        simp at hi'
  rintro (he | he)
  · exact C45_writers_exclusive h0 h hi hj hw hij he
  · exact (inv tj (List.mem_of_getElem? hj)).2 he

/-- **C46** (refutation).  One goroutine translating while another binds a
lineage: the first evaluates CUE values while the second is inside the writer
section.  The same with Hydrate, and with a second Translate filling arguments. -/
theorem C46_eval_during_write :
    ∀ writer ∈ [Api.bindLineage, Api.translate], ∀ other ∈ [Api.translate, Api.hydrate],
      ∃ s, Initial [⟨.out, other.acts⟩, ⟨.out, writer.acts⟩] ∧
        Steps goBlock false [⟨.out, other.acts⟩, ⟨.out, writer.acts⟩] s ∧
        ∃ t0 t1, s = [t0, t1] ∧ Evaluates t0 ∧ t1.st = .inside .w true := by
  have init : ∀ a b : Api, Initial [⟨.out, a.acts⟩, ⟨.out, b.acts⟩] := by
    intro a b t ht
    simp only [List.mem_cons, List.not_mem_nil, or_false] at ht
    rcases ht with rfl | rfl
    · exact ⟨rfl, callProg_one a⟩
    · exact ⟨rfl, callProg_one b⟩
  have nw : ∀ (s : St) (k : Kind), (∀ t ∈ s, (∀ d, t.st ≠ .inside k d) ∧ t.st ≠ .stuck k) →
      noHolder s k := by
    rintro s k h t ht (⟨d, hh⟩ | hh)
    · exact (h t ht).1 d hh
    · exact (h t ht).2 hh
  have nb : ∀ (s : St) i, (∀ t ∈ s, ∀ d, t.st ≠ .waiting d) → ¬ goBlock s i := by
    rintro s i h ⟨t, ht, d, hh⟩
    exact h t ht d hh
  -- the writer enters its first section
  have wr : ∀ (writer : Api) (t0 : Thr), (∀ k d, t0.st ≠ .inside k d) → (∀ k, t0.st ≠ .stuck k) →
      ∀ p, writer.acts = .sec .w true :: p →
      ∀ s0, Steps goBlock false s0 [t0, ⟨.out, writer.acts⟩] →
      Steps goBlock false s0 [t0, ⟨.inside .w true, p⟩] := by
    intro writer t0 h1 h2 p hp s0 hs
    have a1 := Steps.tail hs (Step.callLock (i := 1) (d := true) (p := p) (by simp [hp]))
    refine Steps.tail a1 (Step.enterW (i := 1) (d := true) (p := p) (by simp) ?_ ?_)
    · refine nw _ _ ?_
      intro t ht
      simp at ht
      rcases ht with rfl | rfl
      · exact ⟨h1 _, h2 _⟩
      · simp
    · refine nw _ _ ?_
      intro t ht
      simp at ht
      rcases ht with rfl | rfl
      · exact ⟨h1 _, h2 _⟩
      · simp
  have hyd : ∀ t1 : Thr, Steps goBlock false [⟨.out, Api.hydrate.acts⟩, t1] [⟨.evaluating, []⟩, t1] :=
    fun t1 => Steps.tail .refl (Step.beginFree (i := 0) (p := []) rfl)
  have tra : ∀ q : List Act, Steps goBlock false [⟨.out, Api.translate.acts⟩, ⟨.out, q⟩]
      [⟨.evaluating, [.sec .r true]⟩, ⟨.out, q⟩] := by
    intro q
    refine Steps.tail (Steps.tail (Steps.tail (Steps.tail (Steps.tail (Steps.tail .refl
      (Step.callLock (i := 0) (d := true) (p := [.sec .r false, .free, .sec .r true]) rfl))
      (Step.enterW (i := 0) (d := true) (p := [.sec .r false, .free, .sec .r true]) rfl ?_ ?_))
      (Step.leave (i := 0) (k := .w) (d := true) (p := [.sec .r false, .free, .sec .r true]) rfl))
      (Step.enterR (i := 0) (d := false) (p := [.free, .sec .r true]) rfl ?_ ?_))
      (Step.leave (i := 0) (k := .r) (d := false) (p := [.free, .sec .r true]) rfl))
      (Step.beginFree (i := 0) (p := [.sec .r true]) rfl)
    · exact nw _ _ (by intro t ht; simp at ht; rcases ht with rfl | rfl <;> simp)
    · exact nw _ _ (by intro t ht; simp at ht; rcases ht with rfl | rfl <;> simp)
    · exact nw _ _ (by intro t ht; simp at ht; rcases ht with rfl | rfl <;> simp)
    · exact nb _ _ (by intro t ht; simp at ht; rcases ht with rfl | rfl <;> simp)
  intro writer hw other ho
  simp only [List.mem_cons, List.not_mem_nil, or_false] at hw ho
  rcases ho with rfl | rfl
  · rcases hw with rfl | rfl
    · exact ⟨_, init _ _, wr _ _ (by simp) (by simp) _ rfl _ (tra _), _, _, rfl, .inr rfl, rfl⟩
    · exact ⟨_, init _ _, wr _ _ (by simp) (by simp) _ rfl _ (tra _), _, _, rfl, .inr rfl, rfl⟩
  · rcases hw with rfl | rfl
    · exact ⟨_, init _ _, wr _ _ (by simp) (by simp) _ rfl _ (hyd _), _, _, rfl, .inr rfl, rfl⟩
    · exact ⟨_, init _ _, wr _ _ (by simp) (by simp) _ rfl _ (hyd _), _, _, rfl, .inr rfl, rfl⟩

example : InitialOf [.bindLineage, .validate, .assignableTo, .newT]
    ([⟨.out, Api.bindLineage.acts⟩, ⟨.out, Api.validate.acts⟩] : St) := by
  intro t ht
  simp only [List.mem_cons, List.not_mem_nil, or_false] at ht
  rcases ht with rfl | rfl
  · exact ⟨rfl, by simpa using CallsOf.call (a := .bindLineage) (by simp) (List.prefix_refl _) .nil⟩
  · exact ⟨rfl, by simpa using CallsOf.call (a := .validate) (by simp) (List.prefix_refl _) .nil⟩

/-! ### C60: panics -/

/-- **C60** (partial).  If only BindLineage, Validate, AssignableTo, BindType, Hydrate and
Dehydrate are called (and neither NewT nor Value nor Translate with CUE lenses), then
also when CUE panics, some goroutine can take a step in every reachable state in
which not all have finished. -/
theorem C60_panics_release_partial (hb : WriterPreference block)
    (hi0 : InitialOf [.bindLineage, .validate, .assignableTo, .bindType, .hydrate] s)
    (h : Steps block true s s')
    (hd : ∃ t ∈ s', ¬ t.done) : ∃ u, Step block true s' u := by
  have h0 := initial_of hi0
  have hf : ∀ t ∈ s, ∀ k, Act.sec k false ∉ t.prog := fun t ht k hm =>
    callsOf_acts (P := fun x => x ≠ .sec .r false ∧ x ≠ .sec .w false) (by decide)
      (hi0 t ht).2 _ hm |> fun ⟨h1, h2⟩ => by cases k <;> contradiction
  refine progress_of_noStuck hb ?_ hd
  clear hd
  have inv : ∀ t ∈ s', (∀ k, Act.sec k false ∉ t.prog) ∧ (∀ k, t.st ≠ .inside k false) ∧
      t.st ≠ .waiting false ∧ ∀ k, t.st ≠ .stuck k := by
    induction h with
    | refl =>
      intro t ht
      rw [(h0 t ht).1]
      exact ⟨hf t ht, by simp⟩
    | tail _ hs ih =>
      cases hs with
      | enterR hi _ _ | callLock hi | enterW hi _ _ | leave hi | endFree hi | beginFree hi
      | panicDeferred _ hi | panicHeld _ hi =>
        have hi' := ih _ (List.mem_of_getElem? hi)
        intro u hu
        rcases List.mem_or_eq_of_mem_set hu with hu | rfl
        · exact ih u hu
        · simp_all
  exact fun t ht => (inv t ht).2.2.2

example : InitialOf [.bindLineage, .validate, .assignableTo, .bindType, .hydrate]
    ([⟨.out, Api.bindLineage.acts⟩, ⟨.out, Api.bindType.acts⟩] : St) := by
  intro t ht
  simp only [List.mem_cons, List.not_mem_nil, or_false] at ht
  rcases ht with rfl | rfl
  · exact ⟨rfl, by simpa using CallsOf.call (a := .bindLineage) (by simp) (List.prefix_refl _) .nil⟩
  · exact ⟨rfl, by simpa using CallsOf.call (a := .bindType) (by simp) (List.prefix_refl _) .nil⟩

/-- **C60** (refutation).  Once a goroutine has panicked in a section without
`defer`, it holds the lock for ever: in all later states no goroutine is inside a
writer section (unless it was itself there already), so no BindLineage and no
Translate with CUE lenses ever proceeds on this runtime. -/
theorem C60_stuck_for_ever {i : Nat} {k : Kind} {p : List Act}
    (hi : s[i]? = some ⟨.stuck k, p⟩) (hn : ∀ t ∈ s, ∀ d, t.st ≠ .inside .w d)
    (h : Steps block mp s s') : ∀ t ∈ s', ∀ d, t.st ≠ .inside .w d := by
  have inv : s'[i]? = some ⟨.stuck k, p⟩ ∧ ∀ t ∈ s', ∀ d, t.st ≠ .inside .w d := by
    induction h with
    | refl => exact ⟨hi, hn⟩
    | tail _ hs ih =>
      obtain ⟨h1, h2⟩ := ih
      cases hs with
      | enterW hj hw hr =>
        exfalso
        have hm := List.mem_of_getElem? h1
        cases k with
        | r => exact hr _ hm (Or.inr rfl)
        | w => exact hw _ hm (Or.inr rfl)
      | enterR hj _ _ | callLock hj | leave hj | endFree hj
      | beginFree hj | panicDeferred _ hj | panicHeld _ hj =>
        refine ⟨?_, ?_⟩
        · rw [List.getElem?_set]
          split
          · rename_i hji
            subst hji
            rw [h1] at hj
            simp at hj
          · exact h1
        · intro t ht d
          rcases List.mem_or_eq_of_mem_set ht with ht | rfl
          · exact h2 t ht d
          · simp
  exact inv.2

/-- **C60** (refutation).  If CUE panics during NewT, or during the lookup that ends
`cueArgs.call` in Translate, the runtime stays locked (so `C60_stuck_for_ever`
applies). -/
theorem C60_panic_leaks :
    ∀ a ∈ [Api.newT, Api.typedValue, Api.translate], Initial [⟨.out, a.acts⟩] ∧
      Steps goBlock true [⟨.out, a.acts⟩] [⟨.stuck .r, []⟩] := by
  intro a ha
  refine ⟨?_, ?_⟩
  · intro t ht
    simp only [List.mem_cons, List.not_mem_nil, or_false] at ht
    subst ht
    exact ⟨rfl, callProg_one a⟩
  · have nh : ∀ (st : Status) (p : List Act) (k : Kind), (∀ d, st ≠ .inside k d) → st ≠ .stuck k →
        noHolder [⟨st, p⟩] k := by
      rintro st p k h1 h2 t ht (⟨d, hh⟩ | hh)
      · simp at ht; subst ht; exact h1 d hh
      · simp at ht; subst ht; exact h2 hh
    have nb : ∀ p i, ¬ goBlock [⟨.out, p⟩] i := by
      rintro p i ⟨t, ht, d, hh⟩
      simp at ht; subst ht; simp at hh
    have last : ∀ p, Steps goBlock true [⟨.out, .sec .r false :: p⟩] [⟨.stuck .r, []⟩] := fun p =>
      Steps.tail (Steps.tail .refl
        (Step.enterR (i := 0) (d := false) (p := p) rfl (nh _ _ _ (by simp) (by simp)) (nb _ _)))
        (Step.panicHeld (i := 0) (k := .r) (p := p) rfl rfl)
    simp only [List.mem_cons, List.not_mem_nil, or_false] at ha
    rcases ha with rfl | rfl | rfl
    · exact last _
    · exact last _
    · exact Steps.tail (Steps.tail (Steps.tail (Steps.tail (Steps.tail .refl
        (Step.callLock (i := 0) (d := true) (p := [.sec .r false, .free, .sec .r true]) rfl))
        (Step.enterW (i := 0) (d := true) (p := [.sec .r false, .free, .sec .r true]) rfl
          (nh _ _ _ (by simp) (by simp)) (nh _ _ _ (by simp) (by simp))))
        (Step.leave (i := 0) (k := .w) (d := true) (p := [.sec .r false, .free, .sec .r true]) rfl))
        (Step.enterR (i := 0) (d := false) (p := [.free, .sec .r true]) rfl
          (nh _ _ _ (by simp) (by simp)) (nb _ _)))
        (Step.panicHeld (i := 0) (k := .r) (p := [.free, .sec .r true]) rfl rfl)

/-- **C60** (refutation).  The smallest deadlock: NewT panics, then another
goroutine calls BindLineage and waits, and nobody can take a step. -/
theorem C60_panic_deadlocks :
    (∃ s, Initial [⟨.out, Api.newT.acts⟩, ⟨.out, Api.bindLineage.acts⟩] ∧
      Steps goBlock true [⟨.out, Api.newT.acts⟩, ⟨.out, Api.bindLineage.acts⟩] s ∧
      (∃ t ∈ s, ¬ t.done ∧ t.st = .waiting true) ∧ ¬ ∃ u, Step goBlock true s u) := by
  refine ⟨[⟨.stuck .r, []⟩, ⟨.waiting true, []⟩], ?_, ?_, ?_, ?_⟩
  · intro t ht
    simp only [List.mem_cons, List.not_mem_nil, or_false] at ht
    rcases ht with rfl | rfl
    · exact ⟨rfl, callProg_one .newT⟩
    · exact ⟨rfl, callProg_one .bindLineage⟩
  · refine Steps.tail (Steps.tail (Steps.tail .refl
      (Step.enterR (i := 0) (d := false) (p := []) rfl ?_ ?_))
      (Step.panicHeld (i := 0) (k := .r) (p := []) rfl rfl))
      (Step.callLock (i := 1) (d := true) (p := []) rfl)
    · rintro t ht (⟨d, hh⟩ | hh) <;> simp at ht <;> rcases ht with rfl | rfl <;> simp at hh
    · rintro ⟨t, ht, d, hh⟩
      simp at ht
      rcases ht with rfl | rfl <;> simp at hh
  · exact ⟨⟨.waiting true, []⟩, by simp, by simp [Thr.done], rfl⟩
  · rintro ⟨u, hu⟩
    have get : ∀ (i : Nat) (t : Thr), ([⟨.stuck .r, []⟩, ⟨.waiting true, []⟩] : St)[i]? = some t →
        t = ⟨.stuck .r, []⟩ ∨ t = ⟨.waiting true, []⟩ := by
      intro i t h
      have := List.mem_of_getElem? h
      simpa using this
    cases hu with
    | enterR hi _ _ | callLock hi | leave hi | endFree hi | beginFree hi
    | panicDeferred _ hi | panicHeld _ hi => rcases get _ _ hi with h | h <;> simp at h
    | enterW hi hw hr => exact hr ⟨.stuck .r, []⟩ (by simp) (Or.inr rfl)

end Thema.Props

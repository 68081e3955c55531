import Verif.Model.GenRace

/-!
# C132: Go types can be generated by several goroutines
-/

namespace Thema.Props

open Thema.GenRace

/-- Calls that `GenerateTypesOpenAPI` makes (`encoding/gocode/gen.go:101-121`): the same options
for compatibility, no imports, and a specification made of CUE, without extensions. -/
def ThemaCall (std : Nat) (c : Call) : Prop :=
  c.conf.compat = std ∧ c.conf.imports = [] ∧ c.mapping = [] ∧ ∀ e ∈ c.spec, e.2 = none

/-- What a call reads if no other call is made. -/
def aloneSeen (typeName : Str → Str) (entries : Nat) (g : Glob) (c : Call) : List Obs :=
  match (run typeName (start entries g [c]) (List.replicate (c.ops entries).length 0)).threads with
  | t :: _ => t.seen
  | [] => []

/-! ### Isolation -/

/-- What an access should give. -/
private def want (typeName : Str → Str) (std : Nat) : Op → Option Obs
  | .compat => some (.compat std)
  | .lookup n => some (.name (typeName n))
  | .mapping => some (.mapping [])
  | .imports => some (.imports [])
  | _ => none

private def GlobOk (std : Nat) (g : Glob) (did : List Op) : Prop :=
  (Op.setConf ∈ did → g.conf.compat = std ∧ g.conf.imports = []) ∧
  (Op.setSpec ∈ did → ∀ e ∈ g.spec, e.2 = none) ∧
  (Op.setMapping ∈ did → g.mapping = [])

private def ThreadOk (typeName : Str → Str) (entries std : Nat) (g : Glob) (t : Thread) : Prop :=
  ThemaCall std t.call ∧ ∃ did, t.call.ops entries = did ++ t.todo ∧
    t.seen = did.filterMap (want typeName std) ∧ GlobOk std g did

private theorem goName_plain (typeName : Str → Str) (spec : Spec) (h : ∀ e ∈ spec, e.2 = none)
    (n : Str) : goName typeName spec n = typeName n := by
  unfold goName
  split
  · rename_i k v e
    have := h _ (List.mem_of_find?_eq_some e)
    cases this
  · rfl

private theorem prologue_done {entries : Nat} {c : Call} {did rest : List Op} {op : Op}
    (h : c.ops entries = did ++ op :: rest) (hr : op.isRead = true) :
    ∀ o ∈ prologue entries, o ∈ did := by
  intro o ho
  have hp : ∀ x ∈ prologue entries, x.isRead = false := by
    intro x hx
    simp only [prologue, List.mem_append, List.mem_replicate] at hx
    rcases hx with hx | ⟨_, rfl⟩
    · simp only [List.mem_cons, List.not_mem_nil, or_false] at hx
      rcases hx with rfl | rfl | rfl | rfl | rfl | rfl | rfl <;> rfl
    · rfl
  unfold Call.ops at h
  rcases List.append_eq_append_iff.1 h with ⟨m, h1, h2⟩ | ⟨m, h1, h2⟩
  · rw [h1]; exact List.mem_append_left _ ho
  · cases m with
    | nil => simp only [List.append_nil] at h1; rw [← h1]; exact ho
    | cons x m =>
      have hx : x = op := by
        simp only [List.cons_append, List.cons.injEq] at h2
        exact h2.1.symm
      have := hp op (by rw [h1, hx]; simp)
      rw [hr] at this; cases this

private theorem globOk_exec {typeName : Str → Str} {std : Nat} {g g' : Glob} {t t' : Thread}
    {op : Op} (ht : ThemaCall std t.call) (h : exec typeName g t op = some (g', t'))
    {did : List Op} (hd : GlobOk std g did) : GlobOk std g' did ∧ GlobOk std g' (did ++ [op]) := by
  obtain ⟨h1, h2, h3, h4⟩ := ht
  obtain ⟨d1, d2, d3⟩ := hd
  cases op <;> simp only [exec] at h
  case setConf =>
    cases h
    refine ⟨⟨fun _ => ⟨h1, h2⟩, d2, d3⟩, ⟨fun _ => ⟨h1, h2⟩, fun m => ?_, fun m => ?_⟩⟩
    · simp at m; exact d2 m
    · simp at m; exact d3 m
  case setSpec =>
    cases h
    refine ⟨⟨d1, fun _ => h4, d3⟩, ⟨fun m => ?_, fun _ => h4, fun m => ?_⟩⟩
    · simp at m; exact d1 m
    · simp at m; exact d3 m
  case setMapping =>
    cases h
    refine ⟨⟨d1, d2, fun _ => h3⟩, ⟨fun m => ?_, fun m => ?_, fun _ => h3⟩⟩
    · simp at m; exact d1 m
    · simp at m; exact d2 m
  case setClient =>
    have e : g'.conf.compat = g.conf.compat ∧ g'.conf.imports = g.conf.imports ∧
        g'.spec = g.spec ∧ g'.mapping = g.mapping := by
      split at h <;> cases h <;> exact ⟨rfl, rfl, rfl, rfl⟩
    obtain ⟨e1, e2, e3, e4⟩ := e
    unfold GlobOk
    rw [e1, e2, e3, e4]
    simp only [List.mem_append, List.mem_singleton, reduceCtorEq, or_false]
    exact ⟨⟨d1, d2, d3⟩, ⟨d1, d2, d3⟩⟩
  all_goals
    have e : g'.conf = g.conf ∧ g'.spec = g.spec ∧ g'.mapping = g.mapping := by
      (try split at h) <;> cases h <;> exact ⟨rfl, rfl, rfl⟩
    obtain ⟨e1, e3, e4⟩ := e
    unfold GlobOk
    rw [e1, e3, e4]
    simp only [List.mem_append, List.mem_singleton, reduceCtorEq, or_false]
    exact ⟨⟨d1, d2, d3⟩, ⟨d1, d2, d3⟩⟩

private theorem exec_self {typeName : Str → Str} {entries std : Nat} {g g' : Glob} {t t' : Thread}
    {op : Op} {did rest : List Op} (hops : t.call.ops entries = did ++ op :: rest)
    (hd : GlobOk std g did) (h : exec typeName g t op = some (g', t')) :
    t'.call = t.call ∧ t'.todo = t.todo ∧
      t'.seen = t.seen ++ [op].filterMap (want typeName std) := by
  have done := fun hr => prologue_done hops hr
  obtain ⟨d1, d2, d3⟩ := hd
  cases op <;> simp only [exec] at h
  case compat =>
    cases h
    have := d1 (done rfl _ (by simp [prologue]))
    simp [want, this.1]
  case lookup n =>
    cases h
    have := d2 (done rfl _ (by simp [prologue]))
    simp [want, goName_plain typeName g.spec this]
  case mapping =>
    cases h
    have := d3 (done rfl _ (by simp [prologue]))
    simp [want, this]
  case imports =>
    cases h
    have := d1 (done rfl _ (by simp [prologue]))
    simp [want, this.2]
  all_goals
    (try split at h) <;> cases h <;> simp [want]

private theorem step_ok {typeName : Str → Str} {entries std : Nat} {s : State} (i : Nat)
    (h : ∀ t ∈ s.threads, ThreadOk typeName entries std s.glob t) :
    ∀ t ∈ (stepAt typeName s i).threads,
      ThreadOk typeName entries std (stepAt typeName s i).glob t := by
  unfold stepAt
  by_cases ha : s.alive = true
  · rw [if_pos ha]
    cases hi : s.threads[i]? with
    | none => exact h
    | some t =>
      have hmem := List.mem_of_getElem? hi
      cases htodo : t.todo with
      | nil => simp only [htodo]; exact h
      | cons op rest =>
        simp only [htodo]
        cases he : exec typeName s.glob { t with todo := rest } op with
        | none => exact h
        | some p =>
          obtain ⟨g', t'⟩ := p
          obtain ⟨hc, did, hops, hseen, hg⟩ := h t hmem
          rw [htodo] at hops
          intro x hx
          rcases List.mem_or_eq_of_mem_set hx with hx | rfl
          · obtain ⟨hc', did', hops', hseen', hg'⟩ := h x hx
            exact ⟨hc', did', hops', hseen', (globOk_exec (t := { t with todo := rest }) hc he hg').1⟩
          · have hs := exec_self (t := { t with todo := rest }) hops hg he
            refine ⟨by rw [hs.1]; exact hc, did ++ [op], ?_, ?_,
              (globOk_exec (t := { t with todo := rest }) hc he hg).2⟩
            · rw [hs.1, hs.2.1]; simpa using hops
            · rw [hs.2.2, List.filterMap_append, ← hseen]
  · rw [if_neg ha]; exact h

private theorem run_ok {typeName : Str → Str} {entries std : Nat} : ∀ (sched : List Nat) (s : State),
    (∀ t ∈ s.threads, ThreadOk typeName entries std s.glob t) →
    ∀ t ∈ (run typeName s sched).threads,
      ThreadOk typeName entries std (run typeName s sched).glob t
  | [], _, h => h
  | i :: sched, _, h => run_ok sched _ (step_ok i h)

private theorem start_ok {typeName : Str → Str} {entries std : Nat} (g : Glob) (calls : List Call)
    (h : ∀ c ∈ calls, ThemaCall std c) :
    ∀ t ∈ (start entries g calls).threads,
      ThreadOk typeName entries std (start entries g calls).glob t := by
  intro t ht
  obtain ⟨c, hc, rfl⟩ := List.mem_map.1 ht
  exact ⟨h c hc, [], rfl, rfl, by simp [GlobOk]⟩

/-! ### The map -/

/-- The call is in the middle of its assignment to the map. -/
def Inside (t : Thread) : Prop := t.todo.head? = some Op.mapEnd

/-- In what follows, `mapEnd` comes after `mapBegin` and only there. -/
private def good : List Op → Bool
  | a :: b :: l => ((a == .mapBegin) == (b == .mapEnd)) && good (b :: l)
  | [a] => a != .mapBegin
  | [] => true

private theorem good_of_none : ∀ (l : List Op), (∀ o ∈ l, o ≠ .mapBegin ∧ o ≠ .mapEnd) →
    good l = true
  | [], _ => rfl
  | [a], h => by
    have := (h a (by simp)).1
    simpa [good] using this
  | a :: b :: l, h => by
    have ha := (h a (by simp)).1
    have hb := (h b (by simp)).2
    have ih := good_of_none (b :: l) fun o ho => h o (List.mem_cons_of_mem _ ho)
    have e1 : (a == Op.mapBegin) = false := by simpa using ha
    have e2 : (b == Op.mapEnd) = false := by simpa using hb
    simp [good, e1, e2, ih]

private theorem ops_eq (entries : Nat) (c : Call) : ∃ l, (∀ o ∈ l, o ≠ .mapBegin ∧ o ≠ .mapEnd) ∧
    c.ops entries = .setConf :: .setSpec :: .setMapping :: .testClient :: .setClient ::
      .mapBegin :: .mapEnd :: .mapNext :: l ∧ (∀ o ∈ l, o = .mapNext ∨ o.isRead = true) := by
  refine ⟨List.replicate entries .mapNext ++ c.reads.filter Op.isRead, ?_, ?_, ?_⟩
  · intro o ho
    rcases List.mem_append.1 ho with ho | ho
    · rw [(List.mem_replicate.1 ho).2]; exact ⟨by decide, by decide⟩
    · have := (List.mem_filter.1 ho).2
      constructor <;> (rintro rfl; cases this)
  · simp [Call.ops, prologue, List.replicate_succ]
  · intro o ho
    rcases List.mem_append.1 ho with ho | ho
    · exact .inl (List.mem_replicate.1 ho).2
    · exact .inr (List.mem_filter.1 ho).2

private theorem good_ops (entries : Nat) (c : Call) : good (c.ops entries) = true := by
  obtain ⟨l, hl, he, _⟩ := ops_eq entries c
  rw [he]
  have := good_of_none (.mapNext :: l) (by
    intro o ho
    rcases List.mem_cons.1 ho with rfl | ho
    · exact ⟨by decide, by decide⟩
    · exact hl o ho)
  simp only [good, this, Bool.and_true]
  rfl

private def MapInv (s : State) : Prop :=
  (∀ t ∈ s.threads, good t.todo = true) ∧
  (s.glob.writing = false → ∀ t ∈ s.threads, ¬ Inside t) ∧
  (s.glob.writing = true → ∃ i, (∃ t, s.threads[i]? = some t ∧ Inside t) ∧
    ∀ (j : Nat) (t : Thread), s.threads[j]? = some t → Inside t → j = i)

private theorem exec_writing {typeName : Str → Str} {g g' : Glob} {t t' : Thread} {op : Op}
    (h : exec typeName g t op = some (g', t')) :
    t'.todo = t.todo ∧ (op = .mapBegin → g.writing = false ∧ g'.writing = true) ∧
      (op = .mapEnd → g.writing = true ∧ g'.writing = false) ∧
      (op ≠ .mapBegin → op ≠ .mapEnd → g'.writing = g.writing) := by
  cases op <;> simp only [exec] at h
  case mapBegin =>
    cases hw : g.writing <;> rw [hw] at h <;> simp at h
    obtain ⟨rfl, rfl⟩ := h
    simp
  case mapEnd =>
    cases hw : g.writing <;> rw [hw] at h <;> simp at h
    obtain ⟨rfl, rfl⟩ := h
    simp
  all_goals
    (try split at h) <;> cases h <;> simp

private theorem good_tail {op : Op} {rest : List Op} (h : good (op :: rest) = true) :
    good rest = true ∧ (op = .mapBegin ↔ rest.head? = some Op.mapEnd) := by
  cases rest with
  | nil =>
    simp only [good, bne_iff_ne, ne_eq] at h
    exact ⟨rfl, by simp [h]⟩
  | cons b l =>
    simp only [good, Bool.and_eq_true, beq_iff_eq] at h
    refine ⟨h.2, ?_⟩
    have h1 := h.1
    constructor
    · rintro rfl
      have : (b == Op.mapEnd) = true := by rw [← h1]; rfl
      simp [eq_of_beq this]
    · intro e
      simp at e
      subst e
      have : (op == Op.mapBegin) = true := by rw [h1]; rfl
      exact eq_of_beq this

private theorem step_map {typeName : Str → Str} {s : State} (i : Nat) (h : MapInv s) :
    MapInv (stepAt typeName s i) ∧
    (s.alive = true → (stepAt typeName s i).alive = false →
      ∃ j, j ≠ i ∧ ∃ t, s.threads[j]? = some t ∧ Inside t) := by
  obtain ⟨h1, h2, h3⟩ := h
  unfold stepAt
  by_cases ha : s.alive = true
  · rw [if_pos ha]
    cases hi : s.threads[i]? with
    | none => exact ⟨⟨h1, h2, h3⟩, fun _ e => by simp [ha] at e⟩
    | some t =>
      have hmem := List.mem_of_getElem? hi
      have hlt : i < s.threads.length := (List.getElem?_eq_some_iff.1 hi).1
      cases htodo : t.todo with
      | nil => simp only [htodo]; exact ⟨⟨h1, h2, h3⟩, fun _ e => by simp [ha] at e⟩
      | cons op rest =>
        have hg := h1 t hmem
        rw [htodo] at hg
        obtain ⟨hg1, hg2⟩ := good_tail hg
        have hins : Inside t ↔ op = .mapEnd := by simp [Inside, htodo]
        simp only [htodo]
        cases he : exec typeName s.glob { t with todo := rest } op with
        | none =>
          refine ⟨⟨h1, h2, h3⟩, fun _ _ => ?_⟩
          -- a write is going on
          have hw : s.glob.writing = true ∧ op ≠ .mapEnd := by
            cases op <;> simp only [exec] at he
            case mapBegin => exact ⟨by simpa using he, by decide⟩
            case mapNext => exact ⟨by simpa using he, by decide⟩
            case mapEnd =>
              have hw : s.glob.writing = false := by simpa using he
              exact absurd (hins.2 rfl) (h2 hw t hmem)
            all_goals cases he
          obtain ⟨j, ⟨t', hj, hj'⟩, _⟩ := h3 hw.1
          refine ⟨j, ?_, t', hj, hj'⟩
          rintro rfl
          rw [hi] at hj
          cases hj
          exact hw.2 (hins.1 hj')
        | some p =>
          obtain ⟨g', t'⟩ := p
          obtain ⟨ht, hb, hend, hother⟩ := exec_writing he
          have ht : t'.todo = rest := ht
          have hins' : Inside t' ↔ op = .mapBegin := by rw [Inside, ht]; exact hg2.symm
          refine ⟨⟨?_, ?_, ?_⟩, fun _ e => by simp [ha] at e⟩
          · intro x hx
            rcases List.mem_or_eq_of_mem_set hx with hx | rfl
            · exact h1 x hx
            · rw [ht]; exact hg1
          · intro hw x hx hxi
            rcases List.mem_or_eq_of_mem_set hx with hx' | rfl
            · by_cases hop : op = .mapEnd
              · obtain ⟨k, _, hk⟩ := h3 (hend hop).1
                -- the thread itself was the one inside
                obtain ⟨j, hj⟩ := List.getElem?_of_mem hx
                by_cases hji : j = i
                · subst hji
                  rw [List.getElem?_set_self hlt] at hj
                  cases hj
                  have hb' := hins'.1 hxi
                  rw [hop] at hb'; cases hb'
                · rw [List.getElem?_set_ne (Ne.symm hji)] at hj
                  have e1 := hk j x hj hxi
                  have e2 := hk i t hi (hins.2 hop)
                  exact hji (e1.trans e2.symm)
              · by_cases hop' : op = .mapBegin
                · have hw' : g'.writing = false := hw
                  rw [(hb hop').2] at hw'; cases hw'
                · have hw' : g'.writing = false := hw
                  rw [hother hop' hop] at hw'
                  exact h2 hw' x hx' hxi
            · have hop := hins'.1 hxi
              have hw' : g'.writing = false := hw
              rw [(hb hop).2] at hw'; cases hw'
          · intro hw
            have hw' : g'.writing = true := hw
            by_cases hop : op = .mapBegin
            · refine ⟨i, ⟨t', by simp [hlt], hins'.2 hop⟩, ?_⟩
              intro j x hj hx
              by_cases hji : j = i
              · exact hji
              · have hj' : s.threads[j]? = some x := by
                  rwa [List.getElem?_set_ne (Ne.symm hji)] at hj
                exact absurd hx (h2 (hb hop).1 x (List.mem_of_getElem? hj'))
            · by_cases hop' : op = .mapEnd
              · rw [(hend hop').2] at hw'; cases hw'
              · rw [hother hop hop'] at hw'
                obtain ⟨k, ⟨x, hx, hxi⟩, hk⟩ := h3 hw'
                have hki : k ≠ i := by
                  rintro rfl
                  rw [hi] at hx; cases hx
                  exact hop' (hins.1 hxi)
                refine ⟨k, ⟨x, by rw [List.getElem?_set_ne (Ne.symm hki)]; exact hx, hxi⟩, ?_⟩
                intro j y hj hy
                by_cases hji : j = i
                · subst hji
                  have hj' : some t' = some y := by
                    rw [← hj]; exact (List.getElem?_set_self hlt).symm
                  cases hj'
                  exact absurd (hins'.1 hy) hop
                · have hj' : s.threads[j]? = some y := by
                    rwa [List.getElem?_set_ne (Ne.symm hji)] at hj
                  exact hk j y hj' hy
  · rw [if_neg ha]
    exact ⟨⟨h1, h2, h3⟩, fun e => absurd e ha⟩

private theorem run_map {typeName : Str → Str} : ∀ (sched : List Nat) (s : State), MapInv s →
    MapInv (run typeName s sched)
  | [], _, h => h
  | i :: sched, _, h => run_map sched _ (step_map i h).1

private theorem start_map (entries : Nat) (g : Glob) (hg : g.writing = false) (calls : List Call) :
    MapInv (start entries g calls) := by
  refine ⟨?_, ?_, ?_⟩
  · intro t ht
    obtain ⟨c, _, rfl⟩ := List.mem_map.1 ht
    exact good_ops entries c
  · intro _ t ht
    obtain ⟨c, _, rfl⟩ := List.mem_map.1 ht
    obtain ⟨l, _, he, _⟩ := ops_eq entries c
    simp [Inside, he]
  · intro h
    have h : g.writing = true := h
    rw [hg] at h; cases h

/-- **C132.** The only access that ends the program is one to the map while another call is in
the middle of its assignment to the map. -/
theorem C132_crash_cause (typeName : Str → Str) (entries : Nat) (g : Glob)
    (hg : g.writing = false) (calls : List Call) (sched : List Nat) (i : Nat)
    (halive : (run typeName (start entries g calls) sched).alive = true)
    (hdead : (run typeName (start entries g calls) (sched ++ [i])).alive = false) :
    ∃ j, j ≠ i ∧ ∃ t, (run typeName (start entries g calls) sched).threads[j]? = some t ∧
      Inside t := by
  have hr : ∀ (l : List Nat) (s : State), run typeName s (l ++ [i]) =
      stepAt typeName (run typeName s l) i := by
    intro l
    induction l with
    | nil => intro s; rfl
    | cons a l ih => intro s; exact ih _
  rw [hr] at hdead
  exact (step_map i (run_map sched _ (start_map entries g hg calls))).2 halive hdead

/-! ### One call after the other -/

/-- The flag of the map after accesses without others; `none` if one of them fails. -/
private def flagAfter : Bool → List Op → Option Bool
  | w, [] => some w
  | w, .mapBegin :: l => if w then none else flagAfter true l
  | w, .mapEnd :: l => if w then flagAfter false l else none
  | w, .mapNext :: l => if w then none else flagAfter w l
  | w, _ :: l => flagAfter w l

private theorem flag_ops (entries : Nat) (c : Call) :
    flagAfter false (c.ops entries) = some false := by
  obtain ⟨l, _, he, hl⟩ := ops_eq entries c
  rw [he]
  have : ∀ l : List Op, (∀ o ∈ l, o = .mapNext ∨ o.isRead = true) →
      flagAfter false l = some false := by
    intro l
    induction l with
    | nil => intro _; rfl
    | cons o l ih =>
      intro h
      have ih := ih fun x hx => h x (by simp [hx])
      rcases h o (by simp) with rfl | ho
      · simp [flagAfter, ih]
      · cases o <;> simp [Op.isRead] at ho <;> simp [flagAfter, ih]
  simp [flagAfter, this l hl]

private theorem run_pre {typeName : Str → Str} (i : Nat) (post : List Op) (w : Bool) :
    ∀ (l : List Op) (s : State) (t : Thread),
    s.alive = true → s.threads[i]? = some t → t.todo = l ++ post →
    flagAfter s.glob.writing l = some w →
    (run typeName s (List.replicate l.length i)).alive = true ∧
    (run typeName s (List.replicate l.length i)).glob.writing = w ∧
    (∃ t', (run typeName s (List.replicate l.length i)).threads = s.threads.set i t' ∧
      t'.todo = post ∧ t'.call = t.call)
  | [], s, t, ha, ht, hl, hs => by
    refine ⟨ha, by simpa [flagAfter, run] using hs, t, ?_, hl, rfl⟩
    have hlt := (List.getElem?_eq_some_iff.1 ht).1
    have he := (List.getElem?_eq_some_iff.1 ht).2
    rw [← he]
    exact (List.set_getElem_self hlt).symm
  | op :: l, s, t, ha, ht, hl, hs => by
    have hlt := (List.getElem?_eq_some_iff.1 ht).1
    have hex : ∃ g' t', exec typeName s.glob { t with todo := l ++ post } op = some (g', t') ∧
        flagAfter g'.writing l = some w ∧ t'.call = t.call ∧ t'.todo = l ++ post := by
      cases op <;> simp only [flagAfter] at hs
      case mapBegin =>
        cases hw : s.glob.writing <;> rw [hw] at hs <;> simp at hs
        exact ⟨{ s.glob with writing := true }, { t with todo := l ++ post }, by simp [exec, hw],
          hs, rfl, rfl⟩
      case mapEnd =>
        cases hw : s.glob.writing <;> rw [hw] at hs <;> simp at hs
        exact ⟨{ s.glob with writing := false }, { t with todo := l ++ post }, by simp [exec, hw],
          hs, rfl, rfl⟩
      case mapNext =>
        cases hw : s.glob.writing <;> rw [hw] at hs <;> simp at hs
        exact ⟨s.glob, { t with todo := l ++ post }, by simp [exec, hw], by rw [hw]; exact hs,
          rfl, rfl⟩
      case setClient =>
        exact ⟨_, _, rfl, by split <;> exact hs, rfl, rfl⟩
      all_goals exact ⟨_, _, rfl, hs, rfl, rfl⟩
    obtain ⟨g', t', he, hs', hc, htodo⟩ := hex
    have hstep : stepAt typeName s i = { s with glob := g', threads := s.threads.set i t' } := by
      unfold stepAt
      rw [if_pos ha, ht]
      simp only [hl, List.cons_append, he]
    have ih := run_pre (typeName := typeName) i post w l
      { s with glob := g', threads := s.threads.set i t' } t' ha (by simp [hlt]) htodo hs'
    rw [List.length_cons, List.replicate_succ, run, hstep]
    obtain ⟨i1, i2, t'', i3, i4, i5⟩ := ih
    exact ⟨i1, i2, t'', by rw [i3]; simp, i4, i5.trans hc⟩

private theorem run_one {typeName : Str → Str} (i : Nat) (l : List Op) (s : State) (t : Thread)
    (ha : s.alive = true) (ht : s.threads[i]? = some t) (hl : t.todo = l)
    (hs : flagAfter s.glob.writing l = some false) :
    (run typeName s (List.replicate l.length i)).alive = true ∧
    (run typeName s (List.replicate l.length i)).glob.writing = false ∧
    (∃ t', (run typeName s (List.replicate l.length i)).threads = s.threads.set i t' ∧
      t'.todo = [] ∧ t'.call = t.call) :=
  run_pre i [] false l s t ha ht (by rw [List.append_nil]; exact hl) hs

private theorem run_append {typeName : Str → Str} : ∀ (a b : List Nat) (s : State),
    run typeName s (a ++ b) = run typeName (run typeName s a) b
  | [], _, _ => rfl
  | _ :: a, b, _ => run_append a b _

/-- **C132.** A call that is made while there is no other one reads what it has written, and
ends. -/
theorem C132_alone (typeName : Str → Str) (entries std : Nat) (g : Glob) (hg : g.writing = false)
    (c : Call) (hc : ThemaCall std c) :
    aloneSeen typeName entries g c = (c.reads.filter Op.isRead).filterMap (fun
      | .compat => some (.compat std)
      | .lookup n => some (.name (typeName n))
      | .mapping => some (.mapping [])
      | .imports => some (.imports [])
      | _ => none) := by
  have h1 := run_one (typeName := typeName) 0 (c.ops entries) (start entries g [c])
    ⟨c, c.ops entries, false, []⟩ rfl rfl rfl (by
      show flagAfter g.writing _ = some false
      rw [hg]; exact flag_ops entries c)
  obtain ⟨_, _, t', ht, htodo, hcall⟩ := h1
  have h2 := run_ok (typeName := typeName) (entries := entries) (std := std)
    (List.replicate (c.ops entries).length 0) (start entries g [c])
    (start_ok g [c] (by simpa using hc)) t' (by rw [ht]; simp [start])
  unfold aloneSeen
  rw [ht]
  show t'.seen = _
  obtain ⟨_, did, hops, hseen, _⟩ := h2
  rw [htodo, List.append_nil, hcall] at hops
  rw [hseen, ← hops]
  show ((c.ops entries).filterMap _) = _
  have hp : (prologue entries).filterMap (want typeName std) = [] := by
    rw [List.filterMap_eq_nil_iff]
    intro o ho
    simp only [prologue, List.mem_append, List.mem_replicate] at ho
    rcases ho with ho | ⟨_, rfl⟩
    · simp only [List.mem_cons, List.not_mem_nil, or_false] at ho
      rcases ho with rfl | rfl | rfl | rfl | rfl | rfl | rfl <;> rfl
    · rfl
  unfold Call.ops
  rw [List.filterMap_append, hp, List.nil_append]
  congr 1

/-- **C132.** In every interleaving of calls made by Thema, a call that ends reads what it would
read alone, so that its result is the same. -/
theorem C132_isolated_partial (typeName : Str → Str) (entries std : Nat) (g g' : Glob)
    (hg : g'.writing = false) (calls : List Call) (hc : ∀ c ∈ calls, ThemaCall std c)
    (sched : List Nat) (t : Thread)
    (ht : t ∈ (run typeName (start entries g calls) sched).threads) (hdone : t.todo = []) :
    t.seen = aloneSeen typeName entries g' t.call := by
  obtain ⟨hcall, did, hops, hseen, _⟩ := run_ok sched _
    (start_ok (typeName := typeName) (entries := entries) g calls hc) t ht
  rw [C132_alone typeName entries std g' hg t.call hcall, hseen]
  rw [hdone, List.append_nil] at hops
  rw [← hops]
  have hp : (prologue entries).filterMap (want typeName std) = [] := by
    rw [List.filterMap_eq_nil_iff]
    intro o ho
    simp only [prologue, List.mem_append, List.mem_replicate] at ho
    rcases ho with ho | ⟨_, rfl⟩
    · simp only [List.mem_cons, List.not_mem_nil, or_false] at ho
      rcases ho with rfl | rfl | rfl | rfl | rfl | rfl | rfl <;> rfl
    · rfl
  unfold Call.ops
  rw [List.filterMap_append, hp, List.nil_append]
  congr 1

/-- **C132.** Calls that are made one after the other, in any order, all end. -/
theorem C132_serial (typeName : Str → Str) (entries : Nat) (g : Glob) (hg : g.writing = false)
    (calls : List Call) (order : List Nat) (hn : order.Nodup) (ho : ∀ i ∈ order, i < calls.length) :
    let s := run typeName (start entries g calls)
      (order.flatMap fun i => match calls[i]? with
        | some c => List.replicate (c.ops entries).length i
        | none => [])
    s.alive = true ∧ ∀ i ∈ order, ∃ t, s.threads[i]? = some t ∧ t.todo = [] := by
  intro s
  have key : ∀ (order : List Nat) (s : State), order.Nodup → (∀ i ∈ order, i < calls.length) →
      s.alive = true → s.glob.writing = false →
      (∀ i ∈ order, ∃ c t, calls[i]? = some c ∧ s.threads[i]? = some t ∧ t.todo = c.ops entries) →
      let s' := run typeName s (order.flatMap fun i => match calls[i]? with
        | some c => List.replicate (c.ops entries).length i
        | none => [])
      s'.alive = true ∧ (∀ i ∈ order, ∃ t, s'.threads[i]? = some t ∧ t.todo = []) ∧
        ∀ i, i ∉ order → s'.threads[i]? = s.threads[i]? := by
    intro order
    induction order with
    | nil => intro s _ _ h1 _ _; exact ⟨h1, by simp, fun _ _ => rfl⟩
    | cons i order ih =>
      intro s hn ho ha hw hall
      obtain ⟨hni, hn⟩ := List.nodup_cons.1 hn
      obtain ⟨c, t, hc, ht, htodo⟩ := hall i (by simp)
      have h1 := run_one (typeName := typeName) i _ s t ha ht htodo (by
        rw [hw]; exact flag_ops entries c)
      obtain ⟨a1, a2, t', a3, a4, _⟩ := h1
      have hlt := (List.getElem?_eq_some_iff.1 ht).1
      have h2 := ih _ hn (fun j hj => ho j (by simp [hj])) a1 a2 (by
        intro j hj
        obtain ⟨c', x, hc', hx, hx'⟩ := hall j (by simp [hj])
        refine ⟨c', x, hc', ?_, hx'⟩
        rw [a3, List.getElem?_set_ne (by rintro rfl; exact hni hj)]
        exact hx)
      simp only [List.flatMap_cons, hc, run_append]
      obtain ⟨b1, b2, b3⟩ := h2
      refine ⟨b1, ?_, ?_⟩
      · intro j hj
        rcases List.mem_cons.1 hj with rfl | hj
        · refine ⟨t', ?_, a4⟩
          rw [b3 j hni, a3]
          simp [hlt]
        · exact b2 j hj
      · intro j hj
        simp only [List.mem_cons, not_or] at hj
        rw [b3 j hj.2, a3, List.getElem?_set_ne (Ne.symm hj.1)]
  have := key order (start entries g calls) hn ho rfl hg (by
    intro i hi
    have hlt := ho i hi
    refine ⟨calls[i], ⟨calls[i], calls[i].ops entries, false, []⟩,
      List.getElem?_eq_getElem hlt, ?_, ?_⟩
    · simp [start, hlt]
    · rfl)
  exact ⟨this.1, this.2.1⟩

/-- **C132, refuted.** Two calls at the same time may end the program, whatever they generate. -/
theorem C132_refuted (typeName : Str → Str) (entries : Nat) (g : Glob) (hg : g.writing = false)
    (c d : Call) (calls : List Call) :
    ∃ sched, (run typeName (start entries g (c :: d :: calls)) sched).alive = false := by
  obtain ⟨l, _, hl, _⟩ := ops_eq entries c
  obtain ⟨m, _, hm, _⟩ := ops_eq entries d
  let pre : List Op := [.setConf, .setSpec, .setMapping, .testClient, .setClient]
  obtain ⟨a1, a2, t, a3, _, _⟩ := run_pre (typeName := typeName) 0 (.mapEnd :: .mapNext :: l) true
    (pre ++ [.mapBegin]) (start entries g (c :: d :: calls)) ⟨c, c.ops entries, false, []⟩ rfl rfl
    hl (by show flagAfter g.writing _ = _; rw [hg]; rfl)
  generalize hs1 : run typeName (start entries g (c :: d :: calls))
    (List.replicate (pre ++ [Op.mapBegin]).length 0) = s1 at a1 a2 a3
  obtain ⟨b1, b2, t', b3, b4, _⟩ := run_pre (typeName := typeName) 1
    (.mapBegin :: .mapEnd :: .mapNext :: m) true pre s1 ⟨d, d.ops entries, false, []⟩ a1
    (by rw [a3]; rfl) hm (by rw [a2]; rfl)
  refine ⟨List.replicate (pre ++ [Op.mapBegin]).length 0 ++ (List.replicate pre.length 1 ++ [1]), ?_⟩
  rw [run_append, run_append, hs1]
  generalize run typeName s1 (List.replicate pre.length 1) = s2 at b1 b2 b3
  have e2 : s2.threads[1]? = some t' := by rw [b3, a3]; rfl
  show (stepAt typeName s2 1).alive = false
  unfold stepAt
  rw [if_pos b1, e2]
  simp only [b4, exec, b2, if_true]

example : ThemaCall 1 ⟨⟨1, [], []⟩, [("Foo".toList, none)], [], [.compat, .lookup "Foo".toList]⟩ ∧
    aloneSeen (fun n => n) 3 ⟨⟨0, [], []⟩, [], [], false⟩
      ⟨⟨1, [], []⟩, [("Foo".toList, none)], [], [.compat, .lookup "Foo".toList]⟩ =
      [.compat 1, .name "Foo".toList] := by
  refine ⟨by simp [ThemaCall], by decide⟩

private def callA : Call := ⟨⟨1, [], []⟩, [("Foo".toList, none)], [], [.compat, .lookup "Foo".toList]⟩

private def callB : Call := ⟨⟨1, [], []⟩, [("Bar".toList, none)], [], [.lookup "Bar".toList, .imports]⟩

private def glob0 : Glob := ⟨⟨0, [], []⟩, [], [], false⟩

-- a schedule that alternates after the assignments to the map, in which both calls end
example :
    let s := run (fun n => n) (start 1 glob0 [callA, callB])
      ([0, 0, 0, 0, 0, 0, 0, 1, 1, 1, 1, 1, 1, 1] ++ [1, 0, 1, 0, 0, 1, 0, 1])
    s.alive = true ∧ s.threads.map (·.todo) = [[], []] ∧
      s.threads.map (·.seen) =
        [[.compat 1, .name "Foo".toList], [.name "Bar".toList, .imports []]] := by
  refine ⟨by decide, by decide, by decide⟩

-- an access that ends the program
example :
    (run (fun n => n) (start 1 glob0 [callA, callB])
      [0, 0, 0, 0, 0, 0, 1, 1, 1, 1, 1]).alive = true ∧
    (run (fun n => n) (start 1 glob0 [callA, callB])
      ([0, 0, 0, 0, 0, 0, 1, 1, 1, 1, 1] ++ [1])).alive = false := by
  refine ⟨by decide, by decide⟩

example : [1, 0].Nodup ∧ ∀ i ∈ [1, 0], i < [callA, callB].length := by decide

/-! ### The theorems on concrete calls -/

private theorem calls_thema : ∀ c ∈ [callA, callB], ThemaCall 1 c := by
  simp [callA, callB, ThemaCall]

example := C132_crash_cause (fun n => n) 1 glob0 rfl [callA, callB]
  [0, 0, 0, 0, 0, 0, 1, 1, 1, 1, 1] 1 (by decide) (by decide)

example := C132_alone (fun n => n) 1 1 glob0 rfl callA (calls_thema _ (by simp))

example (t : Thread) := C132_isolated_partial (fun n => n) 1 1 glob0 glob0 rfl [callA, callB]
  calls_thema ([0, 0, 0, 0, 0, 0, 0, 1, 1, 1, 1, 1, 1, 1] ++ [1, 0, 1, 0, 0, 1, 0, 1]) t

example := C132_serial (fun n => n) 1 glob0 rfl [callA, callB] [1, 0] (by decide) (by decide)

example := C132_refuted (fun n => n) 1 glob0 rfl callA callB []

end Thema.Props

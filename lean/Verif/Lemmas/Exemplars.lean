import Verif.Model.Exemplars

/-!
# Lemmas on the exemplar lineages
-/

namespace Thema.Exemplars

/-- The struct has the fields `m` with these values; its other fields are optional and not
there. -/
def Rep (x : Val) (m : Str → Option Atom) : Prop :=
  ∃ c fs, x = .obj c fs ∧
    (∀ e ∈ fs, (e.2.opt = true ∧ m e.1 = none) ∨
      (e.2.opt = false ∧ ∃ a, e.2.alts = [.const a] ∧ m e.1 = some a)) ∧
    ∀ n a, m n = some a → ∃ f, (n, f) ∈ fs

/-- Fields that a schema allows, with all that it requires. -/
def Fits (gs : Fields) (m : Str → Option Atom) : Prop :=
  (∀ n a, m n = some a → ∃ g, gs.lookup n = some g ∧ g.allows a = true) ∧
    ∀ e ∈ gs, e.2.opt = true ∨ (m e.1).isSome = true

theorem lookup_mem {α : Type} {l : List (Str × α)} {n : Str} {a : α} (h : l.lookup n = some a) :
    (n, a) ∈ l := by
  induction l with
  | nil => cases h
  | cons e l ih =>
    obtain ⟨k, b⟩ := e
    rw [List.lookup_cons] at h
    by_cases hk : n == k
    · rw [hk] at h
      simp only at h
      injection h with h
      have : n = k := by simpa using hk
      simp [this, h]
    · rw [Bool.not_eq_true] at hk
      rw [hk] at h
      exact List.mem_cons_of_mem _ (ih h)

theorem lookup_of_mem {α : Type} {l : List (Str × α)} {n : Str} {a : α} (h : (n, a) ∈ l) :
    ∃ b, l.lookup n = some b := by
  induction l with
  | nil => cases h
  | cons e l ih =>
    obtain ⟨k, b⟩ := e
    rw [List.lookup_cons]
    by_cases hk : n == k
    · rw [hk]; exact ⟨_, rfl⟩
    · rw [Bool.not_eq_true] at hk
      rw [hk]
      rcases List.mem_cons.1 h with h | h
      · injection h with h1 h2
        rw [h1] at hk
        simp at hk
      · exact ih h

theorem lookup_none {α : Type} {l : List (Str × α)} {n : Str} (h : l.lookup n = none) (a : α) :
    (n, a) ∉ l := fun hm => by
  obtain ⟨b, hb⟩ := lookup_of_mem hm
  rw [h] at hb; cases hb

theorem nodup_lookup {α : Type} {l : List (Str × α)} (hn : (l.map (·.1)).Nodup) {e : Str × α}
    (he : e ∈ l) : l.lookup e.1 = some e.2 := by
  induction l with
  | nil => cases he
  | cons x l ih =>
    obtain ⟨k, b⟩ := x
    rw [List.lookup_cons]
    simp only [List.map_cons, List.nodup_cons] at hn
    rcases List.mem_cons.1 he with rfl | he
    · simp
    · have : (e.1 == k) = false := by
        simp only [beq_eq_false_iff_ne]
        intro h
        exact hn.1 (h ▸ List.mem_map_of_mem he)
      rw [this]
      exact ih hn.2 he

theorem dedup_const {a : Atom} {l : List Alt} (h : ∀ x ∈ l, x = .const a) (hne : l ≠ []) :
    dedup l = [.const a] := by
  induction l with
  | nil => exact absurd rfl hne
  | cons x l ih =>
    have hx := h x (by simp)
    subst hx
    rw [dedup]
    cases l with
    | nil => simp [dedup]
    | cons y l =>
      rw [ih (fun x hx => h x (List.mem_cons_of_mem _ hx)) (by simp)]
      simp

theorem meet_const_left {a : Atom} {y z : Alt} (h : (Alt.const a).meet y = some z) :
    z = .const a := by
  cases y <;> simp only [Alt.meet] at h <;> split at h
  · injection h with h; exact h.symm
  · cases h
  · injection h with h; exact h.symm
  · cases h

theorem meet_const_right {a : Atom} {y z : Alt} (h : y.meet (.const a) = some z) :
    z = .const a := by
  cases y with
  | const b =>
    simp only [Alt.meet] at h
    split at h
    · rename_i e
      injection h with h
      rw [← h, e]
    · cases h
  | kind k =>
    simp only [Alt.meet] at h
    split at h
    · injection h with h; exact h.symm
    · cases h

theorem meet_comm_isSome (x : Alt) (a : Atom) :
    (x.meet (.const a)).isSome = ((Alt.const a).meet x).isSome := by
  cases x with
  | const b =>
    simp only [Alt.meet]
    by_cases h : b = a
    · simp [h]
    · rw [if_neg h, if_neg (Ne.symm h)]
  | kind k => rfl

theorem meet_field_left {f g : Field} {a : Atom} (hf : f.alts = [.const a]) (hg : g.allows a) :
    (f.meet g).alts = [.const a] := by
  simp only [Field.meet, hf, List.flatMap_cons, List.flatMap_nil, List.append_nil]
  refine dedup_const ?_ ?_
  · intro x hx
    obtain ⟨y, _, hy⟩ := List.mem_filterMap.1 hx
    exact meet_const_left hy
  · obtain ⟨y, hy, h⟩ := List.any_eq_true.1 hg
    rw [meet_comm_isSome] at h
    obtain ⟨z, hz⟩ := Option.isSome_iff_exists.1 h
    intro he
    have : z ∈ List.filterMap (fun y => (Alt.const a).meet y) g.alts :=
      List.mem_filterMap.2 ⟨y, hy, hz⟩
    rw [he] at this
    cases this

theorem meet_field_right {f g : Field} {a : Atom} (hf : f.alts = [.const a]) (hg : g.allows a) :
    (g.meet f).alts = [.const a] := by
  simp only [Field.meet, hf]
  refine dedup_const ?_ ?_
  · intro x hx
    obtain ⟨y, _, hy⟩ := List.mem_flatMap.1 hx
    obtain ⟨z, hz, hy⟩ := List.mem_filterMap.1 hy
    rw [List.mem_singleton.1 hz] at hy
    exact meet_const_right hy
  · obtain ⟨y, hy, h⟩ := List.any_eq_true.1 hg
    obtain ⟨z, hz⟩ := Option.isSome_iff_exists.1 h
    intro he
    have : z ∈ List.flatMap (fun x => List.filterMap (fun y => x.meet y) [Alt.const a]) g.alts :=
      List.mem_flatMap.2 ⟨y, hy, List.mem_filterMap.2 ⟨_, List.mem_singleton.2 rfl, hz⟩⟩
    rw [he] at this
    cases this

theorem Rep.get {x : Val} {m : Str → Option Atom} (h : Rep x m) (n : Str) : x.get n = m n := by
  obtain ⟨c, fs, rfl, h1, h2⟩ := h
  simp only [Val.get]
  cases hl : fs.lookup n with
  | none =>
    cases hm : m n with
    | none => rfl
    | some a =>
      obtain ⟨f, hf⟩ := h2 n a hm
      exact absurd hf (lookup_none hl f)
  | some f =>
    rcases h1 _ (lookup_mem hl) with ⟨ho, hm⟩ | ⟨ho, a, ha, hm⟩
    · simp only at ho hm
      simp [ho, hm]
    · simp only at ho hm ha
      simp [ho, hm, Field.value, ha]

theorem Rep.data {l : List (Str × Atom)} (hn : (l.map (·.1)).Nodup) :
    Rep (data l) (fun n => l.lookup n) := by
  refine ⟨_, _, rfl, ?_, ?_⟩
  · intro e he
    obtain ⟨x, hx, rfl⟩ := List.mem_map.1 he
    exact .inr ⟨rfl, x.2, rfl, nodup_lookup hn hx⟩
  · intro n a h
    exact ⟨con a, List.mem_map.2 ⟨(n, a), lookup_mem h, rfl⟩⟩

theorem mem_meetFields {fs gs : Fields} {e : Str × Field} (h : e ∈ meetFields fs gs) :
    (∃ f, (e.1, f) ∈ fs ∧ ((gs.lookup e.1 = none ∧ e.2 = f) ∨
      ∃ g, gs.lookup e.1 = some g ∧ e.2 = f.meet g)) ∨ (e ∈ gs ∧ fs.lookup e.1 = none) := by
  rcases List.mem_append.1 h with h | h
  · obtain ⟨x, hx, rfl⟩ := List.mem_map.1 h
    refine .inl ⟨x.2, hx, ?_⟩
    dsimp only
    cases hg : gs.lookup x.1 with
    | none => exact .inl ⟨rfl, rfl⟩
    | some g => exact .inr ⟨g, rfl, rfl⟩
  · obtain ⟨h1, h2⟩ := List.mem_filter.1 h
    exact .inr ⟨h1, by simpa using h2⟩

/-- Embedding a struct with a schema that it fits does not change what it represents. -/
theorem Rep.embed {x : Val} {m : Str → Option Atom} (h : Rep x m) {c : Bool} {gs : Fields}
    (hf : Fits gs m) : Rep (Exemplars.embed x (.obj c gs)) m := by
  obtain ⟨d, fs, rfl, h1, h2⟩ := h
  refine ⟨_, _, rfl, ?_, ?_⟩
  · intro e he
    rcases mem_meetFields he with ⟨f, hm, hg⟩ | ⟨hg, hl⟩
    · rcases hg with ⟨_, he2⟩ | ⟨g, hg, he2⟩
      · rw [he2]; exact h1 _ hm
      · rw [he2]
        rcases h1 _ hm with ⟨ho, hn⟩ | ⟨ho, a, ha, hn⟩
        · refine .inl ⟨?_, hn⟩
          rcases hf.2 _ (lookup_mem hg) with h | h
          · simp only at ho h; simp [Field.meet, ho, h]
          · simp only at h hn; rw [hn] at h; cases h
        · refine .inr ⟨?_, a, ?_, hn⟩
          · simp only at ho; simp [Field.meet, ho]
          · obtain ⟨g', hg', hall⟩ := hf.1 _ _ hn
            simp only at hg'
            rw [hg] at hg'
            injection hg' with hg'
            exact meet_field_left ha (hg' ▸ hall)
    · have hn : m e.1 = none := by
        cases hn : m e.1 with
        | none => rfl
        | some a =>
          obtain ⟨f, hf⟩ := h2 _ _ hn
          exact absurd hf (lookup_none hl f)
      rcases hf.2 _ hg with h | h
      · exact .inl ⟨h, hn⟩
      · rw [hn] at h; cases h
  · intro n a hn
    obtain ⟨f, hm⟩ := h2 n a hn
    exact ⟨_, List.mem_append_left _ (List.mem_map.2 ⟨(n, f), hm, rfl⟩)⟩

theorem Rep.concrete {x : Val} {m : Str → Option Atom} (h : Rep x m) :
    Exemplars.concrete x = true := by
  obtain ⟨c, fs, rfl, h1, _⟩ := h
  simp only [Exemplars.concrete, List.all_eq_true]
  intro e he
  rcases h1 e he with ⟨ho, _⟩ | ⟨_, a, ha, _⟩
  · simp [ho]
  · simp [Field.value, ha]

theorem Rep.not_isErr {fatal : Bool} {x : Val} {m : Str → Option Atom} (h : Rep x m) :
    (cue fatal).isErr x = false := by
  obtain ⟨c, fs, rfl, h1, _⟩ := h
  simp only [cue, List.any_eq_false]
  intro e he
  rcases h1 e he with ⟨ho, _⟩ | ⟨_, a, ha, _⟩
  · simp [conflict, ho]
  · simp [conflict, ha]

/-- The labels of a struct are among those of the schema. -/
def Within (gs : Fields) : Val → Prop
  | .obj c fs => (∀ e ∈ fs, (gs.lookup e.1).isSome = true) ∧
      (c = true → ∀ e ∈ gs, (fs.lookup e.1).isSome = true)
  | _ => False

theorem Within.data {gs : Fields} {l : List (Str × Atom)}
    (h : ∀ e ∈ l, (gs.lookup e.1).isSome = true) : Within gs (Exemplars.data l) := by
  refine ⟨fun e he => ?_, fun h => by cases h⟩
  obtain ⟨x, hx, rfl⟩ := List.mem_map.1 he
  exact h x hx

theorem lookup_isSome_of_mem {fs : Fields} {e : Str × Field} (h : e ∈ fs) :
    (fs.lookup e.1).isSome = true := by
  obtain ⟨b, hb⟩ := lookup_of_mem (n := e.1) (a := e.2) h
  simp [hb]

theorem Within.embed {gs hs : Fields} {c : Bool} {x : Val}
    (hx : ∃ d fs, x = .obj d fs ∧ ∀ e ∈ fs, (hs.lookup e.1).isSome = true)
    (hgs : ∀ e ∈ gs, (hs.lookup e.1).isSome = true)
    (hhs : ∀ e ∈ hs, (gs.lookup e.1).isSome = true) :
    Within hs (Exemplars.embed x (.obj c gs)) := by
  obtain ⟨d, fs, rfl, h⟩ := hx
  refine ⟨fun e he => ?_, fun _ e he => ?_⟩
  · rcases mem_meetFields he with ⟨f, hm, _⟩ | ⟨hg, _⟩
    · exact h (e.1, f) hm
    · exact hgs _ hg
  · obtain ⟨g, hg⟩ := Option.isSome_iff_exists.1 (hhs e he)
    cases hl : fs.lookup e.1 with
    | none =>
      have : (e.1, g) ∈ meetFields fs gs :=
        List.mem_append_right _ (List.mem_filter.2 ⟨lookup_mem hg, by simp [hl]⟩)
      exact lookup_isSome_of_mem (e := (e.1, g)) this
    | some f =>
      have : (e.1, match gs.lookup e.1 with | some g => f.meet g | none => f) ∈ meetFields fs gs :=
        List.mem_append_left _ (List.mem_map.2 ⟨(e.1, f), lookup_mem hl, rfl⟩)
      obtain ⟨b, hb⟩ := lookup_of_mem this
      simp [hb]

/-- What fits a schema is valid. -/
theorem Rep.valid {x : Val} {m : Str → Option Atom} (h : Rep x m) {gs : Fields} (hf : Fits gs m)
    (hw : Within gs x) (hnd : (gs.map (·.1)).Nodup) : Exemplars.concrete (unify (.obj true gs) x) = true := by
  obtain ⟨c, fs, rfl, h1, h2⟩ := h
  have huniq : ∀ n (g g' : Field), gs.lookup n = some g → (n, g') ∈ gs → g = g' := by
    intro n g g' h h'
    have := nodup_lookup hnd h'
    simp only at this
    rw [h] at this
    injection this
  have hfit : (fits true gs fs && fits c fs gs) = true := by
    simp only [fits, Bool.not_true, Bool.false_or, Bool.and_eq_true, List.all_eq_true]
    refine ⟨hw.1, ?_⟩
    cases c with
    | false => rfl
    | true => simpa using hw.2 rfl
  simp only [unify, hfit, if_true, Exemplars.concrete, List.all_eq_true]
  intro e he
  rcases mem_meetFields he with ⟨g, hm, hg⟩ | ⟨hg, hl⟩
  · cases hn : m e.1 with
    | some a =>
      obtain ⟨f, hf'⟩ := h2 _ _ hn
      obtain ⟨f', hl⟩ := lookup_of_mem hf'
      rcases h1 _ (lookup_mem hl) with ⟨_, h⟩ | ⟨ho, a', ha, h⟩
      · simp only at h; rw [hn] at h; cases h
      · simp only at h ha ho
        rw [hn] at h
        injection h with h
        subst h
        rcases hg with ⟨hl', _⟩ | ⟨f'', hl', he2⟩
        · rw [hl] at hl'; cases hl'
        · rw [hl] at hl'
          injection hl' with hl'
          subst hl'
          obtain ⟨g', hg', hall⟩ := hf.1 _ _ hn
          have hgg : g' = g := huniq _ _ _ hg' hm
          subst hgg
          simp [he2, Field.value, meet_field_right ha hall]
    | none =>
      have ho : g.opt = true := by
        rcases hf.2 _ hm with h | h
        · exact h
        · simp only at h; rw [hn] at h; cases h
      rcases hg with ⟨_, he2⟩ | ⟨f, hlf, he2⟩
      · rw [he2, ho]; rfl
      · rcases h1 _ (lookup_mem hlf) with ⟨hof, _⟩ | ⟨_, a, _, h⟩
        · simp only at hof
          rw [he2]; simp [Field.meet, ho, hof]
        · simp only at h; rw [hn] at h; cases h
  · obtain ⟨g, hg'⟩ := Option.isSome_iff_exists.1 (hw.1 e hg)
    simp_all

theorem lookup_map_con (l : List (Str × Atom)) (n : Str) :
    (l.map fun e => (e.1, con e.2)).lookup n = (l.lookup n).map con := by
  induction l with
  | nil => rfl
  | cons e l ih =>
    obtain ⟨k, a⟩ := e
    simp only [List.map_cons, List.lookup_cons]
    cases n == k
    · exact ih
    · rfl

theorem value_allows {g : Field} {a : Atom} (h : (g.meet (con a)).value.isSome = true) :
    g.allows a = true := by
  cases hall : g.allows a with
  | true => rfl
  | false =>
    have : g.alts.flatMap (fun x => [Alt.const a].filterMap fun y => x.meet y) = [] := by
      rw [List.flatMap_eq_nil_iff]
      intro x hx
      have := (List.any_eq_false.1 hall) x hx
      rw [Bool.not_eq_true, Option.isSome_eq_false_iff, Option.isNone_iff_eq_none] at this
      simp [this]
    simp only [Field.meet, con, Field.value] at h
    rw [this] at h
    simp [dedup] at h

/-- Data that are valid for a schema without defaults fit it. -/
theorem valid_fits {gs : Fields} {l : List (Str × Atom)}
    (h : Exemplars.concrete (unify (.obj true gs) (data l)) = true)
    (hd : ∀ e ∈ gs, e.2.opt = true ∨ e.2.value = none) :
    Fits gs (fun n => l.lookup n) ∧ ∀ e ∈ l, (gs.lookup e.1).isSome = true := by
  simp only [data, unify] at h
  split at h
  · rename_i hfit
    rw [Bool.and_eq_true] at hfit
    have hin : ∀ e ∈ l, (gs.lookup e.1).isSome = true := by
      intro e he
      have := hfit.1
      simp only [fits, Bool.not_true, Bool.false_or, List.all_eq_true] at this
      exact this _ (List.mem_map.2 ⟨e, he, rfl⟩)
    simp only [concrete, List.all_eq_true] at h
    have hmem : ∀ n g, (n, g) ∈ gs → ∀ a, l.lookup n = some a → g.allows a = true := by
      intro n g hm a ha
      have := h (n, g.meet (con a)) (List.mem_append_left _ (List.mem_map.2 ⟨(n, g), hm, by
        dsimp only
        rw [lookup_map_con, ha]
        rfl⟩))
      have ho : (g.meet (con a)).opt = false := by simp [Field.meet, con]
      simp only [ho, Bool.false_or] at this
      exact value_allows this
    refine ⟨⟨fun n a ha => ?_, fun e he => ?_⟩, hin⟩
    · obtain ⟨g, hl⟩ := Option.isSome_iff_exists.1 (hin _ (lookup_mem ha))
      exact ⟨g, hl, hmem n g (lookup_mem hl) a ha⟩
    · rcases hd e he with ho | hv
      · exact .inl ho
      · cases ha : l.lookup e.1 with
        | some a => exact .inr (by simp [ha])
        | none =>
          have := h e (List.mem_append_left _ (List.mem_map.2 ⟨e, he, by
            rw [lookup_map_con, ha]
            rfl⟩))
          rw [hv] at this
          exact .inl (by simpa using this)
  · simp [concrete] at h

/-- Valid data have only fields of the schema. -/
theorem valid_within {gs : Fields} {l : List (Str × Atom)}
    (h : Exemplars.concrete (unify (.obj true gs) (data l)) = true) :
    ∀ e ∈ l, (gs.lookup e.1).isSome = true := by
  simp only [data, unify] at h
  split at h
  · rename_i hfit
    rw [Bool.and_eq_true] at hfit
    intro e he
    have := hfit.1
    simp only [fits, Bool.not_true, Bool.false_or, List.all_eq_true] at this
    exact this _ (List.mem_map.2 ⟨e, he, rfl⟩)
  · simp [concrete] at h

theorem Rep.congr {x : Val} {m m' : Str → Option Atom} (h : Rep x m) (e : ∀ n, m n = m' n) :
    Rep x m' := funext e ▸ h

/-- What fits a schema fits one with more fields and alternatives. -/
theorem Fits.mono {gs hs : Fields} {m : Str → Option Atom} (h : Fits gs m)
    (h1 : ∀ e ∈ gs, ∃ f, hs.lookup e.1 = some f ∧ e.2.alts ⊆ f.alts)
    (h2 : ∀ e ∈ hs, e.2.opt = true ∨ ∃ g, (e.1, g) ∈ gs ∧ g.opt = false) : Fits hs m := by
  refine ⟨fun n a ha => ?_, fun e he => ?_⟩
  · obtain ⟨g, hg, hall⟩ := h.1 n a ha
    obtain ⟨f, hf, hsub⟩ := h1 _ (lookup_mem hg)
    refine ⟨f, hf, ?_⟩
    obtain ⟨y, hy, hs⟩ := List.any_eq_true.1 hall
    exact List.any_eq_true.2 ⟨y, hsub hy, hs⟩
  · rcases h2 e he with ho | ⟨g, hg, ho⟩
    · exact .inl ho
    · rcases h.2 _ hg with h | h
      · simp only at h; rw [ho] at h; cases h
      · exact .inr h

/-! ### Validation and translation -/

variable {fatal : Bool} {H : Heap Val} {k p q : Nat} {L : Lineage Val}

/-- The fields of the schema at a position. -/
def BodyIs (L : Lineage Val) (p : Nat) (gs : Fields) : Prop := L.body? p = some (.obj true gs)

theorem validate_ok {x : Val} (hH : H k = L) {gs : Fields} (hb : BodyIs L p gs)
    (h : Exemplars.concrete (unify (.obj true gs) x) = true) :
    validate (cue fatal) H ⟨k, p⟩ x = .ok { raw := x, name := [], sch := ⟨k, p⟩, valid := true } := by
  simp only [validate, validateFull, hH]
  rw [hb]
  simp [cue, h]

theorem validate_inv {x : Val} {i : Inst Val} (hH : H k = L) {gs : Fields} (hb : BodyIs L p gs)
    (h : validate (cue fatal) H ⟨k, p⟩ x = .ok i) :
    i = { raw := x, name := [], sch := ⟨k, p⟩, valid := true } ∧
      Exemplars.concrete (unify (.obj true gs) x) = true := by
  simp only [validate, validateFull, hH] at h
  rw [hb] at h
  simp only [cue] at h
  by_cases hc : Exemplars.concrete (unify (.obj true gs) x) = true
  · simp only [hc, if_true, Res.bind_ok] at h
    injection h with h
    exact ⟨h.symm, hc⟩
  · simp only [hc, Bool.false_eq_true, if_false] at h
    exfalso
    revert h
    cases mungeValidateErr (SetCue.errAt "conflicting values") <;> simp

theorem translate_ok {n : Nat} {x y : Val} {to : SV} {steps : List (Step Val)} {gs : Fields}
    (hH : H k = L) (hl : L.lensmap = []) (hs : L.Schema to = .ok q)
    (hx : (cue fatal).isStruct x = true)
    (ht : translateSteps (cue fatal) L x (L.ver p) to = .ok steps)
    (hr : translateResult x steps = y) (hc : Exemplars.concrete y = true) (hb : BodyIs L q gs)
    (hv : Exemplars.concrete (unify (.obj true gs) y) = true) :
    translate (cue fatal) H (n + 1) { raw := x, name := [], sch := ⟨k, p⟩, valid := true } to =
      .ok ({ raw := y, name := [], sch := ⟨k, q⟩, valid := true }, []) := by
  simp only [translate, Inst.check, if_true, Res.bind_ok, hH, hl, List.length_nil, gt_iff_lt,
    Nat.lt_irrefl, if_false, translateCue, hs, hx, Bool.not_true, Bool.false_eq_true, ht, hr]
  rw [show (cue fatal).dflt y = y from rfl, show (cue fatal).marshals y = true from hc]
  simp only [if_true]
  rw [validate_ok hH hb hv]

theorem translate_error {n : Nat} {x : Val} {to : SV}
    (hH : H k = L) (hl : L.lensmap = []) (hs : L.Schema to = .ok q)
    (hx : (cue fatal).isStruct x = true)
    (ht : translateSteps (cue fatal) L x (L.ver p) to = .error) :
    translate (cue fatal) H (n + 1) { raw := x, name := [], sch := ⟨k, p⟩, valid := true } to =
      .err ⟨[.invalidLens]⟩ := by
  simp only [translate, Inst.check, if_true, Res.bind_ok, hH, hl, List.length_nil, gt_iff_lt,
    Nat.lt_irrefl, if_false, translateCue, hs, hx, Bool.not_true, Bool.false_eq_true, ht]

theorem translate_incomplete {n : Nat} {x : Val} {to : SV} {steps : List (Step Val)}
    (hH : H k = L) (hl : L.lensmap = []) (hs : L.Schema to = .ok q)
    (hx : (cue fatal).isStruct x = true)
    (ht : translateSteps (cue fatal) L x (L.ver p) to = .ok steps)
    (hc : Exemplars.concrete (translateResult x steps) = false) :
    translate (cue fatal) H (n + 1) { raw := x, name := [], sch := ⟨k, p⟩, valid := true } to =
      .err ⟨[.lensIncomplete]⟩ := by
  simp only [translate, Inst.check, if_true, Res.bind_ok, hH, hl, List.length_nil, gt_iff_lt,
    Nat.lt_irrefl, if_false, translateCue, hs, hx, Bool.not_true, Bool.false_eq_true, ht]
  rw [show (cue fatal).dflt (translateResult x steps) = translateResult x steps from rfl,
    show (cue fatal).marshals (translateResult x steps) = false from hc]
  simp

/-- A lens that makes data that fit the schema. -/
theorem applyLens_ok {ls : List (CueLens Val)} {idx : Int} {v : SV} {x y : Val}
    {sch : SchemaDef Val} {gs : Fields} {l : CueLens Val} {m : Str → Option Atom}
    (hi : cueIdx ls idx = some l) (hf : l.frm = v) (ht : l.to = sch.v) (hb : l.bad x = false)
    (hy : l.run x = y) (hm : Rep y m) (hs : sch.body = .obj true gs) (hfit : Fits gs m)
    (hlac : fatal = false ∨ (l.lacunas x).any (·.condition) = false) :
    applyLens (cue fatal) ls idx v x sch =
      .ok { frm := l.frm, to := l.to, result := Exemplars.embed y (.obj true gs), lens := some l,
            emitted := (l.lacunas x).filter (·.condition) } := by
  simp only [applyLens, hi, Eval.ofOption_some, Eval.bind_ok, hf, ht, hb, hy, hs,
    ne_eq, not_true_eq_false, if_false, Bool.false_eq_true]
  rw [show (cue fatal).embed y (.obj true gs) = Exemplars.embed y (.obj true gs) from rfl,
    (hm.embed hfit).not_isErr]
  have : ((cue fatal).lacunaRefFatal && (l.lacunas x).any (·.condition)) = false := by
    show (fatal && _) = false
    rcases hlac with h | h <;> simp [h]
  rw [this]
  simp

/-- A schema with these fields. -/
def defOf (v : SV) (gs : Fields) : SchemaDef Val := ⟨v, .obj true gs, .obj true gs, []⟩

/-- The labels of a struct are among those of the fields. -/
def LabelsIn (hs : Fields) (x : Val) : Prop :=
  ∃ d fs, x = .obj d fs ∧ ∀ e ∈ fs, (hs.lookup e.1).isSome = true

theorem LabelsIn.embed {hs gs : Fields} {c : Bool} {x : Val} (h : LabelsIn hs x)
    (hg : ∀ e ∈ gs, (hs.lookup e.1).isSome = true) :
    LabelsIn hs (Exemplars.embed x (.obj c gs)) := by
  obtain ⟨d, fs, rfl, h⟩ := h
  refine ⟨_, _, rfl, fun e he => ?_⟩
  rcases mem_meetFields he with ⟨f, hm, _⟩ | ⟨hm, _⟩
  · exact h (e.1, f) hm
  · exact hg _ hm

theorem LabelsIn.data {gs : Fields} {l : List (Str × Atom)}
    (h : ∀ e ∈ l, (gs.lookup e.1).isSome = true) : LabelsIn gs (Exemplars.data l) := by
  refine ⟨_, _, rfl, fun e he => ?_⟩
  obtain ⟨x, hx, rfl⟩ := List.mem_map.1 he
  exact h x hx

theorem translateResult_cons (x : Val) (st : Step Val) (steps : List (Step Val)) :
    translateResult x (st :: steps) = translateResult st.result steps := by
  cases steps with
  | nil => rfl
  | cons a as =>
    simp only [translateResult, List.getLast?_cons_cons]
    cases h : (a :: as).getLast? with
    | none => simp at h
    | some b => rfl

/-- Steps up within a major version do not change what is represented. -/
theorem fwdSteps_minor {m : Str → Option Atom} {hs : Fields} :
    ∀ (schs : List (SchemaDef Val)) (v : SV) (x : Val), Rep x m → LabelsIn hs x →
    (∀ sch ∈ schs, sch.v.major = v.major ∧ ∃ gs, sch.body = .obj true gs ∧ Fits gs m ∧
      ∀ e ∈ gs, (hs.lookup e.1).isSome = true) →
    ∃ steps, fwdSteps (cue fatal) L schs v x = .ok steps ∧ Rep (translateResult x steps) m ∧
      (∀ sch, schs.getLast? = some sch → sch.body = .obj true hs →
        Within hs (translateResult x steps))
  | [], v, x, hx, _, _ => ⟨[], rfl, hx, fun _ h => by cases h⟩
  | sch :: rest, v, x, hx, hlab, h => by
    obtain ⟨hv, gs, hb, hf, hin⟩ := h sch (by simp)
    have hx' := hx.embed (c := true) hf
    obtain ⟨steps, hs', hr, hl⟩ := fwdSteps_minor rest sch.v (Exemplars.embed x (.obj true gs)) hx'
      (hlab.embed hin)
      (fun s hs => ⟨((h s (List.mem_cons_of_mem _ hs)).1).trans hv.symm,
        (h s (List.mem_cons_of_mem _ hs)).2⟩)
    have h1 : fwdStep (cue fatal) L v x sch =
        .ok { frm := v, to := sch.v, result := Exemplars.embed x (.obj true gs), lens := none,
              emitted := [] } := by
      simp only [fwdStep, hv, if_true, hb]
      rw [show (cue fatal).embed x (.obj true gs) = Exemplars.embed x (.obj true gs) from rfl,
        hx'.not_isErr]
      simp
    refine ⟨_, by rw [fwdSteps, h1, Eval.bind_ok, hs']; rfl,
      by rw [translateResult_cons]; exact hr, ?_⟩
    intro s hlast hbody
    rw [translateResult_cons]
    cases rest with
    | nil =>
      simp only [List.getLast?_singleton, Option.some.injEq] at hlast
      subst hlast
      rw [fwdSteps] at hs'
      injection hs' with hs'
      subst hs'
      rw [hb] at hbody
      injection hbody with _ hg
      subst hg
      obtain ⟨d, fs, rfl, hfs⟩ := hlab
      exact Within.embed ⟨d, fs, rfl, hfs⟩ hin hin
    | cons r rs =>
      rw [List.getLast?_cons_cons] at hlast
      exact hl s hlast hbody

/-- One step with a lens. -/
theorem translate_lens {n : Nat} {x : Val} {to : SV} {gs : Fields} {ls : List (CueLens Val)}
    {idx : Int} {l : CueLens Val} {d : List (Str × Atom)} (hH : H k = L) (hl : L.lensmap = [])
    (hs : L.Schema to = .ok q) (hx : (cue fatal).isStruct x = true)
    (hr : translateSteps (cue fatal) L x (L.ver p) to =
      (applyLens (cue fatal) ls idx (L.ver p) x (defOf to gs)).bind fun s => .ok [s])
    (hb : BodyIs L q gs) (hi : cueIdx ls idx = some l) (hf : l.frm = L.ver p) (ht : l.to = to)
    (hbad : l.bad x = false) (hy : l.run x = data d) (hd : (d.map (·.1)).Nodup)
    (hg : (gs.map (·.1)).Nodup) (hfit : Fits gs (fun n => d.lookup n))
    (hin : ∀ e ∈ d, (gs.lookup e.1).isSome = true)
    (hlac : fatal = false ∨ (l.lacunas x).any (·.condition) = false) :
    translate (cue fatal) H (n + 1) { raw := x, name := [], sch := ⟨k, p⟩, valid := true } to =
      .ok ({ raw := Exemplars.embed (data d) (.obj true gs), name := [], sch := ⟨k, q⟩,
             valid := true }, []) := by
  have h1 := applyLens_ok (fatal := fatal) (sch := defOf to gs) hi hf ht hbad hy (Rep.data hd) rfl
    hfit hlac
  have hrep := (Rep.data hd).embed (c := true) hfit
  refine translate_ok hH hl hs hx (hr.trans (by rw [h1]; rfl)) rfl hrep.concrete hb
    (hrep.valid hfit ?_ hg)
  obtain ⟨c, fs, h, h'⟩ := LabelsIn.data hin
  exact Within.embed ⟨c, fs, h, h'⟩ (fun e he => lookup_isSome_of_mem he)
    (fun e he => lookup_isSome_of_mem he)

/-! ### Helpers for the lineages -/

theorem ex_str {a : Atom} (h : (typ .str).allows a = true) : ∃ t, a = .str t := by
  cases a <;> simp [Field.allows, typ, Alt.meet, Atom.kind] at h ⊢

theorem ex_bool {a : Atom} (h : (typ .bool).allows a = true) : ∃ b, a = .bool b := by
  cases a <;> simp [Field.allows, typ, Alt.meet, Atom.kind] at h ⊢

theorem ex_int {a : Atom} (h : (typ .int true).allows a = true) : ∃ b, a = .int b := by
  cases a <;> simp [Field.allows, typ, Alt.meet, Atom.kind] at h ⊢

/-- Data fit fields, decided. -/
def exFits (gs : Fields) (l : List (Str × Atom)) : Bool :=
  (l.all fun e => match gs.lookup e.1 with | some g => g.allows e.2 | none => false) &&
    gs.all fun e => e.2.opt || (l.lookup e.1).isSome

theorem exFits_fits {gs : Fields} {l : List (Str × Atom)} (h : exFits gs l = true) :
    Fits gs (fun n => l.lookup n) := by
  simp only [exFits, Bool.and_eq_true, List.all_eq_true, Bool.or_eq_true] at h
  refine ⟨fun n a ha => ?_, h.2⟩
  have := h.1 _ (lookup_mem ha)
  dsimp only at this
  split at this
  · exact ⟨_, by assumption, this⟩
  · cases this

theorem exFits_in {gs : Fields} {l : List (Str × Atom)} (h : exFits gs l = true) :
    ∀ e ∈ l, (gs.lookup e.1).isSome = true := by
  simp only [exFits, Bool.and_eq_true, List.all_eq_true, Bool.or_eq_true] at h
  intro e he
  have := h.1 e he
  split at this
  · rename_i hg; rw [hg]; rfl
  · cases this

/-- The value of a required field of valid data. -/
theorem Fits.required {gs : Fields} {m : Str → Option Atom} (h : Fits gs m) {f : Str} {g : Field}
    (hm : (f, g) ∈ gs) (hl : gs.lookup f = some g) (ho : g.opt = false) :
    ∃ a, m f = some a ∧ g.allows a = true := by
  rcases h.2 _ hm with h' | h'
  · simp only at h'; rw [ho] at h'; cases h'
  · obtain ⟨a, ha⟩ := Option.isSome_iff_exists.1 h'
    obtain ⟨g', hg', hall⟩ := h.1 _ _ ha
    simp only at hg'
    rw [hl] at hg'
    injection hg' with hg'
    exact ⟨a, ha, hg' ▸ hall⟩

/-- The value of an optional field of valid data. -/
theorem Fits.optional {gs : Fields} {m : Str → Option Atom} (h : Fits gs m) {f : Str} {g : Field}
    (hl : gs.lookup f = some g) : m f = none ∨ ∃ a, m f = some a ∧ g.allows a = true := by
  cases ha : m f with
  | none => exact .inl rfl
  | some a =>
    obtain ⟨g', hg', hall⟩ := h.1 _ _ ha
    rw [hl] at hg'
    injection hg' with hg'
    exact .inr ⟨a, rfl, hg' ▸ hall⟩

theorem restrict_eq {gs : Fields} {d : List (Str × Atom)} {m : Str → Option Atom}
    (h1 : ∀ e ∈ gs, d.lookup e.1 = m e.1) (h2 : ∀ e ∈ d, (gs.lookup e.1).isSome = true) (n : Str) :
    d.lookup n = if (gs.lookup n).isSome then m n else none := by
  cases hg : gs.lookup n with
  | some g => simpa using h1 _ (lookup_mem hg)
  | none =>
    cases hd : d.lookup n with
    | none => simp
    | some a =>
      have := h2 _ (lookup_mem hd)
      simp [hg] at this

/-- One step with a lens, as part of a longer translation. -/
theorem lens_step {x : Val} {v to : SV} {gs : Fields} {ls : List (CueLens Val)} {idx : Int}
    {l : CueLens Val} {d : List (Str × Atom)} (hi : cueIdx ls idx = some l) (hf : l.frm = v)
    (ht : l.to = to) (hbad : l.bad x = false) (hlac : l.lacunas x = []) (hy : l.run x = data d)
    (hd : (d.map (·.1)).Nodup) (hfit : exFits gs d = true) :
    ∃ st, applyLens (cue fatal) ls idx v x (defOf to gs) = .ok st ∧ st.to = to ∧
      Rep st.result (fun n => d.lookup n) ∧ Within gs st.result := by
  refine ⟨_, applyLens_ok (fatal := fatal) (sch := defOf to gs) hi hf ht hbad hy (Rep.data hd) rfl
    (exFits_fits hfit) (.inr (by rw [hlac]; rfl)), ht, (Rep.data hd).embed (exFits_fits hfit), ?_⟩
  obtain ⟨c, fs, h, h'⟩ := LabelsIn.data (exFits_in hfit)
  exact Within.embed ⟨c, fs, h, h'⟩ (fun e he => lookup_isSome_of_mem he)
    (fun e he => lookup_isSome_of_mem he)

/-- A lens whose result is not data, with the schema. -/
theorem lens_fails {n : Nat} {x : Val} {to : SV} {gs : Fields} {ls : List (CueLens Val)}
    {idx : Int} {l : CueLens Val} (hH : H k = L) (hl : L.lensmap = [])
    (hs : L.Schema to = .ok q) (hx : (cue fatal).isStruct x = true)
    (hr : translateSteps (cue fatal) L x (L.ver p) to =
      (applyLens (cue fatal) ls idx (L.ver p) x (defOf to gs)).bind fun s => .ok [s])
    (hi : cueIdx ls idx = some l)
    (hc : Exemplars.concrete (Exemplars.embed (l.run x) (.obj true gs)) = false) :
    ∃ e, translate (cue fatal) H (n + 1) { raw := x, name := [], sch := ⟨k, p⟩, valid := true } to =
      .err e := by
  have key : applyLens (cue fatal) ls idx (L.ver p) x (defOf to gs) = .error ∨
      ∃ st, applyLens (cue fatal) ls idx (L.ver p) x (defOf to gs) = .ok st ∧
        st.result = Exemplars.embed (l.run x) (.obj true gs) := by
    simp only [applyLens, hi, Eval.ofOption_some, Eval.bind_ok]
    repeat' split
    all_goals first
      | exact .inl rfl
      | exact .inr ⟨_, rfl, rfl⟩
  rcases key with h | ⟨st, h, hres⟩
  · exact ⟨_, translate_error hH hl hs hx (hr.trans (by rw [h]; rfl))⟩
  · exact ⟨_, translate_incomplete hH hl hs hx (hr.trans (by rw [h]; rfl))
      (by show Exemplars.concrete st.result = false; rw [hres]; exact hc)⟩

/-- A lens with a lacuna, if references to the field `lacuna` are fatal. -/
theorem lens_fatal {n : Nat} {x : Val} {to : SV} {gs : Fields} {ls : List (CueLens Val)}
    {idx : Int} {l : CueLens Val} (hH : H k = L) (hl : L.lensmap = [])
    (hs : L.Schema to = .ok q) (hx : (cue true).isStruct x = true)
    (hr : translateSteps (cue true) L x (L.ver p) to =
      (applyLens (cue true) ls idx (L.ver p) x (defOf to gs)).bind fun s => .ok [s])
    (hi : cueIdx ls idx = some l) (hc : (l.lacunas x).any (·.condition) = true) :
    translate (cue true) H (n + 1) { raw := x, name := [], sch := ⟨k, p⟩, valid := true } to =
      .err ⟨[.invalidLens]⟩ := by
  refine translate_error hH hl hs hx (hr.trans ?_)
  have : ((cue true).lacunaRefFatal && (l.lacunas x).any (·.condition)) = true := by
    rw [hc]; rfl
  have key : applyLens (cue true) ls idx (L.ver p) x (defOf to gs) = .error := by
    simp only [applyLens, hi, Eval.ofOption_some, Eval.bind_ok, this, if_true]
    repeat' split
    all_goals rfl
  rw [key]
  rfl

end Thema.Exemplars

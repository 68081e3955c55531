import Verif.Props.AssignText
import Verif.Spec.AssignTextExact

/-!
# The text of the error of `AssignableTo`, exactly (C207)
-/

namespace Thema.Props

open Assign Spec Spec.Assign

variable {V : Type} {O : Obs V}

theorem not_basic_list {k : Kinds} (h : k = { list := true }) : ¬ Basic k := by
  subst h
  rintro (h | h | h | h | h | h) <;> revert h <;> decide

theorem not_basic_struct {k : Kinds} (h : k = { struct := true }) : ¬ Basic k := by
  subst h
  rintro (h | h | h | h | h | h) <;> revert h <;> decide

theorem noNull_list {k : Kinds} (h : k.noNull = { list := true }) : k.list = true :=
  congrArg Kinds.list h

theorem noNull_struct {k : Kinds} (h : k.noNull = { struct := true }) : k.struct = true :=
  congrArg Kinds.struct h

theorem not_listType {s b : V} (h : ListType O s b) (hd : O.hasDefault s = true) :
    (O.alts s).length ≤ 2 := by
  rcases h with ⟨h, _⟩ | ⟨_, r, h, hr⟩
  · rw [hd] at h; cases h
  · rw [h]; simp; omega

theorem mem_keys {l : List (Str × V)} {k : Str} {v : V} (h : (k, v) ∈ l) : k ∈ l.map (·.1) :=
  List.mem_map.2 ⟨_, h, rfl⟩

theorem value_unique {l : List (Str × V)} (hn : (l.map (·.1)).Nodup) {k : Str} {v w : V}
    (h : (k, v) ∈ l) (h' : (k, w) ∈ l) : v = w := by
  induction l with
  | nil => cases h
  | cons a l ih =>
    simp only [List.map_cons, List.nodup_cons] at hn
    rcases List.mem_cons.1 h with rfl | h <;> rcases List.mem_cons.1 h' with h1 | h'
    · cases h1; rfl
    · exact absurd (mem_keys h') hn.1
    · cases h1; exact absurd (mem_keys (l := l) (by assumption)) hn.1
    · exact ih hn.2 h h'

theorem elem_unique {l : List V} {z e e' : V}
    (k : 2 ≤ l.length ∧ l.getLast? = some e ∨ l.length < 2 ∧ e = z)
    (k' : 2 ≤ l.length ∧ l.getLast? = some e' ∨ l.length < 2 ∧ e' = z) : e = e' := by
  rcases k with ⟨k1, k2⟩ | ⟨k1, k2⟩ <;> rcases k' with ⟨k1', k2'⟩ | ⟨k1', k2'⟩
  · exact Option.some.inj (k2.symm.trans k2')
  · omega
  · omega
  · exact k2.trans k2'.symm

/-- A place has at most one discrepancy. -/
theorem disc_unique (hc : Coherent O) {g s : V} {q : P} {m m' : Msg} (h : Disc O g s q m)
    (h' : Disc O g s q m') : m = m' := by
  have hls : ({ list := true } : Kinds) ≠ { struct := true } := by decide
  induction h with
  | kind a b => cases h' <;> grind [not_basic_list, not_basic_struct]
  | basicNull a b c d => cases h' <;> grind [not_basic_list, not_basic_struct]
  | basic a b c d e => cases h' <;> grind [not_basic_list, not_basic_struct]
  | kinds a b c d e => cases h' <;> grind [noNull_list, noNull_struct]
  | structOr a b c => cases h' <;> grind [not_basic_struct, noNull_struct]
  | missing a b c d e f g1 i => cases h' <;> grind [core_unique, mem_keys]
  | excess a b c d e f g1 i => cases h' <;> grind [core_unique, mem_keys]
  | field a b c d e f g1 i j ih =>
    cases h' with
    | missing a' b' c' d' e' f' g1' i' =>
      obtain rfl := core_unique d d'
      rw [f] at f'; cases f'
      exact absurd (mem_keys i) i'
    | excess a' b' c' d' e' f' g1' i' =>
      rw [e] at e'; cases e'
      exact absurd (mem_keys g1) i'
    | field a' b' c' d' e' f' g1' i' j' =>
      obtain rfl := core_unique d d'
      rw [e] at e'; cases e'
      rw [f] at f'; cases f'
      obtain rfl := value_unique (hc.nodup _ _ e) g1 g1'
      obtain rfl := value_unique (hc.nodup _ _ f) i i'
      exact ih j'
  | listDisjunction a b c d => cases h' <;> grind [not_basic_list, noNull_list, not_listType]
  | closed a b c d e f =>
    cases h' <;> grind [not_basic_list, noNull_list, not_listType, core_unique, listType_unique]
  | open_ a b c d e f =>
    cases h' <;> grind [not_basic_list, noNull_list, not_listType, core_unique, listType_unique]
  | lengths a b c d e f =>
    cases h' <;> grind [not_basic_list, noNull_list, not_listType, core_unique, listType_unique]
  | types a b c d e f g1 =>
    cases h' <;> grind [not_basic_list, noNull_list, not_listType, core_unique, listType_unique]
  | openElem a b c d e f g1 i j ih =>
    cases h' with
    | openElem a' b' c' d' e' f' g1' i' j' =>
      obtain rfl := core_unique c c'
      obtain rfl := listType_unique d d'
      exact ih j'
    | closedElem a' b' c' d' e' =>
      obtain rfl := core_unique c c'
      rw [e] at e'; cases e'
  | closedElem a b c d e f g1 i j k l ih =>
    cases h' with
    | openElem a' b' c' d' e' =>
      obtain rfl := core_unique c c'
      rw [e] at e'; cases e'
    | closedElem a' b' c' d' e' f' g1' i' j' k' l' =>
      obtain rfl := core_unique c c'
      obtain rfl := listType_unique d d'
      rw [j] at j'; cases j'
      obtain rfl := elem_unique k k'
      exact ih l'

/-- A discrepancy at a place is the only one at this place and below. -/
theorem disc_root {g s : V} {q : P} {m m' : Msg} (h : Disc O g s [] m) (h' : Disc O g s q m') :
    q = [] := by
  have hls : ({ list := true } : Kinds) ≠ { struct := true } := by decide
  cases h <;> cases h' <;>
    grind [not_basic_list, not_basic_struct, noNull_list, noNull_struct, not_listType, core_unique,
      listType_unique]

theorem lookup_filter {gs : List (Str × V)} {p : Str → Bool} {k : Str} (h : p k = true) :
    (gs.filter fun f => p f.1).lookup k = gs.lookup k := by
  induction gs with
  | nil => rfl
  | cons a gs ih =>
    obtain ⟨c, v⟩ := a
    by_cases hck : k = c
    · subst hck
      simp [h]
    · by_cases hp : p c = true
      · simp only [List.filter_cons, hp, if_true, List.lookup_cons, ih]
      · have : (k == c) = false := by simpa using hck
        simp only [List.filter_cons, hp, Bool.false_eq_true, if_false, List.lookup_cons, ih, this]

/-- The loop over fields in two parts. -/
theorem structLoop_append (rec : V → V → P → Res Errs) (p : P) (pre post gs : List (Str × V))
    (hn : (pre.map (·.1)).Nodup) (hd : ∀ k ∈ pre.map (·.1), k ∉ post.map (·.1)) :
    structLoop rec p (pre ++ post) gs =
      (structLoop rec p pre (gs.filter fun f => (pre.map (·.1)).contains f.1)).bind fun e =>
        (structLoop rec p post (gs.filter fun f => !(pre.map (·.1)).contains f.1)).map (e ++ ·) := by
  induction pre generalizing gs with
  | nil =>
    have h1 : (gs.filter fun f => (([] : List (Str × V)).map (·.1)).contains f.1) = [] := by simp
    have h2 : (gs.filter fun f => !(([] : List (Str × V)).map (·.1)).contains f.1) = gs := by simp
    rw [h1, h2]
    simp only [List.nil_append, structLoop, List.map_nil, Res.bind]
    cases structLoop rec p post gs <;> rfl
  | cons a pre ih =>
    obtain ⟨k, sv⟩ := a
    simp only [List.map_cons, List.nodup_cons] at hn
    have hd' : ∀ k ∈ pre.map (·.1), k ∉ post.map (·.1) := fun k h => hd k (by
      rw [List.map_cons]; exact List.mem_cons_of_mem _ h)
    rw [List.cons_append, structLoop, structLoop,
      lookup_filter (p := fun c => (((k, sv) :: pre).map (·.1)).contains c) (by simp)]
    cases hl : gs.lookup k with
    | none =>
      have hk : ∀ f ∈ gs, f.1 ≠ k := by
        rintro ⟨c, v⟩ hf rfl
        rw [List.lookup_eq_none_iff] at hl
        simpa using hl _ hf
      have h1 : (gs.filter fun f => (((k, sv) :: pre).map (·.1)).contains f.1) =
          gs.filter fun f => (pre.map (·.1)).contains f.1 := by
        apply List.filter_congr
        intro f hf
        simp [hk f hf]
      have h2 : (gs.filter fun f => !(((k, sv) :: pre).map (·.1)).contains f.1) =
          gs.filter fun f => !(pre.map (·.1)).contains f.1 := by
        apply List.filter_congr
        intro f hf
        simp [hk f hf]
      simp only [h1, h2]
      rw [ih gs hn.2 hd']
      cases structLoop rec p pre (gs.filter fun f => (pre.map (·.1)).contains f.1) <;>
        simp [Res.map, Res.bind]
      cases structLoop rec p post _ <;> simp
    | some gv =>
      have h1 : ((gs.filter fun f => (((k, sv) :: pre).map (·.1)).contains f.1).filter
          fun f => decide (f.1 ≠ k)) =
          (gs.filter fun f => decide (f.1 ≠ k)).filter fun f => (pre.map (·.1)).contains f.1 := by
        rw [List.filter_filter, List.filter_filter]
        apply List.filter_congr
        intro f hf
        by_cases hfk : f.1 = k
        · simp [hfk]
        · simp [hfk]
      have h2 : (gs.filter fun f => !(((k, sv) :: pre).map (·.1)).contains f.1) =
          (gs.filter fun f => decide (f.1 ≠ k)).filter fun f => !(pre.map (·.1)).contains f.1 := by
        rw [List.filter_filter]
        apply List.filter_congr
        intro f hf
        by_cases hfk : f.1 = k
        · simp [hfk]
        · simp [hfk]
      simp only [h1, h2]
      rw [ih _ hn.2 hd']
      cases rec gv sv (p ++ [some k]) <;> simp [Res.map, Res.bind]
      cases structLoop rec p pre _ <;> simp
      cases structLoop rec p post _ <;> simp

theorem structLoop_rec {rec : V → V → P → Res Errs} {p : P} {k : Str} {sv gv : V} :
    ∀ {fs gs : List (Str × V)} {es : Errs}, (fs.map (·.1)).Nodup → (gs.map (·.1)).Nodup →
    structLoop rec p fs gs = .ok es → (k, sv) ∈ fs → (k, gv) ∈ gs →
    ∃ es', rec gv sv (p ++ [some k]) = .ok es' := by
  intro fs
  induction fs with
  | nil => intro gs es _ _ _ h1; cases h1
  | cons f fs ih =>
    intro gs es hns hng h h1 h2
    obtain ⟨k0, sv0⟩ := f
    simp only [List.map_cons, List.nodup_cons] at hns
    unfold structLoop at h
    cases hl : gs.lookup k0 with
    | none =>
      rcases List.mem_cons.1 h1 with e | h1
      · cases e
        rw [lookup_of_mem hng h2] at hl; cases hl
      · simp only [hl, Res.map] at h
        rw [Res.bind_eq_ok'] at h
        obtain ⟨es', h', _⟩ := h
        exact ih hns.2 hng h' h1 h2
    | some gv0 =>
      simp only [hl] at h
      rw [Res.bind_eq_ok'] at h
      obtain ⟨es1, hr, h⟩ := h
      rcases List.mem_cons.1 h1 with e | h1
      · cases e
        rw [lookup_of_mem hng h2] at hl; cases hl
        exact ⟨es1, hr⟩
      · simp only [Res.map] at h
        rw [Res.bind_eq_ok'] at h
        obtain ⟨es2, h', _⟩ := h
        have hne : k ≠ k0 := fun e => hns.1 (e ▸ List.mem_map.2 ⟨_, h1, rfl⟩)
        exact ih hns.2 (nodup_filter hng _) h' h1 (List.mem_filter.2 ⟨h2, by simpa using hne⟩)

theorem structLoop_append_ok {rec : V → V → P → Res Errs} {p : P} {pre post gs : List (Str × V)}
    {es : Errs} (hn : ((pre ++ post).map (·.1)).Nodup)
    (h : structLoop rec p (pre ++ post) gs = .ok es) :
    ∃ e1 e2, structLoop rec p pre (gs.filter fun f => (pre.map (·.1)).contains f.1) = .ok e1 ∧
      structLoop rec p post (gs.filter fun f => !(pre.map (·.1)).contains f.1) = .ok e2 ∧
      es = e1 ++ e2 := by
  rw [List.map_append, List.nodup_append] at hn
  rw [structLoop_append _ _ _ _ _ hn.1 (fun k h1 h2 => hn.2.2 k h1 k h2 rfl), Res.bind_eq_ok'] at h
  obtain ⟨e1, h1, h⟩ := h
  simp only [Res.map] at h
  rw [Res.bind_eq_ok'] at h
  obtain ⟨e2, h2, h⟩ := h
  cases h
  exact ⟨e1, e2, h1, h2, rfl⟩

/-- What a part of the fields contributes at a top-level field that is not among them. -/
theorem part_other (hc : Coherent O) {n : Nat} {g g' s : V} {fs gs ss gp : List (Str × V)} {e : Errs}
    (hks : (O.kind s).noNull = { struct := true }) (hkg : (O.kind g).noNull = { struct := true })
    (ho : O.isOr s = false) (hcore : Core O g g') (hf : O.fields s = some fs)
    (hfg : O.fields g' = some gs) (hss : ∀ f ∈ ss, f ∈ fs) (hgp : ∀ f ∈ gp, f ∈ gs)
    (hns : (ss.map (·.1)).Nodup) (hng : (gp.map (·.1)).Nodup)
    (hin : ∀ f ∈ gs, f.1 ∈ ss.map (·.1) → f ∈ gp) {k : Str} (hk : k ∉ ss.map (·.1))
    (hkg' : k ∉ gp.map (·.1)) (h : structLoop (check O n) [] ss gp = .ok e) (m : Msg) :
    ([some k], m) ∈ e ↔ m = .absentInSchema ∧ ∃ j ∈ ss.map (·.1), ∃ q,
      Disc O g s (some j :: q ++ [some k]) .absentInSchema := by
  rw [structLoop_mem hns hng h]
  constructor
  · rintro (⟨j, hj, _, hx, _⟩ | ⟨j, hj, _, hx, _⟩ | ⟨j, sv, gv, es', h1, h2, hr, hx⟩)
    · simp only [List.nil_append, List.cons.injEq, Option.some.injEq, and_true] at hx
      exact absurd (hx ▸ hj) hk
    · simp only [List.cons.injEq, Option.some.injEq, and_true] at hx
      exact absurd (hx ▸ hj) hkg'
    · rcases check_reported hc n _ _ _ _ hr _ _ hx with ⟨hm, q, hq, hd⟩ | ⟨hm, q, k', hq, hd⟩
      · simp only [List.nil_append, List.cons_append, List.cons.injEq, Option.some.injEq] at hq
        exact absurd (hq.1 ▸ mem_keys h1) hk
      · simp only [List.cons.injEq, Option.some.injEq, and_true] at hq
        subst hq
        subst hm
        refine ⟨rfl, j, mem_keys h1, q, ?_⟩
        exact .field hks hkg ho hcore hf hfg (hss _ h1) (hgp _ h2) hd
  · rintro ⟨rfl, j, hj, q, hd⟩
    rw [List.cons_append] at hd
    cases hqe : q ++ [some k] with
    | nil => simp at hqe
    | cons c r =>
      rw [hqe] at hd
      cases hd with
      | field a b c' d e' f g1 i j' =>
        obtain rfl := core_unique hcore d
        rw [hf] at e'; cases e'
        rw [hfg] at f; cases f
        obtain ⟨⟨j0, sv0⟩, h0, h0'⟩ := List.mem_map.1 hj
        simp only at h0'
        subst h0'
        obtain rfl := value_unique (hc.nodup _ _ hf) g1 (hss _ h0)
        have hgm := hin _ i hj
        obtain ⟨es', hr⟩ := structLoop_rec hns hng h h0 hgm
        refine .inr (.inr ⟨_, _, _, es', h0, hgm, hr, ?_⟩)
        exact (check_complete hc j' n _ es' hr).2 rfl q k hqe.symm

theorem split_unique {l a b c : List Str} {k : Str} (hn : (a ++ k :: b).Nodup)
    (h : a ++ k :: b = l ++ k :: c) : b = c := by
  induction a generalizing l with
  | nil =>
    cases l with
    | nil => simpa using h
    | cons x l =>
      simp only [List.nil_append, List.cons_append, List.cons.injEq] at h
      rw [List.nil_append, List.nodup_cons, h.2] at hn
      exact absurd (by simp) hn.1
  | cons x a ih =>
    cases l with
    | nil =>
      simp only [List.nil_append, List.cons_append, List.cons.injEq] at h
      rw [List.cons_append, List.nodup_cons, h.1] at hn
      exact absurd (by simp) hn.1
    | cons y l =>
      simp only [List.cons_append, List.cons.injEq] at h
      rw [List.cons_append, List.nodup_cons] at hn
      exact ih hn.2 h.2

theorem last_occurrence {es : Errs} {x : P} {m : Msg} (h : (x, m) ∈ es) :
    ∃ a b m', es = a ++ (x, m') :: b ∧ x ∉ b.map (·.1) := by
  have := (errMap_keys_mem es x).2 (List.mem_map.2 ⟨_, h, rfl⟩)
  obtain ⟨⟨y, m'⟩, hy, hy'⟩ := List.mem_map.1 this
  simp only at hy'
  subst hy'
  obtain ⟨a, b, he, hb⟩ := (errMap_mem_iff es y m').1 hy
  exact ⟨a, b, m', he, hb⟩

theorem last_in_suffix {u v a b : Errs} {x : P} {m m' : Msg} (h : u ++ v = a ++ (x, m) :: b)
    (hv : (x, m') ∈ v) (hb : x ∉ b.map (·.1)) : (x, m) ∈ v := by
  rcases List.append_eq_append_iff.1 h with ⟨c, h1, h2⟩ | ⟨c, h1, h2⟩
  · rw [h2]; simp
  · cases c with
    | nil =>
      simp only [List.nil_append] at h2
      rw [← h2]; simp
    | cons y c =>
      simp only [List.cons_append, List.cons.injEq] at h2
      exfalso
      apply hb
      rw [h2.2, List.map_append, List.mem_append]
      exact .inr (List.mem_map.2 ⟨_, hv, rfl⟩)

theorem disc_below {g s : V} (hc : Coherent O) {k : Str} {q : P} {m m' : Msg}
    (h : Disc O g s [some k] m) (h' : Disc O g s (some k :: q) m') : q = [] := by
  cases h with
  | missing a b c d e f g1 i =>
    cases h' with
    | missing => rfl
    | excess => rfl
    | field a' b' c' d' e' f' g1' i' j' =>
      obtain rfl := core_unique d d'
      rw [f] at f'; cases f'
      exact absurd (mem_keys i') i
  | excess a b c d e f g1 i =>
    cases h' with
    | missing => rfl
    | excess => rfl
    | field a' b' c' d' e' f' g1' i' j' =>
      rw [e] at e'; cases e'
      exact absurd (mem_keys g1') i
  | field a b c d e f g1 i j =>
    cases h' with
    | missing => rfl
    | excess => rfl
    | field a' b' c' d' e' f' g1' i' j' =>
      obtain rfl := core_unique d d'
      rw [e] at e'; cases e'
      rw [f] at f'; cases f'
      obtain rfl := value_unique (hc.nodup _ _ e) g1 g1'
      obtain rfl := value_unique (hc.nodup _ _ f) i i'
      exact disc_root j j'

/-- At a top-level field, the schema has it if there is another discrepancy than that it is only in the
Go type. -/
theorem disc_top {g s : V} {k : Str} {m : Msg} (h : Disc O g s [some k] m)
    (hm : m ≠ .absentInSchema) : ∃ g' fs gs, (O.kind s).noNull = { struct := true } ∧
      (O.kind g).noNull = { struct := true } ∧ O.isOr s = false ∧ Core O g g' ∧
      O.fields s = some fs ∧ O.fields g' = some gs ∧ k ∈ fs.map (·.1) := by
  cases h with
  | missing a b c d e f g1 i => exact ⟨_, _, _, a, b, c, d, e, f, g1⟩
  | excess => exact absurd rfl hm
  | field a b c d e f g1 i j => exact ⟨_, _, _, a, b, c, d, e, f, mem_keys g1⟩

theorem errMap_top (hc : Coherent O) {n : Nat} {g s : V} {es : Errs}
    (h : check O n g s [] = .ok es) {k : Str} {m : Msg} (hm : m ≠ .absentInSchema)
    (hd : Disc O g s [some k] m) : ([some k], m) ∈ errMap es ↔ ¬ Overwritten O g s k := by
  obtain ⟨g', fs, gs, hks, hkg, ho, hcore, hf, hfg, hk⟩ := disc_top hd hm
  have hes := (C63_reports_partial hc n g s es h [some k] m).2 (.inl ⟨hm, hd⟩)
  have hall := C63_reports_partial hc n g s es h
  cases n with
  | zero => cases h
  | succ n =>
    rw [check_struct_eq hks hkg ho hcore hf hfg] at h
    obtain ⟨⟨k0, sv⟩, hk0, hk1⟩ := List.mem_map.1 hk
    simp only at hk1
    subst hk1
    obtain ⟨pre, post, rfl⟩ := List.append_of_mem hk0
    have hns := hc.nodup _ _ hf
    have hng := hc.nodup _ _ hfg
    obtain ⟨e1, e2, h1, h2, rfl⟩ := structLoop_append_ok hns h
    have hns' := hns
    rw [List.map_append, List.nodup_append, List.map_cons, List.nodup_cons] at hns'
    have hkpre : k0 ∉ pre.map (·.1) := fun hh => hns'.2.2 k0 hh k0 (by simp) rfl
    rw [show (k0, sv) :: post = [(k0, sv)] ++ post from rfl] at h2
    obtain ⟨ek, e3, hk2, h3, rfl⟩ := structLoop_append_ok (by
      simpa using hns'.2.1) h2
    -- what comes before, and what comes after
    have hpre := part_other hc hks hkg ho hcore hf hfg (ss := pre) (k := k0)
      (gp := gs.filter fun f => (pre.map (·.1)).contains f.1)
      (fun f hh => List.mem_append_left _ hh) (fun f hh => (List.mem_filter.1 hh).1)
      hns'.1 (nodup_filter hng _) (fun f hh hh' => List.mem_filter.2 ⟨hh, by
        rw [List.contains_iff_mem]; exact hh'⟩) hkpre (by
        intro hh
        obtain ⟨f, hf', rfl⟩ := List.mem_map.1 hh
        have := (List.mem_filter.1 hf').2
        rw [List.contains_iff_mem] at this
        exact hkpre this) h1
    have hpost := part_other hc hks hkg ho hcore hf hfg (ss := post) (k := k0)
      (gp := (gs.filter fun f => !(pre.map (·.1)).contains f.1).filter
        fun f => !([(k0, sv)].map (·.1)).contains f.1)
      (fun f hh => List.mem_append_right _ (List.mem_cons_of_mem _ hh))
      (fun f hh => (List.mem_filter.1 (List.mem_filter.1 hh).1).1)
      hns'.2.1.2 (nodup_filter (nodup_filter hng _) _) (fun f hh hh' => by
        refine List.mem_filter.2 ⟨List.mem_filter.2 ⟨hh, ?_⟩, ?_⟩
        · have : f.1 ∉ pre.map (·.1) := fun x => hns'.2.2 _ x f.1 (by simp [hh']) rfl
          simpa using this
        · have : f.1 ≠ k0 := fun x => hns'.2.1.1 (x ▸ hh')
          simpa using this) hns'.2.1.1 (by
        intro hh
        obtain ⟨f, hf', rfl⟩ := List.mem_map.1 hh
        have := (List.mem_filter.1 hf').2
        simp at this) h3
    have hek : ([some k0], m) ∈ ek := by
      rcases List.mem_append.1 hes with hh | hh
      · exact absurd ((hpre m).1 hh).1 hm
      · rcases List.mem_append.1 hh with hh | hh
        · exact hh
        · exact absurd ((hpost m).1 hh).1 hm
    have huniq : ∀ m', ([some k0], m') ∈ ek → m' = m := by
      intro m' hm'
      by_cases ha : m' = .absentInSchema
      · exfalso
        subst ha
        have hs1 : ([(k0, sv)].map (·.1)).Nodup := by simp
        rcases (structLoop_mem hs1 (nodup_filter (nodup_filter hng _) _) hk2 _ _).1 hm' with
          ⟨_, _, _, _, hx⟩ | ⟨j, hj, hj', hx, _⟩ | ⟨j, sv', gv, es', a1, a2, hr, hx⟩
        · cases hx
        · simp only [List.cons.injEq, Option.some.injEq, and_true] at hx
          subst hx
          simp at hj'
        · have hj : j = k0 ∧ sv' = sv := by simpa using a1
          obtain ⟨rfl, rfl⟩ := hj
          rcases check_reported hc n _ _ _ _ hr _ _ hx with ⟨hh, _⟩ | ⟨_, q, k', hq, hd'⟩
          · exact hh rfl
          · have := disc_below hc hd (.field hks hkg ho hcore hf hfg hk0
              (List.mem_filter.1 (List.mem_filter.1 a2).1).1 hd')
            simp at this
      · rcases (hall [some k0] m').1 (by simp [hm']) with ⟨_, hd'⟩ | ⟨hh, _⟩
        · exact disc_unique hc hd' hd
        · exact absurd hh ha
    have hov : Overwritten O g s k0 ↔ ([some k0], Msg.absentInSchema) ∈ e3 := by
      rw [hpost]
      constructor
      · rintro ⟨fs', pre', post', j, q, hf', he, hj, hdj⟩
        rw [hf] at hf'; cases hf'
        refine ⟨rfl, j, ?_, q, hdj⟩
        have : post' = post.map (·.1) := by
          rw [List.map_append, List.map_cons] at he
          have hn' := hns
          rw [List.map_append, List.map_cons] at hn'
          exact (split_unique hn' he).symm
        rw [← this]; exact hj
      · rintro ⟨_, j, hj, q, hdj⟩
        exact ⟨_, pre.map (·.1), post.map (·.1), j, q, hf, by simp, hj, hdj⟩
    rw [errMap_mem_iff, hov]
    constructor
    · rintro ⟨a, b, he, hb⟩ hmem
      -- the last assignment to the key is in `e3`
      rw [← List.append_assoc] at he
      have := last_in_suffix he hmem hb
      exact hm (((hpost m).1 this).1)
    · intro hno
      have hno' : [some k0] ∉ e3.map (·.1) := by
        intro hh
        obtain ⟨⟨x, m'⟩, hx, hx'⟩ := List.mem_map.1 hh
        simp only at hx'
        subst hx'
        have := ((hpost m').1 hx).1
        subst this
        exact hno hx
      obtain ⟨a, b, m', he, hb⟩ := last_occurrence hek
      have : m' = m := huniq m' (by rw [he]; simp)
      subst this
      refine ⟨e1 ++ a, b ++ e3, by rw [he]; simp, ?_⟩
      rw [List.map_append, List.mem_append]
      rintro (hh | hh)
      · exact hb hh
      · exact hno' hh

theorem errMap_unique {es : Errs} {x : P} {m m' : Msg} (h : (x, m) ∈ errMap es)
    (h' : (x, m') ∈ errMap es) : m = m' := by
  obtain ⟨a, b, he, hb⟩ := (errMap_mem_iff es x m).1 h
  obtain ⟨a', b', he', hb'⟩ := (errMap_mem_iff es x m').1 h'
  have h1 : (x, m) ∈ (x, m') :: b' := last_in_suffix (m' := m') (he'.symm.trans he) (by simp) hb
  rcases List.mem_cons.1 h1 with e | e
  · cases e; rfl
  · exact absurd (List.mem_map.2 ⟨_, e, rfl⟩) hb'

theorem errMap_sub {es : Errs} {e : P × Msg} (h : e ∈ errMap es) : e ∈ es := by
  obtain ⟨x, m⟩ := e
  obtain ⟨a, b, he, _⟩ := (errMap_mem_iff es x m).1 h
  rw [he]; simp

theorem told_iff (hc : Coherent O) {n : Nat} {g s : V} {es : Errs}
    (h : check O n g s [] = .ok es) (x : P) (m : Msg) : (x, m) ∈ errMap es ↔ Told O g s x m := by
  have hall := C63_reports_partial hc n g s es h
  have hkey : ∀ {x m}, (x, m) ∈ es → ∃ m', (x, m') ∈ errMap es ∧ (x, m') ∈ es := by
    intro x m hx
    obtain ⟨⟨y, m'⟩, hy, hy'⟩ :=
      List.mem_map.1 ((errMap_keys_mem es x).2 (List.mem_map.2 ⟨_, hx, rfl⟩))
    simp only at hy'
    subst hy'
    exact ⟨m', hy, errMap_sub hy⟩
  constructor
  · intro hx
    rcases (hall x m).1 (errMap_sub hx) with ⟨hm, hd⟩ | ⟨hm, q, k, hxk, hd⟩
    · refine .inl ⟨hm, hd, ?_⟩
      rintro k rfl
      exact (errMap_top hc h hm hd).1 hx
    · subst hm
      subst hxk
      refine .inr ⟨rfl, q, k, rfl, hd, fun m' hm' hd' => ?_⟩
      refine Classical.byContradiction fun hno => ?_
      exact hm' (errMap_unique ((errMap_top hc h hm' hd').2 hno) hx)
  · rintro (⟨hm, hd, hno⟩ | ⟨hm, q, k, hxk, hd, hov⟩)
    · obtain ⟨m', h1, h2⟩ := hkey ((hall x m).2 (.inl ⟨hm, hd⟩))
      rcases (hall x m').1 h2 with ⟨hm', hd'⟩ | ⟨hm', q, k, hxk, hd'⟩
      · exact disc_unique hc hd hd' ▸ h1
      · subst hxk
        exact (errMap_top hc h hm hd).2 (hno k rfl)
    · subst hm
      subst hxk
      obtain ⟨m', h1, h2⟩ := hkey ((hall [some k] .absentInSchema).2 (.inr ⟨rfl, q, k, rfl, hd⟩))
      by_cases hm' : m' = .absentInSchema
      · exact hm' ▸ h1
      · rcases (hall _ m').1 h2 with ⟨_, hd'⟩ | ⟨hh, _⟩
        · exact absurd (hov m' hm' hd') ((errMap_top hc h hm' hd').1 h1)
        · exact absurd hh hm'

theorem errorText_join (render : P × Msg → Str) :
    ∀ es : Errs, errorText render es = joinWith ['\n'] (es.map render)
  | [] => rfl
  | [_] => rfl
  | e :: e' :: es => by
    rw [errorText, errorText_join render (e' :: es)]
    · simp [joinWith]
    · simp

theorem assignable_errs {n : Nat} {s g : V} {t : GoVal V} {es : Errs} (ht : t.deref = .struct g)
    (h : assignable O n s t = .ok (.errs es)) : check O n g s [] = .ok es ∧ es ≠ [] := by
  unfold assignable at h
  rw [ht] at h
  simp only [Res.map] at h
  rw [Res.bind_eq_ok'] at h
  obtain ⟨es', h1, h2⟩ := h
  split at h2
  · rename_i hl
    cases h2
    exact ⟨h1, by rintro rfl; simp at hl⟩
  · cases h2

theorem told_exists (hc : Coherent O) {n : Nat} {g s : V} {es : Errs}
    (h : check O n g s [] = .ok es) (hne : es ≠ []) : ∃ x m, Told O g s x m := by
  obtain ⟨⟨x, m⟩, es', rfl⟩ := List.exists_cons_of_ne_nil hne
  have := (errMap_keys_mem ((x, m) :: es') x).2 (by simp)
  obtain ⟨⟨y, m'⟩, hy, _⟩ := List.mem_map.1 this
  exact ⟨y, m', (told_iff hc h y m').1 hy⟩

/-- **C207** (texts).  The texts that the error of `AssignableTo` may have are exactly the lists, in
any order, of the messages for all that is told, each once, one below the other. -/
theorem C207_texts_iff (hc : Coherent O) {n : Nat} {s g : V} {T : GoVal V} {es : Errs}
    (hT : T.deref = .struct g) (h : assignable O n s T = .ok (.errs es)) (render : P × Msg → Str)
    (t : Str) : ErrorTexts render es t ↔ ∃ entries : List (P × Msg), entries.Nodup ∧
      (∀ x m, (x, m) ∈ entries ↔ Told O g s x m) ∧ t = joinWith ['\n'] (entries.map render) := by
  obtain ⟨hch, _⟩ := assignable_errs hT h
  have hn : (errMap es).Nodup := List.Nodup.of_map _ (errMap_nodup es)
  constructor
  · rintro ⟨entries, hp, rfl⟩
    refine ⟨entries, hp.nodup_iff.2 hn, fun x m => ?_, errorText_join render entries⟩
    rw [hp.mem_iff, told_iff hc hch]
  · rintro ⟨entries, hnd, hmem, rfl⟩
    refine ⟨entries, (List.perm_ext_iff_of_nodup hnd hn).2 ?_, (errorText_join render entries).symm⟩
    rintro ⟨x, m⟩
    rw [hmem, told_iff hc hch]

/-- **C207** (one message).  Of each place, the text says one thing. -/
theorem C207_one_message (hc : Coherent O) {n : Nat} {s g : V} {T : GoVal V} {es : Errs}
    (hT : T.deref = .struct g) (h : assignable O n s T = .ok (.errs es)) {x : P} {m m' : Msg}
    (h1 : Told O g s x m) (h2 : Told O g s x m') : m = m' := by
  obtain ⟨hch, _⟩ := assignable_errs hT h
  exact errMap_unique ((told_iff hc hch x m).2 h1) ((told_iff hc hch x m').2 h2)

/-- **C207** (stable).  The text is the same in all calls exactly if all that it tells is told in the
same words. -/
theorem C207_stable_iff (hc : Coherent O) {n : Nat} {s g : V} {T : GoVal V} {es : Errs}
    (hT : T.deref = .struct g) (h : assignable O n s T = .ok (.errs es)) (render : P × Msg → Str)
    (hr : ∀ x m, Told O g s x m → '\n' ∉ render (x, m)) :
    (∀ t t', ErrorTexts render es t → ErrorTexts render es t' → t = t') ↔
      ∀ x m x' m', Told O g s x m → Told O g s x' m' → render (x, m) = render (x', m') := by
  obtain ⟨hch, hne⟩ := assignable_errs hT h
  have hti := told_iff hc hch
  have hne' : errMap es ≠ [] := by
    obtain ⟨x, m, hx⟩ := told_exists hc hch hne
    intro he
    have := (hti x m).2 hx
    rw [he] at this
    cases this
  constructor
  · intro hs x m x' m' h1 h2
    obtain ⟨a, b, hab⟩ := List.append_of_mem ((hti x m).2 h1)
    obtain ⟨a', b', hab'⟩ := List.append_of_mem ((hti x' m').2 h2)
    have p1 : ((x, m) :: (a ++ b)).Perm (errMap es) := hab ▸ List.perm_middle.symm
    have p2 : ((x', m') :: (a' ++ b')).Perm (errMap es) := hab' ▸ List.perm_middle.symm
    have he := hs _ _ ⟨_, p1, rfl⟩ ⟨_, p2, rfl⟩
    have l1 := linesOf_errorText (render := render) (es := (x, m) :: (a ++ b)) (by simp) (by
      rintro ⟨y, my⟩ hy
      exact hr _ _ ((hti y my).1 (p1.mem_iff.1 hy)))
    have l2 := linesOf_errorText (render := render) (es := (x', m') :: (a' ++ b')) (by simp) (by
      rintro ⟨y, my⟩ hy
      exact hr _ _ ((hti y my).1 (p2.mem_iff.1 hy)))
    rw [he, l2] at l1
    simp only [List.map_cons, List.cons.injEq] at l1
    exact l1.1.symm
  · rintro hs t t' ⟨l, hl, rfl⟩ ⟨l', hl', rfl⟩
    obtain ⟨x, m, hx⟩ := told_exists hc hch hne
    have key : ∀ {l : Errs}, l.Perm (errMap es) →
        l.map render = List.replicate (errMap es).length (render (x, m)) := by
      intro l hl
      rw [List.eq_replicate_iff]
      refine ⟨by simp [hl.length_eq], fun r hr' => ?_⟩
      obtain ⟨⟨y, my⟩, hy, rfl⟩ := List.mem_map.1 hr'
      exact hs _ _ _ _ ((hti y my).1 (hl.mem_iff.1 hy)) hx
    rw [errorText_join, errorText_join, key hl, key hl']

/-- **C207** (complete).  The text has a line for every discrepancy that is not a field only in the Go
type, exactly if no such discrepancy at a top-level field is overwritten. -/
theorem C207_complete_iff (hc : Coherent O) {n : Nat} {s g : V} {T : GoVal V} {es : Errs}
    (hT : T.deref = .struct g) (h : assignable O n s T = .ok (.errs es)) (render : P × Msg → Str)
    (hinj : ∀ x m x' m', Told O g s x m → m' ≠ .absentInSchema → Disc O g s x' m' →
      render (x, m) = render (x', m') → (x, m) = (x', m'))
    (hr : ∀ x m, Told O g s x m → '\n' ∉ render (x, m)) :
    (∀ t, ErrorTexts render es t → ∀ x m, m ≠ .absentInSchema → Disc O g s x m →
      render (x, m) ∈ linesOf t) ↔
      ∀ k m, m ≠ .absentInSchema → Disc O g s [some k] m → ¬ Overwritten O g s k := by
  obtain ⟨hch, hne⟩ := assignable_errs hT h
  have hti := told_iff hc hch
  have hlines : ∀ {l : Errs}, l.Perm (errMap es) → linesOf (errorText render l) = l.map render := by
    intro l hl
    refine linesOf_errorText ?_ ?_
    · rintro rfl
      obtain ⟨x, m, hx⟩ := told_exists hc hch hne
      have := hl.mem_iff.2 ((hti x m).2 hx)
      cases this
    · rintro ⟨y, my⟩ hy
      exact hr _ _ ((hti y my).1 (hl.mem_iff.1 hy))
  constructor
  · intro hs k m hm hd
    have := hs _ ⟨_, .refl _, rfl⟩ _ m hm hd
    rw [hlines (.refl _)] at this
    obtain ⟨e, he, he'⟩ := List.mem_map.1 this
    obtain ⟨y, my⟩ := e
    cases hinj _ _ _ _ ((hti _ _).1 he) hm hd he'
    exact (errMap_top hch (hc := hc) hm hd).1 he
  · rintro hs t ⟨l, hl, rfl⟩ x m hm hd
    rw [hlines hl]
    refine List.mem_map.2 ⟨(x, m), hl.mem_iff.2 ((hti x m).2 (.inl ⟨hm, hd, ?_⟩)), rfl⟩
    rintro k rfl
    exact hs k m hm hd

/-- **C207** (fields only in the Go type).  The text has a line, for every field that is only in the Go
type, with the name of the field alone as the place, exactly if each other discrepancy at a top-level
field of this name is overwritten. -/
theorem C207_excess_iff (hc : Coherent O) {n : Nat} {s g : V} {T : GoVal V} {es : Errs}
    (hT : T.deref = .struct g) (h : assignable O n s T = .ok (.errs es)) (render : P × Msg → Str)
    (hr : ∀ x m, Told O g s x m → '\n' ∉ render (x, m)) {t : Str} (ht : ErrorTexts render es t)
    {q : P} {k : Str} (hinj : ∀ x m, Told O g s x m → render (x, m) =
      render ([some k], .absentInSchema) → (x, m) = ([some k], .absentInSchema))
    (hd : Disc O g s (q ++ [some k]) .absentInSchema) :
    render ([some k], .absentInSchema) ∈ linesOf t ↔
      ∀ m, m ≠ .absentInSchema → Disc O g s [some k] m → Overwritten O g s k := by
  obtain ⟨hch, hne⟩ := assignable_errs hT h
  have hti := told_iff hc hch
  obtain ⟨l, hl, rfl⟩ := ht
  have hlines : linesOf (errorText render l) = l.map render := by
    refine linesOf_errorText ?_ ?_
    · rintro rfl
      obtain ⟨x, m, hx⟩ := told_exists hc hch hne
      have := hl.mem_iff.2 ((hti x m).2 hx)
      cases this
    · rintro ⟨y, my⟩ hy
      exact hr _ _ ((hti y my).1 (hl.mem_iff.1 hy))
  rw [hlines]
  constructor
  · intro hm m' hm' hd'
    obtain ⟨e, he, he'⟩ := List.mem_map.1 hm
    obtain ⟨y, my⟩ := e
    cases hinj _ _ ((hti _ _).1 (hl.mem_iff.1 he)) he'
    rcases (hti _ _).1 (hl.mem_iff.1 he) with ⟨hh, _⟩ | ⟨_, q', k', hk, _, hov⟩
    · exact absurd rfl hh
    · cases hk
      exact hov m' hm' hd'
  · intro hov
    exact List.mem_map.2 ⟨_, hl.mem_iff.2 ((hti _ _).2 (.inr ⟨rfl, q, k, rfl, hd, hov⟩)), rfl⟩

/-! ## Examples -/

section Examples

open TyCue

/-- The last name of the path and the sort of discrepancy. -/
def shortText (e : P × Msg) : Str :=
  (e.1.flatMap fun s => '.' :: s.getD ['?']) ++
    (if e.2 = .absentInSchema then " is only in Go".toList else " differs".toList)

theorem hidErrs : assignable obs 5 hidSchema (.ptr (.struct hidGo)) = .ok (.errs
    [([some "x".toList], .kindMismatch), ([some "x".toList], .absentInSchema)]) := rfl

/-- The same with the fields of the schema in the other order. -/
def hidSchema' : Ty := .st [("z".toList, .st []), ("x".toList, .sc .int 7 false)]

theorem hidErrs' : assignable obs 5 hidSchema' (.struct hidGo) = .ok (.errs
    [([some "x".toList], .absentInSchema), ([some "x".toList], .kindMismatch)]) := rfl

theorem badErrsT : assignable obs 5 badSchema (.struct badGo) = .ok (.errs
    [([some "n".toList], .absentInGo), ([some "l".toList, none, some "x".toList], .kindMismatch),
      ([some "z".toList], .absentInSchema)]) := rfl

/-- The field `z` comes after `x` and has a field `x` that the schema does not know. -/
example : Overwritten obs hidGo hidSchema "x".toList := by
  obtain ⟨hch, _⟩ := assignable_errs (g := hidGo) rfl hidErrs
  have h := (told_iff TyCue.coherent hch [some "x".toList] .absentInSchema).1 (by decide)
  rcases h with ⟨hh, _⟩ | ⟨_, q, k, hk, hd, hov⟩
  · exact absurd rfl hh
  · cases hk
    exact hov .kindMismatch (by decide) (by
      rcases (C63_reports_partial TyCue.coherent 5 _ _ _ hch [some "x".toList] .kindMismatch).1
        (by decide) with ⟨_, hd⟩ | ⟨hm, _⟩
      · exact hd
      · cases hm)

/-- With `z` before `x`, the wrong kind of `x` is shown and the superfluous field is not. -/
example : ErrorTexts shortText [([some "x".toList], .absentInSchema), ([some "x".toList], .kindMismatch)]
      ".x differs".toList ∧ ¬ Overwritten obs hidGo hidSchema' "x".toList := by
  refine ⟨⟨_, .refl _, by decide⟩, ?_⟩
  obtain ⟨hch, _⟩ := assignable_errs (g := hidGo) rfl hidErrs'
  rcases (told_iff TyCue.coherent hch [some "x".toList] .kindMismatch).1 (by decide) with
    ⟨_, _, hno⟩ | ⟨hm, _⟩
  · exact hno _ rfl
  · cases hm

/-- All is shown, since nothing is overwritten. -/
example : ∀ t, ErrorTexts shortText [([some "n".toList], .absentInGo),
      ([some "l".toList, none, some "x".toList], .kindMismatch), ([some "z".toList], .absentInSchema)] t →
    ∀ x m, m ≠ .absentInSchema → Disc obs badGo badSchema x m → shortText (x, m) ∈ linesOf t := by
  obtain ⟨hch, _⟩ := assignable_errs (g := badGo) rfl badErrsT
  have hti := told_iff TyCue.coherent hch
  have hall := C63_reports_partial TyCue.coherent 5 _ _ _ hch
  have em : errMap [([some "n".toList], .absentInGo),
      ([some "l".toList, none, some "x".toList], Msg.kindMismatch),
      ([some "z".toList], .absentInSchema)] = [([some "n".toList], .absentInGo),
      ([some "l".toList, none, some "x".toList], .kindMismatch), ([some "z".toList], .absentInSchema)] := by
    decide
  refine (C207_complete_iff TyCue.coherent rfl badErrsT shortText ?_ ?_).2 ?_
  · intro x m x' m' h1 h2 h3 he
    have h1 := (hti x m).2 h1
    have h3 := (hall x' m').2 (.inl ⟨h2, h3⟩)
    rw [em] at h1
    simp only [List.mem_cons, Prod.mk.injEq, List.not_mem_nil, or_false] at h1 h3
    rcases h1 with ⟨rfl, rfl⟩ | ⟨rfl, rfl⟩ | ⟨rfl, rfl⟩ <;>
      rcases h3 with ⟨rfl, rfl⟩ | ⟨rfl, rfl⟩ | ⟨rfl, rfl⟩ <;> first | rfl | (revert he; decide)
  · intro x m h1
    have h1 := (hti x m).2 h1
    rw [em] at h1
    simp only [List.mem_cons, Prod.mk.injEq, List.not_mem_nil, or_false] at h1
    rcases h1 with ⟨rfl, rfl⟩ | ⟨rfl, rfl⟩ | ⟨rfl, rfl⟩ <;> decide
  · intro k m hm hd
    refine (errMap_top TyCue.coherent hch hm hd).1 ?_
    rw [em]
    exact (hall _ _).2 (.inl ⟨hm, hd⟩)

/-- Three things are told, in different words. -/
example : ∃ t t', ErrorTexts shortText [([some "n".toList], .absentInGo),
      ([some "l".toList, none, some "x".toList], .kindMismatch), ([some "z".toList], .absentInSchema)] t ∧
    ErrorTexts shortText [([some "n".toList], .absentInGo),
      ([some "l".toList, none, some "x".toList], .kindMismatch), ([some "z".toList], .absentInSchema)] t' ∧
    t ≠ t' := by
  obtain ⟨hch, _⟩ := assignable_errs (g := badGo) rfl badErrsT
  have hti := told_iff TyCue.coherent hch
  refine Classical.byContradiction fun hno => ?_
  have := (C207_stable_iff TyCue.coherent rfl badErrsT shortText (by
    intro x m h1
    have h1 := errMap_sub ((hti x m).2 h1)
    simp only [List.mem_cons, Prod.mk.injEq, List.not_mem_nil, or_false] at h1
    rcases h1 with ⟨rfl, rfl⟩ | ⟨rfl, rfl⟩ | ⟨rfl, rfl⟩ <;> decide)).1 (fun t t' h h' =>
      Classical.byContradiction fun hne => hno ⟨t, t', h, h', hne⟩)
    [some "n".toList] .absentInGo [some "z".toList] .absentInSchema ((hti _ _).1 (by decide))
    ((hti _ _).1 (by decide))
  exact absurd this (by decide)

end Examples

end Thema.Props

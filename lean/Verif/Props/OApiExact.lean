import Verif.Spec.OApiExact
import Verif.Props.OApi

/-!
# OpenAPI documents, exactly (C176)
-/

namespace Thema.Props

open OApi Path

variable {V : Type} [DecidableEq V] {C : OCue V} {s : Sch V} {cfg cfg' : Config V} {doc : Doc V}

omit [DecidableEq V] in
theorem sanitize_filter (l : Str) : sanitizeLabelString l = l.filter keepRune := by
  unfold sanitizeLabelString
  induction l with
  | nil => rfl
  | cons c cs ih =>
    rw [List.filterMap_cons, List.filter_cons]
    by_cases h : keepRune c = true <;> simp [h, ih]

omit [DecidableEq V] in
theorem titleOf_eq (hg : cfg.group = false) : titleOf s cfg = rootNameOf s cfg := by
  unfold titleOf rootNameOf
  rw [hg]
  cases hr : cfg.rootName with
  | cons c cs => simp
  | nil =>
    cases hp : cfg.subpath.reverse with
    | nil =>
      have : cfg.subpath = [] := by simpa using hp
      simp [this, sanitize_filter]
    | cons l ls =>
      have : cfg.subpath = ls.reverse ++ [l] := by
        rw [← List.reverse_reverse cfg.subpath, hp, List.reverse_cons]
      simp [this, Sel.str]

theorem nfSingle_eq {user : Option (NameFunc V)} {n : Str} {v : V} {q : P}
    (hb : ∃ x rest, s.bpath = x :: rest ∧ isDef x = false) :
    nfSingle s user [defSel n] n v (defSel n :: q) = nameOf s user n v q := by
  have hpre : ∀ q, pathHasPrefix (defSel n :: q) s.bpath = false := by
    intro q
    obtain ⟨x, rest, hx, hd⟩ := hb
    have hne : x.text ≠ '#' :: n := fun he => by simp [isDef, he] at hd
    have : selEq x (defSel n) = false := by
      simp only [selEq, Bool.or_eq_false_iff, beq_eq_false_iff_ne, ne_eq]
      refine ⟨fun he => hne (by rw [he]; rfl), fun he => hne ?_⟩
      have := congrArg Sel.text he
      exact this
    unfold pathHasPrefix
    rw [hx]
    split
    · rfl
    · unfold pathsAreEq
      split
      · rfl
      · simp [pathsEqLoop, this]
  have e1 : ∀ q, trimThemaPathPrefix (defSel n :: q) s.bpath = defSel n :: q := by
    intro q
    unfold trimThemaPathPrefix
    rw [hpre q]; rfl
  cases q with
  | nil =>
    have h2 : trimPathPrefix [defSel n] [defSel n] = [defSel n] := by
      unfold trimPathPrefix; exact if_pos rfl
    unfold nfSingle nameOf
    simp only [e1, h2]
    rw [if_pos (.inr trivial), if_pos (.inl trivial)]
  | cons x p =>
    have e2 : trimPathPrefix (defSel n :: x :: p) [defSel n] = x :: p := by
      unfold trimPathPrefix
      rw [if_neg (by simp)]
      have : trimLoop [defSel n] (defSel n :: x :: p) = 1 := by
        rw [trimLoop]
        have : selEq (defSel n) (defSel n) = true := by simp [selEq]
        rw [this]; rfl
      rw [this]; rfl
    have e4 : pathStr (defSel n :: x :: p) ≠ [] := by
      rw [pathStr]
      · simp [Sel.str, defSel]
      · simp
    have e5 : pathStr [defSel n] = '#' :: n := rfl
    unfold nfSingle nameOf
    simp only [e1, e2, e5, e4, false_or, reduceCtorEq]
    split
    · rfl
    · split
      · rfl
      · split
        · rfl
        · cases user <;> rfl

theorem generate_eq (hr : Rooted C) (hb : ∃ x rest, s.bpath = x :: rest ∧ isDef x = false)
    (user : Option (NameFunc V)) (n : Str) (v : V) :
    generate C (nfSingle s user [defSel n] n) (C.define n v) =
      match C.genErr (C.define n v) with
      | some e => .err e
      | none => .ok (componentsOf C s user (n, v)) := by
  unfold generate
  cases C.genErr (C.define n v) with
  | some e => rfl
  | none =>
    simp only [Res.ok.injEq, componentsOf]
    have : ∀ l : List (V × P), (∀ x ∈ l, x.2.head? = some (defSel n)) →
        (l.filterMap fun x => if nfSingle s user [defSel n] n x.1 x.2 = [] then none
          else some (nfSingle s user [defSel n] n x.1 x.2, x.1)) =
        (l.map fun x => (nameOf s user n x.1 x.2.tail, x.1)).filter fun c => decide (c.1 ≠ []) := by
      intro l
      induction l with
      | nil => intro _; rfl
      | cons x l ih =>
        intro hl
        obtain ⟨w, p⟩ := x
        have hp := hl _ (List.mem_cons_self ..)
        cases p with
        | nil => cases hp
        | cons a q =>
          injection hp with hp
          subst hp
          rw [List.filterMap_cons, List.map_cons, List.filter_cons,
            ih fun x hx => hl x (List.mem_cons_of_mem _ hx)]
          simp only [nfSingle_eq hb, List.tail_cons]
          by_cases h0 : nameOf s user n w q = [] <;> simp [h0]
    exact this _ (hr n v)

omit [DecidableEq V] in
theorem atSubpath_eq (v : V) :
    (SubpathOk C s cfg v → atSubpath C s cfg v =
      .ok (if cfg.subpath = [] then v else C.lookup v cfg.subpath)) ∧
    (¬ SubpathOk C s cfg v → atSubpath C s cfg v = .err notPresent) := by
  unfold SubpathOk atSubpath
  by_cases h0 : cfg.subpath = []
  · simp [h0]
  · rw [if_neg h0, if_neg h0]
    simp only [h0, false_or]
    refine ⟨fun h => ?_, fun h => ?_⟩
    · rw [if_neg, if_neg]
      · simp only [List.any_eq_true, not_exists, not_and]
        intro sel hm; simp [(h sel hm).2]
      · simp only [List.any_eq_true, not_exists, not_and]
        intro sel hm; simp [(h sel hm).1]
    · split
      · rfl
      · rename_i h1
        split
        · rfl
        · rename_i h2
          refine absurd (fun sel hm => ⟨?_, ?_⟩) h
          · simp only [List.any_eq_true, not_exists, not_and] at h1
            simpa using h1 sel hm
          · simp only [List.any_eq_true, not_exists, not_and] at h2
            simpa using h2 sel hm

/-- What the caller's configuration is after a value was encoded. -/
theorem genSchema_eq (hr : Rooted C) (hb : ∃ x rest, s.bpath = x :: rest ∧ isDef x = false)
    (user : Option (NameFunc V)) (v : V) :
    (SubpathOk C s cfg v → genSchema C s user cfg v =
      (match C.genErr (C.define (rootNameOf s cfg)
          (if cfg.subpath = [] then v else C.lookup v cfg.subpath)) with
        | some e => .err e
        | none => .ok (componentsOf C s user (rootNameOf s cfg,
            if cfg.subpath = [] then v else C.lookup v cfg.subpath)),
      { cfg with
        nameFunc := some (nfSingle s user [defSel (rootNameOf s cfg)] (rootNameOf s cfg))
        info := some (trimMarks (rootNameOf s cfg)) })) ∧
    (¬ SubpathOk C s cfg v → genSchema C s user cfg v = (.err notPresent, cfg)) := by
  refine ⟨fun h => ?_, fun h => ?_⟩
  · unfold genSchema
    rw [(atSubpath_eq v).1 h]
    simp only [generate_eq hr hb]
  · unfold genSchema
    rw [(atSubpath_eq v).2 h]

theorem genGroup_eq (hr : Rooted C) (hb : ∃ x rest, s.bpath = x :: rest ∧ isDef x = false)
    (user : Option (NameFunc V)) : ∀ fs : List (Sel × V),
    ((∀ x ∈ fs, C.genErr (C.define (trimMarks (Sel.str x.1)) x.2) = none) →
      genGroup C s user fs =
        .ok ((fs.map fun x => (trimMarks (Sel.str x.1), x.2)).flatMap (componentsOf C s user))) ∧
    (∀ x ∈ fs, C.genErr (C.define (trimMarks (Sel.str x.1)) x.2) ≠ none →
      ∃ y ∈ fs, ∃ e, C.genErr (C.define (trimMarks (Sel.str y.1)) y.2) = some e ∧
        genGroup C s user fs = .err e) := by
  intro fs
  induction fs with
  | nil => exact ⟨fun _ => rfl, fun x hx => by cases hx⟩
  | cons x fs ih =>
    obtain ⟨sel, v⟩ := x
    rw [genGroup]
    simp only [generate_eq hr hb]
    cases he : C.genErr (C.define (trimMarks (Sel.str sel)) v) with
    | some e =>
      refine ⟨fun h => ?_, fun _ _ _ => ⟨_, List.mem_cons_self .., e, he, rfl⟩⟩
      have := h _ (List.mem_cons_self ..)
      rw [he] at this
      cases this
    | none =>
      simp only [Res.bind_ok]
      refine ⟨fun h => ?_, fun x hx hne => ?_⟩
      · rw [ih.1 fun x hx => h x (List.mem_cons_of_mem _ hx)]
        simp
      · rcases List.mem_cons.1 hx with rfl | hx
        · exact absurd he hne
        · obtain ⟨y, hy, e, h1, h2⟩ := ih.2 x hx hne
          exact ⟨y, List.mem_cons_of_mem _ hy, e, h1, by rw [h2]; rfl⟩

/-- **C176**.  `GenerateSchema` succeeds exactly if the subpath passes the check and CUE can
encode each root; then the title, the version and all components, in order, are as said
(`titleOf`, `componentsOf`); otherwise it returns an error, and it never panics. -/
theorem C176_document (hr : Rooted C) (hb : ∃ x rest, s.bpath = x :: rest ∧ isDef x = false) :
    ((cfg.group = false → ∀ v ∈ tops s cfg, SubpathOk C s cfg v) →
      (∀ r ∈ roots C s cfg, C.genErr (C.define r.1 r.2) = none) →
      (generateSchema C s cfg).1 = .ok ⟨titleOf s cfg, s.version,
        (roots C s cfg).flatMap (componentsOf C s cfg.nameFunc)⟩) ∧
    (¬ ((cfg.group = false → ∀ v ∈ tops s cfg, SubpathOk C s cfg v) ∧
        ∀ r ∈ roots C s cfg, C.genErr (C.define r.1 r.2) = none) →
      ∃ e, (generateSchema C s cfg).1 = .err e) := by
  by_cases hg : cfg.group = true
  · have ht : titleOf s cfg = sanitizeLabelString s.lineage := by
      unfold titleOf; rw [hg, sanitize_filter]
    have hro : roots C s cfg = (C.fields s.schdef).map fun x => (trimMarks (Sel.str x.1), x.2) := by
      unfold roots; rw [if_pos hg]
    have hgen := genGroup_eq hr hb cfg.nameFunc (C.fields s.schdef)
    have hq : ∀ {P : Prop}, (P ∧ ∀ r ∈ roots C s cfg, C.genErr (C.define r.1 r.2) = none) ↔
        (P ∧ ∀ x ∈ C.fields s.schdef, C.genErr (C.define (trimMarks (Sel.str x.1)) x.2) = none) := by
      intro P
      rw [hro]
      simp only [List.forall_mem_map]
    constructor
    · intro _ h
      have h' := (hq (P := True)).1 ⟨trivial, h⟩
      simp only [generateSchema, hg, if_true, hgen.1 h'.2, Res.bind_ok, ht, hro]
    · intro h
      rw [hq] at h
      simp only [hg, Bool.true_eq_false, false_implies, true_and, Classical.not_forall] at h
      obtain ⟨x, hx, hne⟩ := h
      obtain ⟨_, _, e, _, h2⟩ := hgen.2 x hx hne
      exact ⟨e, by simp only [generateSchema, hg, if_true, h2]; rfl⟩
  · have hg : cfg.group = false := by simpa using hg
    have ht := titleOf_eq (s := s) hg
    have hro : roots C s cfg = (tops s cfg).map fun v =>
        (rootNameOf s cfg, if cfg.subpath = [] then v else C.lookup v cfg.subpath) := by
      unfold roots
      rw [hg, ht]
      rfl
    rw [hro, ht]
    cases hs : cfg.splitSchema with
    | false =>
      have htop : tops s cfg = [s.schdef] := by unfold tops; rw [hs]; rfl
      rw [htop]
      have hge := genSchema_eq (cfg := cfg) hr hb cfg.nameFunc s.schdef
      simp only [List.mem_singleton, forall_eq, List.map_cons, List.map_nil, hg, forall_const,
        List.flatMap_cons, List.flatMap_nil, List.append_nil]
      simp only [generateSchema, hg, hs, Bool.false_eq_true, if_false, genSingle]
      by_cases hok : SubpathOk C s cfg s.schdef
      · rw [hge.1 hok]
        cases C.genErr (C.define (rootNameOf s cfg)
            (if cfg.subpath = [] then s.schdef else C.lookup s.schdef cfg.subpath)) with
        | none => simp [hok]
        | some e => simp [hok]
      · rw [hge.2 hok]
        simp [hok]
    | true =>
      have htop : tops s cfg = [s.schraw, s.join] := by unfold tops; rw [hs]; rfl
      rw [htop]
      have hge := genSchema_eq (cfg := cfg) hr hb cfg.nameFunc s.schraw
      simp only [List.mem_cons, List.not_mem_nil, or_false, forall_eq_or_imp, forall_eq,
        List.map_cons, List.map_nil, hg, forall_const, List.flatMap_cons, List.flatMap_nil,
        List.append_nil]
      simp only [generateSchema, hg, hs, Bool.false_eq_true, if_false, if_true, genSingle]
      by_cases hok : SubpathOk C s cfg s.schraw
      · have hok2 : SubpathOk C s cfg s.join := by
          rcases hok with h | h
          · exact .inl h
          · exact .inr fun sel hm => ⟨(h sel hm).2, (h sel hm).2⟩
        rw [hge.1 hok]
        have hge2 := genSchema_eq (cfg := { cfg with
          nameFunc := some (nfSingle s cfg.nameFunc [defSel (rootNameOf s cfg)] (rootNameOf s cfg))
          info := some (trimMarks (rootNameOf s cfg)) }) hr hb cfg.nameFunc s.join
        have hrn : ∀ a b, rootNameOf s { cfg with nameFunc := a, info := b } = rootNameOf s cfg :=
          fun a b => rootName_congr rfl rfl
        cases C.genErr (C.define (rootNameOf s cfg)
            (if cfg.subpath = [] then s.schraw else C.lookup s.schraw cfg.subpath)) with
        | some e => simp [hok]
        | none =>
          simp only
          rw [hge2.1 hok2]
          simp only [hrn]
          cases C.genErr (C.define (rootNameOf s cfg)
            (if cfg.subpath = [] then s.join else C.lookup s.join cfg.subpath)) with
          | none => simp [hok, hok2]
          | some e => simp [hok]
      · rw [hge.2 hok]
        simp [hok]

/-- **C176**.  What the caller's configuration is afterwards, whether the call succeeds or not:
nothing changes with `Group`, or if the subpath fails the check; otherwise `Info` has the title,
and `NameFunc` is the one for this lineage and root, around the user's.  Nothing else changes. -/
theorem C176_config (hr : Rooted C) (hb : ∃ x rest, s.bpath = x :: rest ∧ isDef x = false) :
    (cfg.group = true → (generateSchema C s cfg).2 = cfg) ∧
    (cfg.group = false → ∀ v, (tops s cfg).head? = some v → ¬ SubpathOk C s cfg v →
      (generateSchema C s cfg).2 = cfg) ∧
    (cfg.group = false → ∀ v, (tops s cfg).head? = some v → SubpathOk C s cfg v →
      ∃ nf, (generateSchema C s cfg).2 =
          { cfg with nameFunc := some nf, info := some (trimMarks (titleOf s cfg)) } ∧
        ∀ w q, nf w (defSel (titleOf s cfg) :: q) =
          nameOf s cfg.nameFunc (titleOf s cfg) w q) := by
  have hrn : ∀ a b, rootNameOf s { cfg with nameFunc := a, info := b } = rootNameOf s cfg :=
    fun a b => rootName_congr rfl rfl
  refine ⟨fun hg => by simp [generateSchema, hg], fun hg v hv hno => ?_, fun hg v hv hok => ?_⟩
  · have hge := (genSchema_eq (cfg := cfg) hr hb cfg.nameFunc v).2 hno
    unfold tops at hv
    cases hs : cfg.splitSchema <;> rw [hs] at hv <;> injection hv with hv <;> subst hv <;>
      simp only [generateSchema, hg, hs, Bool.false_eq_true, if_false, if_true, genSingle, hge]
  · have hge := (genSchema_eq (cfg := cfg) hr hb cfg.nameFunc v).1 hok
    rw [titleOf_eq hg]
    refine ⟨nfSingle s cfg.nameFunc [defSel (rootNameOf s cfg)] (rootNameOf s cfg), ?_,
      fun w q => nfSingle_eq hb⟩
    unfold tops at hv
    cases hs : cfg.splitSchema with
    | false =>
      rw [hs] at hv
      injection hv with hv
      subst hv
      simp only [generateSchema, hg, hs, Bool.false_eq_true, if_false, genSingle, hge]
      cases C.genErr (C.define (rootNameOf s cfg)
        (if cfg.subpath = [] then s.schdef else C.lookup s.schdef cfg.subpath)) <;> simp
    | true =>
      rw [hs] at hv
      injection hv with hv
      subst hv
      have hok2 : SubpathOk C s cfg s.join := by
        rcases hok with h | h
        · exact .inl h
        · exact .inr fun sel hm => ⟨(h sel hm).2, (h sel hm).2⟩
      have hge2 := (genSchema_eq (cfg := { cfg with
          nameFunc := some (nfSingle s cfg.nameFunc [defSel (rootNameOf s cfg)] (rootNameOf s cfg))
          info := some (trimMarks (rootNameOf s cfg)) }) hr hb cfg.nameFunc s.join).1 hok2
      simp only [hrn] at hge2
      simp only [hg, hs] at hge2
      simp only [generateSchema, hg, hs, Bool.false_eq_true, if_false, if_true, genSingle, hge]
      cases C.genErr (C.define (rootNameOf s cfg)
        (if cfg.subpath = [] then s.schraw else C.lookup s.schraw cfg.subpath)) with
      | some e => simp
      | none =>
        simp only
        rw [hge2]
        cases C.genErr (C.define (rootNameOf s cfg)
          (if cfg.subpath = [] then s.join else C.lookup s.join cfg.subpath)) <;> simp

theorem dropWhile_marks {p : Char → Bool} : ∀ (a l : Str), (∀ c ∈ a, p c = true) →
    (a ++ l).dropWhile p = l.dropWhile p
  | [], _, _ => rfl
  | c :: a, l, h => by
    rw [List.cons_append, List.dropWhile_cons_of_pos (h c (List.mem_cons_self ..))]
    exact dropWhile_marks a l fun c hc => h c (List.mem_cons_of_mem _ hc)

theorem dropWhile_head {p : Char → Bool} : ∀ (l : Str), (∀ c, l.head? = some c → p c = false) →
    l.dropWhile p = l
  | [], _ => rfl
  | c :: l, h => List.dropWhile_cons_of_neg (by simp [h c rfl])

theorem dropWhile_parts (p : Char → Bool) : ∀ l : Str, ∃ a, l = a ++ l.dropWhile p ∧
    (∀ c ∈ a, p c = true) ∧ ∀ c, (l.dropWhile p).head? = some c → p c = false
  | [] => ⟨[], rfl, fun c h => (nomatch h), fun c h => by cases h⟩
  | d :: l => by
    by_cases hd : p d = true
    · obtain ⟨a, h1, h2, h3⟩ := dropWhile_parts p l
      rw [List.dropWhile_cons_of_pos hd]
      exact ⟨d :: a, by rw [List.cons_append, ← h1], fun c hc => by
        rcases List.mem_cons.1 hc with rfl | hc
        · exact hd
        · exact h2 c hc, h3⟩
    · rw [List.dropWhile_cons_of_neg hd]
      refine ⟨[], rfl, fun c h => (nomatch h), fun c h => ?_⟩
      injection h with h
      subst h
      simpa using hd

theorem mark_iff (c : Char) : ((c == '?' || c == '#') = true) ↔ IsMark c := by simp [IsMark]

theorem not_mark_iff (c : Char) : ((c == '?' || c == '#') = false) ↔ ¬ IsMark c := by
  rw [← mark_iff]; simp

/-- **C176** (names).  The name for a path is the path without markers at its ends. -/
theorem C176_unmarked (s t : Str) : trimMarks s = t ↔ Unmarked s t := by
  constructor
  · rintro rfl
    obtain ⟨a, h1, h2, h3⟩ := dropWhile_parts (fun c => c == '?' || c == '#') s
    obtain ⟨b, h4, h5, h6⟩ := dropWhile_parts (fun c => c == '?' || c == '#')
      (s.dropWhile fun c => c == '?' || c == '#').reverse
    have h7 : (s.dropWhile fun c => c == '?' || c == '#') = trimMarks s ++ b.reverse := by
      rw [← List.reverse_reverse (s.dropWhile fun c => c == '?' || c == '#'), h4,
        List.reverse_append]
      rfl
    refine ⟨a, b.reverse, ?_, fun c hc => (mark_iff c).1 (h2 c hc),
      fun c hc => (mark_iff c).1 (h5 c (List.mem_reverse.1 hc)), fun c hc => ?_, fun c hc => ?_⟩
    · rw [List.append_assoc, ← h7, ← h1]
    · refine (not_mark_iff c).1 (h3 c ?_)
      rw [h7]
      cases ht : trimMarks s with
      | nil => rw [ht] at hc; cases hc
      | cons d l => rw [ht] at hc; exact hc
    · refine (not_mark_iff c).1 (h6 c ?_)
      rw [← List.getLast?_reverse]
      exact hc
  · rintro ⟨a, b, rfl, ha, hb, hh, hl⟩
    unfold trimMarks
    rw [List.append_assoc, dropWhile_marks a _ fun c hc => (mark_iff c).2 (ha c hc)]
    have hb' : ∀ c ∈ b.reverse, (c == '?' || c == '#') = true := fun c hc =>
      (mark_iff c).2 (hb c (List.mem_reverse.1 hc))
    cases t with
    | nil =>
      have : b.dropWhile (fun c => c == '?' || c == '#') = [] := by
        have := dropWhile_marks (p := fun c => c == '?' || c == '#') b [] fun c hc =>
          (mark_iff c).2 (hb c hc)
        simpa using this
      rw [List.nil_append, this]
      rfl
    | cons d l =>
      rw [dropWhile_head (d :: l ++ b) (fun c hc => (not_mark_iff c).2 (hh c hc)), List.reverse_append,
        dropWhile_marks _ _ hb', dropWhile_head, List.reverse_reverse]
      intro c hc
      rw [List.head?_reverse] at hc
      exact (not_mark_iff c).2 (hl c hc)

/-- **C176** (names).  The text of a path: its selectors, with a question mark after optional
ones, and dots between them. -/
theorem C176_path_text : ∀ q : P,
    pathStr q = ['.'].intercalate (q.map fun x => x.text ++ if x.opt then ['?'] else [])
  | [] => rfl
  | [x] => by cases h : x.opt <;> simp [pathStr, Sel.str, h]
  | x :: y :: q => by
    have ih := C176_path_text (y :: q)
    rw [pathStr, ih]
    · cases h : x.opt <;> simp [Sel.str, h, List.intercalate]
    · simp

example : Unmarked "#Sail?".toList "Sail".toList :=
  (C176_unmarked _ _).1 (by decide)

theorem pathsCue_rooted : Rooted pathsCue := by
  intro n v x hx
  simp only [pathsCue, List.mem_filterMap] at hx
  obtain ⟨p, hp, hx⟩ := hx
  have : p.head? = some (defSel n) := by
    rcases List.mem_cons.1 hp with rfl | hp
    · rfl
    · obtain ⟨q, _, rfl⟩ := List.mem_map.1 hp
      rfl
  split at hx
  · split at hx
    · injection hx with hx; rw [← hx]; exact this
    · cases hx
  · cases hx

/-- The document for `ship`, and for one of its fields. -/
example : (∃ x rest, shipSch.bpath = x :: rest ∧ isDef x = false) ∧
    titleOf shipSch {} = "ship".toList ∧
    ((roots pathsCue shipSch {}).flatMap (componentsOf pathsCue shipSch none)).map (·.1) =
      ["ship".toList, "hull.#Sail".toList, "Crew".toList] ∧
    SubpathOk pathsCue shipSch { subpath := [fld "hull"] } shipSch.schdef ∧
    ((roots pathsCue shipSch { subpath := [fld "hull"] }).flatMap
      (componentsOf pathsCue shipSch none)).map (·.1) = ["hull".toList, "Sail".toList] := by
  refine ⟨⟨_, _, rfl, by decide⟩, by decide, by decide, .inr ?_, by decide⟩
  decide

/-- A group has a component for each field; a subpath in two steps is rejected. -/
example : ((roots pathsCue shipSch { group := true }).flatMap
      (componentsOf pathsCue shipSch none)).map (·.1) =
      ["hull".toList, "Sail".toList, "Crew".toList] ∧
    ¬ SubpathOk pathsCue shipSch { subpath := [fld "hull", fld "mast"] } shipSch.schdef := by
  refine ⟨by decide, fun h => ?_⟩
  rcases h with h | h
  · cases h
  · have := h (fld "mast") (by simp)
    exact absurd this.1 (by decide)

end Thema.Props

import Verif.Model.OApi

/-!
# OpenAPI documents (C98 - C103)
-/

namespace Thema.Props

open OApi Path

variable {V : Type} [DecidableEq V] {C : OCue V} {s : Sch V} {cfg cfg' : Config V} {doc : Doc V}

/-- The path leads somewhere: each selector is allowed by the value that the earlier ones
lead to. -/
def PathPresent (C : OCue V) : V → P → Prop
  | _, [] => True
  | v, x :: xs => C.allows v x = true ∧ PathPresent C (C.lookup v [x]) xs

/-- CUE's encoder asks for the name of the definition that it is given. -/
def RootNamed (C : OCue V) : Prop := ∀ n v, ∃ x, (x, [defSel n]) ∈ C.visits (C.define n v)

/-- How many components have the name `n`. -/
def named (n : Str) (ds : List (Str × V)) : Nat := (ds.filter fun d => decide (d.1 = n)).length

omit [DecidableEq V] in
theorem named_append (n : Str) (a b : List (Str × V)) : named n (a ++ b) = named n a + named n b := by
  simp [named]

omit [DecidableEq V] in
theorem named_pos {n : Str} {ds : List (Str × V)} (h : ∃ x, (n, x) ∈ ds) : 1 ≤ named n ds := by
  obtain ⟨x, hx⟩ := h
  apply List.length_pos_of_mem (a := (n, x))
  rw [List.mem_filter]
  exact ⟨hx, by simp⟩

theorem pathHasPrefix_single {x : Sel} {b : P} (hb : 2 ≤ b.length) : pathHasPrefix [x] b = false := by
  unfold pathHasPrefix
  exact if_pos (by simp; omega)

theorem nfSingle_root (onf : Option (NameFunc V)) (n : Str) (v : V) (hb : 2 ≤ s.bpath.length) :
    nfSingle s onf [defSel n] n v [defSel n] = n := by
  unfold nfSingle
  have h1 : trimThemaPathPrefix [defSel n] s.bpath = [defSel n] := by
    unfold trimThemaPathPrefix
    rw [pathHasPrefix_single hb]; rfl
  have h2 : trimPathPrefix [defSel n] [defSel n] = [defSel n] := by
    unfold trimPathPrefix; exact if_pos rfl
  simp only [h1, h2]
  exact if_pos (.inr trivial)

omit [DecidableEq V] in
theorem generate_ok {nf : NameFunc V} {v : V} {ds : List (Str × V)} (h : generate C nf v = .ok ds) :
    C.genErr v = none ∧ ds = (C.visits v).filterMap fun x =>
      if nf x.1 x.2 = [] then none else some (nf x.1 x.2, x.1) := by
  unfold generate at h
  split at h
  · cases h
  · rename_i he; injection h with h; exact ⟨he, h.symm⟩

theorem generate_root {onf : Option (NameFunc V)} {n : Str} {v : V} {ds : List (Str × V)}
    (hr : RootNamed C) (hb : 2 ≤ s.bpath.length) (hn : n ≠ [])
    (h : generate C (nfSingle s onf [defSel n] n) (C.define n v) = .ok ds) : ∃ x, (n, x) ∈ ds := by
  obtain ⟨_, h⟩ := generate_ok h
  obtain ⟨x, hx⟩ := hr n v
  refine ⟨x, ?_⟩
  rw [h, List.mem_filterMap]
  refine ⟨_, hx, ?_⟩
  simp only [nfSingle_root onf n x hb]
  rw [if_neg hn]

/-- What one value gives. -/
theorem genSchema_ok {onf : Option (NameFunc V)} {v : V} {ds : List (Str × V)}
    (h : genSchema C s onf cfg v = (.ok ds, cfg')) :
    ∃ w, atSubpath C s cfg v = .ok w ∧
      generate C (nfSingle s onf [defSel (rootNameOf s cfg)] (rootNameOf s cfg))
        (C.define (rootNameOf s cfg) w) = .ok ds ∧
      cfg' = { cfg with
        nameFunc := some (nfSingle s onf [defSel (rootNameOf s cfg)] (rootNameOf s cfg))
        info := some (trimMarks (rootNameOf s cfg)) } := by
  unfold genSchema at h
  cases ha : atSubpath C s cfg v with
  | ok w =>
    rw [ha] at h
    simp only [Prod.mk.injEq] at h
    exact ⟨w, rfl, h.1, h.2.symm⟩
  | err e => rw [ha] at h; cases h
  | panic k => rw [ha] at h; cases h
  | fuel => rw [ha] at h; cases h

omit [DecidableEq V] in
theorem rootName_congr {c c' : Config V} (h1 : c'.rootName = c.rootName) (h2 : c'.subpath = c.subpath) :
    rootNameOf s c' = rootNameOf s c := by
  unfold rootNameOf
  rw [h1, h2]

/-- Not grouped, not split: one value. -/
theorem single_ok (hg : cfg.group = false) (hs : cfg.splitSchema = false)
    (h : generateSchema C s cfg = (.ok doc, cfg')) :
    genSchema C s cfg.nameFunc cfg s.schdef = (.ok doc.components, cfg') ∧
      doc.title = rootNameOf s cfg ∧ doc.version = s.version := by
  unfold generateSchema at h
  simp only [hg, hs, Bool.false_eq_true, if_false] at h
  simp only [genSingle] at h
  cases hq : genSchema C s cfg.nameFunc cfg s.schdef with
  | mk r c =>
    rw [hq] at h
    cases r with
    | ok ds =>
      simp only [List.append_nil, Prod.mk.injEq, Res.ok.injEq] at h
      obtain ⟨h1, h2⟩ := h
      subst h1; subst h2
      exact ⟨rfl, rfl, rfl⟩
    | err e => cases h
    | panic k => cases h
    | fuel => cases h

/-! ### Subpath -/

/-- **C98** (partial).  For a subpath of one selector: what is generated is the value at the
path, under a name of its own; the call fails if the path is not in the schema, and does not
fail for another reason than the encoder if it is in the schema and in the join schema.
Missing: longer subpaths (`C98_nested_rejected`). -/
theorem C98_subpath_partial (hg : cfg.group = false) (hs : cfg.splitSchema = false) {sel : Sel}
    (hp : cfg.subpath = [sel]) :
    (∀ doc cfg', generateSchema C s cfg = (.ok doc, cfg') →
      PathPresent C s.schdef cfg.subpath ∧
      ∃ nf, generate C nf (C.define doc.title (C.lookup s.schdef cfg.subpath)) =
        .ok doc.components) ∧
    (¬ PathPresent C s.schdef cfg.subpath → ∃ e cfg', generateSchema C s cfg = (.err e, cfg')) ∧
    (PathPresent C s.schdef cfg.subpath → PathPresent C s.join cfg.subpath →
      (∀ v, C.genErr v = none) → ∃ doc cfg', generateSchema C s cfg = (.ok doc, cfg')) := by
  have hne : ¬ cfg.subpath = [] := by rw [hp]; simp
  have pp : ∀ v, PathPresent C v cfg.subpath ↔ C.allows v sel = true := by
    intro v; rw [hp]; simp [PathPresent]
  refine ⟨?_, ?_, ?_⟩
  · intro doc cfg' h
    obtain ⟨h1, h2, _⟩ := single_ok hg hs h
    obtain ⟨w, h3, h4, _⟩ := genSchema_ok h1
    unfold atSubpath at h3
    rw [if_neg hne] at h3
    split at h3
    · cases h3
    · rename_i ha
      split at h3
      · cases h3
      · injection h3 with h3
        rw [pp]
        constructor
        · rw [hp] at ha; simpa using ha
        · rw [h2, h3]; exact ⟨_, h4⟩
  · intro hn
    rw [pp] at hn
    have : atSubpath C s cfg s.schdef = .err notPresent := by
      unfold atSubpath
      rw [if_neg hne]
      exact if_pos (by rw [hp]; simpa using hn)
    unfold generateSchema
    simp only [hg, hs, Bool.false_eq_true, if_false, genSingle, genSchema, this]
    exact ⟨_, _, rfl⟩
  · intro h1 h2 h3
    rw [pp] at h1 h2
    have : atSubpath C s cfg s.schdef = .ok (C.lookup s.schdef cfg.subpath) := by
      unfold atSubpath
      rw [if_neg hne, if_neg (by rw [hp]; simpa using h1), if_neg (by rw [hp]; simpa using h2)]
    unfold generateSchema
    simp only [hg, hs, Bool.false_eq_true, if_false, genSingle, genSchema, this, generate, h3]
    exact ⟨_, _, rfl⟩

/-- **C98** (refutation).  All selectors of the subpath are looked for at the root: the call
fails if one of them is not allowed there, wherever the path leads. -/
theorem C98_nested_rejected (hg : cfg.group = false) (hs : cfg.splitSchema = false) {sel : Sel}
    (hm : sel ∈ cfg.subpath) (ha : C.allows s.schdef sel = false) :
    ∃ e cfg', generateSchema C s cfg = (.err e, cfg') := by
  have : atSubpath C s cfg s.schdef = .err notPresent := by
    unfold atSubpath
    rw [if_neg (fun h => by rw [h] at hm; cases hm)]
    refine if_pos ?_
    rw [List.any_eq_true]
    exact ⟨sel, hm, by simp [ha]⟩
  unfold generateSchema
  simp only [hg, hs, Bool.false_eq_true, if_false, genSingle, genSchema, this]
  exact ⟨_, _, rfl⟩

def fld (t : String) : Sel := ⟨t.toList, false⟩

/-- A schema `{hull: {mast: _, #Sail: _}, #Crew: _}`. -/
def shipPaths : Paths :=
  [[fld "hull"], [fld "hull", fld "mast"], [fld "hull", fld "#Sail"], [fld "#Crew"]]

def shipSch : Sch Paths where
  lineage := "ship".toList
  version := ⟨0, 0⟩
  schdef := shipPaths
  schraw := shipPaths ++ [[fld "raw"]]
  join := [[fld "hull"], [fld "#Crew"]]
  bpath := [fld "lin", fld "0"]

/-- The path `hull.mast` is present, but not found; `hull` is. -/
example : PathPresent pathsCue shipSch.schdef [fld "hull", fld "mast"] ∧
    pathsCue.allows shipSch.schdef (fld "mast") = false ∧
    PathPresent pathsCue shipSch.schdef [fld "hull"] ∧
    PathPresent pathsCue shipSch.join [fld "hull"] := by
  refine ⟨⟨by decide, by decide, trivial⟩, by decide, ⟨by decide, trivial⟩, by decide, trivial⟩

theorem pathsCue_rootNamed : RootNamed pathsCue := by
  intro n v
  refine ⟨below ([defSel n] :: v.map (defSel n :: ·)) [defSel n], ?_⟩
  simp only [pathsCue, List.mem_filterMap]
  exact ⟨[defSel n], List.mem_cons_self .., rfl⟩

/-! ### The name of the root -/

/-- **C99** (partial).  The document has the version of the schema; its title, and the name
of a component in it, is the configured name of the root, or else the last selector of the
subpath, or else the name of the lineage without the characters that labels cannot have; for
groups the title is always the latter.  Missing: the title case that is documented
(`C99_not_titlecased`). -/
theorem C99_root_partial (hr : RootNamed C) (hb : 2 ≤ s.bpath.length)
    (h : generateSchema C s cfg = (.ok doc, cfg')) :
    doc.version = s.version ∧
    (cfg.group = true → doc.title = sanitizeLabelString s.lineage) ∧
    (cfg.group = false →
      (cfg.rootName ≠ [] → doc.title = cfg.rootName) ∧
      (∀ p l, cfg.rootName = [] → cfg.subpath = p ++ [l] → doc.title = Sel.str l) ∧
      (cfg.rootName = [] → cfg.subpath = [] → doc.title = sanitizeLabelString s.lineage) ∧
      (doc.title ≠ [] → ∃ x, (doc.title, x) ∈ doc.components)) := by
  unfold generateSchema at h
  by_cases hg : cfg.group = true
  · simp only [hg, if_true, Prod.mk.injEq] at h
    obtain ⟨h, _⟩ := h
    cases hq : genGroup C s cfg.nameFunc (C.fields s.schdef) with
    | ok ds =>
      rw [hq] at h
      injection h with h
      subst h
      exact ⟨rfl, fun _ => rfl, fun h' => absurd h' (by simp [hg])⟩
    | err e => rw [hq] at h; cases h
    | panic k => rw [hq] at h; cases h
    | fuel => rw [hq] at h; cases h
  · have hg' : cfg.group = false := by simpa using hg
    simp only [hg', Bool.false_eq_true, if_false] at h
    have main : ∀ (vs : List V) (c : Config V) ds c', rootNameOf s c = rootNameOf s cfg → vs ≠ [] →
        genSingle C s cfg.nameFunc c vs = (.ok ds, c') →
        rootNameOf s cfg ≠ [] → ∃ x, (rootNameOf s cfg, x) ∈ ds := by
      intro vs c ds c' hc hv hq hn
      cases vs with
      | nil => exact absurd rfl hv
      | cons v vs =>
        rw [genSingle] at hq
        cases h1 : genSchema C s cfg.nameFunc c v with
        | mk r c1 =>
          rw [h1] at hq
          cases r with
          | ok d1 =>
            simp only at hq
            obtain ⟨w, _, h3, _⟩ := genSchema_ok h1
            rw [hc] at h3
            obtain ⟨x, hx⟩ := generate_root hr hb hn h3
            cases h2 : genSingle C s cfg.nameFunc c1 vs with
            | mk r2 c2 =>
              rw [h2] at hq
              cases r2 with
              | ok d2 =>
                simp only [Prod.mk.injEq, Res.ok.injEq] at hq
                exact ⟨x, hq.1 ▸ List.mem_append_left _ hx⟩
              | err e => cases hq
              | panic k => cases hq
              | fuel => cases hq
          | err e => cases hq
          | panic k => cases hq
          | fuel => cases hq
    cases hq : genSingle C s cfg.nameFunc cfg
        (if cfg.splitSchema = true then [s.schraw, s.join] else [s.schdef]) with
    | mk r c =>
      rw [hq] at h
      cases r with
      | ok ds =>
        simp only [Prod.mk.injEq, Res.ok.injEq] at h
        obtain ⟨h, _⟩ := h
        subst h
        refine ⟨rfl, fun h' => absurd h' hg, fun _ => ⟨?_, ?_, ?_, ?_⟩⟩
        · intro hn; exact if_pos hn
        · intro p l hn hp
          show rootNameOf s cfg = _
          unfold rootNameOf
          rw [if_neg (by simp [hn]), hp]
          simp
        · intro hn hp
          show rootNameOf s cfg = _
          unfold rootNameOf
          rw [if_neg (by simp [hn]), hp]
          rfl
        · exact main _ cfg ds c rfl (by split <;> simp) hq
      | err e => cases h
      | panic k => cases h
      | fuel => cases h

/-- **C99** (refutation).  "defaults to titlecasing of the lineage name": it does not, if the
name is not in title case already. -/
theorem C99_not_titlecased (title : Str → Str) (hr : RootNamed C) (hb : 2 ≤ s.bpath.length)
    (hg : cfg.group = false) (hn : cfg.rootName = []) (hp : cfg.subpath = [])
    (hc : ∀ c ∈ s.lineage, keepRune c = true) (ht : title s.lineage ≠ s.lineage)
    (h : generateSchema C s cfg = (.ok doc, cfg')) : doc.title ≠ title s.lineage := by
  have := ((C99_root_partial hr hb h).2.2 hg).2.2.1 hn hp
  rw [this]
  have e : sanitizeLabelString s.lineage = s.lineage := by
    unfold sanitizeLabelString
    generalize s.lineage = l at hc
    induction l with
    | nil => rfl
    | cons c l ih =>
      rw [List.filterMap_cons]
      simp only [hc c (List.mem_cons_self ..), if_true]
      rw [ih fun d hd => hc d (List.mem_cons_of_mem _ hd)]
  rw [e]
  exact Ne.symm ht

example : ∃ doc cfg', generateSchema pathsCue shipSch {} = (.ok doc, cfg') ∧
    doc.title = "ship".toList ∧
    doc.components.map (·.1) = ["ship".toList, "hull.#Sail".toList, "Crew".toList] := by
  refine ⟨_, _, rfl, ?_, ?_⟩ <;> decide

example : ∀ c ∈ shipSch.lineage, keepRune c = true := by decide

/-! ### The names of definitions -/

/-- The name of a definition at a path in the schema that is not the root. -/
theorem nfSingle_inner {nf : Option (NameFunc V)} {n : Str} {v : V} {x : Sel} {p : P}
    (h1 : v ≠ s.schraw) (h2 : v ≠ s.join) (h3 : v ≠ s.schdef)
    (hpre : pathHasPrefix (defSel n :: x :: p) s.bpath = false)
    (hr : pathStr (x :: p) ≠ pathStr [defSel n]) :
    nfSingle s nf [defSel n] n v (defSel n :: x :: p) =
      (nf.getD fun _ q => trimMarks (pathStr q)) v (x :: p) := by
  have e1 : trimThemaPathPrefix (defSel n :: x :: p) s.bpath = defSel n :: x :: p := by
    unfold trimThemaPathPrefix
    rw [hpre]; rfl
  have e2 : trimPathPrefix (defSel n :: x :: p) [defSel n] = x :: p := by
    unfold trimPathPrefix
    rw [if_neg (by simp)]
    have : trimLoop [defSel n] (defSel n :: x :: p) = 1 := by
      rw [trimLoop]
      have : selEq (defSel n) (defSel n) = true := by simp [selEq]
      rw [this]; rfl
    rw [this]; rfl
  have e4 : pathStr (defSel n :: x :: p) ≠ [] := by
    rw [pathStr]
    · simp [Sel.str, defSel]
    · simp
  unfold nfSingle
  simp only [e1, e2]
  rw [if_neg (fun h => h.elim e4 hr), if_neg (fun h => h.elim h1 h2), if_neg h3]
  cases nf <;> rfl

/-- The definition with the name of the root, in the root. -/
theorem nfSingle_clash {nf : Option (NameFunc V)} {n : Str} {v : V}
    (hpre : pathHasPrefix [defSel n, defSel n] s.bpath = false) :
    nfSingle s nf [defSel n] n v [defSel n, defSel n] = n := by
  have e1 : trimThemaPathPrefix [defSel n, defSel n] s.bpath = [defSel n, defSel n] := by
    unfold trimThemaPathPrefix
    rw [hpre]; rfl
  have e2 : trimPathPrefix [defSel n, defSel n] [defSel n] = [defSel n] := by
    unfold trimPathPrefix
    rw [if_neg (by simp)]
    have : trimLoop [defSel n] [defSel n, defSel n] = 1 := by
      rw [trimLoop]
      have : selEq (defSel n) (defSel n) = true := by simp [selEq]
      rw [this]; rfl
    rw [this]; rfl
  unfold nfSingle
  simp only [e1, e2]
  exact if_pos (.inr trivial)

/-- The value for which the document is generated. -/
def docRoot (C : OCue V) (s : Sch V) (cfg : Config V) : V :=
  if cfg.subpath = [] then s.schdef else C.lookup s.schdef cfg.subpath

theorem single_visits (hg : cfg.group = false) (hs : cfg.splitSchema = false)
    (h : generateSchema C s cfg = (.ok doc, cfg')) :
    doc.components = (C.visits (C.define doc.title (docRoot C s cfg))).filterMap fun x =>
      if nfSingle s cfg.nameFunc [defSel doc.title] doc.title x.1 x.2 = [] then none
      else some (nfSingle s cfg.nameFunc [defSel doc.title] doc.title x.1 x.2, x.1) := by
  obtain ⟨h1, h2, _⟩ := single_ok hg hs h
  obtain ⟨w, h3, h4, _⟩ := genSchema_ok h1
  have hw : w = docRoot C s cfg := by
    unfold atSubpath at h3
    unfold docRoot
    split at h3
    · rename_i h0; injection h3 with h3; rw [if_pos h0]; exact h3.symm
    · rename_i h0
      rw [if_neg h0]
      split at h3
      · cases h3
      · split at h3
        · cases h3
        · injection h3 with h3; exact h3.symm
  subst hw
  rw [h2]
  exact (generate_ok h4).2

/-- **C100** (names).  A definition within the schema gets the name that the user's
`NameFunc` has for its path in the schema or, without one, the path without markers.  (Paths
that lead through the lineage are those of `C58`; a definition with the name of the root is
the case of `C100_clash`.) -/
theorem C100_definition_name (hg : cfg.group = false) (hs : cfg.splitSchema = false)
    (h : generateSchema C s cfg = (.ok doc, cfg')) {v : V} {x : Sel} {p : P}
    (hv : (v, defSel doc.title :: x :: p) ∈ C.visits (C.define doc.title (docRoot C s cfg)))
    (h1 : v ≠ s.schraw) (h2 : v ≠ s.join) (h3 : v ≠ s.schdef)
    (hpre : pathHasPrefix (defSel doc.title :: x :: p) s.bpath = false)
    (hr : pathStr (x :: p) ≠ '#' :: doc.title)
    (hn : (cfg.nameFunc.getD fun _ q => trimMarks (pathStr q)) v (x :: p) ≠ []) :
    ((cfg.nameFunc.getD fun _ q => trimMarks (pathStr q)) v (x :: p), v) ∈ doc.components := by
  rw [single_visits hg hs h, List.mem_filterMap]
  refine ⟨_, hv, ?_⟩
  simp only [nfSingle_inner h1 h2 h3 hpre hr]
  rw [if_neg hn]

omit [DecidableEq V] in
theorem named_two {α : Type} {f : α → Option (Str × V)} {l : List α} {a b : α} (ha : a ∈ l)
    (hb : b ∈ l) (hab : a ≠ b) {n : Str} {x y : V} (fa : f a = some (n, x)) (fb : f b = some (n, y)) :
    2 ≤ named n (l.filterMap f) := by
  induction l with
  | nil => cases ha
  | cons c l ih =>
    have e : c :: l = [c] ++ l := rfl
    rw [e, List.filterMap_append, named_append]
    rcases List.mem_cons.1 ha with ha' | ha' <;> rcases List.mem_cons.1 hb with hb' | hb'
    · exact absurd (ha'.trans hb'.symm) hab
    · subst ha'
      have h1 : 1 ≤ named n ([a].filterMap f) := named_pos ⟨x, by simp [fa]⟩
      have h2 : 1 ≤ named n (l.filterMap f) := named_pos ⟨y, List.mem_filterMap.2 ⟨b, hb', fb⟩⟩
      omega
    · subst hb'
      have h1 : 1 ≤ named n ([b].filterMap f) := named_pos ⟨y, by simp [fb]⟩
      have h2 : 1 ≤ named n (l.filterMap f) := named_pos ⟨x, List.mem_filterMap.2 ⟨a, ha', fa⟩⟩
      omega
    · have := ih ha' hb'
      omega

/-- **C100** (refutation).  A definition with the name of the root gets the name of the root:
the document has two components of that name. -/
theorem C100_clash (hr : RootNamed C) (hb : 2 ≤ s.bpath.length) (hg : cfg.group = false)
    (hs : cfg.splitSchema = false) (h : generateSchema C s cfg = (.ok doc, cfg'))
    (ht : doc.title ≠ []) {v : V}
    (hv : (v, [defSel doc.title, defSel doc.title]) ∈
      C.visits (C.define doc.title (docRoot C s cfg)))
    (hpre : pathHasPrefix [defSel doc.title, defSel doc.title] s.bpath = false) :
    2 ≤ named doc.title doc.components := by
  obtain ⟨x, hx⟩ := hr doc.title (docRoot C s cfg)
  rw [single_visits hg hs h]
  refine named_two hx hv (fun e => ?_) (x := x) (y := v) ?_ ?_
  · have := congrArg List.length (Prod.mk.inj e).2
    simp at this
  · simp only [nfSingle_root cfg.nameFunc doc.title x hb]
    exact if_neg ht
  · simp only [nfSingle_clash hpre]
    exact if_neg ht

/-- A lineage called `Ship` whose schema has a definition `#Ship`. -/
example : ∃ doc cfg', generateSchema pathsCue
      { shipSch with lineage := "Ship".toList, schdef := [fld "#Ship"] :: shipPaths } {} =
        (.ok doc, cfg') ∧
    doc.components.map (·.1) =
      ["Ship".toList, "Ship".toList, "hull.#Sail".toList, "Crew".toList] ∧
    pathHasPrefix [defSel doc.title, defSel doc.title] shipSch.bpath = false := by
  refine ⟨_, _, rfl, ?_, ?_⟩ <;> decide

/-! ### Groups -/

theorem genGroup_named (hr : RootNamed C) (hb : 2 ≤ s.bpath.length) {onf : Option (NameFunc V)}
    {n : Str} (hn : n ≠ []) : ∀ (fs : List (Sel × V)) (ds : List (Str × V)),
    genGroup C s onf fs = .ok ds →
    (fs.filter fun f => decide (trimMarks (Sel.str f.1) = n)).length ≤ named n ds := by
  intro fs
  induction fs with
  | nil => intro ds _; simp
  | cons f fs ih =>
    obtain ⟨sel, v⟩ := f
    intro ds h
    rw [genGroup] at h
    cases h1 : generate C (nfSingle s onf [defSel (trimMarks (Sel.str sel))] (trimMarks (Sel.str sel)))
        (C.define (trimMarks (Sel.str sel)) v) with
    | ok d1 =>
      rw [h1, Res.bind_ok] at h
      cases h2 : genGroup C s onf fs with
      | ok d2 =>
        rw [h2, Res.bind_ok] at h
        injection h with h
        subst h
        rw [named_append, List.filter_cons]
        have := ih d2 h2
        by_cases hs : trimMarks (Sel.str sel) = n
        · rw [if_pos (by simpa using hs), List.length_cons]
          rw [hs] at h1
          have := named_pos (generate_root hr hb hn h1)
          omega
        · rw [if_neg (by simpa using hs)]
          omega
      | err e => rw [h2] at h; cases h
      | panic k => rw [h2] at h; cases h
      | fuel => rw [h2] at h; cases h
    | err e => rw [h1] at h; cases h
    | panic k => rw [h1] at h; cases h
    | fuel => rw [h1] at h; cases h

theorem group_ok (hg : cfg.group = true) (h : generateSchema C s cfg = (.ok doc, cfg')) :
    genGroup C s cfg.nameFunc (C.fields s.schdef) = .ok doc.components ∧ cfg' = cfg := by
  unfold generateSchema at h
  simp only [hg, if_true, Prod.mk.injEq] at h
  obtain ⟨h, hc⟩ := h
  cases hq : genGroup C s cfg.nameFunc (C.fields s.schdef) with
  | ok ds =>
    rw [hq] at h
    injection h with h
    subst h
    exact ⟨rfl, hc.symm⟩
  | err e => rw [hq] at h; cases h
  | panic k => rw [hq] at h; cases h
  | fuel => rw [hq] at h; cases h

/-- **C101** (partial).  With `Group`, every top-level field has a component that is called
like it, without markers.  Missing: that no two share one (`C101_clash`). -/
theorem C101_group_partial (hr : RootNamed C) (hb : 2 ≤ s.bpath.length) (hg : cfg.group = true)
    (h : generateSchema C s cfg = (.ok doc, cfg')) {sel : Sel} {v : V}
    (hf : (sel, v) ∈ C.fields s.schdef) (hn : trimMarks (Sel.str sel) ≠ []) :
    ∃ x, (trimMarks (Sel.str sel), x) ∈ doc.components := by
  have h1 := genGroup_named hr hb hn _ _ (group_ok hg h).1
  have h2 : 0 < ((C.fields s.schdef).filter fun f =>
      decide (trimMarks (Sel.str f.1) = trimMarks (Sel.str sel))).length :=
    List.length_pos_of_mem (List.mem_filter.2 ⟨hf, by simp⟩)
  obtain ⟨d, hd⟩ := List.exists_mem_of_length_pos (Nat.lt_of_lt_of_le h2 h1)
  rw [List.mem_filter] at hd
  refine ⟨d.2, ?_⟩
  have : d.1 = trimMarks (Sel.str sel) := by simpa using hd.2
  rw [← this]
  exact hd.1

/-- **C101** (refutation).  A field and a definition that differ only in the marker get
components with the same name. -/
theorem C101_clash (hr : RootNamed C) (hb : 2 ≤ s.bpath.length) (hg : cfg.group = true)
    (h : generateSchema C s cfg = (.ok doc, cfg')) {pre mid post : List (Sel × V)} {n : Str}
    {o : Bool} {v w : V} (hn : trimMarks n = n) (hn0 : n ≠ [])
    (hf : C.fields s.schdef = pre ++ (⟨n, o⟩, v) :: mid ++ (defSel n, w) :: post) :
    2 ≤ named n doc.components := by
  refine Nat.le_trans ?_ (genGroup_named hr hb hn0 _ _ (group_ok hg h).1)
  have e1 : trimMarks (Sel.str ⟨n, o⟩) = n := by
    cases o with
    | false => exact hn
    | true =>
      show trimMarks (n ++ ['?']) = n
      -- the first character of `n` is kept, and the last one too
      have hfirst : n.dropWhile (fun c => c == '?' || c == '#') = n := by
        have hl : n.length ≤ (n.dropWhile (fun c => c == '?' || c == '#')).length := by
          have h1 : n.length = (trimMarks n).length := by rw [hn]
          unfold trimMarks at h1
          rw [List.length_reverse] at h1
          have h2 := (List.dropWhile_sublist (fun c : Char => c == '?' || c == '#')
            (l := (n.dropWhile (fun c => c == '?' || c == '#')).reverse)).length_le
          rw [List.length_reverse] at h2
          omega
        exact (List.dropWhile_sublist _).eq_of_length_le hl
      unfold trimMarks at hn ⊢
      rw [hfirst] at hn
      have happ : (n ++ ['?']).dropWhile (fun c => c == '?' || c == '#') = n ++ ['?'] := by
        cases n with
        | nil => exact absurd rfl hn0
        | cons a r =>
          rw [List.dropWhile_cons] at hfirst
          rw [List.cons_append, List.dropWhile_cons]
          split at hfirst
          · rename_i ha
            have := (List.dropWhile_sublist (fun c : Char => c == '?' || c == '#') (l := r)).length_le
            rw [hfirst] at this
            simp at this
            omega
          · rename_i ha
            rw [if_neg ha]
      rw [happ, List.reverse_append]
      simp only [List.reverse_cons, List.reverse_nil, List.nil_append, List.singleton_append]
      rw [List.dropWhile_cons_of_pos (by decide)]
      exact hn
  have e2 : trimMarks (Sel.str (defSel n)) = n := by
    show trimMarks ('#' :: n) = n
    unfold trimMarks at hn ⊢
    rw [List.dropWhile_cons_of_pos (by decide)]
    exact hn
  rw [hf]
  simp [e1, e2]
  omega

example : ∃ doc cfg', generateSchema pathsCue
      { shipSch with schdef := [[fld "crew"], [fld "#crew"], [⟨"hull".toList, true⟩]] }
      { group := true } = (.ok doc, cfg') ∧
    doc.components.map (·.1) = ["crew".toList, "crew".toList, "hull".toList] := by
  refine ⟨_, _, rfl, ?_⟩
  decide

/-! ### Split schemas -/

/-- **C102** (partial).  With `SplitSchema` the document has the components of the schema
and those of the join schema.  Missing: that they are merged, so that the root is one
component (`C102_split_not_merged`). -/
theorem C102_split_partial (hg : cfg.group = false) (hs : cfg.splitSchema = true)
    (hp : cfg.subpath = []) (h : generateSchema C s cfg = (.ok doc, cfg')) :
    ∃ d1 d2 nf, generate C nf (C.define doc.title s.schraw) = .ok d1 ∧
      generate C nf (C.define doc.title s.join) = .ok d2 ∧ doc.components = d1 ++ d2 := by
  unfold generateSchema at h
  simp only [hg, hs, Bool.false_eq_true, if_false, if_true, genSingle] at h
  cases h1 : genSchema C s cfg.nameFunc cfg s.schraw with
  | mk r1 c1 =>
    rw [h1] at h
    cases r1 with
    | ok d1 =>
      simp only at h
      cases h2 : genSchema C s cfg.nameFunc c1 s.join with
      | mk r2 c2 =>
        rw [h2] at h
        cases r2 with
        | ok d2 =>
          simp only [List.append_nil, Prod.mk.injEq, Res.ok.injEq] at h
          obtain ⟨h, _⟩ := h
          subst h
          obtain ⟨w1, a1, g1, e1⟩ := genSchema_ok h1
          obtain ⟨w2, a2, g2, _⟩ := genSchema_ok h2
          have hc : rootNameOf s c1 = rootNameOf s cfg := by rw [e1]; rfl
          have hp1 : c1.subpath = [] := by rw [e1]; exact hp
          unfold atSubpath at a1 a2
          rw [if_pos hp] at a1
          rw [if_pos hp1] at a2
          injection a1 with a1
          injection a2 with a2
          subst a1; subst a2
          rw [hc] at g2
          exact ⟨d1, d2, _, g1, g2, rfl⟩
        | err e => cases h
        | panic k => cases h
        | fuel => cases h
    | err e => cases h
    | panic k => cases h
    | fuel => cases h

/-- **C102** (refutation).  With `SplitSchema` the schema and the join schema are not merged:
the document has two components with the name of the root. -/
theorem C102_split_not_merged (hr : RootNamed C) (hb : 2 ≤ s.bpath.length) (hg : cfg.group = false)
    (hs : cfg.splitSchema = true) (h : generateSchema C s cfg = (.ok doc, cfg'))
    (ht : doc.title ≠ []) : 2 ≤ named doc.title doc.components := by
  unfold generateSchema at h
  simp only [hg, hs, Bool.false_eq_true, if_false, if_true, genSingle] at h
  cases h1 : genSchema C s cfg.nameFunc cfg s.schraw with
  | mk r1 c1 =>
    rw [h1] at h
    cases r1 with
    | ok d1 =>
      simp only at h
      cases h2 : genSchema C s cfg.nameFunc c1 s.join with
      | mk r2 c2 =>
        rw [h2] at h
        cases r2 with
        | ok d2 =>
          simp only [List.append_nil, Prod.mk.injEq, Res.ok.injEq] at h
          obtain ⟨h, _⟩ := h
          subst h
          obtain ⟨_, _, g1, e1⟩ := genSchema_ok h1
          obtain ⟨_, _, g2, _⟩ := genSchema_ok h2
          have hc : rootNameOf s c1 = rootNameOf s cfg := by rw [e1]; rfl
          rw [hc] at g2
          rw [named_append]
          have a1 := named_pos (generate_root hr hb ht g1)
          have a2 := named_pos (generate_root hr hb ht g2)
          show 2 ≤ named (rootNameOf s cfg) d1 + named (rootNameOf s cfg) d2
          simp only at a1 a2
          omega
        | err e => cases h
        | panic k => cases h
        | fuel => cases h
    | err e => cases h
    | panic k => cases h
    | fuel => cases h

example : ∃ doc cfg', generateSchema pathsCue shipSch { splitSchema := true } = (.ok doc, cfg') ∧
    named "ship".toList doc.components = 2 := by
  refine ⟨_, _, rfl, ?_⟩
  decide

/-! ### The configuration -/

/-- **C103** (partial).  With `Group`, a call leaves the configuration as it is.  Missing:
other configurations (`C103_config_overwritten`). -/
theorem C103_config_kept_partial (hg : cfg.group = true) : (generateSchema C s cfg).2 = cfg := by
  unfold generateSchema
  simp [hg]

/-- **C103** (refutation).  Otherwise the caller's `NameFunc` and `Info` are overwritten by
every call that succeeds. -/
theorem C103_config_overwritten (hg : cfg.group = false)
    (h : generateSchema C s cfg = (.ok doc, cfg')) :
    cfg'.info = some (trimMarks doc.title) ∧
    cfg'.nameFunc = some (nfSingle s cfg.nameFunc [defSel doc.title] doc.title) := by
  have one : ∀ (c c1 : Config V) (v : V) ds, rootNameOf s c = rootNameOf s cfg →
      genSchema C s cfg.nameFunc c v = (.ok ds, c1) →
      rootNameOf s c1 = rootNameOf s cfg ∧
      c1.info = some (trimMarks (rootNameOf s cfg)) ∧
      c1.nameFunc = some (nfSingle s cfg.nameFunc [defSel (rootNameOf s cfg)] (rootNameOf s cfg)) := by
    intro c c1 v ds hc hq
    obtain ⟨_, _, _, e⟩ := genSchema_ok hq
    subst e
    rw [hc]
    exact ⟨(rootName_congr rfl rfl).trans hc, rfl, rfl⟩
  have main : ∀ (vs : List V) (c c' : Config V) ds, rootNameOf s c = rootNameOf s cfg → vs ≠ [] →
      genSingle C s cfg.nameFunc c vs = (.ok ds, c') →
      c'.info = some (trimMarks (rootNameOf s cfg)) ∧
      c'.nameFunc = some (nfSingle s cfg.nameFunc [defSel (rootNameOf s cfg)] (rootNameOf s cfg)) := by
    intro vs
    induction vs with
    | nil => intro _ _ _ _ h0; exact absurd rfl h0
    | cons v vs ih =>
      intro c c' ds hc _ hq
      rw [genSingle] at hq
      cases h1 : genSchema C s cfg.nameFunc c v with
      | mk r c1 =>
        rw [h1] at hq
        cases r with
        | ok d1 =>
          simp only at hq
          obtain ⟨a1, a2, a3⟩ := one c c1 v d1 hc h1
          cases h2 : genSingle C s cfg.nameFunc c1 vs with
          | mk r2 c2 =>
            rw [h2] at hq
            cases r2 with
            | ok d2 =>
              simp only [Prod.mk.injEq] at hq
              obtain ⟨_, rfl⟩ := hq
              cases vs with
              | nil =>
                rw [genSingle] at h2
                simp only [Prod.mk.injEq] at h2
                obtain ⟨_, rfl⟩ := h2
                exact ⟨a2, a3⟩
              | cons w ws => exact ih c1 _ d2 a1 (by simp) h2
            | err e => cases hq
            | panic k => cases hq
            | fuel => cases hq
        | err e => cases hq
        | panic k => cases hq
        | fuel => cases hq
  unfold generateSchema at h
  simp only [hg, Bool.false_eq_true, if_false] at h
  cases hq : genSingle C s cfg.nameFunc cfg
      (if cfg.splitSchema = true then [s.schraw, s.join] else [s.schdef]) with
  | mk r c =>
    rw [hq] at h
    cases r with
    | ok ds =>
      simp only [Prod.mk.injEq, Res.ok.injEq] at h
      obtain ⟨h, rfl⟩ := h
      subst h
      exact main _ cfg c ds rfl (by split <;> simp) hq
    | err e => cases h
    | panic k => cases h
    | fuel => cases h

/-- A lineage `fleet` whose schema has definitions `#ship` and, in it, `#mast`. -/
def fleetSch : Sch Paths where
  lineage := "fleet".toList
  version := ⟨0, 0⟩
  schdef := [[fld "#ship"], [fld "#ship", fld "#mast"]]
  schraw := [[]]
  join := [[], []]
  bpath := [fld "lin", fld "0"]

/-- **C103** (refutation).  With the configuration that was used for the lineage `ship`
before, the components of `fleet` have other names. -/
theorem C103_reused_config :
    ∃ d1 c1 d2 c2 d3 c3, generateSchema pathsCue shipSch {} = (.ok d1, c1) ∧
      generateSchema pathsCue fleetSch {} = (.ok d2, c2) ∧
      generateSchema pathsCue fleetSch c1 = (.ok d3, c3) ∧
      d2.components.map (·.1) = ["fleet".toList, "ship".toList, "ship.#mast".toList] ∧
      d3.components.map (·.1) = ["fleet".toList, "ship".toList, "mast".toList] := by
  refine ⟨_, _, _, _, _, _, rfl, rfl, rfl, ?_, ?_⟩ <;> decide

/-! ### The theorems on the schema above -/

example := C98_subpath_partial (C := pathsCue) (s := shipSch) (cfg := { subpath := [fld "hull"] })
  rfl rfl rfl

example : ∃ e cfg', generateSchema pathsCue shipSch { subpath := [fld "hull", fld "mast"] } =
    (.err e, cfg') :=
  C98_nested_rejected rfl rfl (sel := fld "mast") (by simp) (by decide)

example : ∃ doc cfg', generateSchema pathsCue shipSch {} = (.ok doc, cfg') ∧
    doc.version = ⟨0, 0⟩ ∧ doc.title ≠ "Ship".toList ∧
    ("Crew".toList, []) ∈ doc.components := by
  obtain ⟨doc, cfg', h⟩ : ∃ doc cfg', generateSchema pathsCue shipSch {} = (.ok doc, cfg') :=
    ⟨_, _, rfl⟩
  refine ⟨doc, cfg', h, (C99_root_partial pathsCue_rootNamed (by decide) h).1,
    C99_not_titlecased (fun s => 'S' :: s.drop 1) pathsCue_rootNamed (by decide) rfl rfl rfl
      (by decide) (by decide) h, ?_⟩
  have ht : doc.title = "ship".toList :=
    ((C99_root_partial pathsCue_rootNamed (by decide) h).2.2 rfl).2.2.1 rfl rfl
  exact C100_definition_name (v := []) (x := fld "#Crew") (p := []) rfl rfl h
    (by rw [ht]; decide) (by decide) (by decide) (by decide) (by rw [ht]; decide)
    (by rw [ht]; decide) (by decide)

def shipTwice : Sch Paths :=
  { shipSch with lineage := "Ship".toList, schdef := [fld "#Ship"] :: shipPaths }

example : ∃ doc cfg', generateSchema pathsCue shipTwice {} = (.ok doc, cfg') ∧
    2 ≤ named doc.title doc.components :=
  ⟨_, _, rfl, C100_clash (C := pathsCue) (s := shipTwice) (cfg := {}) (v := []) pathsCue_rootNamed
    (by decide) rfl rfl rfl (by decide) (by decide) (by decide)⟩

def crewTwice : Sch Paths :=
  { shipSch with schdef := [[fld "crew"], [fld "#crew"], [⟨"hull".toList, true⟩]] }

example : ∃ doc cfg', generateSchema pathsCue crewTwice { group := true } = (.ok doc, cfg') ∧
    (∃ x, ("hull".toList, x) ∈ doc.components) ∧ 2 ≤ named "crew".toList doc.components :=
  ⟨_, _, rfl,
    C101_group_partial (C := pathsCue) (s := crewTwice) (cfg := { group := true })
      (sel := ⟨"hull".toList, true⟩) (v := []) pathsCue_rootNamed (by decide) rfl rfl (by decide)
      (by decide),
    C101_clash (C := pathsCue) (s := crewTwice) (cfg := { group := true }) (pre := []) (mid := [])
      (post := [(⟨"hull".toList, true⟩, [])]) (n := "crew".toList) (o := false) (v := []) (w := [])
      pathsCue_rootNamed (by decide) rfl rfl (by decide) (by decide) (by decide)⟩

example : ∃ doc cfg', generateSchema pathsCue shipSch { splitSchema := true } = (.ok doc, cfg') ∧
    2 ≤ named doc.title doc.components ∧
    ∃ d1 d2 nf, generate pathsCue nf (pathsCue.define doc.title shipSch.schraw) = .ok d1 ∧
      generate pathsCue nf (pathsCue.define doc.title shipSch.join) = .ok d2 ∧
      doc.components = d1 ++ d2 :=
  ⟨_, _, rfl, C102_split_not_merged (C := pathsCue) (s := shipSch) (cfg := { splitSchema := true })
      pathsCue_rootNamed (by decide) rfl rfl rfl (by decide),
    C102_split_partial (C := pathsCue) (s := shipSch) (cfg := { splitSchema := true }) rfl rfl rfl
      rfl⟩

example := C103_config_kept_partial (C := pathsCue) (s := shipSch) (cfg := { group := true }) rfl

example : ∃ doc cfg', generateSchema pathsCue shipSch {} = (.ok doc, cfg') ∧
    cfg'.info = some (trimMarks doc.title) :=
  ⟨_, _, rfl, (C103_config_overwritten (C := pathsCue) (s := shipSch) (cfg := {}) rfl rfl).1⟩

end Thema.Props

import Verif.Lemmas.GoJson

/-!
# The fields that `encoding/json` sees
-/

namespace Thema.GoJson

open GoTypes OGen

variable {U : Uni} {S : Std} {ds : List Decl} {comps : List (Str × OS)}

/-! ### Fields that count -/

theorem ofList_toList : ∀ (fs : GFs), GFs.ofList (GFs.toList fs) = fs
  | .nil => rfl
  | .cons f t fs => by rw [GFs.toList, GFs.ofList, ofList_toList fs]

theorem filter_one {α β : Type} [BEq β] [LawfulBEq β] {f : α → β} : ∀ {l : List α} {c : α},
    (l.map f).Nodup → c ∈ l → l.filter (fun x => f x == f c) = [c]
  | [], c, _, h => by cases h
  | a :: l, c, hn, h => by
    rw [List.map_cons, List.nodup_cons] at hn
    rcases List.mem_cons.1 h with rfl | h
    · rw [List.filter_cons_of_pos (by simp), List.filter_eq_nil_iff.2]
      intro x hx
      rw [beq_iff_eq]
      intro e
      exact hn.1 (e ▸ List.mem_map_of_mem hx)
    · rw [List.filter_cons_of_neg, filter_one hn.2 h]
      rw [beq_iff_eq]
      intro e
      exact hn.1 (e ▸ List.mem_map_of_mem h)

theorem firsts_sublist {α : Type} {r : α → α → Bool} : ∀ {l : List α}, (firsts r l).Sublist l
  | [] => .slnil
  | a :: l => by
    rw [firsts]
    exact (List.filter_sublist.trans firsts_sublist).cons₂ a

theorem firsts_pairwise {α : Type} {r : α → α → Bool} : ∀ {l : List α},
    (firsts r l).Pairwise fun a b => r a b = false
  | [] => .nil
  | a :: l => by
    rw [firsts, List.pairwise_cons]
    refine ⟨fun b hb => ?_, firsts_pairwise.sublist List.filter_sublist⟩
    simpa using (List.mem_filter.1 hb).2

theorem firsts_mem {α : Type} {r : α → α → Bool} (hr : ∀ a, r a a = true)
    (ht : ∀ a b c, r a b = true → r b c = true → r a c = true) : ∀ {l : List α} {a : α}, a ∈ l →
    ∃ b ∈ firsts r l, r b a = true
  | [], a, h => by cases h
  | b :: l, a, h => by
    rw [firsts]
    rcases List.mem_cons.1 h with rfl | h
    · exact ⟨a, List.mem_cons_self .., hr a⟩
    · obtain ⟨c, hc, hca⟩ := firsts_mem hr ht h
      cases hbc : r b c with
      | true => exact ⟨b, List.mem_cons_self .., ht _ _ _ hbc hca⟩
      | false =>
        exact ⟨c, List.mem_cons_of_mem _ (List.mem_filter.2 ⟨hc, by rw [hbc]; rfl⟩), hca⟩

theorem firsts_id {α : Type} {r : α → α → Bool} : ∀ {l : List α},
    l.Pairwise (fun a b => r a b = false) → firsts r l = l
  | [], _ => rfl
  | a :: l, h => by
    rw [List.pairwise_cons] at h
    rw [firsts, firsts_id h.2, List.filter_eq_self.2]
    intro b hb
    rw [h.1 b hb]
    rfl

theorem firsts_map {α β : Type} {r : β → β → Bool} {f : α → β} : ∀ {l : List α},
    firsts r (l.map f) = (firsts (fun a b => r (f a) (f b)) l).map f
  | [] => rfl
  | a :: l => by
    rw [List.map_cons, firsts, firsts, firsts_map, List.map_cons, List.filter_map]
    rfl

theorem samePlace_iff {c c' : List Str × Field × GT} : samePlace c c' = true ↔
    c.1.length = c'.1.length ∧ c.1.reverse.take 2 = c'.1.reverse.take 2 ∧ c.2.1 = c'.2.1 := by
  unfold samePlace
  simp [and_assoc]

/-- If all keys are different, all fields count. -/
theorem visible_of {m : Nat} {fs : GFs} {cs : List (List Str × Field × GT)}
    (h : candidates ds m [] fs = cs) (hn : (cs.map fun c => keyOf U c.2.1).Nodup) :
    visible U ds m fs = GFs.ofList (cs.map (·.2)) := by
  unfold visible
  rw [h]
  simp only
  rw [List.filter_eq_self.2, firsts_id]
  · refine (List.pairwise_map.1 hn).imp fun {a b} hab => ?_
    cases hs : samePlace a b with
    | false => rfl
    | true => exact absurd (by rw [(samePlace_iff.1 hs).2.2]) hab
  intro c hc
  unfold dominant
  split
  · rfl
  · rename_i k hk
    have := filter_one hn hc
    simp only [hk] at this
    simp only [this]
    simp [samePlace]

theorem toList_fieldsOf {all : Bool} : ∀ (l : List Prop'),
    GFs.toList (depFs all (fieldsOf U .nil l)) =
      l.map fun p => ((p.field U).1, depField all (p.field U).2)
  | [] => rfl
  | p :: l => by rw [fieldsOf, depFs, GFs.toList, toList_fieldsOf l]; rfl

theorem flatMap_single {α β γ : Type} {f : α → β} {g : β → List γ} {h : α → γ} : ∀ {l : List α},
    (∀ a ∈ l, g (f a) = [h a]) → (l.map f).flatMap g = l.map h
  | [], _ => rfl
  | a :: l, e => by
    rw [List.map_cons, List.flatMap_cons, e a (List.mem_cons_self ..),
      flatMap_single fun b hb => e b (List.mem_cons_of_mem _ hb)]
    rfl

/-- The properties that are generated. -/
structure GenRow (U : Uni) (comps : List (Str × OS)) (c : Str) (path : List Str) (ps : OPs)
    (p : Prop') : Prop where
  tag : TagName U p.name
  good : GoodName U p.name
  inner : p.s.inner = false
  skip : p.s.skipPtr = false
  src : ∃ s, Tame U comps s ∧ gen U (c :: (path ++ [p.name])) s = .ok p.s ∧
    findProp p.name ps = some (p.required, p.nullable, s)

theorem genPs_rows {c : Str} {path : List Str} : ∀ (ps : OPs) {l : List Prop'}, TamePs U comps ps →
    (propNames ps).Nodup → genPs U (c :: path) ps = .ok l → ∀ p ∈ l, GenRow U comps c path ps p
  | .nil, l, _, _, hg, p, hp => by
    rw [genPs] at hg; injection hg with hg; subst hg; cases hp
  | .cons n r nl s ps, l, ht, hn, hg, p, hp => by
    rw [genPs] at hg
    obtain ⟨a, ha, hg⟩ := bind_ok hg
    obtain ⟨l', hl, hg⟩ := bind_ok hg
    rw [TamePs] at ht
    rw [propNames, List.nodup_cons] at hn
    have ig := gen_good s ht.2.2.1 (path := path ++ [n]) ha
    rw [genProp_eq ig.addl ig.union] at hg
    injection hg with hg
    subst hg
    rcases List.mem_cons.1 hp with rfl | hp'
    · exact ⟨ht.1, ht.2.1, ig.inner, ig.skip, s, ht.2.2.1, ha, by rw [findProp, if_pos rfl]⟩
    · obtain ⟨h1, h2, h3, h4, s', h5, h6, h7⟩ := genPs_rows ps ht.2.2.2 hn.2 hl p hp'
      refine ⟨h1, h2, h3, h4, s', h5, h6, ?_⟩
      rw [findProp, if_neg, h7]
      rintro rfl
      refine hn.1 ?_
      rw [← genPs_names hl]
      exact List.mem_map_of_mem hp'

theorem genPs_find {c k : Str} {path : List Str} {v : Bool × Bool × OS} : ∀ (ps : OPs)
    {l : List Prop'}, TamePs U comps ps → genPs U (c :: path) ps = .ok l → findProp k ps = some v →
    ∃ p ∈ l, p.name = k ∧ p.required = v.1 ∧ p.nullable = v.2.1 ∧
      gen U (c :: (path ++ [k])) v.2.2 = .ok p.s
  | .nil, l, _, _, h => by cases h
  | .cons n r nl s ps, l, ht, hg, h => by
    rw [genPs] at hg
    obtain ⟨a, ha, hg⟩ := bind_ok hg
    obtain ⟨l', hl, hg⟩ := bind_ok hg
    rw [TamePs] at ht
    have ig := gen_good s ht.2.2.1 (path := path ++ [n]) ha
    rw [genProp_eq ig.addl ig.union] at hg
    injection hg with hg
    subst hg
    rw [findProp] at h
    split at h
    · rename_i e
      subst e
      injection h with h
      subst h
      exact ⟨_, List.mem_cons_self .., rfl, rfl, rfl, ha⟩
    · obtain ⟨p, hp, h⟩ := genPs_find ps ht.2.2.2 hl h
      exact ⟨p, List.mem_cons_of_mem _ hp, h⟩

theorem GenRow.exported (L : UniLaws U) {c : Str} {path : List Str} {ps : OPs} {p : Prop'}
    (h : GenRow U comps c path ps p) : Exported U (typeName U p.name) :=
  (exported_iff L p.name).2 h.good

theorem GenRow.go (L : UniLaws U) {c : Str} {path : List Str} {ps : OPs} {p : Prop'}
    (h : GenRow U comps c path ps p) :
    (p.field U).1.go ≠ [] ∧ keyOf U (p.field U).1 = some p.name := by
  rw [Prop'.field, if_neg (by simp [h.inner])]
  refine ⟨?_, key_ok L h.tag (h.exported L)⟩
  obtain ⟨c, r, e, _⟩ := h.exported L
  simp [e]

theorem contrib_plain {n : Nat} {pre : List Str}
    {inner : List Str → GFs → List (List Str × Field × GT)} {f : Field} {t : GT}
    (h : f.go ≠ []) : contrib ds n pre inner (f, t) = [(pre, f, t)] := by
  unfold contrib
  dsimp only
  rw [if_neg h]

theorem contrib_part {n : Nat} {pre : List Str}
    {inner : List Str → GFs → List (List Str × Field × GT)} {x : Str} {fs : GFs}
    (h : structOf ds n (.ident x) = some fs) :
    contrib ds n pre inner (⟨[], .none⟩, .ident x) = inner (pre ++ [x]) fs := by
  unfold contrib
  dsimp only
  rw [if_pos rfl]
  simp only [h]

/-- Without references of `allOf`, the fields of a struct are those that count. -/
theorem visible_plain (L : UniLaws U) {all : Bool} {c : Str} {path : List Str} {ps : OPs}
    {l : List Prop'} (ht : TamePs U comps ps) (hg : genPs U (c :: path) ps = .ok l)
    (hn : (propNames ps).Nodup) (m : Nat) :
    visible U ds (m + 1) (depFs all (fieldsOf U .nil l)) = depFs all (fieldsOf U .nil l) := by
  have key := fun p hp => (genPs_rows ps ht hn hg p hp).go L
  have hc : candidates ds (m + 1) [] (depFs all (fieldsOf U .nil l)) =
      l.map fun p => ([], (p.field U).1, depField all (p.field U).2) := by
    rw [candidates, toList_fieldsOf]
    refine flatMap_single fun p hp => ?_
    exact contrib_plain (key p hp).1
  rw [visible_of hc]
  · rw [List.map_map]
    have := toList_fieldsOf (U := U) (all := all) l
    rw [show (fun p : Prop' => ((p.field U).1, depField all (p.field U).2)) =
      ((fun x : List Str × Field × GT => x.2) ∘ fun p : Prop' => ([], (p.field U).1, depField all (p.field U).2)) from rfl]
      at this
    rw [← this, ofList_toList]
  · rw [List.map_map]
    have : l.map ((fun c : List Str × Field × GT => keyOf U c.2.1) ∘ fun p : Prop' =>
        ([], (p.field U).1, depField all (p.field U).2)) = (propNames ps).map some := by
      rw [← genPs_names hg, List.map_map]
      exact List.map_congr_left fun p hp => (key p hp).2
    rw [this]
    exact List.Pairwise.map _ (fun a b h e => h (Option.some.inj e)) hn

/-! ### The fields of the parts -/

/-- A property of a schema or its parts and what it is generated to. -/
structure Row where
  path : List Str
  key : Str
  r : Bool
  nl : Bool
  s : OS
  gs : GSch

/-- The field of a property. -/
def Row.field (U : Uni) (x : Row) : Field × GT :=
  (⟨typeName U x.key, .key x.key (!(x.r || x.nl))⟩, fieldT x.r x.nl x.gs.typeDecl)

/-- What is known about a row. -/
structure Row.Ok (U : Uni) (ds : List Decl) (comps : List (Str × OS)) (x : Row) : Prop where
  tag : TagName U x.key
  good : GoodName U x.key
  tame : Tame U comps x.s
  gen : ∃ c p, gen U (c :: p) x.s = .ok x.gs
  decls : Decls ds x.gs

/-- The rows of a schema are those of its properties and of the properties of its parts that are
not left out. -/
structure RowsOf (U : Uni) (ds : List Decl) (comps : List (Str × OS)) (s : OS) (fs : GFs)
    (rows : List Row) (K : Nat) : Prop where
  cands : ∀ m, K ≤ m → ∀ pre, candidates ds m pre fs =
    rows.map fun x => (pre ++ x.path.map (typeName U), x.field U)
  ok : ∀ x ∈ rows, x.Ok U ds comps
  nodup : (rows.map fun x => (x.path, x.key)).Nodup
  sound : ∀ x ∈ rows, At comps s x.path x.key (x.r, x.nl, x.s) ∧ ∀ m ∈ x.path, '_' ∉ m
  complete : ∀ p k v, At comps s p k v → (∀ m ∈ p, '_' ∉ m) →
    ∃ x ∈ rows, x.path = p ∧ x.key = k ∧ (x.r, x.nl, x.s) = v

theorem choose_list {α β : Type} [DecidableEq α] {P : α → β → Prop} : ∀ {l : List α},
    (∀ a ∈ l, ∃ b, P a b) → ∃ f : α → Option β, ∀ a ∈ l, ∃ b, f a = some b ∧ P a b
  | [], _ => ⟨fun _ => none, fun a h => by cases h⟩
  | a :: l, h => by
    obtain ⟨f, hf⟩ := choose_list fun b hb => h b (List.mem_cons_of_mem _ hb)
    obtain ⟨b, hb⟩ := h a (List.mem_cons_self ..)
    refine ⟨fun x => if x = a then some b else f x, fun x hx => ?_⟩
    by_cases e : x = a
    · subst e
      exact ⟨b, by simp, hb⟩
    · rcases List.mem_cons.1 hx with h | h
      · exact absurd h e
      · obtain ⟨b', h1, h2⟩ := hf x h
        exact ⟨b', by simp [e, h1], h2⟩

theorem bound_list {α : Type} {f : α → Nat} : ∀ (l : List α), ∃ K, ∀ a ∈ l, f a ≤ K
  | [] => ⟨0, fun a h => by cases h⟩
  | a :: l => by
    obtain ⟨K, h⟩ := bound_list (f := f) l
    refine ⟨K + f a, fun x hx => ?_⟩
    rcases List.mem_cons.1 hx with rfl | hx
    · omega
    · have := h x hx; omega

theorem nodup_flatMap {α β : Type} {f : α → List β} : ∀ {l : List α}, (∀ a ∈ l, (f a).Nodup) →
    l.Pairwise (fun a b => ∀ x ∈ f a, x ∉ f b) → (l.flatMap f).Nodup
  | [], _, _ => List.nodup_nil
  | a :: l, h, hp => by
    rw [List.flatMap_cons, List.nodup_append]
    rw [List.pairwise_cons] at hp
    refine ⟨h a (List.mem_cons_self ..), nodup_flatMap (fun b hb => h b (List.mem_cons_of_mem _ hb))
      hp.2, fun x hx y hy e => ?_⟩
    subst e
    obtain ⟨b, hb, hy⟩ := List.mem_flatMap.1 hy
    exact hp.1 b hb x hx hy

theorem flatMap_ext {α β : Type} {f g : α → List β} : ∀ {l : List α}, (∀ a ∈ l, f a = g a) →
    l.flatMap f = l.flatMap g
  | [], _ => rfl
  | a :: l, h => by
    rw [List.flatMap_cons, List.flatMap_cons, h a (List.mem_cons_self ..),
      flatMap_ext fun b hb => h b (List.mem_cons_of_mem _ hb)]

/-- The property of a part. -/
def Row.under (m : Str) (x : Row) : Row := { x with path := m :: x.path }

/-- The rows of a generated property, or of a part. -/
def rowsFor (f : Str → Option (List Row)) (ps : OPs) (p : Prop') : List Row :=
  if p.s.inner then ((f p.name).getD []).map (Row.under p.name)
  else [⟨[], p.name, p.required, p.nullable, match findProp p.name ps with
    | some v => v.2.2
    | none => .inner, p.s⟩]

theorem rows_step (E : Env U ds comps) {typed : Bool} {allOf : List Str} {ps : OPs} {c : Str}
    {path : List Str} {g : GSch} (ht : Tame U comps (.obj typed allOf ps .no .nil))
    (hne : HasFields allOf ps) (hg : gen U (c :: path) (.obj typed allOf ps .no .nil) = .ok g)
    (hd : Decls ds g)
    (hp : ∀ m ∈ allOf, ∃ s, comps.lookup m = some s ∧ ∃ fs rows K,
      declType ds (typeName U m) = some (.struct fs) ∧ RowsOf U ds comps s fs rows K) :
    ∃ fs rows K, dep false g.typeDecl = .struct fs ∧
      RowsOf U ds comps (.obj typed allOf ps .no .nil) fs rows K := by
  rw [Tame] at ht
  obtain ⟨hpt, _, _, htp, _, hnd, _⟩ := ht
  rw [gen] at hg
  dsimp only at hg
  rw [if_neg (fun e => hasFields_iff.1 hne e.1)] at hg
  obtain ⟨ga, hga, hg⟩ := bind_ok hg
  rw [genA] at hga
  injection hga with hga
  subst hga
  rw [if_neg (fun e => hasFields_iff.1 hne e.1)] at hg
  obtain ⟨l, hl, hg⟩ := bind_ok hg
  obtain ⟨ges, hges, hg⟩ := bind_ok hg
  rw [genEs] at hges
  injection hges with hges
  subst hges
  injection hg with hg
  subst hg
  have hperm := parts_perm hpt hl
  have hmem : ∀ p, p ∈ embed allOf l ↔ (∃ m ∈ allOf, '_' ∉ m ∧ p = inn m) ∨ p ∈ l := by
    intro p
    rw [hperm.mem_iff, List.mem_append, List.mem_map]
    have hc : ∀ m : Str, m.contains '_' = false ↔ '_' ∉ m := by
      intro m; rw [← Bool.not_eq_true, List.contains_iff_mem]
    simp only [List.mem_filter, Bool.not_eq_true', hc]
    constructor
    · rintro (⟨m, h, rfl⟩ | h)
      · exact .inl ⟨m, h.1, h.2, rfl⟩
      · exact .inr h
    · rintro (⟨m, h, h', rfl⟩ | h)
      · exact .inl ⟨m, ⟨h, h'⟩, rfl⟩
      · exact .inr h
  have hrow := genPs_rows ps htp hnd hl
  have hdefs : ∀ p ∈ l, Decls ds p.s := by
    intro p hp td htd
    refine hd td ?_
    simp only [GSch.defs, List.append_nil, List.mem_flatMap]
    exact ⟨p, (hmem p).2 (.inr hp), htd⟩
  -- the rows of the parts
  have hp' : ∀ m ∈ allOf, ∃ rows, ∃ s fs K, comps.lookup m = some s ∧
      declType ds (typeName U m) = some (.struct fs) ∧ RowsOf U ds comps s fs rows K := by
    intro m hm
    obtain ⟨s, h1, fs, rows, K, h2, h3⟩ := hp m hm
    exact ⟨rows, s, fs, K, h1, h2, h3⟩
  obtain ⟨f, hf⟩ := choose_list hp'
  have hK : ∀ m ∈ allOf, ∃ K, ∃ rows s fs, f m = some rows ∧ comps.lookup m = some s ∧
      declType ds (typeName U m) = some (.struct fs) ∧ RowsOf U ds comps s fs rows K := by
    intro m hm
    obtain ⟨rows, h0, s, fs, K, h⟩ := hf m hm
    exact ⟨K, rows, s, fs, h0, h⟩
  obtain ⟨fK, hfK⟩ := choose_list hK
  obtain ⟨K, hKb⟩ := bound_list (f := fun m => (fK m).getD 0) allOf
  have part : ∀ m ∈ allOf, ∃ rows s fs, f m = some rows ∧ comps.lookup m = some s ∧
      declType ds (typeName U m) = some (.struct fs) ∧ RowsOf U ds comps s fs rows K := by
    intro m hm
    obtain ⟨K', h0, rows, s, fs, h1, h2, h3, h4⟩ := hfK m hm
    have hle := hKb m hm
    rw [h0] at hle
    exact ⟨rows, s, fs, h1, h2, h3, ⟨fun n hn => h4.cands n (Nat.le_trans hle hn), h4.ok, h4.nodup,
      h4.sound, h4.complete⟩⟩
  have rInn : ∀ {m rows}, f m = some rows → rowsFor f ps (inn m) = rows.map (Row.under m) := by
    intro m rows h
    unfold rowsFor
    rw [if_pos (show (inn m).s.inner = true from rfl)]
    show ((f m).getD []).map _ = _
    rw [h]
    rfl
  have rOwn : ∀ {p}, p ∈ l → ∃ s, Tame U comps s ∧ gen U (c :: (path ++ [p.name])) s = .ok p.s ∧
      findProp p.name ps = some (p.required, p.nullable, s) ∧
      rowsFor f ps p = [⟨[], p.name, p.required, p.nullable, s, p.s⟩] := by
    intro p hp
    obtain ⟨s, h1, h2, h3⟩ := (hrow p hp).src
    refine ⟨s, h1, h2, h3, ?_⟩
    unfold rowsFor
    rw [if_neg (by simp [(hrow p hp).inner]), h3]
  refine ⟨depFs false (fieldsOf U .nil (embed allOf l)), (embed allOf l).flatMap (rowsFor f ps), K + 3,
    rfl, ?_, ?_, ?_, ?_, ?_⟩
  · -- candidates
    intro m hm pre
    cases m with
    | zero => omega
    | succ m =>
      rw [candidates, toList_fieldsOf, List.flatMap_map, List.map_flatMap]
      refine flatMap_ext fun p hp => ?_
      rcases (hmem p).1 hp with ⟨n, hn, hu, rfl⟩ | hp
      · obtain ⟨rows, s, fs, h1, h2, h3, h4⟩ := part n hn
        rw [rInn h1]
        have hs : structOf ds m (.ident (typeName U n)) = some fs := by
          obtain ⟨m', rfl⟩ : ∃ m', m = m' + 2 := ⟨m - 2, by omega⟩
          unfold structOf
          rw [head, h3]
          rfl
        show contrib ds m pre (candidates ds m) (⟨[], .none⟩, .ident (typeName U n)) = _
        rw [contrib_part hs, h4.cands m (by omega), List.map_map]
        refine List.map_congr_left fun x _ => ?_
        simp only [Function.comp, Row.under, List.map_cons, Row.field, List.append_assoc,
          List.singleton_append]
      · obtain ⟨s, h1, h2, h3, h4⟩ := rOwn hp
        rw [h4]
        rw [contrib_plain ((hrow p hp).go E.laws).1]
        rw [Prop'.field, if_neg (by simp [(hrow p hp).inner])]
        simp [Row.field, fieldT, (hrow p hp).skip]
  · -- rows
    intro x hx
    obtain ⟨p, hp, hx⟩ := List.mem_flatMap.1 hx
    rcases (hmem p).1 hp with ⟨n, hn, hu, rfl⟩ | hp
    · obtain ⟨rows, s, fs, h1, h2, h3, h4⟩ := part n hn
      rw [rInn h1] at hx
      obtain ⟨y, hy, rfl⟩ := List.mem_map.1 hx
      obtain ⟨a1, a2, a3, a4, a5⟩ := h4.ok y hy
      exact ⟨a1, a2, a3, a4, a5⟩
    · obtain ⟨s, h1, h2, h3, h4⟩ := rOwn hp
      rw [h4, List.mem_singleton] at hx
      subst hx
      exact ⟨(hrow p hp).tag, (hrow p hp).good, h1, ⟨_, _, h2⟩, hdefs p hp⟩
  · -- no duplicates
    rw [List.map_flatMap]
    refine nodup_flatMap ?_ ?_
    · intro p hp
      rcases (hmem p).1 hp with ⟨n, hn, hu, rfl⟩ | hp
      · obtain ⟨rows, s, fs, h1, h2, h3, h4⟩ := part n hn
        rw [rInn h1, List.map_map]
        have := h4.nodup
        rw [show ((fun x : Row => (x.path, x.key)) ∘ Row.under n) =
          (fun q : List Str × Str => (n :: q.1, q.2)) ∘ (fun x : Row => (x.path, x.key)) from rfl,
          ← List.map_map]
        refine List.Pairwise.map _ ?_ this
        rintro ⟨a1, a2⟩ ⟨b1, b2⟩ h e
        injection e with e1 e2
        injection e1 with _ e1
        exact h (Prod.ext e1 e2)
      · obtain ⟨s, h1, h2, h3, h4⟩ := rOwn hp
        rw [h4]
        simp
    · have hnn : ((embed allOf l).map (·.name)).Nodup := by
        refine (hperm.map (·.name)).nodup_iff.2 ?_
        rw [List.map_append, List.map_map, List.nodup_append]
        refine ⟨?_, by rw [genPs_names hl]; exact hnd, ?_⟩
        · rw [show ((fun x : Prop' => x.name) ∘ inn) = id from rfl, List.map_id]
          exact hpt.1.sublist List.filter_sublist
        · intro a ha b hb e
          subst e
          obtain ⟨m, hm, rfl⟩ := List.mem_map.1 ha
          rw [genPs_names hl] at hb
          exact (hpt.2 m (List.mem_filter.1 hm).1).1 hb
      have hnn := List.pairwise_map.1 hnn
      refine hnn.imp_of_mem ?_
      intro p q hp hq hpq x hx hx'
      rcases (hmem p).1 hp with ⟨n, hn, hu, rfl⟩ | hp
      · obtain ⟨rows, s, fs, h1, h2, h3, h4⟩ := part n hn
        rw [rInn h1, List.map_map] at hx
        obtain ⟨y, _, rfl⟩ := List.mem_map.1 hx
        rcases (hmem q).1 hq with ⟨n', hn', _, rfl⟩ | hq
        · obtain ⟨rows', s', fs', h1', h2', h3', h4'⟩ := part n' hn'
          rw [rInn h1', List.map_map] at hx'
          obtain ⟨y', _, e⟩ := List.mem_map.1 hx'
          simp only [Function.comp, Row.under, Prod.mk.injEq, List.cons.injEq] at e
          exact hpq e.1.1.symm
        · obtain ⟨s', h1', h2', h3', h4'⟩ := rOwn hq
          rw [h4'] at hx'
          simp [Row.under] at hx'
      · obtain ⟨s, h1, h2, h3, h4⟩ := rOwn hp
        rw [h4] at hx
        simp only [List.map_cons, List.map_nil, List.mem_singleton] at hx
        subst hx
        rcases (hmem q).1 hq with ⟨n', hn', _, rfl⟩ | hq
        · obtain ⟨rows', s', fs', h1', h2', h3', h4'⟩ := part n' hn'
          rw [rInn h1', List.map_map] at hx'
          obtain ⟨y', _, e⟩ := List.mem_map.1 hx'
          simp [Function.comp, Row.under] at e
        · obtain ⟨s', h1', h2', h3', h4'⟩ := rOwn hq
          rw [h4'] at hx'
          simp only [List.map_cons, List.map_nil, List.mem_singleton, Prod.mk.injEq, true_and] at hx'
          exact hpq hx'
  · -- sound
    intro x hx
    obtain ⟨p, hp, hx⟩ := List.mem_flatMap.1 hx
    rcases (hmem p).1 hp with ⟨n, hn, hu, rfl⟩ | hp
    · obtain ⟨rows, s, fs, h1, h2, h3, h4⟩ := part n hn
      rw [rInn h1] at hx
      obtain ⟨y, hy, rfl⟩ := List.mem_map.1 hx
      refine ⟨.part hn h2 (h4.sound y hy).1, fun m hm => ?_⟩
      rcases List.mem_cons.1 hm with rfl | hm
      · exact hu
      · exact (h4.sound y hy).2 m hm
    · obtain ⟨s, h1, h2, h3, h4⟩ := rOwn hp
      rw [h4, List.mem_singleton] at hx
      subst hx
      exact ⟨.own h3, fun m hm => by cases hm⟩
  · -- complete
    intro p k v h hu
    cases h with
    | own h =>
      obtain ⟨q, hq, e1, e2, e3, e4⟩ := genPs_find ps htp hl h
      obtain ⟨s, h1, h2, h3, h4⟩ := rOwn hq
      refine ⟨_, List.mem_flatMap.2 ⟨q, (hmem q).2 (.inr hq), by rw [h4]; exact List.mem_singleton_self _⟩,
        rfl, e1, ?_⟩
      rw [e1, h] at h3
      exact (Option.some.inj h3).symm
    | part hm hs h =>
      rename_i m s path
      obtain ⟨rows, s', fs, h1, h2, h3, h4⟩ := part m hm
      rw [hs] at h2
      injection h2 with h2
      subst h2
      obtain ⟨x, hx, e1, e2, e3⟩ := h4.complete _ _ _ h fun m' h' => hu m' (List.mem_cons_of_mem _ h')
      refine ⟨x.under m, List.mem_flatMap.2 ⟨inn m, (hmem _).2
        (.inl ⟨m, hm, hu m (List.mem_cons_self ..), rfl⟩), ?_⟩, ?_, e2, e3⟩
      · rw [rInn h1]
        exact List.mem_map_of_mem hx
      · rw [Row.under, e1]

theorem lookup_mem {n : Str} {s : OS} : ∀ {comps : List (Str × OS)}, comps.lookup n = some s →
    (n, s) ∈ comps
  | [], h => by cases h
  | (m, s') :: cs, h => by
    rw [List.lookup_cons] at h
    cases he : (n == m) with
    | true =>
      rw [he] at h
      injection h with h
      have := eq_of_beq he
      subst this h
      exact List.mem_cons_self ..
    | false =>
      rw [he] at h
      exact List.mem_cons_of_mem _ (lookup_mem h)

theorem isStruct_obj {s : OS} (h : IsStruct s) : ∃ typed allOf ps, s = .obj typed allOf ps .no .nil ∧
    HasFields allOf ps := by
  cases s with
  | obj typed allOf ps a es =>
    cases a with
    | no =>
      cases es with
      | nil => exact ⟨typed, allOf, ps, rfl, h⟩
      | cons _ _ _ => exact h.elim
    | free => exact h.elim
    | of _ => exact h.elim
  | ref _ => exact h.elim
  | prim _ _ _ => exact h.elim
  | arr _ => exact h.elim
  | inner => exact h.elim

/-- The rows of a component. -/
theorem rows_comp (E : Env U ds comps) {rank : Str → Nat}
    (hr : ∀ n typed allOf ps a es, (n, OS.obj typed allOf ps a es) ∈ comps →
      ∀ m ∈ allOf, rank m < rank n) : ∀ (N : Nat) (n : Str) (s : OS), rank n < N →
    comps.lookup n = some s → IsStruct s →
    ∃ fs rows K, declType ds (typeName U n) = some (.struct fs) ∧ RowsOf U ds comps s fs rows K
  | 0, n, s, h, _, _ => by omega
  | N + 1, n, s, h, hl, hs => by
    obtain ⟨typed, allOf, ps, rfl, hne⟩ := isStruct_obj hs
    have hm := lookup_mem hl
    obtain ⟨g, h1, h2, h3⟩ := E.comp n _ hm
    have ht := E.tame.tame n _ hm
    have hpt := ht
    rw [Tame] at hpt
    obtain ⟨fs, rows, K, h4, h5⟩ := rows_step E ht hne h1 h3 fun m hmm => by
      obtain ⟨_, s', hs', hst⟩ := hpt.1.2 m hmm
      have := hr n _ _ _ _ _ hm m hmm
      exact ⟨s', hs', rows_comp E hr N m s' (by omega) hs' hst⟩
    exact ⟨fs, rows, K, by rw [h2, h4], h5⟩

/-! ### Which properties count -/

theorem at_lookup {s : OS} {p : List Str} {k : Str} {v : Bool × Bool × OS} (h : At comps s p k v) :
    ∀ m ∈ p, ∃ t, (m, t) ∈ comps := by
  induction h with
  | own _ => intro m hm; cases hm
  | part _ hs _ ih =>
    intro m hm
    rcases List.mem_cons.1 hm with rfl | hm
    · exact ⟨_, lookup_mem hs⟩
    · exact ih m hm

theorem at_nil {s : OS} {k : Str} {v w : Bool × Bool × OS} (h : At comps s [] k v)
    (h' : At comps s [] k w) : v = w := by
  cases h with
  | own h =>
    cases h' with
    | own h' => rw [h] at h'; exact Option.some.inj h'

/-- The part that a property is of. -/
theorem at_owner {s : OS} {p : List Str} {k : Str} {v : Bool × Bool × OS} (h : At comps s p k v) :
    p = [] ∨ ∃ m t, p.getLast? = some m ∧ comps.lookup m = some t ∧ At comps t [] k v := by
  induction h with
  | own _ => exact .inl rfl
  | @part typed allOf props addl alts m s' path k v _ hs h ih =>
    refine .inr ?_
    rcases ih with rfl | ⟨m', t, h1, h2, h3⟩
    · exact ⟨m, s', rfl, hs, h⟩
    · refine ⟨m', t, ?_, h2, h3⟩
      rw [List.getLast?_cons, h1]
      rfl

theorem take_last {p q : List Str} (h : p.reverse.take 2 = q.reverse.take 2) :
    p.getLast? = q.getLast? := by
  have := congrArg List.head? h
  rw [List.head?_take, List.head?_take] at this
  simpa using this

theorem at_same {s : OS} {p q : List Str} {k : Str} {v w : Bool × Bool × OS} (h : At comps s p k v)
    (h' : At comps s q k w) (e : p.reverse.take 2 = q.reverse.take 2) : v = w := by
  have e := take_last e
  rcases at_owner h with rfl | ⟨m, t, h1, h2, h3⟩
  · rcases at_owner h' with rfl | ⟨m, t, h1, h2, h3⟩
    · exact at_nil h h'
    · rw [h1] at e; cases e
  · rcases at_owner h' with rfl | ⟨m', t', h1', h2', h3'⟩
    · rw [h1] at e; cases e
    · rw [h1, h1'] at e
      injection e with e
      subst e
      rw [h2] at h2'
      injection h2' with h2'
      subst h2'
      exact at_nil h3 h3'

theorem map_inj_on {α β : Type} {f : α → β} : ∀ {l l' : List α},
    (∀ a ∈ l, ∀ b ∈ l', f a = f b → a = b) → l.map f = l'.map f → l = l'
  | [], [], _, _ => rfl
  | [], _ :: _, _, h => by cases h
  | _ :: _, [], _, h => by cases h
  | a :: l, b :: l', hi, h => by
    rw [List.map_cons, List.map_cons] at h
    injection h with h1 h2
    rw [hi a (List.mem_cons_self ..) b (List.mem_cons_self ..) h1,
      map_inj_on (fun a ha b hb => hi a (List.mem_cons_of_mem _ ha) b (List.mem_cons_of_mem _ hb)) h2]

theorem inj_of_nodup {α β : Type} {f : α → β} : ∀ {l : List α}, (l.map f).Nodup → ∀ a ∈ l, ∀ b ∈ l,
    f a = f b → a = b
  | [], _, a, ha, _, _, _ => by cases ha
  | c :: l, hn, a, ha, b, hb, e => by
    rw [List.map_cons, List.nodup_cons] at hn
    rcases List.mem_cons.1 ha with rfl | ha'
    · rcases List.mem_cons.1 hb with rfl | hb
      · rfl
      · exact absurd (e ▸ List.mem_map_of_mem hb) hn.1
    · rcases List.mem_cons.1 hb with hb | hb
      · subst hb
        exact absurd (e ▸ List.mem_map_of_mem ha') hn.1
      · exact inj_of_nodup hn.2 a ha' b hb e

theorem row_key (L : UniLaws U) {x : Row} (h : x.Ok U ds comps) :
    keyOf U (x.field U).1 = some x.key :=
  key_ok L h.tag ((exported_iff L x.key).2 h.good)

/-- The fields that `encoding/json` sees of a struct: the properties of the schema and its
parts that count. -/
theorem rows_all (E : Env U ds comps) {typed : Bool} {allOf : List Str} {ps : OPs} {c : Str}
    {path : List Str} {g : GSch} (ht : Tame U comps (.obj typed allOf ps .no .nil))
    (hne : HasFields allOf ps) (hg : gen U (c :: path) (.obj typed allOf ps .no .nil) = .ok g)
    (hd : Decls ds g) :
    ∃ (fs : GFs) (rows : List Row) (K : Nat), dep false g.typeDecl = .struct fs ∧
      (∀ x ∈ rows, Row.Ok U ds comps x) ∧
      (rows.map (·.key)).Nodup ∧
      (∀ k v, Counts comps (.obj typed allOf ps .no .nil) k v ↔
        ∃ x ∈ rows, x.key = k ∧ (x.r, x.nl, x.s) = v) ∧
      ∀ m, K ≤ m → visible U ds m fs = GFs.ofList (rows.map (Row.field U)) := by
  obtain ⟨rank, hr⟩ := E.tame.acyclic
  have hpt := ht
  rw [Tame] at hpt
  obtain ⟨fs, rows, K, h1, h2⟩ := rows_step E ht hne hg hd fun m hm => by
    obtain ⟨_, s', hs', hst⟩ := hpt.1.2 m hm
    exact ⟨s', hs', rows_comp E hr _ m s' (Nat.lt_succ_self _) hs' hst⟩
  -- names of types
  have inj : ∀ x ∈ rows, ∀ y ∈ rows, (x.path.map (typeName U)).reverse.take 2 =
      (y.path.map (typeName U)).reverse.take 2 ↔ x.path.reverse.take 2 = y.path.reverse.take 2 := by
    intro x hx y hy
    rw [← List.map_reverse, ← List.map_reverse, ← List.map_take, ← List.map_take]
    refine ⟨fun h => map_inj_on ?_ h, fun h => by rw [h]⟩
    intro a ha b hb e
    obtain ⟨s, hs⟩ := at_lookup (h2.sound x hx).1 a (List.mem_reverse.1 (List.mem_of_mem_take ha))
    obtain ⟨t, ht⟩ := at_lookup (h2.sound y hy).1 b (List.mem_reverse.1 (List.mem_of_mem_take hb))
    have := inj_of_nodup E.tame.distinct (a, s) hs (b, t) ht e
    injection this
  let F := fun x : Row => (([] : List Str) ++ x.path.map (typeName U), x.field U)
  have place : ∀ x ∈ rows, ∀ y ∈ rows, x.key = y.key → (samePlace (F x) (F y) = true ↔
      x.path.length = y.path.length ∧ x.path.reverse.take 2 = y.path.reverse.take 2) := by
    intro x hx y hy ek
    rw [samePlace_iff]
    simp only [F, List.nil_append, List.length_map]
    rw [inj x hx y hy]
    refine ⟨fun h => ⟨h.1, h.2.1⟩, fun h => ⟨h.1, h.2, ?_⟩⟩
    have hxs := (h2.sound x hx).1
    rw [ek] at hxs
    have := at_same hxs (h2.sound y hy).1 h.2
    injection this with e1 e2
    injection e2 with e2 e3
    rw [Row.field, Row.field, ek, e1, e2]
  have dom : ∀ x ∈ rows, (dominant U (rows.map F) (F x) = true ↔ ∀ y ∈ rows, y.key = x.key →
      x.path.length < y.path.length ∨
        x.path.length = y.path.length ∧ x.path.reverse.take 2 = y.path.reverse.take 2) := by
    intro x hx
    unfold dominant
    have hk : keyOf U (F x).2.1 = some x.key := row_key E.laws (h2.ok x hx)
    rw [hk]
    simp only [List.all_eq_true, List.mem_filter, List.mem_map, beq_iff_eq]
    have tg : ∀ y ∈ rows, tagged U (F y).2.1 = true := fun y hy => tagged_ok E.laws (h2.ok y hy).tag
    constructor
    · intro h y hy ek
      have := h (F y) ⟨⟨y, hy, rfl⟩, by rw [← ek]; exact row_key E.laws (h2.ok y hy)⟩
      rw [tg x hx, tg y hy] at this
      simp only [F, List.nil_append, List.length_map, Bool.not_true, Bool.and_false, Bool.false_or,
        beq_self_eq_true, Bool.true_and, Bool.or_eq_true, Bool.and_eq_true, decide_eq_true_eq,
        beq_iff_eq] at this
      rcases this with h | ⟨h, h'⟩
      · exact .inl h
      · exact .inr ((place x hx y hy ek.symm).1 h')
    · rintro h _ ⟨⟨y, hy, rfl⟩, ek⟩
      have : keyOf U (F y).2.1 = some y.key := row_key E.laws (h2.ok y hy)
      rw [this] at ek
      have ek := Option.some.inj ek
      rw [tg x hx, tg y hy]
      rcases h y hy ek with h | h
      · simp [F, h]
      · rw [(place x hx y hy ek.symm).2 h]
        simp [F, h.1]
  let R := firsts (fun x y => samePlace (F x) (F y)) (rows.filter fun x => dominant U (rows.map F) (F x))
  have hR : ∀ x ∈ R, x ∈ rows ∧ ∀ y ∈ rows, y.key = x.key → x.path.length < y.path.length ∨
      x.path.length = y.path.length ∧ x.path.reverse.take 2 = y.path.reverse.take 2 := by
    intro x hx
    have := List.mem_filter.1 (firsts_sublist.subset hx)
    exact ⟨this.1, (dom x this.1).1 this.2⟩
  refine ⟨fs, R, K, h1, fun x hx => h2.ok x (hR x hx).1, ?_, ?_, ?_⟩
  · refine List.pairwise_map.2 (firsts_pairwise.imp_of_mem ?_)
    intro x y hx hy hxy e
    have h3 := (hR x hx).2 y (hR y hy).1 e.symm
    have h4 := (hR y hy).2 x (hR x hx).1 e
    have : samePlace (F x) (F y) = true := by
      refine (place x (hR x hx).1 y (hR y hy).1 e).2 ?_
      rcases h3 with h3 | h3
      · omega
      · exact h3
    rw [this] at hxy
    cases hxy
  · intro k v
    constructor
    · rintro ⟨p, hat, hu, hmin⟩
      obtain ⟨x, hx, rfl, rfl, rfl⟩ := h2.complete p k v hat hu
      have hdx : x ∈ rows.filter fun x => dominant U (rows.map F) (F x) := by
        refine List.mem_filter.2 ⟨hx, (dom x hx).2 fun y hy ek => ?_⟩
        have hy' := h2.sound y hy
        rw [ek] at hy'
        rcases hmin _ _ hy'.1 hy'.2 with h | h
        · exact .inl h
        · exact .inr ⟨h.1, h.2.symm⟩
      obtain ⟨y, hy, hyx⟩ := firsts_mem (r := fun x y => samePlace (F x) (F y))
        (fun a => samePlace_iff.2 ⟨rfl, rfl, rfl⟩)
        (fun a b c h h' => samePlace_iff.2 ⟨(samePlace_iff.1 h).1.trans (samePlace_iff.1 h').1,
          (samePlace_iff.1 h).2.1.trans (samePlace_iff.1 h').2.1,
          (samePlace_iff.1 h).2.2.trans (samePlace_iff.1 h').2.2⟩) hdx
      have hyr := (hR y hy).1
      have ek : y.key = x.key := by
        have h3 := row_key E.laws (h2.ok y hyr)
        have h4 := row_key E.laws (h2.ok x hx)
        rw [show (y.field U).1 = (x.field U).1 from (samePlace_iff.1 hyx).2.2, h4] at h3
        exact (Option.some.inj h3).symm
      refine ⟨y, hy, ek, ?_⟩
      have h5 := (h2.sound y hyr).1
      rw [ek] at h5
      exact at_same h5 hat ((place y hyr x hx ek).1 hyx).2
    · rintro ⟨x, hx, rfl, rfl⟩
      have h3 := hR x hx
      refine ⟨x.path, (h2.sound x h3.1).1, (h2.sound x h3.1).2, fun q w hq hu => ?_⟩
      obtain ⟨y, hy, rfl, e, _⟩ := h2.complete q _ w hq hu
      rcases h3.2 y hy e with h | h
      · exact .inl h
      · exact .inr ⟨h.1, h.2.symm⟩
  · intro m hm
    unfold visible
    rw [h2.cands m hm []]
    simp only
    rw [List.filter_map, firsts_map, List.map_map]
    rfl

end Thema.GoJson

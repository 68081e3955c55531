import Verif.Lemmas.OGenFile

/-!
# The Go file for tame components
-/

namespace Thema.OGen

open Thema.GoTypes Thema.GoJson

variable {U : Uni}

/-! ### Rewritings that do nothing -/

mutual
theorem iterFs_id {fn : Str → Str} : ∀ fs : GFs, (∀ n ∈ refsFs fs, fn n = n) → iterFs fn fs = fs
  | .nil, _ => rfl
  | .cons f t r, h => by
    rw [refsFs] at h
    rw [iterFs, iterField_id t (fun n hn => h n (List.mem_append_left _ hn)),
      iterFs_id r (fun n hn => h n (List.mem_append_right _ hn))]
theorem iterField_id {fn : Str → Str} : ∀ t : GT, (∀ n ∈ refs t, fn n = n) → iterField fn t = t
  | .ident n, h => by rw [iterField, h n (by simp [refs])]
  | .sel p n, h => rfl
  | .arr e, h => by rw [iterField, iterArr_id e (fun n hn => h n hn)]
  | .map k v, h => by
    rw [iterField, iterMap_id v (fun n hn => h n (by rw [refs]; exact List.mem_append_right _ hn))]
  | .struct fs, h => by rw [iterField, iterFs_id fs (fun n hn => h n hn)]
  | .star (.ident n), h => by rw [iterField, h n (by simp [refs])]
  | .star (.arr e), h => by rw [iterField, iterArr_id e (fun n hn => h n hn)]
  | .star (.map k v), h => by
    rw [iterField, iterMap_id v (fun n hn => h n (by
      rw [refs, refs]; exact List.mem_append_right _ hn))]
  | .star (.struct fs), h => by rw [iterField, iterFs_id fs (fun n hn => h n hn)]
  | .star (.sel p n), h => rfl
  | .star (.star t), h => rfl
theorem iterMap_id {fn : Str → Str} : ∀ t : GT, (∀ n ∈ refs t, fn n = n) → iterMap fn t = t
  | .ident n, h => by rw [iterMap, h n (by simp [refs])]
  | .arr e, h => by rw [iterMap, iterArr_id e (fun n hn => h n hn)]
  | .map k v, h => by
    rw [iterMap, iterMap_id v (fun n hn => h n (by rw [refs]; exact List.mem_append_right _ hn))]
  | .sel p n, h => rfl
  | .star t, h => rfl
  | .struct fs, h => rfl
theorem iterArr_id {fn : Str → Str} : ∀ t : GT, (∀ n ∈ refs t, fn n = n) → iterArr fn t = t
  | .ident n, h => by rw [iterArr, h n (by simp [refs])]
  | .arr e, h => by rw [iterArr, iterArr_id e (fun n hn => h n hn)]
  | .struct fs, h => by rw [iterArr, iterFs_id fs (fun n hn => h n hn)]
  | .map k v, h => rfl
  | .sel p n, h => rfl
  | .star t, h => rfl
end

theorem iterTop_id {fn : Str → Str} (t : GT) (h : ∀ n ∈ refs t, fn n = n) : iterTop fn t = t := by
  cases t with
  | ident n => rfl
  | sel p n => rfl
  | star t => rfl
  | arr e => rw [iterTop, iterArr_id e (fun n hn => h n hn)]
  | map k v =>
    rw [iterTop, iterMap_id v (fun n hn => h n (by rw [refs]; exact List.mem_append_right _ hn))]
  | struct fs => rw [iterTop, iterFs_id fs (fun n hn => h n hn)]

theorem visitField_id (t : GT) (h : ∀ n ∈ refs t, ren n = n) : visitField t = t := by
  unfold visitField
  split
  · rename_i n; rw [h n (by simp [refs])]
  · rename_i n; rw [h n (by simp [refs])]
  · rename_i e; rw [iterArr_id e (fun n hn => h n hn)]
  · rename_i k v
    rw [iterMap_id v (fun n hn => h n (by rw [refs]; exact List.mem_append_right _ hn))]
  · rfl

mutual
theorem visit_id : ∀ t : GT, (∀ n ∈ refs t, ren n = n) → visit t = t
  | .ident n, h => rfl
  | .sel p n, h => rfl
  | .star t, h => by rw [visit, visit_id t (fun n hn => h n hn)]
  | .arr e, h => by rw [visit, visit_id e (fun n hn => h n hn)]
  | .map k v, h => by
    rw [refs] at h
    rw [visit, visit_id k (fun n hn => h n (List.mem_append_left _ hn)),
      visit_id v (fun n hn => h n (List.mem_append_right _ hn))]
  | .struct fs, h => by rw [visit, visitFs_id fs (fun n hn => h n hn)]
theorem visitFs_id : ∀ fs : GFs, (∀ n ∈ refsFs fs, ren n = n) → visitFs fs = fs
  | .nil, h => rfl
  | .cons f t r, h => by
    rw [refsFs] at h
    have ht : ∀ n ∈ refs t, ren n = n := fun n hn => h n (List.mem_append_left _ hn)
    rw [visitFs, visit_id t ht, visitField_id t ht,
      visitFs_id r (fun n hn => h n (List.mem_append_right _ hn))]
end

mutual
theorem refs_dep (all : Bool) : ∀ t : GT, refs (dep all t) = refs t
  | .ident _ => rfl
  | .sel _ _ => rfl
  | .star t => by rw [dep, refs, refs, refs_dep all t]
  | .arr e => by rw [dep, refs, refs, refs_dep all e]
  | .map k v => by rw [dep, refs, refs, refs_dep all k, refs_dep all v]
  | .struct fs => by rw [dep, refs, refs, refs_depFs all fs]
theorem refs_depField (all : Bool) : ∀ t : GT, refs (depField all t) = refs t
  | .ident _ => rfl
  | .sel _ _ => rfl
  | .arr e => by rw [depField, refs, refs, refs_dep all e]
  | .map k v => by rw [depField, refs, refs, refs_dep all k, refs_dep all v]
  | .struct fs => by rw [depField, refs, refs, refs_depFs all fs]
  | .star (.arr e) => by rw [depField, refs, refs, refs, refs_dep all e]
  | .star (.map k v) => by rw [depField, refs, refs, refs, refs_dep all k, refs_dep all v]
  | .star (.ident n) => by cases all <;> rfl
  | .star (.sel p n) => by cases all <;> rfl
  | .star (.star t) => by
    cases all
    · rw [depField, if_neg (by simp), refs, refs, refs, refs, refs_dep false t]
    · rw [depField, if_pos rfl, refs, refs, refs, refs_dep true t]
  | .star (.struct fs) => by
    cases all
    · rw [depField, if_neg (by simp), refs, refs, refs, refs, refs_depFs false fs]
    · rw [depField, if_pos rfl, refs, refs, refs, refs_depFs true fs]
theorem refs_depFs (all : Bool) : ∀ fs : GFs, refsFs (depFs all fs) = refsFs fs
  | .nil => rfl
  | .cons n t r => by rw [depFs, refsFs, refsFs, refs_depField all t, refs_depFs all r]
end

theorem ren_of_not_mem {n : Str} (h : '_' ∉ n) : ren n = n := by
  unfold ren
  rw [List.filter_eq_self]
  intro c hc
  simp only [bne_iff_ne, ne_eq]
  rintro rfl
  exact h hc

/-- A declaration that the rewritings leave alone. -/
def Inert : Decl → Prop
  | .typ d n t => unnamed d = false ∧ d ≠ [] ∧ '_' ∉ n ∧ ∀ m ∈ refs t, '_' ∉ m
  | .func _ _ => False
  | .consts _ => True

theorem scan_inert : ∀ (ds : List Decl) (raw : List Str), (∀ d ∈ ds, Inert d) →
    scan ds raw [] = .ok []
  | [], _, _ => rfl
  | .typ d n t :: ds, raw, h => by
    rw [scan, scan_inert ds _ fun x hx => h x (List.mem_cons_of_mem _ hx)]
  | .func o f :: ds, raw, h => (h _ (List.mem_cons_self ..)).elim
  | .consts ts :: ds, raw, h => by
    rw [scan, scan_inert ds _ fun x hx => h x (List.mem_cons_of_mem _ hx)]

theorem sweep_inert : ∀ (ds : List Decl) (first : Bool), (∀ d ∈ ds, Inert d) →
    sweep [] first ds = .ok ds
  | [], first, _ => by cases first <;> rfl
  | .typ d n t :: ds, first, h => by
    have hd := h _ (List.mem_cons_self ..)
    rw [sweep.eq_def]
    dsimp only
    rw [if_neg (by simp), if_neg (by simp [hd.1]),
      sweep_inert ds _ fun x hx => h x (List.mem_cons_of_mem _ hx)]
    simp only [Res.bind]
    rw [iterTop_id t (fun m _ => by simp [rawName])]
  | .func o f :: ds, first, h => (h _ (List.mem_cons_self ..)).elim
  | .consts ts :: ds, first, h => by
    rw [sweep, sweep_inert ds _ fun x hx => h x (List.mem_cons_of_mem _ hx)]
    rfl

theorem fixRawData_inert {ds : List Decl} (h : ∀ d ∈ ds, Inert d) : fixRawData ds = .ok ds := by
  unfold fixRawData
  rw [scan_inert ds [] h]
  exact sweep_inert ds false h

theorem fixUnderscores_inert {replace : Str → Str} : ∀ {ds : List Decl}, (∀ d ∈ ds, Inert d) →
    fixUnderscores replace ds = .ok ds
  | [], _ => rfl
  | .typ d n t :: ds, h => by
    have hd := h _ (List.mem_cons_self ..)
    rw [fixUnderscores, fixUnderscores_inert fun x hx => h x (List.mem_cons_of_mem _ hx)]
    obtain ⟨_, h2, h3, h4⟩ := hd
    have hr : ∀ m ∈ refs t, ren m = m := fun m hm => ren_of_not_mem (h4 m hm)
    cases d with
    | nil => exact absurd rfl h2
    | cons a b =>
      rw [usDecl, renDoc, if_neg h3, ren_of_not_mem h3, iterTop_id t hr, visit_id t hr]
      rfl
  | .func o f :: ds, h => (h _ (List.mem_cons_self ..)).elim
  | .consts ts :: ds, h => by
    rw [fixUnderscores, fixUnderscores_inert fun x hx => h x (List.mem_cons_of_mem _ hx)]
    rfl

/-! ### Characters of names -/

theorem LD.not_mem (L : UniLaws U) {s : Str} (h : LD U s) {c : Char} (h1 : c.toNat < 128)
    (h2 : c.isAlphanum = false) : c ∉ s := by
  intro hc
  rcases h c hc with hl | hd
  · have := L.letter_alpha c h1 hl
    simp [Char.isAlphanum, this] at h2
  · have := L.other c h1 h2
    simp only [kept, Bool.or_eq_false_iff] at this
    rw [this.2] at hd
    cases hd

theorem typeName_no_us (L : UniLaws U) (n : Str) : '_' ∉ typeName U n :=
  (typeName_ld L n).not_mem L (by decide) (by decide)

theorem mem_intercalate {sep : Str} {c : Char} : ∀ {l : List Str}, c ∈ sep.intercalate l →
    c ∈ sep ∨ ∃ s ∈ l, c ∈ s
  | [], h => by simp at h
  | [a], h => by simp at h; exact .inr ⟨a, by simp, h⟩
  | a :: b :: l, h => by
    rw [List.intercalate_cons_cons, List.mem_append, List.mem_append] at h
    rcases h with (h | h) | h
    · exact .inr ⟨a, by simp, h⟩
    · exact .inl h
    · rcases mem_intercalate (l := b :: l) h with h | ⟨s, hs, h⟩
      · exact .inl h
      · exact .inr ⟨s, List.mem_cons_of_mem _ hs, h⟩

theorem camel_ld (L : UniLaws U) (s : Str) : LD U (camel U s) := by
  rw [camel_eq L]; exact camelGo_ld L _ _

theorem jsonName_no_space (L : UniLaws U) (p : List Str) : ' ' ∉ jsonName U p := by
  intro h
  rcases mem_intercalate h with h | ⟨s, hs, h⟩
  · exact absurd h (by decide)
  · obtain ⟨n, _, rfl⟩ := List.mem_map.1 hs
    exact (camel_ld L n).not_mem L (by decide) (by decide) h

theorem jsonName_ne_nil (c q : Str) (p : List Str) : jsonName U (c :: q :: p) ≠ [] := by
  unfold jsonName
  rw [List.map_cons, List.map_cons, List.intercalate_cons_cons]
  simp

theorem Cased.good {n : Str} (h : Cased U n) : GoodName U n := by
  obtain ⟨⟨c, r, rfl, h⟩, _⟩ := h
  refine .inr (.inr (.inr ⟨[], c, r, rfl, (fun x hx => by cases hx), ?_⟩))
  rcases h with h | h
  · exact .inl h
  · exact .inr ⟨h.1, h.2, .inl rfl⟩

/-- The name of an enumeration below a component. -/
theorem enum_exported (L : UniLaws U) {c : Str} (h : Cased U c) (p : List Str) :
    Exported U (typeName U (pathName U (c :: p))) := by
  obtain ⟨⟨x, r, rfl, hx⟩, _⟩ := h
  have hk : kept U x = true := by
    rcases hx with h | h
    · simp [kept, h]
    · simp [kept, h.1]
  have hc : ∃ y s, camel U (x :: r) = y :: s ∧ U.isUpper y = true := by
    refine ⟨img U true x, camelGo U false r, by rw [camel_eq L, camelGo_kept L hk], ?_⟩
    unfold img
    rcases hx with h | h
    · simp [L.upper_not_lower x h, h]
    · simp [h.1, h.2]
  obtain ⟨y, s, hy, hu⟩ := hc
  have : ∃ s', pathName U ((x :: r) :: p) = y :: s' := by
    unfold pathName
    cases p with
    | nil => exact ⟨s, by simp [hy]⟩
    | cons q p => exact ⟨_, by rw [List.map_cons, List.map_cons, List.intercalate_cons_cons, hy]; rfl⟩
  obtain ⟨s', hs⟩ := this
  rw [hs, exported_iff L]
  exact .inr (.inr (.inr ⟨[], y, s', rfl, (fun x hx => by cases hx), .inl hu⟩))

theorem exported_not_basic (L : UniLaws U) {n : Str} (h : Exported U n) : n ∉ basicTypes := by
  intro hm
  obtain ⟨c, r, rfl, hu⟩ := h
  have k : ∀ s ∈ basicTypes, (match s with | [] => false | c :: _ => c.isLower) = true := by decide
  have hl := L.ascii_lower c (k _ hm)
  rw [L.upper_not_lower c hu] at hl
  cases hl

/-! ### The definitions of a file -/

theorem typesFor_spec : ∀ {cs : List (Str × OS)} {ts : List TD}, typesFor U cs = .ok ts →
    (∀ td ∈ ts, ∃ n s g, (n, s) ∈ cs ∧ gen U [n] s = .ok g ∧
      (td = g.td (typeName U n) n ∨ td ∈ g.defs)) ∧
    (∀ n s, (n, s) ∈ cs → ∃ g, gen U [n] s = .ok g ∧ g.td (typeName U n) n ∈ ts ∧
      ∀ td ∈ g.defs, td ∈ ts)
  | [], ts, h => by
    rw [typesFor] at h; injection h with h; subst h
    exact ⟨(fun td h => by cases h), (fun n s h => by cases h)⟩
  | (n, s) :: cs, ts, h => by
    rw [typesFor] at h
    obtain ⟨g, hg, h⟩ := bind_ok h
    obtain ⟨ts', hts, h⟩ := bind_ok h
    injection h with h
    subst h
    have ih := typesFor_spec hts
    constructor
    · intro td htd
      rcases List.mem_cons.1 htd with rfl | htd
      · exact ⟨n, s, g, List.mem_cons_self .., hg, .inl rfl⟩
      · rcases List.mem_append.1 htd with htd | htd
        · exact ⟨n, s, g, List.mem_cons_self .., hg, .inr htd⟩
        · obtain ⟨n', s', g', h1, h2, h3⟩ := ih.1 td htd
          exact ⟨n', s', g', List.mem_cons_of_mem _ h1, h2, h3⟩
    · intro n' s' hm
      rcases List.mem_cons.1 hm with hm | hm
      · injection hm with h1 h2
        subst h1 h2
        exact ⟨g, hg, List.mem_cons_self .., fun td htd =>
          List.mem_cons_of_mem _ (List.mem_append_left _ htd)⟩
      · obtain ⟨g', h1, h2, h3⟩ := ih.2 n' s' hm
        exact ⟨g', h1, List.mem_cons_of_mem _ (List.mem_append_right _ h2), fun td htd =>
          List.mem_cons_of_mem _ (List.mem_append_right _ (h3 td htd))⟩

theorem dedupe_spec : ∀ {ts seen ts' : List TD}, dedupe seen ts = .ok ts' →
    ts'.Sublist ts ∧ (∀ t ∈ ts, ∃ p ∈ seen ++ ts', p.name = t.name ∧ p.src = t.src) ∧
    (ts'.map (·.name)).Nodup ∧ ∀ t ∈ ts', ∀ p ∈ seen, p.name ≠ t.name
  | [], seen, ts', h => by
    rw [dedupe] at h; injection h with h; subst h
    exact ⟨.slnil, (fun t h => by cases h), by simp, (fun t h => by cases h)⟩
  | t :: ts, seen, ts', h => by
    rw [dedupe] at h
    split at h
    · rename_i p hp
      split at h
      · rename_i hs
        have ih := dedupe_spec h
        refine ⟨ih.1.cons _, ?_, ih.2.2⟩
        intro u hu
        rcases List.mem_cons.1 hu with rfl | hu
        · exact ⟨p, List.mem_append_left _ (List.mem_of_find?_eq_some hp),
            by simpa using List.find?_some hp, hs⟩
        · exact ih.2.1 u hu
      · cases h
    · rename_i hn
      obtain ⟨r, hr, h⟩ := bind_ok h
      injection h with h
      subst h
      have ih := dedupe_spec hr
      refine ⟨ih.1.cons_cons _, ?_, ?_, ?_⟩
      · intro u hu
        rcases List.mem_cons.1 hu with rfl | hu
        · exact ⟨_, List.mem_append_right _ (List.mem_cons_self ..), rfl, rfl⟩
        · obtain ⟨p, hp, h⟩ := ih.2.1 u hu
          refine ⟨p, ?_, h⟩
          simpa using hp
      · rw [List.map_cons, List.nodup_cons]
        refine ⟨?_, ih.2.2.1⟩
        intro hm
        obtain ⟨u, hu, he⟩ := List.mem_map.1 hm
        exact ih.2.2.2 u hu t (List.mem_append_right _ (List.mem_singleton_self _)) he.symm
      · intro u hu p hp
        rcases List.mem_cons.1 hu with rfl | hu
        · have := List.find?_eq_none.1 hn p hp
          simpa using this
        · exact ih.2.2.2 u hu p (List.mem_append_left _ hp)

theorem PrimT.unique {k : Kind} {f x y : Str} (hx : PrimT k f x) (hy : PrimT k f y) : x = y := by
  cases hx with
  | string _ => cases hy; rfl
  | integer h =>
    cases hy with
    | integer _ => rfl
    | int h' =>
      refine absurd ?_ h'
      simp only [List.map_cons, List.map_nil, List.mem_cons, List.not_mem_nil, or_false] at h ⊢
      rcases h with h | h | h | h | h | h | h | h | h <;> simp [h]
  | int h =>
    cases hy with
    | int _ => rfl
    | integer h' =>
      refine absurd ?_ h
      simp only [List.map_cons, List.map_nil, List.mem_cons, List.not_mem_nil, or_false] at h' ⊢
      rcases h' with h | h | h | h | h | h | h | h | h <;> simp [h]
  | double =>
    cases hy with
    | double => rfl
    | float h => exact absurd h (by decide)
  | float h =>
    cases hy with
    | double => exact absurd h (by decide)
    | float _ => rfl
  | bool => cases hy; rfl

/-- The schema of a component that has the source of a simple type. -/
theorem gen_src {n : Str} {s : OS} {g : GSch} {k : Kind} {f : Str} {e : List Str}
    {comps : List (Str × OS)} (ht : Tame U comps s) (h : gen U [n] s = .ok g)
    (hs : g.src = some (.prim k f e)) : ∃ x, PrimT k f x ∧ g.typeDecl = .ident x := by
  cases s with
  | ref m => rw [gen] at h; injection h with h; subst h; cases hs
  | prim k' f' e' =>
    obtain ⟨x, hx, hp⟩ := primType_tame ht
    rw [gen, genPrim, hp] at h
    simp only [Res.bind, List.length_singleton, Nat.lt_irrefl, decide_false, Bool.and_false,
      Bool.false_eq_true, if_false] at h
    injection h with h
    subst h
    injection hs with hs
    injection hs with h1 h2 h3
    subst h1 h2 h3
    exact ⟨x, hx, rfl⟩
  | arr i =>
    rw [gen] at h
    obtain ⟨a, ha, h⟩ := bind_ok h
    injection h with h
    subst h
    cases hs
  | inner => rw [Tame] at ht; exact ht.elim
  | obj typed allOf ps a es =>
    rw [gen] at h
    dsimp only at h
    split at h
    · injection h with h; subst h; cases hs
    · obtain ⟨ga, hga, h⟩ := bind_ok h
      split at h
      · injection h with h; subst h; cases hs
      · obtain ⟨gps, hgps, h⟩ := bind_ok h
        obtain ⟨ges, hges, h⟩ := bind_ok h
        injection h with h; subst h; cases hs

theorem nodup_map_inj {α β : Type} {f : α → β} : ∀ {l : List α}, (l.map f).Nodup → ∀ {a b : α},
    a ∈ l → b ∈ l → f a = f b → a = b
  | [], _, a, b, ha, _, _ => by cases ha
  | x :: l, h, a, b, ha, hb, he => by
    rw [List.map_cons, List.nodup_cons] at h
    rcases List.mem_cons.1 ha with rfl | ha' <;> rcases List.mem_cons.1 hb with rfl | hb'
    · rfl
    · exact absurd (he ▸ List.mem_map_of_mem hb') h.1
    · exact absurd (he ▸ List.mem_map_of_mem ha') h.1
    · exact nodup_map_inj h.2 ha' hb' he

/-- Definitions with the same name and source are the same but for their comments. -/
theorem same_decl {comps : List (Str × OS)} (ht : TameAll U comps) {ts : List TD}
    (h : typesFor U comps = .ok ts) {t p : TD} (hT : t ∈ ts) (hP : p ∈ ts)
    (hn : p.name = t.name) (hs : p.src = t.src) : p.decl = t.decl := by
  have sp := (typesFor_spec h).1
  obtain ⟨n, s, g, h1, h2, h3⟩ := sp t hT
  obtain ⟨n', s', g', h1', h2', h3'⟩ := sp p hP
  have hg := gen_good s (ht.tame n s h1) h2
  have hg' := gen_good s' (ht.tame n' s' h1') h2'
  rcases h3 with rfl | h3
  · rcases h3' with rfl | h3'
    · have : (n', s') = (n, s) := nodup_map_inj (f := fun c : Str × OS => typeName U c.1)
        ht.distinct h1' h1 hn
      injection this with e1 e2
      subst e1 e2
      rw [h2] at h2'
      injection h2' with h2'
      subst h2'
      rfl
    · obtain ⟨_, _, k, f, e, x, hx, rfl⟩ := hg'.defs p h3'
      obtain ⟨y, hy, he⟩ := gen_src (ht.tame n s h1) h2 (show g.src = some (.prim k f e) from hs.symm)
      show GT.ident x = g.typeDecl
      rw [he, hx.unique hy]
  · obtain ⟨_, _, k, f, e, x, hx, rfl⟩ := hg.defs t h3
    rcases h3' with rfl | h3'
    · obtain ⟨y, hy, he⟩ := gen_src (ht.tame n' s' h1') h2' (show g'.src = some (.prim k f e) from hs)
      show g'.typeDecl = GT.ident x
      rw [he, hx.unique hy]
    · obtain ⟨_, _, k', f', e', y, hy, rfl⟩ := hg'.defs p h3'
      injection hs with hs
      injection hs with e1 e2 e3
      subst e1 e2 e3
      show GT.ident y = GT.ident x
      rw [hx.unique hy]

/-! ### The file -/

theorem lookup_isSome_mem {comps : List (Str × OS)} {m : Str} (h : (comps.lookup m).isSome = true) :
    ∃ s, (m, s) ∈ comps := by
  induction comps with
  | nil => cases h
  | cons c cs ih =>
    obtain ⟨n, s⟩ := c
    rw [List.lookup_cons] at h
    cases he : (m == n) with
    | true => have := eq_of_beq he; subst this; exact ⟨s, List.mem_cons_self ..⟩
    | false =>
      rw [he] at h
      obtain ⟨s', hs⟩ := ih h
      exact ⟨s', List.mem_cons_of_mem _ hs⟩

theorem not_unnamed {n json : Str} (h1 : json ≠ []) (h2 : json.getLast? ≠ some ' ') :
    unnamed ["// ".toList ++ n ++ " defines model for ".toList ++ json ++ ".".toList] = false := by
  rcases List.eq_nil_or_concat json with rfl | ⟨j, c, rfl⟩
  · exact absurd rfl h1
  · have hc : c ≠ ' ' := by
      rintro rfl
      simp at h2
    rw [unnamed]
    simp only [List.concat_eq_append, List.reverse_append]
    show List.isPrefixOf ('.' :: ' ' :: "rof ledom senifed".toList) ('.' :: c :: _) = false
    simp [List.isPrefixOf, hc.symm]

/-- What holds of the definitions for tame components. -/
theorem td_ok (L : UniLaws U) {comps : List (Str × OS)} (ht : TameAll U comps) {ts : List TD}
    (h : typesFor U comps = .ok ts) {t : TD} (hT : t ∈ ts) :
    t.addl = false ∧ t.union = false ∧ unnamed t.doc = false ∧ Exported U t.name ∧ '_' ∉ t.name ∧
      ∀ m ∈ refs t.decl, m ∈ basicTypes ∨ ∃ u ∈ ts, u.name = m := by
  have sp := typesFor_spec h
  obtain ⟨n, s, g, h1, h2, h3⟩ := sp.1 t hT
  have hc := ht.names n s h1
  have hg := gen_good s (ht.tame n s h1) h2
  rcases h3 with rfl | h3
  · refine ⟨hg.addl, hg.union, ?_, ?_, typeName_no_us L n, ?_⟩
    · refine not_unnamed ?_ hc.2
      obtain ⟨⟨c, r, rfl, _⟩, _⟩ := hc
      exact List.cons_ne_nil _ _
    · exact (exported_iff L n).2 (Cased.good hc)
    · intro m hm
      rcases hg.refs m hm with h | ⟨k, hk, rfl⟩ | ⟨td, htd, hn⟩
      · exact .inl h
      · obtain ⟨s', hs'⟩ := lookup_isSome_mem hk
        obtain ⟨g', _, hm', _⟩ := sp.2 k s' hs'
        exact .inr ⟨_, hm', rfl⟩
      · obtain ⟨g', hg', _, hm'⟩ := sp.2 n s h1
        rw [h2] at hg'
        injection hg' with hg'
        subst hg'
        exact .inr ⟨td, hm' td htd, hn⟩
  · obtain ⟨q, p, k, f, e, x, hx, rfl⟩ := hg.defs t h3
    refine ⟨rfl, rfl, ?_, enum_exported L hc _, typeName_no_us L _, ?_⟩
    · refine not_unnamed (jsonName_ne_nil _ _ _) ?_
      intro hl
      exact jsonName_no_space L _ (List.mem_of_getLast? hl)
    · intro m hm
      simp only [refs, List.mem_singleton] at hm
      subst hm
      exact .inl hx.basic

/-- The file: the constants and the types. -/
theorem goTypes_tame (L : UniLaws U) {replace : Str → Str} {noPtr : Bool} {comps : List (Str × OS)}
    {ds : List Decl} (ht : TameAll U comps) (h : goTypes U replace noPtr comps = .ok ds) :
    ∃ ts ts', typesFor U comps = .ok ts ∧ dedupe [] ts = .ok ts' ∧
      ds = .consts [] :: (((firstTDs [] ts).filter (fun t => !t.enum.isEmpty)).map
          (fun t => Decl.consts [t.name])
        ++ ts'.map (fun t => Decl.typ t.doc t.name (dep noPtr t.decl))) := by
  rw [goTypes] at h
  obtain ⟨d0, hd0, h⟩ := bind_ok h
  rw [file] at hd0
  obtain ⟨ts, hts, hd0⟩ := bind_ok hd0
  obtain ⟨ts', hts', hd0⟩ := bind_ok hd0
  injection hd0 with hd0
  have hfirst : ∀ (l : List TD) (seen : List Str), ∀ t ∈ firstTDs seen l, t ∈ l := by
    intro l
    induction l with
    | nil => intro seen t ht; cases ht
    | cons a l ih =>
      intro seen t ht
      rw [firstTDs] at ht
      split at ht
      · exact List.mem_cons_of_mem _ (ih _ t ht)
      · rcases List.mem_cons.1 ht with rfl | ht
        · exact List.mem_cons_self ..
        · exact List.mem_cons_of_mem _ (ih _ t ht)
  have hno1 : ((firstTDs [] ts).filter (·.addl)) = [] := by
    rw [List.filter_eq_nil_iff]
    intro t htd
    rw [(td_ok L ht hts (hfirst _ _ t htd)).1]
    simp
  have hno2 : ts.filter (·.union) = [] := by
    rw [List.filter_eq_nil_iff]
    intro t htd
    rw [(td_ok L ht hts htd).2.1]
    simp
  rw [hno1, hno2, List.flatMap_nil, List.map_nil, List.append_nil, List.append_nil] at hd0
  have hmap : d0.map (depDecl noPtr) = .consts [] ::
      (((firstTDs [] ts).filter (fun t => !t.enum.isEmpty)).map (fun t => Decl.consts [t.name])
        ++ ts'.map (fun t => Decl.typ t.doc t.name (dep noPtr t.decl))) := by
    rw [← hd0, List.map_cons, List.map_append, List.map_map, List.map_map]
    rfl
  have hin : ∀ d ∈ d0.map (depDecl noPtr), Inert d := by
    intro d hd
    rw [hmap] at hd
    rcases List.mem_cons.1 hd with rfl | hd
    · trivial
    · rcases List.mem_append.1 hd with hd | hd
      · obtain ⟨t, _, rfl⟩ := List.mem_map.1 hd
        trivial
      · obtain ⟨t, htm, rfl⟩ := List.mem_map.1 hd
        have hok := td_ok L ht hts ((dedupe_spec hts').1.subset htm)
        refine ⟨hok.2.2.1, List.cons_ne_nil _ _, hok.2.2.2.2.1, ?_⟩
        intro m hm
        rw [refs_dep] at hm
        rcases hok.2.2.2.2.2 m hm with h | ⟨u, hu, rfl⟩
        · have : ∀ s ∈ basicTypes, '_' ∉ s := by decide
          exact this m h
        · exact (td_ok L ht hts hu).2.2.2.2.1
  rw [fixRawData_inert hin] at h
  simp only [Res.bind] at h
  rw [fixUnderscores_inert hin] at h
  injection h with h
  exact ⟨ts, ts', hts, hts', by rw [← h, hmap]⟩

theorem declType_consts : ∀ (cs : List Decl), (∀ d ∈ cs, ∃ l, d = .consts l) → ∀ (ds : List Decl)
    (n : Str), declType (cs ++ ds) n = declType ds n
  | [], _, _, _ => rfl
  | c :: cs, h, ds, n => by
    obtain ⟨l, rfl⟩ := h c (List.mem_cons_self ..)
    exact declType_consts cs (fun d hd => h d (List.mem_cons_of_mem _ hd)) ds n

theorem declType_typs (noPtr : Bool) : ∀ (ts : List TD), (ts.map (·.name)).Nodup → ∀ t ∈ ts,
    declType (ts.map fun t => Decl.typ t.doc t.name (dep noPtr t.decl)) t.name =
      some (dep noPtr t.decl)
  | [], _, t, h => by cases h
  | u :: ts, hn, t, h => by
    rw [List.map_cons, declType]
    rw [List.map_cons, List.nodup_cons] at hn
    rcases List.mem_cons.1 h with rfl | h
    · rw [if_pos rfl]
    · rw [if_neg, declType_typs noPtr ts hn.2 t h]
      intro he
      exact hn.1 (he ▸ List.mem_map_of_mem (f := (·.name)) h)

theorem declType_some (noPtr : Bool) {n : Str} {t : GT} : ∀ (ts : List TD),
    declType (ts.map fun t => Decl.typ t.doc t.name (dep noPtr t.decl)) n = some t →
    ∃ u ∈ ts, t = dep noPtr u.decl
  | [], h => by cases h
  | u :: ts, h => by
    rw [List.map_cons, declType] at h
    split at h
    · injection h with h
      exact ⟨u, List.mem_cons_self .., h.symm⟩
    · obtain ⟨w, hw, h⟩ := declType_some noPtr ts h
      exact ⟨w, List.mem_cons_of_mem _ hw, h⟩

theorem declType_none (noPtr : Bool) {n : Str} : ∀ (ts : List TD), (∀ t ∈ ts, t.name ≠ n) →
    declType (ts.map fun t => Decl.typ t.doc t.name (dep noPtr t.decl)) n = none
  | [], _ => rfl
  | u :: ts, h => by
    rw [List.map_cons, declType, if_neg (h u (List.mem_cons_self ..)),
      declType_none noPtr ts fun t ht => h t (List.mem_cons_of_mem _ ht)]

/-- The types that are declared. -/
theorem declType_tame (L : UniLaws U) {replace : Str → Str} {noPtr : Bool}
    {comps : List (Str × OS)} {ds : List Decl} (ht : TameAll U comps)
    (h : goTypes U replace noPtr comps = .ok ds) :
    (∀ n ∈ basicTypes, declType ds n = none) ∧
    (∀ n t, declType ds n = some t → ∀ m ∈ refs t, m ∈ basicTypes ∨ ∃ u, declType ds m = some u) ∧
    ∀ n s, (n, s) ∈ comps → ∃ g, gen U [n] s = .ok g ∧
      declType ds (typeName U n) = some (dep noPtr g.typeDecl) ∧
      ∀ td ∈ g.defs, declType ds td.name = some (dep noPtr td.decl) := by
  obtain ⟨ts, ts', hts, hts', rfl⟩ := goTypes_tame L ht h
  have sp := typesFor_spec hts
  have dd := dedupe_spec hts'
  have base : ∀ n, declType (.consts [] :: (((firstTDs [] ts).filter (fun t => !t.enum.isEmpty)).map
          (fun t => Decl.consts [t.name])
        ++ ts'.map (fun t => Decl.typ t.doc t.name (dep noPtr t.decl)))) n =
      declType (ts'.map (fun t => Decl.typ t.doc t.name (dep noPtr t.decl))) n := by
    intro n
    refine declType_consts (.consts [] :: _) ?_ _ n
    intro d hd
    rcases List.mem_cons.1 hd with rfl | hd
    · exact ⟨_, rfl⟩
    obtain ⟨t, _, rfl⟩ := List.mem_map.1 hd
    exact ⟨_, rfl⟩
  have key : ∀ t ∈ ts, declType (ts'.map (fun t => Decl.typ t.doc t.name (dep noPtr t.decl))) t.name =
      some (dep noPtr t.decl) := by
    intro t htm
    obtain ⟨p, hp, hn, hs⟩ := dd.2.1 t htm
    rw [List.nil_append] at hp
    rw [← same_decl ht hts htm (dd.1.subset hp) hn hs, ← hn]
    exact declType_typs noPtr ts' dd.2.2.1 p hp
  constructor
  · intro n hn
    rw [base]
    refine declType_none noPtr ts' fun t htm he => ?_
    have := (td_ok L ht hts (dd.1.subset htm)).2.2.2.1
    rw [he] at this
    exact exported_not_basic L this hn
  constructor
  · intro n t hn m hm
    rw [base] at hn
    obtain ⟨td, htd, rfl⟩ := declType_some noPtr ts' hn
    rw [refs_dep] at hm
    rcases (td_ok L ht hts (dd.1.subset htd)).2.2.2.2.2 m hm with h | ⟨u, hu, rfl⟩
    · exact .inl h
    · exact .inr ⟨_, by rw [base]; exact key u hu⟩
  · intro n s hm
    obtain ⟨g, hg, h1, h2⟩ := sp.2 n s hm
    refine ⟨g, hg, ?_, fun td htd => ?_⟩
    · rw [base]; exact key _ h1
    · rw [base]; exact key _ (h2 td htd)

end Thema.OGen

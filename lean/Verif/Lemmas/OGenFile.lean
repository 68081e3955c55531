import Verif.Spec.GoJson
import Verif.Lemmas.OGenNames

/-!
# Lemmas on the Go types generated for tame schemas
-/

namespace Thema.OGen

open Thema.GoTypes Thema.GoJson

variable {U : Uni}

theorem bind_ok {α β : Type} {r : Res α} {f : α → Res β} {b : β} (h : r.bind f = .ok b) :
    ∃ a, r = .ok a ∧ f a = .ok b := by
  cases r with
  | ok a => exact ⟨a, rfl, h⟩
  | err e => cases h
  | panic e => cases h
  | fuel => cases h

/-! ### Simple types -/

/-- The predeclared types for values that are not objects or arrays. -/
inductive PrimT : Kind → Str → Str → Prop
  | string {f} : f ∉ stringFormats → PrimT .string f "string".toList
  | integer {f} : f ∈ ["int64", "int32", "int16", "int8", "int", "uint64", "uint32", "uint16",
      "uint"].map String.toList → PrimT .integer f f
  | int {f} : f ∉ ["int64", "int32", "int16", "int8", "int", "uint64", "uint32", "uint16",
      "uint8", "uint"].map String.toList → PrimT .integer f "int".toList
  | double : PrimT .number "double".toList "float64".toList
  | float {f} : f = "float".toList ∨ f = [] → PrimT .number f "float32".toList
  | bool : PrimT .boolean [] "bool".toList

theorem PrimT.basic {k : Kind} {f x : Str} (h : PrimT k f x) : x ∈ basicTypes := by
  cases h with
  | string _ => decide
  | integer h =>
    have : ∀ f ∈ ["int64", "int32", "int16", "int8", "int", "uint64", "uint32", "uint16",
      "uint"].map String.toList, f ∈ basicTypes := by decide
    exact this _ h
  | int _ => decide
  | double => decide
  | float _ => decide
  | bool => decide

theorem primType_tame {comps : List (Str × OS)} {k : Kind} {f : Str} {e : List Str}
    (h : Tame U comps (.prim k f e)) :
    ∃ x, PrimT k f x ∧ primType k f = .ok (.ident x, false) := by
  cases k with
  | string =>
    have h : f ∉ stringFormats := h
    refine ⟨_, .string h, ?_⟩
    have hs : ∀ g : String, g.toList ∈ stringFormats → (f == g.toList) = false := by
      intro g hg
      rw [beq_eq_false_iff_ne]
      rintro rfl
      exact h hg
    unfold primType
    simp only [hs "byte" (by decide), hs "binary" (by decide), hs "email" (by decide),
      hs "date" (by decide), hs "date-time" (by decide), hs "json" (by decide),
      hs "uuid" (by decide), Bool.or_self, Bool.false_eq_true, if_false]
    rfl
  | integer =>
    have h : f ≠ "uint8".toList := h
    unfold primType
    simp only
    split
    · rename_i hc
      refine ⟨f, .integer ?_, rfl⟩
      have hm := List.contains_iff_mem.1 hc
      simp only [List.map_cons, List.map_nil, List.mem_cons, List.not_mem_nil, or_false] at hm ⊢
      rcases hm with h' | h' | h' | h' | h' | h' | h' | h' | h' | h'
      all_goals first
        | exact absurd h' h
        | simp [h']
    · rename_i hc
      exact ⟨_, .int (fun hm => hc (List.contains_iff_mem.2 hm)), rfl⟩
  | number =>
    have h : f = "double".toList ∨ f = "float".toList ∨ f = [] := h
    rcases h with rfl | rfl | rfl
    · exact ⟨_, .double, rfl⟩
    · exact ⟨_, .float (.inl rfl), rfl⟩
    · exact ⟨_, .float (.inr rfl), rfl⟩
  | boolean =>
    have h : f = [] := h
    subst h
    exact ⟨_, .bool, rfl⟩

/-! ### Generated schemas -/

/-- The definition of an enumeration below the component `c`. -/
def EnumTD (U : Uni) (c : Str) (td : TD) : Prop :=
  ∃ q p k f e x, PrimT k f x ∧ td =
    { name := typeName U (pathName U (c :: q :: p)), json := jsonName U (c :: q :: p),
      decl := .ident x, enum := e, src := some (.prim k f e) }

/-- What holds of a generated schema. -/
structure Good (U : Uni) (comps : List (Str × OS)) (c : Str) (g : GSch) : Prop where
  addl : g.addl = false
  union : g.union = false
  inner : g.inner = false
  skip : g.skipPtr = false
  refs : ∀ n ∈ GoTypes.refs g.typeDecl, n ∈ basicTypes ∨
    (∃ m, (comps.lookup m).isSome = true ∧ n = typeName U m) ∨ ∃ td ∈ g.defs, td.name = n
  defs : ∀ td ∈ g.defs, EnumTD U c td

theorem gen_prim_good {comps : List (Str × OS)} {c : Str} {path : List Str} {k : Kind} {f : Str}
    {e : List Str} {g : GSch} (ht : Tame U comps (.prim k f e))
    (h : genPrim U (c :: path) k f e = .ok g) : Good U comps c g := by
  obtain ⟨x, hx, hp⟩ := primType_tame ht
  rw [genPrim, hp] at h
  simp only [Res.bind] at h
  split at h
  · rename_i hc
    cases path with
    | nil => simp at hc
    | cons q p =>
      injection h with h
      subst h
      refine ⟨rfl, rfl, rfl, rfl, ?_, ?_⟩
      · intro n hn
        refine .inr (.inr ⟨_, List.mem_append_right _ (List.mem_append_right _ (List.mem_singleton_self _)), ?_⟩)
        simp only [GSch.named, GSch.typeDecl, refs, List.mem_singleton] at hn
        rw [hn]
        rfl
      · intro td htd
        simp only [GSch.named, GSch.defs, List.nil_append, List.mem_singleton] at htd
        subst htd
        exact ⟨q, p, k, f, e, x, hx, rfl⟩
  · injection h with h
    subst h
    refine ⟨rfl, rfl, rfl, rfl, ?_, ?_⟩
    · intro n hn
      simp only [GSch.typeDecl, refs, List.mem_singleton] at hn
      subst hn
      exact .inl hx.basic
    · intro td htd
      simp [GSch.defs] at htd

theorem refsFs_fieldsOf : ∀ (ps : List Prop'), ∀ n ∈ refsFs (fieldsOf U .nil ps), ∃ p ∈ ps,
    (p.s.inner = true ∧ n = typeName U p.name) ∨ (p.s.inner = false ∧ n ∈ refs p.s.typeDecl)
  | [], n, hn => by simp [fieldsOf, refsFs] at hn
  | p :: ps, n, hn => by
    rw [fieldsOf, refsFs, List.mem_append] at hn
    rcases hn with hn | hn
    · refine ⟨p, List.mem_cons_self .., ?_⟩
      rw [Prop'.field] at hn
      cases hi : p.s.inner with
      | true =>
        rw [hi, if_pos rfl] at hn
        exact .inl ⟨rfl, by simpa [refs] using hn⟩
      | false =>
        rw [hi, if_neg (by simp)] at hn
        dsimp only at hn
        refine .inr ⟨rfl, ?_⟩
        split at hn
        · exact hn
        · exact hn
    · obtain ⟨q, hq, h⟩ := refsFs_fieldsOf ps n hn
      exact ⟨q, List.mem_cons_of_mem _ hq, h⟩

theorem genProp_eq {path : List Str} {g : GSch} (h1 : g.addl = false) (h2 : g.union = false) :
    genProp U path g = g := by
  unfold genProp
  simp [h1, h2]

theorem genAddl_eq {path : List Str} {g : GSch} (h1 : g.addl = false) (h2 : g.union = false) :
    genAddl U path g = g := by
  unfold genAddl
  simp [h1, h2]

/-- The array for a schema without a name. -/
theorem genArr_eq {path : List Str} {src : OS} {a : GSch} (h1 : a.addl = false)
    (h2 : a.union = false) : genArr U path src a =
      { goType := .arr a.typeDecl, nested := a.nested, own := a.own, src := some src } := by
  unfold genArr
  simp [h1, h2]

/-! ### References of `allOf` -/

/-- The property for a reference of `allOf`. -/
def inn (m : Str) : Prop' := ⟨m, false, false, innerSch⟩

theorem setInner_perm {n : Str} : ∀ {l : List Prop'}, n ∉ l.map (·.name) →
    (setInner n l).Perm (inn n :: l)
  | [], _ => .refl _
  | p :: ps, h => by
    simp only [List.map_cons, List.mem_cons, not_or] at h
    rw [setInner, if_neg h.1]
    split
    · exact .refl _
    · exact ((setInner_perm h.2).cons p).trans (.swap ..)

theorem embed_perm : ∀ {ms : List Str} {l : List Prop'}, ms.Nodup →
    (∀ m ∈ ms, m ∉ l.map (·.name)) →
    (embed ms l).Perm ((ms.filter fun m => !m.contains '_').map inn ++ l)
  | [], l, _, _ => .refl _
  | m :: ms, l, hn, h => by
    have hm := h m (List.mem_cons_self ..)
    rw [embed, List.filter_cons]
    cases hu : m.contains '_' with
    | true =>
      rw [if_pos rfl, if_neg (by simp)]
      exact embed_perm (List.nodup_cons.1 hn).2 fun m' hm' => h m' (List.mem_cons_of_mem _ hm')
    | false =>
      rw [if_neg (by simp), if_pos (show (!false) = true from rfl)]
      have hs := setInner_perm hm
      have ih := embed_perm (ms := ms) (l := setInner m l) (List.nodup_cons.1 hn).2
        (fun m' hm' hc => by
          have hc := (hs.map (·.name)).mem_iff.1 hc
          rcases List.mem_cons.1 hc with hc | hc
          · have hc : m' = m := hc
            subst hc
            exact (List.nodup_cons.1 hn).1 hm'
          · exact h m' (List.mem_cons_of_mem _ hm') hc)
      refine ih.trans (((List.Perm.refl _).append hs).trans ?_)
      exact List.perm_middle

theorem genPs_names : ∀ {ps : OPs} {path : List Str} {l : List Prop'}, genPs U path ps = .ok l →
    l.map (·.name) = propNames ps
  | .nil, path, l, h => by rw [genPs] at h; injection h with h; subst h; rfl
  | .cons n r nl s ps, path, l, h => by
    rw [genPs] at h
    obtain ⟨a, ha, h⟩ := bind_ok h
    obtain ⟨l', hl, h⟩ := bind_ok h
    injection h with h
    subst h
    rw [List.map_cons, genPs_names hl]
    rfl

/-- The properties with those for the references of `allOf`. -/
theorem parts_perm {comps : List (Str × OS)} {allOf : List Str} {ps : OPs} {path : List Str}
    {l : List Prop'} (h : Parts comps allOf ps) (hl : genPs U path ps = .ok l) :
    (embed allOf l).Perm ((allOf.filter fun m => !m.contains '_').map inn ++ l) :=
  embed_perm h.1 fun m hm => by rw [genPs_names hl]; exact (h.2 m hm).1

theorem parts_nil {comps : List (Str × OS)} {ps : OPs} : Parts comps [] ps :=
  ⟨List.nodup_nil, fun m hm => by cases hm⟩

theorem hasFields_iff {allOf : List Str} {ps : OPs} :
    HasFields allOf ps ↔ ¬ (ps = .nil ∧ allOf.all (·.contains '_') = true) := by
  unfold HasFields
  constructor
  · rintro (h | ⟨m, h1, h2⟩) ⟨h3, h4⟩
    · exact h h3
    · exact h2 (by simpa using List.all_eq_true.1 h4 m h1)
  · intro h
    by_cases hp : ps = .nil
    · refine .inr ?_
      have : ¬ _ := fun e => h ⟨hp, e⟩
      rw [Bool.not_eq_true, List.all_eq_false] at this
      obtain ⟨m, h1, h2⟩ := this
      exact ⟨m, h1, by simpa using h2⟩
    · exact .inl hp

/-- A schema has fields, or neither properties nor parts. -/
theorem noProps_iff {allOf : List Str} {ps : OPs} {P : Prop}
    (h : (ps = .nil ∧ allOf = []) ∨ (HasFields allOf ps ∧ P)) :
    (ps = .nil ∧ allOf.all (·.contains '_') = true) ↔ ps = .nil ∧ allOf = [] := by
  constructor
  · intro h'
    rcases h with h | h
    · exact h
    · exact absurd h' (hasFields_iff.1 h.1)
  · rintro ⟨h1, rfl⟩
    exact ⟨h1, rfl⟩

mutual
/-- Without enumerations there are no further definitions. -/
theorem gen_noEnum {comps : List (Str × OS)} : ∀ (s : OS) {path : List Str} {g : GSch},
    Tame U comps s → NoEnum s → gen U path s = .ok g → g.defs = [] ∧ g.addl = false ∧ g.union = false
  | .ref n, path, g, _, _, h => by
    rw [gen] at h; injection h with h; subst h; exact ⟨rfl, rfl, rfl⟩
  | .prim k f e, path, g, ht, hn, h => by
    rw [NoEnum] at hn
    subst hn
    obtain ⟨x, hx, hp⟩ := primType_tame ht
    rw [gen, genPrim, hp] at h
    simp only [Res.bind, List.isEmpty_nil, Bool.not_true, Bool.false_and, Bool.false_eq_true,
      if_false] at h
    injection h with h
    subst h
    exact ⟨rfl, rfl, rfl⟩
  | .arr s, path, g, ht, hn, h => by
    rw [gen] at h
    obtain ⟨a, ha, h⟩ := bind_ok h
    rw [Tame] at ht
    rw [NoEnum] at hn
    have ih := gen_noEnum s ht hn ha
    rw [genArr_eq ih.2.1 ih.2.2] at h
    injection h with h
    subst h
    exact ⟨ih.1, rfl, rfl⟩
  | .inner, _, _, ht, _, _ => by rw [Tame] at ht; exact ht.elim
  | .obj typed allOf ps a es, path, g, ht, hn, h => by
    rw [Tame] at ht
    rw [NoEnum] at hn
    obtain ⟨hpt, rfl, hta, htp, hor, _, _⟩ := ht
    rw [gen] at h
    simp only [noProps_iff hor] at h
    split at h
    · injection h with h; subst h; exact ⟨rfl, rfl, rfl⟩
    · obtain ⟨ga, hga, h⟩ := bind_ok h
      have iha := gen_noEnumA a hta hn.2.1 hga
      split at h
      · injection h with h; subst h; exact ⟨by simpa [GSch.defs] using iha, rfl, rfl⟩
      · rename_i h1 h2
        obtain ⟨gps, hgps, h⟩ := bind_ok h
        obtain ⟨ges, hges, h⟩ := bind_ok h
        rw [genEs] at hges
        injection hges with hges
        subst hges
        have ihp := gen_noEnumPs ps htp hn.1 hgps
        injection h with h
        subst h
        refine ⟨?_, ?_, by simp⟩
        · simp only [GSch.defs, iha, List.append_nil]
          rw [List.flatMap_eq_nil_iff]
          intro p hp
          rcases List.mem_append.1 ((parts_perm hpt hgps).mem_iff.1 hp) with hp | hp
          · obtain ⟨m, _, rfl⟩ := List.mem_map.1 hp
            rfl
          · exact ihp p hp
        · simp [(hor.resolve_left fun e => h2 ⟨e, trivial⟩).2]
theorem gen_noEnumA {comps : List (Str × OS)} : ∀ (a : OAs) {path : List Str} {g : GSch},
    TameA U comps a → NoEnumA a → genA U path a = .ok g → g.own = []
  | .no, path, g, _, _, h => by rw [genA] at h; injection h with h; subst h; rfl
  | .free, path, g, _, _, h => by rw [genA] at h; injection h with h; subst h; rfl
  | .of s, path, g, ht, hn, h => by
    rw [genA] at h
    obtain ⟨a, ha, h⟩ := bind_ok h
    rw [TameA] at ht
    rw [NoEnumA] at hn
    have ih := gen_noEnum s ht.1 hn ha
    rw [genAddl_eq ih.2.1 ih.2.2] at h
    injection h with h
    subst h
    exact (List.append_eq_nil_iff.1 ih.1).2
theorem gen_noEnumPs {comps : List (Str × OS)} : ∀ (ps : OPs) {path : List Str} {l : List Prop'},
    TamePs U comps ps → NoEnumPs ps → genPs U path ps = .ok l → ∀ p ∈ l, p.s.defs = []
  | .nil, path, l, _, _, h => by
    rw [genPs] at h; injection h with h; subst h
    intro p hp; cases hp
  | .cons n r nl s ps, path, l, ht, hn, h => by
    rw [genPs] at h
    obtain ⟨a, ha, h⟩ := bind_ok h
    obtain ⟨l', hl, h⟩ := bind_ok h
    rw [TamePs] at ht
    rw [NoEnumPs] at hn
    have ih := gen_noEnum s ht.2.2.1 hn.1 ha
    have ih2 := gen_noEnumPs ps ht.2.2.2 hn.2 hl
    injection h with h
    subst h
    intro p hp
    rcases List.mem_cons.1 hp with rfl | hp
    · rw [genProp_eq ih.2.1 ih.2.2]; exact ih.1
    · exact ih2 p hp
end

theorem gen_flat {comps : List (Str × OS)} : ∀ (s : OS) {path : List Str} {g : GSch},
    Tame U comps s → FlatEnum s → gen U path s = .ok g → g.nested = [] ∧ g.addl = false ∧ g.union = false
  | .ref n, path, g, _, _, h => by
    rw [gen] at h; injection h with h; subst h; exact ⟨rfl, rfl, rfl⟩
  | .prim k f e, path, g, ht, hn, h => by
    obtain ⟨x, hx, hp⟩ := primType_tame ht
    rw [gen, genPrim, hp] at h
    simp only [Res.bind] at h
    split at h
    all_goals (injection h with h; subst h; exact ⟨rfl, rfl, rfl⟩)
  | .arr s, path, g, ht, hn, h => by
    rw [gen] at h
    obtain ⟨a, ha, h⟩ := bind_ok h
    rw [Tame] at ht
    have ih := gen_flat s ht hn ha
    rw [genArr_eq ih.2.1 ih.2.2] at h
    injection h with h
    subst h
    exact ⟨ih.1, rfl, rfl⟩
  | .inner, _, _, ht, _, _ => by rw [Tame] at ht; exact ht.elim
  | .obj typed allOf ps a es, path, g, ht, hn, h => by
    have hn' : NoEnum (.obj typed allOf ps a es) := by rw [NoEnum]; exact hn
    have := gen_noEnum _ ht hn' h
    exact ⟨(List.append_eq_nil_iff.1 this.1).1, this.2⟩

mutual
theorem gen_good {comps : List (Str × OS)} {c : Str} : ∀ (s : OS) {path : List Str} {g : GSch},
    Tame U comps s → gen U (c :: path) s = .ok g → Good U comps c g
  | .ref n, path, g, ht, h => by
    rw [gen] at h
    injection h with h
    subst h
    rw [Tame] at ht
    refine ⟨rfl, rfl, rfl, rfl, ?_, fun td htd => by simp [GSch.defs] at htd⟩
    intro m hm
    simp only [GSch.typeDecl, refs, List.mem_singleton] at hm
    exact .inr (.inl ⟨n, ht, hm⟩)
  | .prim k f e, path, g, ht, h => by rw [gen] at h; exact gen_prim_good ht h
  | .arr s, path, g, ht, h => by
    rw [gen] at h
    obtain ⟨a, ha, h⟩ := bind_ok h
    rw [Tame] at ht
    have ih := gen_good s ht ha
    rw [genArr_eq ih.addl ih.union] at h
    injection h with h
    subst h
    exact ⟨rfl, rfl, rfl, rfl, fun n hn => ih.refs n hn, ih.defs⟩
  | .inner, _, _, ht, _ => by rw [Tame] at ht; exact ht.elim
  | .obj typed allOf ps a es, path, g, ht, h => by
    rw [Tame] at ht
    obtain ⟨hpt, rfl, hta, htp, hor, _, _⟩ := ht
    rw [gen] at h
    simp only [noProps_iff hor] at h
    split at h
    · injection h with h
      subst h
      refine ⟨rfl, rfl, rfl, rfl, ?_, fun td htd => by simp [GSch.defs] at htd⟩
      intro n hn
      left
      cases typed with
      | true =>
        simp only [GSch.typeDecl, if_true, refs, id', List.mem_append, List.mem_singleton] at hn
        rcases hn with rfl | rfl <;> decide
      | false =>
        simp only [GSch.typeDecl, Bool.false_eq_true, if_false, refs, id', List.mem_singleton] at hn
        subst hn; decide
    · obtain ⟨ga, hga, h⟩ := bind_ok h
      have iha := gen_goodA a hta hga
      split at h
      · injection h with h
        subst h
        refine ⟨rfl, rfl, rfl, rfl, ?_, ?_⟩
        · intro n hn
          simp only [GSch.typeDecl, refs, id', List.mem_append, List.mem_singleton] at hn
          rcases hn with rfl | hn
          · left; decide
          · rcases iha.1.refs n hn with h | h | ⟨td, h1, h2⟩
            · exact .inl h
            · exact .inr (.inl h)
            · refine .inr (.inr ⟨td, ?_, h2⟩)
              rw [GSch.defs, iha.2] at h1
              exact h1
        · intro td htd
          exact iha.1.defs td (List.mem_append_right _ htd)
      · rename_i h1 h2
        have hano := (hor.resolve_left fun e => h2 ⟨e, trivial⟩).2
        subst hano
        rw [genA] at hga
        injection hga with hga
        subst hga
        obtain ⟨gps, hgps, h⟩ := bind_ok h
        obtain ⟨ges, hges, h⟩ := bind_ok h
        rw [genEs] at hges
        injection hges with hges
        subst hges
        have ihp := gen_goodPs ps htp hgps
        injection h with h
        subst h
        refine ⟨by simp, by simp, rfl, rfl, ?_, ?_⟩
        · intro n hn
          simp only [GSch.typeDecl, genStruct, ne_eq, not_true_eq_false, decide_false,
            Bool.false_eq_true, if_false, if_true, refs] at hn
          obtain ⟨p, hp, hn⟩ := refsFs_fieldsOf _ n hn
          rcases List.mem_append.1 ((parts_perm hpt hgps).mem_iff.1 hp) with hp' | hp'
          · obtain ⟨m, hm, rfl⟩ := List.mem_map.1 hp'
            obtain ⟨_, s, hs, _⟩ := hpt.2 m (List.mem_filter.1 hm).1
            rcases hn with ⟨_, hn⟩ | ⟨hi, _⟩
            · exact .inr (.inl ⟨m, by rw [hs]; rfl, hn⟩)
            · cases hi
          · rcases hn with ⟨hi, _⟩ | ⟨_, hn⟩
            · rw [(ihp p hp').inner] at hi; cases hi
            rcases (ihp p hp').refs n hn with h | h | ⟨td, h1, h2⟩
            · exact .inl h
            · exact .inr (.inl h)
            · exact .inr (.inr ⟨td, List.mem_append_left _ (List.mem_flatMap.2 ⟨p, hp, h1⟩), h2⟩)
        · intro td htd
          simp only [GSch.defs, List.append_nil] at htd
          obtain ⟨p, hp, htd⟩ := List.mem_flatMap.1 htd
          rcases List.mem_append.1 ((parts_perm hpt hgps).mem_iff.1 hp) with hp' | hp'
          · obtain ⟨m, _, rfl⟩ := List.mem_map.1 hp'
            cases htd
          · exact (ihp p hp').defs td htd
theorem gen_goodA {comps : List (Str × OS)} {c : Str} : ∀ (a : OAs) {path : List Str} {g : GSch},
    TameA U comps a → genA U (c :: path) a = .ok g → Good U comps c g ∧ g.nested = []
  | .no, path, g, _, h => by
    rw [genA] at h; injection h with h; subst h
    refine ⟨⟨rfl, rfl, rfl, rfl, ?_, fun td htd => by simp [GSch.defs] at htd⟩, rfl⟩
    intro n hn
    simp only [GSch.typeDecl, refs, id', List.mem_singleton] at hn
    subst hn; left; decide
  | .free, path, g, _, h => by
    rw [genA] at h; injection h with h; subst h
    refine ⟨⟨rfl, rfl, rfl, rfl, ?_, fun td htd => by simp [GSch.defs] at htd⟩, rfl⟩
    intro n hn
    simp only [GSch.typeDecl, refs, id', List.mem_singleton] at hn
    subst hn; left; decide
  | .of s, path, g, ht, h => by
    rw [genA] at h
    obtain ⟨a, ha, h⟩ := bind_ok h
    rw [TameA] at ht
    have ih := gen_good s ht.1 ha
    have hf := gen_flat s ht.1 ht.2 ha
    rw [genAddl_eq ih.addl ih.union] at h
    injection h with h
    subst h
    exact ⟨ih, hf.1⟩
theorem gen_goodPs {comps : List (Str × OS)} {c : Str} : ∀ (ps : OPs) {path : List Str}
    {l : List Prop'}, TamePs U comps ps → genPs U (c :: path) ps = .ok l →
    ∀ p ∈ l, Good U comps c p.s
  | .nil, path, l, _, h => by
    rw [genPs] at h; injection h with h; subst h
    intro p hp; cases hp
  | .cons n r nl s ps, path, l, ht, h => by
    rw [genPs] at h
    obtain ⟨a, ha, h⟩ := bind_ok h
    obtain ⟨l', hl, h⟩ := bind_ok h
    rw [TamePs] at ht
    have ih := gen_good s ht.2.2.1 (path := path ++ [n]) ha
    have ih2 := gen_goodPs ps ht.2.2.2 hl
    injection h with h
    subst h
    intro p hp
    rcases List.mem_cons.1 hp with rfl | hp
    · rw [genProp_eq ih.addl ih.union]; exact ih
    · exact ih2 p hp
end

end Thema.OGen

import Verif.Spec.NestedTypes
import Verif.Props.PlainTypes
import Verif.Props.GoNames

/-!
# The Go types of schemas with enumerations in any place (C194)
-/

namespace Thema.Props

open GoTypes OGen GoJson GoNames PlainTypes NestedTypes

variable {U : Uni} {noPtr : Bool}

/-- What is written for a definition. -/
private def entry (noPtr : Bool) (td : TD) : Entry :=
  ⟨td.name, td.json, dep noPtr td.decl, !td.enum.isEmpty, td.src⟩

private theorem names_eq (L : UniLaws U) : goName U = typeName U :=
  funext fun n => (C192_name L n).symm

private theorem nestedName_eq (L : UniLaws U) (path : List Str) :
    nestedName U path = typeName U (pathName U path) := by
  unfold nestedName pathName
  rw [← C192_name L, show camel U = letters U from funext (camel_letters L)]

private theorem nestedJson_eq (L : UniLaws U) (path : List Str) :
    nestedJson U path = jsonName U path := by
  unfold nestedJson jsonName
  rw [show camel U = letters U from funext (camel_letters L)]

/-- What holds of a schema generated for a simple one. -/
private structure Fits (noPtr : Bool) (s : OS) (t : GT) (es : List Entry) (g : GSch) : Prop where
  inner : g.inner = false
  addl : g.addl = false
  union : g.union = false
  enum : (!g.enum.isEmpty) = isEnum s
  src : g.src = source s
  skip : g.skipPtr = rawJson s
  dep : GoTypes.dep noPtr g.typeDecl = t
  star : ∀ u, g.typeDecl ≠ .star u
  defs : g.defs.map (entry noPtr) = es
  flat : ∀ td ∈ g.defs, td.addl = false ∧ td.union = false ∧ td.described = false
  own : OfStructs s → g.own = []
  nested : ¬ OfStructs s → g.nested = []

private theorem raw_prim (k : Kind) (f : Str) (e : List Str) :
    rawJson (.prim k f e) = decide (k = .string ∧ f = "json".toList) := by
  cases k <;> simp [rawJson]

private theorem genPrim_named {k : Kind} {f : Str} {e : List Str} {t : GT} {path : List Str}
    (hb : BasicType k f t) :
    genPrim U path k f e =
      let s : GSch :=
        { goType := t, skipPtr := decide (k = .string ∧ f = "json".toList), enum := e,
          src := some (.prim k f e) }
      .ok (if !e.isEmpty && 1 < path.length then
        s.named (typeName U (pathName U path)) (jsonName U path) else s) := by
  rcases primType_basic (k := k) (f := f) with ⟨_, _, hn⟩ | ⟨t', ht', hpt⟩
  · exact absurd hb (hn t)
  · obtain rfl := basic_unique hb ht'
    rw [genPrim, hpt]
    simp only [Res.bind]
    split <;> rfl

/-- The field of a property. -/
private theorem field_fits (L : UniLaws U) {n : Str} {r nl : Bool} {s : OS} {t : GT}
    {es : List Entry} {g : GSch} {path : List Str} (h : Fits noPtr s t es g) :
    let p : Prop' := ⟨n, r, nl, genProp U path g⟩
    (p.field U).1 = ⟨goName U n, .key n (!r && !nl)⟩ ∧
      depField noPtr (p.field U).2 = NestedTypes.fieldType noPtr r nl s t ∧ p.s.defs = g.defs := by
  intro p
  have hg : genProp U path g = g := genProp_eq h.addl h.union
  have hf : p.field U = (⟨typeName U n, .key n (!(r || nl))⟩,
      if !g.skipPtr && (!r || nl) then .star g.typeDecl else g.typeDecl) := by
    unfold Prop'.field
    simp only [p, hg, h.inner, Bool.false_eq_true, if_false]
  rw [hf, names_eq L]
  refine ⟨by simp [Bool.not_or], ?_, ?_⟩
  rotate_left
  · show (genProp U path g).defs = _
    rw [hg]
  unfold NestedTypes.fieldType
  have hd := h.dep
  have hs := h.star
  rw [h.skip]
  generalize g.typeDecl = u at *
  subst hd
  cases hj : rawJson s with
  | true =>
    simp only [Bool.not_true, Bool.false_and, Bool.false_eq_true, if_false, and_false,
      Bool.true_eq_false]
    cases u with
    | star x => exact absurd rfl (hs x)
    | _ => rfl
  | false =>
    simp only [Bool.not_false, Bool.true_and]
    by_cases ho : r = false ∨ nl = true
    · have : (!r || nl) = true := by rcases ho with rfl | rfl <;> simp
      rw [this, if_pos rfl]
      cases u with
      | star x => exact absurd rfl (hs x)
      | ident _ => cases noPtr <;>
        simp only [depField, GoTypes.dep, nilable, ho, and_self, if_true,
          if_false, Bool.false_eq_true, Bool.true_eq_false, false_and]
      | sel _ _ => cases noPtr <;>
        simp only [depField, GoTypes.dep, nilable, ho, and_self, if_true,
          if_false, Bool.false_eq_true, Bool.true_eq_false, false_and]
      | struct _ => cases noPtr <;>
        simp only [depField, GoTypes.dep, nilable, ho, and_self, if_true,
          if_false, Bool.false_eq_true, Bool.true_eq_false, false_and]
      | arr _ => simp [depField, GoTypes.dep, nilable]
      | map _ _ => simp [depField, GoTypes.dep, nilable]
    · have : (!r || nl) = false := by
        cases r <;> cases nl <;> simp_all
      rw [this, if_neg (by simp), if_neg (by rintro ⟨_, h, _⟩; exact ho h)]
      cases u with
      | star x => exact absurd rfl (hs x)
      | _ => rfl

/-- A schema without definitions. -/
private theorem Fits.plain {s : OS} {t : GT} {g : GSch} (h1 : g.inner = false)
    (h2 : g.addl = false) (h3 : g.union = false) (h4 : (!g.enum.isEmpty) = isEnum s)
    (h5 : g.src = source s) (h6 : g.skipPtr = rawJson s) (h7 : GoTypes.dep noPtr g.typeDecl = t)
    (h8 : ∀ u, g.typeDecl ≠ .star u) (h9 : g.nested = []) (h10 : g.own = []) :
    Fits noPtr s t [] g := by
  have hd : g.defs = [] := by rw [GSch.defs, h9, h10]; rfl
  refine ⟨h1, h2, h3, h4, h5, h6, h7, h8, by rw [hd]; rfl, ?_, fun _ => h10, fun _ => h9⟩
  intro td htd
  rw [hd] at htd
  cases htd

mutual
private theorem gen_typeAt (L : UniLaws U) : ∀ {path : List Str} {s : OS} {t : GT} {es : List Entry},
    TypeAt U noPtr path s t es → ∃ g, gen U path s = .ok g ∧ Fits noPtr s t es g
  | _, _, _, _, .ref => ⟨_, by rw [gen], .plain rfl rfl rfl rfl rfl rfl (by rw [names_eq L]; rfl)
      (by nofun) rfl rfl⟩
  | path, .prim k f [], t, _, .basic hb => by
    refine ⟨_, by rw [gen]; exact genPrim_named hb, ?_⟩
    rw [if_neg (by simp)]
    exact .plain rfl rfl rfl rfl rfl (raw_prim ..).symm (basic_dep hb).1 (basic_star hb) rfl rfl
  | path, .prim k f (v :: e), t, _, .bare hb hp => by
    refine ⟨_, by rw [gen]; exact genPrim_named hb, ?_⟩
    rw [if_neg (by simp; omega)]
    exact .plain rfl rfl rfl rfl rfl (raw_prim ..).symm (basic_dep hb).1 (basic_star hb) rfl rfl
  | path, .prim k f (v :: e), _, _, .enum (t := t) hb hp => by
    refine ⟨_, by rw [gen]; exact genPrim_named hb, ?_⟩
    rw [if_pos (by simp; omega)]
    refine ⟨rfl, rfl, rfl, rfl, rfl, (raw_prim ..).symm, ?_, (by nofun), ?_, ?_, (fun h => h.elim),
      fun _ => rfl⟩
    · rw [nestedName_eq L]; rfl
    · rw [nestedName_eq L, nestedJson_eq L]
      simp only [GSch.defs, GSch.named, List.nil_append, List.map_cons, List.map_nil, entry, GSch.td,
        GSch.typeDecl, (basic_dep hb).1]
      rfl
    · intro td htd
      simp only [GSch.defs, GSch.named, List.nil_append, List.mem_singleton] at htd
      subst htd
      exact ⟨rfl, rfl, rfl⟩
  | path, .arr s, .arr t, es, .arr h => by
    obtain ⟨a, ha, hok⟩ := gen_typeAt L h
    refine ⟨genArr U path (.arr s) a, by rw [gen, ha]; rfl, ?_⟩
    rw [genArr_eq hok.addl hok.union]
    refine ⟨rfl, rfl, rfl, rfl, rfl, rfl, ?_, (by nofun), hok.defs, hok.flat, hok.own, hok.nested⟩
    show GoTypes.dep noPtr (.arr a.typeDecl) = _
    rw [GoTypes.dep, hok.dep]
  | path, _, _, _, .any => ⟨_, by rw [gen]; exact if_pos (by simp),
      .plain rfl rfl rfl rfl rfl rfl rfl (by nofun) rfl rfl⟩
  | path, _, _, _, .object => ⟨_, by rw [gen]; exact if_pos (by simp),
      .plain rfl rfl rfl rfl rfl rfl rfl (by nofun) rfl rfl⟩
  | path, _, _, _, .free => by
    refine ⟨?_, ?_, ?_⟩
    rotate_left
    · rw [gen, if_neg (by simp), genA]
      simp only [Res.bind]
      rw [if_pos (by simp)]
    · exact .plain rfl rfl rfl rfl rfl rfl rfl (by nofun) rfl rfl
  | path, .obj typed [] .nil (.of s) .nil, _, es, .map (t := t) h hs => by
    obtain ⟨a, ha, hok⟩ := gen_typeAt L h
    refine ⟨?_, ?_, ?_⟩
    rotate_left
    · rw [gen, if_neg (by simp), genA, ha]
      simp only [Res.bind]
      rw [if_pos (by simp)]
    · rw [genAddl_eq hok.addl hok.union]
      have hn := hok.nested hs
      have hd := hok.defs
      have hfl := hok.flat
      rw [GSch.defs, hn] at hd
      rw [GSch.defs, hn] at hfl
      refine ⟨rfl, rfl, rfl, rfl, rfl, rfl, ?_, (by nofun), hd, hfl, fun h => absurd h hs, fun _ => rfl⟩
      show GoTypes.dep noPtr (.map _ a.typeDecl) = _
      rw [GoTypes.dep, hok.dep]
      rfl
  | path, .obj typed [] .nil (.of s) .nil, _, _, .mapOfStructs (t := t) h hs => by
    obtain ⟨a, ha, hok⟩ := gen_typeAt L h
    refine ⟨?_, ?_, ?_⟩
    rotate_left
    · rw [gen, if_neg (by simp), genA, ha]
      simp only [Res.bind]
      rw [if_pos (by simp)]
    · rw [genAddl_eq hok.addl hok.union]
      refine .plain rfl rfl rfl rfl rfl rfl ?_ (by nofun) rfl (hok.own hs)
      show GoTypes.dep noPtr (.map _ a.typeDecl) = _
      rw [GoTypes.dep, hok.dep]
      rfl
  | path, .obj typed [] (.cons n r nl s ps) .no .nil, .struct fs, es, .struct h => by
    obtain ⟨l, hl, hfs, hdefs, hflat⟩ := genPs_fieldsAt L h
    refine ⟨?_, ?_, ?_⟩
    rotate_left
    · rw [gen, if_neg (by simp), genA]
      simp only [Res.bind]
      rw [if_neg (by simp), hl]
      simp only [genEs, embed]
      rfl
    · refine ⟨rfl, by simp, by simp, rfl, rfl, rfl, ?_, (by nofun), ?_, ?_, fun _ => rfl,
        fun h => absurd trivial h⟩
      · simp only [GSch.typeDecl, genStruct, if_pos, GoTypes.dep, ne_eq, not_true, decide_false,
          Bool.false_eq_true, if_false]
        rw [hfs]
      · simp only [GSch.defs, List.append_nil]
        exact hdefs
      · simp only [GSch.defs, List.append_nil]
        exact hflat
private theorem genPs_fieldsAt (L : UniLaws U) : ∀ {path : List Str} {ps : OPs} {fs : GFs}
    {es : List Entry}, FieldsAt U noPtr path ps fs es →
    ∃ l, genPs U path ps = .ok l ∧ depFs noPtr (fieldsOf U .nil l) = fs ∧
      (l.flatMap fun p => p.s.defs).map (entry noPtr) = es ∧
      ∀ td ∈ l.flatMap (fun p => p.s.defs), td.addl = false ∧ td.union = false ∧ td.described = false
  | path, _, _, _, .nil => ⟨[], rfl, rfl, rfl, by simp⟩
  | path, .cons n r nl s ps, _, _, .cons (fs := fs) (es := es) (es' := es') h1 h2 => by
    obtain ⟨g, hg, hok⟩ := gen_typeAt L h1
    obtain ⟨l, hl, hfs, hdefs, hflat⟩ := genPs_fieldsAt L h2
    obtain ⟨f1, f2, f3⟩ := field_fits L (n := n) (r := r) (nl := nl) (path := path ++ [n]) hok
    refine ⟨_, by rw [genPs, hg]; simp only [Res.bind]; rw [hl], ?_, ?_, ?_⟩
    · simp only [fieldsOf, depFs]
      rw [f1, f2, hfs]
    · rw [List.flatMap_cons, f3, List.map_append, hdefs, hok.defs]
    · intro td htd
      rw [List.flatMap_cons, f3] at htd
      rcases List.mem_append.1 htd with h | h
      · exact hok.flat td h
      · exact hflat td h
end

mutual
private theorem gen_simple (L : UniLaws U) : ∀ (s : OS), Simple s → ∀ path,
    (∃ e, gen U path s = .err e) ∨ ∃ t es, TypeAt U noPtr path s t es
  | .ref n, _, path => .inr ⟨_, _, .ref⟩
  | .prim k f e, h, path => by
    rcases primType_basic (k := k) (f := f) with ⟨e, he, _⟩ | ⟨t, ht, _⟩
    · exact .inl ⟨e, by rw [gen, genPrim, he]; rfl⟩
    · cases e with
      | nil => exact .inr ⟨t, _, .basic ht⟩
      | cons v e =>
        by_cases hp : 1 < path.length
        · exact .inr ⟨_, _, .enum ht hp⟩
        · exact .inr ⟨_, _, .bare ht (by omega)⟩
  | .arr s, h, path => by
    rw [Simple] at h
    rcases gen_simple L s h path with ⟨e, he⟩ | ⟨t, es, ht⟩
    · exact .inl ⟨e, by rw [gen, he]; rfl⟩
    · exact .inr ⟨_, _, .arr ht⟩
  | .inner, h, path => by rw [Simple] at h; exact h.elim
  | .obj typed allOf ps a es, h, path => by
    rw [Simple] at h
    obtain ⟨rfl, rfl, ha, hps, hor⟩ := h
    cases ps with
    | nil =>
      cases a with
      | no => cases typed
              · exact .inr ⟨_, _, .any⟩
              · exact .inr ⟨_, _, .object⟩
      | free => exact .inr ⟨_, _, .free⟩
      | of s =>
        rw [SimpleA] at ha
        rcases gen_simple L s ha path with ⟨e, he⟩ | ⟨t, es, ht⟩
        · refine .inl ⟨e, ?_⟩
          rw [gen, if_neg (by simp), genA, he]
          rfl
        · by_cases hs : OfStructs s
          · exact .inr ⟨_, _, .mapOfStructs ht hs⟩
          · exact .inr ⟨_, _, .map ht hs⟩
    | cons n r nl s ps =>
      have ha : a = .no := by
        rcases hor with h | h
        · cases h
        · exact h
      subst ha
      rcases genPs_simple L (.cons n r nl s ps) hps path with ⟨e, he⟩ | ⟨fs, es, hfs⟩
      · refine .inl ⟨e, ?_⟩
        rw [gen, if_neg (by simp), genA]
        simp only [Res.bind]
        rw [if_neg (by simp), he]
      · exact .inr ⟨_, _, .struct hfs⟩
private theorem genPs_simple (L : UniLaws U) : ∀ (ps : OPs), SimplePs ps → ∀ path,
    (∃ e, genPs U path ps = .err e) ∨ ∃ fs es, FieldsAt U noPtr path ps fs es
  | .nil, _, path => .inr ⟨_, _, .nil⟩
  | .cons n r nl s ps, h, path => by
    rw [SimplePs] at h
    rcases gen_simple L s h.1 (path ++ [n]) with ⟨e, he⟩ | ⟨t, es, ht⟩
    · exact .inl ⟨e, by rw [genPs, he]; rfl⟩
    obtain ⟨g, hg, _⟩ := gen_typeAt (noPtr := noPtr) L ht
    rcases genPs_simple L ps h.2 path with ⟨e, he⟩ | ⟨fs, es, hfs⟩
    · exact .inl ⟨e, by rw [genPs, hg]; simp only [Res.bind]; rw [he]⟩
    · exact .inr ⟨_, _, .cons ht hfs⟩
end

/-! ### Names without underscores -/

private theorem goName_no_us (L : UniLaws U) (n : Str) : '_' ∉ goName U n := by
  rw [names_eq L]; exact typeName_no_us L n

mutual
private theorem typeAt_inert (L : UniLaws U) : ∀ {path : List Str} {s : OS} {t : GT}
    {es : List Entry}, TypeAt U noPtr path s t es →
    (∀ n ∈ refs t, '_' ∉ n) ∧
      ∀ e ∈ es, Inert (.typ [comment e.name e.json] e.name e.type)
  | _, _, _, _, .ref => by
    refine ⟨?_, (fun _ h => nomatch h)⟩
    intro n hn
    simp only [refs, List.mem_singleton] at hn
    subst hn
    exact goName_no_us L _
  | _, .prim k f [], t, _, .basic hb => ⟨(basic_dep (noPtr := true) hb).2, (fun _ h => nomatch h)⟩
  | _, .prim k f (v :: e), t, _, .bare hb _ =>
    ⟨(basic_dep (noPtr := true) hb).2, (fun _ h => nomatch h)⟩
  | path, .prim k f (v :: e), _, _, .enum (t := t) hb hp => by
    refine ⟨?_, ?_⟩
    · intro n hn
      simp only [refs, List.mem_singleton] at hn
      subst hn
      exact goName_no_us L _
    · intro x hx
      rw [List.mem_singleton] at hx
      subst hx
      refine ⟨not_unnamed ?_ ?_, List.cons_ne_nil _ _, goName_no_us L _,
        (basic_dep (noPtr := true) hb).2⟩
      · rw [nestedJson_eq L]
        match path, hp with
        | a :: b :: r, _ => exact jsonName_ne_nil _ _ _
      · rw [nestedJson_eq L]
        intro hl
        exact jsonName_no_space L _ (List.mem_of_getLast? hl)
  | _, .arr s, .arr t, _, .arr h => by rw [refs]; exact typeAt_inert L h
  | _, _, _, _, .any => ⟨by decide, (fun _ h => nomatch h)⟩
  | _, _, _, _, .object => ⟨by decide, (fun _ h => nomatch h)⟩
  | _, _, _, _, .free => ⟨by decide, (fun _ h => nomatch h)⟩
  | _, .obj typed [] .nil (.of s) .nil, _, _, .map (t := t) h _ => by
    refine ⟨?_, (typeAt_inert L h).2⟩
    intro n hn
    rw [refs] at hn
    rcases List.mem_append.1 hn with hn | hn
    · simp only [refs, List.mem_singleton] at hn
      subst hn
      decide
    · exact (typeAt_inert L h).1 n hn
  | _, .obj typed [] .nil (.of s) .nil, _, _, .mapOfStructs (t := t) h _ => by
    refine ⟨?_, (fun _ h => nomatch h)⟩
    intro n hn
    rw [refs] at hn
    rcases List.mem_append.1 hn with hn | hn
    · simp only [refs, List.mem_singleton] at hn
      subst hn
      decide
    · exact (typeAt_inert L h).1 n hn
  | _, .obj typed [] (.cons n r nl s ps) .no .nil, .struct fs, _, .struct h => by
    rw [refs]; exact fieldsAt_inert L h
private theorem fieldsAt_inert (L : UniLaws U) : ∀ {path : List Str} {ps : OPs} {fs : GFs}
    {es : List Entry}, FieldsAt U noPtr path ps fs es → (∀ n ∈ refsFs fs, '_' ∉ n) ∧
      ∀ e ∈ es, Inert (.typ [comment e.name e.json] e.name e.type)
  | _, _, _, _, .nil => ⟨(fun _ h => nomatch h), (fun _ h => nomatch h)⟩
  | _, .cons n r nl s ps, _, _, .cons (t := t) (fs := fs) h1 h2 => by
    constructor
    · intro m hm
      rw [refsFs] at hm
      rcases List.mem_append.1 hm with hm | hm
      · refine (typeAt_inert L h1).1 m ?_
        unfold NestedTypes.fieldType at hm
        split at hm
        · exact hm
        · exact hm
      · exact (fieldsAt_inert L h2).1 m hm
    · intro e he
      rcases List.mem_append.1 he with he | he
      · exact (typeAt_inert L h1).2 e he
      · exact (fieldsAt_inert L h2).2 e he
end

/-! ### The file -/

private theorem typesFor_entries (L : UniLaws U) : ∀ {cs : List (Str × OS)} {es : List Entry},
    EntriesAs U noPtr cs es → ∃ ts, typesFor U cs = .ok ts ∧ ts.map (entry noPtr) = es ∧
      ∀ td ∈ ts, td.addl = false ∧ td.union = false ∧ td.described = false
  | _, _, .nil => ⟨[], rfl, rfl, fun _ h => nomatch h⟩
  | (n, s) :: cs, _, .cons h1 h2 => by
    obtain ⟨g, hg, hok⟩ := gen_typeAt L h1
    obtain ⟨ts, h, he, hf⟩ := typesFor_entries L h2
    refine ⟨g.td (typeName U n) n :: (g.defs ++ ts), ?_, ?_, ?_⟩
    · rw [typesFor, hg]
      simp only [Res.bind]
      rw [h]
    · rw [List.map_cons, List.map_append, hok.defs, he, names_eq L]
      congr 1
      simp only [entry, GSch.td, hok.dep, hok.enum, hok.src]
    · intro td htd
      rcases List.mem_cons.1 htd with rfl | htd
      · exact ⟨hok.addl, hok.union, rfl⟩
      rcases List.mem_append.1 htd with htd | htd
      · exact hok.flat td htd
      · exact hf td htd

private theorem typesFor_simple (L : UniLaws U) : ∀ (cs : List (Str × OS)), (∀ c ∈ cs, Simple c.2) →
    (∃ e, typesFor U cs = .err e) ∨ ∃ es, EntriesAs U noPtr cs es
  | [], _ => .inr ⟨_, .nil⟩
  | (n, s) :: cs, h => by
    rcases gen_simple (noPtr := noPtr) L s (h _ (List.mem_cons_self ..)) [n] with
      ⟨e, he⟩ | ⟨t, es, ht⟩
    · exact .inl ⟨e, by rw [typesFor, he]; rfl⟩
    obtain ⟨g, hg, _⟩ := gen_typeAt (noPtr := noPtr) L ht
    rcases typesFor_simple L cs (fun c hc => h c (List.mem_cons_of_mem _ hc)) with ⟨e, he⟩ | ⟨es, hes⟩
    · exact .inl ⟨e, by rw [typesFor, hg]; simp only [Res.bind]; rw [he]⟩
    · exact .inr ⟨_, .cons ht hes⟩

/-- Entries of the same name are for the same schema. -/
def SrcAgree (ts : List TD) : Prop := ∀ a ∈ ts, ∀ b ∈ ts, a.name = b.name → a.src = b.src

theorem dedupe_agree : ∀ (ts seen : List TD) (names : List Str),
    (∀ n, n ∈ names ↔ n ∈ seen.map (·.name)) → SrcAgree (seen ++ ts) →
    dedupe seen ts = .ok (firstTDs names ts)
  | [], _, _, _, _ => rfl
  | t :: ts, seen, names, hn, h => by
    rw [dedupe, firstTDs]
    cases hf : seen.find? (fun p => decide (p.name = t.name)) with
    | some p =>
      have hp := List.mem_of_find?_eq_some hf
      have hpn : p.name = t.name := of_decide_eq_true (List.find?_some (p := fun p : TD => decide (p.name = t.name)) hf)
      have hs : p.src = t.src := h p (List.mem_append_left _ hp) t (by simp) hpn
      simp only
      rw [if_pos hs, if_pos, dedupe_agree ts seen names hn]
      · intro a ha b hb
        refine h a ?_ b ?_
        · rcases List.mem_append.1 ha with h | h <;> simp [h]
        · rcases List.mem_append.1 hb with h | h <;> simp [h]
      · rw [List.contains_iff_mem, hn, ← hpn]
        exact List.mem_map_of_mem hp
    | none =>
      have hno := List.find?_eq_none.1 hf
      simp only
      rw [if_neg, dedupe_agree ts (seen ++ [t]) (t.name :: names)]
      · rfl
      · intro n
        rw [List.mem_cons, hn, List.map_append, List.mem_append]
        simp only [List.map_cons, List.map_nil, List.mem_singleton]
        exact or_comm
      · simpa using h
      · rw [List.contains_iff_mem, hn]
        intro hm
        obtain ⟨p, hp, hpn⟩ := List.mem_map.1 hm
        exact hno p hp (decide_eq_true hpn)

theorem dedupe_ok : ∀ (ts seen : List TD), SrcAgree seen →
    (∃ r, dedupe seen ts = .ok r ∧ SrcAgree (seen ++ ts)) ∨ (∃ e, dedupe seen ts = .err e) ∧
      ¬ SrcAgree (seen ++ ts)
  | [], seen, h => .inl ⟨[], rfl, by simpa using h⟩
  | t :: ts, seen, h => by
    rw [dedupe]
    cases hf : seen.find? (fun p => decide (p.name = t.name)) with
    | some p =>
      have hp := List.mem_of_find?_eq_some hf
      have hpn : p.name = t.name := of_decide_eq_true (List.find?_some (p := fun p : TD => decide (p.name = t.name)) hf)
      simp only
      by_cases hs : p.src = t.src
      · rw [if_pos hs]
        rcases dedupe_ok ts seen h with ⟨r, hr, ha⟩ | ⟨he, hna⟩
        · refine .inl ⟨r, hr, ?_⟩
          have key : ∀ x ∈ seen ++ t :: ts, ∃ y ∈ seen ++ ts, y.name = x.name ∧ y.src = x.src := by
            intro x hx
            rcases List.mem_append.1 hx with hx | hx
            · exact ⟨x, List.mem_append_left _ hx, rfl, rfl⟩
            · rcases List.mem_cons.1 hx with rfl | hx
              · exact ⟨p, List.mem_append_left _ hp, hpn, hs⟩
              · exact ⟨x, List.mem_append_right _ hx, rfl, rfl⟩
          intro a hma b hmb hab
          obtain ⟨a', ha', h1, h2⟩ := key a hma
          obtain ⟨b', hb', h3, h4⟩ := key b hmb
          rw [← h2, ← h4]
          exact ha a' ha' b' hb' (by rw [h1, h3, hab])
        · refine .inr ⟨he, fun ha => hna ?_⟩
          intro a hma b hmb
          refine ha a ?_ b ?_
          · rcases List.mem_append.1 hma with h | h <;> simp [h]
          · rcases List.mem_append.1 hmb with h | h <;> simp [h]
      · rw [if_neg hs]
        exact .inr ⟨⟨_, rfl⟩, fun ha => hs (ha p (List.mem_append_left _ hp) t (by simp) hpn)⟩
    | none =>
      have hno := List.find?_eq_none.1 hf
      simp only
      have ha' : SrcAgree (seen ++ [t]) := by
        intro a ha b hb hab
        rcases List.mem_append.1 ha with ha' | ha' <;> rcases List.mem_append.1 hb with hb' | hb'
        · exact h a ha' b hb' hab
        · rw [List.mem_singleton] at hb'
          subst hb'
          exact absurd (decide_eq_true hab) (hno a ha')
        · rw [List.mem_singleton] at ha'
          subst ha'
          exact absurd (decide_eq_true hab.symm) (hno b hb')
        · rw [List.mem_singleton] at ha' hb'
          rw [ha', hb']
      rcases dedupe_ok ts (seen ++ [t]) ha' with ⟨r, hr, ha⟩ | ⟨⟨e, he⟩, hna⟩
      · exact .inl ⟨t :: r, by rw [hr]; rfl, by simpa using ha⟩
      · exact .inr ⟨⟨e, by rw [he]; rfl⟩, by simpa using hna⟩

private theorem firstTDs_entries : ∀ (ts : List TD) (names : List Str),
    (firstTDs names ts).map (entry noPtr) =
      (firstOfName (ts.map (entry noPtr))).filter fun e => e.name ∉ names
  | [], _ => rfl
  | t :: ts, names => by
    rw [firstTDs, List.map_cons, firstOfName, List.filter_cons]
    by_cases h : t.name ∈ names
    · rw [if_pos (List.contains_iff_mem.2 h), if_neg (fun hd => (of_decide_eq_true (p := ¬ (entry noPtr t).name ∈ names) hd) h),
        firstTDs_entries ts names, List.filter_filter]
      refine List.filter_congr fun e _ => ?_
      by_cases he : e.name ∈ names
      · simp [he]
      · have : e.name ≠ (entry noPtr t).name := fun hh => he (by rw [hh]; exact h)
        simp [he, this]
    · rw [if_neg (fun hc => h (List.contains_iff_mem.1 hc)), if_pos (decide_eq_true (p := ¬ (entry noPtr t).name ∈ names) h),
        List.map_cons, firstTDs_entries ts (t.name :: names), List.filter_filter]
      congr 1
      refine List.filter_congr fun e _ => ?_
      simp only [List.mem_cons, not_or, entry]
      rw [Bool.decide_and, Bool.and_comm]
      rfl

private theorem entries_inert (L : UniLaws U) : ∀ {cs : List (Str × OS)} {es : List Entry},
    EntriesAs U noPtr cs es → (∀ c ∈ cs, c.1 ≠ [] ∧ c.1.getLast? ≠ some ' ') →
    ∀ e ∈ es, Inert (.typ [comment e.name e.json] e.name e.type)
  | _, _, .nil, _ => fun _ h => nomatch h
  | (n, s) :: cs, _, .cons h1 h2, hn => by
    intro e he
    rcases List.mem_cons.1 he with rfl | he
    · have := hn (n, s) (List.mem_cons_self ..)
      exact ⟨not_unnamed this.1 this.2, List.cons_ne_nil _ _, goName_no_us L n,
        (typeAt_inert L h1).1⟩
    rcases List.mem_append.1 he with he | he
    · exact (typeAt_inert L h1).2 e he
    · exact entries_inert L h2 (fun c hc => hn c (List.mem_cons_of_mem _ hc)) e he

theorem mem_firstTDs {t : TD} : ∀ {ts : List TD} {names : List Str},
    t ∈ firstTDs names ts → t ∈ ts
  | [], _, h => h
  | x :: ts, names, h => by
    rw [firstTDs] at h
    split at h
    · exact List.mem_cons_of_mem _ (mem_firstTDs h)
    · rcases List.mem_cons.1 h with rfl | h
      · exact List.mem_cons_self ..
      · exact List.mem_cons_of_mem _ (mem_firstTDs h)

private theorem mem_firstOfName {e : Entry} : ∀ {es : List Entry}, e ∈ firstOfName es → e ∈ es
  | [], h => h
  | x :: es, h => by
    rw [firstOfName] at h
    rcases List.mem_cons.1 h with rfl | h
    · exact List.mem_cons_self ..
    · exact List.mem_cons_of_mem _ (mem_firstOfName (List.mem_filter.1 h).1)

private theorem goTypes_entries (L : UniLaws U) {replace : Str → Str} {comps : List (Str × OS)}
    {es : List Entry} (hn : ∀ c ∈ comps, c.1 ≠ [] ∧ c.1.getLast? ≠ some ' ')
    (h : EntriesAs U noPtr comps es) :
    ((∀ a ∈ es, ∀ b ∈ es, a.name = b.name → a.src = b.src) ∧
      goTypes U replace noPtr comps = .ok (fileOf es)) ∨
    (¬ (∀ a ∈ es, ∀ b ∈ es, a.name = b.name → a.src = b.src) ∧
      ∃ e, goTypes U replace noPtr comps = .err e) := by
  obtain ⟨ts, hts, he, hf⟩ := typesFor_entries L h
  have hag : SrcAgree ts ↔ ∀ a ∈ es, ∀ b ∈ es, a.name = b.name → a.src = b.src := by
    rw [← he]
    constructor
    · intro hA a ha b hb hab
      obtain ⟨a', ha', rfl⟩ := List.mem_map.1 ha
      obtain ⟨b', hb', rfl⟩ := List.mem_map.1 hb
      exact hA a' ha' b' hb' hab
    · intro hA a ha b hb hab
      exact hA _ (List.mem_map_of_mem ha) _ (List.mem_map_of_mem hb) hab
  rcases dedupe_ok ts [] (fun _ h => nomatch h) with ⟨r, hr, ha⟩ | ⟨⟨e, hee⟩, hna⟩
  rotate_left
  · refine .inr ⟨fun hc => hna (by simpa using hag.2 hc), e, ?_⟩
    rw [goTypes, file, hts]
    simp only [Res.bind]
    rw [hee]
  rw [List.nil_append] at ha
  refine .inl ⟨hag.1 ha, ?_⟩
  have hded : dedupe [] ts = .ok (firstTDs [] ts) := dedupe_agree ts [] [] (by simp) (by simpa using ha)
  have hfirst : (firstTDs [] ts).map (entry noPtr) = firstOfName es := by
    rw [firstTDs_entries, he]
    simp
  have hno1 : (firstTDs [] ts).filter (·.addl) = [] := by
    rw [List.filter_eq_nil_iff]
    intro t ht
    rw [(hf t (mem_firstTDs ht)).1]
    simp
  have hno2 : ts.filter (·.union) = [] := by
    rw [List.filter_eq_nil_iff]
    intro t ht
    rw [(hf t ht).2.1]
    simp
  have hin : ∀ d ∈ fileOf es, Inert d := by
    intro d hd
    rcases List.mem_cons.1 hd with rfl | hd
    · trivial
    rcases List.mem_append.1 hd with hd | hd
    · obtain ⟨l, _, rfl⟩ := List.mem_map.1 hd
      trivial
    · obtain ⟨e, he', rfl⟩ := List.mem_map.1 hd
      exact entries_inert L h hn e (mem_firstOfName he')
  rw [goTypes, file, hts]
  simp only [Res.bind]
  rw [hded]
  simp only
  rw [hno1, hno2]
  simp only [List.flatMap_nil, List.map_nil, List.append_nil, List.map_cons, List.map_append,
    List.map_map]
  have e1 : ((firstTDs [] ts).filter (fun t => !t.enum.isEmpty)).map
      (depDecl noPtr ∘ fun t => Decl.consts [t.name]) =
      ((firstOfName es).filter (·.enum)).map (fun e => Decl.consts [e.name]) := by
    rw [← hfirst, List.filter_map, List.map_map]
    rfl
  have e2 : (firstTDs [] ts).map (depDecl noPtr ∘ fun t => Decl.typ t.doc t.name t.decl) =
      (firstOfName es).map fun e => .typ [comment e.name e.json] e.name e.type := by
    rw [← hfirst, List.map_map]
    refine List.map_congr_left ?_
    intro t ht
    have hd := (hf t (mem_firstTDs ht)).2.2
    simp only [Function.comp, depDecl, TD.doc, entry, hd, comment, Bool.false_eq_true, if_false]
  rw [e1, e2]
  show (fixRawData (fileOf es)).bind _ = _
  rw [fixRawData_inert hin]
  exact fixUnderscores_inert hin

/-- **C194**.  For components that are references, simple values, enumerations, arrays, maps and
structs, of names that are not empty and do not end in a space, a file is generated exactly if all
have types by the table, and types of the same name are for the same schema; the file has the
types of the components and of their enumerations, the first of every name, and nothing else. -/
theorem C194_types (L : UniLaws U) {replace : Str → Str} {comps : List (Str × OS)}
    {file : List Decl} (hs : ∀ c ∈ comps, Simple c.2)
    (hn : ∀ c ∈ comps, c.1 ≠ [] ∧ c.1.getLast? ≠ some ' ') :
    goTypes U replace noPtr comps = .ok file ↔
      ∃ es, EntriesAs U noPtr comps es ∧
        (∀ a ∈ es, ∀ b ∈ es, a.name = b.name → a.src = b.src) ∧ file = fileOf es := by
  constructor
  · intro h
    rcases typesFor_simple (noPtr := noPtr) L comps hs with ⟨e, he⟩ | ⟨es, hes⟩
    · rw [goTypes, OGen.file, he] at h
      cases h
    · rcases goTypes_entries (replace := replace) L hn hes with ⟨ha, hok⟩ | ⟨_, e, he⟩
      · rw [hok] at h
        injection h with h
        exact ⟨es, hes, ha, h.symm⟩
      · rw [he] at h
        cases h
  · rintro ⟨es, hes, ha, rfl⟩
    rcases goTypes_entries (replace := replace) L hn hes with ⟨_, hok⟩ | ⟨hna, _⟩
    · exact hok
    · exact absurd ha hna

/-- **C194**.  Otherwise there is an error, never a panic. -/
theorem C194_no_panic (L : UniLaws U) {replace : Str → Str} {comps : List (Str × OS)}
    (hs : ∀ c ∈ comps, Simple c.2)
    (hn : ∀ c ∈ comps, c.1 ≠ [] ∧ c.1.getLast? ≠ some ' ') :
    (∃ file, goTypes U replace noPtr comps = .ok file) ∨
      ∃ e, goTypes U replace noPtr comps = .err e := by
  rcases typesFor_simple (noPtr := noPtr) L comps hs with ⟨e, he⟩ | ⟨es, hes⟩
  · exact .inr ⟨e, by rw [goTypes, OGen.file, he]; rfl⟩
  · rcases goTypes_entries (replace := replace) L hn hes with ⟨_, hok⟩ | ⟨_, he⟩
    · exact .inl ⟨_, hok⟩
    · exact .inr he

/-- A struct with an optional enumeration, an array of another, and a map of structs with a
third; and an array of enumerations that is a component. -/
def nestedComps : List (Str × OS) :=
  [("Foo".toList, .obj true []
     (.cons "mode".toList false false (.prim .string [] ["on".toList, "off".toList])
     (.cons "my_sizes".toList true false (.arr (.prim .integer [] ["1".toList]))
     (.cons "rest".toList true false (.obj true [] .nil (.of (.obj true []
       (.cons "kind".toList true false (.prim .string [] ["a".toList]) .nil) .no .nil)) .nil)
      .nil))) .no .nil),
   ("List".toList, .arr (.prim .string [] ["x".toList]))]

private def isFile (ds : List Decl) : Res (List Decl) → Bool
  | .ok ds' => decide (ds' = ds)
  | _ => false

private theorem isFile_eq {ds : List Decl} {r : Res (List Decl)} (h : isFile ds r = true) :
    r = .ok ds := by
  cases r with
  | ok ds' => rw [of_decide_eq_true h]
  | _ => cases h

/-- The hypotheses hold, and this is the file: `FooRestKind` is used and not declared. -/
example : (∀ c ∈ nestedComps, Simple c.2) ∧
    (∀ c ∈ nestedComps, c.1 ≠ [] ∧ c.1.getLast? ≠ some ' ') ∧
    goTypes ascii id false nestedComps = .ok
      [.consts [], .consts ["FooMode".toList], .consts ["FooMySizes".toList],
       .typ ["// Foo defines model for Foo.".toList] "Foo".toList (.struct
        (.cons ⟨"Mode".toList, .key "mode".toList true⟩ (.star (.ident "FooMode".toList))
        (.cons ⟨"MySizes".toList, .key "my_sizes".toList false⟩ (.arr (.ident "FooMySizes".toList))
        (.cons ⟨"Rest".toList, .key "rest".toList false⟩ (.map (.ident "string".toList) (.struct
          (.cons ⟨"Kind".toList, .key "kind".toList false⟩ (.ident "FooRestKind".toList) .nil)))
         .nil)))),
       .typ ["// FooMode defines model for Foo.Mode.".toList] "FooMode".toList
         (.ident "string".toList),
       .typ ["// FooMySizes defines model for Foo.MySizes.".toList] "FooMySizes".toList
         (.ident "int".toList),
       .typ ["// List defines model for List.".toList] "List".toList
         (.arr (.ident "string".toList))] := by
  refine ⟨?_, by decide, isFile_eq (by decide +kernel)⟩
  intro c hc
  rcases List.mem_cons.1 hc with rfl | hc
  · simp [Simple, SimplePs, SimpleA]
  · rcases List.mem_cons.1 hc with rfl | hc
    · trivial
    · cases hc

end Thema.Props

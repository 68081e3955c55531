import Verif.Spec.AllTypes
import Verif.Lemmas.AllTypes
import Verif.Props.NestedTypes
import Verif.Props.OGenOrder

/-!
# The Go types of schemas with additional properties, alternatives and parts (C195)
-/

namespace Thema.Props

open GoTypes OGen GoJson GoNames PlainTypes NestedTypes AllTypes

variable {U : Uni} {noPtr : Bool}

private abbrev Ent := AllTypes.Entry

/-- What is written for a definition. -/
private def entOf (noPtr : Bool) (td : TD) : Ent :=
  ⟨td.name, td.json, td.described, dep noPtr td.decl, td.src⟩

private theorem names_eq' (L : UniLaws U) : goName U = typeName U :=
  funext fun n => (C192_name L n).symm

private theorem nested_name (L : UniLaws U) (path : List Str) :
    nestedName U path = typeName U (pathName U path) := by
  unfold nestedName pathName
  rw [← C192_name L, show camel U = letters U from funext (camel_letters L)]

private theorem joined_name (L : UniLaws U) (path : List Str) : joined U path = pathName U path := by
  unfold joined pathName
  rw [show camel U = letters U from funext (camel_letters L)]

private theorem nested_json (L : UniLaws U) (path : List Str) :
    nestedJson U path = jsonName U path := by
  unfold nestedJson jsonName
  rw [show camel U = letters U from funext (camel_letters L)]

/-- With additional properties and fields besides. -/
private def hasAddl : OS → Bool
  | .obj _ allOf ps a alts => a ≠ .no ∧ (withRefs allOf ps ≠ .nil ∨ alts ≠ .nil)
  | _ => false

private def hasAlts : OS → Bool
  | .obj _ _ _ _ alts => alts ≠ .nil
  | _ => false

private theorem open_iff (s : OS) : isOpen s = (hasAddl s || hasAlts s) := by
  cases s with
  | obj typed l ps a alts =>
    simp only [isOpen, hasAddl, hasAlts]
    by_cases h1 : alts = .nil <;> by_cases h2 : withRefs l ps = .nil <;> by_cases h3 : a = .no <;> simp [h1, h2, h3]
  | _ => rfl

private def srcIs (p : OS → Bool) : Option OS → Bool
  | some s => p s
  | none => false

private theorem srcIs_source {p : OS → Bool} (hp : ∀ n, p (.ref n) = false) (s : OS) :
    srcIs p (source s) = p s := by
  cases s with
  | ref n => exact (hp n).symm
  | _ => rfl

/-- The flags of a definition say what its schema is. -/
private def Flags (td : TD) : Prop :=
  td.addl = srcIs hasAddl td.src ∧ td.union = srcIs hasAlts td.src ∧
    (!td.enum.isEmpty) = srcIs isEnum td.src

/-- What holds of what is used in a container. -/
private structure UsedFits (noPtr : Bool) (s : OS) (t : GT) (n o : List Ent) (g : GSch) : Prop where
  inner : g.inner = false
  skip : g.skipPtr = rawJson s
  dep : GoTypes.dep noPtr g.typeDecl = t
  star : ∀ u, g.typeDecl ≠ .star u
  nested : g.nested.map (entOf noPtr) = n
  own : g.own.map (entOf noPtr) = o
  flags : ∀ td ∈ g.defs, Flags td

/-- What holds of a generated schema. -/
private structure GenFits (noPtr : Bool) (s : OS) (t : GT) (n o : List Ent) (g : GSch) : Prop
    extends UsedFits noPtr s t n o g where
  addl : g.addl = hasAddl s
  union : g.union = hasAlts s
  enum : (!g.enum.isEmpty) = isEnum s
  src : g.src = source s
  ref : isOpen s = true → g.refType = none

private theorem td_flags {s : OS} {t : GT} {n o : List Ent} {g : GSch} (h : GenFits noPtr s t n o g)
    (name json : Str) (d : Bool) : Flags { g.td name json with described := d } := by
  refine ⟨?_, ?_, ?_⟩
  · show g.addl = srcIs hasAddl g.src
    rw [h.addl, h.src, srcIs_source (fun _ => rfl)]
  · show g.union = srcIs hasAlts g.src
    rw [h.union, h.src, srcIs_source (fun _ => rfl)]
  · show (!g.enum.isEmpty) = srcIs isEnum g.src
    rw [h.enum, h.src, srcIs_source (fun _ => rfl)]

/-- Naming what is used. -/
private def name (U : Uni) (path : List Str) (s : OS) (g : GSch) : GSch :=
  if isOpen s then g.named (pathName U path) (jsonName U path) else g

private theorem name_fits (L : UniLaws U) {s : OS} {t : GT} {n o : List Ent} {g : GSch}
    (h : GenFits noPtr s t n o g) (path : List Str) :
    UsedFits noPtr s (used U path s t o).1 n (used U path s t o).2 (name U path s g) := by
  unfold name used
  cases ho : isOpen s with
  | false =>
    simp only [Bool.false_eq_true, if_false]
    exact h.toUsedFits
  | true =>
    simp only [if_true]
    refine ⟨h.inner, h.skip, ?_, (by nofun), h.nested, ?_, ?_⟩
    · rw [joined_name L]; rfl
    · simp only [GSch.named, List.map_append, h.own, List.map_cons, List.map_nil]
      congr 1
      simp only [entOf, GSch.td, h.dep, h.src, joined_name L, nested_json L]
    · intro td htd
      simp only [GSch.defs, GSch.named] at htd
      rw [← List.append_assoc] at htd
      rcases List.mem_append.1 htd with htd | htd
      · exact h.flags td htd
      · rw [List.mem_singleton] at htd
        subst htd
        exact td_flags h _ _ false

private theorem open_none {s : OS} {t : GT} {n o : List Ent} {g : GSch}
    (h : GenFits noPtr s t n o g) :
    ((g.addl || g.union) && g.refType.isNone) = isOpen s := by
  rw [h.addl, h.union, ← open_iff]
  cases ho : isOpen s with
  | false => rfl
  | true => rw [h.ref ho]; rfl

private theorem genProp_name {s : OS} {t : GT} {n o : List Ent} {g : GSch}
    (h : GenFits noPtr s t n o g) (path : List Str) : genProp U path g = name U path s g := by
  unfold genProp name
  rw [open_none h]

private theorem genAddl_name {s : OS} {t : GT} {n o : List Ent} {g : GSch}
    (h : GenFits noPtr s t n o g) (path : List Str) :
    genAddl U path g = name U (path ++ ["AdditionalProperties".toList]) s g := by
  unfold genAddl name
  rw [h.addl, h.union, ← open_iff]

private theorem genArr_name {s : OS} {t : GT} {n o : List Ent} {g : GSch}
    (h : GenFits noPtr s t n o g) (path : List Str) (src : OS) :
    genArr U path src g =
      let a := name U (path ++ ["Item".toList]) s g
      { goType := .arr a.typeDecl, nested := a.nested, own := a.own, src := some src } := by
  unfold genArr name
  simp only
  rw [open_none h]

private theorem raw_prim' (k : Kind) (f : Str) (e : List Str) :
    rawJson (.prim k f e) = decide (k = .string ∧ f = "json".toList) := by
  cases k <;> simp [rawJson]

private theorem genPrim_eq {k : Kind} {f : Str} {e : List Str} {t : GT} {path : List Str}
    (hb : BasicType k f t) :
    genPrim U path k f e =
      let s : GSch :=
        { goType := t, skipPtr := decide (k = .string ∧ f = "json".toList), enum := e,
          src := some (.prim k f e) }
      .ok (if !e.isEmpty && 1 < path.length then
        s.named (typeName U (pathName U path)) (jsonName U path) else s) := by
  rcases primType_basic (k := k) (f := f) with ⟨_, _, hn⟩ | ⟨t', ht', hpt⟩
  · exact absurd hb (hn t)
  · obtain rfl := basic_unique hb ht'
    rw [genPrim, hpt]
    simp only [Res.bind]
    split <;> rfl

/-- The field of a property. -/
private theorem field_used (L : UniLaws U) {m : Str} {r nl : Bool} {s : OS} {t : GT}
    {n o : List Ent} {g : GSch} (h : UsedFits noPtr s t n o g) :
    let p : Prop' := ⟨m, r, nl, g⟩
    (p.field U).1 = ⟨goName U m, .key m (!r && !nl)⟩ ∧
      depField noPtr (p.field U).2 = NestedTypes.fieldType noPtr r nl s t := by
  intro p
  have hf : p.field U = (⟨typeName U m, .key m (!(r || nl))⟩,
      if !g.skipPtr && (!r || nl) then .star g.typeDecl else g.typeDecl) := by
    unfold Prop'.field
    simp only [p, h.inner, Bool.false_eq_true, if_false]
  rw [hf, names_eq' L]
  refine ⟨by simp [Bool.not_or], ?_⟩
  unfold NestedTypes.fieldType
  have hd := h.dep
  have hs := h.star
  rw [h.skip]
  generalize g.typeDecl = u at *
  subst hd
  cases hj : rawJson s with
  | true =>
    simp only [Bool.not_true, Bool.false_and, Bool.false_eq_true, if_false, and_false,
      Bool.true_eq_false]
    cases u with
    | star x => exact absurd rfl (hs x)
    | _ => rfl
  | false =>
    simp only [Bool.not_false, Bool.true_and]
    by_cases ho : r = false ∨ nl = true
    · have : (!r || nl) = true := by rcases ho with rfl | rfl <;> simp
      rw [this, if_pos rfl]
      cases u with
      | star x => exact absurd rfl (hs x)
      | ident _ => cases noPtr <;>
        simp only [depField, GoTypes.dep, nilable, ho, and_self, if_true,
          if_false, Bool.false_eq_true, Bool.true_eq_false, false_and]
      | sel _ _ => cases noPtr <;>
        simp only [depField, GoTypes.dep, nilable, ho, and_self, if_true,
          if_false, Bool.false_eq_true, Bool.true_eq_false, false_and]
      | struct _ => cases noPtr <;>
        simp only [depField, GoTypes.dep, nilable, ho, and_self, if_true,
          if_false, Bool.false_eq_true, Bool.true_eq_false, false_and]
      | arr _ => simp [depField, GoTypes.dep, nilable]
      | map _ _ => simp [depField, GoTypes.dep, nilable]
    · have : (!r || nl) = false := by
        cases r <;> cases nl <;> simp_all
      rw [this, if_neg (by simp), if_neg (by rintro ⟨_, h, _⟩; exact ho h)]
      cases u with
      | star x => exact absurd rfl (hs x)
      | _ => rfl

/-- A schema without definitions. -/
private theorem GenFits.plain {s : OS} {t : GT} {g : GSch} (h1 : g.inner = false)
    (h2 : g.addl = hasAddl s) (h3 : g.union = hasAlts s) (h4 : (!g.enum.isEmpty) = isEnum s)
    (h5 : g.src = source s) (h6 : g.skipPtr = rawJson s) (h7 : GoTypes.dep noPtr g.typeDecl = t)
    (h8 : ∀ u, g.typeDecl ≠ .star u) (h9 : g.nested = []) (h10 : g.own = [])
    (h11 : g.refType = none) :
    GenFits noPtr s t [] [] g := by
  refine ⟨⟨h1, h6, h7, h8, by rw [h9]; rfl, by rw [h10]; rfl, ?_⟩, h2, h3, h4, h5, fun _ => h11⟩
  intro td htd
  rw [GSch.defs, h9, h10] at htd
  cases htd

private theorem struct_tail {a : OAs} {u : GT} {alts : OEs} (l : List Prop') :
    genStruct U l (if a = .no then none else some u) (alts ≠ .nil) =
      .struct (fieldsOf U (tailOf a u alts) l) := by
  unfold genStruct tailOf rawMessage id'
  by_cases ha : a = .no <;> by_cases h : alts = .nil <;> simp [ha, h]

private theorem dep_tail {a : OAs} {u u' : GT} {alts : OEs} (hu : dep noPtr u' = u) :
    depFs noPtr (tailOf a u' alts) = tailOf a u alts := by
  subst hu
  unfold tailOf
  by_cases ha : a = .no <;> by_cases h : alts = .nil <;>
    simp [ha, h, depFs, depField, GoTypes.dep]

private theorem place_ne (n : Str) (ps : OPs) : place n ps ≠ .nil := by
  cases ps with
  | nil => nofun
  | cons => unfold place; split <;> [nofun; (split <;> nofun)]

private theorem placeAll_nil : ∀ {l : List Str} {ps : OPs},
    l.foldl (fun ps n => place n ps) ps = .nil ↔ ps = .nil ∧ l = []
  | [], ps => by simp
  | n :: l, ps => by
    rw [List.foldl_cons, placeAll_nil]
    simp [place_ne]

/-- No fields: the condition of the generator. -/
private theorem withRefs_nil {allOf : List Str} {ps : OPs} :
    withRefs allOf ps = .nil ↔ ps = .nil ∧ allOf.all (·.contains '_') = true := by
  unfold withRefs
  rw [placeAll_nil]
  refine and_congr Iff.rfl ?_
  rw [List.filter_eq_nil_iff, List.all_eq_true]
  simp

private theorem genPs_place (n : Str) : ∀ {ps : OPs} {path : List Str} {l : List Prop'},
    genPs U path ps = .ok l → genPs U path (place n ps) = .ok (setInner n l)
  | .nil, path, l, h => by
    rw [genPs] at h
    injection h with h
    subst h
    rfl
  | .cons m r nl s ps, path, l, h => by
    have h0 := h
    rw [genPs] at h
    obtain ⟨a, ha, h⟩ := bind_ok h
    obtain ⟨l', hl, h⟩ := bind_ok h
    injection h with h
    subst h
    unfold place setInner
    dsimp only
    by_cases h1 : n = m
    · rw [if_pos h1, if_pos h1, genPs, gen]
      simp only [Res.bind]
      rw [hl]
      rfl
    · rw [if_neg h1, if_neg h1]
      by_cases h2 : n.map Char.toNat < m.map Char.toNat
      · rw [if_pos h2, if_pos ((strLt_iff ..).2 h2), genPs, gen]
        simp only [Res.bind]
        rw [h0]
        rfl
      · rw [if_neg h2, if_neg (fun hc => h2 ((strLt_iff ..).1 hc)), genPs, ha]
        simp only [Res.bind]
        rw [genPs_place n hl]

private theorem genPs_refs : ∀ {allOf : List Str} {ps : OPs} {path : List Str} {l : List Prop'},
    genPs U path ps = .ok l → genPs U path (withRefs allOf ps) = .ok (embed allOf l)
  | [], ps, path, l, h => h
  | n :: allOf, ps, path, l, h => by
    unfold withRefs
    rw [embed, List.filter_cons]
    cases hu : n.contains '_' with
    | true =>
      rw [if_pos rfl, if_neg (by simpa using hu)]
      exact genPs_refs h
    | false =>
      have hm : '_' ∉ n := by simpa using hu
      rw [if_neg (show ¬ false = true by simp), if_pos (decide_eq_true hm)]
      exact genPs_refs (allOf := allOf) (genPs_place n h)

private theorem place_fields (n : Str) : ∀ {path : List Str} {last : GFs} {ps : OPs} {fs : GFs}
    {es : List Ent}, FieldsAt U noPtr path last ps fs es →
    ∃ fs' es', FieldsAt U noPtr path last (place n ps) fs' es'
  | _, _, _, _, _, .nil => ⟨_, _, .ref .nil⟩
  | path, last, .cons m r nl s ps, _, _, h => by
    unfold place
    split
    · cases h with
      | cons h1 h2 => exact ⟨_, _, .ref h2⟩
      | ref h2 => exact ⟨_, _, .ref h2⟩
    · split
      · exact ⟨_, _, .ref h⟩
      · cases h with
        | cons h1 h2 =>
          obtain ⟨_, _, h⟩ := place_fields n h2
          exact ⟨_, _, .cons h1 h⟩
        | ref h2 =>
          obtain ⟨_, _, h⟩ := place_fields n h2
          exact ⟨_, _, .ref h⟩

private theorem placeAll_fields {path : List Str} {last : GFs} : ∀ {l : List Str} {ps : OPs} {fs : GFs}
    {es : List Ent}, FieldsAt U noPtr path last ps fs es →
    ∃ fs' es', FieldsAt U noPtr path last (l.foldl (fun ps n => place n ps) ps) fs' es'
  | [], _, _, _, h => ⟨_, _, h⟩
  | n :: l, _, _, _, h => by
    obtain ⟨_, _, h⟩ := place_fields n h
    exact placeAll_fields (l := l) h

mutual
private theorem gen_at (L : UniLaws U) : ∀ {path : List Str} {s : OS} {t : GT} {n o : List Ent},
    AllTypes.TypeAt U noPtr path s t n o → ∃ g, gen U path s = .ok g ∧ GenFits noPtr s t n o g
  | _, _, _, _, _, .ref => ⟨_, by rw [gen], .plain rfl rfl rfl rfl rfl rfl (by rw [names_eq' L]; rfl)
      (by nofun) rfl rfl rfl⟩
  | path, .prim k f [], t, _, _, .basic hb => by
    refine ⟨_, by rw [gen]; exact genPrim_eq hb, ?_⟩
    rw [if_neg (by simp)]
    exact .plain rfl rfl rfl rfl rfl (raw_prim' ..).symm (basic_dep hb).1 (basic_star hb) rfl rfl rfl
  | path, .prim k f (v :: e), t, _, _, .bare hb hp => by
    refine ⟨_, by rw [gen]; exact genPrim_eq hb, ?_⟩
    rw [if_neg (by simp; omega)]
    exact .plain rfl rfl rfl rfl rfl (raw_prim' ..).symm (basic_dep hb).1 (basic_star hb) rfl rfl rfl
  | path, .prim k f (v :: e), _, _, _, .enum (t := t) hb hp => by
    refine ⟨_, by rw [gen]; exact genPrim_eq hb, ?_⟩
    rw [if_pos (by simp; omega)]
    refine ⟨⟨rfl, (raw_prim' ..).symm, ?_, (by nofun), rfl, ?_, ?_⟩, rfl, rfl, rfl, rfl, (by nofun)⟩
    · rw [nested_name L]; rfl
    · rw [nested_name L, nested_json L]
      simp only [GSch.named, List.nil_append, List.map_cons, List.map_nil, entOf, GSch.td,
        GSch.typeDecl, (basic_dep hb).1]
    · intro td htd
      simp only [GSch.defs, GSch.named, List.nil_append, List.mem_singleton] at htd
      subst htd
      exact ⟨rfl, rfl, rfl⟩
  | path, .arr s, _, _, _, .arr h => by
    obtain ⟨a, ha, hok⟩ := gen_at L h
    refine ⟨genArr U path (.arr s) a, by rw [gen, ha]; rfl, ?_⟩
    rw [genArr_name hok]
    have hu := name_fits L hok (path ++ ["Item".toList])
    refine ⟨⟨rfl, rfl, ?_, (by nofun), hu.nested, hu.own, hu.flags⟩, rfl, rfl, rfl, rfl, fun _ => rfl⟩
    show GoTypes.dep noPtr (.arr _) = _
    rw [GoTypes.dep, hu.dep]
  | path, _, _, _, _, .any hw => ⟨_, by rw [gen]; exact if_pos ⟨withRefs_nil.1 hw, rfl, rfl⟩,
      .plain rfl (by simp [hasAddl]) rfl rfl rfl rfl rfl (by nofun) rfl rfl rfl⟩
  | path, _, _, _, _, .object hw => ⟨_, by rw [gen]; exact if_pos ⟨withRefs_nil.1 hw, rfl, rfl⟩,
      .plain rfl (by simp [hasAddl]) rfl rfl rfl rfl rfl (by nofun) rfl rfl rfl⟩
  | path, .obj typed allOf ps a .nil, _, _, o, .map hw hno h => by
    obtain ⟨g, hg, hd, ho, hf, _⟩ := genA_at L h
    refine ⟨?_, ?_, ?_⟩
    rotate_left
    · rw [gen, if_neg (by simp [hno]), hg]
      simp only [Res.bind]
      rw [if_pos ⟨withRefs_nil.1 hw, trivial⟩]
    · refine ⟨⟨rfl, rfl, ?_, (by nofun), rfl, ho, ?_⟩, ?_, rfl, rfl, rfl, fun _ => rfl⟩
      · show GoTypes.dep noPtr (.map _ g.typeDecl) = _
        rw [GoTypes.dep, hd]
        rfl
      · intro td htd
        exact hf td htd
      · simp [hasAddl, hw]
  | path, .obj typed allOf ps a alts, .struct fs, n, _,
      .struct (u := u) (o := o) (o' := o') hne ha hq hp he => by
    obtain ⟨g, hg, hd, ho, hf, _⟩ := genA_at L ha
    obtain ⟨l, hl, _⟩ := genPs_at L hq
    obtain ⟨l', hl', hfs, hdefs, hflat⟩ := genPs_at L hp
    rw [genPs_refs hl] at hl'
    injection hl' with hl'
    subst hl'
    obtain ⟨es, hes, hee, hef⟩ := genEs_at L he
    have hnn : ¬ ((ps = .nil ∧ allOf.all (·.contains '_') = true) ∧ alts = .nil) := by
      rw [← withRefs_nil]
      rintro ⟨h1, h2⟩
      rcases hne with h | h
      · exact h h1
      · exact h h2
    refine ⟨?_, ?_, ?_⟩
    rotate_left
    · rw [gen, if_neg (fun h => hnn ⟨h.1, h.2.2⟩), hg]
      simp only [Res.bind]
      rw [if_neg hnn, hl]
      simp only
      rw [hes]
    · refine ⟨⟨rfl, rfl, ?_, (by nofun), hdefs, ?_, ?_⟩, ?_, rfl, rfl, rfl, fun _ => rfl⟩
      · show GoTypes.dep noPtr (genStruct U (embed allOf l) _ _) = _
        rw [struct_tail, GoTypes.dep, hfs _ (dep_tail hd)]
      · show (g.own ++ es).map _ = _
        rw [List.map_append, ho, hee]
      · intro td htd
        rcases List.mem_append.1 htd with h | h
        · exact hflat td h
        · rcases List.mem_append.1 h with h | h
          · exact hf td h
          · exact hef td h
      · show decide (a ≠ .no) = hasAddl _
        simp [hasAddl, hne]
private theorem genA_at (L : UniLaws U) : ∀ {path : List Str} {a : OAs} {u : GT} {o : List Ent},
    AddlAt U noPtr path a u o → ∃ g, genA U path a = .ok g ∧ dep noPtr g.typeDecl = u ∧
      g.own.map (entOf noPtr) = o ∧ (∀ td ∈ g.own, Flags td) ∧ True
  | _, _, _, _, .no => ⟨_, by rw [genA], rfl, rfl, by simp, trivial⟩
  | _, _, _, _, .free => ⟨_, by rw [genA], rfl, rfl, by simp, trivial⟩
  | path, .of s, _, _, .of h => by
    obtain ⟨a, ha, hok⟩ := gen_at L h
    have hu := name_fits L hok (path ++ ["AdditionalProperties".toList])
    refine ⟨_, by rw [genA, ha]; rfl, ?_⟩
    rw [genAddl_name hok]
    exact ⟨hu.dep, hu.own, fun td htd => hu.flags td (List.mem_append_right _ htd), trivial⟩
private theorem genPs_at (L : UniLaws U) : ∀ {path : List Str} {last : GFs}
    {ps : OPs} {fs : GFs} {es : List Ent}, FieldsAt U noPtr path last ps fs es →
    ∃ l, genPs U path ps = .ok l ∧
      (∀ last', depFs noPtr last' = last → depFs noPtr (fieldsOf U last' l) = fs) ∧
      (l.flatMap fun p => p.s.defs).map (entOf noPtr) = es ∧
      ∀ td ∈ l.flatMap (fun p => p.s.defs), Flags td
  | path, _, _, _, _, .nil => ⟨[], rfl, fun _ h => h, rfl, by simp⟩
  | path, _, .cons m r nl s ps, _, _, .cons (fs := fs) (n := n) (o := o) (es := es) h1 h2 => by
    obtain ⟨g, hg, hok⟩ := gen_at L h1
    obtain ⟨l, hl, hfs, hdefs, hflat⟩ := genPs_at L h2
    have hu := name_fits L hok (path ++ [m])
    obtain ⟨f1, f2⟩ := field_used L (m := m) (r := r) (nl := nl) hu
    refine ⟨_, by rw [genPs, hg]; simp only [Res.bind]; rw [hl], ?_, ?_, ?_⟩
    · intro u' hu'
      simp only [fieldsOf, depFs]
      rw [genProp_name hok, f1, f2, hfs u' hu']
    · rw [List.flatMap_cons, List.map_append, hdefs, genProp_name hok, GSch.defs, List.map_append,
        hu.nested, hu.own]
    · intro td htd
      rw [List.flatMap_cons, genProp_name hok] at htd
      rcases List.mem_append.1 htd with h | h
      · exact hu.flags td h
      · exact hflat td h
  | path, _, .cons m r nl .inner ps, _, _, .ref h => by
    obtain ⟨l, hl, hfs, hdefs, hflat⟩ := genPs_at L h
    refine ⟨_, by rw [genPs, gen]; simp only [Res.bind]; rw [hl], ?_, ?_, ?_⟩
    · intro u' hu'
      simp only [fieldsOf, depFs]
      rw [hfs u' hu', names_eq' L]
      cases r <;> cases nl <;> rfl
    · rw [List.flatMap_cons, List.map_append, hdefs]
      rfl
    · intro td htd
      rw [List.flatMap_cons] at htd
      exact hflat td htd
private theorem genEs_at (L : UniLaws U) : ∀ {path : List Str} {i : Nat} {alts : OEs}
    {es : List Ent}, AltsAt U noPtr path i alts es →
    ∃ l, genEs U path i alts = .ok l ∧ l.map (entOf noPtr) = es ∧ ∀ td ∈ l, Flags td
  | _, _, _, _, .nil => ⟨[], rfl, rfl, fun _ h => nomatch h⟩
  | path, i, .cons d (.ref m) alts, _, .ref h => by
    obtain ⟨l, hl, he, hf⟩ := genEs_at L h
    exact ⟨l, by rw [genEs, gen]; simp only [Res.bind]; rw [hl], he, hf⟩
  | path, i, .cons d s alts, _, .cons (t := t) hs h1 h2 => by
    obtain ⟨g, hg, hok⟩ := gen_at L h1
    obtain ⟨l, hl, he, hf⟩ := genEs_at L h2
    refine ⟨{ g.td (typeName U (pathName U (path ++ [digits i]))) [] with described := d } :: l,
      ?_, ?_, ?_⟩
    · rw [genEs, hg]
      simp only [Res.bind]
      rw [hl]
    · rw [List.map_cons, he]
      congr 1
      simp only [entOf, GSch.td, hok.dep, hok.src, nested_name L]
      rfl
    · intro td htd
      rcases List.mem_cons.1 htd with rfl | htd
      · exact td_flags hok _ _ d
      · exact hf td htd
end

mutual
private theorem gen_all (L : UniLaws U) : ∀ (s : OS), InDoc s → ∀ path,
    (∃ e, gen U path s = .err e) ∨ ∃ t n o, AllTypes.TypeAt U noPtr path s t n o
  | .ref n, _, path => .inr ⟨_, _, _, .ref⟩
  | .prim k f e, h, path => by
    rcases primType_basic (k := k) (f := f) with ⟨e, he, _⟩ | ⟨t, ht, _⟩
    · exact .inl ⟨e, by rw [gen, genPrim, he]; rfl⟩
    · cases e with
      | nil => exact .inr ⟨t, _, _, .basic ht⟩
      | cons v e =>
        by_cases hp : 1 < path.length
        · exact .inr ⟨_, _, _, .enum ht hp⟩
        · exact .inr ⟨_, _, _, .bare ht (by omega)⟩
  | .arr s, h, path => by
    rw [InDoc] at h
    rcases gen_all L s h path with ⟨e, he⟩ | ⟨t, n, o, ht⟩
    · exact .inl ⟨e, by rw [gen, he]; rfl⟩
    · exact .inr ⟨_, _, _, .arr ht⟩
  | .inner, h, path => by rw [InDoc] at h; exact h.elim
  | .obj typed allOf ps a es, h, path => by
    rw [InDoc] at h
    obtain ⟨ha, hps, hes⟩ := h
    by_cases hnn : (ps = .nil ∧ allOf.all (·.contains '_') = true) ∧ es = .nil
    · obtain ⟨hw, rfl⟩ := hnn
      have hw := withRefs_nil.2 hw
      by_cases hno : a = .no
      · subst hno
        cases typed
        · exact .inr ⟨_, _, _, .any hw⟩
        · exact .inr ⟨_, _, _, .object hw⟩
      · rcases genA_all L a ha path with ⟨e, he⟩ | ⟨u, o, hu⟩
        · refine .inl ⟨e, ?_⟩
          rw [gen, if_neg (by simp [hno]), he]
          rfl
        · exact .inr ⟨_, _, _, .map hw hno hu⟩
    · have hne : withRefs allOf ps ≠ .nil ∨ es ≠ .nil := by
        by_cases h : withRefs allOf ps = .nil
        · exact .inr fun h' => hnn ⟨withRefs_nil.1 h, h'⟩
        · exact .inl h
      rcases genA_all L a ha path with ⟨e, he⟩ | ⟨u, o, hu⟩
      · refine .inl ⟨e, ?_⟩
        rw [gen, if_neg (fun h => hnn ⟨h.1, h.2.2⟩), he]
        rfl
      obtain ⟨g, hg, _⟩ := genA_at (noPtr := noPtr) L hu
      rcases genPs_all L ps hps a u es path with ⟨e, he⟩ | ⟨fs, n, hfs⟩
      · refine .inl ⟨e, ?_⟩
        rw [gen, if_neg (fun h => hnn ⟨h.1, h.2.2⟩), hg]
        simp only [Res.bind]
        rw [if_neg hnn, he]
      obtain ⟨l, hl, _⟩ := genPs_at (noPtr := noPtr) L hfs
      rcases genEs_all L es hes path 0 with ⟨e, he⟩ | ⟨o', ho'⟩
      · refine .inl ⟨e, ?_⟩
        rw [gen, if_neg (fun h => hnn ⟨h.1, h.2.2⟩), hg]
        simp only [Res.bind]
        rw [if_neg hnn, hl]
        simp only
        rw [he]
      · obtain ⟨_, _, hfs'⟩ := placeAll_fields (l := allOf.filter fun n => '_' ∉ n) hfs
        exact .inr ⟨_, _, _, .struct hne hu hfs hfs' ho'⟩
private theorem genA_all (L : UniLaws U) : ∀ (a : OAs), InDocA a → ∀ path,
    (∃ e, genA U path a = .err e) ∨ ∃ u o, AddlAt U noPtr path a u o
  | .no, _, _ => .inr ⟨_, _, .no⟩
  | .free, _, _ => .inr ⟨_, _, .free⟩
  | .of s, h, path => by
    rw [InDocA] at h
    rcases gen_all L s h path with ⟨e, he⟩ | ⟨t, n, o, ht⟩
    · exact .inl ⟨e, by rw [genA, he]; rfl⟩
    · exact .inr ⟨_, _, .of ht⟩
private theorem genPs_all (L : UniLaws U) : ∀ (ps : OPs), InDocPs ps → ∀ a u alts path,
    (∃ e, genPs U path ps = .err e) ∨
      ∃ fs es, AllTypes.FieldsAt U noPtr path (tailOf a u alts) ps fs es
  | .nil, _, _, _, _, path => .inr ⟨_, _, .nil⟩
  | .cons n r nl s ps, h, a, u, alts, path => by
    rw [InDocPs] at h
    rcases gen_all L s h.1 (path ++ [n]) with ⟨e, he⟩ | ⟨t, n', o, ht⟩
    · exact .inl ⟨e, by rw [genPs, he]; rfl⟩
    obtain ⟨g, hg, _⟩ := gen_at (noPtr := noPtr) L ht
    rcases genPs_all L ps h.2 a u alts path with ⟨e, he⟩ | ⟨fs, es, hfs⟩
    · exact .inl ⟨e, by rw [genPs, hg]; simp only [Res.bind]; rw [he]⟩
    · exact .inr ⟨_, _, .cons ht hfs⟩
private theorem genEs_all (L : UniLaws U) : ∀ (es : OEs), InDocEs es → ∀ path i,
    (∃ e, genEs U path i es = .err e) ∨ ∃ l, AltsAt U noPtr path i es l
  | .nil, _, _, _ => .inr ⟨_, .nil⟩
  | .cons d s es, h, path, i => by
    rw [InDocEs] at h
    rcases gen_all L s h.1 path with ⟨e, he⟩ | ⟨t, n, o, ht⟩
    · exact .inl ⟨e, by rw [genEs, he]; rfl⟩
    obtain ⟨g, hg, _⟩ := gen_at (noPtr := noPtr) L ht
    rcases genEs_all L es h.2 path (i + 1) with ⟨e, he⟩ | ⟨l, hl⟩
    · exact .inl ⟨e, by rw [genEs, hg]; simp only [Res.bind]; rw [he]⟩
    · by_cases hr : ∃ m, s = .ref m
      · obtain ⟨m, rfl⟩ := hr
        exact .inr ⟨_, .ref hl⟩
      · exact .inr ⟨_, .cons (fun m hm => hr ⟨m, hm⟩) ht hl⟩
end

/-! ### What holds of the types -/

private theorem basic_flat {k : Kind} {f : Str} {t : GT} (h : BasicType k f t) : Flat t := by
  cases h <;> simp [Flat]

private theorem fields_ne_nil : ∀ {path : List Str} {last fs : GFs} {ps : OPs} {es : List Ent},
    AllTypes.FieldsAt U noPtr path last ps fs es → last ≠ .nil → fs ≠ .nil
  | _, _, _, _, _, .nil, h => h
  | _, _, _, _, _, .cons _ _, _ => by nofun
  | _, _, _, _, _, .ref _, _ => by nofun

private theorem tail_ne {a : OAs} {u : GT} {alts : OEs} (h : alts ≠ .nil ∨ a ≠ .no) :
    tailOf a u alts ≠ .nil := by
  unfold tailOf
  dsimp only
  split
  · rename_i ha
    rw [if_neg (h.resolve_right fun h => h ha)]
    nofun
  · nofun

private theorem tail_raw {a : OAs} {u : GT} {alts : OEs} (h : alts ≠ .nil) :
    isRaw (.struct (tailOf a u alts)) = decide (a = .no) := by
  unfold tailOf
  dsimp only
  rw [if_neg h]
  by_cases ha : a = .no
  · rw [if_pos ha, decide_eq_true ha]
    rfl
  · rw [if_neg ha, decide_eq_false ha]
    rfl

private theorem not_raw {f : Field} {t : GT} {fs : GFs} (h : fs ≠ .nil) :
    isRaw (.struct (.cons f t fs)) = false := by
  cases fs with
  | nil => exact absurd rfl h
  | cons _ _ _ => cases t <;> rfl

private theorem typeAt_raw {path : List Str} {s : OS} {t : GT} {n o : List Ent}
    (h : AllTypes.TypeAt U noPtr path s t n o) (ho : isOpen s = true) :
    isRaw t = onlyAlts s := by
  cases h with
  | struct hne ha hq hp he =>
    rename_i allOf ps a alts u _ _ _ _ _
    have hl : withRefs allOf ps ≠ .nil → tailOf a u alts ≠ .nil := fun _ => by
      simp only [isOpen, ne_eq, decide_eq_true_eq] at ho
      exact tail_ne (ho.imp id fun h => h.2)
    simp only [onlyAlts]
    generalize withRefs allOf ps = qs at *
    cases hp with
    | nil =>
      have hb : alts ≠ .nil := hne.resolve_left fun h => h rfl
      rw [tail_raw hb]
      by_cases hno : a = .no <;> simp [hno, hb]
    | cons h1 h2 =>
      rw [not_raw (fields_ne_nil h2 (hl (by nofun)))]
      simp
    | ref h2 =>
      rw [not_raw (fields_ne_nil h2 (hl (by nofun)))]
      simp
  | map hw _ _ => simp [isOpen, hw] at ho
  | any hw => simp [isOpen] at ho
  | object hw => simp [isOpen] at ho
  | _ => simp [isOpen] at ho

/-- What is needed of an entry. -/
private structure EntOk (e : Ent) : Prop where
  flat : Flat e.type
  raw : e.is isOpen = true → isRaw e.type = e.is onlyAlts
  doc : e.json = [] ∨ (e.json ≠ [] ∧ e.json.getLast? ≠ some ' ' ∧ e.described = false)

private theorem is_source {name json : Str} {d : Bool} {t : GT} {p : OS → Bool} {s : OS}
    (hp : ∀ n, p (.ref n) = false) :
    AllTypes.Entry.is p ⟨name, json, d, t, source s⟩ = p s := by
  cases s with
  | ref n => exact (hp n).symm
  | _ => rfl

private theorem ent_ok {path : List Str} {s : OS} {t : GT} {n o : List Ent} {name json : Str} {d : Bool}
    (h : AllTypes.TypeAt U noPtr path s t n o) (hf : Flat t)
    (hd : json = [] ∨ (json ≠ [] ∧ json.getLast? ≠ some ' ' ∧ d = false)) :
    EntOk ⟨name, json, d, t, source s⟩ := by
  refine ⟨hf, ?_, hd⟩
  rw [is_source (fun _ => rfl), is_source (fun _ => rfl)]
  exact typeAt_raw h

private theorem json_ok (L : UniLaws U) {path : List Str} (h : 1 < path.length) :
    nestedJson U path ≠ [] ∧ (nestedJson U path).getLast? ≠ some ' ' := by
  rw [nested_json L]
  refine ⟨?_, fun hl => jsonName_no_space L _ (List.mem_of_getLast? hl)⟩
  match path, h with
  | a :: b :: r, _ => exact jsonName_ne_nil _ _ _

private theorem used_ok (L : UniLaws U) {path path' : List Str} {s : OS} {t : GT} {n o : List Ent}
    (h : AllTypes.TypeAt U noPtr path s t n o) (hp : 1 < path'.length)
    (hf : Flat t) (ho : ∀ e ∈ o, EntOk e) :
    Flat (used U path' s t o).1 ∧ ∀ e ∈ (used U path' s t o).2, EntOk e := by
  unfold used
  split
  · refine ⟨by simp only [Flat], ?_⟩
    intro e he
    rcases List.mem_append.1 he with he | he
    · exact ho e he
    · rw [List.mem_singleton] at he
      subst he
      have := json_ok L hp
      exact ent_ok h hf (.inr ⟨this.1, this.2, rfl⟩)
  · exact ⟨hf, ho⟩

private theorem fieldType_flat {r nl : Bool} {s : OS} {t : GT} (h : Flat t) :
    FlatF (NestedTypes.fieldType noPtr r nl s t) := by
  unfold NestedTypes.fieldType
  split
  · rename_i hc
    rw [FlatF]
    refine ⟨h, ?_, ?_⟩
    · rintro e rfl
      simp [nilable] at hc
    · rintro k v rfl
      simp [nilable] at hc
  · exact h.field

private theorem tail_flat {a : OAs} {u : GT} {alts : OEs} (hu : Flat u) :
    FlatFs (tailOf a u alts) := by
  unfold tailOf
  by_cases ha : a = .no <;> by_cases h : alts = .nil <;> simp [ha, h, FlatFs, FlatF, hu]

mutual
private theorem typeAt_ok (L : UniLaws U) : ∀ {path : List Str} {s : OS} {t : GT} {n o : List Ent},
    AllTypes.TypeAt U noPtr path s t n o → path ≠ [] →
    Flat t ∧ (∀ e ∈ n, EntOk e) ∧ ∀ e ∈ o, EntOk e
  | _, _, _, _, _, .ref, _ => ⟨by simp only [Flat], by simp, by simp⟩
  | _, .prim k f [], t, _, _, .basic hb, _ => ⟨basic_flat hb, by simp, by simp⟩
  | _, .prim k f (v :: e), t, _, _, .bare hb _, _ => ⟨basic_flat hb, by simp, by simp⟩
  | path, .prim k f (v :: e), _, _, _, .enum (t := t) hb hp, _ => by
    refine ⟨by simp only [Flat], by simp, ?_⟩
    intro e he
    rw [List.mem_singleton] at he
    subst he
    have := json_ok L hp
    exact ⟨basic_flat hb, by nofun, .inr ⟨this.1, this.2, rfl⟩⟩
  | path, .arr s, _, _, _, .arr h, hp => by
    obtain ⟨h1, h2, h3⟩ := typeAt_ok L h hp
    obtain ⟨u1, u2⟩ := used_ok L (path' := path ++ ["Item".toList]) h
      (by cases path <;> simp_all) h1 h3
    exact ⟨by rw [Flat]; exact u1, h2, u2⟩
  | _, _, _, _, _, .any _, _ => ⟨by simp only [Flat], by simp, by simp⟩
  | _, _, _, _, _, .object _, _ => ⟨by simp only [Flat, and_self], by simp, by simp⟩
  | path, .obj typed allOf ps a .nil, _, _, o, .map _ hno h, hp => by
    obtain ⟨h1, h2⟩ := addlAt_ok L h hp
    exact ⟨by rw [Flat]; exact ⟨rfl, h1⟩, by simp, h2⟩
  | path, .obj typed allOf ps a alts, .struct fs, n, _, .struct hne ha _ hf he, hp => by
    obtain ⟨h1, h2⟩ := addlAt_ok L ha hp
    obtain ⟨h3, h4⟩ := fieldsAt_ok L hf (tail_flat h1) hp
    refine ⟨by rw [Flat]; exact h3, h4, ?_⟩
    intro e hm
    rcases List.mem_append.1 hm with hm | hm
    · exact h2 e hm
    · exact altsAt_ok L he hp e hm
private theorem addlAt_ok (L : UniLaws U) : ∀ {path : List Str} {a : OAs} {u : GT} {o : List Ent},
    AddlAt U noPtr path a u o → path ≠ [] → Flat u ∧ ∀ e ∈ o, EntOk e
  | _, _, _, _, .no, _ => ⟨by simp only [Flat], by simp⟩
  | _, _, _, _, .free, _ => ⟨by simp only [Flat], by simp⟩
  | path, .of s, _, _, .of h, hp => by
    obtain ⟨h1, h2, h3⟩ := typeAt_ok L h hp
    exact used_ok L h (by cases path <;> simp_all) h1 h3
private theorem fieldsAt_ok (L : UniLaws U) : ∀ {path : List Str} {last : GFs}
    {ps : OPs} {fs : GFs} {es : List Ent},
    AllTypes.FieldsAt U noPtr path last ps fs es → FlatFs last → path ≠ [] →
    FlatFs fs ∧ ∀ e ∈ es, EntOk e
  | path, _, _, _, _, .nil, hu, _ => ⟨hu, by simp⟩
  | path, _, .cons m r nl s ps, _, _, .cons h1 h2, hu, hp => by
    obtain ⟨t1, t2, t3⟩ := typeAt_ok L h1 (by simp)
    obtain ⟨u1, u2⟩ := used_ok L (path' := path ++ [m]) h1 (by cases path <;> simp_all) t1 t3
    obtain ⟨f1, f2⟩ := fieldsAt_ok L h2 hu hp
    refine ⟨by rw [FlatFs]; exact ⟨fieldType_flat u1, f1⟩, ?_⟩
    intro e he
    rcases List.mem_append.1 he with he | he
    · rcases List.mem_append.1 he with he | he
      · exact t2 e he
      · exact u2 e he
    · exact f2 e he
  | path, _, .cons m r nl .inner ps, _, _, .ref h, hu, hp => by
    obtain ⟨f1, f2⟩ := fieldsAt_ok L h hu hp
    exact ⟨by rw [FlatFs]; exact ⟨by simp only [FlatF], f1⟩, f2⟩
private theorem altsAt_ok (L : UniLaws U) : ∀ {path : List Str} {i : Nat} {alts : OEs}
    {es : List Ent}, AltsAt U noPtr path i alts es → path ≠ [] → ∀ e ∈ es, EntOk e
  | _, _, _, _, .nil, _ => by simp
  | path, i, .cons d (.ref m) alts, _, .ref h, hp => altsAt_ok L h hp
  | path, i, .cons d s alts, _, .cons hs h1 h2, hp => by
    intro e he
    rcases List.mem_cons.1 he with rfl | he
    · exact ent_ok h1 (typeAt_ok L h1 hp).1 (.inl rfl)
    · exact altsAt_ok L h2 hp e he
end

/-! ### The rewritings -/

/-- The comment as generated. -/
private def rawDoc (e : Ent) : Str :=
  if e.described then "// ".toList ++ e.name ++ " is described".toList else comment e.name e.json

private theorem unnamed_anon {e : Ent} (h : EntOk e) : unnamed [rawDoc e] = e.anonymous := by
  unfold rawDoc Entry.anonymous
  rcases h.doc with hj | ⟨h1, h2, h3⟩
  · cases hd : e.described with
    | true =>
      rw [if_pos rfl, unnamed]
      simp only [List.reverse_append]
      rw [decide_eq_false (by simp)]
      show List.isPrefixOf ('.' :: _) ('d' :: _) = false
      rfl
    | false =>
      rw [if_neg (by simp), decide_eq_true ⟨hj, rfl⟩, hj, comment, unnamed]
      simp only [List.reverse_append, List.append_nil, List.append_assoc]
      rw [← List.append_assoc, List.isPrefixOf_iff_prefix]
      exact ⟨" ".toList ++ (e.name.reverse ++ "// ".toList.reverse), rfl⟩
  · rw [if_neg (by simp [h3]), comment, not_unnamed h1 h2, decide_eq_false (fun h => h1 h.1)]

private def declE (e : Ent) : Decl := .typ [rawDoc e] e.name e.type

private def AllFuncs (ds : List Decl) : Prop := ∀ d ∈ ds, ∃ r m, d = .func (some r) m

private theorem scan_funcs (raw : List Str) : ∀ (ds : List Decl) (ex : List Str), AllFuncs ds →
    ∃ ex', scan ds raw ex = .ok ex' ∧
      ∀ n, n ∈ ex' ↔ n ∈ ex ∨ (n ∈ raw ∧ ∃ m, Decl.func (some n) m ∈ ds)
  | [], ex, _ => ⟨ex, rfl, by simp⟩
  | d :: ds, ex, h => by
    obtain ⟨r, m, rfl⟩ := h d (List.mem_cons_self ..)
    obtain ⟨ex', h1, h2⟩ := scan_funcs raw ds (if raw.contains r then r :: ex else ex)
      fun d hd => h d (List.mem_cons_of_mem _ hd)
    refine ⟨ex', by rw [scan, h1], ?_⟩
    intro n
    rw [h2]
    constructor
    · rintro (h | ⟨hr, m', hm'⟩)
      · split at h
        · rename_i hc
          rcases List.mem_cons.1 h with rfl | h
          · exact .inr ⟨List.contains_iff_mem.1 hc, m, List.mem_cons_self ..⟩
          · exact .inl h
        · exact .inl h
      · exact .inr ⟨hr, m', List.mem_cons_of_mem _ hm'⟩
    · rintro (h | ⟨hr, m', hm'⟩)
      · left
        split
        · exact List.mem_cons_of_mem _ h
        · exact h
      · rcases List.mem_cons.1 hm' with heq | hm'
        · injection heq with h1 h2
          injection h1 with h1
          subst h1
          left
          rw [if_pos (List.contains_iff_mem.2 hr)]
          exact List.mem_cons_self ..
        · exact .inr ⟨hr, m', hm'⟩

private theorem scan_types (ds : List Decl) : ∀ (es : List Ent) (raw : List Str),
    ∃ raw', scan (es.map declE ++ ds) raw [] = scan ds raw' [] ∧
      ∀ n, n ∈ raw' ↔ n ∈ raw ∨ ∃ e ∈ es, e.name = n ∧ isRaw e.type = true
  | [], raw => ⟨raw, rfl, by simp⟩
  | e :: es, raw => by
    obtain ⟨raw', h1, h2⟩ := scan_types ds es (if isRaw e.type then e.name :: raw else raw)
    refine ⟨raw', by rw [List.map_cons, List.cons_append, declE, scan, h1], ?_⟩
    intro n
    rw [h2]
    constructor
    · rintro (h | ⟨e', he', hn, hr⟩)
      · split at h
        · rename_i hc
          rcases List.mem_cons.1 h with rfl | h
          · exact .inr ⟨e, List.mem_cons_self .., rfl, hc⟩
          · exact .inl h
        · exact .inl h
      · exact .inr ⟨e', List.mem_cons_of_mem _ he', hn, hr⟩
    · rintro (h | ⟨e', he', hn, hr⟩)
      · left
        split
        · exact List.mem_cons_of_mem _ h
        · exact h
      · rcases List.mem_cons.1 he' with rfl | he'
        · left
          rw [if_pos hr, ← hn]
          exact List.mem_cons_self ..
        · exact .inr ⟨e', he', hn, hr⟩

private theorem scan_consts (ds : List Decl) (raw : List Str) : ∀ (cs : List (List Str)),
    scan (cs.map Decl.consts ++ ds) raw [] = scan ds raw []
  | [] => rfl
  | c :: cs => by rw [List.map_cons, List.cons_append, scan, scan_consts ds raw cs]

private theorem sweep_funcs (ex : List Str) : ∀ (ds : List Decl), AllFuncs ds →
    sweep ex false ds = .ok []
  | [], _ => rfl
  | d :: ds, h => by
    obtain ⟨r, m, rfl⟩ := h d (List.mem_cons_self ..)
    rw [sweep, sweep_funcs ex ds fun d hd => h d (List.mem_cons_of_mem _ hd)]

private theorem sweep_types {ex : List Str} {gone : Str → Bool} (hg : ∀ n, ex.contains n = gone n)
    {ds : List Decl} (hds : AllFuncs ds) : ∀ (k : Nat) (es : List Ent), es.length ≤ k →
    (∀ e ∈ es, EntOk e) → ((∃ e ∈ es, gone e.name = true) → ds ≠ []) →
    sweep ex false (es.map declE ++ ds) = .ok ((survivors gone es).map fun e =>
      .typ [rawDoc e] e.name (iterTop (rawName ex) e.type))
  | _, [], _, _, _ => by
    rw [survivors]
    exact sweep_funcs ex ds hds
  | 0, _ :: _, hk, _, _ => by simp at hk
  | k + 1, e :: es, hk, hok, hne => by
    have he := hok e (List.mem_cons_self ..)
    have hk' : es.length ≤ k := by simpa using hk
    have ih := sweep_types hg hds k es hk' (fun x hx => hok x (List.mem_cons_of_mem _ hx))
      (fun ⟨x, hx, h⟩ => hne ⟨x, List.mem_cons_of_mem _ hx, h⟩)
    rw [survivors, List.map_cons, List.cons_append, declE, sweep.eq_def]
    dsimp only
    rw [unnamed_anon he, hg]
    by_cases ha : e.anonymous = true <;> by_cases hgn : gone e.name = true
    · rw [if_pos (by simp [ha, hgn]), if_pos ⟨ha, hgn⟩]
      cases es with
      | nil =>
        have := hne ⟨e, List.mem_cons_self .., hgn⟩
        cases ds with
        | nil => exact absurd rfl this
        | cons d ds =>
          simp only [List.map_nil, List.nil_append, List.tail_nil, Bool.false_eq_true, if_false]
          rw [survivors]
          exact sweep_funcs ex ds fun d hd => hds d (List.mem_cons_of_mem _ hd)
      | cons e' es =>
        simp only [List.map_cons, List.cons_append, List.tail_cons, Bool.false_eq_true, if_false]
        exact sweep_types hg hds k es (by simp at hk'; omega)
          (fun x hx => hok x (List.mem_cons_of_mem _ (List.mem_cons_of_mem _ hx)))
          (fun ⟨x, hx, h⟩ => hne ⟨x, List.mem_cons_of_mem _ (List.mem_cons_of_mem _ hx), h⟩)
    · rw [if_neg (by simp [hgn]), if_pos (by simp [ha]), if_neg (fun h => hgn h.2), if_pos (.inl ha)]
      exact ih
    · rw [if_neg (by simp [ha]), if_pos (by simp [hgn]), if_neg (fun h => ha h.1), if_pos (.inr hgn)]
      exact ih
    · rw [if_neg (by simp [ha]), if_neg (by simp [ha, hgn]), if_neg (fun h => ha h.1),
        if_neg (by simp [ha, hgn]), ih]
      rfl

private theorem sweep_consts (ex : List Str) {ds r : List Decl}
    (h : sweep ex false ds = .ok r) : ∀ (cs : List (List Str)),
    sweep ex false (cs.map Decl.consts ++ ds) = .ok (cs.map Decl.consts ++ r)
  | [] => h
  | c :: cs => by
    rw [List.map_cons, List.cons_append, sweep, sweep_consts ex h cs]
    rfl

private theorem ren_spec (n : Str) : ren n = n.filter (· ≠ '_') := by
  unfold ren
  congr 1
  funext c
  by_cases h : c = '_' <;> simp [h]

private theorem underscores (replace : Str → Str) {ex : List Str} {gone : Str → Bool}
    (hg : ∀ n, ex.contains n = gone n) : ∀ (es : List Ent), (∀ e ∈ es, EntOk e) →
    fixUnderscores replace (es.map fun e =>
      .typ [rawDoc e] e.name (iterTop (rawName ex) e.type)) =
      .ok (es.map (declOf replace gone))
  | [], _ => rfl
  | e :: es, h => by
    have he := h e (List.mem_cons_self ..)
    rw [List.map_cons, fixUnderscores, underscores replace hg es fun x hx => h x (List.mem_cons_of_mem _ hx)]
    have hr : rawName ex = fun n => if gone n then "any".toList else n := by
      funext n
      rw [rawName, hg]
    have hren : ren = fun n => n.filter (· ≠ '_') := funext ren_spec
    simp only [usDecl, renDoc, Res.bind, List.map_cons]
    rw [iterTop_subst _ _ he.flat, visit_iterTop _ (flat_substDecl _ he.flat), hr, declOf, docOf,
      ren_spec, hren]
    congr 3
    by_cases hu : '_' ∈ e.name
    · rw [if_pos hu, if_pos hu]; rfl
    · rw [if_neg hu, if_neg hu]; rfl

private theorem underscores_consts (replace : Str → Str) {ds r : List Decl}
    (h : fixUnderscores replace ds = .ok r) : ∀ (cs : List (List Str)),
    fixUnderscores replace (cs.map Decl.consts ++ ds) = .ok (cs.map Decl.consts ++ r)
  | [] => h
  | c :: cs => by
    rw [List.map_cons, List.cons_append, fixUnderscores, underscores_consts replace h cs]
    rfl

/-! ### The file -/

private theorem typesFor_at (L : UniLaws U) : ∀ {cs : List (Str × OS)} {es : List Ent},
    AllTypes.EntriesAs U noPtr cs es → ∃ ts, typesFor U cs = .ok ts ∧ ts.map (entOf noPtr) = es ∧
      ∀ td ∈ ts, Flags td
  | _, _, .nil => ⟨[], rfl, rfl, fun _ h => nomatch h⟩
  | (m, s) :: cs, _, .cons h1 h2 => by
    obtain ⟨g, hg, hok⟩ := gen_at L h1
    obtain ⟨ts, h, he, hf⟩ := typesFor_at L h2
    refine ⟨g.td (typeName U m) m :: (g.defs ++ ts), ?_, ?_, ?_⟩
    · rw [typesFor, hg]
      simp only [Res.bind]
      rw [h]
    · rw [List.map_cons, List.map_append, GSch.defs, List.map_append, hok.nested, hok.own, he,
        names_eq' L]
      congr 1
      simp only [entOf, GSch.td, hok.dep, hok.src]
    · intro td htd
      rcases List.mem_cons.1 htd with rfl | htd
      · exact td_flags hok _ _ false
      rcases List.mem_append.1 htd with htd | htd
      · exact hok.flags td htd
      · exact hf td htd

private theorem typesFor_all (L : UniLaws U) : ∀ (cs : List (Str × OS)), (∀ c ∈ cs, InDoc c.2) →
    (∃ e, typesFor U cs = .err e) ∨ ∃ es, AllTypes.EntriesAs U noPtr cs es
  | [], _ => .inr ⟨_, .nil⟩
  | (m, s) :: cs, h => by
    rcases gen_all (noPtr := noPtr) L s (h _ (List.mem_cons_self ..)) [m] with
      ⟨e, he⟩ | ⟨t, n, o, ht⟩
    · exact .inl ⟨e, by rw [typesFor, he]; rfl⟩
    obtain ⟨g, hg, _⟩ := gen_at (noPtr := noPtr) L ht
    rcases typesFor_all L cs (fun c hc => h c (List.mem_cons_of_mem _ hc)) with ⟨e, he⟩ | ⟨es, hes⟩
    · exact .inl ⟨e, by rw [typesFor, hg]; simp only [Res.bind]; rw [he]⟩
    · exact .inr ⟨_, .cons ht hes⟩

private theorem entries_ok (L : UniLaws U) : ∀ {cs : List (Str × OS)} {es : List Ent},
    AllTypes.EntriesAs U noPtr cs es → (∀ c ∈ cs, c.1 ≠ [] ∧ c.1.getLast? ≠ some ' ') →
    ∀ e ∈ es, EntOk e
  | _, _, .nil, _ => fun _ h => nomatch h
  | (m, s) :: cs, _, .cons h1 h2, hn => by
    intro e he
    obtain ⟨t1, t2, t3⟩ := typeAt_ok L h1 (by simp)
    rcases List.mem_cons.1 he with rfl | he
    · have := hn (m, s) (List.mem_cons_self ..)
      exact ent_ok h1 t1 (.inr ⟨this.1, this.2, rfl⟩)
    rcases List.mem_append.1 he with he | he
    · rcases List.mem_append.1 he with he | he
      · exact t2 e he
      · exact t3 e he
    · exact entries_ok L h2 (fun c hc => hn c (List.mem_cons_of_mem _ hc)) e he

private theorem firstTDs_ents : ∀ (ts : List TD) (names : List Str),
    (firstTDs names ts).map (entOf noPtr) =
      (AllTypes.firstOfName (ts.map (entOf noPtr))).filter fun e => e.name ∉ names
  | [], _ => rfl
  | t :: ts, names => by
    rw [firstTDs, List.map_cons, AllTypes.firstOfName, List.filter_cons]
    by_cases h : t.name ∈ names
    · rw [if_pos (List.contains_iff_mem.2 h), if_neg (fun hd => (of_decide_eq_true (p := ¬ (entOf noPtr t).name ∈ names) hd) h),
        firstTDs_ents ts names, List.filter_filter]
      refine List.filter_congr fun e _ => ?_
      by_cases he : e.name ∈ names
      · simp [he]
      · have : e.name ≠ (entOf noPtr t).name := fun hh => he (by rw [hh]; exact h)
        simp [he, this]
    · rw [if_neg (fun hc => h (List.contains_iff_mem.1 hc)), if_pos (decide_eq_true (p := ¬ (entOf noPtr t).name ∈ names) h),
        List.map_cons, firstTDs_ents ts (t.name :: names), List.filter_filter]
      congr 1
      refine List.filter_congr fun e _ => ?_
      simp only [List.mem_cons, not_or, entOf]
      rw [Bool.decide_and, Bool.and_comm]
      rfl

private theorem mem_first {e : Ent} : ∀ {es : List Ent}, e ∈ AllTypes.firstOfName es → e ∈ es
  | [], h => h
  | x :: es, h => by
    rw [AllTypes.firstOfName] at h
    rcases List.mem_cons.1 h with rfl | h
    · exact List.mem_cons_self ..
    · exact List.mem_cons_of_mem _ (mem_first (List.mem_filter.1 h).1)

private theorem first_exists {e : Ent} : ∀ {es : List Ent}, e ∈ es →
    ∃ e' ∈ AllTypes.firstOfName es, e'.name = e.name
  | x :: es, h => by
    rw [AllTypes.firstOfName]
    by_cases hx : x.name = e.name
    · exact ⟨x, List.mem_cons_self .., hx⟩
    · rcases List.mem_cons.1 h with rfl | h
      · exact absurd rfl hx
      · obtain ⟨e', he', hn⟩ := first_exists h
        refine ⟨e', List.mem_cons_of_mem _ (List.mem_filter.2 ⟨he', ?_⟩), hn⟩
        rw [hn]
        exact decide_eq_true fun h => hx h.symm

private theorem mem_survivors {gone : Str → Bool} {e : Ent} : ∀ (k : Nat) (es : List Ent),
    es.length ≤ k → e ∈ survivors gone es → e ∈ es
  | _, [], _, h => by rw [survivors] at h; exact h
  | 0, _ :: _, hk, _ => by simp at hk
  | k + 1, x :: es, hk, h => by
    have hk' : es.length ≤ k := by simpa using hk
    rw [survivors] at h
    split at h
    · have := mem_survivors k es.tail (by simp; omega) h
      exact List.mem_cons_of_mem _ (List.mem_of_mem_tail this)
    · split at h
      · exact List.mem_cons_of_mem _ (mem_survivors k es hk' h)
      · rcases List.mem_cons.1 h with rfl | h
        · exact List.mem_cons_self ..
        · exact List.mem_cons_of_mem _ (mem_survivors k es hk' h)

private theorem is_srcIs (p : OS → Bool) (td : TD) : (entOf noPtr td).is p = srcIs p td.src := by
  unfold Entry.is entOf srcIs
  cases td.src <;> rfl

private theorem is_congr {p : OS → Bool} {a b : Ent} (h : a.src = b.src) : a.is p = b.is p := by
  unfold Entry.is
  rw [h]

private theorem alts_of_only {e : Option OS} (h : srcIs onlyAlts e = true) :
    srcIs hasAlts e = true ∧ srcIs isOpen e = true := by
  cases e with
  | none => cases h
  | some s =>
    cases s with
    | obj typed l ps a alts =>
      simp only [srcIs, onlyAlts, hasAlts, isOpen, decide_eq_true_eq] at h ⊢
      exact ⟨h.1, .inl h.1⟩
    | _ => cases h

private theorem open_of {e : Option OS} (h : srcIs hasAddl e = true ∨ srcIs hasAlts e = true) :
    srcIs isOpen e = true := by
  cases e with
  | none => rcases h with h | h <;> cases h
  | some s =>
    simp only [srcIs] at h ⊢
    rw [open_iff]
    rcases h with h | h <;> simp [h]

private theorem goTypes_at (L : UniLaws U) {replace : Str → Str} {comps : List (Str × OS)}
    {es : List Ent} (hn : ∀ c ∈ comps, c.1 ≠ [] ∧ c.1.getLast? ≠ some ' ')
    (h : AllTypes.EntriesAs U noPtr comps es) :
    ((∀ a ∈ es, ∀ b ∈ es, a.name = b.name → a.src = b.src) ∧
      goTypes U replace noPtr comps = .ok (AllTypes.fileOf replace es)) ∨
    (¬ (∀ a ∈ es, ∀ b ∈ es, a.name = b.name → a.src = b.src) ∧
      ∃ e, goTypes U replace noPtr comps = .err e) := by
  obtain ⟨ts, hts, he, hf⟩ := typesFor_at L h
  have hag : SrcAgree ts ↔ ∀ a ∈ es, ∀ b ∈ es, a.name = b.name → a.src = b.src := by
    rw [← he]
    constructor
    · intro hA a ha b hb hab
      obtain ⟨a', ha', rfl⟩ := List.mem_map.1 ha
      obtain ⟨b', hb', rfl⟩ := List.mem_map.1 hb
      exact hA a' ha' b' hb' hab
    · intro hA a ha b hb hab
      exact hA _ (List.mem_map_of_mem ha) _ (List.mem_map_of_mem hb) hab
  rcases dedupe_ok ts [] (fun _ h => nomatch h) with ⟨r, hr, ha⟩ | ⟨⟨e, hee⟩, hna⟩
  rotate_left
  · refine .inr ⟨fun hc => hna (by simpa using hag.2 hc), e, ?_⟩
    rw [goTypes, file, hts]
    simp only [Res.bind]
    rw [hee]
  rw [List.nil_append] at ha
  have hsame := hag.1 ha
  refine .inl ⟨hsame, ?_⟩
  have hok := entries_ok L h hn
  have hded : dedupe [] ts = .ok (firstTDs [] ts) := dedupe_agree ts [] [] (by simp) (by simpa using ha)
  have hfirst : (firstTDs [] ts).map (entOf noPtr) = AllTypes.firstOfName es := by
    rw [firstTDs_ents, he]
    simp
  -- the methods
  let ms : List Decl := ((firstTDs [] ts).filter (·.addl)).flatMap (fun t =>
      [Decl.func (some t.name) "Get".toList, Decl.func (some t.name) "Set".toList])
    ++ (ts.filter (·.union)).map (fun t => Decl.func (some t.name) "MarshalJSON".toList)
  have hms : AllFuncs ms := by
    intro d hd
    rcases List.mem_append.1 hd with hd | hd
    · obtain ⟨t, _, hd⟩ := List.mem_flatMap.1 hd
      rcases List.mem_cons.1 hd with rfl | hd
      · exact ⟨_, _, rfl⟩
      · rw [List.mem_singleton] at hd
        exact ⟨_, _, hd⟩
    · obtain ⟨t, _, rfl⟩ := List.mem_map.1 hd
      exact ⟨_, _, rfl⟩
  have hrecv : ∀ n m, Decl.func (some n) m ∈ ms → ∃ t ∈ ts, t.name = n ∧ srcIs isOpen t.src = true := by
    intro n m hd
    rcases List.mem_append.1 hd with hd | hd
    · obtain ⟨t, ht, hd⟩ := List.mem_flatMap.1 hd
      obtain ⟨ht, hadd⟩ := List.mem_filter.1 ht
      have ht' := mem_firstTDs ht
      refine ⟨t, ht', ?_, open_of (.inl ((hf t ht').1 ▸ hadd))⟩
      rcases List.mem_cons.1 hd with hd | hd
      · injection hd with h1
        injection h1 with h1
        exact h1.symm
      · rw [List.mem_singleton] at hd
        injection hd with h1
        injection h1 with h1
        exact h1.symm
    · obtain ⟨t, ht, hd⟩ := List.mem_map.1 hd
      obtain ⟨ht', hun⟩ := List.mem_filter.1 ht
      refine ⟨t, ht', ?_, open_of (.inr ((hf t ht').2.1 ▸ hun))⟩
      injection hd with h1
      injection h1
  have hmeth : ∀ e ∈ es, e.is onlyAlts = true → Decl.func (some e.name) "MarshalJSON".toList ∈ ms := by
    intro e hes ho
    rw [← he] at hes
    obtain ⟨t, ht, rfl⟩ := List.mem_map.1 hes
    rw [is_srcIs] at ho
    refine List.mem_append_right _ (List.mem_map.2 ⟨t, List.mem_filter.2 ⟨ht, ?_⟩, rfl⟩)
    rw [(hf t ht).2.1]
    exact (alts_of_only ho).1
  -- the constants and the types
  let cs : List (List Str) :=
    [] :: ((AllTypes.firstOfName es).filter (·.is isEnum)).map fun e => [e.name]
  have hfile : (file U comps).bind (fun ds => .ok (ds.map (depDecl noPtr))) =
      .ok (cs.map Decl.consts ++ ((AllTypes.firstOfName es).map declE ++ ms)) := by
    rw [file, hts]
    simp only [Res.bind]
    rw [hded]
    simp only [cs, List.map_cons, List.cons_append, List.map_append, List.append_assoc, List.map_map]
    have e1 : ((firstTDs [] ts).filter (fun t => !t.enum.isEmpty)).map
        (depDecl noPtr ∘ fun t => Decl.consts [t.name]) =
        ((AllTypes.firstOfName es).filter (·.is isEnum)).map (Decl.consts ∘ fun e => [e.name]) := by
      rw [← hfirst, List.filter_map, List.map_map]
      have : (firstTDs [] ts).filter (fun t => !t.enum.isEmpty) =
          (firstTDs [] ts).filter ((fun e : Ent => e.is isEnum) ∘ entOf noPtr) := by
        refine List.filter_congr fun t ht => ?_
        rw [(hf t (mem_firstTDs ht)).2.2, Function.comp, is_srcIs]
      rw [this]
      rfl
    have e2 : (firstTDs [] ts).map (depDecl noPtr ∘ fun t => Decl.typ t.doc t.name t.decl) =
        (AllTypes.firstOfName es).map declE := by
      rw [← hfirst, List.map_map]
      refine List.map_congr_left ?_
      intro t ht
      rfl
    have e3 : ∀ l : List TD, (l.flatMap (fun t => [Decl.func (some t.name) "Get".toList,
          Decl.func (some t.name) "Set".toList])).map (depDecl noPtr) =
        l.flatMap (fun t => [Decl.func (some t.name) "Get".toList,
          Decl.func (some t.name) "Set".toList]) := by
      intro l
      rw [List.map_flatMap]
      rfl
    rw [e1, e2, e3]
    rfl
  obtain ⟨raw, hraw, hrawm⟩ := scan_types ms (AllTypes.firstOfName es) []
  obtain ⟨ex, hex, hexm⟩ := scan_funcs raw ms [] hms
  have hgone : ∀ n, ex.contains n = lost es n := by
    intro n
    rw [Bool.eq_iff_iff, List.contains_iff_mem, hexm, hrawm, lost, List.any_eq_true]
    simp only [List.not_mem_nil, false_or, Bool.decide_and, Bool.and_eq_true, decide_eq_true_eq]
    constructor
    · rintro ⟨⟨e, hef, rfl, hr⟩, m, hm⟩
      obtain ⟨t, ht, htn, hto⟩ := hrecv _ m hm
      have hem := mem_first hef
      have hsrc : e.src = t.src := hsame e hem (entOf noPtr t) (he ▸ List.mem_map_of_mem ht) htn.symm
      have hop : e.is isOpen = true := by
        rw [is_congr (b := entOf noPtr t) hsrc, is_srcIs]
        exact hto
      exact ⟨e, hem, rfl, by rw [← (hok e hem).raw hop]; exact hr⟩
    · rintro ⟨e, hem, rfl, ho⟩
      obtain ⟨e', he', hn'⟩ := first_exists hem
      have hsrc := hsame e' (mem_first he') e hem hn'
      refine ⟨⟨e', he', hn', ?_⟩, _, hmeth e hem ho⟩
      have ho' : e'.is onlyAlts = true := by rw [is_congr hsrc]; exact ho
      rw [(hok e' (mem_first he')).raw ?_, ho']
      have : ∃ td, entOf noPtr td = e' := by
        have := mem_first he'
        rw [← he] at this
        obtain ⟨td, _, h⟩ := List.mem_map.1 this
        exact ⟨td, h⟩
      obtain ⟨td, rfl⟩ := this
      rw [is_srcIs] at ho' ⊢
      exact (alts_of_only ho').2
  have hfirstok : ∀ e ∈ AllTypes.firstOfName es, EntOk e := fun e he => hok e (mem_first he)
  have hsw := sweep_types hgone hms _ (AllTypes.firstOfName es) (Nat.le_refl _) hfirstok (by
    rintro ⟨e, he', hg⟩
    rw [lost, List.any_eq_true] at hg
    obtain ⟨x, hx, hc⟩ := hg
    have hc := of_decide_eq_true hc
    intro hnil
    have := hmeth x hx hc.2
    rw [hnil] at this
    cases this)
  have hfix : fixRawData (cs.map Decl.consts ++ ((AllTypes.firstOfName es).map declE ++ ms)) =
      .ok (cs.map Decl.consts ++ (survivors (lost es) (AllTypes.firstOfName es)).map fun e =>
        .typ [rawDoc e] e.name (iterTop (rawName ex) e.type)) := by
    unfold fixRawData
    rw [scan_consts, hraw, hex]
    exact sweep_consts ex hsw cs
  have hus := underscores_consts replace (underscores replace hgone
    (survivors (lost es) (AllTypes.firstOfName es))
    (fun e hm => hfirstok e (mem_survivors _ _ (Nat.le_refl _) hm))) cs
  rw [goTypes]
  cases hfl : file U comps with
  | ok ds =>
    rw [hfl] at hfile
    simp only [Res.bind] at hfile ⊢
    injection hfile with hfile
    rw [hfile, hfix]
    simp only
    rw [hus]
    simp only [AllTypes.fileOf, cs, List.map_cons, List.map_map, List.cons_append]
    rfl
  | err e => rw [hfl] at hfile; cases hfile
  | panic c => rw [hfl] at hfile; cases hfile
  | fuel => rw [hfl] at hfile; cases hfile

/-- **C195**.  For components of names that are not empty and do not end in a space, whose `allOf`
are of references, a file is generated exactly if all have types by the rules, and types of the same name are
for the same schema; the file has, with names without underscores and `any` in place of what has
nothing but alternatives, the types that are left, and nothing else. -/
theorem C195_types (L : UniLaws U) {replace : Str → Str} {comps : List (Str × OS)}
    {file : List Decl} (hs : ∀ c ∈ comps, InDoc c.2)
    (hn : ∀ c ∈ comps, c.1 ≠ [] ∧ c.1.getLast? ≠ some ' ') :
    goTypes U replace noPtr comps = .ok file ↔
      ∃ es, AllTypes.EntriesAs U noPtr comps es ∧
        (∀ a ∈ es, ∀ b ∈ es, a.name = b.name → a.src = b.src) ∧
        file = AllTypes.fileOf replace es := by
  constructor
  · intro h
    rcases typesFor_all (noPtr := noPtr) L comps hs with ⟨e, he⟩ | ⟨es, hes⟩
    · rw [goTypes, OGen.file, he] at h
      cases h
    · rcases goTypes_at (replace := replace) L hn hes with ⟨ha, hok⟩ | ⟨_, e, he⟩
      · rw [hok] at h
        injection h with h
        exact ⟨es, hes, ha, h.symm⟩
      · rw [he] at h
        cases h
  · rintro ⟨es, hes, ha, rfl⟩
    rcases goTypes_at (replace := replace) L hn hes with ⟨_, hok⟩ | ⟨hna, _⟩
    · exact hok
    · exact absurd ha hna

/-- **C195**.  Otherwise there is an error, never a panic. -/
theorem C195_no_panic (L : UniLaws U) {replace : Str → Str} {comps : List (Str × OS)}
    (hs : ∀ c ∈ comps, InDoc c.2)
    (hn : ∀ c ∈ comps, c.1 ≠ [] ∧ c.1.getLast? ≠ some ' ') :
    (∃ file, goTypes U replace noPtr comps = .ok file) ∨
      ∃ e, goTypes U replace noPtr comps = .err e := by
  rcases typesFor_all (noPtr := noPtr) L comps hs with ⟨e, he⟩ | ⟨es, hes⟩
  · exact .inr ⟨e, by rw [goTypes, OGen.file, he]; rfl⟩
  · rcases goTypes_at (replace := replace) L hn hes with ⟨_, hok⟩ | ⟨_, he⟩
    · exact .inl ⟨_, hok⟩
    · exact .inr he

/-- A struct with additional properties in a struct, in an array and in an array of maps; a
property that has nothing but alternatives, of which one has a description; and an enumeration in
a struct that is the element of a map. -/
def openComps : List (Str × OS) :=
  let o : OS := .obj true [] (.cons "a".toList true false (.prim .string [] []) .nil) .free .nil
  [("Foo".toList, .obj true []
     (.cons "alt".toList false false (.obj false [] .nil .no
       (.cons false (.prim .integer [] []) (.cons true (.prim .string [] ["x".toList]) .nil)))
     (.cons "in".toList false false o
     (.cons "list".toList true false (.arr o)
     (.cons "maps".toList true false (.arr (.obj true [] .nil (.of o) .nil))
     (.cons "rest".toList true false (.obj true [] .nil (.of (.obj true []
       (.cons "kind".toList true false (.prim .string [] ["b".toList]) .nil)
         (.of (.ref "Bar".toList)) .nil)) .nil)
      .nil))))) .no .nil)]

private def isFile' (ds : List Decl) : Res (List Decl) → Bool
  | .ok ds' => decide (ds' = ds)
  | _ => false

private theorem isFile'_eq {ds : List Decl} {r : Res (List Decl)} (h : isFile' ds r = true) :
    r = .ok ds := by
  cases r with
  | ok ds' => rw [of_decide_eq_true h]
  | _ => cases h

/-- The hypotheses hold, and this is the file: `FooAlt` is used and not declared, nor is
`FooRestKind`, and the map in the array keeps a name with underscores, which is gone. -/
example : (∀ c ∈ openComps, InDoc c.2) ∧
    (∀ c ∈ openComps, c.1 ≠ [] ∧ c.1.getLast? ≠ some ' ') ∧
    goTypes ascii id false openComps = .ok
      (let o : GT := .struct (.cons ⟨"A".toList, .key "a".toList false⟩ (.ident "string".toList)
        (.cons ⟨"AdditionalProperties".toList, .ignored⟩
          (.map (.ident "string".toList) (.ident "any".toList)) .nil))
      [.consts [], .consts ["FooAlt1".toList],
       .typ ["// Foo defines model for Foo.".toList] "Foo".toList (.struct
        (.cons ⟨"Alt".toList, .key "alt".toList true⟩ (.star (.ident "any".toList))
        (.cons ⟨"In".toList, .key "in".toList true⟩ (.star (.ident "FooIn".toList))
        (.cons ⟨"List".toList, .key "list".toList false⟩ (.arr (.ident "FooListItem".toList))
        (.cons ⟨"Maps".toList, .key "maps".toList false⟩ (.arr (.map (.ident "string".toList)
          (.ident "Foo_Maps_AdditionalProperties".toList)))
        (.cons ⟨"Rest".toList, .key "rest".toList false⟩ (.map (.ident "string".toList)
          (.ident "FooRestAdditionalProperties".toList)) .nil)))))),
       .typ ["// FooAlt1 is described".toList] "FooAlt1".toList (.ident "FooAlt".toList),
       .typ ["// Foo_In defines model for Foo.In.".toList] "FooIn".toList o,
       .typ ["// Foo_List_Item defines model for Foo.List.Item.".toList] "FooListItem".toList o,
       .typ ["// Foo_Maps_AdditionalProperties defines model for Foo.Maps.AdditionalProperties.".toList]
         "FooMapsAdditionalProperties".toList o,
       .typ ["// Foo_Rest_AdditionalProperties defines model for Foo.Rest.AdditionalProperties.".toList]
         "FooRestAdditionalProperties".toList (.struct
         (.cons ⟨"Kind".toList, .key "kind".toList false⟩ (.ident "FooRestKind".toList)
         (.cons ⟨"AdditionalProperties".toList, .ignored⟩
          (.map (.ident "string".toList) (.ident "Bar".toList)) .nil)))]) := by
  refine ⟨?_, by decide, isFile'_eq (by decide +kernel)⟩
  intro c hc
  rcases List.mem_cons.1 hc with rfl | hc
  · simp [InDoc, InDocPs, InDocA, InDocEs]
  · cases hc

/-- A property with additional properties that has parts, one in place of a required property and
one with an underscore in its name; and a struct whose only part has one. -/
def embComps : List (Str × OS) :=
  [("Foo".toList, .obj true []
     (.cons "in".toList true false (.obj true ["Zed".toList, "No_pe".toList, "Bar".toList]
       (.cons "Bar".toList true true (.prim .integer [] [])
       (.cons "a".toList false false (.prim .string [] ["x".toList]) .nil)) .free .nil) .nil)
     .no .nil),
   ("Nope".toList, .obj true ["No_pe".toList] .nil .no .nil)]

/-- The hypotheses hold, and this is the file. -/
example : (∀ c ∈ embComps, InDoc c.2) ∧
    (∀ c ∈ embComps, c.1 ≠ [] ∧ c.1.getLast? ≠ some ' ') ∧
    goTypes ascii id false embComps = .ok
      [.consts [], .consts ["FooInA".toList],
       .typ ["// Foo defines model for Foo.".toList] "Foo".toList (.struct
        (.cons ⟨"In".toList, .key "in".toList false⟩ (.ident "FooIn".toList) .nil)),
       .typ ["// FooInA defines model for Foo.In.A.".toList] "FooInA".toList
        (.ident "string".toList),
       .typ ["// Foo_In defines model for Foo.In.".toList] "FooIn".toList (.struct
        (.cons ⟨[], .key "Bar".toList false⟩ (.ident "Bar".toList)
        (.cons ⟨[], .none⟩ (.ident "Zed".toList)
        (.cons ⟨"A".toList, .key "a".toList true⟩ (.star (.ident "FooInA".toList))
        (.cons ⟨"AdditionalProperties".toList, .ignored⟩
          (.map (.ident "string".toList) (.ident "any".toList)) .nil))))),
       .typ ["// Nope defines model for Nope.".toList] "Nope".toList
        (.map (.ident "string".toList) (.ident "any".toList))] := by
  refine ⟨?_, by decide, isFile'_eq (by decide +kernel)⟩
  intro c hc
  rcases List.mem_cons.1 hc with rfl | hc
  · simp [InDoc, InDocPs, InDocA, InDocEs]
  · rw [List.mem_singleton] at hc
    subst hc
    simp [InDoc, InDocPs, InDocA, InDocEs]

end Thema.Props

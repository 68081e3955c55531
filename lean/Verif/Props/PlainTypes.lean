import Verif.Spec.PlainTypes
import Verif.Lemmas.OGenPipe

/-!
# The Go types of plain schemas (C191)
-/

namespace Thema.Props

open GoTypes OGen GoJson PlainTypes

variable {U : Uni} {noPtr : Bool}

theorem primType_basic {k : Kind} {f : Str} :
    (∃ e, primType k f = .err e ∧ ∀ t, ¬ BasicType k f t) ∨
      ∃ t, BasicType k f t ∧
        primType k f = .ok (t, decide (k = .string ∧ f = "json".toList)) := by
  cases k with
  | string =>
    by_cases h : f ∈ ["byte", "binary", "email", "date", "uuid", "date-time", "json"].map
      String.toList
    · simp only [List.map_cons, List.map_nil, List.mem_cons, List.not_mem_nil, or_false] at h
      rcases h with rfl | rfl | rfl | rfl | rfl | rfl | rfl
      · exact .inr ⟨_, .byte, rfl⟩
      · exact .inr ⟨_, .binary, rfl⟩
      · exact .inr ⟨_, .email, rfl⟩
      · exact .inr ⟨_, .date, rfl⟩
      · exact .inr ⟨_, .uuid, rfl⟩
      · exact .inr ⟨_, .time, rfl⟩
      · exact .inr ⟨_, .json, rfl⟩
    · refine .inr ⟨_, .string h, ?_⟩
      have hs : ∀ g : String, g.toList ∈ ["byte", "binary", "email", "date", "uuid", "date-time",
          "json"].map String.toList → (f == g.toList) = false := by
        intro g hg
        rw [beq_eq_false_iff_ne]
        rintro rfl
        exact h hg
      have hj := hs "json" (by decide)
      unfold primType
      simp only [hs "byte" (by decide), hs "binary" (by decide), hs "email" (by decide),
        hs "date" (by decide), hs "date-time" (by decide), hj,
        hs "uuid" (by decide), Bool.or_self, Bool.false_eq_true, if_false]
      rw [beq_eq_false_iff_ne] at hj
      rw [decide_eq_false (by rintro ⟨_, h⟩; exact hj h)]
      rfl
  | integer =>
    right
    unfold primType
    simp only
    split
    · rename_i hc
      refine ⟨_, .sized ?_, rfl⟩
      have hm := List.contains_iff_mem.1 hc
      simp only [List.map_cons, List.map_nil, List.mem_cons, List.not_mem_nil, or_false] at hm ⊢
      rcases hm with h' | h' | h' | h' | h' | h' | h' | h' | h' | h' <;> simp [h']
    · rename_i hc
      refine ⟨_, .int ?_, rfl⟩
      intro hm
      refine hc (List.contains_iff_mem.2 ?_)
      simp only [List.map_cons, List.map_nil, List.mem_cons, List.not_mem_nil, or_false] at hm ⊢
      rcases hm with h' | h' | h' | h' | h' | h' | h' | h' | h' | h' <;> simp [h']
  | number =>
    by_cases h1 : f = "double".toList
    · subst h1; exact .inr ⟨_, .double, rfl⟩
    by_cases h2 : f = "float".toList
    · subst h2; exact .inr ⟨_, .float, rfl⟩
    by_cases h3 : f = []
    · subst h3; exact .inr ⟨_, .number, rfl⟩
    left
    refine ⟨⟨[]⟩, ?_, ?_⟩
    · unfold primType
      simp only
      rw [if_neg (by simpa using h1), if_neg (by
        rw [Bool.or_eq_true]
        rintro (h | h)
        · exact h2 (eq_of_beq h)
        · exact h3 (eq_of_beq h))]
    · intro t ht
      cases ht with
      | double => exact h1 rfl
      | float => exact h2 rfl
      | number => exact h3 rfl
  | boolean =>
    by_cases h : f = []
    · subst h; exact .inr ⟨_, .bool, rfl⟩
    · left
      refine ⟨⟨[]⟩, ?_, ?_⟩
      · unfold primType
        simp only
        rw [if_pos (by simpa using h)]
      · intro t ht
        cases ht
        exact h rfl

theorem basic_unique {k : Kind} {f : Str} {t t' : GT} (h : BasicType k f t)
    (h' : BasicType k f t') : t = t' := by
  cases h <;> cases h' <;>
    first
    | rfl
    | (exfalso; rename_i h1 h2; exact h1 h2)
    | (exfalso; rename_i h1 h2; exact h2 h1)
    | (exfalso; rename_i h1; exact h1 (by decide))

theorem basic_dep {k : Kind} {f : Str} {t : GT} (h : BasicType k f t) :
    dep noPtr t = t ∧ ∀ n ∈ refs t, '_' ∉ n := by
  cases h with
  | sized h =>
    refine ⟨rfl, ?_⟩
    intro n hn
    simp only [refs, List.mem_singleton] at hn
    subst hn
    have : ∀ f ∈ ["int", "int8", "int16", "int32", "int64", "uint", "uint8", "uint16", "uint32",
      "uint64"].map String.toList, '_' ∉ f := by decide
    exact this _ h
  | _ => exact ⟨rfl, by decide⟩

/-- What holds of a schema generated for a plain one. -/
private structure Ok (noPtr : Bool) (s : OS) (t : GT) (g : GSch) : Prop where
  refType : g.refType = none
  inner : g.inner = false
  addl : g.addl = false
  union : g.union = false
  enum : g.enum = []
  nested : g.nested = []
  own : g.own = []
  skip : g.skipPtr = decide (s = .prim .string "json".toList [])
  dep : GoTypes.dep noPtr g.goType = t
  star : ∀ u, g.goType ≠ .star u

private theorem Ok.decl {s : OS} {t : GT} {g : GSch} (h : Ok noPtr s t g) :
    g.typeDecl = g.goType := by
  unfold GSch.typeDecl
  rw [h.refType]

private theorem genPrim_ok {k : Kind} {f : Str} {e : List Str} {t : GT} {path : List Str}
    (hb : BasicType k f t) (hp : e = [] ∨ path.length = 1) :
    genPrim U path k f e = .ok
      { goType := t, skipPtr := decide (k = .string ∧ f = "json".toList), enum := e,
        src := some (.prim k f e) } := by
  rcases primType_basic (k := k) (f := f) with ⟨_, _, hn⟩ | ⟨t', ht', hpt⟩
  · exact absurd hb (hn t)
  · obtain rfl := basic_unique hb ht'
    rw [genPrim, hpt]
    simp only [Res.bind]
    rw [if_neg]
    rcases hp with rfl | h
    · simp
    · simp [h]

theorem basic_star {k : Kind} {f : Str} {t : GT} (h : BasicType k f t) (u : GT) :
    t ≠ .star u := by
  cases h <;> exact fun h => nomatch h

/-- The field of a property. -/
private theorem field_ok {n : Str} {r nl : Bool} {s : OS} {t : GT} {g : GSch} {path : List Str}
    (h : Ok noPtr s t g) :
    let p : Prop' := ⟨n, r, nl, genProp U path g⟩
    (p.field U).1 = ⟨typeName U n, .key n (!r && !nl)⟩ ∧
      depField noPtr (p.field U).2 = fieldType noPtr r nl s t ∧ p.s.defs = [] := by
  intro p
  have hg : genProp U path g = g := genProp_eq h.addl h.union
  have hf : p.field U = (⟨typeName U n, .key n (!(r || nl))⟩,
      if !g.skipPtr && (!r || nl) then .star g.goType else g.goType) := by
    unfold Prop'.field
    simp only [p, hg, h.inner, h.decl, Bool.false_eq_true, if_false]
  rw [hf]
  refine ⟨by simp [Bool.not_or], ?_, ?_⟩
  rotate_left
  · show (genProp U path g).defs = []
    rw [hg, GSch.defs, h.nested, h.own]; rfl
  unfold fieldType
  have hd := h.dep
  have hs := h.star
  rw [h.skip]
  generalize g.goType = u at *
  subst hd
  by_cases hj : s = .prim .string "json".toList []
  · simp only [hj, decide_true, Bool.not_true, Bool.false_and, Bool.false_eq_true, if_false,
      ne_eq, not_true, and_false]
    cases u with
    | star x => exact absurd rfl (hs x)
    | _ => rfl
  · simp only [hj, decide_false, Bool.not_false, Bool.true_and]
    by_cases ho : r = false ∨ nl = true
    · have : (!r || nl) = true := by rcases ho with rfl | rfl <;> simp
      rw [this, if_pos rfl]
      cases u with
      | star x => exact absurd rfl (hs x)
      | ident _ => cases noPtr <;> 
        simp only [depField, dep, nilable, ho, hj, ne_eq, not_false_iff, and_self, if_true,
          if_false, Bool.false_eq_true, Bool.true_eq_false, false_and]
      | sel _ _ => cases noPtr <;> 
        simp only [depField, dep, nilable, ho, hj, ne_eq, not_false_iff, and_self, if_true,
          if_false, Bool.false_eq_true, Bool.true_eq_false, false_and]
      | struct _ => cases noPtr <;> 
        simp only [depField, dep, nilable, ho, hj, ne_eq, not_false_iff, and_self, if_true,
          if_false, Bool.false_eq_true, Bool.true_eq_false, false_and]
      | arr _ => simp [depField, dep, nilable]
      | map _ _ => simp [depField, dep, nilable]
    · have : (!r || nl) = false := by
        cases r <;> cases nl <;> simp_all
      rw [this, if_neg (by simp), if_neg (by rintro ⟨_, h, _⟩; exact ho h)]
      cases u with
      | star x => exact absurd rfl (hs x)
      | _ => rfl

mutual
private theorem gen_typeAs : ∀ {s : OS} {t : GT}, TypeAs U noPtr s t → ∀ path,
    ∃ g, gen U path s = .ok g ∧ Ok noPtr s t g
  | _, _, .ref, path => ⟨_, by rw [gen], ⟨rfl, rfl, rfl, rfl, rfl, rfl, rfl, rfl, rfl,
      by nofun⟩⟩
  | .prim k f [], t, .basic hb, path => by
    refine ⟨_, by rw [gen]; exact genPrim_ok hb (.inl rfl), ⟨rfl, rfl, rfl, rfl, rfl, rfl, rfl, ?_,
      (basic_dep hb).1, basic_star hb⟩⟩
    simp
  | .arr s, .arr t, .arr h, path => by
    obtain ⟨a, ha, hok⟩ := gen_typeAs h path
    refine ⟨genArr U path (.arr s) a, by rw [gen, ha]; rfl, ?_⟩
    rw [genArr_eq hok.addl hok.union]
    refine ⟨rfl, rfl, rfl, rfl, rfl, hok.nested, hok.own, rfl, ?_, fun _ h => nomatch h⟩
    rw [dep, hok.decl, hok.dep]
  | _, _, .any, path => ⟨_, by rw [gen]; exact if_pos (by simp), ⟨rfl, rfl, rfl, rfl, rfl, rfl, rfl,
      rfl, rfl, by nofun⟩⟩
  | _, _, .object, path => ⟨_, by rw [gen]; exact if_pos (by simp), ⟨rfl, rfl, rfl, rfl, rfl, rfl,
      rfl, rfl, rfl, by nofun⟩⟩
  | _, _, .free, path => by
    refine ⟨?_, ?_, ?_⟩
    rotate_left
    · rw [gen, if_neg (by simp), genA]
      simp only [Res.bind]
      rw [if_pos (by simp)]
    · exact ⟨rfl, rfl, rfl, rfl, rfl, rfl, rfl, rfl, rfl, by nofun⟩
  | .obj typed [] .nil (.of s) .nil, _, .of (t := t) h, path => by
    obtain ⟨a, ha, hok⟩ := gen_typeAs h path
    refine ⟨?_, ?_, ?_⟩
    rotate_left
    · rw [gen, if_neg (by simp), genA, ha]
      simp only [Res.bind]
      rw [if_pos (by simp)]
    · rw [genAddl_eq hok.addl hok.union]
      refine ⟨rfl, rfl, rfl, rfl, rfl, rfl, hok.own, rfl, ?_, by nofun⟩
      rw [dep, hok.decl, hok.dep]
      rfl
  | .obj typed [] (.cons n r nl s ps) .no .nil, .struct fs, .struct h, path => by
    obtain ⟨l, hl, hfs, hdefs⟩ := genPs_fieldsAs h path
    refine ⟨?_, ?_, ?_⟩
    rotate_left
    · rw [gen, if_neg (by simp), genA]
      simp only [Res.bind]
      rw [if_neg (by simp), hl]
      simp only [genEs, embed]
      rfl
    · refine ⟨rfl, rfl, by simp, by simp, rfl, hdefs, rfl, rfl, ?_, by nofun⟩
      simp only [genStruct, if_pos, dep, ne_eq, not_true, decide_false, Bool.false_eq_true, if_false]
      rw [hfs]
private theorem genPs_fieldsAs : ∀ {ps : OPs} {fs : GFs}, FieldsAs U noPtr ps fs → ∀ path,
    ∃ l, genPs U path ps = .ok l ∧ depFs noPtr (fieldsOf U .nil l) = fs ∧
      (l.flatMap fun p => p.s.defs) = []
  | _, _, .nil, path => ⟨[], rfl, rfl, rfl⟩
  | .cons n r nl s ps, _, .cons (fs := fs) h1 h2, path => by
    obtain ⟨g, hg, hok⟩ := gen_typeAs h1 (path ++ [n])
    obtain ⟨l, hl, hfs, hdefs⟩ := genPs_fieldsAs h2 path
    refine ⟨_, by rw [genPs, hg]; simp only [Res.bind]; rw [hl], ?_, ?_⟩
    · obtain ⟨f1, f2, _⟩ := field_ok (U := U) (n := n) (r := r) (nl := nl) (path := path ++ [n]) hok
      simp only [fieldsOf, depFs]
      rw [f1, f2, hfs]
    · obtain ⟨_, _, f3⟩ := field_ok (U := U) (n := n) (r := r) (nl := nl) (path := path ++ [n]) hok
      rw [List.flatMap_cons, f3, hdefs]
      rfl
end

mutual
private theorem gen_plain : ∀ (s : OS), Plain s → ∀ path,
    (∃ e, gen U path s = .err e) ∨ ∃ t, TypeAs U noPtr s t
  | .ref n, _, path => .inr ⟨_, .ref⟩
  | .prim k f e, h, path => by
    rw [Plain] at h
    subst h
    rcases primType_basic (k := k) (f := f) with ⟨e, he, _⟩ | ⟨t, ht, _⟩
    · exact .inl ⟨e, by rw [gen, genPrim, he]; rfl⟩
    · exact .inr ⟨t, .basic ht⟩
  | .arr s, h, path => by
    rw [Plain] at h
    rcases gen_plain s h path with ⟨e, he⟩ | ⟨t, ht⟩
    · exact .inl ⟨e, by rw [gen, he]; rfl⟩
    · exact .inr ⟨_, .arr ht⟩
  | .inner, h, path => by rw [Plain] at h; exact h.elim
  | .obj typed allOf ps a es, h, path => by
    rw [Plain] at h
    obtain ⟨rfl, rfl, ha, hps, hor⟩ := h
    cases ps with
    | nil =>
      cases a with
      | no => cases typed
              · exact .inr ⟨_, .any⟩
              · exact .inr ⟨_, .object⟩
      | free => exact .inr ⟨_, .free⟩
      | of s =>
        rw [PlainA] at ha
        rcases gen_plain s ha path with ⟨e, he⟩ | ⟨t, ht⟩
        · refine .inl ⟨e, ?_⟩
          rw [gen, if_neg (by simp), genA, he]
          rfl
        · exact .inr ⟨_, .of ht⟩
    | cons n r nl s ps =>
      have ha : a = .no := by
        rcases hor with h | h
        · cases h
        · exact h
      subst ha
      rcases genPs_plain (.cons n r nl s ps) hps path with ⟨e, he⟩ | ⟨fs, hfs⟩
      · refine .inl ⟨e, ?_⟩
        rw [gen, if_neg (by simp), genA]
        simp only [Res.bind]
        rw [if_neg (by simp), he]
      · exact .inr ⟨_, .struct hfs⟩
private theorem genPs_plain : ∀ (ps : OPs), PlainPs ps → ∀ path,
    (∃ e, genPs U path ps = .err e) ∨ ∃ fs, FieldsAs U noPtr ps fs
  | .nil, _, path => .inr ⟨_, .nil⟩
  | .cons n r nl s ps, h, path => by
    rw [PlainPs] at h
    rcases gen_plain s h.1 (path ++ [n]) with ⟨e, he⟩ | ⟨t, ht⟩
    · exact .inl ⟨e, by rw [genPs, he]; rfl⟩
    obtain ⟨g, hg, _⟩ := gen_typeAs ht (path ++ [n])
    rcases genPs_plain ps h.2 path with ⟨e, he⟩ | ⟨fs, hfs⟩
    · exact .inl ⟨e, by rw [genPs, hg]; simp only [Res.bind]; rw [he]⟩
    · exact .inr ⟨_, .cons ht hfs⟩
end

mutual
private theorem refs_typeAs (L : UniLaws U) : ∀ {s : OS} {t : GT}, TypeAs U noPtr s t →
    ∀ n ∈ refs t, '_' ∉ n
  | _, _, .ref => by
    intro n hn
    simp only [refs, List.mem_singleton] at hn
    subst hn
    exact typeName_no_us L _
  | .prim k f [], t, .basic hb => (basic_dep (noPtr := true) hb).2
  | .arr s, .arr t, .arr h => by rw [refs]; exact refs_typeAs L h
  | _, _, .any => by decide
  | _, _, .object => by decide
  | _, _, .free => by decide
  | .obj typed [] .nil (.of s) .nil, _, .of (t := t) h => by
    intro n hn
    rw [refs] at hn
    rcases List.mem_append.1 hn with hn | hn
    · simp only [refs, List.mem_singleton] at hn
      subst hn
      decide
    · exact refs_typeAs L h n hn
  | .obj typed [] (.cons n r nl s ps) .no .nil, .struct fs, .struct h => by
    rw [refs]; exact refs_fieldsAs L h
private theorem refs_fieldsAs (L : UniLaws U) : ∀ {ps : OPs} {fs : GFs}, FieldsAs U noPtr ps fs →
    ∀ n ∈ refsFs fs, '_' ∉ n
  | _, _, .nil => by intro n hn; cases hn
  | .cons n r nl s ps, _, .cons (t := t) (fs := fs) h1 h2 => by
    intro m hm
    rw [refsFs] at hm
    rcases List.mem_append.1 hm with hm | hm
    · refine refs_typeAs L h1 m ?_
      unfold fieldType at hm
      split at hm
      · exact hm
      · exact hm
    · exact refs_fieldsAs L h2 m hm
end

/-! ### The file -/

private theorem typesFor_declsAs : ∀ {cs : List (Str × OS)} {ds : List Decl},
    DeclsAs U noPtr cs ds → ∃ ts, typesFor U cs = .ok ts ∧ ts.map (·.name) = cs.map (typeName U ·.1) ∧
      (∀ td ∈ ts, td.addl = false ∧ td.union = false) ∧
      (ts.map fun t => Decl.typ t.doc t.name (dep noPtr t.decl)) = ds ∧
      (ts.filter (fun t => !t.enum.isEmpty)).map (fun t => Decl.consts [t.name]) = enums U cs
  | _, _, .nil => ⟨[], rfl, rfl, (fun _ h => nomatch h), rfl, rfl⟩
  | (n, s) :: cs, _, .type (t := t) (ds := ds) h1 h2 => by
    obtain ⟨g, hg, hok⟩ := gen_typeAs h1 [n]
    obtain ⟨ts, h, hn, hf, hd, he⟩ := typesFor_declsAs h2
    have hdefs : g.defs = [] := by rw [GSch.defs, hok.nested, hok.own]; rfl
    refine ⟨g.td (typeName U n) n :: ts, ?_, ?_, ?_, ?_, ?_⟩
    · rw [typesFor, hg]
      simp only [Res.bind]
      rw [h, hdefs]
      rfl
    · rw [List.map_cons, hn]; rfl
    · intro td htd
      rcases List.mem_cons.1 htd with rfl | htd
      · exact ⟨hok.addl, hok.union⟩
      · exact hf td htd
    · rw [List.map_cons, hd]
      show Decl.typ _ _ (dep noPtr g.typeDecl) :: ds = _
      rw [hok.decl, hok.dep]
      rfl
    · have : enums U ((n, s) :: cs) = enums U cs := by
        cases h1 <;> rfl
      rw [this, ← he, List.filter_cons, if_neg]
      show ¬ (!g.enum.isEmpty) = true
      rw [hok.enum]
      simp
  | (n, .prim k f (v :: e)) :: cs, _, .enum (t := t) (ds := ds) hb h2 => by
    obtain ⟨ts, h, hn, hf, hd, he⟩ := typesFor_declsAs h2
    have hg := genPrim_ok (U := U) (path := [n]) (e := v :: e) hb (.inr rfl)
    generalize hgg : GSch.mk t none false false false (decide (k = .string ∧ f = "json".toList))
      (v :: e) [] [] (some (.prim k f (v :: e))) = g at hg
    have hdefs : g.defs = [] := by rw [← hgg]; rfl
    refine ⟨g.td (typeName U n) n :: ts, ?_, ?_, ?_, ?_, ?_⟩
    · rw [typesFor, gen, hg]
      simp only [Res.bind]
      rw [h, hdefs]
      rfl
    · rw [List.map_cons, hn]; rfl
    · intro td htd
      rcases List.mem_cons.1 htd with rfl | htd
      · exact ⟨by rw [← hgg]; rfl, by rw [← hgg]; rfl⟩
      · exact hf td htd
    · rw [List.map_cons, hd, ← hgg]
      show Decl.typ _ _ (dep noPtr t) :: ds = _
      rw [(basic_dep hb).1]
      rfl
    · rw [enums, ← he, List.filter_cons, if_pos (by rw [← hgg]; rfl)]
      rfl

private theorem typesFor_plain : ∀ (cs : List (Str × OS)), (∀ c ∈ cs, PlainTop c.2) →
    (∃ e, typesFor U cs = .err e) ∨ ∃ ds, DeclsAs U noPtr cs ds
  | [], _ => .inr ⟨_, .nil⟩
  | (n, s) :: cs, h => by
    have hs := h _ (List.mem_cons_self ..)
    have key : (∃ e, gen U [n] s = .err e) ∨ (∃ g, gen U [n] s = .ok g) ∧
        ∀ ds, DeclsAs U noPtr cs ds → ∃ ds', DeclsAs U noPtr ((n, s) :: cs) ds' := by
      have plain : Plain s → (∃ e, gen U [n] s = .err e) ∨ (∃ g, gen U [n] s = .ok g) ∧
          ∀ ds, DeclsAs U noPtr cs ds → ∃ ds', DeclsAs U noPtr ((n, s) :: cs) ds' := by
        intro hs
        rcases gen_plain (noPtr := noPtr) s hs [n] with h | ⟨t, ht⟩
        · exact .inl h
        · obtain ⟨g, hg, _⟩ := gen_typeAs ht [n]
          exact .inr ⟨⟨g, hg⟩, fun ds hds => ⟨_, .type ht hds⟩⟩
      cases s with
      | prim k f e =>
        cases e with
        | nil => exact plain (by rw [Plain])
        | cons v e =>
          rcases primType_basic (k := k) (f := f) with ⟨e, he, _⟩ | ⟨t, ht, _⟩
          · exact .inl ⟨e, by rw [gen, genPrim, he]; rfl⟩
          · exact .inr ⟨⟨_, by rw [gen]; exact genPrim_ok ht (.inr rfl)⟩,
              fun ds hds => ⟨_, .enum ht hds⟩⟩
      | ref _ => exact plain hs
      | arr _ => exact plain hs
      | inner => exact plain hs
      | obj _ _ _ _ _ => exact plain hs
    rcases key with ⟨e, he⟩ | ⟨⟨g, hg⟩, hk⟩
    · exact .inl ⟨e, by rw [typesFor, he]; rfl⟩
    rcases typesFor_plain cs (fun c hc => h c (List.mem_cons_of_mem _ hc)) with ⟨e, he⟩ | ⟨ds, hds⟩
    · exact .inl ⟨e, by rw [typesFor, hg]; simp only [Res.bind]; rw [he]⟩
    · exact .inr (hk ds hds)

private theorem dedupe_id : ∀ (ts seen : List TD), ((seen ++ ts).map (·.name)).Nodup →
    dedupe seen ts = .ok ts
  | [], _, _ => rfl
  | t :: ts, seen, h => by
    rw [dedupe]
    have hn : seen.find? (fun p => decide (p.name = t.name)) = none := by
      rw [List.find?_eq_none]
      intro p hp
      simp only [decide_eq_true_eq]
      intro he
      rw [List.map_append, List.nodup_append] at h
      exact h.2.2 p.name (List.mem_map_of_mem hp) t.name (by simp) he
    rw [hn]
    simp only
    rw [dedupe_id ts (seen ++ [t]) (by simpa using h)]
    rfl

private theorem firstTDs_id : ∀ (ts : List TD) (seen : List Str),
    (seen ++ ts.map (·.name)).Nodup → firstTDs seen ts = ts
  | [], _, _ => rfl
  | t :: ts, seen, h => by
    have hd := List.nodup_append.1 h
    rw [firstTDs, if_neg, firstTDs_id ts (t.name :: seen)]
    · simp only [List.map_cons] at h
      exact (List.Perm.nodup_iff List.perm_middle).1 h
    · intro hc
      exact hd.2.2 _ (List.contains_iff_mem.1 hc) t.name (by simp) rfl

private theorem declsAs_inert (L : UniLaws U) : ∀ {cs : List (Str × OS)} {ds : List Decl},
    DeclsAs U noPtr cs ds → (∀ c ∈ cs, c.1 ≠ [] ∧ c.1.getLast? ≠ some ' ') → ∀ d ∈ ds, Inert d
  | _, _, .nil, _ => fun _ h => nomatch h
  | (n, s) :: cs, _, .type h1 h2, hn => by
    intro d hd
    rcases List.mem_cons.1 hd with rfl | hd
    · have := hn (n, s) (List.mem_cons_self ..)
      exact ⟨not_unnamed this.1 this.2, List.cons_ne_nil _ _, typeName_no_us L n, refs_typeAs L h1⟩
    · exact declsAs_inert L h2 (fun c hc => hn c (List.mem_cons_of_mem _ hc)) d hd
  | (n, .prim k f (v :: e)) :: cs, _, .enum hb h2, hn => by
    intro d hd
    rcases List.mem_cons.1 hd with rfl | hd
    · have := hn (n, .prim k f (v :: e)) (List.mem_cons_self ..)
      exact ⟨not_unnamed this.1 this.2, List.cons_ne_nil _ _, typeName_no_us L n,
        (basic_dep (noPtr := noPtr) hb).2⟩
    · exact declsAs_inert L h2 (fun c hc => hn c (List.mem_cons_of_mem _ hc)) d hd

private theorem enums_inert : ∀ (cs : List (Str × OS)), ∀ d ∈ enums U cs, ∃ l, d = .consts l
  | [], d, h => by cases h
  | (n, .prim k f (v :: e)) :: cs, d, h => by
    rw [enums] at h
    rcases List.mem_cons.1 h with rfl | h
    · exact ⟨_, rfl⟩
    · exact enums_inert cs d h
  | (n, .prim k f []) :: cs, d, h => enums_inert cs d h
  | (n, .ref _) :: cs, d, h => enums_inert cs d h
  | (n, .arr _) :: cs, d, h => enums_inert cs d h
  | (n, .inner) :: cs, d, h => enums_inert cs d h
  | (n, .obj _ _ _ _ _) :: cs, d, h => enums_inert cs d h

private theorem goTypes_declsAs (L : UniLaws U) {replace : Str → Str} {comps : List (Str × OS)}
    {ds : List Decl} (hn : ∀ c ∈ comps, c.1 ≠ [] ∧ c.1.getLast? ≠ some ' ')
    (hd : (comps.map (typeName U ·.1)).Nodup) (h : DeclsAs U noPtr comps ds) :
    goTypes U replace noPtr comps = .ok (.consts [] :: (enums U comps ++ ds)) := by
  obtain ⟨ts, hts, hnames, hf, hds, he⟩ := typesFor_declsAs h
  have hnd : (ts.map (·.name)).Nodup := by rw [hnames]; exact hd
  have hfirst : firstTDs [] ts = ts := firstTDs_id ts [] hnd
  have hno1 : ts.filter (·.addl) = [] := by
    rw [List.filter_eq_nil_iff]
    intro t ht
    rw [(hf t ht).1]
    simp
  have hno2 : ts.filter (·.union) = [] := by
    rw [List.filter_eq_nil_iff]
    intro t ht
    rw [(hf t ht).2]
    simp
  have hin : ∀ d ∈ Decl.consts [] :: (enums U comps ++ ds), Inert d := by
    intro d hd
    rcases List.mem_cons.1 hd with rfl | hd
    · trivial
    rcases List.mem_append.1 hd with hd | hd
    · obtain ⟨l, rfl⟩ := enums_inert comps d hd
      trivial
    · exact declsAs_inert L h hn d hd
  rw [goTypes, file, hts]
  simp only [Res.bind]
  rw [dedupe_id ts [] hnd]
  simp only
  rw [hfirst, hno1, hno2, he]
  simp only [List.flatMap_nil, List.map_nil, List.append_nil, List.map_cons, List.map_append,
    List.map_map]
  have e1 : (enums U comps).map (depDecl noPtr) = enums U comps := by
    conv => rhs; rw [← List.map_id (enums U comps)]
    refine List.map_congr_left ?_
    intro d hd
    obtain ⟨l, rfl⟩ := enums_inert comps d hd
    rfl
  have e2 : ts.map (depDecl noPtr ∘ fun t => Decl.typ t.doc t.name t.decl) = ds := by
    rw [← hds]
    rfl
  rw [e1, e2]
  show (fixRawData (Decl.consts [] :: (enums U comps ++ ds))).bind _ = _
  rw [fixRawData_inert hin]
  exact fixUnderscores_inert hin

/-- **C191**.  For schemas that are plain or enumerations, of names that are not empty, do not end
in a space and give distinct Go names, a file is generated exactly if all of them have types by
the table, and it has the declarations of the table and nothing else. -/
theorem C191_types (L : UniLaws U) {replace : Str → Str} {comps : List (Str × OS)}
    {file : List Decl} (hp : ∀ c ∈ comps, PlainTop c.2)
    (hn : ∀ c ∈ comps, c.1 ≠ [] ∧ c.1.getLast? ≠ some ' ')
    (hd : (comps.map (typeName U ·.1)).Nodup) :
    goTypes U replace noPtr comps = .ok file ↔
      ∃ ds, DeclsAs U noPtr comps ds ∧ file = .consts [] :: (enums U comps ++ ds) := by
  constructor
  · intro h
    rcases typesFor_plain (U := U) (noPtr := noPtr) comps hp with ⟨e, he⟩ | ⟨ds, hds⟩
    · rw [goTypes, OGen.file, he] at h
      cases h
    · rw [goTypes_declsAs L hn hd hds] at h
      injection h with h
      exact ⟨ds, hds, h.symm⟩
  · rintro ⟨ds, hds, rfl⟩
    exact goTypes_declsAs L hn hd hds

/-- **C191**.  Otherwise there is an error, never a panic. -/
theorem C191_no_panic (L : UniLaws U) {replace : Str → Str} {comps : List (Str × OS)}
    (hp : ∀ c ∈ comps, PlainTop c.2)
    (hn : ∀ c ∈ comps, c.1 ≠ [] ∧ c.1.getLast? ≠ some ' ')
    (hd : (comps.map (typeName U ·.1)).Nodup) :
    (∃ file, goTypes U replace noPtr comps = .ok file) ∨
      ∃ e, goTypes U replace noPtr comps = .err e := by
  rcases typesFor_plain (U := U) (noPtr := noPtr) comps hp with ⟨e, he⟩ | ⟨ds, hds⟩
  · exact .inr ⟨e, by rw [goTypes, OGen.file, he]; rfl⟩
  · exact .inl ⟨_, goTypes_declsAs L hn hd hds⟩

/-- A struct with a required string, an optional number, an optional slice, a nullable reference,
raw JSON, bytes and a map of times; and an enumeration. -/
def plainComps : List (Str × OS) :=
  [("Foo".toList, .obj true []
     (.cons "a".toList true false (.prim .string [] [])
     (.cons "b".toList false false (.prim .number "double".toList [])
     (.cons "c".toList false false (.arr (.prim .integer "int8".toList []))
     (.cons "d".toList true true (.ref "Size".toList)
     (.cons "e".toList false false (.prim .string "json".toList [])
     (.cons "f".toList false false (.prim .string "binary".toList [])
     (.cons "g".toList false false
       (.obj true [] .nil (.of (.prim .string "date-time".toList [])) .nil) .nil)))))))
     .no .nil),
   ("Size".toList, .prim .string [] ["S".toList, "L".toList])]

private def isOk (ds : List Decl) : Res (List Decl) → Bool
  | .ok ds' => decide (ds' = ds)
  | _ => false

private theorem isOk_eq {ds : List Decl} {r : Res (List Decl)} (h : isOk ds r = true) :
    r = .ok ds := by
  cases r with
  | ok ds' => rw [of_decide_eq_true h]
  | _ => cases h

/-- The hypotheses hold, and this is the file. -/
example : (∀ c ∈ plainComps, PlainTop c.2) ∧
    (∀ c ∈ plainComps, c.1 ≠ [] ∧ c.1.getLast? ≠ some ' ') ∧
    (plainComps.map (typeName ascii ·.1)).Nodup ∧
    goTypes ascii id false plainComps = .ok
      [.consts [], .consts ["Size".toList],
       .typ ["// Foo defines model for Foo.".toList] "Foo".toList (.struct
        (.cons ⟨"A".toList, .key "a".toList false⟩ (.ident "string".toList)
        (.cons ⟨"B".toList, .key "b".toList true⟩ (.star (.ident "float64".toList))
        (.cons ⟨"C".toList, .key "c".toList true⟩ (.arr (.ident "int8".toList))
        (.cons ⟨"D".toList, .key "d".toList false⟩ (.star (.ident "Size".toList))
        (.cons ⟨"E".toList, .key "e".toList true⟩ (.sel "json".toList "RawMessage".toList)
        (.cons ⟨"F".toList, .key "f".toList true⟩ (.arr (.ident "byte".toList))
        (.cons ⟨"G".toList, .key "g".toList true⟩
          (.map (.ident "string".toList) (.sel "time".toList "Time".toList)) .nil)))))))),
       .typ ["// Size defines model for Size.".toList] "Size".toList (.ident "string".toList)] := by
  refine ⟨?_, by decide, by decide, isOk_eq (by decide +kernel)⟩
  intro c hc
  rcases List.mem_cons.1 hc with rfl | hc
  · simp [PlainTop, Plain, PlainPs, PlainA]
  · rcases List.mem_cons.1 hc with rfl | hc
    · trivial
    · cases hc

end Thema.Props

import Verif.Lemmas.OMerge
import Verif.Props.GoJson
import Verif.Props.OGen

/-!
# Schemas with members of `allOf` that are not references (C120)
-/

namespace Thema.Props

open GoTypes OGen GoJson OMerge

variable {U : Uni} {S : Std} {ds : List Decl} {comps : List (Str × OS)} {raw : List (Str × MH)}

/-- **C120** (where it holds).  Data that is valid for a schema and all members of its `allOf`,
read into the generated Go type and written again, is the same data.  This holds if generation
succeeds, for members that have not both `allOf` and properties, required properties or allowed
values of their own (`Plain`), without alternatives and additional properties, and what C111
asks for. -/
theorem C120_roundtrip_partial (L : UniLaws U) {replace : Str → Str} (hc : convAll raw = .ok comps)
    (ht : TameAll U comps) (h : goTypes U replace false comps = .ok ds) {n : Str} {j : J}
    (hv : MValid S true raw (.ref n) j) : RoundTrip U S ds (.ident (typeName U n)) j := by
  refine C111_roundtrip_partial L ht h (conv_valid (U := U) hc ht.tame hv _ (by rw [conv]) ?_)
  cases hv with
  | ref hl _ =>
    obtain ⟨s, h1, _⟩ := convAll_lookup hc hl
    rw [Tame, h1]; rfl

theorem genPs_opsList : ∀ {path : List Str} {props : OPs} {ps : List Prop'},
    genPs U path props = .ok ps →
    ps.map (fun p => (p.name, p.required, p.nullable, p.s.inner)) =
      (opsList props).map fun e => (e.1, e.2.1, e.2.2.1, decide (e.2.2.2 = .inner))
  | path, .nil, ps, h => by
    rw [genPs] at h; injection h with h; subst h; rfl
  | path, .cons n r nl s rest, ps, h => by
    rw [genPs] at h
    obtain ⟨g, hg, h⟩ := OMerge.bind_ok h
    obtain ⟨l, hl, h⟩ := OMerge.bind_ok h
    injection h with h; subst h
    have ih := genPs_opsList hl
    simp only [List.map_cons, opsList, ih, genProp_inner, List.cons.injEq, Prod.mk.injEq, true_and,
      and_true]
    by_cases hs : s = .inner
    · subst hs
      rw [gen] at hg; injection hg with hg; subst hg; simp [innerSch]
    · simp [hs, gen_inner hg hs]

theorem fieldKeys_fieldsOf (last : GFs) : ∀ ps : List Prop',
    fieldKeys (fieldsOf U last ps) = (ps.filterMap fun p =>
      if p.s.inner && !(p.required || p.nullable) then none
      else some (p.name, !(p.required || p.nullable))) ++ fieldKeys last
  | [] => rfl
  | p :: ps => by
    have ih := fieldKeys_fieldsOf last ps
    rw [fieldsOf, fieldKeys, ih]
    unfold Prop'.field
    by_cases h : p.s.inner = true
    · by_cases h2 : (p.required || p.nullable) = true
      · simp only [h, h2, if_true, Bool.not_true, Bool.and_false, Bool.false_eq_true, if_false,
          List.filterMap_cons, List.cons_append]
      · simp only [Bool.not_eq_true] at h2
        simp only [h, h2, if_true, Bool.not_false, Bool.and_true, Bool.false_eq_true, if_false,
          List.filterMap_cons]
    · simp [h]

theorem genStruct_keys (ps : List Prop') (a : Option GT) (u : Bool) :
    ∃ last, genStruct U ps a u = .struct (fieldsOf U last ps) ∧ fieldKeys last = [] :=
  ⟨_, rfl, by cases a <;> cases u <;> rfl⟩

/-- The tags of the fields of a struct. -/
theorem gen_keys {path : List Str} {typed : Bool} {props : OPs} {addl : OAs} {alts : OEs}
    {g : GSch} (hp : props ≠ .nil) (h : gen U path (.obj typed [] props addl alts) = .ok g) :
    ∃ fs, g.goType = .struct fs ∧ ∀ k o, (k, o) ∈ fieldKeys fs ↔
      ∃ r nl s, (k, r, nl, s) ∈ opsList props ∧ o = !(r || nl) ∧
        (s = .inner → (r || nl) = true) := by
  rw [gen] at h
  dsimp only at h
  rw [if_neg (fun hh => hp hh.1.1)] at h
  obtain ⟨a, ha, h⟩ := OMerge.bind_ok h
  rw [if_neg (fun hh => hp hh.1.1)] at h
  obtain ⟨ps, hps, h⟩ := OMerge.bind_ok h
  obtain ⟨es, hes, h⟩ := OMerge.bind_ok h
  injection h with h
  subst h
  obtain ⟨last, hst, hl⟩ := genStruct_keys (U := U) (embed [] ps)
    (if addl = .no then none else some a.typeDecl) (decide (alts ≠ .nil))
  refine ⟨_, hst, fun k o => ?_⟩
  have he := genPs_opsList hps
  rw [fieldKeys_fieldsOf]
  rw [hl, List.append_nil, List.mem_filterMap]
  simp only [embed]
  have hmem : ∀ r nl b, (∃ p ∈ ps, p.name = k ∧ p.required = r ∧ p.nullable = nl ∧ p.s.inner = b) ↔
      ∃ s, (k, r, nl, s) ∈ opsList props ∧ decide (s = .inner) = b := by
    intro r nl b
    have : (k, r, nl, b) ∈ ps.map (fun p => (p.name, p.required, p.nullable, p.s.inner)) ↔
        (k, r, nl, b) ∈ (opsList props).map fun e => (e.1, e.2.1, e.2.2.1, decide (e.2.2.2 = .inner)) := by
      rw [he]
    rw [List.mem_map, List.mem_map] at this
    constructor
    · rintro ⟨p, hp, rfl, rfl, rfl, rfl⟩
      obtain ⟨⟨k', r', nl', s⟩, hs, e⟩ := this.1 ⟨p, hp, rfl⟩
      simp only [Prod.mk.injEq] at e
      obtain ⟨rfl, rfl, rfl, e⟩ := e
      exact ⟨s, hs, e⟩
    · rintro ⟨s, hs, e⟩
      obtain ⟨p, hp, e⟩ := this.2 ⟨_, hs, by rw [← e]⟩
      simp only [Prod.mk.injEq] at e
      exact ⟨p, hp, e⟩
  constructor
  · rintro ⟨p, hp, e⟩
    obtain ⟨s, hs, hi⟩ := (hmem p.required p.nullable p.s.inner).1 ⟨p, hp, by
      split at e
      · cases e
      · injection e with e; injection e with e _, rfl, rfl, rfl⟩
    split at e
    · cases e
    · rename_i hc
      injection e with e; injection e with _ e
      refine ⟨_, _, s, hs, e.symm, fun hsi => ?_⟩
      rw [hsi] at hi
      simp only [decide_true] at hi
      rw [← hi] at hc
      revert hc
      cases p.required <;> cases p.nullable <;> simp
  · rintro ⟨r, nl, s, hs, rfl, hi⟩
    obtain ⟨p, hp, rfl, rfl, rfl, e⟩ := (hmem r nl _).2 ⟨s, hs, rfl⟩
    refine ⟨p, hp, ?_⟩
    rw [if_neg]
    rw [e]
    intro hc
    simp only [Bool.and_eq_true, decide_eq_true_eq, Bool.not_eq_true'] at hc
    rw [hi hc.1] at hc
    cases hc.2

/-- **C120** (where it holds).  The Go type for a schema with inline members of `allOf` is a
struct that has, for each property of the schema and of its members, and for no others, fields,
which are left out when empty exactly if neither the schema nor a member requires the property.
Without nullable properties; names of references before the first inline member are left out. -/
theorem C120_fields_partial {h : MH} {s : OS} {path : List Str} {g : GSch}
    (ht : h.typ = .none ∨ h.typ = .object) (hi : h.parts.inline = true) (hpl : Plain h)
    (hd : ∃ k nl c, Def h k nl c) (hnn : ∀ k nl c, Def h k nl c → nl = false)
    (hc : convH h = .ok s) (hg : gen U path s = .ok g) :
    ∃ fs, g.goType = .struct fs ∧ ∀ k ∉ h.parts.before, ∀ o, (k, o) ∈ fieldKeys fs ↔
      (∃ nl c, Def h k nl c) ∧ (o = true ↔ ¬ Requires h k) := by
  obtain ⟨ps, a, es, rfl, hmem, hf, hall, _⟩ := convH_fields ht (.inr hi) hc
  have hp : ps ≠ .nil := by
    obtain ⟨k, nl, c, hd⟩ := hd
    obtain ⟨r, nl', c', h⟩ := hall k nl c ((plain_def hpl).1 hd)
    rintro rfl; cases h
  obtain ⟨fs, h1, h2⟩ := gen_keys hp hg
  refine ⟨fs, h1, fun k hk o => ?_⟩
  rw [h2]
  constructor
  · rintro ⟨r, nl, c', hm, rfl, _⟩
    obtain ⟨hr, ⟨c, hdc, _⟩ | ⟨⟨hb, _⟩, _⟩⟩ := hmem k r nl c' hm
    · have hdk := (plain_def hpl).2 hdc
      refine ⟨⟨nl, c, hdk⟩, ?_⟩
      rw [hnn _ _ _ hdk, plain_req hpl, ← hr]
      simp
    · exact absurd hb hk
  · rintro ⟨⟨nl, c, hdk⟩, ho⟩
    obtain ⟨r, nl', c', hfp⟩ := hall k nl c ((plain_def hpl).1 hdk)
    obtain ⟨hr, hor⟩ := hf k r nl' c' hfp
    have hm : (k, r, nl', c') ∈ opsList ps := findProp_mem hfp
    obtain ⟨c, hdc, hcc⟩ | ⟨⟨hb, _⟩, _⟩ := hor
    · refine ⟨r, nl', c', hm, ?_, ?_⟩
      · rw [hnn _ _ _ ((plain_def hpl).2 hdc)]
        rw [plain_req hpl, ← hr] at ho
        revert ho
        clear hr hfp hm
        cases o <;> cases r <;> simp
      · intro e; subst e; exact absurd hcc (conv_not_inner c)
    · exact absurd hb hk

/-! ### An example -/

/-- A string. -/
def mStr : MS := .val (.mk (.prim .string) [] [] false {} [] .nil .no .no .nil .nil .nil)

theorem mStr_valid (strict : Bool) (s : Str) : MValid S strict raw mStr (.str s) := by
  refine .str rfl fun m hm => .inl ?_
  cases hm with
  | self => rfl
  | part hp _ => cases hp

/-- A member: some properties, of which some are required. -/
def mPart (t : Typ) (required : List Str) (ps : MPs) (parts : MParts) : MH :=
  .mk t [] [] false {} required ps .no .no .nil .nil parts

/-- An object with the properties `a` and `b`, and a member that requires `a` and one with the
property `c`. -/
def joinSchema : MH :=
  mPart .object [] (.cons "a".toList false mStr (.cons "b".toList false mStr .nil))
    (.cons none (mPart .none ["a".toList] .nil .nil)
    (.cons none (mPart .none [] (.cons "c".toList false mStr .nil) .nil) .nil))

/-- The schema as it is generated from. -/
def joinComps : List (Str × OS) :=
  [("foo".toList, .obj true [] (.cons "a".toList true false (.prim .string [] [])
    (.cons "b".toList false false (.prim .string [] [])
    (.cons "c".toList false false (.prim .string [] []) .nil))) .no .nil)]

theorem joinComps_conv : convAll [("foo".toList, joinSchema)] = .ok joinComps := rfl

theorem joinSchema_member {m : MH} (h : Member joinSchema m) : m = joinSchema ∨
    m = mPart .none ["a".toList] .nil .nil ∨
    m = mPart .none [] (.cons "c".toList false mStr .nil) .nil := by
  cases h with
  | self => exact .inl rfl
  | part hp hm =>
    rename_i p
    have : p = mPart .none ["a".toList] .nil .nil ∨
        p = mPart .none [] (.cons "c".toList false mStr .nil) .nil := by
      rcases List.mem_cons.1 hp with h | hp
      · exact .inl h
      · rcases List.mem_cons.1 hp with h | hp
        · exact .inr h
        · cases hp
    rcases this with rfl | rfl
    all_goals
      cases hm with
      | self => first | exact .inr (.inl rfl) | exact .inr (.inr rfl)
      | part hp _ => cases hp

theorem joinSchema_plain : Plain joinSchema := by
  have leaf : ∀ p ∈ joinSchema.parts.toList, p.parts = .nil := by
    intro p hp
    rcases List.mem_cons.1 hp with rfl | hp
    · rfl
    · rcases List.mem_cons.1 hp with rfl | hp
      · rfl
      · cases hp
  exact .intro (fun p hp => .inl (leaf p hp)) fun p hp =>
    .intro (fun q hq => by rw [leaf p hp] at hq; cases hq)
      fun q hq => by rw [leaf p hp] at hq; cases hq

theorem joinSchema_def {k : Str} {nl : Bool} {c : MS} : Def joinSchema k nl c ↔
    (k = "a".toList ∨ k = "b".toList ∨ k = "c".toList) ∧ nl = false ∧ c = mStr := by
  constructor
  · rintro ⟨m, hm, h⟩
    rcases joinSchema_member hm with rfl | rfl | rfl
    · rcases List.mem_cons.1 h with h | h
      · injection h with h1 h; injection h with h2 h3
        exact ⟨.inl h1, h2, h3⟩
      · rcases List.mem_cons.1 h with h | h
        · injection h with h1 h; injection h with h2 h3
          exact ⟨.inr (.inl h1), h2, h3⟩
        · cases h
    · cases h
    · rcases List.mem_cons.1 h with h | h
      · injection h with h1 h; injection h with h2 h3
        exact ⟨.inr (.inr h1), h2, h3⟩
      · cases h
  · rintro ⟨h | h | h, rfl, rfl⟩
    · rw [h]; exact ⟨_, .self, List.mem_cons_self⟩
    · rw [h]; exact ⟨_, .self, List.mem_cons_of_mem _ List.mem_cons_self⟩
    · rw [h]
      exact ⟨_, .part (List.mem_cons_of_mem _ List.mem_cons_self) .self, List.mem_cons_self⟩

theorem joinSchema_req {k : Str} : Requires joinSchema k ↔ k = "a".toList := by
  constructor
  · rintro ⟨m, hm, h⟩
    rcases joinSchema_member hm with rfl | rfl | rfl
    · cases h
    · rcases List.mem_cons.1 h with h | h
      · exact h
      · cases h
    · cases h
  · intro h
    rw [h]; exact ⟨_, .part List.mem_cons_self .self, List.mem_cons_self⟩

example : ∃ s g, convH joinSchema = .ok s ∧ gen ascii ["foo".toList] s = .ok g ∧
    Plain joinSchema ∧ joinSchema.parts.inline = true ∧ (∃ k nl c, Def joinSchema k nl c) ∧
    (∀ k nl c, Def joinSchema k nl c → nl = false) :=
  ⟨_, _, rfl, rfl, joinSchema_plain, rfl, ⟨_, _, _, joinSchema_def.2 ⟨.inl rfl, rfl, rfl⟩⟩,
    fun _ _ _ h => (joinSchema_def.1 h).2.1⟩

theorem joinComps_tame : TameAll ascii joinComps := by
  have good : ∀ c : Char, c.isLower = true → c.toUpper.isUpper = true → GoodName ascii [c] :=
    fun c h1 h2 => .inr (.inr (.inr ⟨[], c, [], rfl, (fun x hx => by cases hx),
      .inr ⟨h1, h2, .inl rfl⟩⟩))
  have tag : ∀ c : Char, c.isAlpha = true → [c] ≠ ['-'] → TagName ascii [c] :=
    fun c h1 h2 => ⟨by simp, h2, fun x hx => by
      rw [List.mem_singleton.1 hx]; exact .inr (.inl h1)⟩
  refine ⟨?_, by decide, ?_, ⟨fun _ => 0, ?_⟩⟩
  · intro n s hm
    simp only [joinComps, List.mem_singleton, Prod.mk.injEq] at hm
    rw [hm.1]
    exact ⟨⟨'f', "oo".toList, rfl, .inr ⟨by decide, by decide⟩⟩, by decide⟩
  · intro n s hm
    simp only [joinComps, List.mem_singleton, Prod.mk.injEq] at hm
    rw [hm.2]
    rw [Tame]
    refine ⟨⟨.nil, fun m hm => by cases hm⟩, rfl, by rw [TameA]; trivial, ?_,
      .inr ⟨.inl (by simp), rfl⟩, by decide, by decide⟩
    have hs : Tame ascii joinComps (.prim .string [] []) := by rw [Tame]; decide
    refine ⟨tag 'a' (by decide) (by decide), good 'a' (by decide) (by decide), hs,
      tag 'b' (by decide) (by decide), good 'b' (by decide) (by decide), hs,
      tag 'c' (by decide) (by decide), good 'c' (by decide) (by decide), hs, trivial⟩
  · intro n typed allOf ps a es hm m hm'
    simp only [joinComps, List.mem_singleton, Prod.mk.injEq, OS.obj.injEq] at hm
    rw [hm.2.2.1] at hm'
    cases hm'

/-- Data for it: `a` is there, `b` is not. -/
def joinData : J := .obj (.cons "a".toList (.str "x".toList) (.cons "c".toList (.str "y".toList) .nil))

example : ∃ ds, goTypes ascii id false joinComps = .ok ds ∧ TameAll ascii joinComps ∧
    MValid std true [("foo".toList, joinSchema)] (.ref "foo".toList) joinData := by
  refine ⟨_, rfl, joinComps_tame, .ref rfl (.obj (.inr rfl) (.inr rfl) (fun _ => joinSchema_plain) ?_
    ⟨_, _, _, joinSchema_def.2 ⟨.inl rfl, rfl, rfl⟩⟩ (by decide) ?_ ?_ ?_ ?_ ?_)⟩
  · intro m hm
    rcases joinSchema_member hm with rfl | rfl | rfl <;> exact ⟨rfl, rfl, rfl⟩
  · intro k hk
    rw [joinSchema_req.1 hk]; decide
  · intro _ k c hd
    cases (joinSchema_def.1 hd).2.1
  · intro k hk
    refine ⟨false, mStr, joinSchema_def.2 ⟨?_, rfl, rfl⟩⟩
    rcases List.mem_cons.1 hk with h | hk
    · exact .inl h
    · rcases List.mem_cons.1 hk with h | hk
      · exact .inr (.inr h)
      · cases hk
  · intro _ k x nl c hk _ _ _
    simp only [JMs.get] at hk
    split at hk
    · injection hk with hk; rw [← hk]; simp
    · split at hk
      · injection hk with hk; rw [← hk]; simp
      · cases hk
  · intro k x nl c hk hd _
    rw [(joinSchema_def.1 hd).2.2]
    simp only [JMs.get] at hk
    split at hk
    · injection hk with hk; rw [← hk]; exact mStr_valid _ _
    · split at hk
      · injection hk with hk; rw [← hk]; exact mStr_valid _ _
      · cases hk

/-! ### Where it does not hold -/

/-- **C120** refuted, generally: a property that only members have that have `allOf` themselves
has no field. -/
theorem C120_nested_lost {h : MH} {s : OS} {path : List Str} {g : GSch} {fs : GFs} {k : Str}
    (ht : h.typ = .none ∨ h.typ = .object) (hi : h.parts.inline = true) (hk : k ∉ h.parts.before)
    (hn : ∀ m nl c, Member h m → (k, nl, c) ∈ m.props.toList → m ≠ h ∧ m.parts ≠ .nil)
    (hc : convH h = .ok s) (hg : gen U path s = .ok g) (hs : g.goType = .struct fs) (o : Bool) :
    (k, o) ∉ fieldKeys fs := by
  obtain ⟨ps, a, es, rfl, hmem, _, _, _⟩ := convH_fields ht (.inr hi) hc
  intro hko
  by_cases hp : ps = .nil
  · subst hp
    rw [gen] at hg
    dsimp only at hg
    split at hg
    · injection hg with hg
      subst hg
      split at hs <;> cases hs
    · obtain ⟨ga, hga, hg⟩ := OMerge.bind_ok hg
      split at hg
      · injection hg with hg
        subst hg; cases hs
      · obtain ⟨l, hl, hg⟩ := OMerge.bind_ok hg
        obtain ⟨ges, hges, hg⟩ := OMerge.bind_ok hg
        rw [genPs] at hl
        injection hl with hl; subst hl
        injection hg with hg
        subst hg
        obtain ⟨last, hst, hlast⟩ := genStruct_keys (U := U) (embed [] [])
          (if a = .no then none else some ga.typeDecl) (decide (es ≠ .nil))
        have hs : genStruct U (embed [] []) (if a = .no then none else some ga.typeDecl)
          (decide (es ≠ .nil)) = .struct fs := hs
        rw [hst] at hs
        injection hs with hs
        subst hs
        rw [fieldKeys_fieldsOf, hlast] at hko
        cases hko
  · obtain ⟨fs', h1, h2⟩ := gen_keys hp hg
    rw [hs] at h1
    injection h1 with h1; subst h1
    obtain ⟨r, nl, c', hm, _⟩ := (h2 k o).1 hko
    obtain ⟨_, ⟨c, ⟨m, hmk, hd⟩, _⟩ | ⟨⟨hb, _⟩, _⟩⟩ := hmem k r nl c' hm
    · obtain ⟨h3, h4⟩ := hn m nl c (kept_member hmk) hd
      rcases hmk with h5 | h5
      · exact h3 h5
      · exact h4 (leaf_no_parts h5)
    · exact hk hb

/-- A member with the property `b` that has a member with the property `c`. -/
def nestSchema : MH :=
  mPart .object [] (.cons "a".toList false mStr .nil)
    (.cons none (mPart .none [] (.cons "b".toList false mStr .nil)
      (.cons none (mPart .none [] (.cons "c".toList false mStr .nil) .nil) .nil)) .nil)

example : Def nestSchema "b".toList false mStr ∧ ∀ m nl c, Member nestSchema m →
    ("b".toList, nl, c) ∈ m.props.toList → m ≠ nestSchema ∧ m.parts ≠ .nil := by
  refine ⟨⟨_, .part List.mem_cons_self .self, List.mem_cons_self⟩, fun m nl c hm hb => ?_⟩
  cases hm with
  | self =>
    rcases List.mem_cons.1 hb with h | h
    · injection h with h _; exact absurd h (by decide)
    · cases h
  | part hp hm =>
    rcases List.mem_cons.1 hp with rfl | hp
    · cases hm with
      | self =>
        refine ⟨fun e => ?_, fun e => by cases e⟩
        have : Typ.none = Typ.object := congrArg MH.typ e
        cases this
      | part hp hm =>
        rcases List.mem_cons.1 hp with rfl | hp
        · cases hm with
          | self =>
            rcases List.mem_cons.1 hb with h | h
            · injection h with h _; exact absurd h (by decide)
            · cases h
          | part hp _ => cases hp
        · cases hp
    · cases hp

/-- Data for `nestSchema`. -/
def nestData : J :=
  .obj (.cons "a".toList (.str "x".toList) (.cons "b".toList (.str "y".toList)
    (.cons "c".toList (.str "z".toList) .nil)))

theorem nestSchema_member {m : MH} (h : Member nestSchema m) : ∃ k : String,
    m.props = .cons k.toList false mStr .nil ∧ m.required = [] ∧ m.addl = .no ∧ m.one = .nil ∧
      m.any = .nil := by
  cases h with
  | self => exact ⟨"a", rfl, rfl, rfl, rfl, rfl⟩
  | part hp hm =>
    rcases List.mem_cons.1 hp with rfl | hp
    · cases hm with
      | self => exact ⟨"b", rfl, rfl, rfl, rfl, rfl⟩
      | part hp hm =>
        rcases List.mem_cons.1 hp with rfl | hp
        · cases hm with
          | self => exact ⟨"c", rfl, rfl, rfl, rfl, rfl⟩
          | part hp _ => cases hp
        · cases hp
    · cases hp

theorem nestData_valid : MValid S false [("foo".toList, nestSchema)] (.ref "foo".toList) nestData := by
  have hdef : ∀ {k nl c}, Def nestSchema k nl c → c = mStr := by
    rintro k nl c ⟨m, hm, h⟩
    obtain ⟨k', hp, _⟩ := nestSchema_member hm
    rw [hp] at h
    rcases List.mem_cons.1 h with h | h
    · injection h with _ h; injection h with _ h
    · cases h
  have ha : Def nestSchema "a".toList false mStr := ⟨_, .self, List.mem_cons_self⟩
  have hb : Def nestSchema "b".toList false mStr :=
    ⟨_, .part List.mem_cons_self .self, List.mem_cons_self⟩
  have hc : Def nestSchema "c".toList false mStr :=
    ⟨_, .part List.mem_cons_self (.part List.mem_cons_self .self), List.mem_cons_self⟩
  refine .ref rfl (.obj (.inr rfl) (.inr rfl) (fun e => by cases e) ?_
    ⟨_, _, _, ha⟩ (by decide) ?_ (fun e => by cases e) ?_ (fun e => by cases e) ?_)
  · intro m hm
    obtain ⟨_, _, _, h⟩ := nestSchema_member hm
    exact h
  · rintro k ⟨m, hm, h⟩
    obtain ⟨_, _, hr, _⟩ := nestSchema_member hm
    rw [hr] at h; cases h
  · intro k hk
    refine ⟨false, mStr, ?_⟩
    rcases List.mem_cons.1 hk with h | hk
    · rw [h]; exact ha
    · rcases List.mem_cons.1 hk with h | hk
      · rw [h]; exact hb
      · rcases List.mem_cons.1 hk with h | hk
        · rw [h]; exact hc
        · cases hk
  · intro k x nl c hk hd _
    rw [hdef hd]
    simp only [JMs.get] at hk
    split at hk
    · injection hk with hk; rw [← hk]; exact mStr_valid _ _
    · split at hk
      · injection hk with hk; rw [← hk]; exact mStr_valid _ _
      · split at hk
        · injection hk with hk; rw [← hk]; exact mStr_valid _ _
        · cases hk

/-- The schema as it is generated from. -/
def nestComps : List (Str × OS) :=
  [("foo".toList, .obj true [] (.cons "a".toList false false (.prim .string [] [])
    (.cons "c".toList false false (.prim .string [] []) .nil)) .no .nil)]

theorem nestComps_conv : convAll [("foo".toList, nestSchema)] = .ok nestComps := rfl

/-- **C120** refuted (witness): valid data of such a property is lost. -/
theorem C120_nested_data_lost :
    MValid std false [("foo".toList, nestSchema)] (.ref "foo".toList) nestData ∧
    convAll [("foo".toList, nestSchema)] = .ok nestComps ∧
    ∃ ds, goTypes ascii id false nestComps = .ok ds ∧
    Becomes ascii std ds (.ident "Foo".toList)
      nestData
      (.obj (.cons "a".toList (.str "x".toList) (.cons "c".toList (.str "z".toList) .nil))) := by
  refine ⟨nestData_valid, rfl, _, rfl, becomes 9 (.struct (.cons (keyFld "A" "a" true)
    (.ptr (.str "x".toList)) (.cons (keyFld "C" "c" true) (.ptr (.str "z".toList)) .nil))) ?_ ?_⟩
  · rfl
  · decide +kernel

theorem convAll_mem {n : Str} {h : MH} : ∀ {raw : List (Str × MH)} {comps : List (Str × OS)},
    convAll raw = .ok comps → (n, h) ∈ raw → ∃ s, convH h = .ok s
  | (n', h') :: raw, comps, hc, hm => by
    rw [convAll] at hc
    obtain ⟨s, h1, hc⟩ := OMerge.bind_ok hc
    obtain ⟨cs, h2, hc⟩ := OMerge.bind_ok hc
    rcases List.mem_cons.1 hm with e | hm
    · injection e with _ e; rw [e]; exact ⟨s, h1⟩
    · exact convAll_mem h2 hm

/-- **C120** refuted, generally: generation fails if a schema with inline members of `allOf` or one
of its members has a default, or members have another format or other flags (such as `nullable`)
than the schema itself. -/
theorem C120_fails {n : Str} {h : MH} (hm : (n, h) ∈ raw) (hi : h.parts.inline = true)
    (hb : h.dflt = true ∨ ∃ p ∈ h.parts.toList, p.parts = .nil ∧
      (p.dflt = true ∨ p.format ≠ h.format ∨ p.flags ≠ h.flags)) :
    convAll raw ≠ .ok comps := by
  intro hc
  obtain ⟨s, hs⟩ := convAll_mem hc hm
  rw [convH_merge (.inr hi)] at hs
  obtain ⟨r, hr, _⟩ := OMerge.bind_ok hs
  have hn : h.parts ≠ .nil := by intro e; rw [e] at hi; cases hi
  rcases hb with hb | ⟨p, hp, hpn, hb⟩
  · have := (mergeParts_drops hn hr).2.2.2
    rw [show h.dflt = false from this] at hb
    cases hb
  · obtain ⟨h1, h2, h3, _⟩ := mergeParts_same hr p hp hpn
    rcases hb with hb | hb | hb
    · rw [h1] at hb; cases hb
    · exact hb h2
    · exact hb h3

/-- Nullable, with a member that says nothing about it. -/
example : let h : MH := (.mk .object [] [] false { nullable := true } []
        (.cons "a".toList false mStr .nil) .no .no .nil .nil
        (.cons none (mPart .none ["a".toList] .nil .nil) .nil))
    h.parts.inline = true ∧ ∃ p ∈ h.parts.toList, p.parts = .nil ∧ p.flags ≠ h.flags :=
  ⟨rfl, _, List.mem_cons_self, rfl, by decide⟩

/-- **C120** refuted, generally: generation fails if a schema with inline members of `allOf` has a
schema of additional properties and one of its members has additional properties, too. -/
theorem C120_fails_additional {n : Str} {h : MH} {a : MS} (hm : (n, h) ∈ raw)
    (hi : h.parts.inline = true) (ha : h.addl = .of a)
    (hb : ∃ p ∈ h.parts.toList, p.parts = .nil ∧ p.addl ≠ .no) : convAll raw ≠ .ok comps := by
  intro hc
  obtain ⟨s, hs⟩ := convAll_mem hc hm
  rw [convH_merge (.inr hi)] at hs
  obtain ⟨r, hr, _⟩ := OMerge.bind_ok hs
  obtain ⟨p, hp, hpn, hb⟩ := hb
  exact hb (mergeParts_once hr (by simp [own, ha, convA]) p hp hpn)

/-- Strings beside the properties, with a member that allows anything. -/
example : let h : MH := (.mk .object [] [] false {} []
        (.cons "a".toList false mStr .nil) (.of mStr) .no .nil .nil
        (.cons none (.mk .object [] [] false {} [] .nil .free .no .nil .nil .nil) .nil))
    h.parts.inline = true ∧ h.addl = .of mStr ∧
      ∃ p ∈ h.parts.toList, p.parts = .nil ∧ p.addl ≠ .no :=
  ⟨rfl, rfl, _, List.mem_cons_self, rfl, by simp [MH.addl]⟩

/-- **C120** refuted, generally: what an array with inline members of `allOf` has as items does not
count; the Go type is `[]any`. -/
theorem C120_items_lost {h : MH} {s : OS} {path : List Str} {g : GSch} (ht : h.typ = .array)
    (hi : h.parts.inline = true) (hc : convH h = .ok s) (hg : gen U path s = .ok g) :
    g.typeDecl = .arr (id' "any") := by
  rw [convH_merge (.inr hi)] at hc
  obtain ⟨r, hr, hc⟩ := OMerge.bind_ok hc
  have hn : h.parts ≠ .nil := by intro e; rw [e] at hi; cases hi
  have h1 : r.typ = .array := (mergeParts_keeps hr).1.trans ht
  have h2 := (mergeParts_drops hn hr).2.1
  unfold RH.toOS at hc
  rw [h1, h2] at hc
  injection hc with hc
  subst hc
  rw [gen] at hg
  obtain ⟨a, ha, hg⟩ := OMerge.bind_ok hg
  injection hg with hg
  subst hg
  rw [gen] at ha
  dsimp only at ha
  rw [if_pos (by simp)] at ha
  injection ha with ha
  subst ha
  rfl

example : let h : MH := (.mk .array [] [] false {} [] .nil .no (.of mStr) .nil .nil
        (.cons none (mPart .none [] .nil .nil) .nil))
    h.parts.inline = true ∧ ∃ s g, convH h = .ok s ∧ gen ascii ["foo".toList] s = .ok g :=
  ⟨rfl, _, _, rfl, rfl⟩

/-- **C120** refuted, generally: `additionalProperties: true` and the alternatives of `anyOf` of a
schema with inline members of `allOf`, and of its members, do not count. -/
theorem C120_free_lost {h : MH} {s : OS} (ht : h.typ = .none ∨ h.typ = .object)
    (hi : h.parts.inline = true) (hm : ∀ m, Member h m → m.one = .nil ∧ ∀ c, m.addl ≠ .of c)
    (hc : convH h = .ok s) : ∃ ps, s = .obj (h.typ = .object) [] ps .no .nil := by
  rw [convH_merge (.inr hi)] at hc
  obtain ⟨r, hr, hc⟩ := OMerge.bind_ok hc
  have hn : h.parts ≠ .nil := by intro e; rw [e] at hi; cases hi
  have h1 : r.typ = h.typ := (mergeParts_keeps hr).1
  obtain ⟨h2, _, h3, _⟩ := mergeParts_drops hn hr
  have hA : ∀ m, Member h m → convA m.addl = none := by
    intro m hmm
    cases ha : m.addl with
    | no => rfl
    | free => rfl
    | of c => exact absurd ha ((hm m hmm).2 c)
  have h4 : r.addl = none := mergeParts_addl (fun p hp m hm' => hA m (.part hp hm')) (hA h .self) hr
  have h5 : r.one = [] := mergeParts_one (fun p hp m hm' => (hm m (.part hp hm')).1)
    (by simp [own, (hm h .self).1, convEs]) hr
  unfold RH.toOS at hc
  rw [h1, h2, h3, h4, h5] at hc
  rcases ht with ht | ht
  all_goals
    rw [ht] at hc ⊢
    dsimp only at hc
    obtain ⟨ps, _, hc⟩ := OMerge.bind_ok hc
    simp only [List.append_nil, toEs, Res.bind] at hc
    injection hc with hc
    exact ⟨ps, hc.symm⟩

/-- Any properties, of which `a` is required. -/
def freeSchema : MH := .mk .object [] [] false {} [] .nil .free .no .nil .nil
  (.cons none (mPart .none ["a".toList] (.cons "a".toList false mStr .nil) .nil) .nil)

example : freeSchema.parts.inline = true ∧ (∃ s, convH freeSchema = .ok s) ∧
    ∀ m, Member freeSchema m → m.one = .nil ∧ ∀ c, m.addl ≠ .of c := by
  refine ⟨rfl, ⟨_, rfl⟩, fun m hm => ?_⟩
  cases hm with
  | self => exact ⟨rfl, fun c e => by cases e⟩
  | part hp hm =>
    rcases List.mem_cons.1 hp with rfl | hp
    · cases hm with
      | self => exact ⟨rfl, fun c e => by cases e⟩
      | part hp _ => cases hp
    · cases hp

/-- The schema as it is generated from. -/
def freeComps : List (Str × OS) :=
  [("foo".toList, .obj true [] (.cons "a".toList true false (.prim .string [] []) .nil) .no .nil)]

/-- **C120** refuted (witness): data that is only allowed by `additionalProperties: true` is
lost. -/
theorem C120_free_data_lost : convAll [("foo".toList, freeSchema)] = .ok freeComps ∧
    ∃ ds, goTypes ascii id false freeComps = .ok ds ∧
    Becomes ascii std ds (.ident "Foo".toList)
      (.obj (.cons "a".toList (.str "x".toList) (.cons "b".toList (.str "y".toList) .nil)))
      (.obj (.cons "a".toList (.str "x".toList) .nil)) := by
  refine ⟨rfl, _, rfl, becomes 9 (.struct (.cons (keyFld "A" "a" false) (.str "x".toList) .nil))
    ?_ ?_⟩
  · rfl
  · decide +kernel

/-- **C120** refuted, generally: the types of the members of `allOf` do not count: a schema without
a type, where neither it nor a member has properties, is `any`. -/
theorem C120_type_lost {h : MH} {s : OS} {path : List Str} {g : GSch} (ht : h.typ = .none)
    (hi : h.parts.inline = true) (hb : ∀ n ∈ h.parts.before, '_' ∈ n)
    (hm : ∀ m, Member h m → m.props = .nil ∧ m.one = .nil ∧ ∀ c, m.addl ≠ .of c)
    (hc : convH h = .ok s) (hg : gen U path s = .ok g) : g.typeDecl = id' "any" := by
  obtain ⟨ps', h1⟩ := C120_free_lost (.inl ht) hi (fun m h => (hm m h).2) hc
  obtain ⟨ps, a, es, h2, hmem, _, _, _⟩ := convH_fields (.inl ht) (.inr hi) hc
  rw [h1] at h2
  injection h2 with _ _ h2 h3 h4
  subst h2
  have hp : ps' = .nil := by
    cases ps' with
    | nil => rfl
    | cons n r nl c rest =>
      obtain ⟨_, ⟨c, ⟨m, hk, hd⟩, _⟩ | ⟨⟨hb', hu⟩, _⟩⟩ := hmem n r nl c List.mem_cons_self
      · rw [(hm m (kept_member hk)).1] at hd; cases hd
      · exact absurd (hb n hb') hu
  subst hp
  subst h1
  rw [ht] at hg
  rw [gen] at hg
  dsimp only at hg
  rw [if_pos (by simp)] at hg
  injection hg with hg
  subst hg
  rfl

/-- A member that is a string. -/
example : let h : MH := mPart .none [] .nil (.cons none (.mk (.prim .string) [] ["a".toList] false
      {} [] .nil .no .no .nil .nil .nil) .nil)
    h.parts.inline = true ∧ h.parts.before = [] ∧
    (∃ s g, convH h = .ok s ∧ gen ascii ["foo".toList] s = .ok g) ∧
    ∀ m, Member h m → m.props = .nil ∧ m.one = .nil ∧ ∀ c, m.addl ≠ .of c := by
  refine ⟨rfl, rfl, ⟨_, _, rfl, rfl⟩, fun m hm => ?_⟩
  cases hm with
  | self => exact ⟨rfl, rfl, fun c e => by cases e⟩
  | part hp hm =>
    rcases List.mem_cons.1 hp with rfl | hp
    · cases hm with
      | self => exact ⟨rfl, rfl, fun c e => by cases e⟩
      | part hp _ => cases hp
    · cases hp

end Thema.Props

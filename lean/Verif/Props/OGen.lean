import Verif.Lemmas.OGenNames
import Verif.Lemmas.Lit

/-!
# Names in generated Go types (C107 - C109)
-/

namespace Thema.Props

open GoTypes OGen

variable {U : Uni}

/-! ### C107: names of types and fields -/

/-- **C107** (where it holds, exactly).  The name made from `name` is an exported identifier
if and only if `name` is a good one. -/
theorem C107_names_partial (L : UniLaws U) (name : Str) :
    (GoIdent U (typeName U name) ∧ Exported U (typeName U name)) ↔ GoodName U name :=
  ⟨fun h => (exported_iff L name).1 h.2,
    fun h => ⟨exported_ident L ((exported_iff L name).2 h) (typeName_ld L name),
      (exported_iff L name).2 h⟩⟩

example : UniLaws ascii ∧ GoodName ascii "x-foo_bar".toList ∧
    typeName ascii "x-foo_bar".toList = "XFooBar".toList ∧
    typeName ascii "1st".toList = "N1st".toList ∧ typeName ascii "-a".toList = "MinusA".toList :=
  ⟨ascii_laws, (exported_iff ascii_laws _).1 ⟨'X', "FooBar".toList, by decide, by decide⟩,
    by decide, by decide, by decide⟩

/-- **C107** refuted: a name without a cased letter or digit that begins with no sign that
has a name gives no name at all. -/
theorem C107_empty (L : UniLaws U) (name : Str) (h1 : name ≠ []) (h2 : name ≠ ['$'])
    (h3 : ∀ c ∈ name, kept U c = false ∧ hasWord c = false) : typeName U name = [] := by
  unfold typeName
  have hc : camel U name = [] := by
    rw [camel_eq L]
    have := camelGo_skip (U := U) name true [] (fun c hc => (h3 c hc).1)
    simpa [camelGo] using this
  rw [hc, List.append_nil, typeNamePrefix_cases name h1 h2]
  have := prefixGo_nil (U := U) name
  split at this
  · exact this
  · rename_i c hc
    have hm : c ∈ name := (List.dropWhile_sublist _).subset (List.mem_of_mem_head? hc)
    have hk := h3 c hm
    have hd : U.isDigit c = false := by
      have := hk.1
      simp only [kept, Bool.or_eq_false_iff] at this
      exact this.2
    simpa [hk.2, hd] using this

example : ∀ c ∈ "@/?".toList, kept ascii c = false ∧ hasWord c = false := by decide

/-- **C107** refuted: if something that is neither kept nor a sign nor a separator precedes a
lower case name, the name is not exported, so that `encoding/json` ignores the field. -/
theorem C107_unexported (L : UniLaws U) (x c : Char) (s : Str) (hx : kept U x = false)
    (hw : hasWord x = false) (hs : isSep x = false) (hc : U.isLower c = true) :
    ∃ r, typeName U (x :: c :: s) = c :: r ∧ ¬ Exported U (typeName U (x :: c :: s)) := by
  have hd : (x == '$') = false := by
    cases h : (x == '$') with
    | false => rfl
    | true => rw [eq_of_beq h] at hs; exact absurd hs (by decide)
  have e : typeName U (x :: c :: s) = c :: camelGo U false s := by
    have hp := prefixGo_nil (U := U) (x :: c :: s)
    rw [List.dropWhile_cons, hd] at hp
    have hdx : U.isDigit x = false := by
      simp only [kept, Bool.or_eq_false_iff] at hx
      exact hx.2
    simp only [Bool.false_eq_true, if_false, List.head?_cons, hw, hdx, Bool.or_self] at hp
    unfold typeName
    rw [typeNamePrefix_cases _ (by simp) (by simp), hp, camel_eq L, camelGo_not_kept hx, hs,
      camelGo_kept L (by simp [kept, hc])]
    simp [img]
  refine ⟨_, e, ?_⟩
  rw [e]
  rintro ⟨d, r, h, hu⟩
  injection h with h _
  subst h
  rw [L.lower_not_upper hc] at hu
  cases hu

example : typeName ascii "/foo".toList = "foo".toList ∧ kept ascii '/' = false ∧
    hasWord '/' = false ∧ isSep '/' = false := by decide

/-- **C107** refuted: a name whose first cased letter or digit is a digit that is not its
first character gives no identifier. -/
theorem C107_digit (L : UniLaws U) (x c : Char) (s : Str) (hx : kept U x = false)
    (hw : hasWord x = false) (hd : x ≠ '$') (hc : U.isDigit c = true) :
    ¬ GoIdent U (typeName U (x :: c :: s)) := by
  have hdx : U.isDigit x = false := by
    simp only [kept, Bool.or_eq_false_iff] at hx
    exact hx.2
  have e : typeName U (x :: c :: s) = c :: camelGo U false s := by
    have hp := prefixGo_nil (U := U) (x :: c :: s)
    rw [List.dropWhile_cons, beq_eq_false_iff_ne.2 hd] at hp
    simp only [Bool.false_eq_true, if_false, List.head?_cons, hw, hdx, Bool.or_self] at hp
    unfold typeName
    rw [typeNamePrefix_cases _ (by simp) (by simp), hp, camel_eq L, camelGo_not_kept hx,
      camelGo_kept L (by simp [kept, hc])]
    simp [img, L.digit_not_lower hc]
  rw [e]
  rintro ⟨d, r, h, hl, _⟩
  injection h with h _
  subst h
  rcases hl with hl | rfl
  · rw [L.letter_not_digit c hl] at hc; cases hc
  · have := L.other '_' (by decide) (by decide)
    simp only [kept, Bool.or_eq_false_iff] at this
    rw [this.2] at hc
    cases hc

example : typeName ascii "_1".toList = "1".toList ∧ kept ascii '_' = false ∧ hasWord '_' = false := by
  decide

/-! ### C108: names of the fields of a struct -/

theorem gen_inner {U : Uni} : ∀ {path : List Str} {s : OS} {g : GSch}, gen U path s = .ok g →
    s ≠ .inner → g.inner = false
  | path, .ref n, g, h, _ => by rw [gen] at h; injection h with h; subst h; rfl
  | path, .prim k f e, g, h, _ => by
    rw [gen, genPrim] at h
    cases hp : primType k f with
    | ok p =>
      rw [hp] at h
      simp only [Res.bind] at h
      split at h
      all_goals (injection h with h; subst h; rfl)
    | err e => rw [hp] at h; cases h
    | panic e => rw [hp] at h; cases h
    | fuel => rw [hp] at h; cases h
  | path, .arr i, g, h, _ => by
    rw [gen] at h
    cases hp : gen U path i with
    | ok a => rw [hp] at h; injection h with h; subst h; rfl
    | err e => rw [hp] at h; cases h
    | panic e => rw [hp] at h; cases h
    | fuel => rw [hp] at h; cases h
  | path, .inner, g, h, hn => absurd rfl hn
  | path, .obj typed allOf props addl alts, g, h, _ => by
    rw [gen] at h
    dsimp only at h
    split at h
    · injection h with h; subst h; rfl
    · cases ha : genA U path addl with
      | err e => rw [ha] at h; cases h
      | panic e => rw [ha] at h; cases h
      | fuel => rw [ha] at h; cases h
      | ok a =>
        rw [ha] at h
        simp only [Res.bind] at h
        split at h
        · injection h with h; subst h; rfl
        · cases hp : genPs U path props with
          | err e => rw [hp] at h; cases h
          | panic e => rw [hp] at h; cases h
          | fuel => rw [hp] at h; cases h
          | ok ps =>
            rw [hp] at h
            simp only at h
            cases he : genEs U path 0 alts with
            | err e => rw [he] at h; cases h
            | panic e => rw [he] at h; cases h
            | fuel => rw [he] at h; cases h
            | ok es => rw [he] at h; injection h with h; subst h; rfl

/-- No property is what only the generator makes. -/
def NoInner : OPs → Prop
  | .nil => True
  | .cons _ _ _ s r => s ≠ .inner ∧ NoInner r

theorem goNames_fieldsOf (last : GFs) : ∀ ps : List Prop', (∀ p ∈ ps, p.s.inner = false) →
    goNames (fieldsOf U last ps) = ps.map (fun p => typeName U p.name) ++ goNames last
  | [], _ => rfl
  | p :: ps, h => by
    rw [fieldsOf, goNames, goNames_fieldsOf last ps (fun q hq => h q (List.mem_cons_of_mem _ hq))]
    simp [Prop'.field, h p (List.mem_cons_self ..)]

theorem genProp_inner (path : List Str) (g : GSch) : (genProp U path g).inner = g.inner := by
  unfold genProp
  split <;> rfl

theorem genPs_names : ∀ {path : List Str} {props : OPs} {ps : List Prop'}, NoInner props →
    genPs U path props = .ok ps →
    ps.map (·.name) = propNames props ∧ ∀ p ∈ ps, p.s.inner = false
  | path, .nil, ps, _, h => by
    rw [genPs] at h; injection h with h; subst h
    exact ⟨rfl, fun p hp => by cases hp⟩
  | path, .cons n r nl s rest, ps, hn, h => by
    rw [genPs] at h
    cases hg : gen U (path ++ [n]) s with
    | err e => rw [hg] at h; cases h
    | panic e => rw [hg] at h; cases h
    | fuel => rw [hg] at h; cases h
    | ok g =>
      rw [hg] at h
      simp only [Res.bind] at h
      cases hp : genPs U path rest with
      | err e => rw [hp] at h; cases h
      | panic e => rw [hp] at h; cases h
      | fuel => rw [hp] at h; cases h
      | ok ps' =>
        rw [hp] at h
        injection h with h
        subst h
        have ih := genPs_names hn.2 hp
        refine ⟨by simp [propNames, ih.1], fun p hq => ?_⟩
        rcases List.mem_cons.1 hq with rfl | hq
        · exact (genProp_inner _ g).trans (gen_inner hg hn.1)
        · exact ih.2 p hq

/-- **C108** (what the names are).  The struct for an object with properties has a field for
every property, in order, and one for the additional properties and one for the alternatives
if there are any. -/
theorem C108_fields {path : List Str} {typed : Bool} {props : OPs} {addl : OAs} {alts : OEs}
    {g : GSch} (hp : props ≠ .nil) (hn : NoInner props)
    (h : gen U path (.obj typed [] props addl alts) = .ok g) :
    ∃ fs, g.goType = .struct fs ∧ goNames fs = (propNames props).map (typeName U)
      ++ (if addl = .no then [] else ["AdditionalProperties".toList])
      ++ (if alts = .nil then [] else ["union".toList]) := by
  rw [gen] at h
  dsimp only at h
  rw [if_neg (fun hh => hp hh.1.1)] at h
  cases ha : genA U path addl with
  | err e => rw [ha] at h; cases h
  | panic e => rw [ha] at h; cases h
  | fuel => rw [ha] at h; cases h
  | ok a =>
    rw [ha] at h
    simp only [Res.bind] at h
    rw [if_neg (fun hh => hp hh.1.1)] at h
    cases hps : genPs U path props with
    | err e => rw [hps] at h; cases h
    | panic e => rw [hps] at h; cases h
    | fuel => rw [hps] at h; cases h
    | ok ps =>
      rw [hps] at h
      simp only at h
      cases he : genEs U path 0 alts with
      | err e => rw [he] at h; cases h
      | panic e => rw [he] at h; cases h
      | fuel => rw [he] at h; cases h
      | ok es =>
        rw [he] at h
        injection h with h
        subst h
        have hnm := genPs_names hn hps
        refine ⟨_, rfl, ?_⟩
        rw [goNames_fieldsOf _ _ (by simpa [embed] using hnm.2)]
        rw [← hnm.1, List.map_map]
        simp only [embed, List.append_assoc]
        congr 1
        by_cases h1 : addl = .no <;> by_cases h2 : alts = .nil <;> simp [h1, h2, goNames]

example : ∃ g, gen ascii ["T".toList] (.obj true [] (.cons "foo".toList true false
    (.prim .string [] []) (.cons "foo_bar".toList false false (.prim .boolean [] []) .nil)) .no .nil)
    = .ok g := ⟨_, rfl⟩

/-- **C108** (where it holds).  Properties whose names are letters and digits beginning with a
letter, and differ in more than the case of their first letters, have distinct fields. -/
theorem C108_distinct_partial (L : UniLaws U) {path : List Str} {typed : Bool} {props : OPs}
    {g : GSch} (hp : props ≠ .nil) (hn : NoInner props)
    (hl : ∀ n ∈ propNames props, ∃ c s, n = c :: s ∧ (U.isUpper c ∨ U.isLower c) ∧
      ∀ x ∈ s, kept U x)
    (hd : (propNames props).Pairwise fun a b =>
      a.tail ≠ b.tail ∨ a.head?.map U.toUpper ≠ b.head?.map U.toUpper)
    (h : gen U path (.obj typed [] props .no .nil) = .ok g) :
    ∃ fs, g.goType = .struct fs ∧ (goNames fs).Nodup := by
  obtain ⟨fs, h1, h2⟩ := C108_fields hp hn h
  refine ⟨fs, h1, ?_⟩
  rw [h2, if_pos rfl, if_pos rfl, List.append_nil, List.append_nil]
  unfold List.Nodup
  rw [List.pairwise_map]
  refine List.Pairwise.imp_of_mem ?_ hd
  intro a b ha hb hab he
  obtain ⟨c, s, rfl, hc, hs⟩ := hl a ha
  obtain ⟨d, t, rfl, hd, ht⟩ := hl b hb
  rw [typeName_letters L hc hs, typeName_letters L hd ht] at he
  injection he with e1 e2
  rcases hab with hab | hab
  · exact hab e2
  · exact hab (by simp [e1])

example : (["foo", "fooBar", "bar"].map String.toList).Pairwise fun a b =>
    a.tail ≠ b.tail ∨ a.head?.map ascii.toUpper ≠ b.head?.map ascii.toUpper := by decide

/-- **C108** refuted: names that differ in the case of their first letter. -/
theorem C108_case_clash (L : UniLaws U) (c : Char) (s : Str) (hc : U.isLower c = true)
    (hu : U.isUpper (U.toUpper c) = true) :
    c :: s ≠ U.toUpper c :: s ∧ typeName U (c :: s) = typeName U (U.toUpper c :: s) := by
  constructor
  · intro e
    injection e with e _
    rw [← e, L.lower_not_upper hc] at hu
    cases hu
  · have hk : kept U c = true := by simp [kept, hc]
    have hk' : kept U (U.toUpper c) = true := by simp [kept, hu]
    have key : ∀ d, kept U d = true → U.isDigit d = false →
        typeName U (d :: s) = img U true d :: camelGo U false s := by
      intro d hd hdd
      have hw := L.kept_no_word hd
      have h2 : d :: s ≠ ['$'] := by
        intro e; injection e with e _; subst e; exact absurd hw.2 (by decide)
      unfold typeName
      rw [typeNamePrefix_cases _ (by simp) h2, prefixGo, hw.2, hw.1, camel_eq L, camelGo_kept L hd]
      simp [hdd]
    rw [key c hk (L.lower_not_digit hc), key _ hk' (L.upper_not_digit hu)]
    simp [img, hc, L.upper_not_lower _ hu]

/-- **C108** refuted: a separator before a letter and the upper case letter without it. -/
theorem C108_separator_clash (L : UniLaws U) (a : Char) (s : Str) (x c : Char) (t : Str)
    (ha : U.isUpper a ∨ U.isLower a) (hx : isSep x = true) (hc : U.isLower c = true)
    (hu : U.isUpper (U.toUpper c) = true) :
    a :: s ++ x :: c :: t ≠ a :: s ++ U.toUpper c :: t ∧
    typeName U (a :: s ++ x :: c :: t) = typeName U (a :: s ++ U.toUpper c :: t) := by
  constructor
  · intro e
    have := congrArg List.length e
    simp at this
  · have key : ∀ r, typeName U (a :: r) = img U true a :: camelGo U false r := by
      intro r
      have hk : kept U a = true := by rcases ha with h | h <;> simp [kept, h]
      have hdd : U.isDigit a = false := by
        rcases ha with h | h
        · exact L.upper_not_digit h
        · exact L.lower_not_digit h
      have hw := L.kept_no_word hk
      have h2 : a :: r ≠ ['$'] := by
        intro e; injection e with e _; subst e; exact absurd hw.2 (by decide)
      unfold typeName
      rw [typeNamePrefix_cases _ (by simp) h2, prefixGo, hw.2, hw.1, camel_eq L, camelGo_kept L hk]
      simp [hdd]
    have app : ∀ (s : Str) (b : Bool),
        camelGo U b (s ++ x :: c :: t) = camelGo U b (s ++ U.toUpper c :: t) := by
      intro s
      induction s with
      | nil =>
        intro b
        rw [List.nil_append, List.nil_append, camelGo_not_kept (L.sep hx), hx,
          camelGo_kept L (by simp [kept, hc]), camelGo_kept L (by simp [kept, hu])]
        simp [img, hc, L.upper_not_lower _ hu]
      | cons d s ih => intro b; rw [List.cons_append, List.cons_append, camelGo, camelGo, ih]
    rw [List.cons_append, List.cons_append, key, key, app]

/-- Both clashes, in one struct with its properties: the file declares a field twice. -/
theorem C108_refuted : ∃ props g fs, propNames props =
    ["FooBar", "fooBar", "foo_bar"].map String.toList ∧
    gen ascii ["T".toList] (.obj true [] props .no .nil) = .ok g ∧ g.goType = .struct fs ∧
    goNames fs = ["FooBar", "FooBar", "FooBar"].map String.toList :=
  let s : OS := .prim .string [] []
  ⟨.cons "FooBar".toList true false s (.cons "fooBar".toList true false s
    (.cons "foo_bar".toList true false s .nil)), _, _, rfl, rfl, rfl, by decide⟩

/-- **C108** refuted: the property `additionalProperties` beside additional properties. -/
theorem C108_additional_clash {path : List Str} {typed : Bool} {props : OPs} {addl : OAs}
    {alts : OEs} {g : GSch} (L : UniLaws U) (hu : U.toUpper 'a' = 'A')
    (hn : NoInner props) (ha : addl ≠ .no)
    (hm : "additionalProperties".toList ∈ propNames props)
    (h : gen U path (.obj typed [] props addl alts) = .ok g) :
    ∃ fs, g.goType = .struct fs ∧ ¬ (goNames fs).Nodup := by
  have hp : props ≠ .nil := by rintro rfl; cases hm
  obtain ⟨fs, h1, h2⟩ := C108_fields hp hn h
  refine ⟨fs, h1, ?_⟩
  rw [h2, if_neg ha, List.append_assoc]
  intro hnd
  have key : typeName U "additionalProperties".toList = "AdditionalProperties".toList := by
    have hl : ∀ x ∈ "dditionalProperties".toList, x.isUpper = true ∨ x.isLower = true := by decide
    have := typeName_letters (U := U) L (c := 'a') (s := "dditionalProperties".toList)
      (.inr (L.ascii_lower _ (by decide)))
      (fun x hx => (hl x hx).elim (fun h => by simp [kept, L.ascii_upper x h])
        (fun h => by simp [kept, L.ascii_lower x h]))
    rw [hu] at this
    exact this
  exact (List.nodup_append.1 hnd).2.2 _ (List.mem_map_of_mem hm) _ (by simp) key

/-! ### C109: the constants of an enumeration -/

theorem set_fresh {m : SMap} {k v : Str} (h : k ∉ m.map (·.1)) : m.set k v = m ++ [(k, v)] := by
  unfold SMap.set
  congr 1
  rw [List.filter_eq_self]
  intro e he
  simp only [bne_iff_ne, ne_eq]
  rintro rfl
  exact h (List.mem_map_of_mem he)

theorem foldl_set (f : Str → Str) : ∀ (es : List (Str × Str)) (m : SMap),
    (m.map (·.1) ++ es.map (fun e => f e.1)).Nodup →
    es.foldl (fun m e => m.set (f e.1) e.2) m = m ++ es.map (fun e => (f e.1, e.2))
  | [], m, _ => by simp
  | e :: es, m, h => by
    have hk : f e.1 ∉ m.map (·.1) := by
      intro hm
      rw [List.nodup_append] at h
      exact h.2.2 _ hm _ (by simp) rfl
    rw [List.foldl_cons, set_fresh hk, foldl_set f es _ (by simpa using h)]
    simp

theorem mem_set {m : SMap} {k v : Str} {e : Str × Str} (h : e ∈ m.set k v) :
    e ∈ m ∨ e = (k, v) := by
  unfold SMap.set at h
  rcases List.mem_append.1 h with h | h
  · exact .inl (List.mem_filter.1 h).1
  · exact .inr (by simpa using h)

theorem foldl_set_vals (f : Str → Str) : ∀ (es : List (Str × Str)) (m : SMap) (e : Str × Str),
    e ∈ es.foldl (fun m e => m.set (f e.1) e.2) m → e.2 ∈ m.map (·.2) ∨ e.2 ∈ es.map (·.2)
  | [], m, e, h => .inl (List.mem_map_of_mem h)
  | x :: es, m, e, h => by
    rcases foldl_set_vals f es _ e h with h | h
    · rcases List.mem_map.1 h with ⟨y, hy, hye⟩
      rcases mem_set hy with hy | rfl
      · exact .inl (hye ▸ List.mem_map_of_mem hy)
      · exact .inr (by simp [← hye])
    · exact .inr (by simp only [List.map_cons, List.mem_cons]; exact .inr h)

theorem outcome_vals {ty : Str} {values : List Str} {cs : SMap} (h : Outcome U ty values cs)
    {e : Str × Str} (he : e ∈ cs) : e.2 ∈ (enumNames U values).map (·.2) := by
  obtain ⟨o₁, o₂, h1, h2, rfl⟩ := h
  rcases foldl_set_vals (fun k => ty ++ upperFirst U k) o₂ [] e he with h | h
  · cases h
  · rcases List.mem_map.1 h with ⟨y, hy, hye⟩
    rcases foldl_set_vals (typeName U) o₁ [] y (h2.mem_iff.1 hy) with h | h
    · cases h
    · rw [hye] at h
      exact (h1.map _).mem_iff.1 h

theorem sanGo_vals : ∀ (vs seen : List Str) (m : SMap) (e : Str × Str), e ∈ sanGo U seen m vs →
    e.2 ∈ m.map (·.2) ∨ e.2 ∈ vs
  | [], seen, m, e, h => .inl (List.mem_map_of_mem h)
  | v :: vs, seen, m, e, h => by
    rw [sanGo] at h
    rcases sanGo_vals vs _ _ e h with h | h
    · rcases List.mem_map.1 h with ⟨y, hy, hye⟩
      rcases mem_set hy with hy | rfl
      · exact .inl (hye ▸ List.mem_map_of_mem hy)
      · exact .inr (by simp [← hye])
    · exact .inr (List.mem_cons_of_mem _ h)

theorem mem_firsts : ∀ (vs seen : List Str) (x : Str),
    x ∈ firsts seen vs ↔ x ∈ vs ∧ x ∉ seen
  | [], seen, x => by simp [firsts]
  | v :: vs, seen, x => by
    rw [firsts]
    split
    · rename_i h
      have h : v ∈ seen := by simpa using h
      rw [mem_firsts vs seen x, List.mem_cons]
      constructor
      · rintro ⟨h1, h2⟩; exact ⟨.inr h1, h2⟩
      · rintro ⟨rfl | h1, h2⟩
        · exact absurd h h2
        · exact ⟨h1, h2⟩
    · rename_i h
      have h : v ∉ seen := by simpa using h
      rw [List.mem_cons, mem_firsts vs _ x, List.mem_cons, List.mem_cons]
      constructor
      · rintro (rfl | ⟨h1, h2⟩)
        · exact ⟨.inl rfl, h⟩
        · exact ⟨.inr h1, fun hs => h2 (.inr hs)⟩
      · rintro ⟨h1, h2⟩
        by_cases hx : x = v
        · exact .inl hx
        · exact .inr ⟨h1.resolve_left hx, fun hs => hs.elim hx h2⟩

theorem nodup_firsts : ∀ (vs seen : List Str), (firsts seen vs).Nodup
  | [], seen => by simp [firsts]
  | v :: vs, seen => by
    rw [firsts]
    split
    · exact nodup_firsts vs seen
    · rw [List.nodup_cons]
      exact ⟨fun h => ((mem_firsts vs _ v).1 h).2 (List.mem_cons_self ..), nodup_firsts vs _⟩

/-- **C109** (always).  Every constant has one of the allowed values. -/
theorem C109_only_allowed {ty : Str} {values : List Str} {cs : SMap}
    (h : Outcome U ty values cs) {k v : Str} (hk : (k, v) ∈ cs) : v ∈ values := by
  have := outcome_vals h hk
  rcases List.mem_map.1 this with ⟨y, hy, hye⟩
  rcases sanGo_vals _ _ _ _ hy with h | h
  · cases h
  · rw [hye] at h
    exact ((mem_firsts _ _ _).1 h).1

theorem sanGo_plain (L : UniLaws U) : ∀ (vs seen : List Str) (m : SMap),
    (∀ v ∈ vs, PlainName U (typeName U v)) → (seen ++ vs.map (typeName U)).Nodup →
    (∀ k ∈ m.map (·.1), k ∈ seen) →
    sanGo U seen m vs = m ++ vs.map (fun v => (typeName U v, v))
  | [], seen, m, _, _, _ => by simp [sanGo]
  | v :: vs, seen, m, hp, hn, hm => by
    have hv : typeName U v ∉ seen := by
      intro h
      rw [List.nodup_append] at hn
      exact hn.2.2 _ h _ (by simp) rfl
    rw [sanGo]
    rw [sanitize_plain L (hp v (List.mem_cons_self ..)), if_neg (by simpa using hv),
      set_fresh (fun h => hv (hm _ h)),
      sanGo_plain L vs (typeName U v :: seen) _ (fun w hw => hp w (List.mem_cons_of_mem _ hw)) ?_ ?_]
    · simp
    · rw [List.map_cons] at hn
      rw [List.cons_append]
      exact List.perm_middle.nodup_iff.1 hn
    · intro k hk
      rw [List.map_append, List.mem_append] at hk
      rcases hk with hk | hk
      · exact List.mem_cons_of_mem _ (hm k hk)
      · have : k = typeName U v := by simpa using hk
        rw [this]
        exact List.mem_cons_self ..

/-- **C109** (where it holds).  Let the allowed values be good names, whose lower case letters
have upper case forms, and have distinct names.  Then, whatever the order of iteration, there
is exactly one constant for every value: its name is that of the type followed by that of the
value. -/
theorem C109_constants_partial (L : UniLaws U) {ty : Str} {values : List Str} {cs : SMap}
    (hg : ∀ v ∈ values, GoodName U v)
    (hu : ∀ v ∈ values, ∀ c ∈ v, U.isLower c = true → U.isUpper (U.toUpper c) = true)
    (hi : ∀ v ∈ values, ∀ w ∈ values, typeName U v = typeName U w → v = w)
    (h : Outcome U ty values cs) :
    (cs.map (·.1)).Nodup ∧ (cs.map (·.2)).Nodup ∧
      ∀ k v, (k, v) ∈ cs ↔ v ∈ values ∧ k = ty ++ typeName U v := by
  obtain ⟨o₁, o₂, h1, h2, rfl⟩ := h
  let vs := firsts [] values
  have hmem : ∀ v, v ∈ vs ↔ v ∈ values := fun v => by simp [vs, mem_firsts]
  have hpl : ∀ v ∈ vs, PlainName U (typeName U v) := fun v hv =>
    typeName_isPlain L (hg v ((hmem v).1 hv)) (hu v ((hmem v).1 hv))
  have hnd : (vs.map (typeName U)).Nodup := by
    unfold List.Nodup
    rw [List.pairwise_map]
    refine List.Pairwise.imp_of_mem ?_ (nodup_firsts values [])
    intro a b ha hb hab he
    exact hab (hi a ((hmem a).1 ha) b ((hmem b).1 hb) he)
  have e1 : enumNames U values = vs.map (fun v => (typeName U v, v)) := by
    have := sanGo_plain L vs [] [] hpl (by simpa using hnd) (by simp)
    simpa [enumNames] using this
  rw [e1] at h1
  have hpl1 : ∀ e ∈ o₁, PlainName U e.1 := fun e he => by
    rcases List.mem_map.1 (h1.mem_iff.1 he) with ⟨v, hv, rfl⟩
    exact hpl v hv
  have hk1 : (o₁.map (·.1)).Nodup := by
    rw [(h1.map (·.1)).nodup_iff, List.map_map]
    exact hnd
  have m1 : o₁.map (fun e => typeName U e.1) = o₁.map (·.1) :=
    List.map_congr_left fun e he => typeName_plain L (hpl1 e he)
  have e2 : enumValues U o₁ = o₁ := by
    unfold enumValues
    rw [foldl_set (typeName U) o₁ [] (by simpa [m1] using hk1), List.nil_append]
    have : o₁.map (fun e => (typeName U e.1, e.2)) = o₁.map id :=
      List.map_congr_left fun e he => by rw [typeName_plain L (hpl1 e he)]; rfl
    rw [this, List.map_id]
  rw [e2] at h2
  have hpl2 : ∀ e ∈ o₂, PlainName U e.1 := fun e he => hpl1 e (h2.mem_iff.1 he)
  have hk2 : (o₂.map (·.1)).Nodup := by rw [(h2.map (·.1)).nodup_iff]; exact hk1
  have m2 : o₂.map (fun e => ty ++ upperFirst U e.1) = (o₂.map (·.1)).map (ty ++ ·) := by
    rw [List.map_map]
    exact List.map_congr_left fun e he => by rw [upperFirst_plain L (hpl2 e he)]; rfl
  have hk3 : ((o₂.map (·.1)).map (ty ++ ·)).Nodup := by
    unfold List.Nodup
    rw [List.pairwise_map]
    exact hk2.imp fun hab he => hab (List.append_cancel_left he)
  have e3 : constants U ty o₂ = o₂.map (fun e => (ty ++ e.1, e.2)) := by
    unfold constants
    rw [foldl_set (fun k => ty ++ upperFirst U k) o₂ [] (by simpa [m2] using hk3), List.nil_append]
    exact List.map_congr_left fun e he => by rw [upperFirst_plain L (hpl2 e he)]
  have hp : o₂.Perm (vs.map fun v => (typeName U v, v)) := h2.trans h1
  rw [e3]
  refine ⟨by simpa [List.map_map, Function.comp_def] using hk3, ?_, ?_⟩
  · rw [List.map_map]
    have := (hp.map (·.2)).nodup_iff
    rw [List.map_map] at this
    refine (this.2 ?_)
    show (vs.map id).Nodup
    rw [List.map_id]
    exact nodup_firsts values []
  · intro k v
    constructor
    · intro hm
      rcases List.mem_map.1 hm with ⟨e, he, hee⟩
      rcases List.mem_map.1 (hp.mem_iff.1 he) with ⟨w, hw, rfl⟩
      injection hee with h1 h2
      subst h1 h2
      exact ⟨(hmem _).1 hw, rfl⟩
    · rintro ⟨hv, rfl⟩
      exact List.mem_map.2 ⟨(typeName U v, v),
        hp.mem_iff.2 (List.mem_map.2 ⟨v, (hmem v).2 hv, rfl⟩), rfl⟩

example : Outcome ascii "Mode".toList (["foo", "bar-baz", "1"].map String.toList)
    [("ModeFoo".toList, "foo".toList), ("ModeBarBaz".toList, "bar-baz".toList),
      ("ModeN1".toList, "1".toList)] :=
  ⟨_, _, .rfl, .rfl, by decide⟩

/-- If no names collide, the constants are those of the map. -/
theorem outcome_plain (L : UniLaws U) {ty : Str} {values : List Str} {cs E : SMap}
    (e1 : enumNames U values = E) (hpl : ∀ e ∈ E, PlainName U e.1) (hk : (E.map (·.1)).Nodup)
    (h : Outcome U ty values cs) : cs.Perm (E.map fun e => (ty ++ e.1, e.2)) := by
  obtain ⟨o₁, o₂, h1, h2, rfl⟩ := h
  rw [e1] at h1
  have hpl1 : ∀ e ∈ o₁, PlainName U e.1 := fun e he => hpl e (h1.mem_iff.1 he)
  have hk1 : (o₁.map (·.1)).Nodup := by
    rw [(h1.map (·.1)).nodup_iff]
    exact hk
  have m1 : o₁.map (fun e => typeName U e.1) = o₁.map (·.1) :=
    List.map_congr_left fun e he => typeName_plain L (hpl1 e he)
  have e2 : enumValues U o₁ = o₁ := by
    unfold enumValues
    rw [foldl_set (typeName U) o₁ [] (by simpa [m1] using hk1), List.nil_append]
    have : o₁.map (fun e => (typeName U e.1, e.2)) = o₁.map id :=
      List.map_congr_left fun e he => by rw [typeName_plain L (hpl1 e he)]; rfl
    rw [this, List.map_id]
  rw [e2] at h2
  have hpl2 : ∀ e ∈ o₂, PlainName U e.1 := fun e he => hpl1 e (h2.mem_iff.1 he)
  have hk2 : (o₂.map (·.1)).Nodup := by rw [(h2.map (·.1)).nodup_iff]; exact hk1
  have m2 : o₂.map (fun e => ty ++ upperFirst U e.1) = (o₂.map (·.1)).map (ty ++ ·) := by
    rw [List.map_map]
    exact List.map_congr_left fun e he => by rw [upperFirst_plain L (hpl2 e he)]; rfl
  have hk3 : ((o₂.map (·.1)).map (ty ++ ·)).Nodup := by
    unfold List.Nodup
    rw [List.pairwise_map]
    exact hk2.imp fun hab he => hab (List.append_cancel_left he)
  have e3 : constants U ty o₂ = o₂.map (fun e => (ty ++ e.1, e.2)) := by
    unfold constants
    rw [foldl_set (fun k => ty ++ upperFirst U k) o₂ [] (by simpa [m2] using hk3), List.nil_append]
    exact List.map_congr_left fun e he => by rw [upperFirst_plain L (hpl2 e he)]
  rw [e3]
  exact (h2.trans h1).map _

theorem digits_inj {i j : Nat} (h : digits i = digits j) : i = j := by
  rw [← Nat.ofDigitChars_ten_toDigits (n := i), ← Nat.ofDigitChars_ten_toDigits (n := j)]
  exact congrArg (fun s => Nat.ofDigitChars 10 s 0) h

/-- The numbered names of values. -/
def numb (U : Uni) : List Str → List Str → SMap
  | _, [] => []
  | seen, v :: vs =>
    (typeName U v ++ (if seen.count (typeName U v) = 0 then [] else digits (seen.count (typeName U v))),
      v) :: numb U (typeName U v :: seen) vs

theorem sanGo_numb (L : UniLaws U) : ∀ (vs seen : List Str) (m : SMap),
    (∀ v ∈ vs, PlainName U (typeName U v)) → (m.map (·.1) ++ (numb U seen vs).map (·.1)).Nodup →
    sanGo U seen m vs = m ++ numb U seen vs
  | [], seen, m, _, _ => by simp [sanGo, numb]
  | v :: vs, seen, m, hp, hn => by
    have hk : (if seen.contains (typeName U v) then
        typeName U v ++ digits (seen.count (typeName U v)) else typeName U v) =
        typeName U v ++ (if seen.count (typeName U v) = 0 then []
          else digits (seen.count (typeName U v))) := by
      by_cases hc : typeName U v ∈ seen
      · rw [if_pos (by simpa using hc), if_neg (by rw [List.count_eq_zero]; exact fun h => h hc)]
      · rw [if_neg (by simpa using hc), if_pos (List.count_eq_zero.2 hc), List.append_nil]
    rw [numb, List.map_cons] at hn
    rw [sanGo, sanitize_plain L (hp v (List.mem_cons_self ..)), hk, set_fresh (fun h => by
      rw [List.nodup_append] at hn
      exact hn.2.2 _ h _ (List.mem_cons_self ..) rfl), sanGo_numb L vs _ _
        (fun w hw => hp w (List.mem_cons_of_mem _ hw)) ?_, numb]
    · simp
    · simpa using hn

theorem mem_numb : ∀ (vs seen : List Str) (k v : Str), (k, v) ∈ numb U seen vs ↔
    ∃ i, vs[i]? = some v ∧ ∃ c, c = seen.count (typeName U v) +
      ((vs.take i).map (typeName U)).count (typeName U v) ∧
      k = typeName U v ++ (if c = 0 then [] else digits c)
  | [], seen, k, v => by simp [numb]
  | w :: vs, seen, k, v => by
    rw [numb, List.mem_cons, mem_numb vs]
    constructor
    · rintro (h | ⟨i, h1, c, h2, h3⟩)
      · injection h with h1 h2
        subst h2
        exact ⟨0, rfl, _, rfl, by simpa using h1⟩
      · refine ⟨i + 1, by simpa using h1, c, ?_, h3⟩
        rw [h2, List.take_succ_cons, List.map_cons, List.count_cons, List.count_cons]
        omega
    · rintro ⟨i, h1, c, h2, h3⟩
      cases i with
      | zero =>
        simp only [List.getElem?_cons_zero, Option.some.injEq] at h1
        subst h1
        left
        simp only [List.take_zero, List.map_nil, List.count_nil, Nat.add_zero] at h2
        subst h2
        rw [h3]
      | succ i =>
        right
        refine ⟨i, by simpa using h1, c, ?_, h3⟩
        rw [h2, List.take_succ_cons, List.map_cons, List.count_cons, List.count_cons]
        omega

theorem numb_vals : ∀ (vs seen : List Str), (numb U seen vs).map (·.2) = vs
  | [], _ => rfl
  | v :: vs, seen => by rw [numb, List.map_cons, numb_vals vs]

theorem firsts_nodup : ∀ (vs seen : List Str), (seen ++ vs).Nodup → firsts seen vs = vs
  | [], _, _ => rfl
  | v :: vs, seen, h => by
    have hv : v ∉ seen := fun hm => by
      rw [List.nodup_append] at h
      exact h.2.2 _ hm _ (List.mem_cons_self ..) rfl
    rw [firsts, if_neg (by simpa using hv), firsts_nodup vs (v :: seen)]
    exact List.perm_middle.nodup_iff.1 h

/-- The numbered names are distinct if no name is another one with digits at its end. -/
theorem numb_nodup (P : Str → Prop)
    (hP : ∀ v w, P v → P w → ∀ x, x ≠ [] → (∀ c ∈ x, c.isDigit) →
      typeName U v ≠ typeName U w ++ x) :
    ∀ (vs seen : List Str), (∀ v ∈ vs, P v) → ((numb U seen vs).map (·.1)).Nodup
  | [], _, _ => List.nodup_nil
  | v :: vs, seen, h => by
    rw [numb, List.map_cons, List.nodup_cons]
    refine ⟨?_, numb_nodup P hP vs _ fun w hw => h w (List.mem_cons_of_mem _ hw)⟩
    intro hm
    obtain ⟨⟨k, w⟩, he, hk⟩ := List.mem_map.1 hm
    obtain ⟨i, hi, c, hc, hkw⟩ := (mem_numb vs _ k w).1 he
    dsimp only at hk
    rw [hkw] at hk
    have hv := h v (List.mem_cons_self ..)
    have hw := h w (List.mem_cons_of_mem _ (List.mem_of_getElem? hi))
    generalize hs : seen.count (typeName U v) = s at hk
    -- the names are the same
    have hdig : ∀ c : Nat, ∀ x ∈ digits c, x.isDigit := fun c x hx =>
      Nat.isDigit_of_mem_toDigits (by omega) (by omega) hx
    by_cases hvw : typeName U w = typeName U v
    · rw [hvw] at hk hc
      have hk := List.append_cancel_left hk
      rw [List.count_cons, if_pos (by simp), hs] at hc
      rw [if_neg (by omega)] at hk
      by_cases h0 : s = 0
      · rw [if_pos h0] at hk
        exact Nat.toDigits_ne_nil hk
      · rw [if_neg h0] at hk
        have := digits_inj hk
        omega
    · by_cases h0 : c = 0
      · rw [if_pos h0, List.append_nil] at hk
        by_cases h1 : s = 0
        · rw [if_pos h1, List.append_nil] at hk
          exact hvw hk
        · rw [if_neg h1] at hk
          exact hP w v hw hv _ Nat.toDigits_ne_nil (hdig s) hk
      · rw [if_neg h0] at hk
        by_cases h1 : s = 0
        · rw [if_pos h1, List.append_nil] at hk
          exact hP v w hv hw _ Nat.toDigits_ne_nil (hdig c) hk.symm
        · rw [if_neg h1] at hk
          rcases List.append_eq_append_iff.1 hk with ⟨x, hx, hy⟩ | ⟨x, hx, hy⟩
          · cases x with
            | nil => exact hvw (by simpa using hx.symm)
            | cons y x =>
              exact hP v w hv hw (y :: x) (by simp) (fun z hz => hdig c z (by
                rw [hy]; exact List.mem_append_left _ hz)) hx
          · cases x with
            | nil => exact hvw (by simpa using hx)
            | cons y x =>
              exact hP w v hw hv (y :: x) (by simp) (fun z hz => hdig s z (by
                rw [hy]; exact List.mem_append_left _ hz)) hx

/-- **C109** (where it holds, values with the same name).  If no name of a value is that of
another one with digits at its end, values may have the same name: the second one gets the number
1, the third one the number 2, and so on.  So there is exactly one constant for every value,
whatever the order of iteration. -/
theorem C109_numbered_partial (L : UniLaws U) (hdg : ∀ c : Char, c.isDigit → U.isDigit c = true)
    {ty : Str} {values : List Str} {cs : SMap} (hd : values.Nodup)
    (hg : ∀ v ∈ values, GoodName U v)
    (hu : ∀ v ∈ values, ∀ c ∈ v, U.isLower c = true → U.isUpper (U.toUpper c) = true)
    (hi : ∀ v ∈ values, ∀ w ∈ values, ∀ x, x ≠ [] → (∀ c ∈ x, c.isDigit) →
      typeName U v ≠ typeName U w ++ x)
    (h : Outcome U ty values cs) :
    (cs.map (·.1)).Nodup ∧ (cs.map (·.2)).Perm values ∧
      ∀ k v, (k, v) ∈ cs ↔ ∃ i, values[i]? = some v ∧ ∃ c,
        c = ((values.take i).filter fun w => typeName U w = typeName U v).length ∧
        k = ty ++ typeName U v ++ (if c = 0 then [] else (toString c).toList) := by
  have hpl : ∀ v ∈ values, PlainName U (typeName U v) := fun v hv =>
    typeName_isPlain L (hg v hv) (hu v hv)
  have hn : ((numb U [] values).map (·.1)).Nodup :=
    numb_nodup (· ∈ values) (fun v w hv hw => hi v hv w hw) values [] fun _ h => h
  have e1 : enumNames U values = numb U [] values := by
    rw [enumNames, firsts_nodup values [] (by simpa using hd),
      sanGo_numb L values [] [] hpl (by simpa using hn), List.nil_append]
  have hpl' : ∀ e ∈ numb U [] values, PlainName U e.1 := by
    rintro ⟨k, v⟩ he
    obtain ⟨i, hi, c, -, hk⟩ := (mem_numb values [] k v).1 he
    obtain ⟨⟨a, r, hr, ha⟩, hkept⟩ := hpl v (List.mem_of_getElem? hi)
    dsimp only
    rw [hk]
    refine ⟨⟨a, r ++ (if c = 0 then [] else digits c), by rw [hr]; rfl, ha⟩, fun x hx => ?_⟩
    rcases List.mem_append.1 hx with hx | hx
    · exact hkept x hx
    · split at hx
      · simp at hx
      · have := hdg x (Nat.isDigit_of_mem_toDigits (by omega) (by omega) hx)
        simp [kept, this]
  have hp := outcome_plain L e1 hpl' hn h
  refine ⟨?_, ?_, ?_⟩
  · rw [(hp.map (·.1)).nodup_iff, List.map_map]
    have : ((numb U [] values).map (·.1)).map (ty ++ ·) =
        (numb U [] values).map ((·.1) ∘ fun e => (ty ++ e.1, e.2)) := by
      rw [List.map_map]; rfl
    rw [← this]
    unfold List.Nodup
    rw [List.pairwise_map]
    exact hn.imp fun hab he => hab (List.append_cancel_left he)
  · refine (hp.map (·.2)).trans ?_
    rw [List.map_map]
    have : (numb U [] values).map ((·.2) ∘ fun e => (ty ++ e.1, e.2)) =
        (numb U [] values).map (·.2) := rfl
    rw [this, numb_vals]
  · intro k v
    rw [hp.mem_iff, List.mem_map]
    have hcount : ∀ i, ((values.take i).map (typeName U)).count (typeName U v) =
        ((values.take i).filter fun w => typeName U w = typeName U v).length := by
      intro i
      rw [List.count, List.countP_map, List.countP_eq_length_filter]
      congr 2
      funext w
      rw [Bool.eq_iff_iff]
      simp
    have hstr : ∀ c : Nat, (toString c).toList = digits c := fun c => by
      rw [digits]; exact Nat.toList_repr
    constructor
    · rintro ⟨⟨k', v'⟩, he, hh⟩
      injection hh with h1 h2
      dsimp only at h1 h2
      subst h2
      obtain ⟨i, hi, c, hc, hk⟩ := (mem_numb values [] k' v').1 he
      refine ⟨i, hi, c, ?_, ?_⟩
      · rw [hc, List.count_nil, Nat.zero_add, hcount]
      · rw [← h1, hk, hstr, List.append_assoc]
    · rintro ⟨i, hi, c, hc, rfl⟩
      refine ⟨(typeName U v ++ (if c = 0 then [] else digits c), v), ?_, ?_⟩
      · exact (mem_numb values [] _ v).2 ⟨i, hi, c, by
          rw [hc, List.count_nil, Nat.zero_add, hcount], rfl⟩
      · rw [hstr, List.append_assoc]

example : Outcome ascii "Mode".toList (["a b", "a-b", "c", "a_b"].map String.toList)
    [("ModeAB".toList, "a b".toList), ("ModeAB1".toList, "a-b".toList),
      ("ModeC".toList, "c".toList), ("ModeAB2".toList, "a_b".toList)] :=
  ⟨_, _, .rfl, .rfl, by decide⟩

/-- **C109** refuted: if two values have the same name and a third one has that name with a
`1` at its end, the second one is lost. -/
theorem C109_value_lost (L : UniLaws U) {ty n v₁ v₂ v₃ : Str} {cs : SMap} (h12 : v₁ ≠ v₂)
    (h13 : v₁ ≠ v₃) (h23 : v₂ ≠ v₃) (hn : PlainName U n) (h1 : typeName U v₁ = n)
    (h2 : typeName U v₂ = n) (h3 : typeName U v₃ = n ++ ['1']) (hd : U.isDigit '1' = true)
    (h : Outcome U ty [v₁, v₂, v₃] cs) : ∀ k, (k, v₂) ∉ cs := by
  intro k hk
  have hf : firsts [] [v₁, v₂, v₃] = [v₁, v₂, v₃] := by
    simp [firsts, h12.symm, h13.symm, h23.symm]
  have hn1 : PlainName U (n ++ ['1']) := by
    rcases hn with ⟨⟨c, r, rfl, hc⟩, hk⟩
    refine ⟨⟨c, r ++ ['1'], rfl, hc⟩, fun x hx => ?_⟩
    rcases List.mem_append.1 hx with hx | hx
    · exact hk x hx
    · have : x = '1' := by simpa using hx
      subst this
      simp [kept, hd]
  have hne : n ++ ['1'] ≠ n := by
    intro e
    have := congrArg List.length e
    simp at this
  have hdig : digits 1 = ['1'] := by decide
  have e : enumNames U [v₁, v₂, v₃] = [(n, v₁), (n ++ ['1'], v₃)] := by
    rw [enumNames, hf]
    simp [sanGo, h1, h2, h3, sanitize_plain L hn, sanitize_plain L hn1, SMap.set, hdig, hne.symm]
  have := outcome_vals h hk
  rw [e] at this
  simp only [List.map_cons, List.map_nil, List.mem_cons, List.not_mem_nil, or_false] at this
  rcases this with this | this
  · exact h12 this.symm
  · exact h23 this

example : typeName ascii "a".toList = "A".toList ∧ typeName ascii "A".toList = "A".toList ∧
    typeName ascii "a1".toList = "A".toList ++ ['1'] ∧ PlainName ascii "A".toList :=
  ⟨by decide, by decide, by decide, ⟨'A', [], rfl, by decide⟩, by decide⟩

/-- **C109** refuted: which value a constant has depends on the order of iteration. -/
theorem C109_unstable : ∃ values, values.Nodup ∧ ∀ ty,
    Outcome ascii ty values [(ty ++ "Foo".toList, "/foo".toList)] ∧
    Outcome ascii ty values [(ty ++ "Foo".toList, "foo".toList)] := by
  refine ⟨["/foo".toList, "foo".toList], by decide, fun ty => ⟨?_, ?_⟩⟩
  · exact ⟨[("Foo".toList, "foo".toList), ("foo".toList, "/foo".toList)],
      [("Foo".toList, "/foo".toList)], by decide, by decide, rfl⟩
  · exact ⟨[("foo".toList, "/foo".toList), ("Foo".toList, "foo".toList)],
      [("Foo".toList, "foo".toList)], by decide, by decide, rfl⟩

/-- **C109** (the value of a constant).  The expression that is written for an allowed string
denotes it if and only if no character of it needs an escape. -/
theorem C109_literal (v : Str) :
    Lit.unquote Lit.goEsc (constExpr true v) = some v ↔
      ∀ c ∈ v, c ≠ '"' ∧ c ≠ '\\' ∧ c ≠ '\n' ∧ c ≠ Char.ofNat 0 ∧ c ≠ Char.ofNat 0xFEFF := by
  have h := Lit.unquote_inQuotes Lit.goEsc_shrinks v
  have e : constExpr true v = Lit.inQuotes v := rfl
  rw [e, h]
  unfold Lit.Plain Lit.illegal
  constructor
  · intro hp c hc
    have := hp c hc
    simp only [Bool.or_eq_false_iff, beq_eq_false_iff_ne] at this
    exact ⟨this.1, this.2.1, this.2.2.1.1, this.2.2.1.2, this.2.2.2⟩
  · intro hp c hc
    have := hp c hc
    simp only [Bool.or_eq_false_iff, beq_eq_false_iff_ne]
    exact ⟨this.1, this.2.1, ⟨this.2.2.1, this.2.2.2.1⟩, this.2.2.2.2⟩

example : Lit.unquote Lit.goEsc (constExpr true "a\\tb".toList) = some "a\tb".toList := by decide

end Thema.Props

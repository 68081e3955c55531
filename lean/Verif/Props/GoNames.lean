import Verif.Spec.GoNames
import Verif.Lemmas.OGenNames
import Verif.Props.OGen

/-!
# Names and constants in generated Go (C192, C193)
-/

namespace Thema.Props

open OGen GoNames

variable {U : Uni}

/-! ### C192: names -/

private theorem isSep_iff (c : Char) : isSep c = decide (c ∈ separators) := by
  unfold isSep separators
  simp

private theorem signWord_lookup (c : Char) : signWord c = signs.lookup c := by
  unfold signWord signs
  simp only [List.lookup]
  repeat' split
  all_goals simp_all

private theorem mem_signs (c : Char) : c ∈ signs.map (·.1) ↔ ∃ w, signWord c = some w := by
  rw [← Option.isSome_iff_exists, signWord_isSome]
  simp [hasWord, signs]

private theorem signName_dollar : signName '$' = [] := by decide

private theorem prefixGo_front : ∀ (s pre : Str), prefixGo U false pre s =
    let words := pre ++ (leading s).flatMap signName
    if words = [] ∧ ((s.drop (leading s).length).head?.any U.isDigit) = true then "N".toList
    else words
  | [], pre => by simp [prefixGo, leading]
  | r :: s, pre => by
    rw [prefixGo]
    by_cases h : r = '$'
    · subst h
      have hl : leading ('$' :: s) = '$' :: leading s := by
        unfold leading
        rw [List.takeWhile_cons, if_pos (by simp)]
      rw [if_pos (by simp), if_neg (by simp), prefixGo_front s pre, hl]
      simp only [List.flatMap_cons, signName_dollar, List.nil_append, List.length_cons,
        List.drop_succ_cons]
    · rw [if_neg (by simpa using h)]
      cases hs : signWord r with
      | some w =>
        have hl : leading (r :: s) = r :: leading s := by
          unfold leading
          rw [List.takeWhile_cons, if_pos]
          exact decide_eq_true (.inr ((mem_signs r).2 ⟨w, hs⟩))
        have hn : signName r = w := by
          unfold signName
          rw [← signWord_lookup, hs]
          rfl
        simp only
        rw [prefixGo_front s (pre ++ w), hl]
        simp only [List.flatMap_cons, hn, List.length_cons, List.drop_succ_cons, List.append_assoc]
      | none =>
        have hl : leading (r :: s) = [] := by
          unfold leading
          rw [List.takeWhile_cons, if_neg]
          intro hd
          rcases of_decide_eq_true hd with hd | hd
          · exact h hd
          · obtain ⟨w, hw⟩ := (mem_signs r).1 hd
            rw [hs] at hw
            cases hw
        rw [hl]
        simp only [List.flatMap_nil, List.append_nil, List.length_nil, List.drop_zero,
          List.head?_cons, Option.any_some, Bool.and_eq_true, List.isEmpty_iff]

private theorem front_eq (name : Str) : typeNamePrefix U name = front U name := by
  unfold front
  by_cases h1 : name = []
  · subst h1; rfl
  by_cases h2 : name = ['$']
  · subst h2; rfl
  rw [if_neg h1, if_neg h2, typeNamePrefix_cases name h1 h2, prefixGo_front]
  simp only [List.nil_append]

private theorem letters_go (L : UniLaws U) : ∀ (a s : Str),
    camelGo U (wordStart (a ++ s) a.length) s =
      ((s.zipIdx a.length).filter fun p => U.isUpper p.1 || U.isLower p.1 || U.isDigit p.1).map
        fun p => if U.isLower p.1 && wordStart (a ++ s) p.2 then U.toUpper p.1 else p.1
  | a, [] => rfl
  | a, c :: s => by
    have ih := letters_go L (a ++ [c]) s
    rw [List.length_append, List.length_singleton, List.append_assoc, List.singleton_append] at ih
    have hw : wordStart (a ++ c :: s) (a.length + 1) = isSep c := by
      rw [wordStart, isSep_iff]
      simp
    rw [hw] at ih
    rw [List.zipIdx_cons, List.filter_cons]
    cases hk : kept U c with
    | false =>
      rw [camelGo_not_kept hk, ih]
      simp only [kept] at hk
      rw [if_neg (by simp [hk])]
    | true =>
      rw [camelGo_kept L hk]
      rw [L.kept_sep hk] at ih
      rw [ih]
      simp only [kept] at hk
      rw [if_pos (by simp [hk]), List.map_cons]
      rfl

theorem camel_letters (L : UniLaws U) (name : Str) : camel U name = letters U name := by
  rw [camel_eq L]
  exact letters_go L [] name

/-- **C192**.  The Go name of a schema or property. -/
theorem C192_name (L : UniLaws U) (name : Str) : typeName U name = goName U name := by
  rw [typeName, goName, front_eq, camel_letters L]

example : goName ascii "-foo bar_baz".toList = "MinusFooBarBaz".toList ∧
    goName ascii "$1st".toList = "N1st".toList ∧ goName ascii "/foo".toList = "foo".toList ∧
    goName ascii "#.é".toList = "HashDot".toList := by decide

/-! ### C193: constants -/

private theorem base_eq (L : UniLaws U) (v : Str) : sanitize U (typeName U v) = baseName U v := by
  have hl := typeName_ld L v
  unfold baseName sanitize
  rw [← C192_name L]
  have hr : ∀ s : Str, LD U s → sanRunes U false s = s := by
    intro s
    induction s with
    | nil => intro _; rfl
    | cons c s ih =>
      intro h
      rw [sanRunes, ih fun x hx => h x (List.mem_cons_of_mem _ hx), if_pos]
      rcases h c (List.mem_cons_self ..) with h | h
      · simp [validRune, h]
      · simp [validRune, L.digit_number c h]
  have hs : sanRunes U true (typeName U v) = match typeName U v with
      | [] => []
      | c :: r => (if U.isNumber c then '_' else c) :: r := by
    cases hc : typeName U v with
    | nil => rfl
    | cons c r =>
      rw [hc] at hl
      simp only
      rw [sanRunes, hr r fun x hx => hl x (List.mem_cons_of_mem _ hx)]
      congr 1
      cases hn : U.isNumber c with
      | true => simp [validRune, hn]
      | false =>
        rcases hl c (List.mem_cons_self ..) with h | h
        · simp [validRune, h, hn]
        · rw [L.digit_number c h] at hn
          cases hn
  rw [hs]
  simp only [Bool.or_eq_true, List.contains_iff_mem]
  cases typeName U v <;> rfl

/-- Entries written to a map in order. -/
private def written (f : Str → Str) (es : List (Str × Str)) : SMap :=
  es.foldl (fun m e => m.set (f e.1) e.2) []

private theorem written_snoc (f : Str → Str) (es : List (Str × Str)) (e : Str × Str) :
    written f (es ++ [e]) = (written f es).set (f e.1) e.2 := by
  unfold written
  rw [List.foldl_append]
  rfl

private theorem rev_ind {α : Type} {P : List α → Prop} (h0 : P []) (h1 : ∀ l a, P l → P (l ++ [a])) :
    ∀ l, P l := by
  intro l
  rw [← List.reverse_reverse l]
  induction l.reverse with
  | nil => exact h0
  | cons a l ih => rw [List.reverse_cons]; exact h1 _ _ ih

private theorem nodup_of_keys {l : SMap} (h : (l.map (·.1)).Nodup) : l.Nodup :=
  (List.pairwise_map.1 h).imp fun hne he => hne (by rw [he])

private theorem keys_written (f : Str → Str) (es : List (Str × Str)) :
    ((written f es).map (·.1)).Nodup ∧
      ∀ k, k ∈ (written f es).map (·.1) ↔ ∃ e ∈ es, f e.1 = k := by
  revert es
  refine rev_ind ⟨by simp [written], by simp [written]⟩ ?_
  intro es e ih
  rw [written_snoc]
  have hf : ∀ k', k' ∈ ((written f es).filter (fun x => x.1 != f e.1)).map (·.1) ↔
      k' ∈ (written f es).map (·.1) ∧ k' ≠ f e.1 := by
    intro k'
    simp only [List.mem_map, List.mem_filter, bne_iff_ne]
    constructor
    · rintro ⟨x, ⟨h1, h2⟩, rfl⟩
      exact ⟨⟨x, h1, rfl⟩, h2⟩
    · rintro ⟨⟨x, h1, rfl⟩, h2⟩
      exact ⟨x, ⟨h1, h2⟩, rfl⟩
  constructor
  · unfold SMap.set
    rw [List.map_append, List.nodup_append]
    refine ⟨(List.filter_sublist.map _).nodup ih.1, by simp, ?_⟩
    intro a ha b hb
    simp only [List.map_cons, List.map_nil, List.mem_singleton] at hb
    subst hb
    exact ((hf a).1 ha).2
  · intro k
    unfold SMap.set
    rw [List.map_append, List.mem_append, hf, ih.2 k]
    simp only [List.map_cons, List.map_nil, List.mem_singleton, List.mem_append]
    constructor
    · rintro (⟨⟨x, hx, rfl⟩, _⟩ | rfl)
      · exact ⟨x, .inl hx, rfl⟩
      · exact ⟨e, .inr rfl, rfl⟩
    · rintro ⟨x, hx | rfl, rfl⟩
      · by_cases h : f x.1 = f e.1
        · exact .inr h
        · exact .inl ⟨⟨x, hx, rfl⟩, h⟩
      · exact .inr rfl

/-- The last entry for a key counts. -/
private theorem mem_written (f : Str → Str) (es : List (Str × Str)) : ∀ k v,
    (k, v) ∈ written f es ↔ ∃ a e b, es = a ++ e :: b ∧ f e.1 = k ∧ e.2 = v ∧
      ∀ x ∈ b, f x.1 ≠ k := by
  revert es
  refine rev_ind ?_ ?_
  · intro k v
    simp [written]
  intro es e ih k v
  rw [written_snoc]
  unfold SMap.set
  rw [List.mem_append, List.mem_filter, ih, List.mem_singleton]
  simp only [bne_iff_ne, ne_eq]
  constructor
  · rintro (⟨⟨a, x, b, rfl, rfl, rfl, hb⟩, hk⟩ | h)
    · refine ⟨a, x, b ++ [e], by simp, rfl, rfl, ?_⟩
      intro y hy
      rcases List.mem_append.1 hy with hy | hy
      · exact hb y hy
      · rw [List.mem_singleton.1 hy]
        exact fun h => hk h.symm
    · injection h with h1 h2
      exact ⟨es, e, [], rfl, h1.symm, h2.symm, (fun _ h => nomatch h)⟩
  · rintro ⟨a, x, b, he, rfl, rfl, hb⟩
    rcases List.eq_nil_or_concat b with rfl | ⟨b', y, rfl⟩
    · have := List.append_inj' he rfl
      injection this.2 with h
      subst h
      exact .inr rfl
    · rw [List.concat_eq_append] at hb he
      have he' : es ++ [e] = (a ++ x :: b') ++ [y] := by simpa using he
      have := List.append_inj' he' rfl
      injection this.2 with h
      subst h
      refine .inl ⟨⟨a, x, b', this.1, rfl, rfl, fun z hz => hb z (List.mem_append_left _ hz)⟩, ?_⟩
      exact fun h => hb e (List.mem_append_right _ (List.mem_singleton_self _)) h.symm

private theorem written_sub {f : Str → Str} {es : List (Str × Str)} {e : Str × Str}
    (h : e ∈ written f es) : ∃ x ∈ es, f x.1 = e.1 ∧ x.2 = e.2 := by
  obtain ⟨a, x, b, rfl, h1, h2, _⟩ := (mem_written f es e.1 e.2).1 h
  exact ⟨x, by simp, h1, h2⟩

/-- What is written last stays. -/
private theorem written_last (f : Str → Str) {es : List (Str × Str)} (p : Str × Str → Bool)
    (hn : es.Nodup) {e : Str × Str} (he : e ∈ es) (hp : p e = true)
    (hu : ∀ x ∈ es, p x = true → f x.1 = f e.1 → x = e) :
    (f e.1, e.2) ∈ written f (es.filter (fun x => !p x) ++ es.filter p) := by
  rw [mem_written]
  obtain ⟨a, b, hab⟩ := List.append_of_mem (List.mem_filter.2 ⟨he, hp⟩)
  refine ⟨es.filter (fun x => !p x) ++ a, e, b, by rw [hab, List.append_assoc], rfl, rfl, ?_⟩
  intro x hx hf
  have hm : x ∈ es.filter p := by rw [hab]; simp [hx]
  have hm' := List.mem_filter.1 hm
  have := hu x hm'.1 hm'.2 hf
  subst this
  have hnd : (es.filter p).Nodup := List.filter_sublist.nodup hn
  rw [hab, List.nodup_append] at hnd
  exact (List.nodup_cons.1 hnd.2.1).1 hx

private theorem filter_perm {α : Type} (p : α → Bool) : ∀ l : List α,
    (l.filter (fun x => !p x) ++ l.filter p).Perm l
  | [] => .refl _
  | a :: l => by
    cases h : p a with
    | true =>
      rw [List.filter_cons_of_neg (by simp [h]), List.filter_cons_of_pos h]
      exact List.perm_middle.trans ((filter_perm p l).cons a)
    | false =>
      rw [List.filter_cons_of_pos (by simp [h]), List.filter_cons_of_neg (by simp [h])]
      exact (filter_perm p l).cons a

private theorem count_filter (a : List Str) (v : Str) :
    (a.map (baseName U)).reverse.count (baseName U v) =
      (a.filter fun w => decide (baseName U w = baseName U v)).length := by
  rw [List.count_reverse, List.count_eq_length_filter, List.filter_map, List.length_map]
  congr 1
  refine List.filter_congr fun w _ => ?_
  simp only [Function.comp]
  by_cases h : baseName U w = baseName U v <;> simp [h]

private theorem sanGo_written (L : UniLaws U) : ∀ (s a : List Str) (m : SMap),
    sanGo U (a.map (baseName U)).reverse m s =
      ((s.zipIdx a.length).map fun p => (numbered U (a ++ s) p.2 p.1, p.1)).foldl
        (fun m e => m.set (id e.1) e.2) m
  | [], a, m => rfl
  | v :: s, a, m => by
    have ih := sanGo_written L s (a ++ [v])
    rw [List.map_append, List.reverse_append, List.map_cons, List.map_nil, List.reverse_singleton,
      List.singleton_append, List.length_append, List.length_singleton, List.append_assoc,
      List.singleton_append] at ih
    rw [sanGo, base_eq L, List.zipIdx_cons, List.map_cons, List.foldl_cons, ih]
    congr 2
    unfold numbered
    simp only [List.take_left', id_eq]
    rw [← count_filter]
    by_cases hc : (a.map (baseName U)).reverse.contains (baseName U v) = true
    · rw [if_pos hc, if_neg]
      · congr 1
        exact (String.toList_ofList).symm
      · intro h0
        exact List.count_eq_zero.1 h0 (List.contains_iff_mem.1 hc)
    · rw [if_neg hc, if_pos, List.append_nil]
      exact List.count_eq_zero.2 fun h => hc (List.contains_iff_mem.2 h)

private theorem mem_enumNames (L : UniLaws U) {values : List Str} (hd : values.Nodup) (k v : Str) :
    (k, v) ∈ enumNames U values ↔ ∃ i, values[i]? = some v ∧ k = numbered U values i v ∧
      ∀ j w, i < j → values[j]? = some w → numbered U values j w ≠ numbered U values i v := by
  unfold enumNames
  rw [firsts_nodup values [] (by simpa using hd)]
  have h := sanGo_written L values [] []
  simp only [List.map_nil, List.reverse_nil, List.length_nil, List.nil_append] at h
  rw [h]
  show (k, v) ∈ written id _ ↔ _
  rw [mem_written]
  constructor
  · rintro ⟨a, e, b, he, rfl, rfl, hb⟩
    have hi : (values.zipIdx.map fun p => (numbered U values p.2 p.1, p.1))[a.length]? = some e := by
      rw [he]; simp
    rw [List.getElem?_map, List.getElem?_zipIdx, Option.map_map, Option.map_eq_some_iff] at hi
    obtain ⟨w, hw, rfl⟩ := hi
    simp only [Function.comp, Nat.zero_add]
    refine ⟨a.length, hw, rfl, ?_⟩
    intro j w' hj hw'
    have hx : (values.zipIdx.map fun p => (numbered U values p.2 p.1, p.1))[j]? =
        some (numbered U values j w', w') := by
      rw [List.getElem?_map, List.getElem?_zipIdx, hw']; simp
    rw [he, List.getElem?_append_right (Nat.le_of_lt hj)] at hx
    obtain ⟨d, hd'⟩ : ∃ d, j - a.length = d + 1 := ⟨j - a.length - 1, by omega⟩
    rw [hd', List.getElem?_cons_succ] at hx
    have := hb _ (List.mem_of_getElem? hx)
    simpa using this
  · rintro ⟨i, hi, rfl, hl⟩
    have hx : (values.zipIdx.map fun p => (numbered U values p.2 p.1, p.1))[i]? =
        some (numbered U values i v, v) := by
      rw [List.getElem?_map, List.getElem?_zipIdx, hi]; simp
    obtain ⟨hlt, hget⟩ := List.getElem?_eq_some_iff.1 hx
    refine ⟨List.take i (values.zipIdx.map fun p => (numbered U values p.2 p.1, p.1)),
      (numbered U values i v, v),
      List.drop (i + 1) (values.zipIdx.map fun p => (numbered U values p.2 p.1, p.1)),
      (List.take_append_drop i _).symm.trans ?_, rfl, rfl, ?_⟩
    rotate_left
    · intro x hx
      obtain ⟨d, hd'⟩ := List.mem_iff_getElem?.1 hx
      rw [List.getElem?_drop, List.getElem?_map, List.getElem?_zipIdx, Option.map_map,
        Option.map_eq_some_iff] at hd'
      obtain ⟨w, hw, rfl⟩ := hd'
      simp only [Function.comp, Nat.zero_add, id_eq]
      exact hl _ w (by omega) hw
    · rw [← List.getElem_cons_drop hlt, hget]

private theorem constName_eq (L : UniLaws U) (ty n : Str) :
    ty ++ upperFirst U (typeName U n) = constName U ty n := by
  unfold constName
  rw [C192_name L]
  cases goName U n <;> rfl

private theorem index_unique {values : List Str} (hd : values.Nodup) {i j : Nat} {v : Str}
    (hi : values[i]? = some v) (hj : values[j]? = some v) : i = j :=
  (List.getElem?_inj (List.getElem?_eq_some_iff.1 hi).1 hd).1 (hi.trans hj.symm)

private theorem enumNames_vals (L : UniLaws U) {values : List Str} (hd : values.Nodup)
    {x y : Str × Str} (hx : x ∈ enumNames U values) (hy : y ∈ enumNames U values)
    (h : x.2 = y.2) : x = y := by
  obtain ⟨k, v⟩ := x
  obtain ⟨k', v'⟩ := y
  simp only at h
  subst h
  obtain ⟨i, hi, rfl, _⟩ := (mem_enumNames L hd _ _).1 hx
  obtain ⟨j, hj, rfl, _⟩ := (mem_enumNames L hd _ _).1 hy
  rw [index_unique hd hi hj]

private theorem enumNames_nodup (L : UniLaws U) {values : List Str} (hd : values.Nodup) :
    (enumNames U values).Nodup := by
  unfold enumNames
  rw [firsts_nodup values [] (by simpa using hd)]
  have h := sanGo_written L values [] []
  simp only [List.map_nil, List.reverse_nil, List.length_nil, List.nil_append] at h
  rw [h]
  exact nodup_of_keys (keys_written id _).1

private theorem nodup_map_inj' {l : SMap} (h : (l.map (·.1)).Nodup) {a b : Str × Str}
    (ha : a ∈ l) (hb : b ∈ l) (he : a.1 = b.1) : a = b := by
  induction l with
  | nil => cases ha
  | cons x l ih =>
    rw [List.map_cons, List.nodup_cons] at h
    rcases List.mem_cons.1 ha with rfl | ha' <;> rcases List.mem_cons.1 hb with rfl | hb'
    · rfl
    · exact absurd (he ▸ List.mem_map_of_mem (f := (·.1)) hb') h.1
    · exact absurd (he ▸ List.mem_map_of_mem (f := (·.1)) ha') h.1
    · exact ih h.2 ha' hb'

private theorem candidate_iff (L : UniLaws U) {ty : Str} {values : List Str} (hd : values.Nodup)
    (k v : Str) : Candidate U ty values k v ↔
      ∃ n, (n, v) ∈ enumNames U values ∧ k = ty ++ upperFirst U (typeName U n) := by
  constructor
  · rintro ⟨i, hi, rfl, hl⟩
    exact ⟨_, (mem_enumNames L hd _ _).2 ⟨i, hi, rfl, hl⟩, (constName_eq L _ _).symm⟩
  · rintro ⟨n, hn, rfl⟩
    obtain ⟨i, hi, rfl, hl⟩ := (mem_enumNames L hd _ _).1 hn
    exact ⟨i, hi, constName_eq L _ _, hl⟩

private theorem outcome_sound (L : UniLaws U) {ty : Str} {values : List Str} {cs : SMap}
    (hd : values.Nodup) (h : Outcome U ty values cs) :
    (cs.map (·.1)).Nodup ∧ (∀ k v, (k, v) ∈ cs → Candidate U ty values k v) ∧
      ∀ k v, Candidate U ty values k v → k ∈ cs.map (·.1) := by
  obtain ⟨o₁, o₂, h1, h2, rfl⟩ := h
  change ((written (fun k => ty ++ upperFirst U k) o₂).map (·.1)).Nodup ∧
    (∀ k v, (k, v) ∈ written (fun k => ty ++ upperFirst U k) o₂ → _) ∧
    ∀ k v, _ → k ∈ (written (fun k => ty ++ upperFirst U k) o₂).map (·.1)
  change o₂.Perm (written (typeName U) o₁) at h2
  refine ⟨(keys_written _ _).1, ?_, ?_⟩
  · intro k v hm
    obtain ⟨x, hx, hk, hv⟩ := written_sub hm
    obtain ⟨y, hy, hk', hv'⟩ := written_sub (h2.mem_iff.1 hx)
    rw [candidate_iff L hd]
    refine ⟨y.1, ?_, ?_⟩
    · have : (y.1, v) = y := by rw [show v = y.2 from (hv'.trans hv).symm]
      rw [this]
      exact h1.mem_iff.1 hy
    · rw [hk']; exact hk.symm
  · intro k v hc
    obtain ⟨n, hn, rfl⟩ := (candidate_iff L hd _ _).1 hc
    rw [(keys_written _ _).2]
    have : typeName U n ∈ (written (typeName U) o₁).map (·.1) :=
      ((keys_written _ _).2 _).2 ⟨_, h1.mem_iff.2 hn, rfl⟩
    obtain ⟨y, hy, hk⟩ := List.mem_map.1 this
    exact ⟨y, h2.mem_iff.2 hy, by rw [hk]⟩

/-- **C193**.  The constants that a run may give for an enumeration of distinct values, exactly:
one for every name that a candidate has, with the value of one of the candidates of this name;
and every choice of candidates is that of some run. -/
theorem C193_outcomes (L : UniLaws U) {ty : Str} {values : List Str} (hd : values.Nodup)
    (m : SMap) : (∃ cs, Outcome U ty values cs ∧ cs.Perm m) ↔
      (m.map (·.1)).Nodup ∧ (∀ k v, (k, v) ∈ m → Candidate U ty values k v) ∧
        ∀ k v, Candidate U ty values k v → k ∈ m.map (·.1) := by
  constructor
  · rintro ⟨cs, h, hp⟩
    obtain ⟨h1, h2, h3⟩ := outcome_sound L hd h
    refine ⟨(hp.map _).nodup_iff.1 h1, fun k v hm => h2 k v (hp.mem_iff.2 hm), fun k v hc => ?_⟩
    exact (hp.map (·.1)).mem_iff.1 (h3 k v hc)
  · rintro ⟨h1, h2, h3⟩
    have uniq : ∀ {k v v'}, (k, v) ∈ m → (k, v') ∈ m → v = v' := by
      intro k v v' hv hv'
      have := nodup_map_inj' h1 hv hv' rfl
      injection this
    let f : Str → Str := fun k => ty ++ upperFirst U k
    let E := enumNames U values
    let p₁ : Str × Str → Bool := fun e => decide ((f (typeName U e.1), e.2) ∈ m)
    let o₁ := E.filter (fun x => !p₁ x) ++ E.filter p₁
    let M := written (typeName U) o₁
    let p₂ : Str × Str → Bool := fun e => decide ((f e.1, e.2) ∈ m)
    let o₂ := M.filter (fun x => !p₂ x) ++ M.filter p₂
    have ho₁ : o₁.Perm E := filter_perm _ _
    have ho₂ : o₂.Perm M := filter_perm _ _
    have hE : E.Nodup := enumNames_nodup L hd
    have hM : M.Nodup := nodup_of_keys (keys_written _ _).1
    have hout : Outcome U ty values (written f o₂) := ⟨o₁, o₂, ho₁, ho₂, rfl⟩
    refine ⟨_, hout, ?_⟩
    have sub : ∀ k v, (k, v) ∈ m → (k, v) ∈ written f o₂ := by
      intro k v hm
      obtain ⟨n, hn, hk⟩ := (candidate_iff L hd _ _).1 (h2 k v hm)
      have hk' : f (typeName U n) = k := hk.symm
      have s1 : (typeName U n, v) ∈ M := by
        refine written_last (typeName U) (e := (n, v)) p₁ hE hn ?_ ?_
        · exact decide_eq_true (by simp only [hk']; exact hm)
        · intro x hx hpx hfx
          have hx' := of_decide_eq_true hpx
          simp only [hfx, hk'] at hx'
          exact enumNames_vals L hd hx hn (uniq hx' hm)
      have s2 := written_last f (e := (typeName U n, v)) p₂ hM s1
        (decide_eq_true (by simp only [hk']; exact hm)) (by
          intro x hx hpx hfx
          have hx' := of_decide_eq_true hpx
          simp only at hfx
          rw [hfx, hk'] at hx'
          have hv := uniq hx' hm
          obtain ⟨y, hy, hy1, hy2⟩ := written_sub hx
          have := enumNames_vals L hd (ho₁.mem_iff.1 hy) hn (hy2.trans hv)
          subst this
          exact Prod.ext hy1.symm hv)
      rw [show f (typeName U n, v).1 = k from hk'] at s2
      exact s2
    obtain ⟨k1, k2, _⟩ := outcome_sound L hd hout
    refine (List.perm_ext_iff_of_nodup (nodup_of_keys k1) (nodup_of_keys h1)).2 ?_
    rintro ⟨k, v⟩
    refine ⟨fun hm => ?_, sub k v⟩
    obtain ⟨⟨k', v'⟩, hm', rfl⟩ := List.mem_map.1 (h3 k v (k2 k v hm))
    have := nodup_map_inj' k1 hm (sub _ _ hm') rfl
    rw [this]
    exact hm'

/-- **C193**.  Every value has a constant, in any run, exactly if the constants that the values
would have are distinct. -/
theorem C193_all_iff (L : UniLaws U) {ty : Str} {values : List Str} {cs : SMap}
    (hd : values.Nodup) (h : Outcome U ty values cs) :
    (∀ v ∈ values, ∃ k, (k, v) ∈ cs) ↔
      ∀ i j v w, values[i]? = some v → values[j]? = some w →
        constName U ty (numbered U values i v) = constName U ty (numbered U values j w) → i = j := by
  obtain ⟨h1, h2, h3⟩ := outcome_sound L hd h
  constructor
  · intro hall i j v w hi hj he
    obtain ⟨k, hk⟩ := hall v (List.mem_of_getElem? hi)
    obtain ⟨k', hk'⟩ := hall w (List.mem_of_getElem? hj)
    obtain ⟨i', hi', rfl, _⟩ := h2 _ _ hk
    obtain ⟨j', hj', rfl, _⟩ := h2 _ _ hk'
    obtain rfl := index_unique hd hi hi'
    obtain rfl := index_unique hd hj hj'
    have := nodup_map_inj' h1 hk hk' he
    injection this with _ hv
    subst hv
    exact index_unique hd hi hj
  · intro hinj v hv
    obtain ⟨i, hi⟩ := List.mem_iff_getElem?.1 hv
    have hc : Candidate U ty values (constName U ty (numbered U values i v)) v := by
      refine ⟨i, hi, rfl, ?_⟩
      intro j w hij hj he
      have := hinj i j v w hi hj (by rw [he])
      omega
    obtain ⟨⟨k, v'⟩, hm, hk⟩ := List.mem_map.1 (h3 _ _ hc)
    simp only at hk
    obtain ⟨j, hj, hkj, _⟩ := h2 _ _ hm
    have := hinj j i v' v hj hi (by rw [← hkj, hk])
    subst this
    rw [hj] at hi
    injection hi with hi
    subst hi
    exact ⟨k, hm⟩

/-- Values three of which would have two constants: of `/foo` and `foo` either has `ModeFoo`. -/
example : (["/foo", "foo", "bar"].map String.toList).Nodup ∧
    (∃ cs, Outcome ascii "Mode".toList (["/foo", "foo", "bar"].map String.toList) cs ∧
      cs.Perm [("ModeFoo".toList, "/foo".toList), ("ModeBar".toList, "bar".toList)]) ∧
    (∃ cs, Outcome ascii "Mode".toList (["/foo", "foo", "bar"].map String.toList) cs ∧
      cs.Perm [("ModeFoo".toList, "foo".toList), ("ModeBar".toList, "bar".toList)]) := by
  refine ⟨by decide, ⟨_, ⟨[("Foo".toList, "foo".toList), ("foo".toList, "/foo".toList),
    ("Bar".toList, "bar".toList)], _, by decide, .refl _, rfl⟩, by decide⟩, ⟨_,
    ⟨[("foo".toList, "/foo".toList), ("Foo".toList, "foo".toList),
    ("Bar".toList, "bar".toList)], _, by decide, .refl _, rfl⟩, by decide⟩⟩

end Thema.Props

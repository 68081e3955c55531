import Verif.Lemmas.GoJsonExact

/-!
# What data become: structs, and all schemas
-/

namespace Thema.GoJson

open GoTypes OGen

variable {U : Uni} {S : Std} {ds : List Decl} {comps : List (Str × OS)}

/-- The members of a struct. -/
theorem decFs_settles {fs : GFs} : ∀ (ms : JMs), ms.keys.Nodup →
    AllMs (fun k x => fieldFor U S fs k = none ∨ ∃ t, fieldFor U S fs k = some (k, t) ∧
      ((∃ v, Reads U S ds t x v) ∨ Unreadable U S ds t x)) ms →
    (∃ vs K, (∀ m, K ≤ m → decFs U S ds m fs ms = some vs) ∧ ∀ k,
      (∀ x t, ms.get k = some x → fieldFor U S fs k = some (k, t) →
        ∃ v, lastFor k vs = some v ∧ Reads U S ds t x v) ∧
      (ms.get k = none → lastFor k vs = none)) ∨
    ((∃ K, ∀ m, K ≤ m → decFs U S ds m fs ms = none) ∧
      ∃ k x t, ms.get k = some x ∧ fieldFor U S fs k = some (k, t) ∧ Unreadable U S ds t x)
  | .nil, _, _ => .inl ⟨.nil, 0, fun _ _ => rfl, fun k => ⟨(fun x t h => by cases h), fun _ => rfl⟩⟩
  | .cons k x ms, hn, h => by
    rw [JMs.keys, List.nodup_cons] at hn
    have ih := decFs_settles ms hn.2 h.2
    have step : ∀ {vs : GMs} {k' : Str}, (ms.get k' = none → lastFor k' vs = none) → k = k' →
        lastFor k' vs = none := by
      rintro vs k' h rfl
      exact h (get_none_iff.2 hn.1)
    rcases h.1 with hf | ⟨t, hf, ⟨v, a, hv⟩ | ⟨a, hv⟩⟩
    · rcases ih with ⟨vs, b, h3, h4⟩ | ⟨⟨b, h3⟩, k', x', t', h4, h5⟩
      · refine .inl ⟨vs, b, fun m hm => ?_, fun k' => ⟨fun x' t' hx' ht' => ?_, fun hk' => ?_⟩⟩
        · rw [decFs, hf]
          exact h3 m hm
        · rw [JMs.get] at hx'
          split at hx'
          · rename_i e
            subst e
            rw [hf] at ht'
            cases ht'
          · exact (h4 k').1 x' t' hx' ht'
        · rw [JMs.get] at hk'
          split at hk'
          · cases hk'
          · exact (h4 k').2 hk'
      · refine .inr ⟨⟨b, fun m hm => ?_⟩, k', x', t', get_later hn.1 h4, h5⟩
        rw [decFs, hf]
        exact h3 m hm
    · rcases ih with ⟨vs, b, h3, h4⟩ | ⟨⟨b, h3⟩, k', x', t', h4, h5⟩
      · refine .inl ⟨.cons k v vs, a + b, fun m hm => ?_, fun k' => ⟨fun x' t' hx' ht' => ?_,
          fun hk' => ?_⟩⟩
        · rw [decFs, hf]
          dsimp only
          rw [hv m (by omega), h3 m (by omega)]
          rfl
        · rw [JMs.get] at hx'
          rw [lastFor]
          split at hx'
          · rename_i e
            rw [step (h4 k').2 e]
            subst e
            rw [hf] at ht'
            injection ht' with ht'
            injection ht' with _ ht'
            subst ht'
            injection hx' with hx'
            subst hx'
            exact ⟨v, if_pos rfl, a, hv⟩
          · obtain ⟨w, h6, h7⟩ := (h4 k').1 x' t' hx' ht'
            rw [h6]
            exact ⟨w, rfl, h7⟩
        · rw [JMs.get] at hk'
          split at hk'
          · cases hk'
          · rename_i e
            rw [lastFor, (h4 k').2 hk']
            exact if_neg e
      · refine .inr ⟨⟨a + b, fun m hm => ?_⟩, k', x', t', get_later hn.1 h4, h5⟩
        rw [decFs, hf]
        dsimp only
        rw [hv m (by omega), h3 m (by omega)]
        rfl
    · refine .inr ⟨⟨a, fun m hm => ?_⟩, k, x, t, by rw [JMs.get, if_pos rfl], hf, a, hv⟩
      rw [decFs, hf]
      dsimp only
      rw [hv m hm]
      rfl

theorem find_none (L : UniLaws U) {p : Str → Bool} : ∀ {rows : List Row},
    (∀ y ∈ rows, Row.Ok U ds comps y) → (∀ y ∈ rows, p y.key = false) →
    findField U p (GFs.ofList (rows.map (Row.field U))) = none
  | [], _, _ => rfl
  | y :: rows, hok, hn => by
    rw [List.map_cons, GFs.ofList, findField, row_key L (hok y (List.mem_cons_self ..))]
    dsimp only
    rw [hn y (List.mem_cons_self ..), if_neg (by simp)]
    exact find_none L (fun z hz => hok z (List.mem_cons_of_mem _ hz))
      fun z hz => hn z (List.mem_cons_of_mem _ hz)

/-- The value of the field of a row. -/
def rowValue (vs : GMs) (y : Row) : GV := (lastFor y.key vs).getD .nil

/-- What is written of a struct. -/
theorem struct_out (L : UniLaws U) {vs : GMs} : ∀ (rows : List Row),
    (∀ y ∈ rows, Row.Ok U ds comps y) → (rows.map (·.key)).Nodup →
    (∀ y ∈ rows, lastFor y.key vs = none → (!y.r || y.nl) = true) →
    (∀ m, assemble U S ds m vs (GFs.ofList (rows.map (Row.field U))) =
      assemble U S ds 0 vs (GFs.ofList (rows.map (Row.field U)))) ∧
    (encFs U S (assemble U S ds 0 vs (GFs.ofList (rows.map (Row.field U))))).keys.Sublist
      (rows.map (·.key)) ∧
    ((∀ y ∈ rows, Distinct (enc U S (rowValue vs y))) →
      DistinctMs (encFs U S (assemble U S ds 0 vs (GFs.ofList (rows.map (Row.field U)))))) ∧
    ∀ y ∈ rows, (encFs U S (assemble U S ds 0 vs (GFs.ofList (rows.map (Row.field U))))).get y.key =
      if !(y.r || y.nl) && (rowValue vs y).isEmpty then none else some (enc U S (rowValue vs y))
  | [], _, _, _ => ⟨fun _ => rfl, List.Sublist.refl _, fun _ => trivial, fun y hy => by cases hy⟩
  | y :: rows, hok, hn, h => by
    rw [List.map_cons, List.nodup_cons] at hn
    obtain ⟨ih1, ih2, ih4, ih3⟩ := struct_out L rows (fun z hz => hok z (List.mem_cons_of_mem _ hz)) hn.2
      fun z hz => h z (List.mem_cons_of_mem _ hz)
    have hy := hok y (List.mem_cons_self ..)
    have hk := row_key L hy
    obtain ⟨_, _, hgen⟩ := hy.gen
    have hval : ∀ m, valueOf U S ds m y.key vs (y.field U).2 = rowValue vs y := by
      intro m
      unfold valueOf rowValue
      cases hl : lastFor y.key vs with
      | some v => rfl
      | none => exact zero_opt (gen_noStar hgen) (h y (List.mem_cons_self ..) hl) m
    have hom : omitEmpty (y.field U).1 = !(y.r || y.nl) := rfl
    have hcons : ∀ m, assemble U S ds m vs (GFs.ofList ((y :: rows).map (Row.field U))) =
        .cons (y.field U).1 (rowValue vs y)
          (assemble U S ds m vs (GFs.ofList (rows.map (Row.field U)))) := by
      intro m
      rw [List.map_cons, GFs.ofList, assemble_cons hk, hval m]
    refine ⟨fun m => by rw [hcons, hcons, ih1 m], ?_, fun hd => ?_, ?_⟩
    · rw [hcons, encFs_cons hk, List.map_cons]
      split
      · exact ih2.cons _
      · rw [JMs.keys]
        exact ih2.cons_cons _
    · have hd' := ih4 fun z hz => hd z (List.mem_cons_of_mem _ hz)
      rw [hcons, encFs_cons hk]
      split
      · exact hd'
      · exact ⟨hd y (List.mem_cons_self ..), hd'⟩
    · intro z hz
      rw [hcons, encFs_cons hk, hom]
      rcases List.mem_cons.1 hz with rfl | hz
      · split
        · rw [get_none_iff]
          exact fun hm => hn.1 (ih2.subset hm)
        · rw [JMs.get, if_pos rfl]
      · have hne : y.key ≠ z.key := fun e => hn.1 (e ▸ List.mem_map_of_mem hz)
        rw [← ih3 z hz]
        split
        · rfl
        · rw [JMs.get, if_neg hne]

theorem AllMs.get {P : Str → J → Prop} : ∀ {ms : JMs}, AllMs P ms → ∀ {k x}, ms.get k = some x →
    P k x
  | .nil, _, k, x, h => by cases h
  | .cons k' y ms, hp, k, x, h => by
    rw [JMs.get] at h
    split at h
    · rename_i e
      subst e
      injection h with h
      subst h
      exact hp.1
    · exact AllMs.get hp.2 h

theorem distinct_all : ∀ {ms : JMs}, DistinctMs ms → AllMs (fun _ x => Distinct x) ms
  | .nil, _ => trivial
  | .cons _ _ _, h => by
    rw [DistinctMs] at h
    exact ⟨h.1, distinct_all h.2⟩

theorem allMs_and {P Q : Str → J → Prop} : ∀ {ms : JMs}, AllMs P ms → AllMs Q ms →
    AllMs (fun k x => P k x ∧ Q k x) ms
  | .nil, _, _ => trivial
  | .cons _ _ _, h1, h2 => ⟨⟨h1.1, h2.1⟩, allMs_and h1.2 h2.2⟩

theorem apart_find {k : Str} {r nl : Bool} {s : OS} : ∀ {ps : OPs}, ApartPs S comps ps →
    findProp k ps = some (r, nl, s) → Apart S comps s
  | .nil, _, h => by cases h
  | .cons n r' nl' s' ps, ha, h => by
    rw [ApartPs] at ha
    rw [findProp] at h
    split at h
    · injection h with h
      injection h with _ h
      injection h with _ h
      subst h
      exact ha.1
    · exact apart_find ha.2 h

theorem at_apart (A : ∀ n s, (n, s) ∈ comps → Apart S comps s) : ∀ {root : OS} {p : List Str}
    {k : Str} {v : Bool × Bool × OS}, Apart S comps root → At comps root p k v →
    Apart S comps v.2.2
  | _, _, _, (r, nl, s), ha, .own h => by
    rw [Apart] at ha
    exact apart_find ha.2.1 h
  | _, _, _, _, _, .part _ hl h => at_apart A (A _ _ (lookup_mem hl)) h

theorem get_all : ∀ (l : JMs), l.keys.Nodup → AllMs (fun k x => l.get k = some x) l
  | .nil, _ => trivial
  | .cons k x ms, hn => by
    rw [JMs.keys, List.nodup_cons] at hn
    exact ⟨if_pos rfl, (get_all ms hn.2).imp fun k' x' _ h => get_later hn.1 h⟩

/-- A member of an object: of a property. -/
def MemST (U : Uni) (S : Std) (ds : List Decl) (comps : List (Str × OS)) (root : OS) (k : Str)
    (x : J) : Prop :=
  ∃ p r nl s, At comps root p k (r, nl, s) ∧ (nl = true ∧ x = .null ∨
    Valid S false comps s x ∧ STS U S ds comps s x)

/-- A member of an object: not of a property. -/
def AddlST (U : Uni) (S : Std) (ds : List Decl) (comps : List (Str × OS)) (ps : OPs) (a : OAs)
    (k : Str) (x : J) : Prop :=
  findProp k ps = none ∧ (a = .free ∨ ∃ s, a = .of s ∧ STS U S ds comps s x)

/-- Maps. -/
theorem sts_map (E : Env U ds comps) {typed : Bool} {a : OAs} {es : OEs} {ms : JMs}
    (h1 : a ≠ .no) (h : AllMs (AddlST U S ds comps .nil a) ms) :
    STS U S ds comps (.obj typed [] .nil a es) (.obj ms) := by
  intro c path g ht hap hg hd hj
  rw [Tame] at ht
  obtain ⟨_, rfl, hta, _⟩ := ht
  rw [Apart] at hap
  rw [Distinct] at hj
  rw [gen] at hg
  dsimp only at hg
  rw [if_neg (fun e => h1 e.2.1)] at hg
  obtain ⟨ga, hga, hg⟩ := bind_ok hg
  rw [if_pos (by simp)] at hg
  injection hg with hg
  subst hg
  show Settles U S ds (.map _ (dep false ga.typeDecl)) _ _
  have h := allMs_and h (distinct_all hj.2)
  cases a with
  | no => exact absurd rfl h1
  | free =>
    rw [genA] at hga
    injection hga with hga
    subst hga
    refine (settles_map (C := Rounded S) hj.1 (h.imp fun k x _ hm => settles_any E hm.2)).iff
      fun j' => ⟨?_, fun h => ?_⟩
    · rintro ⟨ms', rfl, h3, h4⟩
      exact .free (.obj h3 h4)
    · cases h with
      | free h =>
        cases h with
        | obj h3 h4 => exact ⟨_, rfl, h3, h4⟩
  | of s =>
    rw [genA] at hga
    obtain ⟨b, hb, hga⟩ := bind_ok hga
    rw [TameA] at hta
    rw [ApartA] at hap
    have ih := gen_good s hta.1 hb
    have hf := gen_flat s hta.1 hta.2 hb
    rw [genAddl_eq ih.addl ih.union] at hga
    injection hga with hga
    subst hga
    refine (settles_map (C := Comes S comps s) hj.1 (h.imp fun k x _ hm => ?_)).iff
      fun j' => ⟨?_, fun h => ?_⟩
    · obtain ⟨⟨_, hm | ⟨s', hs', hs⟩⟩, hx⟩ := hm
      · cases hm
      · injection hs' with hs'
        subst hs'
        refine hs c path b hta.1 hap.2.2 hb (fun td htd => ?_) hx
        rw [GSch.defs, hf.1] at htd
        exact hd td htd
    · rintro ⟨ms', rfl, h3, h4⟩
      exact .map h3 h4
    · cases h with
      | map h3 h4 => exact ⟨_, rfl, h3, h4⟩

/-- Structs. -/
theorem sts_struct (E : Env U ds comps) (A : ∀ n s, (n, s) ∈ comps → Apart S comps s)
    {typed : Bool} {allOf : List Str} {ps : OPs} {ms : JMs} (hne : HasFields allOf ps)
    (hag : ∀ p q k v w, At comps (.obj typed allOf ps .no .nil) p k v →
      At comps (.obj typed allOf ps .no .nil) q k w → v = w)
    (hreq : ∀ p k nl s, At comps (.obj typed allOf ps .no .nil) p k (true, nl, s) → k ∈ ms.keys)
    (h : AllMs (MemST U S ds comps (.obj typed allOf ps .no .nil)) ms) :
    STS U S ds comps (.obj typed allOf ps .no .nil) (.obj ms) := by
  intro c path g ht hap hg hd hj
  obtain ⟨fs, rows, K0, hfs, hok, hnk, hiff, hvis⟩ := rows_all E ht hne hg hd
  rw [hfs]
  rw [Distinct] at hj
  have hat : ∀ y ∈ rows, ∃ p, At comps (.obj typed allOf ps .no .nil) p y.key (y.r, y.nl, y.s) := by
    intro y hy
    obtain ⟨p, hp, _⟩ := (hiff y.key (y.r, y.nl, y.s)).2 ⟨y, hy, rfl, rfl⟩
    exact ⟨p, hp⟩
  have hff : ∀ y ∈ rows, fieldFor U S (GFs.ofList (rows.map (Row.field U))) y.key =
      some (y.key, fieldT y.r y.nl y.gs.typeDecl) := by
    intro y hy
    rw [fieldFor, find_row E.laws hok hnk hy]
  have uniq : ∀ x ∈ rows, ∀ y ∈ rows, x.key = y.key → x = y := by
    intro x hx y hy e
    have h1 := filter_one hnk hx
    have : y ∈ rows.filter (fun z => z.key == x.key) := List.mem_filter.2 ⟨hy, by simp [e]⟩
    rw [h1, List.mem_singleton] at this
    exact this.symm
  -- the members of rows
  have mem : ∀ y ∈ rows, ∀ x, ms.get y.key = some x →
      FieldOut U S ds (fieldT y.r y.nl y.gs.typeDecl) x (!(y.r || y.nl))
        (Member S comps y.r y.nl y.s (some x)) := by
    intro y hy x hx
    obtain ⟨p, r, nl, s, h1, h2⟩ := h.get hx
    obtain ⟨q, h3⟩ := hat y hy
    have e := hag _ _ _ _ _ h1 h3
    injection e with e1 e
    injection e with e2 e3
    subst e1 e2 e3
    obtain ⟨cg, pg, hgen⟩ := (hok y hy).gen
    rcases h2 with ⟨h4, rfl⟩ | ⟨h4, h5⟩
    · exact field_null (gen_noStar hgen) (by simp [h4])
    · exact field_settles (hok y hy).tame hgen h4 (h5 cg pg y.gs (hok y hy).tame (at_apart A hap h3) hgen
        (hok y hy).decls ((distinct_all hj.2).get hx))
  have all : AllMs (fun k x => fieldFor U S (GFs.ofList (rows.map (Row.field U))) k = none ∨
      ∃ t, fieldFor U S (GFs.ofList (rows.map (Row.field U))) k = some (k, t) ∧
      ((∃ v, Reads U S ds t x v) ∨ Unreadable U S ds t x)) ms := by
    refine (allMs_and h (get_all ms hj.1)).imp fun k x _ hm => ?_
    obtain ⟨⟨p, r, nl, s, h1, _⟩, hx⟩ := hm
    by_cases hrow : ∃ y ∈ rows, y.key = k
    · obtain ⟨y, hy, rfl⟩ := hrow
      refine .inr ⟨_, hff y hy, ?_⟩
      rcases mem y hy x hx with ⟨v, hv, _⟩ | ⟨hv, _⟩
      · exact .inl ⟨v, hv⟩
      · exact .inr hv
    · left
      rw [fieldFor, find_none E.laws hok (fun y hy => by
        rw [beq_eq_false_iff_ne]
        exact fun e => hrow ⟨y, hy, e⟩)]
      refine find_none E.laws hok fun y hy => ?_
      cases hfold : S.fold k y.key with
      | false => rfl
      | true =>
        obtain ⟨q, hq⟩ := hat y hy
        rw [Apart] at hap
        exact absurd ⟨y, hy, (hap.1 _ _ _ _ _ _ h1 hq hfold).symm⟩ hrow
  have hdec : ∀ m, K0 + 1 ≤ m → dec U S ds m (.struct fs) (.obj ms) =
      (decFs U S ds m (GFs.ofList (rows.map (Row.field U))) ms).map fun vs =>
        .struct (assemble U S ds m vs (GFs.ofList (rows.map (Row.field U)))) := by
    intro m hm
    cases m with
    | zero => omega
    | succ m =>
      rw [dec, head]
      simp only [Option.bind_some]
      rw [hvis (m + 1) (by omega)]
      cases decFs U S ds (m + 1) (GFs.ofList (rows.map (Row.field U))) ms <;> rfl
  have inv : ∀ j', Comes S comps (.obj typed allOf ps .no .nil) (.obj ms) j' → ∃ ms', j' = .obj ms' ∧
      (∀ k ∈ ms'.keys, ∃ v, Counts comps (.obj typed allOf ps .no .nil) k v) ∧
      ∀ k r nl s, Counts comps (.obj typed allOf ps .no .nil) k (r, nl, s) →
        Member S comps r nl s (ms.get k) (ms'.get k) := by
    intro j' hc
    cases hc with
    | any _ =>
      rcases hne with h | ⟨m, hm, _⟩
      · exact absurd rfl h
      · cases hm
    | struct _ h1 h2 => exact ⟨_, rfl, h1, h2⟩
  rcases decFs_settles ms hj.1 all with ⟨vs, K, h1, h2⟩ | ⟨⟨K, h1⟩, k, x, t, h2, h3, h4⟩
  · have out : ∀ y ∈ rows, ∀ o, Member S comps y.r y.nl y.s (ms.get y.key) o ↔
        Out U S (!(y.r || y.nl)) (rowValue vs y) o := by
      intro y hy o
      cases hx : ms.get y.key with
      | none =>
        have hv : rowValue vs y = .nil := by
          rw [rowValue, (h2 y.key).2 hx]
          rfl
        rw [hv]
        refine member_none ?_
        cases hr : y.r with
        | false => rfl
        | true =>
          obtain ⟨q, hq⟩ := hat y hy
          rw [hr] at hq
          exact absurd (hreq _ _ _ _ hq) (get_none_iff.1 hx)
      | some x =>
        obtain ⟨v, hv, hr⟩ := (h2 y.key).1 x _ hx (hff y hy)
        have : rowValue vs y = v := by rw [rowValue, hv]; rfl
        rw [this]
        rcases mem y hy x hx with ⟨w, hw, _, ho⟩ | ⟨hw, _⟩
        · rw [reads_unique hr hw]
          exact ho o
        · exact (reads_readable hr hw).elim
    have dist : ∀ y ∈ rows, Distinct (enc U S (rowValue vs y)) := by
      intro y hy
      cases hx : ms.get y.key with
      | none =>
        have hv : rowValue vs y = .nil := by
          rw [rowValue, (h2 y.key).2 hx]
          rfl
        rw [hv]
        trivial
      | some x =>
        obtain ⟨v, hv, hr⟩ := (h2 y.key).1 x _ hx (hff y hy)
        have : rowValue vs y = v := by rw [rowValue, hv]; rfl
        rw [this]
        rcases mem y hy x hx with ⟨w, hw, hd, _⟩ | ⟨hw, _⟩
        · rw [reads_unique hr hw]
          exact hd
        · exact (reads_readable hr hw).elim
    obtain ⟨s1, s2, s4, s3⟩ := struct_out (U := U) (S := S) (ds := ds) E.laws (vs := vs) rows hok hnk
      (fun y hy hl => by
        cases hr : y.r with
        | false => rfl
        | true =>
          obtain ⟨q, hq⟩ := hat y hy
          rw [hr] at hq
          obtain ⟨x, hx⟩ := get_of_mem (hreq _ _ _ _ hq)
          obtain ⟨v, hv, _⟩ := (h2 y.key).1 x _ hx (hff y hy)
          rw [hl] at hv
          cases hv)
    refine .inl ⟨.struct (assemble U S ds 0 vs (GFs.ofList (rows.map (Row.field U)))), K + K0 + 1,
      fun m hm => ?_, ?_, fun j' => ?_⟩
    · rw [hdec m (by omega), h1 m (by omega), Option.map_some, s1]
    · rw [enc, Distinct]
      exact ⟨s2.nodup hnk, s4 dist⟩
    · rw [enc]
      generalize encFs U S (assemble U S ds 0 vs (GFs.ofList (rows.map (Row.field U)))) = W at s2 s3
      have hW : W.keys.Nodup := s2.nodup hnk
      constructor
      · intro hc
        obtain ⟨ms', rfl, c1, c2⟩ := inv j' hc
        have row : ∀ y ∈ rows, Out U S (!(y.r || y.nl)) (rowValue vs y) (ms'.get y.key) :=
          fun y hy => (out y hy _).1 (c2 _ _ _ _ ((hiff y.key (y.r, y.nl, y.s)).2 ⟨y, hy, rfl, rfl⟩))
        rw [jeq_obj_iff hW]
        refine ⟨fun k => ⟨fun hk => ?_, fun hk => ?_⟩, fun k z y hz hy => ?_⟩
        · obtain ⟨y, hy, rfl⟩ := List.mem_map.1 (s2.subset hk)
          obtain ⟨z, hz⟩ := get_of_mem hk
          rw [s3 y hy] at hz
          have := row y hy
          cases hg : ms'.get y.key with
          | some _ => exact get_mem _ hg
          | none =>
            rw [hg, Out] at this
            rw [if_pos this] at hz
            cases hz
        · obtain ⟨v, hv⟩ := c1 k hk
          obtain ⟨y, hy, rfl, _⟩ := (hiff k v).1 hv
          obtain ⟨z, hz⟩ := get_of_mem hk
          have := row y hy
          rw [hz, Out] at this
          have e := s3 y hy
          rw [this.1, if_neg (by simp)] at e
          exact get_mem _ e
        · obtain ⟨y', hy', rfl⟩ := List.mem_map.1 (s2.subset (get_mem _ hz))
          have := row y' hy'
          rw [hy, Out] at this
          rw [s3 y' hy', this.1, if_neg (by simp)] at hz
          injection hz with hz
          rw [← hz]
          exact this.2
      · intro hq
        obtain ⟨ms', rfl⟩ := jeq_obj hq
        rw [jeq_obj_iff hW] at hq
        refine .struct hne (fun k hk => ?_) fun k r nl s hc => ?_
        · obtain ⟨y, hy, rfl⟩ := List.mem_map.1 (s2.subset ((hq.1 k).2 hk))
          exact ⟨_, (hiff y.key (y.r, y.nl, y.s)).2 ⟨y, hy, rfl, rfl⟩⟩
        · obtain ⟨y, hy, rfl, e⟩ := (hiff k _).1 hc
          injection e with e1 e
          injection e with e2 e3
          subst e1 e2 e3
          rw [out y hy]
          have e := s3 y hy
          cases hg : ms'.get y.key with
          | none =>
            rw [Out]
            cases ho : (!(y.r || y.nl) && (rowValue vs y).isEmpty) with
            | true => rfl
            | false =>
              rw [ho, if_neg (by simp)] at e
              exact absurd ((hq.1 _).1 (get_mem _ e)) (get_none_iff.1 hg)
          | some z =>
            rw [Out]
            obtain ⟨w, hw⟩ := get_of_mem ((hq.1 _).2 (get_mem _ hg))
            rw [hw] at e
            split at e
            · cases e
            · rename_i ho
              injection e with e
              exact ⟨by simpa using ho, e ▸ hq.2 _ _ _ hw hg⟩
  · refine .inr ⟨⟨K + K0 + 1, fun m hm => ?_⟩, fun j' hc => ?_⟩
    · rw [hdec m (by omega), h1 m (by omega)]
      rfl
    · obtain ⟨ms', rfl, c1, c2⟩ := inv j' hc
      have hrow : ∃ y ∈ rows, y.key = k := by
        apply Classical.byContradiction
        intro hrow
        obtain ⟨p, r, nl, s, h5, _⟩ := h.get h2
        rw [fieldFor, find_none E.laws hok (fun y hy => by
          rw [beq_eq_false_iff_ne]
          exact fun e => hrow ⟨y, hy, e⟩)] at h3
        dsimp only at h3
        rw [find_none E.laws hok fun y hy => by
          cases hfold : S.fold k y.key with
          | false => rfl
          | true =>
            obtain ⟨q, hq⟩ := hat y hy
            rw [Apart] at hap
            exact absurd ⟨y, hy, (hap.1 _ _ _ _ _ _ h5 hq hfold).symm⟩ hrow] at h3
        cases h3
      obtain ⟨y, hy, rfl⟩ := hrow
      rw [hff y hy] at h3
      injection h3 with h3
      injection h3 with _ h3
      subst h3
      have hm := c2 _ _ _ _ ((hiff y.key (y.r, y.nl, y.s)).2 ⟨y, hy, rfl, rfl⟩)
      rw [h2] at hm
      rcases mem y hy x h2 with ⟨v, hv, _⟩ | ⟨_, hno⟩
      · exact reads_readable hv h4
      · exact hno _ hm

theorem sts_obj (E : Env U ds comps) (A : ∀ n s, (n, s) ∈ comps → Apart S comps s)
    {typed : Bool} {ps : OPs} {a : OAs} {es : OEs} {ms : JMs} (h1 : ps ≠ .nil ∨ a ≠ .no)
    (hreq : ∀ n r nl s, findProp n ps = some (r, nl, s) → r = true → n ∈ ms.keys)
    (h : AllMs (fun k x => MemST U S ds comps (.obj typed [] ps a es) k x ∨
      AddlST U S ds comps ps a k x) ms) :
    STS U S ds comps (.obj typed [] ps a es) (.obj ms) := by
  by_cases hps : ps = .nil
  · subst hps
    refine sts_map E (h1.resolve_left fun h => h rfl) (h.imp fun k x _ hm => ?_)
    rcases hm with ⟨p, r, nl, s, hat, _⟩ | hm
    · cases hat with
      | own h => cases h
      | part h _ _ => cases h
    · exact hm
  · intro c path g ht hap hg hd hj
    have ht' := ht
    rw [Tame] at ht'
    obtain ⟨_, rfl, _, _, hor, _⟩ := ht'
    have hano := (hor.resolve_left fun e => hps e.1).2
    subst hano
    refine sts_struct E A (.inl hps) ?_ ?_ (h.imp fun k x _ hm => ?_) c path g ht hap hg hd hj
    · intro p q k v w hp hq
      cases hp with
      | part h _ _ => cases h
      | own h =>
        cases hq with
        | part h _ _ => cases h
        | own h' =>
          rw [h] at h'
          injection h'
    · intro p k nl s hat
      cases hat with
      | own h => exact hreq k _ nl s h rfl
      | part h _ _ => cases h
    · rcases hm with hm | ⟨_, h | ⟨s, h, _⟩⟩
      · exact hm
      · cases h
      · cases h

mutual
theorem valid_settles (E : Env U ds comps) (A : ∀ n s, (n, s) ∈ comps → Apart S comps s) :
    ∀ {s : OS} {j : J}, Valid S false comps s j → STS U S ds comps s j
  | _, _, .ref h1 h2 => sts_ref E A h1 (valid_settles E A h2)
  | _, _, .str h => sts_prim E (.str h)
  | _, _, .bool => sts_prim E .bool
  | _, _, .int h1 h2 h3 => sts_prim E (.int h1 h2 h3)
  | _, _, .num h => sts_prim E (.num h)
  | _, _, .arr h => sts_arr E (valids_settle E A h)
  | _, _, .any h => by
    intro c path g ht _ hg hd hj
    rw [gen] at hg
    dsimp only at hg
    rw [if_pos (by simp)] at hg
    injection hg with hg
    subst hg
    refine (settles_any E hj).iff fun j' => ⟨fun h => .any h, fun h => ?_⟩
    cases h with
    | any h => exact h
    | struct hs _ _ =>
      rcases hs with h | ⟨m, hm, _⟩
      · exact absurd rfl h
      · cases hm
  | _, _, .free h => by
    intro c path g ht _ hg hd hj
    rw [gen] at hg
    dsimp only at hg
    rw [if_pos (by simp)] at hg
    injection hg with hg
    subst hg
    rw [Distinct] at hj
    refine (settles_map (C := Rounded S) hj.1 ((distinct_all hj.2).imp
      fun k x _ hm => settles_any E hm)).iff fun j' => ⟨?_, fun h => ?_⟩
    · rintro ⟨ms', rfl, h3, h4⟩
      exact .any (.obj h3 h4)
    · cases h with
      | any h =>
        cases h with
        | obj h3 h4 => exact ⟨_, rfl, h3, h4⟩
      | struct hs _ _ =>
        rcases hs with h | ⟨m, hm, _⟩
        · exact absurd rfl h
        · cases hm
  | _, _, .obj h1 h2 h3 h4 _ => sts_obj E A h1
      (fun n r nl s hf hr => h3 n r nl s hf (.inl hr)) (validMs_settle E A h4)
  | _, _, .all h1 _ h5 h6 h2 h3 h4 => by
    intro c path g ht hap hg hd hj
    have ht' := ht
    rw [Tame] at ht'
    exact sts_struct E A (ht'.2.2.2.2.1.resolve_left fun e => h1 e.2).1 h5
      (fun p k nl s hat => h3 p k _ nl s hat (.inl rfl))
      (validParts_settle E A h4) c path g ht hap hg hd hj
  | _, _, .union _ => by
    intro c path g ht _ hg hd
    rw [Tame] at ht
    cases ht.2.1
theorem valids_settle (E : Env U ds comps) (A : ∀ n s, (n, s) ∈ comps → Apart S comps s) :
    ∀ {s : OS} {xs : Js}, Valids S false comps s xs →
    ∀ c path g, Tame U comps s → Apart S comps s → gen U (c :: path) s = .ok g → Decls ds g →
      Distincts xs →
      (∃ vs K, (∀ m, K ≤ m → decs U S ds m (dep false g.typeDecl) xs = some vs) ∧
        Distincts (encs U S vs) ∧ ∀ ys, ComesAll S comps s xs ys ↔ jeqs (encs U S vs) ys = true) ∨
      ((∃ K, ∀ m, K ≤ m → decs U S ds m (dep false g.typeDecl) xs = none) ∧
        ∀ ys, ¬ ComesAll S comps s xs ys)
  | _, _, .nil, _, _, _, _, _, _, _, _ => .inl ⟨.nil, 0, fun _ _ => rfl, trivial, fun ys =>
      ⟨fun h => (by cases h; rfl), fun h => by
        cases ys <;> simp [encs, jeqs] at h
        exact .nil⟩⟩
  | _, _, .cons h1 h2, c, path, g, ht, hap, hg, hd, hj => by
    rw [Distincts] at hj
    rcases valid_settles E A h1 c path g ht hap hg hd hj.1 with ⟨v, a, h3, hv, h4⟩ | ⟨⟨a, h3⟩, h4⟩
    · rcases valids_settle E A h2 c path g ht hap hg hd hj.2 with ⟨vs, b, h5, hvs, h6⟩ | ⟨⟨b, h5⟩, h6⟩
      · refine .inl ⟨.cons v vs, a + b, fun m hm => ?_, ⟨hv, hvs⟩, fun ys => ?_⟩
        · rw [decs, h3 m (by omega), h5 m (by omega)]
          rfl
        · rw [encs]
          cases ys with
          | nil => exact ⟨fun h => (by cases h), fun h => by simp [jeqs] at h⟩
          | cons y ys =>
            rw [jeqs, Bool.and_eq_true, ← h4, ← h6]
            exact ⟨fun h => by cases h with | cons a b => exact ⟨a, b⟩, fun h => .cons h.1 h.2⟩
      · refine .inr ⟨⟨a + b, fun m hm => ?_⟩, fun ys h => ?_⟩
        · rw [decs, h3 m (by omega), h5 m (by omega)]
          rfl
        · cases h with
          | cons _ h => exact h6 _ h
    · refine .inr ⟨⟨a, fun m hm => ?_⟩, fun ys h => ?_⟩
      · rw [decs, h3 m hm]
        rfl
      · cases h with
        | cons h _ => exact h4 _ h
theorem validMs_settle (E : Env U ds comps) (A : ∀ n s, (n, s) ∈ comps → Apart S comps s) :
    ∀ {typed : Bool} {ps : OPs} {a : OAs} {es : OEs} {ms : JMs}, ValidMs S false comps ps a ms →
    AllMs (fun k x => MemST U S ds comps (.obj typed [] ps a es) k x ∨
      AddlST U S ds comps ps a k x) ms
  | _, _, _, _, _, .nil => trivial
  | _, _, _, _, _, .prop h1 h2 h3 h4 =>
    ⟨.inl ⟨[], _, _, _, .own h1, .inr ⟨h3, valid_settles E A h3⟩⟩, validMs_settle E A h4⟩
  | _, _, _, _, _, .null h1 h2 =>
    ⟨.inl ⟨[], _, _, _, .own h1, .inl ⟨rfl, rfl⟩⟩, validMs_settle E A h2⟩
  | _, _, _, _, _, .free h1 _ h3 => ⟨.inr ⟨h1, .inl rfl⟩, validMs_settle E A h3⟩
  | _, _, _, _, _, .addl h1 h2 h3 =>
    ⟨.inr ⟨h1, .inr ⟨_, rfl, valid_settles E A h2⟩⟩, validMs_settle E A h3⟩
theorem validParts_settle (E : Env U ds comps) (A : ∀ n s, (n, s) ∈ comps → Apart S comps s) :
    ∀ {root : OS} {ms : JMs}, ValidParts S false comps root ms →
    AllMs (MemST U S ds comps root) ms
  | _, _, .nil => trivial
  | _, _, .prop h1 h2 h3 h4 =>
    ⟨⟨_, _, _, _, h1, .inr ⟨h3, valid_settles E A h3⟩⟩, validParts_settle E A h4⟩
  | _, _, .null h1 h2 => ⟨⟨_, _, _, _, h1, .inl ⟨rfl, rfl⟩⟩, validParts_settle E A h2⟩
end

end Thema.GoJson

import Verif.Lemmas.GoJsonParts

/-!
# Reading and writing generated Go types: structs, and all schemas
-/

namespace Thema.GoJson

open GoTypes OGen

variable {U : Uni} {S : Std} {ds : List Decl} {comps : List (Str × OS)}

/-- The field of a property. -/
theorem field_eq {n : Str} {r nl : Bool} {s : GSch} (h1 : s.inner = false) (h2 : s.skipPtr = false) :
    Prop'.field U ⟨n, r, nl, s⟩ = (⟨typeName U n, .key n (!(r || nl))⟩,
      if !r || nl then .star s.typeDecl else s.typeDecl) := by
  rw [Prop'.field, if_neg (by simp [h1])]
  simp [h2]

/-- The field of a property. -/
theorem find_row (L : UniLaws U) {x : Row} : ∀ {rows : List Row},
    (∀ y ∈ rows, Row.Ok U ds comps y) → (rows.map (·.key)).Nodup → x ∈ rows →
    findField U (· == x.key) (GFs.ofList (rows.map (Row.field U))) =
      some (x.key, fieldT x.r x.nl x.gs.typeDecl)
  | [], _, _, h => by cases h
  | y :: rows, hok, hn, h => by
    rw [List.map_cons, List.nodup_cons] at hn
    rw [List.map_cons, GFs.ofList, findField, row_key L (hok y (List.mem_cons_self ..))]
    simp only
    rcases List.mem_cons.1 h with rfl | h
    · simp [Row.field]
    · have hne : (y.key == x.key) = false := by
        rw [beq_eq_false_iff_ne]
        intro e
        exact hn.1 (e ▸ List.mem_map_of_mem h)
      rw [hne, if_neg (by simp)]
      exact find_row L (fun z hz => hok z (List.mem_cons_of_mem _ hz)) hn.2 h

theorem findProp_mem {k : Str} {v : Bool × Bool × OS} : ∀ {ps : OPs}, findProp k ps = some v →
    k ∈ propNames ps
  | .nil, h => by cases h
  | .cons n r nl s ps, h => by
    rw [findProp] at h
    rw [propNames]
    split at h
    · rename_i e; subst e; exact List.mem_cons_self ..
    · exact List.mem_cons_of_mem _ (findProp_mem h)

/-- Writing a struct. -/
theorem struct_enc (L : UniLaws U) {vs : GMs} {ms : JMs} : ∀ (rows : List Row),
    (∀ y ∈ rows, Row.Ok U ds comps y) →
    (∀ y ∈ rows, (lastFor y.key vs = none ∧ y.key ∉ ms.keys ∧ y.r = false ∧ y.nl = false) ∨
      ∃ v x, lastFor y.key vs = some v ∧ ms.get y.key = some x ∧ jeq (enc U S v) x = true ∧
        (y.r = false → y.nl = false → v.isEmpty = false)) →
    (∀ m, assemble U S ds m vs (GFs.ofList (rows.map (Row.field U))) =
      assemble U S ds 0 vs (GFs.ofList (rows.map (Row.field U)))) ∧
    jeqMs (encFs U S (assemble U S ds 0 vs (GFs.ofList (rows.map (Row.field U))))) ms = true ∧
    ∀ n ∈ rows.map (·.key), n ∈ ms.keys →
      n ∈ (encFs U S (assemble U S ds 0 vs (GFs.ofList (rows.map (Row.field U))))).keys
  | [], _, _ => ⟨fun _ => rfl, rfl, fun n hn => by cases hn⟩
  | y :: rows, hok, h => by
    obtain ⟨ih1, ih2, ih3⟩ := struct_enc L rows (fun z hz => hok z (List.mem_cons_of_mem _ hz))
      fun z hz => h z (List.mem_cons_of_mem _ hz)
    have hy := hok y (List.mem_cons_self ..)
    have hk := row_key L hy
    obtain ⟨_, _, hgen⟩ := hy.gen
    rw [List.map_cons, GFs.ofList]
    simp only [assemble, hk, Option.bind_some]
    rcases h y (List.mem_cons_self ..) with ⟨h1, h2, hr, hnl⟩ | ⟨v, x, h1, h2, h3, h4⟩
    · rw [h1]
      simp only
      have hz : ∀ m, zero U S ds m (y.field U).2 = .nil :=
        fun m => zero_opt (gen_noStar hgen) (by rw [hr]; rfl) m
      have hom : (omitEmpty (y.field U).1 && GV.isEmpty .nil) = true := by
        show ((!(y.r || y.nl)) && GV.isEmpty .nil) = true
        rw [hr, hnl]
        rfl
      refine ⟨fun m => by rw [hz, hz, ih1 m], ?_, ?_⟩
      · rw [hz, encFs, hk]
        simp only
        rw [if_pos hom]
        exact ih2
      · intro k hkm hkk
        rw [hz, encFs, hk]
        simp only
        rw [if_pos hom]
        rw [List.map_cons] at hkm
        rcases List.mem_cons.1 hkm with rfl | hkm
        · exact absurd hkk h2
        · exact ih3 k hkm hkk
    · rw [h1]
      simp only
      have hom : ¬ (omitEmpty (y.field U).1 && v.isEmpty) = true := by
        show ¬ ((!(y.r || y.nl)) && v.isEmpty) = true
        cases hr : y.r <;> cases hnl : y.nl <;> simp_all
      refine ⟨fun m => by rw [ih1 m], ?_, ?_⟩
      all_goals
        rw [encFs, hk]
        simp only
        rw [if_neg hom]
      · rw [jeqMs, h2]
        simp only
        rw [h3, ih2]
        rfl
      · intro k hkm hkk
        rw [JMs.keys]
        rw [List.map_cons] at hkm
        rcases List.mem_cons.1 hkm with rfl | hkm
        · exact List.mem_cons_self ..
        · exact List.mem_cons_of_mem _ (ih3 k hkm hkk)

theorem rt_null {r nl : Bool} {t : GT} {P : GV → Prop} (h : NoStar t) (hr : (!r || nl) = true)
    (hP : P .nil) : RTP U S ds P (fieldT r nl t) .null := by
  refine ⟨.nil, 1, hP, fun m hm => ⟨?_, rfl⟩⟩
  cases m with
  | zero => omega
  | succ m =>
    rcases fieldT_opt h hr with h | ⟨h, ⟨e, rfl⟩ | ⟨k, v, rfl⟩⟩
    all_goals (rw [h]; rfl)

/-- A member of a property. -/
theorem rt_field {r nl : Bool} {s : OS} {x : J} {path : List Str} {g : GSch} (ht : Tame U comps s)
    (hg : gen U path s = .ok g) (hv : Valid S true comps s x)
    (hvis : r = false → nl = false → Visible s x)
    (h : RoundTrip U S ds (dep false g.typeDecl) x) :
    RTP U S ds (fun v => r = false → nl = false → v.isEmpty = false) (fieldT r nl g.typeDecl) x := by
  have hn := gen_noStar hg
  by_cases hr : (!r || nl) = true
  · rcases fieldT_opt hn hr with e | ⟨e, hd⟩
    · by_cases hx : x = .null
      · subst hx
        refine rt_null hn hr fun h1 h2 => ?_
        have := hvis h1 h2
        cases s with
        | ref _ => exact this.elim
        | prim _ _ _ => exact this.elim
        | arr _ => exact this.elim
        | inner => exact this.elim
        | obj a b c d e => exact this.elim
      · rw [e]
        obtain ⟨v, k, h1, h2⟩ := rt_star hx h
        exact ⟨v, k, fun _ _ => h1, h2⟩
    · rw [e]
      obtain ⟨v, k, h⟩ := h
      refine ⟨v, k, fun h1 h2 => ?_, h⟩
      exact not_empty (visible_cons ht hg hv (hvis h1 h2) hd) (h k (Nat.le_refl k)).2
  · have h1 : r = true := by cases r <;> simp_all
    have h2 : nl = false := by cases nl <;> simp_all
    subst h1 h2
    rw [fieldT_req hn]
    obtain ⟨v, k, h⟩ := h
    exact ⟨v, k, (fun e => by cases e), h⟩

/-- What is shown of a schema and its data. -/
def RTS (U : Uni) (S : Std) (ds : List Decl) (comps : List (Str × OS)) (s : OS) (j : J) : Prop :=
  ∀ c path g, Tame U comps s → gen U (c :: path) s = .ok g → Decls ds g →
    RoundTrip U S ds (dep false g.typeDecl) j

theorem rts_ref (E : Env U ds comps) {n : Str} {s : OS} {j : J} (hl : comps.lookup n = some s)
    (h : RTS U S ds comps s j) : RTS U S ds comps (.ref n) j := by
  intro c path g ht hg hd
  rw [gen] at hg
  injection hg with hg
  subst hg
  have hm := lookup_mem hl
  obtain ⟨g, h1, h2, h3⟩ := E.comp n s hm
  exact rt_ident (dep_noStar (gen_noStar h1)) h2 (h n [] g (E.tame.tame n s hm) h1 h3)

theorem rts_prim (E : Env U ds comps) {k : Kind} {f : Str} {e : List Str} {j : J}
    (hv : Valid S true comps (.prim k f e) j) : RTS U S ds comps (.prim k f e) j := by
  intro c path g ht hg hd
  obtain ⟨x, hx, hp⟩ := primType_tame ht
  rw [gen, genPrim, hp] at hg
  simp only [Res.bind] at hg
  have base := rt_prim E hx hv (U := U)
  split at hg
  · injection hg with hg
    subst hg
    refine rt_ident (t := .ident x) (fun u e => by cases e) ?_ base
    have := hd _ (List.mem_append_right _ (List.mem_append_right _ (List.mem_singleton_self _)))
    exact this
  · injection hg with hg
    subst hg
    exact base

theorem rts_arr (E : Env U ds comps) {s : OS} {xs : Js}
    (h : ∀ c path g, Tame U comps s → gen U (c :: path) s = .ok g → Decls ds g →
      ∃ vs k, ∀ m, k ≤ m → decs U S ds m (dep false g.typeDecl) xs = some vs ∧
        jeqs (encs U S vs) xs = true) : RTS U S ds comps (.arr s) (.arr xs) := by
  intro c path g ht hg hd
  rw [gen] at hg
  obtain ⟨a, ha, hg⟩ := bind_ok hg
  rw [Tame] at ht
  have ih := gen_good s ht ha
  rw [genArr_eq ih.addl ih.union] at hg
  injection hg with hg
  subst hg
  obtain ⟨vs, k, h⟩ := h c path a ht ha hd
  have hb : ∀ m, isByte ds m (dep false a.typeDecl) = false := fun m =>
    isByte_false E (refs_ok E ih hd)
  refine ⟨.slice vs, k + 1, fun m hm => ⟨?_, ?_⟩⟩
  · show dec U S ds m (.arr (dep false a.typeDecl)) (.arr xs) = _
    cases m with
    | zero => omega
    | succ m =>
      rw [dec, head]
      simp only [Option.bind_some]
      rw [(h (m + 1) (by omega)).1, hb]
      rfl
  · rw [enc, jeq]
    exact (h k (Nat.le_refl k)).2

theorem rt_any (E : Env U ds comps) {j : J} (h : Exact S j) :
    RoundTrip U S ds (.ident "any".toList) j := by
  have hd : ∀ m, 1 ≤ m → head ds m (.ident "any".toList) = some (0, .ident "any".toList) :=
    fun m hm => head_basicType E (by decide) hm
  obtain ⟨v, h1, h2⟩ := decAny_exact (U := U) j h
  refine ⟨v, 1, fun m hm => ⟨?_, h2⟩⟩
  have hid : ∀ o : Option GV, o.map (ptrs 0) = o := by intro o; cases o <;> rfl
  cases j with
  | null =>
    rw [dec_null (hd m hm)]
    injection h1 with h1
    subst h1
    cases m with
    | zero => omega
    | succ m =>
      show some (zero U S ds (m + 1) (.ident "any".toList)) = _
      rw [zero, E.basic _ (by decide)]
      rfl
  | bool b => rw [dec, hd m hm, ← h1]; rfl
  | num q =>
    rw [dec, hd m hm, ← h1]
    simp only [Option.bind_some, hid]
    rfl
  | str s => rw [dec, hd m hm, ← h1]; rfl
  | arr xs =>
    rw [dec, hd m hm, ← h1]
    simp only [Option.bind_some, hid, if_true]
  | obj ms =>
    rw [dec, hd m hm, ← h1]
    simp only [Option.bind_some, hid, if_true]

theorem rt_map {k t : GT} {ms : JMs} (hn : ms.keys.Nodup)
    (h : AllMs (fun _ x => RoundTrip U S ds t x) ms) :
    RoundTrip U S ds (.map k t) (.obj ms) := by
  obtain ⟨vs, K, hp, h⟩ := decMs_rt ms h
  refine ⟨.map vs, K + 1, fun m hm => ⟨?_, ?_⟩⟩
  · cases m with
    | zero => omega
    | succ m =>
      rw [dec, head]
      simp only [Option.bind_some]
      rw [h (m + 1) (by omega)]
      rfl
  · obtain ⟨h1, h2⟩ := pair_enc vs ms ms hp hn fun _ _ h => h
    rw [enc, jeq, h1, h2]
    simp

theorem exact_all (E : Env U ds comps) : ∀ {ms : JMs}, ExactMs S ms →
    AllMs (fun _ x => RoundTrip U S ds (.ident "any".toList) x) ms
  | .nil, _ => trivial
  | .cons k x ms, h => by
    rw [ExactMs] at h
    exact ⟨rt_any E h.1, exact_all E h.2⟩

/-- A member of an object: of a property. -/
def MemRT (U : Uni) (S : Std) (ds : List Decl) (comps : List (Str × OS)) (root : OS) (k : Str)
    (x : J) : Prop :=
  ∃ p r nl s, At comps root p k (r, nl, s) ∧ (nl = true ∧ x = .null ∨
    (r = false → nl = false → Visible s x) ∧ Valid S true comps s x ∧ RTS U S ds comps s x)

/-- A member of an object: not of a property. -/
def AddlRT (U : Uni) (S : Std) (ds : List Decl) (comps : List (Str × OS)) (ps : OPs) (a : OAs)
    (k : Str) (x : J) : Prop :=
  findProp k ps = none ∧ (a = .free ∧ Exact S x ∨ ∃ s, a = .of s ∧ RTS U S ds comps s x)

theorem AllMs.imp {P Q : Str → J → Prop} : ∀ {ms : JMs}, (∀ k x, k ∈ ms.keys → P k x → Q k x) →
    AllMs P ms → AllMs Q ms
  | .nil, _, _ => trivial
  | .cons k x ms, h, hp => ⟨h k x (List.mem_cons_self ..) hp.1,
      AllMs.imp (fun k x hk => h k x (List.mem_cons_of_mem _ hk)) hp.2⟩

theorem AllMs.mem {P : Str → J → Prop} : ∀ {ms : JMs}, AllMs P ms → ∀ k ∈ ms.keys, ∃ x, P k x
  | .nil, _, k, hk => by cases hk
  | .cons k' x ms, h, k, hk => by
    rw [JMs.keys] at hk
    rcases List.mem_cons.1 hk with rfl | hk
    · exact ⟨x, h.1⟩
    · exact AllMs.mem h.2 k hk

/-- Maps. -/
theorem rts_map (E : Env U ds comps) {typed : Bool} {a : OAs} {es : OEs} {ms : JMs}
    (h1 : a ≠ .no) (hn : ms.keys.Nodup) (h : AllMs (AddlRT U S ds comps .nil a) ms) :
    RTS U S ds comps (.obj typed [] .nil a es) (.obj ms) := by
  intro c path g ht hg hd
  rw [Tame] at ht
  obtain ⟨_, rfl, hta, _⟩ := ht
  rw [gen] at hg
  dsimp only at hg
  rw [if_neg (fun e => h1 e.2.1)] at hg
  obtain ⟨ga, hga, hg⟩ := bind_ok hg
  rw [if_pos (by simp)] at hg
  injection hg with hg
  subst hg
  show RoundTrip U S ds (.map _ (dep false ga.typeDecl)) _
  refine rt_map hn (h.imp fun k x _ hm => ?_)
  rcases hm with ⟨_, ⟨rfl, hx⟩ | ⟨s, rfl, hs⟩⟩
  · rw [genA] at hga
    injection hga with hga
    subst hga
    exact rt_any E hx
  · rw [genA] at hga
    obtain ⟨b, hb, hga⟩ := bind_ok hga
    rw [TameA] at hta
    have ih := gen_good s hta.1 hb
    have hf := gen_flat s hta.1 hta.2 hb
    rw [genAddl_eq ih.addl ih.union] at hga
    injection hga with hga
    subst hga
    refine hs c path b hta.1 hb fun td htd => ?_
    rw [GSch.defs, hf.1] at htd
    exact hd td htd

/-- Structs. -/
theorem rts_struct (E : Env U ds comps) {typed : Bool} {allOf : List Str} {ps : OPs} {ms : JMs}
    (hn : ms.keys.Nodup) (hne : HasFields allOf ps)
    (hcnt : ∀ p k v, At comps (.obj typed allOf ps .no .nil) p k v →
      Counts comps (.obj typed allOf ps .no .nil) k v)
    (hreq : ∀ p k r nl s, At comps (.obj typed allOf ps .no .nil) p k (r, nl, s) →
      (r = true ∨ nl = true) → k ∈ ms.keys)
    (h : AllMs (MemRT U S ds comps (.obj typed allOf ps .no .nil)) ms) :
    RTS U S ds comps (.obj typed allOf ps .no .nil) (.obj ms) := by
  intro c path g ht hg hd
  obtain ⟨fs, rows, K0, hfs, hok, hnk, hiff, hvis⟩ := rows_all E ht hne hg hd
  rw [hfs]
  have uniq : ∀ x ∈ rows, ∀ y ∈ rows, x.key = y.key → x = y := by
    intro x hx y hy e
    have h1 := filter_one hnk hx
    have : y ∈ rows.filter (fun z => z.key == x.key) := List.mem_filter.2 ⟨hy, by simp [e]⟩
    rw [h1, List.mem_singleton] at this
    exact this.symm
  have key : AllMs (fun k x => ∃ t, fieldFor U S (GFs.ofList (rows.map (Row.field U))) k = some (k, t) ∧
      RTP U S ds ((fun k v => ∀ y ∈ rows, y.key = k → y.r = false → y.nl = false →
        v.isEmpty = false) k) t x) ms := by
    refine h.imp fun k x _ hm => ?_
    obtain ⟨p, r, nl, s, hat, hx⟩ := hm
    obtain ⟨y, hy, rfl, e⟩ := (hiff k (r, nl, s)).1 (hcnt p k _ hat)
    injection e with e1 e
    injection e with e2 e3
    subst e1 e2 e3
    obtain ⟨cg, pg, hgen⟩ := (hok y hy).gen
    refine ⟨fieldT y.r y.nl y.gs.typeDecl, by rw [fieldFor, find_row E.laws hok hnk hy], ?_⟩
    rcases hx with ⟨hnl, rfl⟩ | ⟨hv1, hv, hs⟩
    · refine rt_null (gen_noStar hgen) (by simp [hnl]) fun z hz e _ hz2 => ?_
      rw [uniq z hz y hy e, hnl] at hz2
      cases hz2
    · have hrt := hs cg pg y.gs (hok y hy).tame hgen (hok y hy).decls
      obtain ⟨v, K, hP, hv⟩ := rt_field (hok y hy).tame hgen hv hv1 hrt
      refine ⟨v, K, fun z hz e h1 h2 => ?_, hv⟩
      rw [uniq z hz y hy e] at h1 h2
      exact hP h1 h2
  obtain ⟨vs, K, hp, hdec⟩ := decFs_rt ms key
  have sa := struct_enc (U := U) (S := S) (ds := ds) E.laws (vs := vs) (ms := ms) rows hok
    (fun y hy => by
      have hat := (hiff y.key (y.r, y.nl, y.s)).2 ⟨y, hy, rfl, rfl⟩
      obtain ⟨p, hat, _⟩ := hat
      rcases pair_last y.key vs ms hp hn with ⟨q1, q2⟩ | ⟨v, x, q1, q2, q3, q4⟩
      · refine .inl ⟨q1, q2, ?_, ?_⟩
        · cases hr : y.r with
          | false => rfl
          | true => exact absurd (hreq p _ _ _ _ hat (.inl hr)) q2
        · cases hnl : y.nl with
          | false => rfl
          | true => exact absurd (hreq p _ _ _ _ hat (.inr hnl)) q2
      · exact .inr ⟨v, x, q1, q2, q3, fun e1 e2 => q4 y hy rfl e1 e2⟩)
  obtain ⟨sa1, sa2, sa3⟩ := sa
  refine ⟨.struct (assemble U S ds 0 vs (GFs.ofList (rows.map (Row.field U)))), K + K0 + 1,
    fun m hm => ⟨?_, ?_⟩⟩
  · cases m with
    | zero => omega
    | succ m =>
      rw [dec, head]
      simp only [Option.bind_some]
      rw [hvis (m + 1) (by omega), hdec (m + 1) (by omega)]
      simp only [Option.map_some, ptrs]
      rw [sa1]
  · rw [enc, jeq, sa2]
    simp only [Bool.true_and, List.all_eq_true]
    intro k hk
    rw [List.contains_iff_mem]
    refine sa3 k ?_ hk
    obtain ⟨x, p, r, nl, s, hat, _⟩ := h.mem k hk
    obtain ⟨y, hy, e, _⟩ := (hiff k _).1 (hcnt p k _ hat)
    exact e ▸ List.mem_map_of_mem hy

/-- Without parts all properties count. -/
theorem counts_own {typed : Bool} {ps : OPs} {a : OAs} {es : OEs} {p : List Str} {k : Str}
    {v : Bool × Bool × OS} (h : At comps (.obj typed [] ps a es) p k v) :
    Counts comps (.obj typed [] ps a es) k v := by
  have nil : ∀ {q w}, At comps (.obj typed [] ps a es) q k w → q = [] := by
    intro q w h
    cases h with
    | own _ => rfl
    | part h _ _ => cases h
  have hp := nil h
  subst hp
  refine ⟨[], h, (fun m hm => by cases hm), fun q w hq _ => .inr ?_⟩
  rw [nil hq]
  exact ⟨rfl, rfl⟩

theorem rts_obj (E : Env U ds comps) {typed : Bool} {ps : OPs} {a : OAs} {es : OEs} {ms : JMs}
    (h1 : ps ≠ .nil ∨ a ≠ .no) (hn : ms.keys.Nodup)
    (hreq : ∀ n r nl s, findProp n ps = some (r, nl, s) → (r = true ∨ nl = true) → n ∈ ms.keys)
    (h : AllMs (fun k x => MemRT U S ds comps (.obj typed [] ps a es) k x ∨
      AddlRT U S ds comps ps a k x) ms) :
    RTS U S ds comps (.obj typed [] ps a es) (.obj ms) := by
  by_cases hps : ps = .nil
  · subst hps
    refine rts_map E (h1.resolve_left fun h => h rfl) hn (h.imp fun k x _ hm => ?_)
    rcases hm with ⟨p, r, nl, s, hat, _⟩ | hm
    · cases hat with
      | own h => cases h
      | part h _ _ => cases h
    · exact hm
  · intro c path g ht hg hd
    have ht' := ht
    rw [Tame] at ht'
    obtain ⟨_, rfl, _, _, hor, _⟩ := ht'
    have hano := (hor.resolve_left fun e => hps e.1).2
    subst hano
    refine rts_struct E hn (.inl hps) (fun p k v hat => counts_own hat) ?_ (h.imp fun k x _ hm => ?_)
      c path g ht hg hd
    · intro p k r nl s hat
      cases hat with
      | own h => exact hreq k r nl s h
      | part h _ _ => cases h
    · rcases hm with hm | ⟨_, ⟨h, _⟩ | ⟨s, h, _⟩⟩
      · exact hm
      · cases h
      · cases h

mutual
theorem valid_rt (E : Env U ds comps) : ∀ {s : OS} {j : J}, Valid S true comps s j →
    RTS U S ds comps s j
  | _, _, .ref h1 h2 => rts_ref E h1 (valid_rt E h2)
  | _, _, .str h => rts_prim E (.str h)
  | _, _, .bool => rts_prim E .bool
  | _, _, .int h1 h2 h3 => rts_prim E (.int h1 h2 h3)
  | _, _, .num h => rts_prim E (.num h)
  | _, _, .arr h => rts_arr E (valids_rt E h)
  | _, _, .any h => by
    intro c path g ht hg hd
    rw [gen] at hg
    dsimp only at hg
    rw [if_pos (by simp)] at hg
    injection hg with hg
    subst hg
    exact rt_any E (h rfl)
  | _, _, .free h => by
    intro c path g ht hg hd
    rw [gen] at hg
    dsimp only at hg
    rw [if_pos (by simp)] at hg
    injection hg with hg
    subst hg
    have h := h rfl
    rw [Exact] at h
    exact rt_map h.1 (exact_all E h.2)
  | _, _, .obj h1 h2 h3 h4 _ => rts_obj E h1 h2
      (fun n r nl s hf hr => h3 n r nl s hf (hr.imp_right fun h => ⟨rfl, h⟩)) (validMs_rt E h4)
  | _, _, .all h1 _ h5 h6 h2 h3 h4 => by
    intro c path g ht hg hd
    have ht' := ht
    rw [Tame] at ht'
    refine rts_struct E h2 (ht'.2.2.2.2.1.resolve_left fun e => h1 e.2).1 ?_
      (fun p k r nl s hat hr => h3 p k r nl s hat (hr.imp_right fun h => ⟨rfl, h⟩))
      (validParts_rt E h4) c path g ht hg hd
    intro p k v hat
    obtain ⟨w, q, hq, hc⟩ := h6 rfl p k v hat
    have := h5 p q k v w hat hq
    subst this
    exact ⟨q, hq, hc⟩
  | _, _, .union _ => by
    intro c path g ht hg hd
    rw [Tame] at ht
    cases ht.2.1
theorem valids_rt (E : Env U ds comps) : ∀ {s : OS} {xs : Js}, Valids S true comps s xs →
    ∀ c path g, Tame U comps s → gen U (c :: path) s = .ok g → Decls ds g →
      ∃ vs k, ∀ m, k ≤ m → decs U S ds m (dep false g.typeDecl) xs = some vs ∧
        jeqs (encs U S vs) xs = true
  | _, _, .nil, _, _, _, _, _, _ => ⟨.nil, 0, fun _ _ => ⟨rfl, rfl⟩⟩
  | _, _, .cons h1 h2, c, path, g, ht, hg, hd => by
    obtain ⟨v, a, hv⟩ := valid_rt E h1 c path g ht hg hd
    obtain ⟨vs, b, hvs⟩ := valids_rt E h2 c path g ht hg hd
    refine ⟨.cons v vs, a + b, fun m hm => ⟨?_, ?_⟩⟩
    · rw [decs, (hv m (by omega)).1, (hvs m (by omega)).1]
      rfl
    · rw [encs, jeqs, (hv m (by omega)).2, (hvs m (by omega)).2]
      rfl
theorem validMs_rt (E : Env U ds comps) : ∀ {typed : Bool} {ps : OPs} {a : OAs} {es : OEs}
    {ms : JMs}, ValidMs S true comps ps a ms →
    AllMs (fun k x => MemRT U S ds comps (.obj typed [] ps a es) k x ∨
      AddlRT U S ds comps ps a k x) ms
  | _, _, _, _, _, .nil => trivial
  | _, _, _, _, _, .prop h1 h2 h3 h4 =>
    ⟨.inl ⟨[], _, _, _, .own h1, .inr ⟨h2 rfl, h3, valid_rt E h3⟩⟩, validMs_rt E h4⟩
  | _, _, _, _, _, .null h1 h2 => ⟨.inl ⟨[], _, _, _, .own h1, .inl ⟨rfl, rfl⟩⟩, validMs_rt E h2⟩
  | _, _, _, _, _, .free h1 h2 h3 => ⟨.inr ⟨h1, .inl ⟨rfl, h2 rfl⟩⟩, validMs_rt E h3⟩
  | _, _, _, _, _, .addl h1 h2 h3 => ⟨.inr ⟨h1, .inr ⟨_, rfl, valid_rt E h2⟩⟩, validMs_rt E h3⟩
theorem validParts_rt (E : Env U ds comps) : ∀ {root : OS} {ms : JMs},
    ValidParts S true comps root ms → AllMs (MemRT U S ds comps root) ms
  | _, _, .nil => trivial
  | _, _, .prop h1 h2 h3 h4 =>
    ⟨⟨_, _, _, _, h1, .inr ⟨h2 rfl, h3, valid_rt E h3⟩⟩, validParts_rt E h4⟩
  | _, _, .null h1 h2 => ⟨⟨_, _, _, _, h1, .inl ⟨rfl, rfl⟩⟩, validParts_rt E h2⟩
end

end Thema.GoJson

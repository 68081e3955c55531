import Verif.Props.Typed
import Verif.Props.AssignExact
import Verif.Spec.TypedExact

/-!
# Bound Go types, exactly (C185)
-/

namespace Thema.Props

open Thema.Typed Thema.Spec.Typed Thema.Assign Thema.Spec.Assign Thema.Lemmas.Typed

theorem overlayF_lookup {r : Bool} {os : List (Str × D)} {n : Str} : ∀ {ns : List (Str × D)},
    (overlayF r os ns).lookup n = (ns.lookup n).map fun d =>
      match os.lookup n with
      | some o => overlay r o d
      | none => d
  | [] => by rw [overlayF]; rfl
  | (m, d) :: ns => by
    rw [overlayF, List.lookup_cons, List.lookup_cons, overlayF_lookup]
    cases h : n == m with
    | false => rfl
    | true =>
      rw [beq_iff_eq] at h
      subst h
      rfl

theorem filter_lookup {n : Str} {p : Str × D → Bool} (hp : ∀ d, p (n, d) = true) :
    ∀ {os : List (Str × D)}, (os.filter p).lookup n = os.lookup n
  | [] => rfl
  | (m, d) :: os => by
    rw [List.filter_cons, List.lookup_cons]
    cases h : n == m with
    | true =>
      rw [beq_iff_eq] at h
      subst h
      rw [if_pos (hp d), List.lookup_cons, beq_self_eq_true]
    | false =>
      split
      · rw [List.lookup_cons, h]; exact filter_lookup hp
      · exact filter_lookup hp

/-- The fields of a struct written over another. -/
theorem overlay_lookup {r : Bool} {os ns : List (Str × D)} {n : Str} :
    (overlayF r os ns ++ os.filter (fun f => (ns.lookup f.1).isNone)).lookup n =
      match ns.lookup n with
      | some d => some (match os.lookup n with
        | some o => overlay r o d
        | none => d)
      | none => os.lookup n := by
  rw [lookup_append, overlayF_lookup]
  cases h : ns.lookup n with
  | some d => rfl
  | none =>
    simp only [Option.map_none]
    exact filter_lookup (p := fun f => (ns.lookup f.1).isNone) (fun d => by simp [h])

mutual
/-- Data decoded over other data. -/
theorem decodeD_overlay (r : Bool) : ∀ (t : GT) (s : S) (o d : D), WFG t → Fits t s → Valid s d →
    (decodeD r t d (rep t o)).1 = rep t (overlay r o d)
  | .ptr t, s, o, d, hg, hf, hv => by
    rw [decodeD, rep, rep]
    rw [Fits] at hf
    rw [WFG] at hg
    dsimp only [GV.deref, Option.getD]
    rw [decodeD_overlay r t s o d hg hf hv]
  | .scal k m, s, o, d, hg, hf, hv => by
    have hd : ∃ c, d = .con k c ∧ c ≤ m := by
      rcases fits_scal hf with ⟨c, rfl, hc⟩ | ⟨m', o, rfl, hm⟩
      · rw [Valid] at hv
        exact ⟨c, hv, hc⟩
      · rw [Valid] at hv
        obtain ⟨c, rfl, hc⟩ := hv
        exact ⟨c, rfl, Nat.le_trans hc hm⟩
    obtain ⟨c, rfl, hc⟩ := hd
    rw [decodeD, if_pos ⟨rfl, hc⟩]
    cases o <;> rw [overlay, rep] <;> simp
  | .slice t, s, o, d, hg, hf, hv => by
    obtain ⟨e, l, rfl, hf⟩ := fits_slice hf
    rw [WFG] at hg
    rw [Valid] at hv
    obtain ⟨l', rfl, hl⟩ := hv
    have raw : ∀ x : GV, slots r (zero t) l'.length x.elems = List.replicate l'.length (zero t) →
        (decodeD r (.slice t) (.list l') x).1 = rep (.slice t) (.list l') := by
      intro x hx
      rw [decodeD, rep]
      dsimp only
      rw [hx, zipWith_replicate l' fun d hd => decodeD_zero r t e d hg hf (hl d hd)]
    cases o with
    | con k c =>
      rw [overlay]
      · exact raw _ (by rw [rep] <;> simp [GV.elems, slots])
      · simp
      · simp
    | st fs =>
      rw [overlay]
      · exact raw _ (by rw [rep] <;> simp [GV.elems, slots])
      · simp
      · simp
    | list os =>
      rw [overlay]
      by_cases hc : r = true ∧ os ≠ [] ∧ l'.length ≤ os.length
      · rw [if_pos hc, rep, decodeD, rep]
        dsimp only [GV.elems]
        rw [slots, if_pos (by simp [hc])]
        congr 2
        exact decodeL_overlay r t e os l' hg hf hl hc.2.2
      · rw [if_neg hc]
        refine raw _ ?_
        rw [rep]
        simp only [GV.elems]
        rw [slots, if_neg]
        simp only [List.length_map, Bool.and_eq_true, decide_eq_true_eq]
        rintro ⟨⟨h1, h2⟩, h3⟩
        exact hc ⟨h1, fun h => h2 (by rw [h]; rfl), h3⟩
  | .st gs, s, o, d, hg, hf, hv => by
    obtain ⟨fs, rfl, hf⟩ := fits_st hf
    rw [WFG] at hg
    rw [Valid] at hv
    obtain ⟨ds, rfl, hk, hd⟩ := hv
    have raw : (decodeD r (.st gs) (.st ds) (.st (repF gs []))).1 = rep (.st gs) (.st ds) := by
      rw [decodeD, rep]
      dsimp only
      congr 1
      exact decodeDF_zero r gs fs ds (.st (repF gs [])) hg.1 hg.2 hf hd fun n t h => by
        rw [GV.field, repF_lookup h]; rfl
    cases o with
    | con k c => rw [overlay, rep]; · exact raw
                 all_goals simp
    | list l => rw [overlay, rep]; · exact raw
                all_goals simp
    | st os =>
      rw [overlay, rep, rep, decodeD]
      dsimp only
      congr 1
      exact decodeDF_overlay r gs fs os ds _ hg.1 hg.2 hf hd fun n t h => by
        rw [GV.field, repF_lookup h]
theorem decodeL_overlay (r : Bool) (t : GT) (e : S) : ∀ (os ns : List D), WFG t → Fits t e →
    (∀ x ∈ ns, Valid e x) → ns.length ≤ os.length →
    (List.zipWith (fun d y => decodeD r t d y) ns ((os.map fun x => rep t x).take ns.length)).map
      (·.1) = (overlayL r os ns).map fun x => rep t x
  | os, [], _, _, _, _ => by cases os <;> simp [overlayL]
  | [], _ :: _, _, _, _, h => by simp at h
  | o :: os, n :: ns, hg, hf, hv, h => by
    rw [overlayL, List.map_cons, List.length_cons, List.map_cons, List.take_succ_cons,
      List.zipWith_cons_cons, List.map_cons, decodeD_overlay r t e o n hg hf (hv n List.mem_cons_self),
      decodeL_overlay r t e os ns hg hf (fun x hx => hv x (List.mem_cons_of_mem _ hx))
        (by simpa using h)]
theorem decodeDF_overlay (r : Bool) : ∀ (gs : GF) (fs : SF) (os ds : List (Str × D)) (x : GV),
    (gnames gs).Nodup → WFGF gs → FitsF gs fs → ValidF fs ds →
    (∀ n t, goField gs n = some t → x.field n = some (repO t (os.lookup n))) →
    (decodeDF r gs ds x).1 =
      repF gs (overlayF r os ds ++ os.filter (fun f => (ds.lookup f.1).isNone))
  | .nil, _, _, _, _, _, _, _, _, _ => by rw [decodeDF, repF]
  | .cons n t rest, fs, os, ds, x, hn, hg, hf, hv, hx => by
    rw [FitsF] at hf
    rw [WFGF] at hg
    rw [decodeDF, repF, overlay_lookup]
    dsimp only
    rw [decodeDF_overlay r rest fs os ds x (List.nodup_cons.1 hn).2 hg.2 hf.2 hv
      fun m t' h => hx m t' (goField_cons hn h)]
    rw [hx n t (by rw [goField, if_pos rfl])]
    obtain ⟨o, s, hd, hs⟩ := hf.1
    cases h : ds.lookup n with
    | none => cases os.lookup n <;> rfl
    | some d =>
      dsimp only [Option.getD]
      cases ho : os.lookup n with
      | none => rw [repO, decodeD_zero r t s d hg.1 hs (valid_decl hv hd h)]
      | some o => rw [repO, decodeD_overlay r t s o d hg.1 hs (valid_decl hv hd h)]
end

/-! ## C185 -/

/-- **C185**.  BindType returns a typed schema exactly if its argument is a pointer to a struct that
is not nil and the rules of assignability hold; the typed schema is that of the arguments. -/
theorem C185_bound_iff {r : Bool} {s : S} {T : GT} {x : GV} (hs : WF s) (hT : WFG T)
    (ts : TypedSch) :
    (∃ N, ∀ n ≥ N, (bindType r n s T x).1 = .ok ts) ↔
      ts = ⟨s, T⟩ ∧ ∃ gs y, T = .ptr (.st gs) ∧ x = .ptr (some y) ∧
        Rules obs False (.go (.st gs)) (.sch s) := by
  constructor
  · rintro ⟨N, h⟩
    obtain ⟨h1, h2, gs, y, rfl, rfl⟩ := C121_accepted_assignable hT (h N (Nat.le_refl _))
    refine ⟨h1, gs, y, rfl, rfl, ?_⟩
    obtain ⟨g, hg, hr⟩ := (C61_accepts_partial coherent _ _).1 ⟨N, h2⟩
    rcases hg with hg | hg <;> cases hg
    exact hr
  · rintro ⟨rfl, gs, y, rfl, rfl, hr⟩
    obtain ⟨N, hN⟩ := (C184_accepted_iff coherent (.sch s)
      (goVal (.ptr (.st gs)) (.ptr (some y)))).2 ⟨_, .inr rfl, hr⟩
    exact ⟨N, fun n hn => (C121_pointer_partial hs hT).2 (hN n hn)⟩

/-- **C185**.  For every instance, Value returns no error, and the Go value that holds the default of
the schema with the data of the instance written over it, and zero values elsewhere. -/
theorem C185_value {r : Bool} {n : Nat} {s : S} {T : GT} {x : GV} {ts : TypedSch} {d : D}
    (hs : WF s) (hT : WFG T) (h : (bindType r n s T x).1 = .ok ts) (hv : Valid s d) :
    ∃ d0, dflt s = some d0 ∧ ts.value r d = (rep T (overlay r d0 d), true) := by
  have he := C124_no_error hT h hv
  obtain ⟨d0, hd0, hn⟩ := C123_newT hs hT h
  obtain ⟨rfl, ha, _⟩ := C121_accepted_assignable hT h
  have hf := (fits_of_assignable hT ha).1
  refine ⟨d0, hd0, Prod.ext ?_ he⟩
  rw [TypedSch.value]
  dsimp only
  rw [hn, decodeD_overlay r T s d0 d hT hf hv]

/-- The instance `{l: [{}, {a: 3}]}` of `{l: [...{a: int | *5}] | *[{a: 7}, {a: 8}]}`: with a
decoder that reuses slices the first element has the value of the replaced default. -/
def staleSchema : S := .st (.cons "l".toList false
  (.olist (tvElem 5) [.st [("a".toList, .con .int 7)], .st [("a".toList, .con .int 8)]]) .nil)
def staleType : GT := .ptr (.st (.cons "l".toList (.slice tvGoElem) .nil))
def staleData : D := .st [("l".toList, .list [.st [], .st [("a".toList, .con .int 3)]])]

theorem stale_wf : WF staleSchema := by
  simp [staleSchema, tvElem, WF, WFF, names, Valid, ValidF, List.lookup]

theorem stale_valid : Valid staleSchema staleData := by
  simp [staleSchema, staleData, tvElem, Valid, ValidF, names, List.lookup, mayOmit]

theorem stale_bound (r : Bool) : (bindType r 9 staleSchema staleType (.ptr (some (.st [])))).1 =
    .ok ⟨staleSchema, staleType⟩ :=
  (C121_pointer_partial stale_wf (by simp [WFG, WFGF, gnames, tvGoElem])).2 (by rfl)

example : (⟨staleSchema, staleType⟩ : TypedSch).value true staleData =
    (.ptr (some (.st [("l".toList, .slice (some [.st [("a".toList, .scal 7)],
      .st [("a".toList, .scal 3)]]))])), true) := by
  obtain ⟨d0, h0, h⟩ := C185_value stale_wf
    (by simp [staleType, WFG, WFGF, gnames, tvGoElem]) (stale_bound true) stale_valid
  rw [h]
  cases h0
  rfl

example : ∃ N, ∀ n ≥ N, (bindType true n tvSchema (.ptr (.st tvFields)) tvArg).1 =
    .ok ⟨tvSchema, .ptr (.st tvFields)⟩ := by
  obtain ⟨g, hg, hr⟩ := (C61_accepts_partial coherent _ _).1 ⟨9, tvSchema_assignable⟩
  refine (C185_bound_iff tvSchema_wf tvFields_wf _).2 ⟨rfl, tvFields, _, rfl, rfl, ?_⟩
  rcases hg with hg | hg <;> cases hg
  exact hr

end Thema.Props

import Verif.Spec.JSchemaExact
import Verif.Lemmas.JSchema

/-!
# The JSON Schema document, exactly (C196)
-/

namespace Thema.Props

open Thema.JSchema

/-- How a scan fails whose first fault is `f`. -/
private def ScanFails {α : Type} (b f : Bool) (r : Res α) : Prop :=
  ((r = .err ⟨[]⟩ ∧ (b = true ∨ f = false)) ∨ (r = .panic .explicit ∧ f = true)) ∧
    (b = true → f = true)

private theorem ScanFails.bind {α β : Type} {b f : Bool} {r : Res α} (h : ScanFails b f r)
    (g : α → Res β) : ScanFails b f (r.bind g) := by
  obtain ⟨h | h, h2⟩ := h
  · exact ⟨Or.inl ⟨by rw [h.1]; rfl, h.2⟩, h2⟩
  · exact ⟨Or.inr ⟨by rw [h.1]; rfl, h.2⟩, h2⟩

private theorem ScanFails.map {α β : Type} {b f : Bool} {r : Res α} (h : ScanFails b f r)
    (g : α → β) : ScanFails b f (r.map g) := h.bind _

/-- The outcome of a scan with the given faults. -/
private def ScanOut {α : Type} (b : Bool) (fs : List Bool) (r : Res α) (P : α → Prop) : Prop :=
  (fs = [] ∧ ∃ a, r = .ok a ∧ P a) ∨ (∃ f rest, fs = f :: rest ∧ ScanFails b f r)

private theorem ScanOut.map {α β : Type} {b : Bool} {fs : List Bool} {r : Res α} {P : α → Prop}
    {Q : β → Prop} (h : ScanOut b fs r P) (g : α → β) (hg : ∀ a, P a → Q (g a)) :
    ScanOut b fs (r.map g) Q := by
  rcases h with ⟨h, a, ha, hp⟩ | ⟨f, rest, h, hf⟩
  · exact Or.inl ⟨h, g a, by rw [ha]; rfl, hg a hp⟩
  · exact Or.inr ⟨f, rest, h, hf.map g⟩

private theorem ScanOut.seq {α β : Type} {b : Bool} {fs gs : List Bool} {r : Res α}
    {P : α → Prop} {k : α → Res β} {Q : β → Prop} (h : ScanOut b fs r P)
    (hk : ∀ a, P a → ScanOut b gs (k a) Q) : ScanOut b (fs ++ gs) (r.bind k) Q := by
  rcases h with ⟨h, a, ha, hp⟩ | ⟨f, rest, h, hf⟩
  · rw [h, ha]; exact hk a hp
  · exact Or.inr ⟨f, rest ++ gs, by rw [h]; rfl, hf.bind k⟩

/-- The fields after the parts have been scanned (what is left is the clean-up). -/
private inductive Scanned : List String → List Node → List Node → Prop
  | nil (ks : List String) : Scanned ks [] []
  | part (ks : List String) (k : String) (x x' : Node) (es es' : List Node) (hk : k ∈ ks)
      (h : Converted true x x') (hs : Scanned (ks.filter (· ≠ k)) es es') :
      Scanned ks (.field (.str k) x :: es) (.field (.str k) x' :: es')
  | kept (ks : List String) (k : String) (x : Node) (es es' : List Node) (hk : k ∉ ks)
      (hs : Scanned ks es es') : Scanned ks (.field (.str k) x :: es) (.field (.str k) x :: es')
  | other (ks : List String) (e : Node) (es es' : List Node)
      (he : ∀ k x, e ≠ .field (.str k) x) (hs : Scanned ks es es') :
      Scanned ks (e :: es) (e :: es')

private theorem scanned_keywords {ks : List String} {es es' : List Node} (h : Scanned ks es es')
    (n : Bool) (hks : ∀ k ∈ ks, k ∉ ownKeywords ∧ k ≠ "type") :
    Keywords ks n es (es'.filterMap (fixElt n)) := by
  induction h with
  | nil ks => exact Keywords.nil ks n
  | part ks k x x' es es' hk h hs ih =>
    have hfix : fixElt n (.field (.str k) x') = some (.field (.str k) x') := by
      unfold fixElt
      dsimp only
      rw [show dropped = ownKeywords from rfl]
      rw [if_neg (hks k hk).1, if_neg (fun hc => (hks k hk).2 hc.1)]
    rw [List.filterMap_cons, hfix]
    exact Keywords.part ks n k x x' es _ hk h
      (ih (fun k' hk' => hks k' (List.mem_filter.mp hk').1))
  | kept ks k x es es' hk hs ih =>
    by_cases h1 : k ∈ ownKeywords
    · have hfix : fixElt n (.field (.str k) x) = none := by
        unfold fixElt
        dsimp only
        rw [show dropped = ownKeywords from rfl]
        rw [if_pos h1]
      rw [List.filterMap_cons, hfix]
      exact Keywords.gone ks n k x es _ h1 (ih hks)
    · by_cases h2 : k = "type" ∧ n = true ∧ typeContains x "null" = false
      · have hfix : fixElt n (.field (.str k) x) =
            some (.field (.str k) (.list [x, .str "null"])) := by
          unfold fixElt
          dsimp only
          rw [show dropped = ownKeywords from rfl]
          rw [if_neg h1, if_pos h2]
        rw [List.filterMap_cons, hfix]
        obtain ⟨rfl, rfl, h3⟩ := h2
        refine Keywords.orNull ks x es _ ?_ (ih hks)
        rintro rfl
        simp [typeContains] at h3
      · have hfix : fixElt n (.field (.str k) x) = some (.field (.str k) x) := by
          unfold fixElt
          dsimp only
          rw [show dropped = ownKeywords from rfl]
          rw [if_neg h1, if_neg h2]
        rw [List.filterMap_cons, hfix]
        refine Keywords.kept ks n k x es _ h1 hk ?_ (ih hks)
        by_cases hk1 : k = "type"
        · cases n with
          | false => exact Or.inr (Or.inl rfl)
          | true =>
            refine Or.inr (Or.inr ?_)
            have : typeContains x "null" = true := by
              cases ht : typeContains x "null" with
              | true => rfl
              | false => exact absurd ⟨hk1, rfl, ht⟩ h2
            cases x with
            | str s => simp [typeContains] at this; rw [this]
            | _ => simp [typeContains] at this
        · exact Or.inl hk1
  | other ks e es es' he hs ih =>
    have hfix : fixElt n e = some e := by
      cases e with
      | field l v =>
        cases l with
        | str s => exact absurd rfl (he s v)
        | ident s => rfl
      | _ => rfl
    rw [List.filterMap_cons, hfix]
    exact Keywords.other ks n e es _ he (ih hks)

private theorem childLabels_known {t : String} (h : t ∈ knownTypes) :
    childLabels t = some (partKeys t) := by
  simp only [knownTypes, List.mem_cons, List.not_mem_nil, or_false] at h
  rcases h with rfl | rfl | rfl | rfl | rfl | rfl <;> rfl

private theorem childLabels_unknown {t : String} (h : t ∉ knownTypes) :
    childLabels t = none := by
  simp only [knownTypes, List.mem_cons, List.not_mem_nil, or_false, not_or] at h
  simp [childLabels, h]

private theorem partKeys_other (t : String) : ∀ k ∈ partKeys t, k ∉ ownKeywords ∧ k ≠ "type" := by
  intro k hk
  unfold partKeys at hk
  split at hk
  · simp only [List.mem_cons, List.not_mem_nil, or_false] at hk
    rcases hk with rfl | rfl <;> decide
  · split at hk
    · simp only [List.mem_cons, List.not_mem_nil, or_false] at hk
      subst hk; decide
    · cases hk

private theorem schemaType_stated (es : List Node) :
    (statedType es = none ∧ schemaType es = none) ∨
    (∃ t s, statedType es = some t ∧ schemaType es = some s ∧
      childLabels s = if t ∈ knownTypes then some (partKeys t) else none) := by
  unfold statedType schemaType
  rw [getField_eq_lookupLit]
  cases h : lookupLit es "type" with
  | none => exact Or.inl ⟨rfl, rfl⟩
  | some x =>
    cases x with
    | str t =>
      refine Or.inr ⟨t, _, rfl, rfl, ?_⟩
      by_cases h0 : t = ""
      · subst h0; rfl
      · rw [if_neg h0]
        by_cases hk : t ∈ knownTypes
        · rw [if_pos hk, childLabels_known hk]
        · rw [if_neg hk, childLabels_unknown hk]
    | lit t =>
      refine Or.inr ⟨t, _, rfl, rfl, ?_⟩
      by_cases hk : t ∈ knownTypes
      · rw [if_pos hk, childLabels_known hk]
      · rw [if_neg hk, childLabels_unknown hk]
    | list _ => exact Or.inl ⟨rfl, rfl⟩
    | struct _ => exact Or.inl ⟨rfl, rfl⟩
    | field _ _ => exact Or.inl ⟨rfl, rfl⟩
    | file _ => exact Or.inl ⟨rfl, rfl⟩

private theorem checkNull_says (es : List Node) : checkNull es = saysNullable es := by
  unfold checkNull saysNullable
  rw [getField_eq_lookupLit]
  cases lookupLit es "nullable" with
  | none => rfl
  | some x =>
    cases x with
    | lit t =>
      by_cases h : t = "true"
      · subst h; rfl
      · simp [h]
    | _ => rfl

mutual
private theorem scan_out (b : Bool) : ∀ n, ScanOut b (faults b n) (scan b n) (Converted b n)
  | .str s => Or.inl ⟨by simp [faults], _, by rw [scan], Converted.str b s⟩
  | .lit t => Or.inl ⟨by simp [faults], _, by rw [scan], Converted.lit b t⟩
  | .field l x => by
    rw [faults, scan]
    exact (scan_out b x).map _ (fun x' h => Converted.field b l x x' h)
  | .list es => by
    rw [faults, scan]
    exact (scanList_out b es).map _ (fun es' h => Converted.list b es es' h)
  | .file es => by
    rw [faults, scan]
    exact (scanList_out b es).map _ (fun es' h => Converted.file b es es' h)
  | .struct es => by
    rw [faults, scan]
    rcases schemaType_stated es with ⟨h1, h2⟩ | ⟨t, s, h1, h2, h3⟩
    · rw [h1, h2]
      exact (scanList_out b es).map _ (fun es' h => Converted.untyped b es es' h1 h)
    · rw [h1, h2]
      dsimp only
      by_cases hk : t ∈ knownTypes
      · rw [if_pos hk] at h3
        rw [h3, if_pos hk]
        dsimp only
        rcases scanChildren_out (partKeys t) es with ⟨h, es', he, hs⟩ | ⟨f, rest, h, hf⟩
        · refine Or.inl ⟨h, _, by rw [he]; rfl, ?_⟩
          have := scanned_keywords hs (checkNull es) (partKeys_other t)
          rw [checkNull_says] at this
          unfold cleanup
          dsimp only
          rw [checkNull_says]
          cases b with
          | true => exact Converted.inner es _ t h1 hk this
          | false => exact Converted.outer es _ t h1 hk this
        · refine Or.inr ⟨f, rest, h, ?_⟩
          have hft : f = true := hf.2 rfl
          refine ScanFails.map ⟨Or.inr ⟨?_, hft⟩, fun _ => hft⟩ _
          rcases hf.1 with h | h <;> rw [h.1] <;> rfl
      · rw [if_neg hk] at h3
        rw [h3, if_neg hk]
        refine Or.inr ⟨b, [], rfl, Or.inl ⟨rfl, ?_⟩, fun h => h⟩
        cases b with
        | true => exact Or.inl rfl
        | false => exact Or.inr rfl
private theorem scanList_out (b : Bool) :
    ∀ es, ScanOut b (faultsL b es) (scanList b es) (ConvertedL b es)
  | [] => Or.inl ⟨by simp [faultsL], _, by rw [scanList], ConvertedL.nil b⟩
  | e :: es => by
    rw [faultsL, scanList]
    exact (scan_out b e).seq fun e' he =>
      (scanList_out b es).map _ (fun es' h => ConvertedL.cons b e e' es es' he h)
private theorem scanChildren_out : ∀ (ks : List String) (es : List Node),
    ScanOut true (faultsP ks es) (scanChildren ks es) (Scanned ks es)
  | ks, [] => Or.inl ⟨by simp [faultsP], _, by rw [scanChildren], Scanned.nil ks⟩
  | ks, .field (.str k) x :: es => by
    rw [faultsP, scanChildren]
    by_cases hk : k ∈ ks
    · rw [if_pos hk, if_pos hk]
      exact (scan_out true x).seq fun x' hx => (scanChildren_out (ks.filter (· ≠ k)) es).map _
        (fun es' h => Scanned.part ks k x x' es es' hk hx h)
    · rw [if_neg hk, if_neg hk]
      exact (scanChildren_out ks es).map _ (fun es' h => Scanned.kept ks k x es es' hk h)
  | ks, .field (.ident k) x :: es => by
    rw [faultsP, scanChildren]
    · exact (scanChildren_out ks es).map _
        (fun es' h => Scanned.other ks _ es es' (by nofun) h)
    all_goals nofun
  | ks, .str s :: es => by
    rw [faultsP, scanChildren]
    · exact (scanChildren_out ks es).map _
        (fun es' h => Scanned.other ks _ es es' (by nofun) h)
    all_goals nofun
  | ks, .lit s :: es => by
    rw [faultsP, scanChildren]
    · exact (scanChildren_out ks es).map _
        (fun es' h => Scanned.other ks _ es es' (by nofun) h)
    all_goals nofun
  | ks, .list s :: es => by
    rw [faultsP, scanChildren]
    · exact (scanChildren_out ks es).map _
        (fun es' h => Scanned.other ks _ es es' (by nofun) h)
    all_goals nofun
  | ks, .struct s :: es => by
    rw [faultsP, scanChildren]
    · exact (scanChildren_out ks es).map _
        (fun es' h => Scanned.other ks _ es es' (by nofun) h)
    all_goals nofun
  | ks, .file s :: es => by
    rw [faultsP, scanChildren]
    · exact (scanChildren_out ks es).map _
        (fun es' h => Scanned.other ks _ es es' (by nofun) h)
    all_goals nofun
end

private theorem fixElt_gone {n : Bool} {k : String} {x : Node} (h : k ∈ ownKeywords) :
    fixElt n (.field (.str k) x) = none := by
  unfold fixElt
  dsimp only
  rw [show dropped = ownKeywords from rfl, if_pos h]

private theorem fixElt_kept {n : Bool} {k : String} {x : Node} (h : k ∉ ownKeywords)
    (h2 : k ≠ "type" ∨ n = false ∨ x = .str "null") :
    fixElt n (.field (.str k) x) = some (.field (.str k) x) := by
  unfold fixElt
  dsimp only
  rw [show dropped = ownKeywords from rfl, if_neg h, if_neg]
  rintro ⟨h3, h4, h5⟩
  rcases h2 with h2 | h2 | h2
  · exact h2 h3
  · rw [h4] at h2; cases h2
  · rw [h2] at h5; simp [typeContains] at h5

private theorem fixElt_orNull {x : Node} (h : x ≠ .str "null") :
    fixElt true (.field (.str "type") x) =
      some (.field (.str "type") (.list [x, .str "null"])) := by
  unfold fixElt
  dsimp only
  rw [show dropped = ownKeywords from rfl, if_neg (by decide), if_pos]
  refine ⟨rfl, rfl, ?_⟩
  cases x with
  | str s =>
    simp only [typeContains, beq_eq_false_iff_ne]
    rintro rfl
    exact h rfl
  | _ => rfl

private theorem fixElt_other {n : Bool} {e : Node} (he : ∀ k x, e ≠ .field (.str k) x) :
    fixElt n e = some e := by
  cases e with
  | field l v =>
    cases l with
    | str s => exact absurd rfl (he s v)
    | ident s => rfl
  | _ => rfl

private theorem scanChildren_other {ks : List String} {e : Node} {es : List Node}
    (he : ∀ k x, e ≠ .field (.str k) x) :
    scanChildren ks (e :: es) = (scanChildren ks es).map (e :: ·) := by
  rw [scanChildren]
  intro k v h
  exact he k v h

mutual
private theorem converted_scan (b : Bool) : ∀ n a, Converted b n a → scan b n = .ok a
  | .str s, a, h => by cases h; rw [scan]
  | .lit t, a, h => by cases h; rw [scan]
  | .field l x, a, h => by
    cases h with
    | field _ _ _ x' h => rw [scan, converted_scan b x x' h]; rfl
  | .list es, a, h => by
    cases h with
    | list _ _ es' h => rw [scan, convertedL_scan b es es' h]; rfl
  | .file es, a, h => by
    cases h with
    | file _ _ es' h => rw [scan, convertedL_scan b es es' h]; rfl
  | .struct es, a, h => by
    rw [scan]
    rcases schemaType_stated es with ⟨h1, h2⟩ | ⟨t, s, h1, h2, h3⟩
    · rw [h2]
      cases h with
      | untyped _ _ es' ht h => rw [convertedL_scan b es es' h]; rfl
      | inner _ es' t ht hk h => rw [h1] at ht; cases ht
      | outer _ es' t ht hk h => rw [h1] at ht; cases ht
    · rw [h2]
      cases h with
      | untyped _ _ es' ht h => rw [h1] at ht; cases ht
      | inner _ es' t' ht hk h =>
        rw [h1] at ht
        cases ht
        rw [if_pos hk] at h3
        dsimp only
        rw [h3]
        obtain ⟨es1, h4, h5⟩ := keywords_scan (partKeys t) (saysNullable es) es es'
          (partKeys_other t) h
        dsimp only
        rw [h4, ← h5, ← checkNull_says]
        rfl
      | outer _ es' t' ht hk h =>
        rw [h1] at ht
        cases ht
        rw [if_pos hk] at h3
        dsimp only
        rw [h3]
        obtain ⟨es1, h4, h5⟩ := keywords_scan (partKeys t) (saysNullable es) es es'
          (partKeys_other t) h
        dsimp only
        rw [h4, ← h5, ← checkNull_says]
        rfl
private theorem convertedL_scan (b : Bool) :
    ∀ es es', ConvertedL b es es' → scanList b es = .ok es'
  | [], _, h => by cases h; rw [scanList]
  | e :: es, _, h => by
    cases h with
    | cons _ _ e' _ es' h hs =>
      rw [scanList, converted_scan b e e' h, Res.bind_ok, convertedL_scan b es es' hs]; rfl
private theorem keywords_scan : ∀ (ks : List String) (n : Bool) (es es' : List Node),
    (∀ k ∈ ks, k ∉ ownKeywords ∧ k ≠ "type") → Keywords ks n es es' →
    ∃ es1, scanChildren ks es = .ok es1 ∧ es1.filterMap (fixElt n) = es'
  | ks, n, [], _, _, h => by cases h; exact ⟨[], by rw [scanChildren], rfl⟩
  | ks, n, .field l x :: es, es', hks, h => by
    cases h with
    | gone _ _ k _ _ _ hk hs =>
      have hn : k ∉ ks := fun hc => (hks k hc).1 hk
      obtain ⟨es1, h1, h2⟩ := keywords_scan ks n es es' hks hs
      refine ⟨_, by rw [scanChildren, if_neg hn, h1]; rfl, ?_⟩
      rw [List.filterMap_cons, fixElt_gone hk]; exact h2
    | part _ _ k _ x' _ es'' hk h hs =>
      obtain ⟨es1, h1, h2⟩ := keywords_scan (ks.filter (· ≠ k)) n es es''
        (fun k' hk' => hks k' (List.mem_filter.mp hk').1) hs
      refine ⟨.field (.str k) x' :: es1, ?_, ?_⟩
      · rw [scanChildren, if_pos hk, converted_scan true x x' h, Res.bind_ok, h1]; rfl
      · rw [List.filterMap_cons, fixElt_kept (hks k hk).1 (Or.inl (hks k hk).2), h2]
    | orNull _ _ _ es'' hx hs =>
      have hn : "type" ∉ ks := fun hc => (hks _ hc).2 rfl
      obtain ⟨es1, h1, h2⟩ := keywords_scan ks true es es'' hks hs
      refine ⟨_, by rw [scanChildren, if_neg hn, h1]; rfl, ?_⟩
      rw [List.filterMap_cons, fixElt_orNull hx]; rw [h2]
    | kept _ _ k _ _ es'' h1 h2 h3 hs =>
      obtain ⟨es1, h4, h5⟩ := keywords_scan ks n es es'' hks hs
      refine ⟨_, by rw [scanChildren, if_neg h2, h4]; rfl, ?_⟩
      rw [List.filterMap_cons, fixElt_kept h1 h3]; rw [h5]
    | other _ _ _ _ es'' he hs =>
      obtain ⟨es1, h4, h5⟩ := keywords_scan ks n es es'' hks hs
      refine ⟨_, by rw [scanChildren_other he, h4]; rfl, ?_⟩
      rw [List.filterMap_cons, fixElt_other he]; rw [h5]
  | ks, n, .str s :: es, es', hks, h => by
    cases h with
    | other _ _ _ _ es'' he hs =>
      obtain ⟨es1, h4, h5⟩ := keywords_scan ks n es es'' hks hs
      refine ⟨_, by rw [scanChildren_other he, h4]; rfl, ?_⟩
      rw [List.filterMap_cons, fixElt_other he]; rw [h5]
  | ks, n, .lit s :: es, es', hks, h => by
    cases h with
    | other _ _ _ _ es'' he hs =>
      obtain ⟨es1, h4, h5⟩ := keywords_scan ks n es es'' hks hs
      refine ⟨_, by rw [scanChildren_other he, h4]; rfl, ?_⟩
      rw [List.filterMap_cons, fixElt_other he]; rw [h5]
  | ks, n, .list s :: es, es', hks, h => by
    cases h with
    | other _ _ _ _ es'' he hs =>
      obtain ⟨es1, h4, h5⟩ := keywords_scan ks n es es'' hks hs
      refine ⟨_, by rw [scanChildren_other he, h4]; rfl, ?_⟩
      rw [List.filterMap_cons, fixElt_other he]; rw [h5]
  | ks, n, .struct s :: es, es', hks, h => by
    cases h with
    | other _ _ _ _ es'' he hs =>
      obtain ⟨es1, h4, h5⟩ := keywords_scan ks n es es'' hks hs
      refine ⟨_, by rw [scanChildren_other he, h4]; rfl, ?_⟩
      rw [List.filterMap_cons, fixElt_other he]; rw [h5]
  | ks, n, .file s :: es, es', hks, h => by
    cases h with
    | other _ _ _ _ es'' he hs =>
      obtain ⟨es1, h4, h5⟩ := keywords_scan ks n es es'' hks hs
      refine ⟨_, by rw [scanChildren_other he, h4]; rfl, ?_⟩
      rw [List.filterMap_cons, fixElt_other he]; rw [h5]
end

/-- C196.  From any OpenAPI document, the document that is returned is the one that
`Converted` describes, and there is no other way for the generator to return. -/
theorem C196_document (d d' : Node) :
    generateSchema (.ok d) = .ok d' ↔ Converted false d d' := by
  constructor
  · intro h
    rcases scan_out false d with ⟨_, a, ha, hp⟩ | ⟨f, rest, _, hf⟩
    · have h' : scan false d = .ok d' := h
      rw [ha] at h'
      cases h'
      exact hp
    · have h' : scan false d = .ok d' := h
      rcases hf.1 with hf | hf <;> · rw [hf.1] at h'; cases h'
  · intro h
    exact converted_scan false d d' h

/-- C196.  When it returns a document: exactly when it comes across no schema of unknown
type.  If it does, the first of them decides: an error if it lies inside of no typed schema,
a panic otherwise. -/
theorem C196_outcome (d : Node) :
    ((∃ d', generateSchema (.ok d) = .ok d') ↔ faults false d = []) ∧
    (generateSchema (.ok d) = .err ⟨[]⟩ ↔ ∃ rest, faults false d = false :: rest) ∧
    (generateSchema (.ok d) = .panic .explicit ↔ ∃ rest, faults false d = true :: rest) := by
  show ((∃ d', scan false d = .ok d') ↔ _) ∧ (scan false d = _ ↔ _) ∧ (scan false d = _ ↔ _)
  rcases scan_out false d with ⟨h, a, ha, hp⟩ | ⟨f, rest, h, hf⟩
  · rw [ha, h]
    exact ⟨⟨fun _ => rfl, fun _ => ⟨a, rfl⟩⟩, ⟨nofun, nofun⟩, ⟨nofun, nofun⟩⟩
  · rw [h]
    rcases hf.1 with ⟨h1, h2⟩ | ⟨h1, h2⟩
    · have hff : f = false := h2.resolve_left (by nofun)
      subst hff
      rw [h1]
      exact ⟨⟨nofun, nofun⟩, ⟨fun _ => ⟨rest, rfl⟩, fun _ => rfl⟩, ⟨nofun, by rintro ⟨_, h⟩; cases h⟩⟩
    · subst h2
      rw [h1]
      exact ⟨⟨nofun, nofun⟩, ⟨nofun, by rintro ⟨_, h⟩; cases h⟩, ⟨fun _ => ⟨rest, rfl⟩, fun _ => rfl⟩⟩

/-- C196.  The description leaves nothing open. -/
theorem C196_unique (d d₁ d₂ : Node) (h₁ : Converted false d d₁) (h₂ : Converted false d d₂) :
    d₁ = d₂ := by
  have := (C196_document d d₁).mpr h₁
  rw [(C196_document d d₂).mpr h₂] at this
  cases this
  rfl

/-- A document with a nullable object in which one part is nullable, and one with a
bad type. -/
def jsxDoc : Node :=
  .file [.field (.str "components") (.struct [.field (.str "schemas") (.struct [
    .field (.str "A") (.struct [
      .field (.str "type") (.str "object"),
      .field (.str "nullable") (.lit "true"),
      .field (.str "properties") (.struct [
        .field (.str "x") (.struct [
          .field (.str "description") (.str "an x"),
          .field (.str "readOnly") (.lit "true"),
          .field (.str "type") (.str "string")])])])])])]

def jsxOut : Node :=
  .file [.field (.str "components") (.struct [.field (.str "schemas") (.struct [
    .field (.str "A") (.struct [
      .field (.str "type") (.list [.str "object", .str "null"]),
      .field (.str "properties") (.struct [
        .field (.str "x") (.struct [
          .field (.str "description") (.str "an x"),
          .field (.str "type") (.str "string")])]),
      .field (.str "$schema") (.str "http://json-schema.org/draft-04/schema#")])])])]

example : Converted false jsxDoc jsxOut := (C196_document _ _).mp (by rfl)
example : faults false jsxDoc = [] := by rfl
example : faults false (.file [
    .struct [.field (.str "type") (.str "array"),
      .field (.str "items") (.struct [.field (.str "type") (.str "null")])],
    .struct [.field (.str "type") (.str "any")]]) = [true, false] := by rfl

end Thema.Props

import Mathlib.Data.List.Forall2
import Verif.Spec.JSchema

/-!
# Lemmas about the rewriting of OpenAPI into JSON Schema
-/

namespace Thema.JSchema

theorem getField_eq_lookupLit (es : List Node) (k : String) : getField es k = lookupLit es k := by
  induction es with
  | nil => rfl
  | cons e es ih =>
    cases e with
    | field l x => cases l <;> simp [getField, lookupLit, ih]
    | _ => simp [getField, lookupLit, ih]

theorem checkNull_eq (es : List Node) : checkNull es = nullable es := by
  unfold checkNull nullable
  rw [getField_eq_lookupLit]
  cases lookupLit es "nullable" with
  | none => rfl
  | some x =>
    cases x with
    | lit t =>
      by_cases h : t = "true"
      · subst h; rfl
      · simp [h]
    | _ => rfl

theorem lacksL_lookup {k : String} : ∀ {es : List Node}, lacksL k es = true → lookupLit es k = none := by
  intro es
  induction es with
  | nil => intro _; rfl
  | cons e es ih =>
    intro h
    simp only [lacksL, Bool.and_eq_true] at h
    cases e with
    | field l x =>
      cases l with
      | str s =>
        have h1 : s ≠ k := by
          intro hs; subst hs; simp [lacks] at h
        simp [lookupLit, h1, ih h.2]
      | ident s => simp [lookupLit, ih h.2]
    | _ => simp [lookupLit, ih h.2]

mutual
/-- What has no field `type` inside is not touched. -/
theorem scan_lacks (b : Bool) : ∀ (x : Node), lacks "type" x = true → scan b x = .ok x
  | .str _, _ => by simp [scan]
  | .lit _, _ => by simp [scan]
  | .list es, h => by simp [scan, scanList_lacks b es (by simpa [lacks] using h)]
  | .file es, h => by simp [scan, scanList_lacks b es (by simpa [lacks] using h)]
  | .struct es, h => by
    have h' : lacksL "type" es = true := by simpa [lacks] using h
    have hs : schemaType es = none := by
      simp [schemaType, getField_eq_lookupLit, lacksL_lookup h']
    simp [scan, hs, scanList_lacks b es h']
  | .field l x, h => by
    have h' : lacks "type" x = true := by
      simp only [lacks, Bool.and_eq_true] at h; exact h.2
    simp [scan, scan_lacks b x h']
theorem scanList_lacks (b : Bool) : ∀ (es : List Node), lacksL "type" es = true → scanList b es = .ok es
  | [], _ => by simp [scanList]
  | e :: es, h => by
    simp only [lacksL, Bool.and_eq_true] at h
    simp [scanList, scan_lacks b e h.1, scanList_lacks b es h.2]
end

/-- Two fields with the same literal label, the second's value being related to the
first's. -/
def Rel (P : String → Node → Node → Prop) (e e' : Node) : Prop :=
  ∃ k x x', e = .field (.str k) x ∧ e' = .field (.str k) x' ∧ P k x x'

theorem map_ok_inv {α β : Type} {r : Res α} {f : α → β} {b : β} (h : r.map f = .ok b) :
    ∃ a, r = .ok a ∧ b = f a := by
  cases r <;> simp_all

theorem bind_ok_inv {α β : Type} {r : Res α} {f : α → Res β} {b : β} (h : r.bind f = .ok b) :
    ∃ a, r = .ok a ∧ f a = .ok b := by
  cases r <;> simp_all

theorem scanList_rel (b : Bool) : ∀ (es es' : List Node),
    (∀ e ∈ es, ∃ k x, e = .field (.str k) x) → scanList b es = .ok es' →
    List.Forall₂ (Rel fun _ x x' => scan b x = .ok x') es es' := by
  intro es
  induction es with
  | nil =>
    intro es' _ h
    simp [scanList] at h; subst h; exact .nil
  | cons e es ih =>
    intro es' hl h
    obtain ⟨k, x, rfl⟩ := hl e (by simp)
    simp only [scanList] at h
    obtain ⟨e1, h1, h2⟩ := bind_ok_inv h
    obtain ⟨es1, h3, rfl⟩ := map_ok_inv h2
    simp only [scan] at h1
    obtain ⟨x1, h4, rfl⟩ := map_ok_inv h1
    exact .cons ⟨k, x, x1, rfl, rfl, h4⟩ (ih es1 (fun e he => hl e (by simp [he])) h3)

theorem scanList_map (b : Bool) : ∀ (es es' : List Node),
    scanList b es = .ok es' → List.Forall₂ (fun x x' => scan b x = .ok x') es es' := by
  intro es
  induction es with
  | nil =>
    intro es' h
    simp [scanList] at h; subst h; exact .nil
  | cons e es ih =>
    intro es' h
    simp only [scanList] at h
    obtain ⟨e1, h1, h2⟩ := bind_ok_inv h
    obtain ⟨es1, h3, rfl⟩ := map_ok_inv h2
    exact .cons h1 (ih es1 h3)

theorem scanChildren_rel : ∀ (es es' : List Node) (ls : List String),
    (∀ e ∈ es, ∃ k x, e = .field (.str k) x) → (es.map labelOf).Nodup →
    scanChildren ls es = .ok es' →
    List.Forall₂ (Rel fun k x x' => (k ∈ ls → scan true x = .ok x') ∧ (k ∉ ls → x' = x)) es es' := by
  intro es
  induction es with
  | nil =>
    intro es' ls _ _ h
    simp [scanChildren] at h; subst h; exact .nil
  | cons e es ih =>
    intro es' ls hl hn h
    obtain ⟨k, x, rfl⟩ := hl e (by simp)
    have hl' : ∀ e ∈ es, ∃ k x, e = .field (.str k) x := fun e he => hl e (by simp [he])
    simp only [List.map_cons, labelOf, List.nodup_cons] at hn
    simp only [scanChildren] at h
    split at h
    next hk =>
      obtain ⟨x1, h1, h2⟩ := bind_ok_inv h
      obtain ⟨es1, h3, rfl⟩ := map_ok_inv h2
      refine .cons ⟨k, x, x1, rfl, rfl, fun _ => h1, fun hc => absurd hk hc⟩ ?_
      have hr := ih es1 _ hl' hn.2 h3
      -- the label does not come again, so removing it from the list is harmless
      have hk' : ∀ e ∈ es, labelOf e ≠ some k := by
        intro e he hc
        exact hn.1 (List.mem_map.mpr ⟨e, he, hc⟩)
      clear ih h h1 h2 h3 hn hl hl'
      induction hr with
      | nil => exact .nil
      | cons hhd _ iht =>
        refine .cons ?_ (iht (fun e he => hk' e (by simp [he])))
        obtain ⟨k2, y, y', rfl, rfl, ha, hb⟩ := hhd
        have hne : k2 ≠ k := fun hc => hk' _ (List.mem_cons_self ..) (by simp [labelOf, hc])
        refine ⟨k2, y, y', rfl, rfl, fun hm => ha ?_, fun hm => hb ?_⟩
        · simp [hm, hne]
        · simp [hm]
    next hk =>
      obtain ⟨es1, h3, rfl⟩ := map_ok_inv h
      exact .cons ⟨k, x, x, rfl, rfl, fun hc => absurd hc hk, fun _ => rfl⟩ (ih es1 ls hl' hn.2 h3)

/-- Looking a label up in related lists. -/
theorem lookup_rel {P : String → Node → Node → Prop} {es es' : List Node}
    (h : List.Forall₂ (Rel P) es es') (k : String) :
    (lookupLit es k = none ∧ lookupLit es' k = none) ∨
    ∃ x x', lookupLit es k = some x ∧ lookupLit es' k = some x' ∧ P k x x' ∧
      .field (.str k) x ∈ es := by
  induction h with
  | nil => left; exact ⟨rfl, rfl⟩
  | cons hhd _ ih =>
    obtain ⟨k2, y, y', rfl, rfl, hp⟩ := hhd
    by_cases hk : k2 = k
    · subst hk
      right
      exact ⟨y, y', by simp [lookupLit], by simp [lookupLit], hp, by simp⟩
    · rcases ih with ⟨h1, h2⟩ | ⟨x, x', h1, h2, h3, h4⟩
      · left; simp [lookupLit, hk, h1, h2]
      · right; exact ⟨x, x', by simp [lookupLit, hk, h1], by simp [lookupLit, hk, h2], h3, by simp [h4]⟩

/-- Related structs name the same things. -/
theorem names_rel {P : String → Node → Node → Prop} {es es' : List Node}
    (h : List.Forall₂ (Rel P) es es') :
    (es.filterMap fun p => match p with | .field (.str s) _ => some s | _ => none) =
    (es'.filterMap fun p => match p with | .field (.str s) _ => some s | _ => none) := by
  induction h with
  | nil => rfl
  | cons hhd _ ih =>
    obtain ⟨k2, y, y', rfl, rfl, hp⟩ := hhd
    simp [ih]

/-- Looking up a label that the clean-up neither drops nor changes. -/
theorem lookup_cleanup (b n : Bool) (es : List Node) (k : String)
    (h1 : k ∉ dropped) (h2 : k ≠ "type") (h3 : k ≠ "$schema") :
    lookupLit (cleanup b n es) k = lookupLit es k := by
  have hend : ∀ l, lookupLit (l ++ [schemaField]) k = lookupLit l k := by
    intro l
    induction l with
    | nil => simp [schemaField, lookupLit, Ne.symm h3]
    | cons e l ih =>
      cases e with
      | field la x => cases la <;> simp [lookupLit, ih]
      | _ => simp [lookupLit, ih]
  have hmain : lookupLit (es.filterMap (fixElt n)) k = lookupLit es k := by
    induction es with
    | nil => rfl
    | cons e es ih =>
      cases e with
      | field la x =>
        cases la with
        | str s =>
          simp only [List.filterMap_cons, fixElt]
          by_cases hd : s ∈ dropped
          · have : s ≠ k := fun hc => h1 (hc ▸ hd)
            simp [hd, lookupLit, this, ih]
          · simp only [if_neg hd]
            by_cases ht : s = "type" ∧ n = true ∧ typeContains x "null" = false
            · have : "type" ≠ k := Ne.symm h2
              rw [if_pos ht]
              obtain ⟨rfl, _, _⟩ := ht
              simp only [lookupLit, if_neg this]
              exact ih
            · simp only [if_neg ht, lookupLit]
              rw [ih]
        | ident s => simp [fixElt, lookupLit, ih]
      | _ => simp [fixElt, lookupLit, ih]
  unfold cleanup
  cases b
  · simp only [Bool.false_eq_true, if_false]; rw [hend, hmain]
  · simpa using hmain

theorem propNames_congr {P : String → Node → Node → Prop} {es es' : List Node}
    (h : List.Forall₂ (Rel P) es es')
    (hp : ∀ x x', P "properties" x x' → .field (.str "properties") x ∈ es →
      propNames [.field (.str "properties") x] = propNames [.field (.str "properties") x']) :
    propNames es = propNames es' := by
  rcases lookup_rel h "properties" with ⟨h1, h2⟩ | ⟨x, x', h1, h2, h3, h4⟩
  · simp [propNames, h1, h2]
  · have := hp x x' h3 h4
    simp only [propNames, lookupLit, if_true] at this
    simp [propNames, h1, h2, this]

/-! ## Acceptance -/

section
variable {C C' : String → Option Node} {other : String → Node → J → Bool} {V V' : Node → J → Bool}

theorem propsOk_congr {P : String → Node → Node → Prop} {ps ps' : List Node}
    (h : List.Forall₂ (Rel P) ps ps')
    (hv : ∀ k x x', P k x x' → .field (.str k) x ∈ ps → ∀ v, V' x' v = V x v) (v : J) :
    propsOk V' (.struct ps') v = propsOk V (.struct ps) v := by
  cases v with
  | obj ms =>
    simp only [propsOk]
    congr 1
    funext m
    rcases lookup_rel h m.1 with ⟨h1, h2⟩ | ⟨x, x', h1, h2, h3, h4⟩
    · simp [h1, h2]
    · simp [h1, h2, hv _ _ _ h3 h4]
  | _ => rfl

theorem additionalOk_congr {es es' : List Node} {x x' : Node} (hn : propNames es' = propNames es)
    (hv : ∀ v, V' x' v = V x v) (v : J) : additionalOk V' es' x' v = additionalOk V es x v := by
  cases v with
  | obj ms => simp [additionalOk, hn, hv]
  | _ => rfl

theorem itemsOk_congr {x x' : Node} (hv : ∀ v, V' x' v = V x v) (v : J) :
    itemsOk V' x' v = itemsOk V x v := by
  cases v with
  | arr xs => simp only [itemsOk]; congr 1; funext w; exact hv w
  | _ => rfl

theorem filter_len_congr {P : Node → Node → Prop} {ss ss' : List Node}
    (h : List.Forall₂ P ss ss') {p p' : Node → Bool}
    (hv : ∀ s s', P s s' → s ∈ ss → p' s' = p s) :
    (ss'.filter p').length = (ss.filter p).length := by
  induction h with
  | nil => rfl
  | cons hhd _ ih =>
    have ih' := ih (fun s s' hp hm => hv s s' hp (by simp [hm]))
    have := hv _ _ hhd (by simp)
    simp only [List.filter_cons, this]
    split <;> simp [ih']

theorem any_congr₂ {P : Node → Node → Prop} {ss ss' : List Node}
    (h : List.Forall₂ P ss ss') {p p' : Node → Bool}
    (hv : ∀ s s', P s s' → s ∈ ss → p' s' = p s) : ss'.any p' = ss.any p := by
  induction h with
  | nil => rfl
  | cons hhd _ ih =>
    have ih' := ih (fun s s' hp hm => hv s s' hp (by simp [hm]))
    simp only [List.any_cons, hv _ _ hhd (by simp), ih']

theorem all_congr₂ {P : Node → Node → Prop} {ss ss' : List Node}
    (h : List.Forall₂ P ss ss') {p p' : Node → Bool}
    (hv : ∀ s s', P s s' → s ∈ ss → p' s' = p s) : ss'.all p' = ss.all p := by
  induction h with
  | nil => rfl
  | cons hhd _ ih =>
    have ih' := ih (fun s s' hp hm => hv s s' hp (by simp [hm]))
    simp only [List.all_cons, hv _ _ hhd (by simp), ih']

theorem logicOk_list {P : Node → Node → Prop} {ss ss' : List Node} (k : String)
    (h : List.Forall₂ P ss ss') (hv : ∀ s s', P s s' → s ∈ ss → ∀ v, V' s' v = V s v) (v : J) :
    logicOk V' k (.list ss') v = logicOk V k (.list ss) v := by
  have hv' : ∀ s s', P s s' → s ∈ ss → V' s' v = V s v := fun s s' hp hm => hv s s' hp hm v
  simp only [logicOk]
  rw [filter_len_congr h hv', any_congr₂ h hv', all_congr₂ h hv']

theorem logicOk_struct {es es' : List Node} (k : String)
    (hv : ∀ v, V' (.struct es') v = V (.struct es) v) (v : J) :
    logicOk V' k (.struct es') v = logicOk V k (.struct es) v := by
  simp [logicOk, hv]

end

theorem all_filterMap {α β : Type} (l : List α) (h : α → Option β) (f : β → Bool) :
    (l.filterMap h).all f = l.all fun e => (h e).all f := by
  induction l with
  | nil => rfl
  | cons a l ih =>
    simp only [List.filterMap_cons, List.all_cons]
    cases h a <;> simp [ih]

theorem all_cleanup (b n : Bool) (es : List Node) (K : Node → Bool) (hK : K schemaField = true) :
    (cleanup b n es).all K = es.all fun e => (fixElt n e).all K := by
  have := all_filterMap es (fixElt n) K
  unfold cleanup
  cases b
  · simp only [Bool.false_eq_true, if_false, List.all_append, this, List.all_cons, hK, List.all_nil,
      Bool.and_self, Bool.and_true]
  · simp only [if_true, this]

theorem lacksL_mem {k : String} {es : List Node} (h : lacksL k es = true) {e : Node} (he : e ∈ es) :
    lacks k e = true := by
  induction es with
  | nil => cases he
  | cons a es ih =>
    simp only [lacksL, Bool.and_eq_true] at h
    rcases List.mem_cons.mp he with rfl | he
    · exact h.1
    · exact ih h.2 he

theorem lookupLit_mem {es : List Node} {k : String} {x : Node} (h : lookupLit es k = some x) :
    .field (.str k) x ∈ es := by
  induction es with
  | nil => simp [lookupLit] at h
  | cons e es ih =>
    cases e with
    | field l y =>
      cases l with
      | str s =>
        simp only [lookupLit] at h
        split at h
        next hs => cases h; subst hs; simp
        next => exact List.mem_cons_of_mem _ (ih h)
      | ident s => exact List.mem_cons_of_mem _ (ih (by simpa [lookupLit] using h))
    | _ => exact List.mem_cons_of_mem _ (ih (by simpa [lookupLit] using h))

/-- With distinct labels, a field of the list is the one found. -/
theorem mem_lookupLit {es : List Node} {k : String} {x : Node}
    (hn : (es.map labelOf).Nodup) (h : .field (.str k) x ∈ es) : lookupLit es k = some x := by
  induction es with
  | nil => cases h
  | cons e es ih =>
    simp only [List.map_cons, List.nodup_cons] at hn
    rcases List.mem_cons.mp h with rfl | h'
    · simp [lookupLit]
    · have hne : labelOf e ≠ some k := fun hc => hn.1 (List.mem_map.mpr ⟨_, h', by rw [hc]; rfl⟩)
      cases e with
      | field l y =>
        cases l with
        | str s =>
          have : s ≠ k := fun hc => hne (by simp [labelOf, hc])
          simp [lookupLit, this, ih hn.2 h']
        | ident s => simp [lookupLit, ih hn.2 h']
      | _ => simp [lookupLit, ih hn.2 h']

/-- The components of two documents correspond. -/
def Linked (C C' : String → Option Node) : Prop :=
  ∀ r, (C r = none ∧ C' r = none) ∨
    ∃ s b s', C r = some s ∧ Good s ∧ scan b s = .ok s' ∧ C' r = some s'

section
variable {C C' : String → Option Node} {other : String → Node → J → Bool}

theorem refOk_congr {V V' : Node → J → Bool} (hl : Linked C C')
    (hv : ∀ s b s', Good s → scan b s = .ok s' → ∀ v, V' s' v = V s v) (x : Node) (v : J) :
    refOk C' V' x v = refOk C V x v := by
  cases x with
  | str r =>
    rcases hl r with ⟨h1, h2⟩ | ⟨s, b, s', h1, h2, h3, h4⟩
    · simp [refOk, h1, h2]
    · simp [refOk, h1, h4, hv s b s' h2 h3]
  | _ => rfl

/-- A keyword whose value contains no `nullable` means the same in both dialects. -/
theorem keyword_plain {V V' : Node → J → Bool} (hl : Linked C C')
    (hv : ∀ s b s', Good s → scan b s = .ok s' → ∀ v, V' s' v = V s v)
    (hp : ∀ s, lacks "nullable" s = true → ∀ v, V' s v = V s v)
    {es es' : List Node} (hn : propNames es' = propNames es)
    (k : String) (x : Node) (hx : k ∈ schemaKeys → lacks "nullable" x = true) (v : J) :
    keyword C' other V' es' (.field (.str k) x) v = keyword C other V es (.field (.str k) x) v := by
  simp only [keyword]
  split
  · rfl
  split
  next hk =>
    have hx' := hx (by simp [hk, schemaKeys])
    cases x with
    | struct ps =>
      have hx2 : lacksL "nullable" ps = true := by simpa [lacks] using hx'
      cases v with
      | obj ms =>
        simp only [propsOk]
        congr 1
        funext m
        cases h : lookupLit ps m.1 with
        | none => rfl
        | some s =>
          have := lacksL_mem hx2 (lookupLit_mem h)
          simp only [lacks, Bool.and_eq_true] at this
          exact hp s this.2 _
      | _ => rfl
    | _ => rfl
  split
  next hk => exact additionalOk_congr hn (hp x (hx (by simp [hk, schemaKeys]))) v
  split
  next hk => exact itemsOk_congr (hp x (hx (by simp [hk, schemaKeys]))) v
  split
  next hk =>
    have hx' := hx (by simp only [schemaKeys, List.mem_append]; exact Or.inl hk)
    have hself : ∀ v, V' x v = V x v := hp x hx'
    cases x with
    | list ss =>
      have hx2 : lacksL "nullable" ss = true := by simpa [lacks] using hx'
      have : List.Forall₂ (fun s s' => s' = s) ss ss := by
        induction ss with
        | nil => exact .nil
        | cons a l _ => exact List.forall₂_same.mpr (fun _ _ => rfl)
      exact logicOk_list k this (fun s s' hs hm v => by subst hs; exact hp _ (lacksL_mem hx2 hm) v) v
    | _ => simp [logicOk, hself]
  split
  · exact refOk_congr hl hv x v
  split <;> rfl

theorem scan_struct_inv {b : Bool} {es : List Node} {n' : Node} (h : scan b (.struct es) = .ok n') :
    ∃ es', n' = .struct es' := by
  simp only [scan] at h
  split at h
  · obtain ⟨a, _, rfl⟩ := map_ok_inv h; exact ⟨a, rfl⟩
  · split at h
    · cases h
    · obtain ⟨a, _, rfl⟩ := map_ok_inv h; exact ⟨_, rfl⟩

theorem scan_props {b : Bool} {x x' : Node} (hs : PropsShape x) (h : scan b x = .ok x') :
    ∃ ps ps', x = .struct ps ∧ x' = .struct ps' ∧
      List.Forall₂ (Rel fun _ y y' => scan b y = .ok y') ps ps' := by
  obtain ⟨ps, rfl, hps⟩ := hs
  have hnone : schemaType ps = none := by
    simp only [schemaType, getField_eq_lookupLit]
    cases hl : lookupLit ps "type" with
    | none => rfl
    | some y =>
      obtain ⟨k, es, he⟩ := hps _ (lookupLit_mem hl)
      cases he; rfl
  simp only [scan, hnone] at h
  obtain ⟨ps', h1, rfl⟩ := map_ok_inv h
  refine ⟨ps, ps', rfl, rfl, scanList_rel b ps ps' (fun e he => ?_) h1⟩
  obtain ⟨k, es, he⟩ := hps e he
  exact ⟨k, _, he⟩

theorem propNames_single {ps ps' : List Node} {P : String → Node → Node → Prop}
    (h : List.Forall₂ (Rel P) ps ps') :
    propNames [.field (.str "properties") (.struct ps)] =
      propNames [.field (.str "properties") (.struct ps')] := by
  simp only [propNames, lookupLit, if_true]
  exact names_rel h

theorem partKeys_sub {t k : String} (h : k ∈ partKeys t) :
    k ∈ ["properties", "additionalProperties", "items"] := by
  unfold partKeys at h
  split at h
  · simp at h ⊢; tauto
  · split at h
    · simp at h ⊢; tauto
    · simp at h

theorem childLabels_known {t : String} (h : t ∈ knownTypes) : childLabels t = some (partKeys t) := by
  simp only [knownTypes, List.mem_cons, List.not_mem_nil, or_false] at h
  rcases h with rfl | rfl | rfl | rfl | rfl | rfl <;> rfl

/-- The rewriting preserves what is accepted. -/
theorem accepts_scan (hl : Linked C C') (hnull : ∀ k x, k ≠ "enum" → other k x .null = true) :
    ∀ n, (∀ s b s', Good s → scan b s = .ok s' →
        ∀ v, accepts .draft4 C' other n s' v = accepts .openapi C other n s v) ∧
      (∀ s, lacks "nullable" s = true →
        ∀ v, accepts .draft4 C' other n s v = accepts .openapi C other n s v) := by
  intro n
  induction n with
  | zero =>
    constructor
    · intro s b s' hg hs v
      cases hg with
      | lit t => simp [scan] at hs; subst hs; simp [accepts]
      | typed es => obtain ⟨es', rfl⟩ := scan_struct_inv hs; simp [accepts]
      | untyped es => obtain ⟨es', rfl⟩ := scan_struct_inv hs; simp [accepts]
    · intro s _ v
      cases s <;> simp [accepts]
  | succ n ih =>
    obtain ⟨ihg, ihp⟩ := ih
    constructor
    · intro s b s' hg hs v
      cases hg with
      | lit t => simp [scan] at hs; subst hs; simp [accepts]
      | typed es t lab nodup hty ht parts shape props rest null =>
        have hst : schemaType es = some t := by
          have : t ≠ "" := by rintro rfl; simp [knownTypes] at ht
          simp [schemaType, getField_eq_lookupLit, hty, this]
        simp only [scan, hst, childLabels_known ht, checkNull_eq] at hs
        obtain ⟨es1, h1, rfl⟩ := map_ok_inv hs
        have h1' : scanChildren (partKeys t) es = .ok es1 := by
          cases hc : scanChildren (partKeys t) es <;> rw [hc] at h1 <;> simp [orPanic] at h1
          rw [h1]
        have hrel := scanChildren_rel es es1 _ lab nodup h1'
        have hnames1 : propNames es = propNames es1 := by
          refine propNames_congr hrel ?_
          intro x x' hp hm
          by_cases hk : "properties" ∈ partKeys t
          · obtain ⟨ps, ps', rfl, rfl, hf⟩ := scan_props (shape x hm hk) (hp.1 hk)
            exact propNames_single hf
          · rw [hp.2 hk]
        have hnames : propNames (cleanup b (nullable es) es1) = propNames es := by
          rw [hnames1]
          unfold propNames
          rw [lookup_cleanup _ _ _ _ (by decide) (by decide) (by decide)]
        -- each keyword means the same, except `type` of a nullable node
        have hkw : ∀ k x x', k ≠ "type" → .field (.str k) x ∈ es →
            ((k ∈ partKeys t → scan true x = .ok x') ∧ (k ∉ partKeys t → x' = x)) →
            ∀ v, keyword C' other (accepts .draft4 C' other n) (cleanup b (nullable es) es1)
                (.field (.str k) x') v =
              keyword C other (accepts .openapi C other n) es (.field (.str k) x) v := by
          intro k x x' hkt hm hp v
          by_cases hk : k ∈ partKeys t
          · have hsc := hp.1 hk
            have hmem := partKeys_sub hk
            by_cases hkp : k = "properties"
            · subst hkp
              obtain ⟨ps, ps', rfl, rfl, hf⟩ := scan_props (shape x hm hk) hsc
              simp only [keyword, String.reduceEq, if_false, if_true]
              exact propsOk_congr hf (fun k y y' hy hmy v =>
                ihg y true y' (props ps k y hm hk hmy) hy v) v
            · have hgx := ihg x true x' (parts k x hm hk hkp) hsc
              simp only [List.mem_cons, List.not_mem_nil, or_false, hkp, false_or] at hmem
              rcases hmem with rfl | rfl
              · simp only [keyword, String.reduceEq, if_false, if_true]
                exact additionalOk_congr hnames hgx v
              · simp only [keyword, String.reduceEq, if_false, if_true]
                exact itemsOk_congr hgx v
          · rw [hp.2 hk]
            exact keyword_plain hl ihg ihp hnames k x (fun hks => rest k x hm hks hk) v
        have hacc : accepts .draft4 C' other (n+1) (.struct (cleanup b (nullable es) es1)) v =
            es1.all fun e => (fixElt (nullable es) e).all fun e' =>
              keyword C' other (accepts .draft4 C' other n)
                  (cleanup b (nullable es) es1) e' v := by
          simp only [accepts]
          have hd : (Dialect.draft4 == Dialect.openapi) = false := rfl
          rw [hd]
          simp only [Bool.false_and, Bool.false_or]
          exact all_cleanup b (nullable es) es1 (fun e => keyword C' other
            (accepts .draft4 C' other n) (cleanup b (nullable es) es1) e v)
            (by simp [schemaField, keyword, logicKeys, annotations])
        rw [hacc]
        have hopen : accepts .openapi C other (n+1) (.struct es) v =
            ((nullable es && v.isNull) || es.all fun e =>
              keyword C other (accepts .openapi C other n) es e v) := by
          simp [accepts]
        rw [hopen]
        have htne : t ≠ "null" := by rintro rfl; simp [knownTypes] at ht
        -- elementwise
        have helt : ∀ e e', Rel (fun k x x' => (k ∈ partKeys t → scan true x = .ok x') ∧
              (k ∉ partKeys t → x' = x)) e e' → e ∈ es →
            ((fixElt (nullable es) e').all fun e'' =>
              keyword C' other (accepts .draft4 C' other n)
                  (cleanup b (nullable es) es1) e'' v) =
            ((nullable es && v.isNull) ||
              keyword C other (accepts .openapi C other n) es e v) := by
          rintro e e' ⟨k, x, x', rfl, rfl, hp⟩ hm
          by_cases hd : k ∈ dropped
          · have hann : k ∈ annotations ∧ k ∉ logicKeys ∧ k ≠ "type" ∧ k ≠ "properties" ∧
                k ≠ "additionalProperties" ∧ k ≠ "items" ∧ k ≠ "$ref" := by
              simp only [dropped, List.mem_cons, List.not_mem_nil, or_false] at hd
              rcases hd with rfl | rfl | rfl | rfl | rfl | rfl | rfl | rfl <;> decide
            obtain ⟨a1, a2, a3, a4, a5, a6, a7⟩ := hann
            simp [fixElt, hd, keyword, a1, a2, a3, a4, a5, a6, a7]
          · by_cases hkt : k = "type"
            · subst hkt
              have hnk : "type" ∉ partKeys t := fun hc => by
                have := partKeys_sub hc; simp at this
              have hxt : x = .str t := by
                have := mem_lookupLit nodup hm
                rw [hty] at this; cases this; rfl
              have hxx := hp.2 hnk
              subst hxx
              subst hxt
              cases hnl : nullable es with
              | false => simp [fixElt, hd, keyword]
              | true =>
                have htc : typeContains (.str t) "null" = false := by simp [typeContains, htne]
                simp only [fixElt, if_neg hd, htc, and_self, if_true, keyword, typeOk, Option.all_some,
                  List.any_cons, List.any_nil, Bool.or_false, Bool.true_and]
                cases v <;> simp [J.hasType, J.isNull]
            · have hfix : fixElt (nullable es) (.field (.str k) x') = some (.field (.str k) x') := by
                simp [fixElt, hd, hkt]
              rw [hfix]
              simp only [Option.all_some]
              rw [hkw k x x' hkt hm hp v]
              cases hnl : (nullable es && v.isNull) with
              | false => simp
              | true =>
                simp only [Bool.and_eq_true] at hnl
                obtain ⟨hn1, hn2⟩ := hnl
                have hv : v = .null := by cases v <;> simp [J.isNull] at hn2 ⊢
                subst hv
                have hex := null hn1 k x hm
                simp only [List.mem_append, List.mem_cons, List.not_mem_nil, or_false, not_or] at hex
                obtain ⟨e1, e2, e3⟩ := hex
                simp only [keyword, if_neg hkt, if_neg e1, if_neg e2]
                simp only [Bool.true_or]
                split
                · cases x <;> rfl
                split
                · rfl
                split
                · rfl
                split
                · rfl
                exact hnull k x e3
        have := all_congr₂ hrel (p := fun e => (nullable es && v.isNull) ||
              keyword C other (accepts .openapi C other n) es e v) (p' := fun e' =>
              (fixElt (nullable es) e').all fun e'' =>
                keyword C' other (accepts .draft4 C' other n)
                  (cleanup b (nullable es) es1) e'' v) (fun e e' hr hm => helt e e' hr hm)
        rw [this]
        cases hnl : (nullable es && v.isNull) <;> simp
      | untyped es lab nodup hty hnl alts altsL altsS parts shape props data =>
        have hst : schemaType es = none := by
          simp only [schemaType, getField_eq_lookupLit]
          cases h : lookupLit es "type" with
          | none => rfl
          | some x => obtain ⟨ts, rfl⟩ := hty x h; rfl
        simp only [scan, hst] at hs
        obtain ⟨es1, h1, rfl⟩ := map_ok_inv hs
        have hrel := scanList_rel b es es1 lab h1
        have hnames : propNames es1 = propNames es := by
          refine (propNames_congr hrel ?_).symm
          intro x x' hp hm
          obtain ⟨ps, ps', rfl, rfl, hf⟩ := scan_props (shape x hm) hp
          exact propNames_single hf
        have hkw : ∀ e e', Rel (fun _ x x' => scan b x = .ok x') e e' → e ∈ es →
            keyword C' other (accepts .draft4 C' other n) es1 e' v =
              keyword C other (accepts .openapi C other n) es e v := by
          rintro e e' ⟨k, x, x', rfl, rfl, hp⟩ hm
          by_cases hks : k ∈ schemaKeys
          · simp only [schemaKeys, List.mem_append, List.mem_cons, List.not_mem_nil, or_false] at hks
            rcases hks with hk | rfl | rfl | rfl
            · have hother : k ≠ "type" ∧ k ≠ "properties" ∧ k ≠ "additionalProperties" ∧ k ≠ "items" := by
                simp only [logicKeys, List.mem_cons, List.not_mem_nil, or_false] at hk
                rcases hk with rfl | rfl | rfl | rfl <;> decide
              obtain ⟨o1, o2, o3, o4⟩ := hother
              simp only [keyword, if_neg o1, if_neg o2, if_neg o3, if_neg o4, if_pos hk]
              rcases alts k x hm hk with ⟨ss, rfl⟩ | ⟨fs, rfl⟩
              · simp only [scan] at hp
                obtain ⟨ss', hss, rfl⟩ := map_ok_inv hp
                exact logicOk_list k (scanList_map b ss ss' hss)
                  (fun s s' hs hms v => ihg s b s' (altsL k ss s hm hk hms) hs v) v
              · obtain ⟨fs', rfl⟩ := scan_struct_inv hp
                exact logicOk_struct k (ihg _ b _ (altsS k fs hm hk) hp) v
            · simp only [keyword, String.reduceEq, if_false, if_true]
              obtain ⟨ps, ps', rfl, rfl, hf⟩ := scan_props (shape x hm) hp
              exact propsOk_congr hf (fun k y y' hy hmy v =>
                ihg y b y' (props ps k y hm hmy) hy v) v
            · simp only [keyword, String.reduceEq, if_false, if_true]
              exact additionalOk_congr hnames (ihg x b x' (parts _ x hm (by simp)) hp) v
            · simp only [keyword, String.reduceEq, if_false, if_true]
              exact itemsOk_congr (ihg x b x' (parts _ x hm (by simp)) hp) v
          · have hd := scan_lacks b x (data k x hm hks)
            rw [hd] at hp
            cases hp
            exact keyword_plain hl ihg ihp hnames k x (fun h => absurd h hks) v
        have := all_congr₂ hrel (p := fun e => keyword C other (accepts .openapi C other n) es e v)
          (p' := fun e' => keyword C' other (accepts .draft4 C' other n) es1 e' v) hkw
        have hd : (Dialect.draft4 == Dialect.openapi) = false := rfl
        simp only [accepts, this, hnl, hd, Bool.false_and, Bool.and_false, Bool.false_or]
    · intro s hp v
      cases s with
      | struct es =>
        have hL : lacksL "nullable" es = true := by simpa [lacks] using hp
        have hn : nullable es = false := by simp [nullable, lacksL_lookup hL]
        have hd : (Dialect.draft4 == Dialect.openapi) = false := rfl
        simp only [accepts, hn, hd, Bool.and_false, Bool.false_and, Bool.false_or]
        rw [Bool.eq_iff_iff, List.all_eq_true, List.all_eq_true]
        have hk : ∀ e ∈ es, keyword C' other (accepts .draft4 C' other n) es e v =
            keyword C other (accepts .openapi C other n) es e v := by
          intro e he
          cases e with
          | field l x =>
            cases l with
            | str k =>
              refine keyword_plain hl ihg ihp rfl k x (fun _ => ?_) v
              have := lacksL_mem hL he
              simp only [lacks, Bool.and_eq_true] at this
              exact this.2
            | ident k => rfl
          | _ => rfl
        constructor
        · intro h e he; rw [← hk e he]; exact h e he
        · intro h e he; rw [hk e he]; exact h e he
      | _ => simp [accepts]

end

end Thema.JSchema

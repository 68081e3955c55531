import Verif.Lemmas.JSchema

/-!
# Properties of the JSON Schema encoding (C69-C71)
-/

namespace Thema.Props

open Thema.JSchema

/-! ## When the rewriting succeeds -/

private theorem scan_field {b : Bool} {l : Lab} {x x' : Node} (h : scan b x = .ok x') :
    scan b (.field l x) = .ok (.field l x') := by
  rw [scan, h]; rfl

private theorem scan_none {b : Bool} {es es' : List Node} (h0 : schemaType es = none)
    (h : scanList b es = .ok es') : scan b (.struct es) = .ok (.struct es') := by
  rw [scan, h0]; simp [h]

private theorem scanList_cons {b : Bool} {e e' : Node} {es es' : List Node}
    (h1 : scan b e = .ok e') (h2 : scanList b es = .ok es') :
    scanList b (e :: es) = .ok (e' :: es') := by
  rw [scanList, h1, Res.bind_ok, h2]; rfl

private theorem scanList_ok {b : Bool} : ∀ {es : List Node}, (∀ e ∈ es, ∃ e', scan b e = .ok e') →
    ∃ es', scanList b es = .ok es' := by
  intro es
  induction es with
  | nil => intro _; exact ⟨[], by simp [scanList]⟩
  | cons e es ih =>
    intro h
    obtain ⟨e', he⟩ := h e (by simp)
    obtain ⟨es', hes⟩ := ih (fun a ha => h a (by simp [ha]))
    exact ⟨e' :: es', by simp [scanList, he, hes]⟩

private theorem scanChildren_ok : ∀ {es : List Node} {ls : List String},
    (∀ k x, .field (.str k) x ∈ es → k ∈ ls → ∃ x', scan true x = .ok x') →
    ∃ es', scanChildren ls es = .ok es' := by
  intro es
  induction es with
  | nil => intro ls _; exact ⟨[], by simp [scanChildren]⟩
  | cons e es ih =>
    intro ls h
    have htail : ∀ ls' : List String, (∀ k, k ∈ ls' → k ∈ ls) → ∃ es', scanChildren ls' es = .ok es' :=
      fun ls' hs => ih (fun k x hm hk => h k x (List.mem_cons_of_mem _ hm) (hs k hk))
    cases e with
    | field l x =>
      cases l with
      | str k =>
        simp only [scanChildren]
        by_cases hk : k ∈ ls
        · obtain ⟨x', hx⟩ := h k x (List.mem_cons_self ..) hk
          obtain ⟨es', hes⟩ := htail (ls.filter (· ≠ k)) (fun k' hk' => (List.mem_filter.mp hk').1)
          exact ⟨.field (.str k) x' :: es', by rw [if_pos hk, hx, Res.bind_ok, hes]; rfl⟩
        · obtain ⟨es', hes⟩ := htail ls (fun _ hk' => hk')
          exact ⟨_, by simp [hk, hes]; rfl⟩
      | ident s =>
        obtain ⟨es', hes⟩ := htail ls (fun _ hk' => hk')
        exact ⟨_, by simp [scanChildren, hes]; rfl⟩
    | _ =>
      obtain ⟨es', hes⟩ := htail ls (fun _ hk' => hk')
      exact ⟨_, by simp [scanChildren, hes]; rfl⟩

private theorem scan_props_ok {b : Bool} {x : Node} (hs : PropsShape x)
    (h : ∀ ps k y, x = .struct ps → .field (.str k) y ∈ ps → ∃ y', scan b y = .ok y') :
    ∃ x', scan b x = .ok x' := by
  obtain ⟨ps, rfl, hps⟩ := hs
  have hnone : schemaType ps = none := by
    simp only [schemaType, getField_eq_lookupLit]
    cases hl : lookupLit ps "type" with
    | none => rfl
    | some y =>
      obtain ⟨k, es, he⟩ := hps _ (lookupLit_mem hl)
      cases he; rfl
  obtain ⟨ps', hp'⟩ : ∃ ps', scanList b ps = .ok ps' := by
    refine scanList_ok fun e he => ?_
    obtain ⟨k, es, rfl⟩ := hps e he
    obtain ⟨y', hy⟩ := h ps k _ rfl he
    exact ⟨.field (.str k) y', scan_field hy⟩
  exact ⟨.struct ps', scan_none hnone hp'⟩

private theorem scan_good {s : Node} (h : Good s) : ∀ b, ∃ s', scan b s = .ok s' := by
  induction h with
  | lit t => intro b; exact ⟨.lit t, by simp [scan]⟩
  | typed es t lab nodup hty ht parts shape props rest null ihParts ihProps =>
    intro b
    have hst : schemaType es = some t := by
      have : t ≠ "" := by rintro rfl; simp [knownTypes] at ht
      simp [schemaType, getField_eq_lookupLit, hty, this]
    obtain ⟨es', hes⟩ : ∃ es', scanChildren (partKeys t) es = .ok es' := by
      refine scanChildren_ok fun k x hm hk => ?_
      by_cases hkp : k = "properties"
      · subst hkp
        refine scan_props_ok (shape x hm hk) fun ps k y hx hy => ?_
        subst hx
        exact ihProps ps k y hm hk hy true
      · exact ihParts k x hm hk hkp true
    exact ⟨_, by simp [scan, hst, childLabels_known ht, hes, orPanic]; rfl⟩
  | untyped es lab nodup hty hnull alts altsL altsS parts shape props data ihL ihS ihParts ihProps =>
    intro b
    have hst : schemaType es = none := by
      simp only [schemaType, getField_eq_lookupLit]
      cases h : lookupLit es "type" with
      | none => rfl
      | some x => obtain ⟨ts, rfl⟩ := hty x h; rfl
    obtain ⟨es', hes⟩ : ∃ es', scanList b es = .ok es' := by
      refine scanList_ok fun e he => ?_
      obtain ⟨k, x, rfl⟩ := lab e he
      obtain ⟨x', hx⟩ : ∃ x', scan b x = .ok x' := by
        by_cases hks : k ∈ schemaKeys
        · simp only [schemaKeys, List.mem_append, List.mem_cons, List.not_mem_nil, or_false] at hks
          rcases hks with hk | rfl | rfl | rfl
          · rcases alts k x he hk with ⟨ss, rfl⟩ | ⟨fs, rfl⟩
            · obtain ⟨ss', hss⟩ : ∃ ss', scanList b ss = .ok ss' :=
                scanList_ok fun s hs => ihL k ss s he hk hs b
              exact ⟨.list ss', by simp [scan, hss]⟩
            · exact ihS k fs he hk b
          · refine scan_props_ok (shape x he) fun ps k y hx hy => ?_
            subst hx
            exact ihProps ps k y he hy b
          · exact ihParts _ x he (by simp) b
          · exact ihParts _ x he (by simp) b
        · exact ⟨x, scan_lacks b x (data k x he hks)⟩
      exact ⟨.field (.str k) x', by simp [scan, hx]⟩
    exact ⟨.struct es', by simp [scan, hst, hes]⟩

private theorem component_rel {b : Bool} {ss ss' : List Node} (pre : String)
    (h : List.Forall₂ (Rel fun _ x x' => scan b x = .ok x') ss ss')
    (hg : ∀ k x, .field (.str k) x ∈ ss → Good x) :
    Linked (component pre ss) (component pre ss') := by
  intro r
  induction h with
  | nil => left; exact ⟨rfl, rfl⟩
  | cons hhd _ ih =>
    obtain ⟨k, x, x', rfl, rfl, hx⟩ := hhd
    by_cases hr : r = pre ++ k
    · right
      exact ⟨x, b, x', by simp [component, hr], hg k x (by simp), hx, by simp [component, hr]⟩
    · have := ih (fun k x hm => hg k x (by simp [hm]))
      simpa [component, hr] using this

private theorem document_scan {t v : String} {ss ss' : List Node}
    (hns : schemaType ss = none) (h : scanList false ss = .ok ss') :
    scan false (document t v ss) = .ok (document t v ss') := by
  have h1 := scan_none hns h
  have h2 : scan false (.struct [.field (.str "schemas") (.struct ss)]) =
      .ok (.struct [.field (.str "schemas") (.struct ss')]) :=
    scan_none rfl (scanList_cons (scan_field h1) rfl)
  have h3 := scan_none (b := false) (es := [
    .field (.str "openapi") (.str "3.0.0"),
    .field (.str "info") (.struct [
      .field (.str "title") (.str t),
      .field (.str "version") (.str v)]),
    .field (.str "paths") (.struct []),
    .field (.str "components") (.struct [
      .field (.str "schemas") (.struct ss)])]) rfl
    (scanList_cons rfl (scanList_cons rfl (scanList_cons rfl
      (scanList_cons (scan_field h2) rfl))))
  show (scanList false _).map Node.file = _
  rw [scanList_cons h3 rfl]; rfl

/-- The components of a document are named structs. -/
def SchemasShape (ss : List Node) : Prop :=
  ∀ e ∈ ss, ∃ k es, e = .field (.str k) (.struct es) ∧ Good (.struct es)

/-- C69 (partial; see `C69_root_accepts_everything` and the `C69_lost…` theorems for
what is missing).  For every OpenAPI document whose components are `Good`, generation
succeeds, the document has the same shape, and every component of the result accepts,
as a JSON Schema, exactly the data that the component of the same name accepted as an
OpenAPI schema; whatever the other keywords mean (`other`), as long as those other than
`enum` accept `null`, as all of JSON Schema's do. -/
theorem C69_components_equivalent_partial (title version : String) (ss : List Node)
    (hs : SchemasShape ss) :
    ∃ ss', generateSchema (.ok (document title version ss)) = .ok (document title version ss') ∧
      ∀ (pre : String) (other : String → Node → J → Bool),
        (∀ k x, k ≠ "enum" → other k x .null = true) →
        ∀ ref,
          (component pre ss ref = none ∧ component pre ss' ref = none) ∨
          ∃ s s', component pre ss ref = some s ∧ component pre ss' ref = some s' ∧
            ∀ n v, accepts .draft4 (component pre ss') other n s' v =
              accepts .openapi (component pre ss) other n s v := by
  have hlab : ∀ e ∈ ss, ∃ k x, e = .field (.str k) x := fun e he => by
    obtain ⟨k, es, rfl, _⟩ := hs e he; exact ⟨k, _, rfl⟩
  have hns : schemaType ss = none := by
    simp only [schemaType, getField_eq_lookupLit]
    cases hl : lookupLit ss "type" with
    | none => rfl
    | some y =>
      obtain ⟨k, es, he, _⟩ := hs _ (lookupLit_mem hl)
      cases he; rfl
  obtain ⟨ss', hss⟩ : ∃ ss', scanList false ss = .ok ss' := by
    refine scanList_ok fun e he => ?_
    obtain ⟨k, es, rfl, hg⟩ := hs e he
    obtain ⟨y, hy⟩ := scan_good hg false
    exact ⟨.field (.str k) y, scan_field hy⟩
  refine ⟨ss', by simp [generateSchema, oapiToJSchema, document_scan hns hss], ?_⟩
  intro pre other hn ref
  have hrel := scanList_rel false ss ss' hlab hss
  have hlink : Linked (component pre ss) (component pre ss') :=
    component_rel pre hrel (fun k x hm => by
      obtain ⟨k', es, he, hg⟩ := hs _ hm
      cases he; exact hg)
  rcases hlink ref with h | ⟨s, b, s', h1, h2, h3, h4⟩
  · exact Or.inl h
  · exact Or.inr ⟨s, s', h1, h4, fun n v => (accepts_scan hlink hn n).1 s b s' h2 h3 v⟩

/-- A schema with a nullable property, an optional reference, a list and a map of
alternatives: `Good`, and not trivially so. -/
def exSchemas : List Node := [
  .field (.str "Alt") (.struct [
    .field (.str "oneOf") (.list [
      .struct [.field (.str "type") (.str "string")],
      .struct [.field (.str "type") (.str "boolean")]])]),
  .field (.str "root") (.struct [
    .field (.str "type") (.str "object"),
    .field (.str "required") (.list [.str "a"]),
    .field (.str "properties") (.struct [
      .field (.str "a") (.struct [
        .field (.str "type") (.str "string"),
        .field (.str "nullable") (.lit "true")]),
      .field (.str "b") (.struct [
        .field (.str "$ref") (.str "#/components/schemas/Alt")])])])]

private theorem exAlt_good : Good (.struct [
    .field (.str "oneOf") (.list [
      .struct [.field (.str "type") (.str "string")],
      .struct [.field (.str "type") (.str "boolean")]])]) := by
  have hstr : ∀ t ∈ knownTypes, Good (.struct [.field (.str "type") (.str t)]) := by
    intro t ht
    refine Good.typed _ t ?_ ?_ ?_ ht ?_ ?_ ?_ ?_ ?_
    · intro e he; simp at he; exact ⟨_, _, he⟩
    · simp [labelOf]
    · simp [lookupLit]
    · intro k x hm hk hkp
      simp at hm; obtain ⟨rfl, rfl⟩ := hm
      have := partKeys_sub hk; simp at this
    · intro x hm _; simp at hm
    · intro ps k x hm; simp at hm
    · intro k x hm hk
      simp at hm; obtain ⟨rfl, rfl⟩ := hm
      simp [schemaKeys, logicKeys] at hk
    · intro h; simp [nullable, lookupLit] at h
  refine Good.untyped _ ?_ ?_ ?_ ?_ ?_ ?_ ?_ ?_ ?_ ?_ ?_
  · intro e he; simp at he; exact ⟨_, _, he⟩
  · simp [labelOf]
  · intro x h; simp [lookupLit] at h
  · simp [nullable, lookupLit]
  · intro k x hm _; simp at hm; exact Or.inl ⟨_, hm.2⟩
  · intro k ss s hm _ hs
    simp at hm; obtain ⟨_, rfl⟩ := hm
    simp at hs
    rcases hs with rfl | rfl
    · exact hstr _ (by decide)
    · exact hstr _ (by decide)
  · intro k fs hm; simp at hm
  · intro k x hm hk; simp at hm; obtain ⟨rfl, _⟩ := hm; simp at hk
  · intro x hm; simp at hm
  · intro ps k x hm; simp at hm
  · intro k x hm hk; simp at hm; obtain ⟨rfl, _⟩ := hm; simp [schemaKeys, logicKeys] at hk

private theorem exA_good : Good (.struct [
    .field (.str "type") (.str "string"), .field (.str "nullable") (.lit "true")]) := by
  refine Good.typed _ "string" ?_ ?_ ?_ (by decide) ?_ ?_ ?_ ?_ ?_
  · intro e he; simp at he; rcases he with rfl | rfl <;> exact ⟨_, _, rfl⟩
  · simp [labelOf]
  · simp [lookupLit]
  · intro k x hm hk; simp [partKeys] at hk
  · intro x hm; simp at hm
  · intro ps k x hm; simp at hm
  · intro k x hm hk; simp at hm
    rcases hm with ⟨rfl, rfl⟩ | ⟨rfl, rfl⟩ <;> simp [schemaKeys, logicKeys] at hk
  · intro _ k x hm; simp at hm
    rcases hm with ⟨rfl, rfl⟩ | ⟨rfl, rfl⟩ <;> simp [logicKeys]

private theorem exRef_good (r : String) : Good (.struct [.field (.str "$ref") (.str r)]) := by
  refine Good.untyped _ ?_ ?_ ?_ ?_ ?_ ?_ ?_ ?_ ?_ ?_ ?_
  · intro e he; simp at he; exact ⟨_, _, he⟩
  · simp [labelOf]
  · intro x h; simp [lookupLit] at h
  · simp [nullable, lookupLit]
  · intro k x hm hk; simp at hm; obtain ⟨rfl, rfl⟩ := hm; simp [logicKeys] at hk
  · intro k ss s hm; simp at hm
  · intro k fs hm; simp at hm
  · intro k x hm hk; simp at hm; obtain ⟨rfl, _⟩ := hm; simp at hk
  · intro x hm; simp at hm
  · intro ps k x hm; simp at hm
  · intro k x hm hk; simp at hm; obtain ⟨rfl, rfl⟩ := hm; rfl

/-- The hypothesis of `C69_components_equivalent_partial` is met by the example. -/
theorem exSchemas_good : SchemasShape exSchemas := by
  intro e he
  simp only [exSchemas, List.mem_cons, List.not_mem_nil, or_false] at he
  rcases he with rfl | rfl
  · exact ⟨_, _, rfl, exAlt_good⟩
  · refine ⟨_, _, rfl, ?_⟩
    refine Good.typed _ "object" ?_ ?_ ?_ (by decide) ?_ ?_ ?_ ?_ ?_
    · intro e he; simp at he; rcases he with rfl | rfl | rfl <;> exact ⟨_, _, rfl⟩
    · simp [labelOf]
    · simp [lookupLit]
    · intro k x hm hk hkp
      simp at hm
      rcases hm with ⟨rfl, rfl⟩ | ⟨rfl, rfl⟩ | ⟨rfl, rfl⟩
      · simp [partKeys] at hk
      · simp [partKeys] at hk
      · exact absurd rfl hkp
    · intro x hm _
      simp at hm; subst hm
      refine ⟨_, rfl, ?_⟩
      intro p hp; simp at hp; rcases hp with rfl | rfl <;> exact ⟨_, _, rfl⟩
    · intro ps k x hm _ hp
      simp at hm; subst hm
      simp at hp
      rcases hp with ⟨rfl, rfl⟩ | ⟨rfl, rfl⟩
      · exact exA_good
      · exact exRef_good _
    · intro k x hm hks hk
      simp at hm
      rcases hm with ⟨rfl, rfl⟩ | ⟨rfl, rfl⟩ | ⟨rfl, rfl⟩
      · simp [schemaKeys, logicKeys] at hks
      · simp [schemaKeys, logicKeys] at hks
      · simp [partKeys] at hk
    · intro h; simp [nullable, lookupLit] at h

/-- … and the equivalence is not about an empty set of data: the converted root accepts
`{"a": null, "b": true}` and rejects `{"a": 1}`. -/
example : ∃ ss', generateSchema (.ok (document "root" "0.0" exSchemas)) =
      .ok (document "root" "0.0" ss') ∧
    let C := component "#/components/schemas/" ss'
    ∃ s, C "#/components/schemas/root" = some s ∧
      accepts .draft4 C (fun _ _ _ => true) 4 s (.obj [("a", .null), ("b", .bool true)]) = true ∧
      accepts .draft4 C (fun _ _ _ => true) 4 s (.obj [("a", .int 1)]) = false :=
  ⟨_, rfl, _, rfl, rfl, rfl⟩

/-! ## What is missing -/

/-- C69, refuted (every document): the document returned is not itself a JSON Schema of
the data.  Read as one it accepts everything, as its only fields are `openapi`, `info`,
`paths` and `components`, which are not keywords of JSON Schema. -/
theorem C69_root_accepts_everything (title version : String) (ss : List Node) (d : Node)
    (h : generateSchema (.ok (document title version ss)) = .ok d) :
    ∃ top, d = .file [.struct top] ∧
      ∀ (C : String → Option Node) (other : String → Node → J → Bool),
        (∀ k ∈ ["openapi", "info", "paths", "components"], ∀ x v, other k x v = true) →
        ∀ n v, accepts .draft4 C other n (.struct top) v = true := by
  simp only [generateSchema, Res.bind_ok, oapiToJSchema, document, scan, scanList, schemaType,
    getField] at h
  simp only [String.reduceBEq, Bool.false_eq_true, if_false, Res.map_ok, Res.bind_ok] at h
  obtain ⟨l1, h1, rfl⟩ := map_ok_inv h
  obtain ⟨x1, h2, h3⟩ := bind_ok_inv h1
  simp only [Res.ok.injEq] at h3
  subst h3
  obtain ⟨l2, h4, rfl⟩ := map_ok_inv h2
  obtain ⟨l3, h5, rfl⟩ := map_ok_inv h4
  obtain ⟨l4, h6, rfl⟩ := map_ok_inv h5
  obtain ⟨l5, h7, rfl⟩ := map_ok_inv h6
  obtain ⟨x6, h8, h9⟩ := bind_ok_inv h7
  simp only [Res.ok.injEq] at h9
  subst h9
  obtain ⟨x7, h10, rfl⟩ := map_ok_inv h8
  refine ⟨_, rfl, ?_⟩
  intro C other ho n v
  cases n with
  | zero => simp [accepts]
  | succ n =>
    simp [accepts, keyword, logicKeys, annotations, ho]

private theorem typed_scan {b : Bool} {es : List Node} {t : String} {d : Node}
    (hty : lookupLit es "type" = some (.str t)) (ht : t ∈ knownTypes)
    (h : scan b (.struct es) = .ok d) :
    ∃ es1, scanChildren (partKeys t) es = .ok es1 ∧ d = .struct (cleanup b (nullable es) es1) := by
  have hst : schemaType es = some t := by
    have : t ≠ "" := by rintro rfl; simp [knownTypes] at ht
    simp [schemaType, getField_eq_lookupLit, hty, this]
  simp only [scan, hst, childLabels_known ht, checkNull_eq] at h
  obtain ⟨es1, h1, rfl⟩ := map_ok_inv h
  refine ⟨es1, ?_, rfl⟩
  cases hc : scanChildren (partKeys t) es <;> rw [hc] at h1 <;> simp [orPanic] at h1
  rw [h1]

private theorem scanChildren_mem {ls : List String} {es es1 : List Node} {k : String} {x : Node}
    (h : scanChildren ls es = .ok es1) (hk : k ∉ ls) (hm : .field (.str k) x ∈ es) :
    .field (.str k) x ∈ es1 := by
  induction es generalizing ls es1 with
  | nil => cases hm
  | cons e es ih =>
    cases e with
    | field l y =>
      cases l with
      | str k2 =>
        simp only [scanChildren] at h
        split at h
        next hk2 =>
          obtain ⟨x1, h1, h2⟩ := bind_ok_inv h
          obtain ⟨es2, h3, rfl⟩ := map_ok_inv h2
          rcases List.mem_cons.mp hm with he | hm'
          · cases he; exact absurd hk2 hk
          · exact List.mem_cons_of_mem _ (ih h3 (fun hc => hk (List.mem_filter.mp hc).1) hm')
        next hk2 =>
          obtain ⟨es2, h3, rfl⟩ := map_ok_inv h
          rcases List.mem_cons.mp hm with he | hm'
          · cases he; simp
          · exact List.mem_cons_of_mem _ (ih h3 hk hm')
      | ident s =>
        simp only [scanChildren] at h
        obtain ⟨es2, h3, rfl⟩ := map_ok_inv h
        rcases List.mem_cons.mp hm with he | hm'
        · cases he
        · exact List.mem_cons_of_mem _ (ih h3 hk hm')
    | _ =>
      simp only [scanChildren] at h
      obtain ⟨es2, h3, rfl⟩ := map_ok_inv h
      rcases List.mem_cons.mp hm with he | hm'
      · cases he
      · exact List.mem_cons_of_mem _ (ih h3 hk hm')

private theorem cleanup_mem {b n : Bool} {es : List Node} {k : String} {x : Node}
    (hm : .field (.str k) x ∈ es) (h1 : k ∉ dropped) (h2 : k ≠ "type") :
    .field (.str k) x ∈ cleanup b n es := by
  have : .field (.str k) x ∈ es.filterMap (fixElt n) :=
    List.mem_filterMap.mpr ⟨_, hm, by simp [fixElt, h1, h2]⟩
  unfold cleanup
  cases b <;> simp [this]

/-- C69, what is lost (1), for every schema with a type: its logic operators are copied
as they are, so that a `nullable` below them is not translated. -/
theorem C69_operators_untouched (b : Bool) (es : List Node) (t : String) (d : Node)
    (hty : lookupLit es "type" = some (.str t)) (ht : t ∈ knownTypes)
    (h : scan b (.struct es) = .ok d) (k : String) (x : Node) (hk : k ∈ logicKeys)
    (hm : .field (.str k) x ∈ es) : ∃ es', d = .struct es' ∧ .field (.str k) x ∈ es' := by
  obtain ⟨es1, h1, rfl⟩ := typed_scan hty ht h
  have hno : k ∉ dropped ∧ k ≠ "type" ∧ k ∉ ["properties", "additionalProperties", "items"] := by
    simp only [logicKeys, List.mem_cons, List.not_mem_nil, or_false] at hk
    rcases hk with rfl | rfl | rfl | rfl <;> decide
  exact ⟨_, rfl, cleanup_mem (scanChildren_mem h1 (fun hc => hno.2.2 (partKeys_sub hc)) hm)
    hno.1 hno.2.1⟩

/-- An object that is one of two, the first with a nullable member, in the form that
CUE generates for a disjunction of structs. -/
def exOperators : List Node := [
  .field (.str "type") (.str "object"),
  .field (.str "oneOf") (.list [
    .struct [
      .field (.str "required") (.list [.str "a"]),
      .field (.str "properties") (.struct [
        .field (.str "a") (.struct [
          .field (.str "type") (.str "string"),
          .field (.str "nullable") (.lit "true")])])],
    .struct [
      .field (.str "required") (.list [.str "b"]),
      .field (.str "properties") (.struct [
        .field (.str "b") (.struct [.field (.str "type") (.str "integer")])])]])]

/-- Meanings of `required` and `enum` (for strings), for the witnesses. -/
def exOther (k : String) (x : Node) (v : J) : Bool :=
  match k, x, v with
  | "required", .list ns, .obj ms => ns.all fun n => match n with
    | .str s => ms.any (fun m => m.1 == s)
    | _ => true
  | "enum", .list ns, .str s => ns.any fun n => match n with
    | .str s' => s' == s
    | _ => false
  | "enum", _, _ => false
  | _, _, _ => true

/-- C69, refuted (witness): `{"a": null}` is accepted by the OpenAPI schema, but not by
the JSON Schema made from it. -/
theorem C69_lost_under_operators :
    ∃ d, scan false (.struct exOperators) = .ok d ∧
      accepts .openapi (fun _ => none) exOther 4 (.struct exOperators) (.obj [("a", .null)]) = true ∧
      accepts .draft4 (fun _ => none) exOther 4 d (.obj [("a", .null)]) = false :=
  ⟨_, rfl, rfl, rfl⟩

/-- C69, what is lost (2), for every nullable schema with a type and an `enum` that does
not list `null`: OpenAPI 3.0.0 accepts `null`, the JSON Schema does not, since only the
type is extended. -/
theorem C69_lost_with_enum (b : Bool) (es : List Node) (t : String) (d : Node)
    (hty : lookupLit es "type" = some (.str t)) (ht : t ∈ knownTypes)
    (hn : nullable es = true) (x : Node) (hm : .field (.str "enum") x ∈ es)
    (h : scan b (.struct es) = .ok d)
    (C C' : String → Option Node) (other : String → Node → J → Bool)
    (ho : other "enum" x .null = false) (n : Nat) :
    accepts .openapi C other (n+1) (.struct es) .null = true ∧
      accepts .draft4 C' other (n+1) d .null = false := by
  obtain ⟨es1, h1, rfl⟩ := typed_scan hty ht h
  constructor
  · simp [accepts, hn, J.isNull]
  · have hmem : .field (.str "enum") x ∈ cleanup b (nullable es) es1 := by
      refine cleanup_mem (scanChildren_mem h1 ?_ hm) (by decide) (by decide)
      intro hc; have := partKeys_sub hc; simp at this
    have hk : keyword C' other (accepts .draft4 C' other n) (cleanup b (nullable es) es1)
        (.field (.str "enum") x) .null = false := by
      simp [keyword, logicKeys, annotations, ho]
    have hd : (Dialect.draft4 == Dialect.openapi) = false := rfl
    simp only [accepts, hd, Bool.false_and, Bool.false_or]
    rw [List.all_eq_false]
    exact ⟨_, hmem, by simp [hk]⟩

example : let es := [.field (.str "type") (.str "string"),
      .field (.str "enum") (.list [.str "on", .str "off"]),
      .field (.str "nullable") (.lit "true")]
    lookupLit es "type" = some (.str "string") ∧ nullable es = true ∧
      exOther "enum" (.list [.str "on", .str "off"]) .null = false ∧
      ∃ d, scan false (.struct es) = .ok d := ⟨rfl, rfl, rfl, _, rfl⟩

private theorem scanList_mem_lit {b : Bool} {es es' : List Node} {k : String} {x : Node}
    (hm : .field (.str k) x ∈ es) (h : scanList b es = .ok es') :
    ∃ x', scan b x = .ok x' ∧ .field (.str k) x' ∈ es' := by
  induction es generalizing es' with
  | nil => cases hm
  | cons e es ih =>
    simp only [scanList] at h
    obtain ⟨e1, h1, h2⟩ := bind_ok_inv h
    obtain ⟨es1, h3, rfl⟩ := map_ok_inv h2
    rcases List.mem_cons.mp hm with rfl | hm'
    · simp only [scan] at h1
      obtain ⟨x1, h4, rfl⟩ := map_ok_inv h1
      exact ⟨x1, h4, by simp⟩
    · obtain ⟨x', ha, hb⟩ := ih hm' h3
      exact ⟨x', ha, by simp [hb]⟩

/-- C69, what is lost (3), for every nullable schema without a type: the keyword stays
(though it is not one of JSON Schema) and has no effect any more. -/
theorem C69_lost_without_type (b : Bool) (es : List Node) (d : Node)
    (hty : lookupLit es "type" = none) (hn : nullable es = true)
    (h : scan b (.struct es) = .ok d) :
    ∃ es', d = .struct es' ∧ .field (.str "nullable") (.lit "true") ∈ es' ∧
      (∀ C other n, accepts .openapi C other (n+1) (.struct es) .null = true) ∧
      (∀ C other n, accepts .draft4 C other (n+1) d .null =
        es'.all fun e => keyword C other (accepts .draft4 C other n) es' e .null) := by
  have hst : schemaType es = none := by simp [schemaType, getField_eq_lookupLit, hty]
  simp only [scan, hst] at h
  obtain ⟨es', h1, rfl⟩ := map_ok_inv h
  have hlit : lookupLit es "nullable" = some (.lit "true") := by
    unfold nullable at hn
    cases hl : lookupLit es "nullable" with
    | none => rw [hl] at hn; cases hn
    | some y =>
      rw [hl] at hn
      cases y <;> simp at hn
      subst hn; rfl
  obtain ⟨x', hx, hmem⟩ := scanList_mem_lit (lookupLit_mem hlit) h1
  simp only [scan, Res.ok.injEq] at hx
  subst hx
  refine ⟨es', rfl, hmem, ?_, ?_⟩
  · intro C other n; simp [accepts, hn, J.isNull]
  · intro C other n
    have hd : (Dialect.draft4 == Dialect.openapi) = false := rfl
    simp [accepts, hd]

/-- C69, refuted (witness): `string | bool | null` accepts `null` in OpenAPI, but not in
the JSON Schema made from it. -/
theorem C69_lost_without_type_witness :
    let es := [.field (.str "oneOf") (.list [
        .struct [.field (.str "type") (.str "string")],
        .struct [.field (.str "type") (.str "boolean")]]),
      .field (.str "nullable") (.lit "true")]
    ∃ d, scan false (.struct es) = .ok d ∧
      accepts .openapi (fun _ => none) exOther 3 (.struct es) .null = true ∧
      accepts .draft4 (fun _ => none) exOther 3 d .null = false :=
  ⟨_, rfl, rfl, rfl⟩

/-- C69, what is lost (4): data in the document that looks like a schema is rewritten.
Here the default value of an alternative loses a member and gets another one. -/
theorem C69_data_rewritten :
    let dflt := fun ms => Node.struct [
      .field (.str "oneOf") (.list [.struct [.field (.str "type") (.str "boolean")]]),
      .field (.str "default") (.struct ms)]
    ∃ alt, scan true (dflt [.field (.str "type") (.str "string"),
        .field (.str "example") (.str "x")]) = .ok (.struct [alt,
      .field (.str "default") (.struct [.field (.str "type") (.str "string")])]) :=
  ⟨_, rfl⟩

/-! ## C70: nothing else is changed -/

private theorem orPanic_inv {α : Type} {r : Res α} {a : α} (h : orPanic r = .ok a) : r = .ok a := by
  cases r <;> simp [orPanic] at h
  rw [h]

private theorem fix_id {es : List Node} (h : ∀ l ∈ dropped, lacksL l es = true) :
    es.filterMap (fixElt false) = es := by
  induction es with
  | nil => rfl
  | cons e es ih =>
    have ih' := ih (fun l hl => by have := h l hl; simp only [lacksL, Bool.and_eq_true] at this; exact this.2)
    cases e with
    | field la x =>
      cases la with
      | str k =>
        have hk : k ∉ dropped := fun hc => by
          have := h k hc
          simp [lacksL, lacks] at this
        simp [fixElt, hk, ih']
      | ident k => simp [fixElt, ih']
    | _ => simp [fixElt, ih']

mutual
private theorem scan_id : ∀ (s d : Node), (∀ l ∈ dropped, lacks l s = true) →
    scan true s = .ok d → d = s
  | .str _, d, _, h => by simp [scan] at h; exact h.symm
  | .lit _, d, _, h => by simp [scan] at h; exact h.symm
  | .list es, d, hl, h => by
    simp only [scan] at h
    obtain ⟨es', h1, rfl⟩ := map_ok_inv h
    rw [scanList_id es es' (fun l hm => by simpa [lacks] using hl l hm) h1]
  | .file es, d, hl, h => by
    simp only [scan] at h
    obtain ⟨es', h1, rfl⟩ := map_ok_inv h
    rw [scanList_id es es' (fun l hm => by simpa [lacks] using hl l hm) h1]
  | .field la x, d, hl, h => by
    simp only [scan] at h
    obtain ⟨x', h1, rfl⟩ := map_ok_inv h
    rw [scan_id x x' (fun l hm => by
      have := hl l hm; simp only [lacks, Bool.and_eq_true] at this; exact this.2) h1]
  | .struct es, d, hl, h => by
    have hl' : ∀ l ∈ dropped, lacksL l es = true := fun l hm => by simpa [lacks] using hl l hm
    simp only [scan] at h
    split at h
    · obtain ⟨es', h1, rfl⟩ := map_ok_inv h
      rw [scanList_id es es' hl' h1]
    · split at h
      · cases h
      · obtain ⟨es', h1, rfl⟩ := map_ok_inv h
        rw [scanChildren_id es _ es' hl' (orPanic_inv h1)]
        have hn : checkNull es = false := by
          rw [checkNull_eq]
          have := lacksL_lookup (hl' "nullable" (by decide))
          simp [nullable, this]
        rw [hn]
        simp [cleanup, fix_id hl']
private theorem scanList_id : ∀ (es es' : List Node), (∀ l ∈ dropped, lacksL l es = true) →
    scanList true es = .ok es' → es' = es
  | [], es', _, h => by simp [scanList] at h; exact h
  | e :: es, es', hl, h => by
    simp only [scanList] at h
    obtain ⟨e1, h1, h2⟩ := bind_ok_inv h
    obtain ⟨es1, h3, rfl⟩ := map_ok_inv h2
    have hl1 : ∀ l ∈ dropped, lacks l e = true ∧ lacksL l es = true := fun l hm => by
      have := hl l hm; simpa only [lacksL, Bool.and_eq_true] using this
    rw [scan_id e e1 (fun l hm => (hl1 l hm).1) h1, scanList_id es es1 (fun l hm => (hl1 l hm).2) h3]
private theorem scanChildren_id : ∀ (es : List Node) (ls : List String) (es' : List Node),
    (∀ l ∈ dropped, lacksL l es = true) → scanChildren ls es = .ok es' → es' = es
  | [], _, es', _, h => by simp [scanChildren] at h; exact h
  | .field (.str k) x :: es, ls, es', hl, h => by
    have hl1 : ∀ l ∈ dropped, lacks l x = true ∧ lacksL l es = true := fun l hm => by
      have := hl l hm
      simp only [lacksL, lacks, Bool.and_eq_true] at this
      exact ⟨this.1.2, this.2⟩
    simp only [scanChildren] at h
    split at h
    · obtain ⟨x1, h1, h2⟩ := bind_ok_inv h
      obtain ⟨es1, h3, rfl⟩ := map_ok_inv h2
      rw [scan_id x x1 (fun l hm => (hl1 l hm).1) h1,
        scanChildren_id es _ es1 (fun l hm => (hl1 l hm).2) h3]
    · obtain ⟨es1, h3, rfl⟩ := map_ok_inv h
      rw [scanChildren_id es _ es1 (fun l hm => (hl1 l hm).2) h3]
  | .field (.ident k) x :: es, ls, es', hl, h => by
    simp only [scanChildren] at h
    obtain ⟨es1, h3, rfl⟩ := map_ok_inv h
    rw [scanChildren_id es _ es1 (fun l hm => by
      have := hl l hm; simp only [lacksL, Bool.and_eq_true] at this; exact this.2) h3]
  | .str k :: es, ls, es', hl, h => by
    simp only [scanChildren] at h
    obtain ⟨es1, h3, rfl⟩ := map_ok_inv h
    rw [scanChildren_id es _ es1 (fun l hm => by
      have := hl l hm; simp only [lacksL, Bool.and_eq_true] at this; exact this.2) h3]
  | .lit k :: es, ls, es', hl, h => by
    simp only [scanChildren] at h
    obtain ⟨es1, h3, rfl⟩ := map_ok_inv h
    rw [scanChildren_id es _ es1 (fun l hm => by
      have := hl l hm; simp only [lacksL, Bool.and_eq_true] at this; exact this.2) h3]
  | .list k :: es, ls, es', hl, h => by
    simp only [scanChildren] at h
    obtain ⟨es1, h3, rfl⟩ := map_ok_inv h
    rw [scanChildren_id es _ es1 (fun l hm => by
      have := hl l hm; simp only [lacksL, Bool.and_eq_true] at this; exact this.2) h3]
  | .struct k :: es, ls, es', hl, h => by
    simp only [scanChildren] at h
    obtain ⟨es1, h3, rfl⟩ := map_ok_inv h
    rw [scanChildren_id es _ es1 (fun l hm => by
      have := hl l hm; simp only [lacksL, Bool.and_eq_true] at this; exact this.2) h3]
  | .file k :: es, ls, es', hl, h => by
    simp only [scanChildren] at h
    obtain ⟨es1, h3, rfl⟩ := map_ok_inv h
    rw [scanChildren_id es _ es1 (fun l hm => by
      have := hl l hm; simp only [lacksL, Bool.and_eq_true] at this; exact this.2) h3]
end

/-- The keywords of OpenAPI schemas that JSON Schema does not have. -/
def openapiOnly : List String :=
  ["nullable", "discriminator", "readOnly", "writeOnly", "xml", "externalDocs", "example",
   "deprecated"]

private theorem dropped_openapiOnly {l : String} (h : l ∈ dropped) : l ∈ openapiOnly := by
  simp only [dropped, List.mem_cons, List.not_mem_nil, or_false] at h
  rcases h with rfl | rfl | rfl | rfl | rfl | rfl | rfl | rfl <;> decide

/-- C70.  A schema with a type that uses none of OpenAPI's own keywords is returned as it
is, with `$schema` added at the end (for every such schema that can be processed,
whatever else it contains). -/
theorem C70_only_openapi_changed (es : List Node) (t : String) (d : Node)
    (hty : lookupLit es "type" = some (.str t)) (ht : t ∈ knownTypes)
    (hl : ∀ l ∈ openapiOnly, lacks l (.struct es) = true)
    (h : scan false (.struct es) = .ok d) :
    d = .struct (es ++ [.field (.str "$schema")
      (.str "http://json-schema.org/draft-04/schema#")]) := by
  obtain ⟨es1, h1, rfl⟩ := typed_scan hty ht h
  have hl' : ∀ l ∈ dropped, lacksL l es = true := fun l hm => by
    simpa [lacks] using hl l (dropped_openapiOnly hm)
  rw [scanChildren_id es _ es1 hl' h1]
  have hn : nullable es = false := by
    simp [nullable, lacksL_lookup (hl' "nullable" (by decide))]
  rw [hn]
  simp [cleanup, fix_id hl', schemaField]

example : ∃ d, scan false (.struct [
      .field (.str "type") (.str "object"),
      .field (.str "properties") (.struct [
        .field (.str "a") (.struct [.field (.str "type") (.str "string")])])]) = .ok d ∧
    ∀ l ∈ openapiOnly, lacks l (.struct [
      .field (.str "type") (.str "object"),
      .field (.str "properties") (.struct [
        .field (.str "a") (.struct [.field (.str "type") (.str "string")])])]) = true :=
  ⟨_, rfl, by decide⟩

/-- C70.  At a schema with a type, none of OpenAPI's own keywords is left, and all other
fields but `type` and the ones holding the schemas of its parts are kept as they are. -/
theorem C70_keywords (b : Bool) (es : List Node) (t : String) (d : Node)
    (hty : lookupLit es "type" = some (.str t)) (ht : t ∈ knownTypes)
    (h : scan b (.struct es) = .ok d) :
    ∃ es', d = .struct es' ∧ (∀ l ∈ openapiOnly, ∀ x, .field (.str l) x ∉ es') ∧
      (∀ k x, .field (.str k) x ∈ es → k ∉ openapiOnly → k ≠ "type" →
        k ∉ ["properties", "additionalProperties", "items"] → .field (.str k) x ∈ es') := by
  obtain ⟨es1, h1, rfl⟩ := typed_scan hty ht h
  refine ⟨_, rfl, ?_, ?_⟩
  · intro l hl x hc
    have hld : l ∈ dropped ∧ l ≠ "$schema" := by
      simp only [openapiOnly, List.mem_cons, List.not_mem_nil, or_false] at hl
      rcases hl with rfl | rfl | rfl | rfl | rfl | rfl | rfl | rfl <;> decide
    have hin : .field (.str l) x ∈ es1.filterMap (fixElt (nullable es)) := by
      unfold cleanup at hc
      cases b
      · simp only [Bool.false_eq_true, if_false, List.mem_append, List.mem_singleton] at hc
        rcases hc with hc | hc
        · exact hc
        · simp only [schemaField, Node.field.injEq, Lab.str.injEq] at hc
          exact absurd hc.1 hld.2
      · simpa using hc
    obtain ⟨e, _, he⟩ := List.mem_filterMap.mp hin
    cases e with
    | field la y =>
      cases la with
      | str k =>
        simp only [fixElt] at he
        split at he
        · cases he
        next hk =>
          split at he
          · next ht' =>
            simp only [Option.some.injEq, Node.field.injEq, Lab.str.injEq] at he
            rw [he.1] at hk
            exact hk hld.1
          · simp only [Option.some.injEq, Node.field.injEq, Lab.str.injEq] at he
            rw [he.1] at hk
            exact hk hld.1
      | ident k => simp [fixElt] at he
    | _ => simp [fixElt] at he
  · intro k x hm hk hkt hkp
    exact cleanup_mem (scanChildren_mem h1 (fun hc => hkp (partKeys_sub hc)) hm)
      (fun hc => hk (dropped_openapiOnly hc)) hkt

example : ∃ d, scan true (.struct [
      .field (.str "type") (.str "string"), .field (.str "minLength") (.lit "1"),
      .field (.str "deprecated") (.lit "true")]) = .ok d := ⟨_, rfl⟩

/-! ## C71: outcomes -/

private theorem typesKnown_lookup {es : List Node} (h : typesKnownL es = true) :
    schemaType es = none ∨ ∃ t, schemaType es = some t ∧ t ∈ knownTypes := by
  have key : ∀ es : List Node, typesKnownL es = true → ∀ x, lookupLit es "type" = some x →
      (∀ l, x ≠ .lit l) ∧ ∀ t, x = .str t → t ∈ knownTypes := by
    intro es hk x hx
    have hm := lookupLit_mem hx
    have : typesKnown (.field (.str "type") x) = true := by
      clear hx
      induction es with
      | nil => cases hm
      | cons e es ih =>
        simp only [typesKnownL, Bool.and_eq_true] at hk
        rcases List.mem_cons.mp hm with rfl | hm'
        · exact hk.1
        · exact ih hk.2 hm'
    constructor
    · rintro l rfl; simp [typesKnown] at this
    · rintro t rfl
      simpa [typesKnown, knownTypes] using this
  simp only [schemaType, getField_eq_lookupLit]
  cases hl : lookupLit es "type" with
  | none => left; rfl
  | some x =>
    obtain ⟨h1, h2⟩ := key es h x hl
    cases x with
    | lit l => exact absurd rfl (h1 l)
    | str t =>
      right
      have := h2 t rfl
      refine ⟨t, ?_, this⟩
      have hne : t ≠ "" := by rintro rfl; simp [knownTypes] at this
      simp [hne]
    | _ => left; rfl

mutual
private theorem scan_known (b : Bool) : ∀ s, typesKnown s = true → ∃ d, scan b s = .ok d
  | .str _, _ => ⟨_, by simp [scan]; rfl⟩
  | .lit _, _ => ⟨_, by simp [scan]; rfl⟩
  | .list es, h => by
    obtain ⟨es', h1⟩ := scanList_known b es (by simpa [typesKnown] using h)
    exact ⟨.list es', by simp [scan, h1]⟩
  | .file es, h => by
    obtain ⟨es', h1⟩ := scanList_known b es (by simpa [typesKnown] using h)
    exact ⟨.file es', by simp [scan, h1]⟩
  | .field l x, h => by
    obtain ⟨x', h1⟩ := scan_known b x (by
      simp only [typesKnown, Bool.and_eq_true] at h; exact h.2)
    exact ⟨.field l x', scan_field h1⟩
  | .struct es, h => by
    have h' : typesKnownL es = true := by simpa [typesKnown] using h
    rcases typesKnown_lookup h' with hn | ⟨t, hst, ht⟩
    · obtain ⟨es', h1⟩ := scanList_known b es h'
      exact ⟨_, scan_none hn h1⟩
    · obtain ⟨es', h1⟩ := scanChildren_known (partKeys t) es h'
      refine ⟨.struct (cleanup b (checkNull es) es'), ?_⟩
      rw [scan, hst]
      simp only [childLabels_known ht, h1, orPanic]
      rfl
private theorem scanList_known (b : Bool) : ∀ es, typesKnownL es = true → ∃ d, scanList b es = .ok d
  | [], _ => ⟨[], by simp [scanList]⟩
  | e :: es, h => by
    simp only [typesKnownL, Bool.and_eq_true] at h
    obtain ⟨e', h1⟩ := scan_known b e h.1
    obtain ⟨es', h2⟩ := scanList_known b es h.2
    exact ⟨_, scanList_cons h1 h2⟩
private theorem scanChildren_known : ∀ (ls : List String) (es : List Node), typesKnownL es = true →
    ∃ d, scanChildren ls es = .ok d
  | ls, [], _ => ⟨[], by simp [scanChildren]⟩
  | ls, .field (.str k) x :: es, h => by
    simp only [typesKnownL, typesKnown, Bool.and_eq_true] at h
    simp only [scanChildren]
    split
    · obtain ⟨x', h1⟩ := scan_known true x h.1.2
      obtain ⟨es', h2⟩ := scanChildren_known (ls.filter (· ≠ k)) es h.2
      exact ⟨.field (.str k) x' :: es', by rw [h1, Res.bind_ok, h2]; rfl⟩
    · obtain ⟨es', h2⟩ := scanChildren_known ls es h.2
      exact ⟨_, by rw [h2]; rfl⟩
  | ls, .field (.ident k) x :: es, h => by
    simp only [typesKnownL, Bool.and_eq_true] at h
    obtain ⟨es', h2⟩ := scanChildren_known ls es h.2
    exact ⟨_, by simp only [scanChildren, h2]; rfl⟩
  | ls, .str k :: es, h => by
    simp only [typesKnownL, Bool.and_eq_true] at h
    obtain ⟨es', h2⟩ := scanChildren_known ls es h.2
    exact ⟨_, by simp only [scanChildren, h2]; rfl⟩
  | ls, .lit k :: es, h => by
    simp only [typesKnownL, Bool.and_eq_true] at h
    obtain ⟨es', h2⟩ := scanChildren_known ls es h.2
    exact ⟨_, by simp only [scanChildren, h2]; rfl⟩
  | ls, .list k :: es, h => by
    simp only [typesKnownL, Bool.and_eq_true] at h
    obtain ⟨es', h2⟩ := scanChildren_known ls es h.2
    exact ⟨_, by simp only [scanChildren, h2]; rfl⟩
  | ls, .struct k :: es, h => by
    simp only [typesKnownL, Bool.and_eq_true] at h
    obtain ⟨es', h2⟩ := scanChildren_known ls es h.2
    exact ⟨_, by simp only [scanChildren, h2]; rfl⟩
  | ls, .file k :: es, h => by
    simp only [typesKnownL, Bool.and_eq_true] at h
    obtain ⟨es', h2⟩ := scanChildren_known ls es h.2
    exact ⟨_, by simp only [scanChildren, h2]; rfl⟩
end

/-- C71.  Generation succeeds for every OpenAPI document all of whose types are known ones
(wherever they occur), and passes errors of the OpenAPI generator on. -/
theorem C71_returns :
    (∀ d, typesKnown d = true → ∃ d', generateSchema (.ok d) = .ok d') ∧
    (∀ e, generateSchema (.err e) = .err e) :=
  ⟨fun d h => scan_known false d h, fun _ => rfl⟩

example : typesKnown (document "root" "0.0" exSchemas) = true := rfl

/-- C71, refuted (general): an unknown type at the top is an error, but one inside of an
object is a panic. -/
theorem C71_unknown_type (t name : String) (h : t ∉ knownTypes) :
    (∃ e, scan false (.struct [.field (.str "type") (.str t)]) = .err e) ∧
    scan false (.struct [.field (.str "type") (.str "object"),
      .field (.str "properties") (.struct [
        .field (.str name) (.struct [.field (.str "type") (.str t)])])]) = .panic .explicit := by
  have hin : ∀ b, scan b (.struct [.field (.str "type") (.str t)]) = .err ⟨[]⟩ := by
    intro b
    by_cases h0 : t = ""
    · subst h0; rfl
    · simp only [knownTypes, List.mem_cons, List.not_mem_nil, or_false, not_or] at h
      simp [scan, schemaType, getField, h0, childLabels, h]
  refine ⟨⟨_, hin false⟩, ?_⟩
  have hps : schemaType [.field (.str name) (.struct [.field (.str "type") (.str t)])] = none := by
    by_cases hn : name = "type" <;> simp [schemaType, getField, hn]
  have : scan true (.struct [.field (.str name) (.struct [.field (.str "type") (.str t)])]) =
      .err ⟨[]⟩ := by
    rw [scan, hps]
    simp only [scanList]
    rw [scan, hin true]; rfl
  have hsc : scanChildren ["properties", "additionalProperties"]
      [.field (.str "type") (.str "object"), .field (.str "properties") (.struct [
        .field (.str name) (.struct [.field (.str "type") (.str t)])])] = .err ⟨[]⟩ := by
    rw [scanChildren, if_neg (by decide), scanChildren, if_pos (by decide), this]; rfl
  have hst : schemaType [.field (.str "type") (.str "object"),
      .field (.str "properties") (.struct [
        .field (.str name) (.struct [.field (.str "type") (.str t)])])] = some "object" := rfl
  rw [scan, hst]
  simp only [childLabels, if_true, hsc]
  rfl

example : "null" ∉ knownTypes := by decide

/-! ## C72: `$schema` -/

private theorem cleanup_lab {L : String} {n : Bool} {es : List Node} (h : lacksL L es = true) :
    lacksL L (es.filterMap (fixElt n)) = true := by
  induction es with
  | nil => rfl
  | cons e es ih =>
    simp only [lacksL, Bool.and_eq_true] at h
    have ih' := ih h.2
    simp only [List.filterMap_cons]
    cases hf : fixElt n e with
    | none => exact ih'
    | some e' =>
      simp only [lacksL, ih', Bool.and_true]
      cases e with
      | field la x =>
        cases la with
        | str k =>
          simp only [fixElt] at hf
          split at hf
          · cases hf
          · split at hf
            · next hc =>
              simp only [Option.some.injEq] at hf
              subst hf
              have := h.1
              simp only [lacks, Bool.and_eq_true] at this
              simp [lacks, lacksL, this.2]
              simpa using this.1
            · simp only [Option.some.injEq] at hf; subst hf; exact h.1
        | ident k => simp only [fixElt, Option.some.injEq] at hf; subst hf; exact h.1
      | _ => simp only [fixElt, Option.some.injEq] at hf; subst hf; exact h.1

mutual
private theorem scan_lab {L : String} : ∀ (s d : Node), lacks L s = true → scan true s = .ok d →
    lacks L d = true
  | .str _, d, _, h => by simp [scan] at h; subst h; rfl
  | .lit _, d, _, h => by simp [scan] at h; subst h; rfl
  | .list es, d, hl, h => by
    simp only [scan] at h
    obtain ⟨es', h1, rfl⟩ := map_ok_inv h
    simp only [lacks] at hl ⊢
    exact scanList_lab es es' hl h1
  | .file es, d, hl, h => by
    simp only [scan] at h
    obtain ⟨es', h1, rfl⟩ := map_ok_inv h
    simp only [lacks] at hl ⊢
    exact scanList_lab es es' hl h1
  | .field la x, d, hl, h => by
    simp only [scan] at h
    obtain ⟨x', h1, rfl⟩ := map_ok_inv h
    simp only [lacks, Bool.and_eq_true] at hl ⊢
    exact ⟨hl.1, scan_lab x x' hl.2 h1⟩
  | .struct es, d, hl, h => by
    simp only [lacks] at hl
    simp only [scan] at h
    split at h
    · obtain ⟨es', h1, rfl⟩ := map_ok_inv h
      simp only [lacks]
      exact scanList_lab es es' hl h1
    · split at h
      · cases h
      · obtain ⟨es', h1, rfl⟩ := map_ok_inv h
        simp only [lacks, cleanup, if_true]
        exact cleanup_lab (scanChildren_lab es _ es' hl (orPanic_inv h1))
private theorem scanList_lab {L : String} : ∀ (es es' : List Node), lacksL L es = true →
    scanList true es = .ok es' → lacksL L es' = true
  | [], es', _, h => by simp [scanList] at h; subst h; rfl
  | e :: es, es', hl, h => by
    simp only [scanList] at h
    obtain ⟨e1, h1, h2⟩ := bind_ok_inv h
    obtain ⟨es1, h3, rfl⟩ := map_ok_inv h2
    simp only [lacksL, Bool.and_eq_true] at hl ⊢
    exact ⟨scan_lab e e1 hl.1 h1, scanList_lab es es1 hl.2 h3⟩
private theorem scanChildren_lab {L : String} : ∀ (es : List Node) (ls : List String) (es' : List Node),
    lacksL L es = true → scanChildren ls es = .ok es' → lacksL L es' = true
  | [], _, es', _, h => by simp [scanChildren] at h; subst h; rfl
  | .field (.str k) x :: es, ls, es', hl, h => by
    simp only [lacksL, lacks, Bool.and_eq_true] at hl
    simp only [scanChildren] at h
    split at h
    · obtain ⟨x1, h1, h2⟩ := bind_ok_inv h
      obtain ⟨es1, h3, rfl⟩ := map_ok_inv h2
      simp only [lacksL, lacks, Bool.and_eq_true]
      exact ⟨⟨hl.1.1, scan_lab x x1 hl.1.2 h1⟩, scanChildren_lab es _ es1 hl.2 h3⟩
    · obtain ⟨es1, h3, rfl⟩ := map_ok_inv h
      simp only [lacksL, lacks, Bool.and_eq_true]
      exact ⟨hl.1, scanChildren_lab es _ es1 hl.2 h3⟩
  | .field (.ident k) x :: es, ls, es', hl, h => by
    simp only [lacksL, Bool.and_eq_true] at hl
    simp only [scanChildren] at h
    obtain ⟨es1, h3, rfl⟩ := map_ok_inv h
    simp [lacksL, hl.1, scanChildren_lab es ls es1 hl.2 h3]
  | .str k :: es, ls, es', hl, h => by
    simp only [lacksL, Bool.and_eq_true] at hl
    simp only [scanChildren] at h
    obtain ⟨es1, h3, rfl⟩ := map_ok_inv h
    simp [lacksL, hl.1, scanChildren_lab es ls es1 hl.2 h3]
  | .lit k :: es, ls, es', hl, h => by
    simp only [lacksL, Bool.and_eq_true] at hl
    simp only [scanChildren] at h
    obtain ⟨es1, h3, rfl⟩ := map_ok_inv h
    simp [lacksL, hl.1, scanChildren_lab es ls es1 hl.2 h3]
  | .list k :: es, ls, es', hl, h => by
    simp only [lacksL, Bool.and_eq_true] at hl
    simp only [scanChildren] at h
    obtain ⟨es1, h3, rfl⟩ := map_ok_inv h
    simp [lacksL, hl.1, scanChildren_lab es ls es1 hl.2 h3]
  | .struct k :: es, ls, es', hl, h => by
    simp only [lacksL, Bool.and_eq_true] at hl
    simp only [scanChildren] at h
    obtain ⟨es1, h3, rfl⟩ := map_ok_inv h
    simp [lacksL, hl.1, scanChildren_lab es ls es1 hl.2 h3]
  | .file k :: es, ls, es', hl, h => by
    simp only [lacksL, Bool.and_eq_true] at hl
    simp only [scanChildren] at h
    obtain ⟨es1, h3, rfl⟩ := map_ok_inv h
    simp [lacksL, hl.1, scanChildren_lab es ls es1 hl.2 h3]
end

/-- C72 (partial).  A component with a type declares `$schema`, once, and nothing inside
of it does. -/
theorem C72_schema_declared_partial (es : List Node) (t : String) (d : Node)
    (hty : lookupLit es "type" = some (.str t)) (ht : t ∈ knownTypes)
    (hl : lacks "$schema" (.struct es) = true)
    (h : scan false (.struct es) = .ok d) :
    ∃ es', d = .struct (es' ++ [.field (.str "$schema")
      (.str "http://json-schema.org/draft-04/schema#")]) ∧ lacks "$schema" (.struct es') = true := by
  obtain ⟨es1, h1, rfl⟩ := typed_scan hty ht h
  refine ⟨es1.filterMap (fixElt (nullable es)), by simp [cleanup, schemaField], ?_⟩
  simp only [lacks] at hl ⊢
  exact cleanup_lab (scanChildren_lab es _ es1 hl h1)

example : lacks "$schema" (.struct exOperators) = true ∧
    ∃ d, scan false (.struct exOperators) = .ok d := ⟨rfl, _, rfl⟩

/-- C72, refuted (witness): a component without a type of its own does not declare
`$schema`, while each of its alternatives does. -/
theorem C72_refuted :
    let s := fun t => [.field (.str "type") (.str t),
      .field (.str "$schema") (.str "http://json-schema.org/draft-04/schema#")]
    scan false (.struct [.field (.str "oneOf") (.list [
        .struct [.field (.str "type") (.str "string")],
        .struct [.field (.str "type") (.str "boolean")]])]) =
      .ok (.struct [.field (.str "oneOf") (.list [
        .struct (s "string"), .struct (s "boolean")])]) := rfl

end Thema.Props

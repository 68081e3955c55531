import Mathlib.Data.List.Chain
import Mathlib.Data.List.Forall2
import Verif.Spec.Lineage
import Verif.Lemmas.Search

/-! Lemmas about `BindLineage` and its checks. -/

namespace Thema

open Spec

variable {V : Type}

/-! ### Result plumbing -/

theorem Res.bind_eq_ok {α β : Type} {x : Res α} {f : α → Res β} {b : β} :
    x.bind f = .ok b ↔ ∃ a, x = .ok a ∧ f a = .ok b := by
  cases x <;> simp [Res.bind]

theorem Res.map_eq_ok {α β : Type} {x : Res α} {f : α → β} {b : β} :
    x.map f = .ok b ↔ ∃ a, x = .ok a ∧ f a = b := by
  cases x <;> simp [Res.map, Res.bind]

/-! ### Order -/

theorem notAfter_iff {a b : SV} : NotAfter a b ↔ b.less a = false := by
  unfold NotAfter
  rw [← less_iff_before]; simp

theorem sortedV_iff {vs : List SV} : SortedV vs ↔ NonDecreasing vs := by
  unfold SortedV NonDecreasing
  rw [List.pairwise_iff_getElem]
  constructor
  · intro h i j hij hj; exact notAfter_iff.2 (h i j (by omega) hj hij)
  · intro h i j hi hj hij; exact notAfter_iff.1 (h i j hij hj)

theorem strictV_iff {vs : List SV} : StrictV vs ↔ StrictlyIncreasing vs := by
  unfold StrictV StrictlyIncreasing
  rw [List.pairwise_iff_getElem]
  constructor
  · intro h i j hij hj; exact less_iff_before.1 (h i j (by omega) hj hij)
  · intro h i j hi hj hij; exact less_iff_before.2 (h i j hij hj)

instance : Trans (fun x y : SV => y.less x = false) (fun x y : SV => y.less x = false)
    (fun x y : SV => y.less x = false) := ⟨fun h₁ h₂ => not_less_trans h₁ h₂⟩

instance : Trans (fun x y : SV => x.less y = true) (fun x y : SV => x.less y = true)
    (fun x y : SV => x.less y = true) := ⟨fun h₁ h₂ => less_trans h₁ h₂⟩

theorem sortedV_iff_chain {vs : List SV} :
    SortedV vs ↔ vs.IsChain (fun x y => y.less x = false) :=
  List.isChain_iff_pairwise.symm

theorem strictV_iff_chain {vs : List SV} :
    StrictV vs ↔ vs.IsChain (fun x y => x.less y = true) :=
  List.isChain_iff_pairwise.symm

/-- A sorted list without repetitions is strictly increasing. -/
theorem SortedV.strict {vs : List SV} (h : SortedV vs) (hn : vs.Nodup) : StrictV vs := by
  unfold SortedV at h
  unfold StrictV
  unfold List.Nodup at hn
  exact (h.and hn).imp (fun {a b} h => by
    rcases less_total a b with h1 | h1 | h1
    · exact h1
    · exact absurd h1 h.2
    · rw [h.1] at h1; cases h1)

theorem StrictV.nodup {vs : List SV} (h : StrictV vs) : vs.Nodup := by
  unfold StrictV at h
  exact List.Pairwise.imp (fun {a b} h he => by rw [he, less_irrefl] at h; cases h) h

theorem nextVersion_less {a b : SV} (h : NextVersion a b) : a.less b = true := by
  rw [less_iff]
  rcases h with h | h <;> subst h <;> simp

theorem Contiguous.strictV {vs : List SV} (h : Contiguous vs) : StrictV vs := by
  rw [strictV_iff_chain, List.isChain_iff_getElem]
  intro i hi
  exact nextVersion_less (h.2 i hi)

/-! ### Schemas -/

/-- What the loop checks between two neighbours. -/
def SchRel (C : Cue V) (skip : Bool) (a b : SchemaDef V) : Prop :=
  b.v.less a.v = false ∧
    (skip = true ∨ (b.v.minor ≠ 0 ↔ C.subsumeAll b.body a.body = true))

/-- The schema object made from a declared schema. -/
def FromRaw (r : RawSchema V) (s : SchemaDef V) : Prop :=
  r.version = some s.v ∧ s.schema = r.schema ∧ s.body = r.body ∧ s.examples = r.examples

theorem checkSchemasOrder_ok {prev : Option (SchemaDef V)} {v : SV} :
    checkSchemasOrder prev v = .ok () ↔ ∀ p ∈ prev, v.less p.v = false := by
  cases prev with
  | none => simp [checkSchemasOrder]
  | some p =>
    simp only [checkSchemasOrder, Option.mem_def, Option.some.injEq, forall_eq']
    split <;> simp_all

theorem checkCompat_ok {C : Cue V} {skip : Bool} {prev : Option (SchemaDef V)} {v : SV} {b : V} :
    checkCompat C skip prev v b = .ok () ↔
      ∀ p ∈ prev, skip = true ∨ (v.minor ≠ 0 ↔ C.subsumeAll b p.body = true) := by
  cases prev with
  | none => simp [checkCompat]
  | some p =>
    simp only [checkCompat, Option.mem_def, Option.some.injEq, forall_eq']
    cases skip <;> cases C.subsumeAll b p.body <;> by_cases h : v.minor = 0 <;> simp [h]

theorem checkGoValidityLoop_ok {C : Cue V} {skip : Bool} (raws : List (RawSchema V)) :
    ∀ (prev : Option (SchemaDef V)) (l : List (SchemaDef V)),
      checkGoValidityLoop C skip prev raws = .ok l ↔
        List.Forall₂ FromRaw raws l ∧ (prev.toList ++ l).IsChain (SchRel C skip) := by
  induction raws with
  | nil =>
    intro prev l
    simp only [checkGoValidityLoop]
    constructor
    · intro h; cases h
      refine ⟨.nil, ?_⟩
      cases prev <;> simp
    · rintro ⟨h, _⟩; cases h; rfl
  | cons r rest ih =>
    intro prev l
    simp only [checkGoValidityLoop]
    cases hv : r.version with
    | none =>
      simp only
      constructor
      · intro h; cases h
      · rintro ⟨h, _⟩
        cases h with
        | cons h _ => rw [h.1] at hv; cases hv
    | some v =>
      simp only [Res.bind_eq_ok, ih]
      constructor
      · rintro ⟨_, h1, _, h2, l', ⟨h3, h4⟩, h5⟩
        rw [checkSchemasOrder_ok] at h1
        rw [checkCompat_ok] at h2
        cases h5
        refine ⟨.cons ⟨hv, rfl, rfl, rfl⟩ h3, ?_⟩
        cases prev with
        | none => simpa using h4
        | some p =>
          simp only [Option.toList, List.cons_append, List.nil_append] at h4 ⊢
          rw [List.isChain_cons_cons]
          exact ⟨⟨h1 p rfl, h2 p rfl⟩, h4⟩
      · rintro ⟨h1, h2⟩
        cases h1 with
        | @cons _ s _ l' h1 h3 =>
          obtain ⟨e1, e2, e3, e4⟩ := h1
          rw [hv] at e1
          cases e1
          have hs : s = { v := s.v, schema := r.schema, body := r.body, examples := r.examples } := by
            cases s; simp_all
          refine ⟨(), ?_, (), ?_, l', ⟨h3, ?_⟩, ?_⟩
          · rw [checkSchemasOrder_ok]
            intro p hp
            cases hp
            simp only [Option.toList, List.cons_append, List.nil_append] at h2
            rw [List.isChain_cons_cons] at h2
            exact h2.1.1
          · rw [checkCompat_ok]
            intro p hp
            cases hp
            simp only [Option.toList, List.cons_append, List.nil_append] at h2
            rw [List.isChain_cons_cons] at h2
            have := h2.1.2
            rwa [e3] at this
          · rw [← hs]
            cases prev with
            | none => simpa using h2
            | some p =>
              simp only [Option.toList, List.cons_append, List.nil_append] at h2 ⊢
              exact (List.isChain_cons_cons.1 h2).2
          · rw [← hs]

theorem fromRaw_versions {raws : List (RawSchema V)} {l : List (SchemaDef V)}
    (h : List.Forall₂ FromRaw raws l) :
    raws.map (·.version) = (l.map (·.v)).map some := by
  induction h with
  | nil => rfl
  | cons h _ ih => simp [h.1, ih]

/-- Everything a successful bind establishes about the schemas. -/
theorem schRel_sorted {C : Cue V} {skip : Bool} {l : List (SchemaDef V)}
    (h : l.IsChain (SchRel C skip)) : SortedV (l.map (·.v)) := by
  rw [sortedV_iff_chain, List.isChain_map]
  exact h.imp (fun a b h => h.1)

/-! ### The options -/

theorem bindConfig_foldl (force : Bool) (opts : List (BindOption V)) :
    ∀ c : BindConfig V,
      ((opts.foldl (BindOption.apply force) c).skipbuggychecks = true ↔
        c.skipbuggychecks = true ∨ (force = false ∧ BindOption.skipBuggyChecks ∈ opts)) := by
  induction opts with
  | nil => intro c; simp
  | cons o opts ih =>
    intro c
    rw [List.foldl_cons, ih]
    cases o <;> cases force <;> simp [BindOption.apply]

theorem bindConfig_skip {force : Bool} {opts : List (BindOption V)} :
    (bindConfig force opts).skipbuggychecks = true ↔
      force = false ∧ BindOption.skipBuggyChecks ∈ opts := by
  unfold bindConfig
  rw [bindConfig_foldl]; simp

/-! ### Shape -/

theorem checkField_ok {f : FieldState} : checkField f = .ok () ↔ f = .concrete := by
  cases f <;> simp [checkField]

theorem checkExists_ok {r : RawLineage V} : checkExists r = .ok () ↔ r.exists_ = true := by
  unfold checkExists
  cases r.exists_ <;> simp

theorem checkLineageShape_ok {r : RawLineage V} :
    checkLineageShape r = .ok () ↔ r.nameField = .concrete ∧ r.schemasField = .concrete ∧
      r.finalErr = false ∧ lineageConstraints r = true := by
  unfold checkLineageShape
  cases r.nameField <;> cases r.schemasField <;> cases r.finalErr <;>
    cases lineageConstraints r <;> simp [checkField]

theorem checkNativeValidity_ok {r : RawLineage V} :
    checkNativeValidity r = .ok () ↔ r.rawErr = false ∧ r.uniErr = false := by
  unfold checkNativeValidity
  cases r.rawErr <;> cases r.uniErr <;> simp

/-! ### CUE lens order -/

/-- Order of neighbouring lenses as `doCheck` sees it. -/
def LensRel (a b : LensVersionDef) : Prop :=
  b.to.less a.to = false ∧ (a.to = b.to → b.frm.less a.frm = false)

theorem doCheck_ok {prev : Option LensVersionDef} {c : LensVersionDef} :
    doCheck prev c = .ok () ↔ ∀ p ∈ prev, LensRel p c := by
  cases prev with
  | none => simp [doCheck]
  | some p =>
    simp only [doCheck, Option.mem_def, Option.some.injEq, forall_eq', LensRel]
    cases c.to.less p.to <;> cases c.frm.less p.frm <;> by_cases h : p.to = c.to <;> simp [h]

/-- The lens's versions decode to `d`. -/
def Decodes (l : RawLens V) (d : LensVersionDef) : Prop :=
  l.to = some d.to ∧ l.frm = some d.frm

theorem newLensVersionDef_ok {l : RawLens V} {d : LensVersionDef} :
    newLensVersionDef l = .ok d ↔ Decodes l d := by
  unfold newLensVersionDef Decodes
  cases l.to <;> cases l.frm <;> cases d <;> simp

theorem checkCueLensLoop_ok (ls : List (RawLens V)) : ∀ (prev : Option LensVersionDef),
    checkCueLensLoop prev ls = .ok () ↔
      ∃ ds, List.Forall₂ Decodes ls ds ∧ (prev.toList ++ ds).IsChain LensRel := by
  induction ls with
  | nil =>
    intro prev
    simp only [checkCueLensLoop, true_iff]
    refine ⟨[], .nil, ?_⟩
    cases prev <;> simp
  | cons l rest ih =>
    intro prev
    simp only [checkCueLensLoop, Res.bind_eq_ok, newLensVersionDef_ok]
    constructor
    · rintro ⟨d, h1, _, h2, h3⟩
      rw [doCheck_ok] at h2
      obtain ⟨ds, h4, h5⟩ := (ih (some d)).1 h3
      refine ⟨d :: ds, .cons h1 h4, ?_⟩
      cases prev with
      | none => simpa using h5
      | some p =>
        simp only [Option.toList, List.cons_append, List.nil_append] at h5 ⊢
        exact List.isChain_cons_cons.2 ⟨h2 p rfl, h5⟩
    · rintro ⟨ds, h1, h2⟩
      cases h1 with
      | @cons _ d _ ds h1 h3 =>
        refine ⟨d, h1, (), ?_, (ih (some d)).2 ⟨ds, h3, ?_⟩⟩
        · rw [doCheck_ok]
          intro p hp
          cases hp
          simp only [Option.toList, List.cons_append, List.nil_append] at h2
          exact (List.isChain_cons_cons.1 h2).1
        · cases prev with
          | none => simpa using h2
          | some p =>
            simp only [Option.toList, List.cons_append, List.nil_append] at h2 ⊢
            exact (List.isChain_cons_cons.1 h2).2

instance : Trans LensRel LensRel LensRel where
  trans := by
    rintro a b c ⟨h1, h2⟩ ⟨h3, h4⟩
    refine ⟨not_less_trans h1 h3, ?_⟩
    intro he
    have e1 : b.to = a.to := by
      apply eq_of_not_less
      · exact h1
      · rw [he]; exact h3
    have e2 : b.to = c.to := by rw [e1, he]
    exact not_less_trans (h2 e1.symm) (h4 e2)

theorem lensRel_iff {a b : LensVersionDef} : LensRel a b ↔
    Before a.to b.to ∨ (a.to = b.to ∧ NotAfter a.frm b.frm) := by
  rw [notAfter_iff, ← less_iff_before]
  unfold LensRel
  constructor
  · rintro ⟨h1, h2⟩
    rcases less_total a.to b.to with h | h | h
    · exact .inl h
    · exact .inr ⟨h, h2 h⟩
    · rw [h1] at h; cases h
  · rintro (h | ⟨h1, h2⟩)
    · refine ⟨less_asymm h, ?_⟩
      intro he; rw [he, less_irrefl] at h; cases h
    · refine ⟨?_, fun _ => h2⟩
      rw [h1]; exact less_irrefl _

theorem lensRel_chain_iff {ds : List LensVersionDef} :
    ds.IsChain LensRel ↔ LensSorted (ds.map (fun d => (d.to, d.frm))) := by
  rw [List.isChain_iff_pairwise, List.pairwise_iff_getElem]
  unfold LensSorted
  constructor
  · intro h i j hij hj
    simp only [List.length_map] at hj
    simpa using lensRel_iff.1 (h i j (by omega) hj hij)
  · intro h i j hi hj hij
    have := h i j hij (by simpa using hj)
    rw [lensRel_iff]
    simpa using this

/-! ### Go lenses -/

theorem collectLenses_ok (ls : List (ImperativeLens V)) : ∀ (all res : List LensID),
    all.Nodup →
    (collectLenses all ls = .ok res ↔
      (all ++ ls.map (·.id)).Nodup ∧ (∀ l ∈ ls, l.mapper ≠ none) ∧ res = all ++ ls.map (·.id)) := by
  induction ls with
  | nil =>
    intro all res hn
    simp only [collectLenses, List.map_nil, List.append_nil, Res.ok.injEq]
    constructor
    · rintro rfl; exact ⟨hn, by simp, rfl⟩
    · rintro ⟨_, _, h⟩; exact h.symm
  | cons l rest ih =>
    intro all res hn
    simp only [collectLenses]
    split
    · rename_i hc
      have hc' : l.id ∈ all := by simpa using hc
      constructor
      · intro h; cases h
      · rintro ⟨h, _⟩
        rw [List.nodup_append] at h
        exact absurd rfl (h.2.2 _ hc' l.id (by simp))
    · rename_i hc
      have hc' : l.id ∉ all := by simpa using hc
      split
      · rename_i hm
        have hm' : l.mapper = none := by simpa using hm
        constructor
        · intro h; cases h
        · rintro ⟨_, h, _⟩; exact absurd hm' (h l (by simp))
      · rename_i hm
        have hm' : l.mapper ≠ none := by simpa using hm
        have hn' : (all ++ [l.id]).Nodup := by
          rw [List.nodup_append]
          refine ⟨hn, by simp, ?_⟩
          intro a ha b hb
          simp at hb
          subst hb
          rintro rfl; exact hc' ha
        rw [ih _ _ hn']
        simp [hm']

theorem collectLenses_cases (ls : List (ImperativeLens V)) : ∀ (all : List LensID),
    (∃ res, collectLenses all ls = .ok res) ∨ collectLenses all ls = .err ⟨[]⟩ := by
  induction ls with
  | nil => intro all; exact .inl ⟨_, rfl⟩
  | cons l rest ih =>
    intro all
    simp only [collectLenses]
    split
    · exact .inr rfl
    · split
      · exact .inr rfl
      · exact ih _

/-- The required lens ids in the order in which the code looks for them. -/
def reqList : SV → List SV → List LensID
  | _, [] => []
  | prior, v :: rest =>
    ⟨v, prior⟩ :: ((if v.major ≠ prior.major then [⟨prior, v⟩] else []) ++ reqList v rest)

theorem requireLoop_eq (vs : List SV) : ∀ (prior : SV) (s : List LensID × List LensID),
    requireLoop prior vs s = (reqList prior vs).foldl (fun s id => takeLens id s) s := by
  induction vs with
  | nil => intro prior s; rfl
  | cons v rest ih =>
    intro prior s
    simp only [requireLoop, reqList, List.foldl_cons, List.foldl_append]
    rw [ih]
    split <;> simp

theorem mapDelete_eq_erase {all : List LensID} (h : all.Nodup) (id : LensID) :
    mapDelete all id = all.erase id := by
  rw [h.erase_eq_filter]
  unfold mapDelete
  congr 1
  funext x
  by_cases h : x = id <;> simp [h]

theorem takeLens_mem {id : LensID} {all m : List LensID} (h : id ∈ all) :
    takeLens id (all, m) = (mapDelete all id, m) := by
  simp [takeLens, h]

theorem takeLens_not_mem {id : LensID} {all m : List LensID} (h : id ∉ all) :
    takeLens id (all, m) = (all, m ++ [id]) := by
  simp [takeLens, h]

theorem takeLens_foldl_perm (req : List LensID) : ∀ (all m : List LensID), all.Nodup →
    ((req.foldl (fun s id => takeLens id s) (all, m)).1 = [] ∧
      (req.foldl (fun s id => takeLens id s) (all, m)).2 = [] ↔ m = [] ∧ all.Perm req) := by
  induction req with
  | nil =>
    intro all m _
    simp [and_comm]
  | cons id req ih =>
    intro all m hn
    rw [List.foldl_cons]
    by_cases hc : id ∈ all
    · rw [takeLens_mem hc]
      rw [mapDelete_eq_erase hn, ih _ _ (hn.erase _)]
      constructor
      · rintro ⟨h1, h2⟩
        exact ⟨h1, (List.cons_perm_iff_perm_erase.2 ⟨hc, h2.symm⟩).symm⟩
      · rintro ⟨h1, h2⟩
        exact ⟨h1, (List.cons_perm_iff_perm_erase.1 h2.symm).2.symm⟩
    · rw [takeLens_not_mem hc]
      rw [ih _ _ hn]
      constructor
      · rintro ⟨h1, _⟩; simp at h1
      · rintro ⟨_, h2⟩
        exact absurd (h2.symm.subset (by simp)) hc

theorem takeLens_foldl_nodup (req : List LensID) : ∀ (all m : List LensID), req.Nodup →
    req.foldl (fun s id => takeLens id s) (all, m) =
      (all.filter (fun x => decide (x ∉ req)), m ++ req.filter (fun x => decide (x ∉ all))) := by
  induction req with
  | nil => intro all m _; simp
  | cons id req ih =>
    intro all m hn
    obtain ⟨hid, hn'⟩ := List.nodup_cons.1 hn
    rw [List.foldl_cons]
    by_cases hc : id ∈ all
    · rw [takeLens_mem hc]
      rw [ih _ _ hn']
      congr 1
      · unfold mapDelete
        rw [List.filter_filter]
        apply List.filter_congr
        intro x _
        simp [Bool.and_comm]
      · rw [List.filter_cons]
        simp only [hc, not_true, decide_false, Bool.false_eq_true, if_false]
        congr 1
        apply List.filter_congr
        intro x hx
        have : x ≠ id := by rintro rfl; exact hid hx
        simp [mapDelete, this]
    · rw [takeLens_not_mem hc]
      rw [ih _ _ hn']
      congr 1
      · apply List.filter_congr
        intro x hx
        have : x ≠ id := by rintro rfl; exact hc hx
        simp [this]
      · rw [List.filter_cons]
        simp [hc]

theorem mem_reqList {id : LensID} (vs : List SV) : ∀ (prior : SV),
    id ∈ reqList prior vs ↔ Required (prior :: vs) id := by
  induction vs with
  | nil =>
    intro prior
    simp [reqList, Required]
  | cons v rest ih =>
    intro prior
    simp only [reqList, List.mem_cons, List.mem_append, ih]
    unfold Required
    constructor
    · rintro (h | h | ⟨i, hi, h⟩)
      · exact ⟨0, by simp, .inl h⟩
      · refine ⟨0, by simp, .inr ?_⟩
        split at h
        · rename_i hne
          simp at h
          exact ⟨fun he => hne he.symm, h⟩
        · simp at h
      · exact ⟨i + 1, by simpa using hi, h⟩
    · rintro ⟨i, hi, h⟩
      cases i with
      | zero =>
        simp only [List.getElem_cons_zero, List.getElem_cons_succ] at h
        rcases h with h | ⟨hne, h⟩
        · exact .inl h
        · refine .inr (.inl ?_)
          have : v.major ≠ prior.major := fun he => hne he.symm
          simp [this, h]
      | succ i =>
        exact .inr (.inr ⟨i, by simpa using hi, h⟩)

theorem reqList_ge {id : LensID} (vs : List SV) : ∀ (prior : SV), StrictV (prior :: vs) →
    id ∈ reqList prior vs → id.frm.less prior = false ∧ id.to.less prior = false := by
  intro prior hs h
  rw [mem_reqList] at h
  obtain ⟨i, hi, h⟩ := h
  have h1 := hs.sorted.get (Nat.zero_le i) (by omega)
  have h2 := hs.sorted.get (Nat.zero_le (i + 1)) hi
  simp only [List.getElem_cons_zero] at h1 h2
  rcases h with h | ⟨_, h⟩ <;> subst h
  · exact ⟨h2, h1⟩
  · exact ⟨h1, h2⟩

theorem reqList_nodup (vs : List SV) : ∀ (prior : SV), StrictV (prior :: vs) →
    (reqList prior vs).Nodup := by
  induction vs with
  | nil => intro prior _; simp [reqList]
  | cons v rest ih =>
    intro prior hs
    have hs' : StrictV (v :: rest) := (List.pairwise_cons.1 hs).2
    have hlt : prior.less v = true := (List.pairwise_cons.1 hs).1 v (by simp)
    have hne : prior ≠ v := by rintro rfl; rw [less_irrefl] at hlt; cases hlt
    have hge : ∀ id ∈ reqList v rest, id.frm ≠ prior ∧ id.to ≠ prior := by
      intro id hid
      obtain ⟨h1, h2⟩ := reqList_ge rest v hs' hid
      constructor
      · intro he; rw [he, hlt] at h1; cases h1
      · intro he; rw [he, hlt] at h2; cases h2
    simp only [reqList, List.nodup_cons, List.nodup_append, List.mem_append, not_or]
    refine ⟨⟨?_, ?_⟩, ?_, ih v hs', ?_⟩
    · split
      · simp only [List.mem_singleton, LensID.mk.injEq, not_and]
        intro he; exact absurd he.symm hne
      · simp
    · intro h; exact (hge _ h).2 rfl
    · split <;> simp
    · intro a ha b hb
      split at ha
      · simp at ha
        subst ha
        rintro rfl
        exact (hge _ hb).1 rfl
      · simp at ha

/-- Composing the report never panics on a sorted version list. -/
theorem erroneousReason_ok {allv : List SV} (hs : SortedV allv) (id : LensID) :
    ∃ r, erroneousReason allv id = .ok r := by
  unfold erroneousReason
  split
  · exact ⟨_, rfl⟩
  · rename_i ht
    split
    · exact ⟨_, rfl⟩
    · rename_i hf
      split
      · exact ⟨_, rfl⟩
      · rename_i hne
        have hto : id.to ∈ allv := (synvExists_iff hs _).1 (by simpa using ht)
        have hfrm : id.frm ∈ allv := (synvExists_iff hs _).1 (by simpa using hf)
        obtain ⟨h1, h2, h3⟩ := searchSynv_spec hs id.frm
        obtain ⟨hx, hxe⟩ := searchSynv_found hs hfrm
        obtain ⟨k, hk, hke⟩ := List.getElem_of_mem hto
        split
        · rename_i hlt
          have hk' : k < searchSynv allv id.frm := by
            apply Nat.lt_of_not_le
            intro hle
            have := h3 k hk hle
            rw [hke, hlt] at this; cases this
          rw [if_neg (by omega), goIdx_lt (by omega)]
          exact ⟨_, rfl⟩
        · rename_i hlt
          split
          · exact ⟨_, rfl⟩
          · have hk' : searchSynv allv id.frm < k := by
              apply Nat.lt_of_not_le
              intro hle
              rcases Nat.lt_or_eq_of_le hle with h | h
              · have := h2 k hk h
                rw [hke] at this; exact hlt this
              · apply hne
                rw [← hke, ← hxe]
                congr 1
            rw [goIdx_lt (by omega)]
            exact ⟨_, rfl⟩

theorem erroneousReport_ok {allv : List SV} (hs : SortedV allv) (left : List LensID)
    (ls : List (ImperativeLens V)) : ∃ t, erroneousReport allv left ls = .ok t := by
  induction ls with
  | nil => exact ⟨_, rfl⟩
  | cons l rest ih =>
    obtain ⟨t, ht⟩ := ih
    obtain ⟨r, hr⟩ := erroneousReason_ok hs l.id
    simp only [erroneousReport, ht, hr]
    split
    · exact ⟨_, rfl⟩
    · exact ⟨_, rfl⟩

/-! ### The whole of `BindLineage` -/

theorem bindLineage_ok {C : Cue V} {force : Bool} {r : RawLineage V} {opts : List (BindOption V)}
    {L : Lineage V} :
    bindLineage C force r opts = .ok L ↔
      r.exists_ = true ∧
      (r.nameField = .concrete ∧ r.schemasField = .concrete ∧ r.finalErr = false ∧
        lineageConstraints r = true) ∧
      (r.rawErr = false ∧ r.uniErr = false) ∧
      (List.Forall₂ FromRaw r.schemas L.allsch ∧
        L.allsch.IsChain (SchRel C (bindConfig force opts).skipbuggychecks)) ∧
      checkLensesOrder r L.allsch (bindConfig force opts).implens = .ok L.lensmap ∧
      L.name = r.name ∧ L.lenses = cueLenses r := by
  unfold bindLineage
  simp only [Res.bind_eq_ok, checkGoValidity, checkGoValidityLoop_ok, Option.toList, List.nil_append]
  constructor
  · rintro ⟨_, h1, _, h2, _, h3, l, h4, m, h5, h6⟩
    cases h6
    exact ⟨checkExists_ok.1 h1, checkLineageShape_ok.1 h2, checkNativeValidity_ok.1 h3, h4, h5,
      rfl, rfl⟩
  · rintro ⟨h1, h2, h3, h4, h5, h6, h7⟩
    refine ⟨(), checkExists_ok.2 h1, (), checkLineageShape_ok.2 h2, (),
      checkNativeValidity_ok.2 h3, _, h4, _, h5, ?_⟩
    cases L
    simp_all

section

variable {C : Cue V} {force : Bool} {r : RawLineage V} {opts : List (BindOption V)}
  {L : Lineage V}

theorem bind_versions (h : bindLineage C force r opts = .ok L) :
    r.schemas.map (·.version) = L.allv.map some :=
  fromRaw_versions (bindLineage_ok.1 h).2.2.2.1.1

theorem bind_sorted (h : bindLineage C force r opts = .ok L) : SortedV L.allv :=
  schRel_sorted (bindLineage_ok.1 h).2.2.2.1.2

theorem bind_length (h : bindLineage C force r opts = .ok L) :
    L.allsch.length = r.schemas.length :=
  ((bindLineage_ok.1 h).2.2.2.1.1).length_eq.symm

theorem bind_pos (h : bindLineage C force r opts = .ok L) : 0 < L.allsch.length := by
  rw [bind_length h]
  have := (bindLineage_ok.1 h).2.1.2.2.2
  unfold lineageConstraints at this
  cases hs : r.schemas with
  | nil => rw [hs] at this; simp at this
  | cons a l => simp

end

@[simp] theorem allv_length (L : Lineage V) : L.allv.length = L.allsch.length := by
  simp [Lineage.allv]

theorem ver_lt {L : Lineage V} {p : Nat} (h : p < L.allsch.length) :
    L.ver p = L.allv[p]'(by simpa using h) := by
  have h' : p < L.allv.length := by simpa using h
  rw [Lineage.ver, List.getElem?_eq_getElem h']; rfl

end Thema

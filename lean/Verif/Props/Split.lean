import Verif.Spec.Split

/-!
# Conjunct splitting and the unification with `#Lineage` (C17, C52)
-/

namespace Thema.Props

open Spec

variable {α D : Type} {eq : CVal α → CVal α → Bool} {op : Op}

/-! ### The de-duplication loop -/

theorem dedupLoop_append (rest : List (CVal α)) : ∀ (kept : List (CVal α)),
    ∃ l, dedupLoop eq kept rest = kept ++ l := by
  induction rest with
  | nil => intro kept; exact ⟨[], by simp [dedupLoop]⟩
  | cons x rest ih =>
    intro kept
    simp only [dedupLoop]
    split
    · exact ih kept
    · obtain ⟨l, hl⟩ := ih (kept ++ [x])
      exact ⟨x :: l, by rw [hl]; simp⟩

/-- The loop keeps, of the elements not yet looked at, those not equal to one kept
before. -/
theorem dedupLoop_spec (rest : List (CVal α)) : ∀ (args kept : List (CVal α)) (keep : Nat → Bool),
    kept = ((args.zipIdx.filter (fun p => keep p.2)).map (·.1)) →
    (∀ i (hi : i < args.length),
      (keep i = false ↔ ∃ j, ∃ _ : j < i, keep j = true ∧ eq args[i] args[j] = true)) →
    KeepFirst eq (args ++ rest) (dedupLoop eq kept rest) := by
  induction rest with
  | nil =>
    intro args kept keep h1 h2
    refine ⟨keep, by simp [dedupLoop, h1], ?_⟩
    intro i hi
    simp only [List.append_nil] at hi ⊢
    exact h2 i hi
  | cons x rest ih =>
    intro args kept keep h1 h2
    let b : Bool := kept.any (fun y => eq x y)
    let keep' : Nat → Bool := fun i => if i = args.length then !b else keep i
    have hmem : ∀ y, y ∈ kept ↔ ∃ j, ∃ hj : j < args.length, keep j = true ∧ args[j] = y := by
      intro y
      rw [h1]
      simp only [List.mem_map, List.mem_filter, Prod.exists]
      constructor
      · rintro ⟨a, j, ⟨hz, hk⟩, rfl⟩
        obtain ⟨hj1, hj2⟩ := List.mem_zipIdx' hz
        exact ⟨j, hj1, hk, hj2.symm⟩
      · rintro ⟨j, hj, hk, rfl⟩
        exact ⟨args[j], j, ⟨List.mk_mem_zipIdx_iff_getElem?.2 (by simp [hj]), hk⟩, rfl⟩
    have hb : b = true ↔ ∃ j, ∃ hj : j < args.length, keep j = true ∧ eq x args[j] = true := by
      simp only [b, List.any_eq_true, hmem]
      constructor
      · rintro ⟨y, ⟨j, hj, hk, rfl⟩, he⟩; exact ⟨j, hj, hk, he⟩
      · rintro ⟨j, hj, hk, he⟩; exact ⟨_, ⟨j, hj, hk, rfl⟩, he⟩
    have hfil : (args.zipIdx.filter (fun p => keep' p.2)) =
        args.zipIdx.filter (fun p => keep p.2) := by
      apply List.filter_congr
      rintro ⟨a, j⟩ hz
      obtain ⟨hj1, _⟩ := List.mem_zipIdx' hz
      simp only [keep']
      rw [if_neg (by omega)]
    have key : ∀ kept', kept' = (((args ++ [x]).zipIdx.filter (fun p => keep' p.2)).map (·.1)) →
        KeepFirst eq (args ++ x :: rest) (dedupLoop eq kept' rest) := by
      intro kept' hk'
      have := ih (args ++ [x]) kept' keep' hk' (by
        intro i hi
        simp only [List.length_append, List.length_cons, List.length_nil] at hi
        rcases Nat.lt_or_ge i args.length with hlt | hge
        · have e1 : keep' i = keep i := by simp only [keep']; rw [if_neg (by omega)]
          rw [e1, h2 i hlt]
          constructor
          · rintro ⟨j, hj, hk, he⟩
            refine ⟨j, hj, ?_, ?_⟩
            · simp only [keep']; rw [if_neg (by omega)]; exact hk
            · simpa [List.getElem_append_left, hlt, Nat.lt_trans hj hlt] using he
          · rintro ⟨j, hj, hk, he⟩
            refine ⟨j, hj, ?_, ?_⟩
            · simp only [keep'] at hk; rw [if_neg (by omega)] at hk; exact hk
            · simpa [List.getElem_append_left, hlt, Nat.lt_trans hj hlt] using he
        · have hi' : i = args.length := by omega
          subst hi'
          have e1 : keep' args.length = !b := by simp [keep']
          rw [e1, Bool.not_eq_false', hb]
          constructor
          · rintro ⟨j, hj, hk, he⟩
            refine ⟨j, hj, ?_, ?_⟩
            · simp only [keep']; rw [if_neg (by omega)]; exact hk
            · simpa [List.getElem_append_left, hj] using he
          · rintro ⟨j, hj, hk, he⟩
            refine ⟨j, hj, ?_, ?_⟩
            · simp only [keep'] at hk; rw [if_neg (by omega)] at hk; exact hk
            · simpa [List.getElem_append_left, hj] using he)
      simpa using this
    simp only [dedupLoop]
    split
    · rename_i hany
      apply key
      rw [List.zipIdx_append, List.filter_append, List.map_append, hfil, ← h1]
      have hbt : b = true := hany
      simp [keep', hbt]
    · rename_i hany
      apply key
      rw [List.zipIdx_append, List.filter_append, List.map_append, hfil, ← h1]
      have hbt : b = false := by simpa [b] using hany
      simp [keep', hbt]

theorem dedup_keepFirst (args : List (CVal α)) : KeepFirst eq args (dedup eq args) := by
  cases args with
  | nil => exact ⟨fun _ => true, by simp [dedup], by intro i hi; simp at hi⟩
  | cons x rest =>
    have := dedupLoop_spec (eq := eq) rest [x] [x] (fun _ => true) (by simp) (by
      intro i hi
      simp only [List.length_cons, List.length_nil] at hi
      constructor
      · intro h; cases h
      · rintro ⟨j, hj, _⟩; omega)
    simpa [dedup] using this

theorem dedup_no_repeats {args : List (CVal α)} (h : args.Pairwise (fun x y => eq y x = false)) :
    dedup eq args = args := by
  have key : ∀ (rest kept : List (CVal α)),
      (kept ++ rest).Pairwise (fun x y => eq y x = false) →
      dedupLoop eq kept rest = kept ++ rest := by
    intro rest
    induction rest with
    | nil => intro kept _; simp [dedupLoop]
    | cons x rest ih =>
      intro kept hp
      simp only [dedupLoop]
      rw [if_neg]
      · rw [ih _ (by simpa using hp)]; simp
      · simp only [List.any_eq_true, not_exists, not_and, Bool.not_eq_true]
        intro y hy
        exact (List.pairwise_append.1 hp).2.2 y hy x (by simp)
  cases args with
  | nil => rfl
  | cons x rest => simpa [dedup] using key rest [x] (by simpa using h)

/-! ### C52 -/

theorem forall₂_flatMap {R : CVal α → List (CVal α) → Prop} {f : CVal α → List (CVal α)}
    (l : List (CVal α)) (h : ∀ x ∈ l, R x (f x)) : List.Forall₂ R l (l.map f) := by
  induction l with
  | nil => exact .nil
  | cons x l ih =>
    exact .cons (h x (by simp)) (ih (fun y hy => h y (by simp [hy])))

theorem flatMap_attach {β : Type} (l : List (CVal α)) (f : CVal α → List β) :
    l.attach.flatMap (fun ⟨x, _⟩ => f x) = l.flatMap f := by
  rw [List.flatMap_def, List.flatMap_def]
  congr 1
  simp

theorem appendSplit_node (o : Op) (a : α) (args : List (CVal α)) :
    appendSplit eq op (.node o a args) =
      if o = .noOp ∧ (dedup eq args).length = 1 then dedup eq args
      else if o ≠ op then [.node o a args]
      else (dedup eq args).flatMap (appendSplit eq op) := by
  rw [appendSplit]
  simp only [flatMap_attach]

theorem leaves_node (o : Op) (a : α) (args : List (CVal α)) :
    leaves op (.node o a args) =
      if o = .noOp ∧ args.length = 1 then args
      else if o ≠ op then [.node o a args]
      else args.flatMap (leaves op) := by
  rw [leaves]
  simp only [flatMap_attach]

/-- Induction on values with the induction hypothesis for all arguments. -/
theorem CVal.rec_args {P : CVal α → Prop} (ha : ∀ a, P (.atom a))
    (hn : ∀ o a args, (∀ x ∈ args, P x) → P (.node o a args)) (v : CVal α) : P v := by
  suffices h : ∀ n (v : CVal α), v.size ≤ n → P v from h v.size v (Nat.le_refl _)
  intro n
  induction n with
  | zero => intro v hv; have := v.size_pos; omega
  | succ n ih =>
    intro v hv
    cases v with
    | atom a => exact ha a
    | node o a args =>
      apply hn
      intro x hx
      apply ih
      have := CVal.size_lt (op := o) (a := a) hx
      omega

/-- **C52**.  `AppendSplit` splits at every level, in order, and drops only
conjuncts equal to an earlier sibling that it keeps. -/
theorem C52_splits (v : CVal α) : Splits eq op v (appendSplit eq op v) := by
  induction v using CVal.rec_args with
  | ha a => rw [appendSplit]; exact .atom a
  | hn o a args ih =>
    rw [appendSplit_node]
    have hk := dedup_keepFirst (eq := eq) args
    split
    · rename_i h
      rw [h.1]
      exact .wrap a args _ hk h.2
    · rename_i h
      split
      · rename_i ho
        exact .whole o a args _ hk h ho
      · rename_i ho
        have ho : o = op := by simpa using ho
        subst ho
        rw [List.flatMap_def]
        refine .split a args _ _ hk h (forall₂_flatMap _ ?_)
        intro x hx
        exact ih x (dedup_subset eq args hx)

/-- **C52**.  If nowhere two siblings are equal, nothing is dropped: the result is
the list of all conjuncts, in order. -/
theorem C52_no_repeats_nothing_dropped (v : CVal α) (h : NoRepeats eq v) :
    appendSplit eq op v = leaves op v := by
  induction v using CVal.rec_args with
  | ha a => rw [appendSplit, leaves]
  | hn o a args ih =>
    rw [NoRepeats] at h
    rw [appendSplit_node, leaves_node, dedup_no_repeats h.1]
    have : args.flatMap (appendSplit eq op) = args.flatMap (leaves op) := by
      rw [List.flatMap_def, List.flatMap_def]
      congr 1
      apply List.map_congr_left
      intro x hx
      exact ih x hx (h.2 x hx)
    rw [this]

/-- Equal values mean the same. -/
def EqSound (eq : CVal α → CVal α → Bool) (M : Meaning α D) : Prop :=
  ∀ x y, eq x y = true → ∀ d, M.sem x d ↔ M.sem y d

theorem dedup_sem {M : Meaning α D} (heq : EqSound eq M) (args : List (CVal α)) (d : D) :
    (∀ x ∈ dedup eq args, M.sem x d) ↔ ∀ x ∈ args, M.sem x d := by
  constructor
  · intro h x hx
    obtain ⟨i, hi, rfl⟩ := List.getElem_of_mem hx
    obtain ⟨keep, k1, k2⟩ := dedup_keepFirst (eq := eq) args
    have hmem : ∀ j (hj : j < args.length), keep j = true → args[j] ∈ dedup eq args := by
      intro j hj hkj
      rw [k1]
      simp only [List.mem_map, List.mem_filter, Prod.exists]
      exact ⟨args[j], j, ⟨List.mk_mem_zipIdx_iff_getElem?.2 (by simp [hj]), hkj⟩, rfl⟩
    cases hki : keep i with
    | true => exact h _ (hmem i hi hki)
    | false =>
      obtain ⟨j, hj, hkj, he⟩ := (k2 i hi).1 hki
      exact (heq _ _ he d).2 (h _ (hmem j (by omega) hkj))
  · intro h x hx; exact h x (dedup_subset eq args hx)

/-- **C52**.  Splitting by unification loses no meaning: under any interpretation
in which unification is intersection and equal values mean the same, a datum
satisfies the value iff it satisfies every part. -/
theorem C52_meaning_preserved {M : Meaning α D} (heq : EqSound eq M) (v : CVal α) (d : D) :
    (∀ x ∈ appendSplit eq .and v, M.sem x d) ↔ M.sem v d := by
  induction v using CVal.rec_args with
  | ha a => rw [appendSplit]; simp
  | hn o a args ih =>
    rw [appendSplit_node]
    split
    · rename_i h
      obtain ⟨rfl, _⟩ := h
      rw [M.noOp_sem, dedup_sem heq]
    · split
      · simp
      · rename_i h ho
        have ho : o = .and := by simpa using ho
        subst ho
        rw [M.and_sem, ← dedup_sem heq args]
        constructor
        · intro h' y hy
          apply (ih y (dedup_subset eq args hy)).1
          intro x hx
          exact h' x (List.mem_flatMap.2 ⟨y, hy, hx⟩)
        · intro h' x hx
          obtain ⟨y, hy, hxy⟩ := List.mem_flatMap.1 hx
          exact (ih y (dedup_subset eq args hy)).2 (h' y hy) x hxy

/-! ### A concrete instance -/

/-- Equality of values by atoms: a computable stand-in for mutual subsumption. -/
def toyEq : CVal Nat → CVal Nat → Bool
  | .atom a, .atom b => a == b
  | .node _ a _, .node _ b _ => a == b
  | _, _ => false

/-- `1 & (2 & 3 & 2) & 1`. -/
def toyVal : CVal Nat :=
  .node .and 10 [.atom 1, .node .and 11 [.atom 2, .atom 3, .atom 2], .atom 1]

example : appendSplit toyEq .and toyVal = [.atom 1, .atom 2, .atom 3] := by
  simp [toyVal, appendSplit_node, appendSplit, dedup, dedupLoop, toyEq]

example : appendSplit toyEq .and (.node .and 10 [.atom 1, .node .and 11 [.atom 2, .atom 3]]) =
    leaves .and (.node .and 10 [.atom 1, .node .and 11 [.atom 2, .atom 3]]) :=
  C52_no_repeats_nothing_dropped _ (by simp [NoRepeats, toyEq])

/-- An interpretation for which the hypotheses of `C52_meaning_preserved` hold: an
atom admits only itself. -/
def toyEqAtoms : CVal Nat → CVal Nat → Bool
  | .atom a, .atom b => a == b
  | _, _ => false

/-- The meaning of a value over atoms. -/
def toySem (v : CVal Nat) (d : Nat) : Prop :=
  match v with
  | .atom a => a = d
  | .node .and _ args => ∀ x (_ : x ∈ args), toySem x d
  | .node .noOp _ args => ∀ x (_ : x ∈ args), toySem x d
  | .node _ _ _ => True
termination_by v.size
decreasing_by
  all_goals (rename_i h; exact CVal.size_lt h)

/-- The toy meaning. -/
def toyMeaning : Meaning Nat Nat :=
  { sem := toySem, and_sem := by intros; rw [toySem], noOp_sem := by intros; rw [toySem] }

theorem toyEqAtoms_sound : EqSound toyEqAtoms toyMeaning := by
  intro x y h d
  cases x <;> cases y <;> simp [toyEqAtoms] at h
  subst h; rfl

/-! ### C17 -/

variable {isLin : α → Bool} {tag : α}

theorem foldl_unify_sem (M : Meaning α D) (rest : List (CVal α)) : ∀ (x : CVal α) (d : D),
    M.sem (rest.foldl (CVal.unify tag) x) d ↔ M.sem x d ∧ ∀ y ∈ rest, M.sem y d := by
  induction rest with
  | nil => intro x d; simp
  | cons y rest ih =>
    intro x d
    rw [List.foldl_cons, ih]
    simp [CVal.unify, M.and_sem, and_assoc]

/-- **C17**.  Whatever the conjuncts of the input, the stored value means exactly
`#Lineage` and the input: no conjunct is lost. -/
theorem C17_nothing_lost {M : Meaning α D} (heq : EqSound eq M) {lindef orig raw uni : CVal α}
    (hlin : ∀ x : CVal α, x.refLineage isLin = true → ∀ d, M.sem x d ↔ M.sem lindef d)
    (h : unifyDecision eq isLin tag lindef orig = .ok (raw, uni)) (d : D) :
    M.sem uni d ↔ M.sem lindef d ∧ M.sem orig d := by
  have hu : ∀ x, M.sem (lindef.unify tag x) d ↔ M.sem lindef d ∧ M.sem x d := by
    intro x; simp [CVal.unify, M.and_sem]
  have hsplit := C52_meaning_preserved heq orig d
  unfold unifyDecision at h
  simp only at h
  split at h
  · split at h
    · simp only [Res.ok.injEq, Prod.mk.injEq] at h
      rw [← h.2, hu]
    · rename_i hne
      -- some conjunct is a reference to #Lineage
      have hex : ∃ x ∈ appendSplit eq .and orig, x.refLineage isLin = true := by
        by_contra hno
        apply hne
        congr 1
        rw [List.filter_eq_self]
        intro x hx
        cases hr : x.refLineage isLin with
        | true => exact absurd ⟨x, hx, hr⟩ hno
        | false => rfl
      obtain ⟨x0, hx0, hr0⟩ := hex
      have horig : M.sem orig d → M.sem lindef d := by
        intro ho
        exact (hlin x0 hr0 d).1 (hsplit.2 ho x0 hx0)
      obtain ⟨raw', hraw, h⟩ := Res.bind_eq_ok'.1 h
      have hrawsem : M.sem lindef d ∧ M.sem raw' d ↔ M.sem lindef d ∧ M.sem orig d := by
        split at hraw
        · cases hraw; rfl
        · split at hraw
          · rename_i o0 o1 rest hoth
            cases hraw
            rw [foldl_unify_sem]
            have e : M.sem (o0.unify tag o1) d ↔ M.sem o0 d ∧ M.sem o1 d := by
              simp [CVal.unify, M.and_sem]
            rw [e]
            constructor
            · rintro ⟨hl, ⟨h0, h1⟩, h2⟩
              refine ⟨hl, hsplit.1 ?_⟩
              intro x hx
              cases hr : x.refLineage isLin with
              | true => exact (hlin x hr d).2 hl
              | false =>
                have : x ∈ List.filter (fun av => !(av.refLineage isLin))
                    (appendSplit eq .and orig) := List.mem_filter.2 ⟨hx, by simp [hr]⟩
                rw [hoth] at this
                rcases List.mem_cons.1 this with rfl | this
                · exact h0
                · rcases List.mem_cons.1 this with rfl | this
                  · exact h1
                  · exact h2 x this
            · rintro ⟨hl, ho⟩
              have hm : ∀ x ∈ o0 :: o1 :: rest, M.sem x d := by
                intro x hx
                rw [← hoth] at hx
                exact hsplit.2 ho x (List.mem_filter.1 hx).1
              exact ⟨hl, ⟨hm o0 (by simp), hm o1 (by simp)⟩, fun y hy => hm y (by simp [hy])⟩
          · cases hraw
      split at h
      · simp only [Res.ok.injEq, Prod.mk.injEq] at h
        rw [← h.2]
        exact ⟨fun ho => ⟨horig ho, ho⟩, fun ho => ho.2⟩
      · simp only [Res.ok.injEq, Prod.mk.injEq] at h
        rw [← h.2, hu]; exact hrawsem
  · simp only [Res.ok.injEq, Prod.mk.injEq] at h
    rw [← h.2, hu]

example : ∃ raw uni, unifyDecision toyEqAtoms (fun a => a == 0) 99 (.atom 0)
      (.node .and 10 [.atom 1, .atom 0]) = .ok (raw, uni) ∧
    ∀ d, toySem uni d ↔ toySem (.atom 0) d ∧ toySem (.node .and 10 [.atom 1, .atom 0]) d := by
  have h : ∃ raw uni, unifyDecision toyEqAtoms (fun a => a == 0) 99 (.atom 0)
      (.node .and 10 [.atom 1, .atom 0]) = .ok (raw, uni) := by
    simp [unifyDecision, appendSplit_node, appendSplit, dedup, dedupLoop, toyEqAtoms,
      CVal.refLineage]
  obtain ⟨raw, uni, h⟩ := h
  refine ⟨raw, uni, h, fun d => C17_nothing_lost toyEqAtoms_sound (fun x hx d => ?_) h d⟩
  cases x with
  | atom a =>
    have : a = 0 := by simpa [CVal.refLineage] using hx
    rw [this]
  | node o a args => simp [CVal.refLineage] at hx

theorem leaves_unify (a b : CVal α) :
    leaves .and (a.unify tag b) = leaves .and a ++ leaves .and b := by
  rw [CVal.unify, leaves_node]
  simp

theorem keepFirst_pairwise {args kept : List (CVal α)} (h : KeepFirst eq args kept) :
    kept.Pairwise (fun x y => eq y x = false) := by
  obtain ⟨keep, rfl, h2⟩ := h
  rw [List.pairwise_map, List.pairwise_filter]
  rw [List.pairwise_iff_getElem]
  intro i j hi hj hij hki hkj
  simp only [List.length_zipIdx] at hi hj
  simp only [List.getElem_zipIdx, Nat.zero_add] at hki hkj ⊢
  cases he : eq args[j] args[i] with
  | false => rfl
  | true =>
    have := (h2 j hj).2 ⟨i, hij, hki, he⟩
    rw [hkj] at this; cases this

/-- **C17**.  The choice never panics, provided values that consist of nothing but
`#Lineage` conjuncts are recognised as equal. -/
theorem C17_never_panics {lindef orig : CVal α}
    (hrec : ∀ x y : CVal α, (∀ z ∈ appendSplit eq .and x, z.refLineage isLin = true) →
      (∀ z ∈ appendSplit eq .and y, z.refLineage isLin = true) → eq x y = true) :
    ∃ raw uni, unifyDecision eq isLin tag lindef orig = .ok (raw, uni) := by
  have key : ∀ v : CVal α, (∀ z ∈ appendSplit eq .and v, z.refLineage isLin = true) →
      (appendSplit eq .and v).length ≤ 1 := by
    intro v
    induction v using CVal.rec_args with
    | ha a => intro _; rw [appendSplit]; simp
    | hn o a args ih =>
      rw [appendSplit_node]
      split
      · rename_i h; intro _; omega
      · split
        · intro _; simp
        · intro hall
          have hx : ∀ x ∈ dedup eq args, ∀ z ∈ appendSplit eq .and x, z.refLineage isLin = true :=
            fun x hx z hz => hall z (List.mem_flatMap.2 ⟨x, hx, hz⟩)
          have hp := keepFirst_pairwise (dedup_keepFirst (eq := eq) args)
          cases hd : dedup eq args with
          | nil => simp
          | cons x t =>
            cases t with
            | nil =>
              rw [hd] at hx
              simp only [List.flatMap_cons, List.flatMap_nil, List.append_nil]
              exact ih x (dedup_subset eq args (by rw [hd]; simp)) (hx x (by simp))
            | cons y t =>
              exfalso
              rw [hd] at hp hx
              have h1 := (List.pairwise_cons.1 hp).1 y (by simp)
              rw [hrec y x (hx y (by simp)) (hx x (by simp))] at h1
              cases h1
  unfold unifyDecision
  simp only
  split
  · rename_i hlen
    split
    · exact ⟨_, _, rfl⟩
    · have hne : ∃ z ∈ appendSplit eq .and orig, z.refLineage isLin = false := by
        by_contra hno
        have := key orig (fun z hz => by
          cases hr : z.refLineage isLin with
          | true => rfl
          | false => exact absurd ⟨z, hz, hr⟩ hno)
        omega
      obtain ⟨z, hz, hr⟩ := hne
      have hzm : z ∈ (appendSplit eq .and orig).filter (fun av => !(av.refLineage isLin)) :=
        List.mem_filter.2 ⟨hz, by simp [hr]⟩
      split
      · simp only [Res.bind_ok]
        split <;> exact ⟨_, _, rfl⟩
      · rename_i h1
        split
        · simp only [Res.bind_ok]
          split <;> exact ⟨_, _, rfl⟩
        · rename_i hno
          exfalso
          cases hf : (appendSplit eq .and orig).filter (fun av => !(av.refLineage isLin)) with
          | nil => rw [hf] at hzm; cases hzm
          | cons o0 t =>
            cases t with
            | nil => rw [hf] at h1; simp at h1
            | cons o1 rest => exact hno o0 o1 rest hf
  · exact ⟨_, _, rfl⟩

/-- Consists of `#Lineage` conjuncts (atom 0) only. -/
def onlyLin : CVal Nat → Bool
  | .atom a => a == 0
  | .node .and _ args => args.attach.all (fun ⟨x, _⟩ => onlyLin x)
  | .node .noOp _ args => args.attach.all (fun ⟨x, _⟩ => onlyLin x)
  | .node _ _ _ => false
termination_by v => v.size
decreasing_by
  all_goals (rename_i h; exact CVal.size_lt h)

/-- Equality of atoms, and of values that are nothing but `#Lineage`. -/
def linEq (x y : CVal Nat) : Bool := (onlyLin x && onlyLin y) || toyEqAtoms x y

/-- `linEq` meets the hypothesis of `C17_never_panics`. -/
theorem linEq_rec : ∀ x y : CVal Nat,
    (∀ z ∈ appendSplit linEq .and x, z.refLineage (fun a => a == 0) = true) →
    (∀ z ∈ appendSplit linEq .and y, z.refLineage (fun a => a == 0) = true) →
    linEq x y = true := by
  let M : Meaning Nat Unit :=
    { sem := fun v _ => onlyLin v = true,
      and_sem := by intro a args d; rw [onlyLin]; simp,
      noOp_sem := by intro a args d; rw [onlyLin]; simp }
  have heq : EqSound linEq M := by
    intro x y h d
    simp only [linEq, Bool.or_eq_true, Bool.and_eq_true] at h
    rcases h with h | h
    · exact ⟨fun _ => h.2, fun _ => h.1⟩
    · cases x <;> cases y <;> simp [toyEqAtoms] at h
      subst h; rfl
  have key : ∀ x : CVal Nat,
      (∀ z ∈ appendSplit linEq .and x, z.refLineage (fun a => a == 0) = true) →
      onlyLin x = true := by
    intro x h
    apply (C52_meaning_preserved heq x ()).1
    intro z hz
    have := h z hz
    cases z with
    | atom a => show onlyLin _ = true; rw [onlyLin]; exact this
    | node o a args => simp [CVal.refLineage] at this
  intro x y hx hy
  simp [linEq, key x hx, key y hy]

example : ∃ raw uni, unifyDecision linEq (fun a => a == 0) 99 (.atom 0)
    (.node .and 10 [.atom 0, .atom 0]) = .ok (raw, uni) := C17_never_panics linEq_rec

/-- Two references to `#Lineage` and nothing else, if they were not recognised as
equal, would make the choice panic. -/
example : (unifyDecision (fun _ _ => false) (fun a => a == 0) 99 (.atom 0)
    (.node .and 10 [.atom 0, .atom 0])).Panics := by
  simp [unifyDecision, appendSplit_node, appendSplit, dedup, dedupLoop,
    CVal.refLineage, Res.Panics]

/-- **C17** (partial).  If no level of the input has equal siblings, `#Lineage`
occurs at most once among the conjuncts, and it is not the whole input, then the
stored value has `#Lineage` exactly once among its conjuncts and all conjuncts of
the input.  Missing: inputs with repeated conjuncts
(`C17_more_than_once`). -/
theorem C17_exactly_once_partial {l : α} (hl : isLin l = true) {orig : CVal α}
    (hn : NoRepeats eq orig) (hc : linCount isLin orig ≤ 1)
    (hw : ¬ ∃ x, leaves .and orig = [x] ∧ x.refLineage isLin = true) :
    ∃ raw uni, unifyDecision eq isLin tag (.atom l) orig = .ok (raw, uni) ∧
      linCount isLin uni = 1 ∧ ∀ x ∈ leaves .and orig, x ∈ leaves .and uni := by
  have hsplit : appendSplit eq .and orig = leaves .and orig :=
    C52_no_repeats_nothing_dropped orig hn
  have hlc : ∀ v, linCount isLin (CVal.unify tag (.atom l) v) = 1 + linCount isLin v := by
    intro v
    unfold linCount
    rw [leaves_unify, leaves, List.countP_append]
    simp [CVal.refLineage, hl]
  have hlm : ∀ v x, x ∈ leaves .and v → x ∈ leaves .and (CVal.unify tag (.atom l) v) := by
    intro v x hx; rw [leaves_unify]; simp [hx]
  unfold unifyDecision
  simp only [hsplit]
  have hcount : ((leaves .and orig).filter (fun av => !(av.refLineage isLin))).length +
      linCount isLin orig = (leaves .and orig).length := by
    unfold linCount
    rw [← List.countP_eq_length_filter]
    have := List.length_eq_countP_add_countP (fun x : CVal α => x.refLineage isLin)
      (l := leaves .and orig)
    have e : List.countP (fun av => !(CVal.refLineage isLin av)) (leaves .and orig) =
        List.countP (fun a => decide ¬ (CVal.refLineage isLin a = true)) (leaves .and orig) := by
      apply List.countP_congr; intro x _; simp
    rw [e]; omega
  split
  · split
    · rename_i h1 h2
      refine ⟨_, _, rfl, ?_, hlm orig⟩
      rw [hlc]; omega
    · rename_i h1 h2
      have hc1 : linCount isLin orig = 1 := by omega
      have hlen : ((leaves .and orig).filter (fun av => !(av.refLineage isLin))).length =
          (leaves .and orig).length - 1 := by omega
      simp only [hlen, if_true]
      split
      · exact ⟨_, _, rfl, hc1, fun x hx => hx⟩
      · rename_i h3
        split
        · exact ⟨_, _, rfl, hc1, fun x hx => hx⟩
        · rename_i hno
          exfalso
          cases hf : (leaves .and orig).filter (fun av => !(av.refLineage isLin)) with
          | nil => rw [hf] at hlen; simp at hlen; omega
          | cons o0 t =>
            cases t with
            | nil => rw [hf] at hlen; simp at hlen; omega
            | cons o1 rest => exact hno o0 o1 rest hf
  · rename_i h1
    refine ⟨_, _, rfl, ?_, hlm orig⟩
    rw [hlc]
    have : linCount isLin orig = 0 := by
      by_contra hne
      have hc1 : linCount isLin orig = 1 := by omega
      apply hw
      have hlen : (leaves .and orig).length = 1 := by
        have : 1 ≤ (leaves .and orig).length := by omega
        omega
      obtain ⟨x, hx⟩ := List.length_eq_one_iff.1 hlen
      refine ⟨x, hx, ?_⟩
      unfold linCount at hc1
      rw [hx] at hc1
      cases hr : x.refLineage isLin with
      | true => rfl
      | false => simp [hr] at hc1
    omega

/-- Atom 0 is a reference to `#Lineage`. -/
def toyLin : Nat → Bool := fun a => a == 0

example : ∃ raw uni, unifyDecision toyEq toyLin 99 (.atom 0) (.node .and 10 [.atom 0, .atom 1]) =
      .ok (raw, uni) ∧ linCount toyLin uni = 1 ∧
    ∀ x ∈ leaves .and (.node .and 10 [.atom 0, .atom 1]), x ∈ leaves .and uni :=
  C17_exactly_once_partial (l := 0) rfl (by simp [NoRepeats, toyEq])
    (by simp [linCount, leaves_node, leaves, CVal.refLineage, toyLin])
    (by simp [leaves_node, leaves])

/-- **C17** (refutation).  `#Lineage` ends up more than once among the conjuncts
for the inputs `#Lineage`, `#Lineage & #Lineage & x`, and
`#Lineage & (#Lineage & x)`: twice, twice and three times. -/
theorem C17_more_than_once :
    (∃ raw uni, unifyDecision toyEq toyLin 99 (.atom 0) (.atom 0) = .ok (raw, uni) ∧
      linCount toyLin uni = 2) ∧
    (∃ raw uni, unifyDecision toyEq toyLin 99 (.atom 0)
        (.node .and 10 [.atom 0, .atom 0, .atom 1]) = .ok (raw, uni) ∧ linCount toyLin uni = 2) ∧
    (∃ raw uni, unifyDecision toyEq toyLin 99 (.atom 0)
        (.node .and 10 [.atom 0, .node .and 11 [.atom 0, .atom 1]]) = .ok (raw, uni) ∧
      linCount toyLin uni = 3) := by
  refine ⟨⟨.atom 0, .node .and 99 [.atom 0, .atom 0], ?_, ?_⟩,
    ⟨.node .and 10 [.atom 0, .atom 0, .atom 1], .node .and 10 [.atom 0, .atom 0, .atom 1], ?_, ?_⟩,
    ⟨.node .and 10 [.atom 0, .node .and 11 [.atom 0, .atom 1]],
      .node .and 99 [.atom 0, .node .and 10 [.atom 0, .node .and 11 [.atom 0, .atom 1]]], ?_, ?_⟩⟩
  all_goals
    simp [unifyDecision, appendSplit_node, appendSplit, dedup, dedupLoop, toyEq, toyLin,
      CVal.refLineage, CVal.unify, linCount, leaves_node, leaves]

end Thema.Props

import Verif.Spec.FixFileExact
import Verif.Props.FixFile
import Verif.Props.FixExact

/-!
# C188: what `thema lineage fix` does to a package, exactly
-/

namespace Thema.Props

open Thema.Rewrite Thema.Fix Thema.FixFile Thema.Spec

variable {rw' : Syn → Syn} {W : World} {root : Bool}

/-! ### The search -/

mutual
theorem findSeqsVal_first : ∀ (v : View) {u : View}, findSeqsVal W v = some u → FirstLiteral W v u
  | .mk s l ops, u, h => by
    unfold findSeqsVal at h
    split at h
    · next hl =>
      injection h with h
      subst h
      exact .here (isStructLiteral_iff.1 hl)
    · next hl =>
      obtain ⟨pre, w, post, rfl, hw, hp, hf⟩ := findOperand_first ops h
      exact .later (fun hc => hl (isStructLiteral_iff.2 hc)) hw hp hf

theorem findOperand_first : ∀ (vs : List View) {u : View}, findOperand W vs = some u →
    ∃ pre w post, vs = pre ++ w :: post ∧ w.legacy.isSome ∧
      (∀ x ∈ pre, x.legacy.isSome → ∀ y, OperandOf y x → ¬ Literal W y) ∧ FirstLiteral W w u
  | [], u, h => by simp [findOperand] at h
  | v :: vs, u, h => by
    unfold findOperand at h
    split at h
    · next hv =>
      cases hf : findSeqsVal W v with
      | some x =>
        rw [hf] at h
        injection h with h
        subst h
        exact ⟨[], v, vs, rfl, hv, by simp, findSeqsVal_first v hf⟩
      | none =>
        rw [hf] at h
        obtain ⟨pre, w, post, rfl, h1, h2, h3⟩ := findOperand_first vs h
        refine ⟨v :: pre, w, post, rfl, h1, fun x hx hs y hy => ?_, h3⟩
        rcases List.mem_cons.1 hx with rfl | hx
        · exact findSeqsVal_none hy hf
        · exact h2 x hx hs y hy
    · next hv =>
      obtain ⟨pre, w, post, rfl, h1, h2, h3⟩ := findOperand_first vs h
      refine ⟨v :: pre, w, post, rfl, h1, fun x hx hs y hy => ?_, h3⟩
      rcases List.mem_cons.1 hx with rfl | hx
      · exact absurd hs hv
      · exact h2 x hx hs y hy
end

theorem findSeqsVal_of_none {v : View} (h : ∀ y, OperandOf y v → ¬ Literal W y) :
    findSeqsVal W v = none := by
  cases hf : findSeqsVal W v with
  | none => rfl
  | some u =>
    obtain ⟨h1, h2⟩ := findSeqsVal_some v hf
    exact absurd h2 (h u h1)

theorem findOperand_skip : ∀ (pre : List View) {w : View} {post : List View} {u : View},
    (∀ x ∈ pre, x.legacy.isSome → ∀ y, OperandOf y x → ¬ Literal W y) → w.legacy.isSome →
    findSeqsVal W w = some u → findOperand W (pre ++ w :: post) = some u
  | [], w, post, u, _, hw, h => by
    rw [List.nil_append]
    unfold findOperand
    rw [if_pos hw, h]
  | x :: pre, w, post, u, hp, hw, h => by
    have ih := findOperand_skip pre (post := post) (fun y hy => hp y (List.mem_cons_of_mem _ hy)) hw h
    rw [List.cons_append]
    unfold findOperand
    split
    · next hx => rw [findSeqsVal_of_none (hp x (List.mem_cons_self ..) hx)]; exact ih
    · exact ih

theorem findSeqsVal_iff {v u : View} : findSeqsVal W v = some u ↔ FirstLiteral W v u := by
  refine ⟨findSeqsVal_first v, fun h => ?_⟩
  induction h with
  | @here v h =>
    obtain ⟨s, l, ops⟩ := v
    unfold findSeqsVal
    rw [if_pos (isStructLiteral_iff.2 h)]
  | later h1 h2 h3 _ ih =>
    unfold findSeqsVal
    rw [if_neg (fun h => h1 (isStructLiteral_iff.1 h))]
    exact findOperand_skip _ h3 h2 ih

theorem findSeqsVal_none_iff {v : View} : findSeqsVal W v = none ↔
    ∀ w, OperandOf w v → ¬ Literal W w :=
  ⟨fun h _ hw => findSeqsVal_none hw h, findSeqsVal_of_none⟩

theorem picked_iff {v u : View} : Picked W root v u ↔ findSeqsVal W v = some u ∨
    findSeqsVal W v = none ∧ root = true ∧ u = v := by
  unfold Picked
  rw [findSeqsVal_iff, findSeqsVal_none_iff]
  constructor
  · rintro (h | ⟨h1, h2, h3⟩)
    · exact .inl h
    · exact .inr ⟨h3, h1, h2⟩
  · rintro (h | ⟨h1, h2, h3⟩)
    · exact .inl h
    · exact .inr ⟨h2, h3, h1⟩

theorem picked_unique {v u u' : View} (h : Picked W root v u) (h' : Picked W root v u') : u = u' := by
  rw [picked_iff] at h h'
  rcases h with h | ⟨h, _, rfl⟩ <;> rcases h' with h' | ⟨h', _, rfl⟩
  · rw [h] at h'; injection h'
  · rw [h] at h'; cases h'
  · rw [h] at h'; cases h'
  · rfl

theorem operand_legacy {v u : View} (h : OperandOf u v) : v.legacy.isSome → u.legacy.isSome := by
  induction h with
  | refl => exact id
  | step _ h2 _ ih => exact fun _ => ih h2

theorem picked_operand {v u : View} (h : Picked W root v u) : OperandOf u v := by
  rcases picked_iff.1 h with h | ⟨_, _, rfl⟩
  · exact (findSeqsVal_some v h).1
  · exact .refl _

/-! ### Places -/

theorem put_change {g : Syn → Syn} : ∀ (p : List Nat) (t : Syn) {x : Syn}, at? p t = some x →
    Put (g x) p t (changeAt g p t)
  | [], t, x, h => by
    injection h with h
    subst h
    exact .here
  | i :: p, .struct ds, x, h => by
    simp only [at?] at h
    obtain ⟨d, hd, hx⟩ := Option.bind_eq_some_iff.1 h
    obtain ⟨hi, hd'⟩ := List.getElem?_eq_some_iff.1 hd
    have ha : ds = ds.take i ++ d :: ds.drop (i + 1) := by
      rw [← hd', List.getElem_cons_drop, List.take_append_drop]
    have hl : i = (ds.take i).length := by rw [List.length_take]; omega
    have hb : ds.modify i (fun d => (d.1, changeAt g p d.2)) =
        ds.take i ++ (d.1, changeAt g p d.2) :: ds.drop (i + 1) := by
      have := modify_middle (fun d : Option Str × Syn => (d.1, changeAt g p d.2)) (ds.take i) d
        (ds.drop (i + 1))
      rw [← ha, ← hl] at this
      exact this
    simp only [changeAt]
    rw [hb]
    have := Put.decl (l := d.1) (pre := ds.take i) (post := ds.drop (i + 1)) (put_change (g := g) p d.2 hx)
    rw [← hl] at this
    rw [show Syn.struct ds = Syn.struct (ds.take i ++ (d.1, d.2) :: ds.drop (i + 1)) by
      congr 1]
    exact this
  | i :: p, .list ds, x, h => by
    simp only [at?] at h
    obtain ⟨d, hd, hx⟩ := Option.bind_eq_some_iff.1 h
    obtain ⟨hi, hd'⟩ := List.getElem?_eq_some_iff.1 hd
    have ha : ds = ds.take i ++ d :: ds.drop (i + 1) := by
      rw [← hd', List.getElem_cons_drop, List.take_append_drop]
    have hl : i = (ds.take i).length := by rw [List.length_take]; omega
    have hb : ds.modify i (changeAt g p) = ds.take i ++ changeAt g p d :: ds.drop (i + 1) := by
      have := modify_middle (changeAt g p) (ds.take i) d (ds.drop (i + 1))
      rw [← ha, ← hl] at this
      exact this
    simp only [changeAt]
    rw [hb]
    have := Put.elem (pre := ds.take i) (post := ds.drop (i + 1)) (put_change (g := g) p d hx)
    rw [← hl] at this
    rw [show Syn.list ds = Syn.list (ds.take i ++ d :: ds.drop (i + 1)) by congr 1]
    exact this
  | i :: p, .expr k ds, x, h => by
    simp only [at?] at h
    obtain ⟨d, hd, hx⟩ := Option.bind_eq_some_iff.1 h
    obtain ⟨hi, hd'⟩ := List.getElem?_eq_some_iff.1 hd
    have ha : ds = ds.take i ++ d :: ds.drop (i + 1) := by
      rw [← hd', List.getElem_cons_drop, List.take_append_drop]
    have hl : i = (ds.take i).length := by rw [List.length_take]; omega
    have hb : ds.modify i (changeAt g p) = ds.take i ++ changeAt g p d :: ds.drop (i + 1) := by
      have := modify_middle (changeAt g p) (ds.take i) d (ds.drop (i + 1))
      rw [← ha, ← hl] at this
      exact this
    simp only [changeAt]
    rw [hb]
    have := Put.part (k := k) (pre := ds.take i) (post := ds.drop (i + 1)) (put_change (g := g) p d hx)
    rw [← hl] at this
    rw [show Syn.expr k ds = Syn.expr k (ds.take i ++ d :: ds.drop (i + 1)) by congr 1]
    exact this
  | _ :: _, .leaf _, x, h => by simp [at?] at h

theorem put_eq {x : Syn} {p : List Nat} {t c : Syn} (h : Put x p t c) :
    c = changeAt (fun _ => x) p t := by
  induction h with
  | here => rfl
  | decl _ ih => simp only [changeAt]; rw [modify_middle, ← ih]
  | elem _ ih => simp only [changeAt]; rw [modify_middle, ← ih]
  | part _ ih => simp only [changeAt]; rw [modify_middle, ← ih]

theorem put_at {x : Syn} {p : List Nat} {t c : Syn} (h : Put x p t c) : (at? p t).isSome := by
  induction h with
  | here => rfl
  | decl _ ih => simpa [at?] using ih
  | elem _ ih => simpa [at?] using ih
  | part _ ih => simpa [at?] using ih

theorem change_none {g : Syn → Syn} : ∀ (p : List Nat) (t : Syn), at? p t = none → changeAt g p t = t
  | [], t, h => by simp [at?] at h
  | i :: p, .struct ds, h => by
    simp only [changeAt]
    congr 1
    apply List.ext_getElem?
    intro j
    rw [List.getElem?_modify]
    by_cases hij : i = j
    · subst hij
      simp only [at?] at h
      cases hd : ds[i]? with
      | none => simp
      | some d =>
        rw [hd] at h
        simp only [Option.bind_some] at h
        simp [change_none p d.2 h]
    · simp [hij]
  | i :: p, .list ds, h => by
    simp only [changeAt]
    congr 1
    apply List.ext_getElem?
    intro j
    rw [List.getElem?_modify]
    by_cases hij : i = j
    · subst hij
      simp only [at?] at h
      cases hd : ds[i]? with
      | none => simp
      | some d =>
        rw [hd] at h
        simp only [Option.bind_some] at h
        simp [change_none p d h]
    · simp [hij]
  | i :: p, .expr k ds, h => by
    simp only [changeAt]
    congr 1
    apply List.ext_getElem?
    intro j
    rw [List.getElem?_modify]
    by_cases hij : i = j
    · subst hij
      simp only [at?] at h
      cases hd : ds[i]? with
      | none => simp
      | some d =>
        rw [hd] at h
        simp only [Option.bind_some] at h
        simp [change_none p d h]
    · simp [hij]
  | _ :: _, .leaf _, _ => by simp only [changeAt]

theorem change_const {g : Syn → Syn} {p : List Nat} {t x : Syn} (h : at? p t = some x) :
    changeAt g p t = changeAt (fun _ => g x) p t := put_eq (put_change p t h)

theorem change_same : ∀ (p : List Nat) (t : Syn) {x : Syn}, at? p t = some x →
    changeAt (fun _ => x) p t = t
  | [], t, x, h => by
    injection h with h
    exact h.symm
  | i :: p, .struct ds, x, h => by
    simp only [changeAt]
    congr 1
    apply List.ext_getElem?
    intro j
    rw [List.getElem?_modify]
    by_cases hij : i = j
    · subst hij
      simp only [at?] at h
      obtain ⟨d, hd, hx⟩ := Option.bind_eq_some_iff.1 h
      simp [hd, change_same p d.2 hx]
    · simp [hij]
  | i :: p, .list ds, x, h => by
    simp only [changeAt]
    congr 1
    apply List.ext_getElem?
    intro j
    rw [List.getElem?_modify]
    by_cases hij : i = j
    · subst hij
      simp only [at?] at h
      obtain ⟨d, hd, hx⟩ := Option.bind_eq_some_iff.1 h
      simp [hd, change_same p d hx]
    · simp [hij]
  | i :: p, .expr k ds, x, h => by
    simp only [changeAt]
    congr 1
    apply List.ext_getElem?
    intro j
    rw [List.getElem?_modify]
    by_cases hij : i = j
    · subst hij
      simp only [at?] at h
      obtain ⟨d, hd, hx⟩ := Option.bind_eq_some_iff.1 h
      simp [hd, change_same p d hx]
    · simp [hij]
  | _ :: _, .leaf _, _, h => by simp [at?] at h

theorem put_result {x : Syn} {p : List Nat} {t c : Syn} (h : Put x p t c) : at? p c = some x := by
  induction h with
  | here => rfl
  | decl _ ih => simpa [at?] using ih
  | elem _ ih => simpa [at?] using ih
  | part _ ih => simpa [at?] using ih

theorem standsAt_iff {p : List Nat} {t x : Syn} : StandsAt p t x ↔ at? p t = some x := by
  refine ⟨put_result, fun h => ?_⟩
  have := put_change (g := fun _ => x) p t h
  rw [change_same p t h] at this
  exact this

theorem not_standsAt_iff {p : List Nat} {t : Syn} : (¬ ∃ x, StandsAt p t x) ↔ at? p t = none := by
  simp only [standsAt_iff]
  cases at? p t <;> simp

theorem shape_some (hk : KeepsShape rw') (p : List Nat) (t : Syn) :
    (at? p (rw' t)).isSome = (at? p t).isSome := by
  have := hk p t
  simp only [standsAt_iff, ← Option.isSome_iff_exists] at this
  exact Bool.eq_iff_iff.2 this

theorem renamed_in (i : Nat) : ∀ (bs : List Loc) (f : Syn), RenamedIn rw' i bs f (renamed rw' i bs f)
  | [], f => .done
  | b :: bs, f => by
    show RenamedIn rw' i (b :: bs) f (renamed rw' i bs (if b.file = i then changeAt rw' b.pos f else f))
    by_cases hb : b.file = i
    · rw [if_pos hb]
      cases ht : at? b.pos f with
      | none => rw [change_none _ _ ht]; exact .elsewhere (.inr (not_standsAt_iff.2 ht)) (renamed_in i bs f)
      | some t => exact .change hb (standsAt_iff.2 ht) (put_change _ _ ht) (renamed_in i bs _)
    · rw [if_neg hb]
      exact .elsewhere (.inl hb) (renamed_in i bs f)

theorem renamed_unique {i : Nat} {bs : List Loc} {f g : Syn} (h : RenamedIn rw' i bs f g) :
    g = renamed rw' i bs f := by
  induction h with
  | done => rfl
  | @elsewhere b bs f g h1 _ ih =>
    show g = renamed rw' i bs (if b.file = i then changeAt rw' b.pos f else f)
    by_cases hb : b.file = i
    · rw [if_pos hb, change_none _ _ (not_standsAt_iff.1 (h1.resolve_left fun h => h hb))]; exact ih
    · rw [if_neg hb]; exact ih
  | @change b bs f t f' g h1 h2 h3 _ ih =>
    show g = renamed rw' i bs (if b.file = i then changeAt rw' b.pos f else f)
    rw [if_pos h1, change_const (standsAt_iff.1 h2), ← put_eq h3]
    exact ih

theorem change_shape {g : Syn → Syn} (hg : KeepsShape g) : ∀ (p q : List Nat) (t : Syn),
    (at? q (changeAt g p t)).isSome = (at? q t).isSome
  | [], q, t => shape_some hg q t
  | i :: p, [], t => rfl
  | i :: p, j :: q, .struct ds => by
    simp only [changeAt, at?, List.getElem?_modify]
    by_cases hij : i = j
    · subst hij
      cases ds[i]? with
      | none => rfl
      | some d => simpa using change_shape hg p q d.2
    · simp [hij]
  | i :: p, j :: q, .list ds => by
    simp only [changeAt, at?, List.getElem?_modify]
    by_cases hij : i = j
    · subst hij
      cases ds[i]? with
      | none => rfl
      | some d => simpa using change_shape hg p q d
    · simp [hij]
  | i :: p, j :: q, .expr k ds => by
    simp only [changeAt, at?, List.getElem?_modify]
    by_cases hij : i = j
    · subst hij
      cases ds[i]? with
      | none => rfl
      | some d => simpa using change_shape hg p q d
    · simp [hij]
  | _ :: _, _ :: _, .leaf _ => rfl

theorem renamed_shape (hk : KeepsShape rw') (i : Nat) (q : List Nat) : ∀ (bs : List Loc) (f : Syn),
    (at? q (renamed rw' i bs f)).isSome = (at? q f).isSome
  | [], f => rfl
  | b :: bs, f => by
    show (at? q (renamed rw' i bs (if b.file = i then changeAt rw' b.pos f else f))).isSome = _
    rw [renamed_shape hk i q bs]
    split
    · exact change_shape hk _ _ _
    · rfl

/-! ### C188 -/

theorem rewrites_unique {v : Option View} {u u' : View} {lin lin' : Legacy}
    (h : Rewrites W root v u lin) (h' : Rewrites W root v u' lin') : u = u' ∧ lin = lin' := by
  obtain ⟨w, rfl, _, h1, h2⟩ := h
  obtain ⟨w', hw, _, h1', h2'⟩ := h'
  injection hw with hw
  subst hw
  have := picked_unique h1 h1'
  subst this
  rw [h2] at h2'
  injection h2' with h
  exact ⟨rfl, h⟩

theorem stands_unique {u : View} {lin : Legacy} {l l' : Loc} {g g' t t' : Syn}
    (h : Stands rw' W u lin l g t) (h' : Stands rw' W u lin l' g' t') : l = l' ∧ g = g' ∧ t = t' := by
  obtain ⟨h1, f, h2, h3, h4⟩ := h
  obtain ⟨h1', f', h2', h3', h4'⟩ := h'
  rw [h1] at h1'
  injection h1' with h
  subst h
  rw [h2] at h2'
  injection h2' with h
  subst h
  have hg : g = g' := (renamed_unique h3).trans (renamed_unique h3').symm
  subst hg
  rw [standsAt_iff] at h4 h4'
  rw [h4] at h4'
  injection h4' with h
  exact ⟨rfl, rfl, h⟩

theorem rewriteFile_none {v : Option View} (h : ¬ ∃ u lin, Rewrites W root v u lin) (n : Nat) :
    ∃ e, rewriteFile rw' W v root n = .err e := by
  cases v with
  | none => exact ⟨_, rfl⟩
  | some v =>
    by_cases hv : v.legacy.isSome
    · have hn : ¬ (v.legacy.isNone = true) := by
        intro h
        rw [Option.isNone_iff_eq_none] at h
        rw [h] at hv
        cases hv
      refine ⟨⟨[]⟩, ?_⟩
      simp only [rewriteFile]
      rw [if_neg hn]
      cases hf : findSeqsVal W v with
      | some u =>
        have ho := (findSeqsVal_some v hf).1
        obtain ⟨lin, hl⟩ := Option.isSome_iff_exists.1 (operand_legacy ho hv)
        exact absurd ⟨u, lin, v, rfl, hv, picked_iff.2 (.inl hf), hl⟩ h
      | none =>
        cases hr : root with
        | false => rfl
        | true =>
          obtain ⟨lin, hl⟩ := Option.isSome_iff_exists.1 hv
          exact absurd ⟨v, lin, v, rfl, hv, picked_iff.2 (.inr ⟨hf, hr, rfl⟩), hl⟩ h
    · refine ⟨⟨[]⟩, ?_⟩
      simp only [rewriteFile]
      rw [if_pos (by simpa using hv)]

/-- What follows when the lineage has been found. -/
theorem rewriteFile_rewrites {v : Option View} {u : View} {lin : Legacy}
    (h : Rewrites W root v u lin) (n : Nat) :
    rewriteFile rw' W v root n = (rewrite rw' lin.seqs).bind fun p =>
            match u.src with
            | none => .panic .explicit
            | some l =>
              match findFile l 0 W.files with
              | none => .panic .explicit
              | some (i, f) =>
                match (at? l.pos (renamed rw' i lin.bodies f)).bind (visit p.1 p.2 n) with
                | some t => .ok (i, changeAt (fun _ => t) l.pos (renamed rw' i lin.bodies f))
                | none => .fuel := by
  obtain ⟨w, rfl, hw, hp, hl⟩ := h
  have hn : ¬ (w.legacy.isNone = true) := by
    intro h
    rw [Option.isNone_iff_eq_none] at h
    rw [h] at hw
    cases hw
  simp only [rewriteFile]
  rw [if_neg hn]
  rcases picked_iff.1 hp with h | ⟨h, hr, rfl⟩
  · rw [h]
    simp only [hl]
    rfl
  · rw [h, hr]
    simp only [if_true, hl]
    rfl

theorem not_stands {u : View} {lin : Legacy} (hk : KeepsShape rw')
    (h : ¬ ∃ l g t, Stands rw' W u lin l g t) :
    u.src = none ∨ ∃ l, u.src = some l ∧ findFile l 0 W.files = none := by
  cases hs : u.src with
  | none => exact .inl rfl
  | some l =>
    refine .inr ⟨l, rfl, ?_⟩
    cases hf : findFile l 0 W.files with
    | none => rfl
    | some p =>
      obtain ⟨i, f⟩ := p
      obtain ⟨h1, _, h2, h3⟩ := findFile_some hf
      subst h1
      rw [Nat.sub_zero] at h2
      have h4 := renamed_shape hk l.file l.pos lin.bodies f
      rw [h3] at h4
      obtain ⟨t, ht⟩ := Option.isSome_iff_exists.1 h4
      exact absurd ⟨l, _, t, hs, f, h2, renamed_in _ _ _, standsAt_iff.2 ht⟩ h

/-- The four outcomes. -/
theorem file_cases (hk : KeepsShape rw') {v : Option View}
    (hok : ∀ u lin, Rewrites W root v u lin → LegacyOk lin.seqs) :
    (((¬ ∃ u lin, Rewrites W root v u lin) ∨ ∃ u lin, Rewrites W root v u lin ∧
        (¬ SchemasWritten lin.seqs ∨ FirstBad Lens.Reported lin.seqs)) ∧
      ∀ n, ∃ e, rewriteFile rw' W v root n = .err e) ∨
    ((∃ u lin, Rewrites W root v u lin ∧ (SchemasWritten lin.seqs ∧ FirstBad Lens.Crashes lin.seqs ∨
        Rewritable lin.seqs ∧ ¬ ∃ l g t, Stands rw' W u lin l g t)) ∧
      ∀ n, ∃ p, rewriteFile rw' W v root n = .panic p) ∨
    ((∃ u lin l g t, Rewrites W root v u lin ∧ Rewritable lin.seqs ∧ Stands rw' W u lin l g t ∧
        Loops lin t) ∧ ∀ n, rewriteFile rw' W v root n = .fuel) ∨
    (∃ i c, Becomes rw' W root v i c ∧ ∃ N, ∀ n ≥ N, rewriteFile rw' W v root n = .ok (i, c)) := by
  by_cases hr : ∃ u lin, Rewrites W root v u lin
  · obtain ⟨u, lin, hr⟩ := hr
    have ho := hok u lin hr
    by_cases h1 : SchemasWritten lin.seqs
    · rcases first_bad (usedLenses lin.seqs) with h2 | ⟨pre, x, post, hu, hp, hx⟩
      · have hg := rewrite_good (rw' := rw') ho h1 h2
        by_cases hst : ∃ l g t, Stands rw' W u lin l g t
        · obtain ⟨l, g, t, hst⟩ := hst
          have hst' := hst
          obtain ⟨hs, f, hf, hren, ht⟩ := hst
          rw [standsAt_iff] at ht
          have hat : (at? l.pos f).isSome := by
            rw [← renamed_shape hk l.file l.pos lin.bodies f, ← renamed_unique hren, ht]; rfl
          obtain ⟨t0, ht0⟩ := Option.isSome_iff_exists.1 hat
          have hff : findFile l 0 W.files = some (l.file, f) :=
            findFile_at (Nat.zero_le _) (by rw [Nat.sub_zero]; exact hf) ht0
          have hv := visit_outcome (S := newSchemas lin.seqs) (L := newLenses rw' lin.seqs) t
          have hin := inSchemas_iff h1
          have heq : ∀ n, rewriteFile rw' W v root n =
              match visit (newSchemas lin.seqs) (newLenses rw' lin.seqs) n t with
              | some t' => .ok (l.file, changeAt (fun _ => t') l.pos g)
              | none => .fuel := by
            intro n
            rw [rewriteFile_rewrites hr, hg, Res.bind_ok, hs]
            simp only
            rw [hff]
            simp only
            rw [← renamed_unique hren, ht, Option.bind_some]
          right; right
          by_cases hb : Loops lin t
          · left
            refine ⟨⟨u, lin, l, g, t, hr, ⟨h1, h2⟩, hst', hb⟩, fun n => ?_⟩
            rw [heq, hv.2 ⟨hin.1 hb.1, hb.2⟩ n]
          · right
            obtain ⟨N, hN⟩ := hv.1 (fun h => hb ⟨hin.2 h.1, h.2⟩)
            refine ⟨l.file, _, ⟨u, lin, l, g, t, hr, ⟨h1, h2⟩, hst', hb, rfl,
              put_change (g := fun _ => replaceSeqs (newSchemas lin.seqs) (newLenses rw' lin.seqs) t)
                l.pos g ht⟩, N, fun n hn => ?_⟩
            rw [heq, hN n hn]
        · right; left
          refine ⟨⟨u, lin, hr, .inr ⟨⟨h1, h2⟩, hst⟩⟩, fun n => ⟨.explicit, ?_⟩⟩
          rw [rewriteFile_rewrites hr, hg, Res.bind_ok]
          rcases not_stands hk hst with h | ⟨l, h, h'⟩
          · rw [h]
          · rw [h]
            simp only
            rw [h']
      · rcases lens_trichotomy x with h | h | h
        · exact absurd h hx
        · left
          obtain ⟨e, he⟩ := (rewrite_bad (rw' := rw') ho h1).1 ⟨pre, x, post, hu, hp, h⟩
          refine ⟨.inr ⟨u, lin, hr, .inr ⟨pre, x, post, hu, hp, h⟩⟩, fun n => ⟨e, ?_⟩⟩
          rw [rewriteFile_rewrites hr, he]; rfl
        · right; left
          have he := (rewrite_bad (rw' := rw') ho h1).2 ⟨pre, x, post, hu, hp, h⟩
          refine ⟨⟨u, lin, hr, .inl ⟨h1, pre, x, post, hu, hp, h⟩⟩, fun n => ⟨.typeAssertion, ?_⟩⟩
          rw [rewriteFile_rewrites hr, he]; rfl
    · left
      refine ⟨.inr ⟨u, lin, hr, .inl h1⟩, fun n => ?_⟩
      obtain ⟨e, he⟩ : ∃ e, rewrite rw' lin.seqs = .err e := by
        obtain ⟨e, he⟩ := C116_schema_reported (rw' := rw') ho h1 [] 1
        refine ⟨e, ?_⟩
        unfold fix at he
        cases hw : rewrite rw' lin.seqs with
        | ok p =>
          rw [hw, Res.bind_ok] at he
          split at he <;> cases he
        | err e' => rw [hw] at he; injection he with he; rw [he]
        | panic p => rw [hw] at he; cases he
        | fuel => rw [hw] at he; cases he
      exact ⟨e, by rw [rewriteFile_rewrites hr, he]; rfl⟩
  · exact .inl ⟨.inl hr, rewriteFile_none hr⟩

theorem becomes_unique {v : Option View} {i i' : Nat} {c c' : Syn} (h : Becomes rw' W root v i c)
    (h' : Becomes rw' W root v i' c') : i = i' ∧ c = c' := by
  obtain ⟨u, lin, l, g, t, h1, _, h2, _, h3, h4⟩ := h
  obtain ⟨u', lin', l', g', t', h1', _, h2', _, h3', h4'⟩ := h'
  obtain ⟨rfl, rfl⟩ := rewrites_unique h1 h1'
  obtain ⟨rfl, rfl, rfl⟩ := stands_unique h2 h2'
  exact ⟨h3.symm.trans h3', (put_eq h4).trans (put_eq h4').symm⟩

theorem reported_not_good {x : Lens} (h : Lens.Reported x) : ¬ Lens.Good x := by
  rintro ⟨hm, _⟩
  rcases h with h | ⟨v, h, hv⟩
  · obtain ⟨ds, h'⟩ := hm _ h
    cases h'
  · obtain ⟨ds, h'⟩ := hm _ h
    injection h' with h'
    exact hv ds h'

theorem crashes_not_good {x : Lens} (h : Lens.Crashes x) : ¬ Lens.Good x := by
  rintro ⟨hm, hl⟩
  rcases h with ⟨m, h, _, hv⟩ | ⟨_, h⟩
  · obtain ⟨ds, h'⟩ := hm _ h
    exact hv _ h'
  · exact h hl

theorem crashes_not_reported {x : Lens} (h : Lens.Crashes x) : ¬ Lens.Reported x := by
  intro hr
  rcases h with ⟨m, h, h0, hv⟩ | ⟨hm, _⟩
  · rcases hr with h' | ⟨v, h', _⟩
    · rw [h] at h'; injection h' with h'; exact h0 h'
    · rw [h] at h'; injection h' with h'; exact hv _ h'
  · rcases hr with h | ⟨v, h, hv⟩
    · obtain ⟨ds, h'⟩ := hm _ h
      cases h'
    · obtain ⟨ds, h'⟩ := hm _ h
      injection h' with h'
      exact hv ds h'

theorem split_first {P : Lens → Prop} : ∀ {pre pre' : List Lens} {x x' : Lens} {post post' : List Lens},
    pre ++ x :: post = pre' ++ x' :: post' → (∀ y ∈ pre, P y) → (∀ y ∈ pre', P y) → ¬ P x → ¬ P x' →
    x = x'
  | [], [], x, x', _, _, h, _, _, _, _ => by injection h
  | [], y :: pre', x, x', _, _, h, _, h2, h3, _ => by
    injection h with h _
    exact absurd (h ▸ h2 y (List.mem_cons_self ..)) h3
  | y :: pre, [], x, x', _, _, h, h1, _, _, h4 => by
    injection h with h _
    exact absurd (h ▸ h1 y (List.mem_cons_self ..)) h4
  | y :: pre, y' :: pre', x, x', _, _, h, h1, h2, h3, h4 => by
    injection h with _ h
    exact split_first h (fun z hz => h1 z (List.mem_cons_of_mem _ hz))
      (fun z hz => h2 z (List.mem_cons_of_mem _ hz)) h3 h4

theorem firstBad_apart {seqs : List (Seq Source Lens)} (h : FirstBad Lens.Reported seqs)
    (h' : FirstBad Lens.Crashes seqs) : False := by
  obtain ⟨pre, x, post, hu, hp, hx⟩ := h
  obtain ⟨pre', x', post', hu', hp', hx'⟩ := h'
  have := split_first (hu.symm.trans hu') hp hp' (reported_not_good hx) (crashes_not_good hx')
  subst this
  exact crashes_not_reported hx' hx

theorem good_not_bad {P : Lens → Prop} {seqs : List (Seq Source Lens)} (h : Rewritable seqs)
    (hP : ∀ x, P x → ¬ Lens.Good x) : ¬ FirstBad P seqs := by
  rintro ⟨pre, x, post, hu, _, hx⟩
  exact hP x hx (h.2 x (by rw [hu]; simp))

section
variable {printable : Syn → Bool} {v : Option View}

/-- **C188**.  `thema lineage fix` ends with status 0 exactly if the value at the path has a field
`seqs` and so has the value that is picked: the first that is written as a struct literal, going
through the operands from left to right, or, with the empty path, the value itself if there is none;
all its schemas and lenses are written as literals; what is picked stands in a file of the package;
not both a schema and what stands there have a field `seqs`; and the result can be printed.  That
file then becomes the one in which references in bodies and lacunas are renamed and, at the place,
every field `seqs` is replaced by schemas and lenses; the other files stay. -/
theorem C188_written_iff (hk : KeepsShape rw')
    (hok : ∀ u lin, Rewrites W root v u lin → LegacyOk lin.seqs) (fs : List Syn) :
    (∃ N, ∀ n ≥ N, fixCmd rw' printable W v root n = (fs, some 0)) ↔
      ∃ i c, Becomes rw' W root v i c ∧ printable c = true ∧ fs = W.files.set i c := by
  constructor
  · rintro ⟨N, hN⟩
    rcases file_cases (rw' := rw') hk hok with ⟨_, h⟩ | ⟨_, h⟩ | ⟨_, h⟩ | ⟨i, c, hb, M, hM⟩
    · obtain ⟨e, he⟩ := h N
      have := hN N (Nat.le_refl _)
      simp only [fixCmd, he] at this
      simp at this
    · obtain ⟨e, he⟩ := h N
      have := hN N (Nat.le_refl _)
      simp only [fixCmd, he] at this
      simp at this
    · have := hN N (Nat.le_refl _)
      simp only [fixCmd, h N] at this
      simp at this
    · have := hN (N + M) (by omega)
      simp only [fixCmd, hM (N + M) (by omega)] at this
      split at this
      · next hp =>
        injection this with h1 _
        exact ⟨i, c, hb, hp, h1.symm⟩
      · simp at this
  · rintro ⟨i, c, hb, hp, rfl⟩
    rcases file_cases (rw' := rw') hk hok with ⟨h, _⟩ | ⟨h, _⟩ | ⟨h, _⟩ | ⟨i', c', hb', M, hM⟩
    · obtain ⟨u, lin, l, g, t, h1, h2, _⟩ := hb
      rcases h with h | ⟨u', lin', h1', h⟩
      · exact absurd ⟨u, lin, h1⟩ h
      · obtain ⟨rfl, rfl⟩ := rewrites_unique h1 h1'
        rcases h with h | h
        · exact absurd h2.1 h
        · exact absurd h (good_not_bad h2 fun x h h' => reported_not_good h h')
    · obtain ⟨u, lin, l, g, t, h1, h2, h3, _⟩ := hb
      obtain ⟨u', lin', h1', h⟩ := h
      obtain ⟨rfl, rfl⟩ := rewrites_unique h1 h1'
      rcases h with ⟨_, h⟩ | ⟨_, h⟩
      · exact absurd h (good_not_bad h2 fun x h h' => crashes_not_good h h')
      · exact absurd ⟨l, g, t, h3⟩ h
    · obtain ⟨u, lin, l, g, t, h1, h2, h3, h4, _⟩ := hb
      obtain ⟨u', lin', l', g', t', h1', _, h3', h4'⟩ := h
      obtain ⟨rfl, rfl⟩ := rewrites_unique h1 h1'
      obtain ⟨rfl, rfl, rfl⟩ := stands_unique h3 h3'
      exact absurd h4' h4
    · obtain ⟨rfl, rfl⟩ := becomes_unique hb hb'
      refine ⟨M, fun n hn => ?_⟩
      simp only [fixCmd, hM n hn]
      rw [if_pos hp]

/-- **C188**.  It does not end exactly if all is as needed, but both a schema and what stands at the
place have a field `seqs`. -/
theorem C188_endless_iff (hk : KeepsShape rw')
    (hok : ∀ u lin, Rewrites W root v u lin → LegacyOk lin.seqs) :
    (∀ n, (fixCmd rw' printable W v root n).2 = none) ↔
      ∃ u lin l g t, Rewrites W root v u lin ∧ Rewritable lin.seqs ∧ Stands rw' W u lin l g t ∧
        Loops lin t := by
  constructor
  · intro hN
    rcases file_cases (rw' := rw') hk hok with ⟨_, h⟩ | ⟨_, h⟩ | ⟨h, _⟩ | ⟨i, c, hb, M, hM⟩
    · obtain ⟨e, he⟩ := h 0
      have := hN 0
      simp only [fixCmd, he] at this
      cases this
    · obtain ⟨e, he⟩ := h 0
      have := hN 0
      simp only [fixCmd, he] at this
      cases this
    · exact h
    · have := hN M
      simp only [fixCmd, hM M (Nat.le_refl _)] at this
      split at this <;> cases this
  · rintro ⟨u, lin, l, g, t, h1, h2, h3, h4⟩ n
    rcases file_cases (rw' := rw') hk hok with ⟨h, _⟩ | ⟨h, _⟩ | ⟨_, h⟩ | ⟨i', c', hb', _⟩
    · rcases h with h | ⟨u', lin', h1', h⟩
      · exact absurd ⟨u, lin, h1⟩ h
      · obtain ⟨rfl, rfl⟩ := rewrites_unique h1 h1'
        rcases h with h | h
        · exact absurd h2.1 h
        · exact absurd h (good_not_bad h2 fun x h h' => reported_not_good h h')
    · obtain ⟨u', lin', h1', h⟩ := h
      obtain ⟨rfl, rfl⟩ := rewrites_unique h1 h1'
      rcases h with ⟨_, h⟩ | ⟨_, h⟩
      · exact absurd h (good_not_bad h2 fun x h h' => crashes_not_good h h')
      · exact absurd ⟨l, g, t, h3⟩ h
    · simp only [fixCmd, h n]
    · obtain ⟨u', lin', l', g', t', h1', _, h3', h4', _⟩ := hb'
      obtain ⟨rfl, rfl⟩ := rewrites_unique h1 h1'
      obtain ⟨rfl, rfl, rfl⟩ := stands_unique h3 h3'
      exact absurd h4 h4'

/-- **C188**.  It ends with a panic (status 2) exactly if all schemas are written as literals and the
first lens that cannot be carried over has a body that is no field, or lacunas that are no list; or
all is written as needed, but what is picked does not stand in a file of the package. -/
theorem C188_crashes_iff (hk : KeepsShape rw')
    (hok : ∀ u lin, Rewrites W root v u lin → LegacyOk lin.seqs) (n : Nat) :
    (fixCmd rw' printable W v root n).2 = some 2 ↔
      ∃ u lin, Rewrites W root v u lin ∧ (SchemasWritten lin.seqs ∧ FirstBad Lens.Crashes lin.seqs ∨
        Rewritable lin.seqs ∧ ¬ ∃ l g t, Stands rw' W u lin l g t) := by
  constructor
  · intro hN
    rcases file_cases (rw' := rw') hk hok with ⟨_, h⟩ | ⟨h, _⟩ | ⟨_, h⟩ | ⟨i, c, hb, M, hM⟩
    · obtain ⟨e, he⟩ := h n
      simp only [fixCmd, he] at hN
      cases hN
    · exact h
    · simp only [fixCmd, h n] at hN
      cases hN
    · exfalso
      obtain ⟨u, lin, l, g, t, h1, h2, ⟨hs, f, hf, hren, ht⟩, _⟩ := hb
      rw [standsAt_iff] at ht
      have hat : (at? l.pos f).isSome := by
        rw [← renamed_shape hk l.file l.pos lin.bodies f, ← renamed_unique hren, ht]; rfl
      obtain ⟨t0, ht0⟩ := Option.isSome_iff_exists.1 hat
      have hff : findFile l 0 W.files = some (l.file, f) :=
        findFile_at (Nat.zero_le _) (by rw [Nat.sub_zero]; exact hf) ht0
      simp only [fixCmd] at hN
      rw [rewriteFile_rewrites h1, rewrite_good (hok u lin h1) h2.1 h2.2, Res.bind_ok, hs] at hN
      simp only at hN
      rw [hff] at hN
      simp only at hN
      cases hc : (at? l.pos (renamed rw' l.file lin.bodies f)).bind
          (visit (newSchemas lin.seqs) (newLenses rw' lin.seqs) n) with
      | none => rw [hc] at hN; cases hN
      | some t =>
        rw [hc] at hN
        simp only at hN
        split at hN <;> cases hN
  · rintro ⟨u, lin, h1, h2⟩
    rcases file_cases (rw' := rw') hk hok with ⟨h, _⟩ | ⟨_, h⟩ | ⟨h, _⟩ | ⟨i', c', hb', _⟩
    · exfalso
      rcases h with h | ⟨u', lin', h1', h⟩
      · exact absurd ⟨u, lin, h1⟩ h
      · obtain ⟨rfl, rfl⟩ := rewrites_unique h1 h1'
        rcases h with h | h <;> rcases h2 with ⟨h2, h3⟩ | ⟨h2, h3⟩
        · exact h h2
        · exact h h2.1
        · exact firstBad_apart h h3
        · exact good_not_bad h2 (fun x h h' => reported_not_good h h') h
    · obtain ⟨p, hp⟩ := h n
      simp only [fixCmd, hp]
    · exfalso
      obtain ⟨u', lin', l', g', t', h1', h2', h3', h4'⟩ := h
      obtain ⟨rfl, rfl⟩ := rewrites_unique h1 h1'
      rcases h2 with ⟨_, h⟩ | ⟨_, h⟩
      · exact good_not_bad h2' (fun x h h' => crashes_not_good h h') h
      · exact h ⟨_, _, _, h3'⟩
    · exfalso
      obtain ⟨u', lin', l', g', t', h1', h2', h3', h4', _⟩ := hb'
      obtain ⟨rfl, rfl⟩ := rewrites_unique h1 h1'
      rcases h2 with ⟨_, h⟩ | ⟨_, h⟩
      · exact good_not_bad h2' (fun x h h' => crashes_not_good h h') h
      · exact h ⟨_, _, _, h3'⟩

/-- **C188**.  It ends with a report (status 1) exactly if there is no legacy lineage to rewrite, or
a schema of it is not written as a literal, or the first lens that cannot be carried over has a body
or lacuna that is not written as a literal, or the result cannot be printed. -/
theorem C188_reported_iff (hk : KeepsShape rw')
    (hok : ∀ u lin, Rewrites W root v u lin → LegacyOk lin.seqs) :
    (∃ N, ∀ n ≥ N, (fixCmd rw' printable W v root n).2 = some 1) ↔
      (¬ ∃ u lin, Rewrites W root v u lin) ∨
      (∃ u lin, Rewrites W root v u lin ∧
        (¬ SchemasWritten lin.seqs ∨ FirstBad Lens.Reported lin.seqs)) ∨
      ∃ i c, Becomes rw' W root v i c ∧ printable c = false := by
  constructor
  · rintro ⟨N, hN⟩
    rcases file_cases (rw' := rw') hk hok with ⟨h, _⟩ | ⟨_, h⟩ | ⟨_, h⟩ | ⟨i, c, hb, M, hM⟩
    · rcases h with h | h
      · exact .inl h
      · exact .inr (.inl h)
    · obtain ⟨e, he⟩ := h N
      have := hN N (Nat.le_refl _)
      simp only [fixCmd, he] at this
      cases this
    · have := hN N (Nat.le_refl _)
      simp only [fixCmd, h N] at this
      cases this
    · have := hN (N + M) (by omega)
      simp only [fixCmd, hM (N + M) (by omega)] at this
      split at this
      · cases this
      · next hp => exact .inr (.inr ⟨i, c, hb, by simpa using hp⟩)
  · intro hc
    rcases file_cases (rw' := rw') hk hok with ⟨_, h⟩ | ⟨h, _⟩ | ⟨h, _⟩ | ⟨i, c, hb, M, hM⟩
    · refine ⟨0, fun n _ => ?_⟩
      obtain ⟨e, he⟩ := h n
      simp only [fixCmd, he]
    · exfalso
      obtain ⟨u', lin', h1', h⟩ := h
      rcases hc with hc | ⟨u, lin, h1, hc⟩ | ⟨i, c, ⟨u, lin, l, g, t, h1, h2, h3, _⟩, _⟩
      · exact hc ⟨_, _, h1'⟩
      · obtain ⟨rfl, rfl⟩ := rewrites_unique h1 h1'
        rcases hc with hc | hc <;> rcases h with ⟨h2, h3⟩ | ⟨h2, h3⟩
        · exact hc h2
        · exact hc h2.1
        · exact firstBad_apart hc h3
        · exact good_not_bad h2 (fun x h h' => reported_not_good h h') hc
      · obtain ⟨rfl, rfl⟩ := rewrites_unique h1 h1'
        rcases h with ⟨_, h⟩ | ⟨_, h⟩
        · exact good_not_bad h2 (fun x h h' => crashes_not_good h h') h
        · exact h ⟨_, _, _, h3⟩
    · exfalso
      obtain ⟨u', lin', l', g', t', h1', h2', h3', h4'⟩ := h
      rcases hc with hc | ⟨u, lin, h1, hc⟩ | ⟨i, c, ⟨u, lin, l, g, t, h1, h2, h3, h4, _⟩, _⟩
      · exact hc ⟨_, _, h1'⟩
      · obtain ⟨rfl, rfl⟩ := rewrites_unique h1 h1'
        rcases hc with hc | hc
        · exact hc h2'.1
        · exact good_not_bad h2' (fun x h h' => reported_not_good h h') hc
      · obtain ⟨rfl, rfl⟩ := rewrites_unique h1 h1'
        obtain ⟨rfl, rfl, rfl⟩ := stands_unique h3 h3'
        exact h4 h4'
    · rcases hc with hc | ⟨u, lin, h1, hc⟩ | ⟨i', c', hb', hp⟩
      · obtain ⟨u, lin, _, _, _, h1, _⟩ := hb
        exact absurd ⟨u, lin, h1⟩ hc
      · obtain ⟨u', lin', _, _, _, h1', h2', _⟩ := hb
        obtain ⟨rfl, rfl⟩ := rewrites_unique h1 h1'
        rcases hc with hc | hc
        · exact absurd h2'.1 hc
        · exact absurd hc (good_not_bad h2' (fun x h h' => reported_not_good h h'))
      · obtain ⟨rfl, rfl⟩ := becomes_unique hb hb'
        refine ⟨M, fun n hn => ?_⟩
        simp only [fixCmd, hM n hn]
        rw [if_neg (by rw [hp]; simp)]

/-- **C188**.  Unless it ends with status 0, no file changes. -/
theorem C188_untouched (n : Nat) (h : (fixCmd rw' printable W v root n).2 ≠ some 0) :
    (fixCmd rw' printable W v root n).1 = W.files := by
  unfold fixCmd at *
  split
  · split
    · simp_all
    · rfl
  · rfl
  · rfl
  · rfl

end

/-- Renaming of a body that is a single reference. -/
def leafInput : Syn → Syn
  | .leaf _ => .leaf "input".toList
  | t => t

theorem leafInput_shape : KeepsShape leafInput := by
  intro p t
  simp only [standsAt_iff]
  cases t with
  | leaf x => cases p <;> simp [leafInput, at?]
  | struct ds => exact Iff.rfl
  | list ds => exact Iff.rfl
  | expr k ds => exact Iff.rfl

theorem twoFiles_rewrites {u : View} {lin : Legacy}
    (h : Rewrites twoFiles false (some twoFilesView) u lin) :
    u = twoFilesLit ∧ lin = exampleLegacy ⟨1, [0, 1, 1, 0]⟩ := by
  obtain ⟨w, hw, _, hp, hl⟩ := h
  injection hw with hw
  subst hw
  have : u = twoFilesLit := by
    rcases picked_iff.1 hp with h | ⟨_, h, _⟩
    · obtain ⟨h1, h2⟩ := findSeqsVal_some _ h
      exact twoFiles_only _ h1 h2
    · cases h
  subst this
  injection hl with hl
  exact ⟨rfl, hl.symm⟩

theorem twoFiles_picked : Rewrites twoFiles false (some twoFilesView) twoFilesLit
    (exampleLegacy ⟨1, [0, 1, 1, 0]⟩) := by
  refine ⟨_, rfl, rfl, .inl ?_, rfl⟩
  refine .later (pre := [.mk none none []]) (post := []) ?_ rfl ?_ (.here ?_)
  · rintro ⟨l, ds, hl, -, hg⟩
    injection hl with hl
    subst hl
    simp [World.get, twoFiles, at?] at hg
  · intro x hx hs
    simp at hx
    subst hx
    simp [View.legacy] at hs
  · exact ⟨⟨1, [0, 1]⟩, _, rfl, by simp, rfl⟩

/-- The second file of the package is written. -/
example : ∃ c N, ∀ n ≥ N, fixCmd leafInput (fun _ => true) twoFiles (some twoFilesView) false n =
    (twoFiles.files.set 1 c, some 0) := by
  refine ⟨_, (C188_written_iff leafInput_shape (fun u lin h => ?_) _).2
    ⟨1, _, ⟨_, _, ⟨1, [0, 1]⟩, _, .struct ([(some "name".toList, .leaf "foo".toList)] ++
        (some "seqs".toList, .list [.struct []]) :: []), twoFiles_picked,
      ⟨legacyFix_schemas _ _, legacyFix_used _ _⟩,
      ⟨rfl, _, rfl, renamed_in _ _ _, standsAt_iff.2 rfl⟩, fun h => legacyFix_no_seqs _ h.1, rfl,
      put_change (g := fun _ => _) [0, 1] _ (x := .struct ([(some "name".toList, .leaf "foo".toList)] ++
        (some "seqs".toList, .list [.struct []]) :: [])) rfl⟩, rfl, rfl⟩⟩
  obtain ⟨_, rfl⟩ := twoFiles_rewrites h
  exact legacyFix_ok _ _

/-- The lineage is in another package: a panic. -/
example (n : Nat) : (fixCmd leafInput (fun _ => true) imported
    (some (.mk (some ⟨1, [0, 0]⟩) (some (exampleLegacy ⟨1, [0, 0, 0, 0]⟩)) [])) false n).2 = some 2 := by
  refine (C188_crashes_iff leafInput_shape (fun u lin h => ?_) n).2
    ⟨.mk (some ⟨1, [0, 0]⟩) (some (exampleLegacy ⟨1, [0, 0, 0, 0]⟩)) [], _,
      ⟨_, rfl, rfl, .inl (.here ⟨⟨1, [0, 0]⟩, _, rfl, by simp, rfl⟩), rfl⟩,
      .inr ⟨⟨legacyFix_schemas _ _, legacyFix_used _ _⟩, ?_⟩⟩
  · obtain ⟨w, hw, _, hp, hl⟩ := h
    injection hw with hw
    subst hw
    have hu := picked_operand hp
    have : u = .mk (some ⟨1, [0, 0]⟩) (some (exampleLegacy ⟨1, [0, 0, 0, 0]⟩)) [] := by
      cases hu with
      | refl => rfl
      | step h _ _ => cases h
    subst this
    injection hl with hl
    subst hl
    exact legacyFix_ok _ _
  · rintro ⟨l, g, t, hs, f, hf, _⟩
    injection hs with hs
    subst hs
    simp [imported] at hf

/-- Nothing is written as a struct literal, and there is a path: a report. -/
example : ∃ N, ∀ n ≥ N, (fixCmd leafInput (fun _ => true) embedded
    (some (.mk (some ⟨0, [1, 0]⟩) (some (exampleLegacy ⟨0, [0, 0, 0]⟩)) [])) false n).2 = some 1 := by
  have hno : ¬ ∃ u lin, Rewrites embedded false
      (some (.mk (some ⟨0, [1, 0]⟩) (some (exampleLegacy ⟨0, [0, 0, 0]⟩)) [])) u lin := by
    rintro ⟨u, lin, w, hw, _, hp, _⟩
    injection hw with hw
    subst hw
    rcases picked_iff.1 hp with h | ⟨_, h, _⟩
    · obtain ⟨h1, h2⟩ := findSeqsVal_some _ h
      have := only_self (W := embedded) rfl u h1 h2
      subst this
      obtain ⟨l, ds, h, -, hg⟩ := h2
      injection h with h
      subst h
      simp [World.get, embedded, at?] at hg
    · cases h
  exact (C188_reported_iff leafInput_shape (fun u lin h => absurd ⟨u, lin, h⟩ hno)).2 (.inl hno)

/-- A schema with a field `seqs`: the command does not end. -/
example (n : Nat) : (fixCmd leafInput (fun _ => true) twoFiles
    (some (.mk (some ⟨1, [0, 1]⟩) (some ⟨legacyFix "seqs".toList (.list []), []⟩) [])) false n).2 =
      none := by
  refine (C188_endless_iff leafInput_shape (fun u lin h => ?_)).2
    ⟨.mk (some ⟨1, [0, 1]⟩) (some ⟨legacyFix "seqs".toList (.list []), []⟩) [], _, ⟨1, [0, 1]⟩, _,
      .struct ([(some "name".toList, .leaf "foo".toList)] ++
        (some "seqs".toList, .list [.struct []]) :: []),
      ⟨_, rfl, rfl, .inl (.here ⟨⟨1, [0, 1]⟩, _, rfl, by simp, rfl⟩), rfl⟩,
      ⟨legacyFix_schemas _ _, legacyFix_used _ _⟩,
      ⟨rfl, _, rfl, .done, standsAt_iff.2 rfl⟩,
      ⟨_, List.mem_cons_of_mem _ (List.mem_cons_self ..), _, List.mem_cons_self ..,
        .decl (List.mem_cons_self ..) (.here (List.mem_cons_self ..))⟩, ?_⟩ n
  · obtain ⟨w, hw, _, hp, hl⟩ := h
    injection hw with hw
    subst hw
    have hu := picked_operand hp
    have : u = .mk (some ⟨1, [0, 1]⟩) (some ⟨legacyFix "seqs".toList (.list []), []⟩) [] := by
      cases hu with
      | refl => rfl
      | step h _ _ => cases h
    subst this
    injection hl with hl
    subst hl
    exact legacyFix_ok _ _
  · exact .here (List.mem_append_right _ (List.mem_cons_self ..))

end Thema.Props

import Verif.Spec.FixFile
import Verif.Props.Fix

/-!
# C151: the place that `thema lineage fix` changes
-/

namespace Thema.Props

open Thema.Rewrite Thema.Fix Thema.FixFile Thema.Spec

/-! ### Places in a syntax tree -/

theorem at_modify_self {f : Syn → Syn} : ∀ (p : List Nat) (t : Syn),
    at? p (changeAt f p t) = (at? p t).map f
  | [], t => rfl
  | i :: p, .struct ds => by
    simp only [changeAt, at?, List.getElem?_modify, if_true]
    cases ds[i]? with
    | none => rfl
    | some d => exact at_modify_self p d.2
  | i :: p, .list es => by
    simp only [changeAt, at?, List.getElem?_modify, if_true]
    cases es[i]? with
    | none => rfl
    | some d => exact at_modify_self p d
  | i :: p, .expr k es => by
    simp only [changeAt, at?, List.getElem?_modify, if_true]
    cases es[i]? with
    | none => rfl
    | some d => exact at_modify_self p d
  | _ :: _, .leaf _ => rfl

theorem at_modify_apart {f : Syn → Syn} : ∀ (p q : List Nat) (t : Syn), Apart p q →
    at? q (changeAt f p t) = at? q t
  | [], q, _, h => absurd (List.nil_prefix) h.1
  | _ :: _, [], _, h => absurd (List.nil_prefix) h.2
  | i :: p, j :: q, t, h => by
    have key : i = j → Apart p q := by
      rintro rfl
      exact ⟨fun hp => h.1 ((List.prefix_cons_inj i).2 hp),
        fun hp => h.2 ((List.prefix_cons_inj i).2 hp)⟩
    cases t with
    | leaf x => rfl
    | struct ds =>
      simp only [changeAt, at?, List.getElem?_modify]
      by_cases hij : i = j
      · subst hij
        simp only [if_true]
        cases ds[i]? with
        | none => rfl
        | some d => exact at_modify_apart p q d.2 (key rfl)
      · simp [hij]
    | list es =>
      simp only [changeAt, at?, List.getElem?_modify]
      by_cases hij : i = j
      · subst hij
        simp only [if_true]
        cases es[i]? with
        | none => rfl
        | some d => exact at_modify_apart p q d (key rfl)
      · simp [hij]
    | expr k es =>
      simp only [changeAt, at?, List.getElem?_modify]
      by_cases hij : i = j
      · subst hij
        simp only [if_true]
        cases es[i]? with
        | none => rfl
        | some d => exact at_modify_apart p q d (key rfl)
      · simp [hij]

theorem modify_below {f : Syn → Syn} {q : List Nat} : ∀ (p : List Nat) (t : Syn),
    at? p (changeAt f (p ++ q) t) = (at? p t).map (changeAt f q)
  | [], t => rfl
  | i :: p, .struct ds => by
    simp only [List.cons_append, changeAt, at?, List.getElem?_modify, if_true]
    cases ds[i]? with
    | none => rfl
    | some d => exact modify_below p d.2
  | i :: p, .list es => by
    simp only [List.cons_append, changeAt, at?, List.getElem?_modify, if_true]
    cases es[i]? with
    | none => rfl
    | some d => exact modify_below p d
  | i :: p, .expr k es => by
    simp only [List.cons_append, changeAt, at?, List.getElem?_modify, if_true]
    cases es[i]? with
    | none => rfl
    | some d => exact modify_below p d
  | _ :: _, .leaf _ => rfl

variable {rw' : Syn → Syn} {W : World}

theorem at_renamed_apart {i : Nat} {q : List Nat} : ∀ {bodies : List Loc} {f : Syn},
    (∀ b ∈ bodies, b.file = i → Apart b.pos q) → at? q (renamed rw' i bodies f) = at? q f := by
  intro bodies
  induction bodies with
  | nil => intro f _; rfl
  | cons b bs ih =>
    intro f h
    show at? q (renamed rw' i bs (if b.file = i then changeAt rw' b.pos f else f)) = _
    rw [ih fun x hx => h x (by simp [hx])]
    split
    · next hb => exact at_modify_apart _ _ _ (h b (by simp) hb)
    · rfl

/-! ### The loop over the files -/

theorem findFile_some {l : Loc} : ∀ {fs : List Syn} {i n : Nat} {f : Syn},
    findFile l i fs = some (n, f) →
      n = l.file ∧ i ≤ n ∧ fs[n - i]? = some f ∧ (at? l.pos f).isSome := by
  intro fs
  induction fs with
  | nil => intro i n f h; cases h
  | cons g fs ih =>
    intro i n f h
    unfold findFile at h
    split at h
    · next hc =>
      injection h with h
      injection h with h1 h2
      subst h1; subst h2
      exact ⟨hc.1, Nat.le_refl _, by simp, hc.2⟩
    · obtain ⟨h1, h2, h3, h4⟩ := ih h
      refine ⟨h1, by omega, ?_, h4⟩
      have : n - i = (n - (i + 1)) + 1 := by omega
      rw [this]
      simpa using h3

theorem findFile_none {l : Loc} : ∀ {fs : List Syn} {i : Nat},
    l.file < i ∨ i + fs.length ≤ l.file → findFile l i fs = none := by
  intro fs
  induction fs with
  | nil => intro i _; rfl
  | cons g fs ih =>
    intro i h
    unfold findFile
    rw [if_neg (by simp only [List.length_cons] at h; omega)]
    exact ih (by simp only [List.length_cons] at h; omega)

theorem findFile_at {l : Loc} {t : Syn} : ∀ {fs : List Syn} {i : Nat} {f : Syn}, i ≤ l.file →
    fs[l.file - i]? = some f → at? l.pos f = some t → findFile l i fs = some (l.file, f) := by
  intro fs
  induction fs with
  | nil => intro i f _ h; simp at h
  | cons g fs ih =>
    intro i f hi hf ht
    unfold findFile
    by_cases h : i = l.file
    · subst h
      simp at hf
      subst hf
      simp [ht]
    · rw [if_neg (fun hc => h hc.1)]
      refine ih (by omega) ?_ ht
      have : l.file - i = (l.file - (i + 1)) + 1 := by omega
      rw [this] at hf
      simpa using hf

/-! ### The search for the lineage -/

theorem isStructLiteral_iff {v : View} : isStructLiteral W v = true ↔ Literal W v := by
  obtain ⟨s, l, ops⟩ := v
  unfold isStructLiteral Literal
  simp only [View.src]
  cases s with
  | none => simp
  | some p =>
    simp only [Bool.and_eq_true, Bool.not_eq_true', List.isEmpty_eq_false_iff, Option.some.injEq]
    constructor
    · rintro ⟨h1, h2⟩
      split at h2
      · next ds hd => exact ⟨p, ds, rfl, h1, hd⟩
      · cases h2
    · rintro ⟨q, ds, rfl, h1, h2⟩
      exact ⟨h1, by rw [h2]⟩

theorem OperandOf.trans {a b c : View} (h : OperandOf a b) (h' : OperandOf b c) : OperandOf a c := by
  induction h' with
  | refl => exact h
  | step h1 h2 _ ih => exact .step h1 h2 (ih h)

mutual
theorem findSeqsVal_some : ∀ (v : View) {u : View}, findSeqsVal W v = some u →
    OperandOf u v ∧ Literal W u
  | .mk s l ops, u, h => by
    unfold findSeqsVal at h
    split at h
    · next hl =>
      injection h with h
      subst h
      exact ⟨.refl _, isStructLiteral_iff.1 hl⟩
    · obtain ⟨w, hw, hs, ho, hlit⟩ := findOperand_some ops h
      exact ⟨.step hw hs ho, hlit⟩

theorem findOperand_some : ∀ (vs : List View) {u : View}, findOperand W vs = some u →
    ∃ w ∈ vs, w.legacy.isSome ∧ OperandOf u w ∧ Literal W u
  | [], u, h => by simp [findOperand] at h
  | v :: vs, u, h => by
    unfold findOperand at h
    split at h
    · next hv =>
      cases hf : findSeqsVal W v with
      | some x =>
        rw [hf] at h
        injection h with h
        subst h
        obtain ⟨h1, h2⟩ := findSeqsVal_some v hf
        exact ⟨v, by simp, hv, h1, h2⟩
      | none =>
        rw [hf] at h
        obtain ⟨w, hw, r⟩ := findOperand_some vs h
        exact ⟨w, by simp [hw], r⟩
    · obtain ⟨w, hw, r⟩ := findOperand_some vs h
      exact ⟨w, by simp [hw], r⟩
end

theorem findOperand_none : ∀ {vs : List View}, findOperand W vs = none → ∀ w ∈ vs,
    w.legacy.isSome → findSeqsVal W w = none := by
  intro vs
  induction vs with
  | nil => intro _ w hw; simp at hw
  | cons v vs ih =>
    intro h w hw hs
    unfold findOperand at h
    rcases List.mem_cons.1 hw with rfl | hw
    · rw [if_pos hs] at h
      cases hf : findSeqsVal W w with
      | some x => rw [hf] at h; cases h
      | none => rfl
    · split at h
      · cases hf : findSeqsVal W v with
        | some x => rw [hf] at h; cases h
        | none => rw [hf] at h; exact ih h w hw hs
      · exact ih h w hw hs

theorem findSeqsVal_none {v u : View} (h : OperandOf u v) : findSeqsVal W v = none →
    ¬ Literal W u := by
  induction h with
  | refl v =>
    intro hf hl
    obtain ⟨s, l, ops⟩ := v
    unfold findSeqsVal at hf
    rw [if_pos (isStructLiteral_iff.2 hl)] at hf
    cases hf
  | step h1 h2 _ ih =>
    intro hf
    unfold findSeqsVal at hf
    split at hf
    · cases hf
    · exact ih (findOperand_none hf _ h1 h2)

/-! ### What is claimed -/

variable {v : View} {root : Bool} {n : Nat}

/-- What is rewritten: the literal found, or with an empty path the whole value. -/
theorem rewriteFile_ok {i : Nat} {c : Syn}
    (h : rewriteFile rw' W (some v) root n = .ok (i, c)) :
    ∃ u lin l f p t, u.legacy = some lin ∧ u.src = some l ∧ l.file = i ∧ W.files[i]? = some f ∧
      rewrite rw' lin.seqs = .ok p ∧
      (at? l.pos (renamed rw' i lin.bodies f)).bind (visit p.1 p.2 n) = some t ∧
      c = changeAt (fun _ => t) l.pos (renamed rw' i lin.bodies f) ∧
      (findSeqsVal W v = some u ∨ findSeqsVal W v = none ∧ root = true ∧ u = v) := by
  unfold rewriteFile at h
  dsimp only at h
  split at h
  · cases h
  · split at h
    · cases h
    · next u hu =>
      cases hl : u.legacy with
      | none => rw [hl] at h; cases h
      | some lin =>
        rw [hl] at h
        obtain ⟨p, hp, h⟩ := Res.bind_eq_ok'.1 h
        cases hs : u.src with
        | none => rw [hs] at h; cases h
        | some l =>
          rw [hs] at h
          dsimp only at h
          cases hf : findFile l 0 W.files with
          | none => rw [hf] at h; cases h
          | some g =>
            obtain ⟨j, f⟩ := g
            rw [hf] at h
            dsimp only at h
            obtain ⟨h1, -, h3, -⟩ := findFile_some hf
            cases ht : (at? l.pos (renamed rw' j lin.bodies f)).bind (visit p.1 p.2 n) with
            | none => rw [ht] at h; cases h
            | some t =>
              rw [ht] at h
              injection h with h
              injection h with h4 h5
              subst h4
              refine ⟨u, lin, l, f, p, t, hl, hs, h1.symm, by simpa using h3, hp, ht, h5.symm, ?_⟩
              cases hq : findSeqsVal W v with
              | some x => rw [hq] at hu; injection hu with hu; subst hu; exact .inl rfl
              | none =>
                rw [hq] at hu
                cases root with
                | false => cases hu
                | true => injection hu with hu; subst hu; exact .inr ⟨rfl, rfl, rfl⟩

/-- Wherever a file is changed, it is one of the package, at the place of the lineage (or of one of the
values it is the unification of) or of the bodies of its lenses, and nowhere else. -/
theorem C151_elsewhere {i : Nat} {c : Syn}
    (h : rewriteFile rw' W (some v) root n = .ok (i, c)) :
    ∃ u lin l f, OperandOf u v ∧ u.legacy = some lin ∧ u.src = some l ∧ l.file = i ∧
      W.files[i]? = some f ∧
      (Literal W u ∨ root = true ∧ u = v ∧ ∀ w, OperandOf w v → ¬ Literal W w) ∧
      ∀ q, Apart l.pos q → (∀ b ∈ lin.bodies, b.file = i → Apart b.pos q) → at? q c = at? q f := by
  obtain ⟨u, lin, l, f, p, t, hlin, hs, hi, hf, -, -, rfl, hu⟩ := rewriteFile_ok h
  refine ⟨u, lin, l, f, ?_, hlin, hs, hi, hf, ?_, fun q hq hb => ?_⟩
  · rcases hu with hu | ⟨-, -, rfl⟩
    · exact (findSeqsVal_some v hu).1
    · exact .refl _
  · rcases hu with hu | ⟨hn, hr, rfl⟩
    · exact .inl (findSeqsVal_some v hu).2
    · exact .inr ⟨hr, rfl, fun w hw => findSeqsVal_none hw hn⟩
  · rw [at_modify_apart _ _ _ hq, at_renamed_apart hb]

/-- The command writes at most one file, and none unless it succeeds. -/
theorem C151_one_file (printable : Syn → Bool) (v : Option View) :
    ((fixCmd rw' printable W v root n).2 ≠ some 0 → (fixCmd rw' printable W v root n).1 = W.files) ∧
    ∃ i : Nat, ∀ j : Nat, j ≠ i → (fixCmd rw' printable W v root n).1[j]? = W.files[j]? := by
  unfold fixCmd
  split
  · next i t _ =>
    split
    · exact ⟨fun h => absurd rfl h, i, fun j hj => List.getElem?_set_ne (Ne.symm hj)⟩
    · exact ⟨fun _ => rfl, 0, fun _ _ => rfl⟩
  · exact ⟨fun _ => rfl, 0, fun _ _ => rfl⟩
  · exact ⟨fun _ => rfl, 0, fun _ _ => rfl⟩
  · exact ⟨fun _ => rfl, 0, fun _ _ => rfl⟩

theorem findSeqsVal_only {u : View} (ho : OperandOf u v) (hl : Literal W u)
    (huniq : ∀ w, OperandOf w v → Literal W w → w = u) : findSeqsVal W v = some u := by
  cases h : findSeqsVal W v with
  | none => exact absurd hl (findSeqsVal_none ho h)
  | some w =>
    obtain ⟨h1, h2⟩ := findSeqsVal_some v h
    rw [huniq w h1 h2]

/-- Evaluation when the literal has been found. -/
theorem rewriteFile_found {u : View} {lin : Legacy} {p : Syn × Syn}
    (hv : v.legacy.isSome) (hq : findSeqsVal W v = some u ∨
      findSeqsVal W v = none ∧ root = true ∧ u = v) (hu : u.legacy = some lin)
    (hp : rewrite rw' lin.seqs = .ok p) :
    rewriteFile rw' W (some v) root n =
      match u.src with
      | none => .panic .explicit
      | some l =>
        match findFile l 0 W.files with
        | none => .panic .explicit
        | some (i, f) =>
          match (at? l.pos (renamed rw' i lin.bodies f)).bind (visit p.1 p.2 n) with
          | some t => .ok (i, changeAt (fun _ => t) l.pos (renamed rw' i lin.bodies f))
          | none => .fuel := by
  have hv' : ¬ (v.legacy.isNone = true) := by
    cases hx : v.legacy <;> simp [hx] at hv ⊢
  unfold rewriteFile
  dsimp only
  rw [if_neg hv']
  rcases hq with hq | ⟨hq, rfl, rfl⟩
  · rw [hq]
    dsimp only
    rw [hu]
    dsimp only
    rw [hp]
    rfl
  · rw [hq]
    dsimp only [if_true]
    rw [if_pos rfl]
    dsimp only
    rw [hu]
    dsimp only
    rw [hp]
    rfl

theorem modify_middle {α : Type} (g : α → α) : ∀ (pre : List α) (x : α) (post : List α),
    (pre ++ x :: post).modify pre.length g = pre ++ g x :: post
  | [], _, _ => rfl
  | y :: pre, x, post => by
    simp only [List.cons_append, List.length_cons, List.modify_succ_cons]
    rw [modify_middle g pre x post]

/-- If the lineage is written, anywhere in the package, as one struct literal with one field `seqs`,
then exactly there is what `fix` makes of it (`C115`). -/
theorem C151_replaced_partial {u : View} {lin : Legacy} {l : Loc} {f old : Syn}
    {pre post : List (Option Str × Syn)}
    (hv : v.legacy.isSome) (ho : OperandOf u v) (hu : u.legacy = some lin) (hs : u.src = some l)
    (hpos : l.pos ≠ []) (hf : W.files[l.file]? = some f)
    (hat : at? l.pos f = some (.struct (pre ++ (some "seqs".toList, old) :: post)))
    (huniq : ∀ w, OperandOf w v → Literal W w → w = u)
    (hb : ∀ b ∈ lin.bodies, b.file = l.file →
      l.pos ++ [pre.length] <+: b.pos ∨ Apart b.pos l.pos)
    (h1 : SchemasWritten lin.seqs) (h2 : MappersWritten lin.seqs) (h3 : LacunasWritten lin.seqs)
    (h4 : ¬ InSchemas "seqs".toList lin.seqs)
    (h5 : ¬ HasField "seqs".toList (.struct pre)) (h6 : ¬ HasField "seqs".toList (.struct post)) :
    ∃ N c t, (∀ n ≥ N, rewriteFile rw' W (some v) root n = .ok (l.file, c) ∧
        fix rw' lin.seqs (pre ++ (some "seqs".toList, old) :: post) n = .ok t) ∧
      at? l.pos c = some t := by
  have hlit : Literal W u := ⟨l, _, hs, hpos, by
    unfold World.get
    rw [List.getElem?_append_left (List.getElem?_eq_some_iff.1 hf).1, hf]
    exact hat⟩
  have hq := findSeqsVal_only ho hlit huniq
  obtain ⟨p, hp⟩ := rewrite_ok (rw' := rw') h1 h2 h3
  have hnS : ¬ HasField seqsName p.1 := by
    obtain ⟨ss, lsyn, rfl, hex, hls⟩ := rewrite_parts hp
    rw [hasField_entries]
    rintro ⟨e, he, hfl⟩
    have : (⟨e.1, .lit e.2⟩ : LSchema Source) ∈ (extractParts lin.seqs).1 := by
      rw [hex]; exact List.mem_map.2 ⟨e, he, rfl⟩
    obtain ⟨s, hs, hm⟩ := extractLoop_raw_mem this
    exact h4 ⟨s, hs, e.2, hm, hfl⟩
  have hren : ∀ (bs : List Loc), (∀ b ∈ bs, b.file = l.file →
      l.pos ++ [pre.length] <+: b.pos ∨ Apart b.pos l.pos) → ∀ (g : Syn) (o : Syn),
      at? l.pos g = some (.struct (pre ++ (some "seqs".toList, o) :: post)) →
      ∃ o', at? l.pos (renamed rw' l.file bs g) =
        some (.struct (pre ++ (some "seqs".toList, o') :: post)) := by
    intro bs
    induction bs with
    | nil => intro _ g o hg; exact ⟨o, hg⟩
    | cons b bs ih =>
      intro hbs g o hg
      show ∃ o', at? l.pos (renamed rw' l.file bs
        (if b.file = l.file then changeAt rw' b.pos g else g)) = _
      by_cases hbf : b.file = l.file
      · rw [if_pos hbf]
        rcases hbs b (by simp) hbf with ⟨r, hr⟩ | ha
        · refine ih (fun x hx => hbs x (by simp [hx])) _ (changeAt rw' r o) ?_
          rw [← hr, List.append_assoc, modify_below, hg]
          simp only [List.singleton_append, changeAt, Option.map_some, Option.some.injEq,
            Syn.struct.injEq]
          exact modify_middle _ _ _ _
        · exact ih (fun x hx => hbs x (by simp [hx])) _ o
            (by rw [at_modify_apart _ _ _ ha, hg])
      · rw [if_neg hbf]
        exact ih (fun x hx => hbs x (by simp [hx])) _ o hg
  obtain ⟨old', hold⟩ := hren lin.bodies hb f old hat
  obtain ⟨N1, hN1⟩ := visit_top (S := p.1) (L := p.2) (old := old') hnS h5 h6
  obtain ⟨N2, hN2⟩ := visit_top (S := p.1) (L := p.2) (old := old) hnS h5 h6
  refine ⟨N1 + N2, changeAt (fun _ => .struct (pre ++ (some schemasName, p.1) ::
      (some lensesName, p.2) :: post)) l.pos (renamed rw' l.file lin.bodies f),
    .struct (pre ++ (some schemasName, p.1) :: (some lensesName, p.2) :: post),
    fun n hn => ⟨?_, ?_⟩, ?_⟩
  rotate_left
  · unfold fix
    rw [hp]
    show (match visit p.1 p.2 n _ with | some t => Res.ok t | none => .fuel) = _
    rw [show "seqs".toList = seqsName from rfl, hN2 n (by omega)]
  · rw [at_modify_self, hold]
    rfl
  · rw [rewriteFile_found hv (.inl hq) hu hp, hs]
    dsimp only
    rw [findFile_at (Nat.zero_le _) (by simpa using hf) hat]
    dsimp only
    rw [hold, Option.bind_some, show "seqs".toList = seqsName from rfl, hN1 n (by omega)]

/-- The struct literal need not have a field `seqs` of its own (it may embed it): then the command
succeeds and leaves the lineage as it is, except that references are renamed in its lenses. -/
theorem C151_not_replaced {u : View} {lin : Legacy} {l : Loc} {f : Syn}
    {ds : List (Option Str × Syn)}
    (hv : v.legacy.isSome) (ho : OperandOf u v) (hu : u.legacy = some lin) (hs : u.src = some l)
    (hpos : l.pos ≠ []) (hf : W.files[l.file]? = some f) (hat : at? l.pos f = some (.struct ds))
    (huniq : ∀ w, OperandOf w v → Literal W w → w = u)
    (hno : ¬ HasField "seqs".toList (.struct ds))
    (hb : ∀ b ∈ lin.bodies, b.file = l.file → Apart b.pos l.pos)
    (h1 : SchemasWritten lin.seqs) (h2 : MappersWritten lin.seqs) (h3 : LacunasWritten lin.seqs) :
    ∃ N c, (∀ n ≥ N, rewriteFile rw' W (some v) root n = .ok (l.file, c)) ∧
      at? l.pos c = at? l.pos f ∧
      ∀ pre b post, lin.bodies = pre ++ b :: post → b.file = l.file →
        (∀ x ∈ pre ++ post, x.file = l.file → Apart x.pos b.pos) →
        at? b.pos c = (at? b.pos f).map rw' := by
  have hlit : Literal W u := ⟨l, _, hs, hpos, by
    unfold World.get
    rw [List.getElem?_append_left (List.getElem?_eq_some_iff.1 hf).1, hf]
    exact hat⟩
  have hq := findSeqsVal_only ho hlit huniq
  obtain ⟨p, hp⟩ := rewrite_ok (rw' := rw') h1 h2 h3
  obtain ⟨N, hN⟩ := visit_same (S := p.1) (L := p.2) _ hno
  have hren : at? l.pos (renamed rw' l.file lin.bodies f) = some (.struct ds) := by
    rw [at_renamed_apart hb, hat]
  refine ⟨N, changeAt (fun _ => .struct ds) l.pos (renamed rw' l.file lin.bodies f),
    fun n hn => ?_, ?_, fun pre b post hsp hbf hap => ?_⟩
  · rw [rewriteFile_found hv (.inl hq) hu hp, hs]
    dsimp only
    rw [findFile_at (Nat.zero_le _) (by simpa using hf) hat]
    dsimp only
    rw [hren, Option.bind_some, hN n hn]
  · rw [at_modify_self, hren, hat]
    rfl
  · have hbl := hb b (by rw [hsp]; simp) hbf
    rw [at_modify_apart _ _ _ ⟨hbl.2, hbl.1⟩, hsp]
    show at? b.pos (List.foldl _ f (pre ++ b :: post)) = _
    rw [List.foldl_append]
    show at? b.pos (renamed rw' l.file post
      (if b.file = l.file then changeAt rw' b.pos (renamed rw' l.file pre f)
        else renamed rw' l.file pre f)) = _
    rw [if_pos hbf, at_renamed_apart fun x hx => hap x (by simp [hx]), at_modify_self,
      at_renamed_apart fun x hx => hap x (by simp [hx])]

/-- If the literal is in a file of another package, the command panics. -/
theorem C151_other_package {u : View} {lin : Legacy} {l : Loc} (printable : Syn → Bool)
    (hv : v.legacy.isSome) (ho : OperandOf u v) (hu : u.legacy = some lin) (hs : u.src = some l)
    (hlit : Literal W u) (hf : W.files.length ≤ l.file)
    (huniq : ∀ w, OperandOf w v → Literal W w → w = u)
    (h1 : SchemasWritten lin.seqs) (h2 : MappersWritten lin.seqs) (h3 : LacunasWritten lin.seqs) :
    rewriteFile rw' W (some v) root n = .panic .explicit ∧
    fixCmd rw' printable W (some v) root n = (W.files, some 2) := by
  have hq := findSeqsVal_only ho hlit huniq
  obtain ⟨p, hp⟩ := rewrite_ok (rw' := rw') h1 h2 h3
  have : rewriteFile rw' W (some v) root n = .panic .explicit := by
    rw [rewriteFile_found hv (.inl hq) hu hp, hs]
    dsimp only
    rw [findFile_none (.inr (by omega))]
  exact ⟨this, by unfold fixCmd; rw [this]⟩

/-- So it does with an empty path if CUE has no single source for the package. -/
theorem C151_no_source {lin : Legacy} (hu : v.legacy = some lin) (hs : v.src = none)
    (hno : ∀ w, OperandOf w v → ¬ Literal W w)
    (h1 : SchemasWritten lin.seqs) (h2 : MappersWritten lin.seqs) (h3 : LacunasWritten lin.seqs) :
    rewriteFile rw' W (some v) true n = .panic .explicit := by
  obtain ⟨p, hp⟩ := rewrite_ok (rw' := rw') h1 h2 h3
  have hq : findSeqsVal W v = none := by
    cases h : findSeqsVal W v with
    | none => rfl
    | some u =>
      obtain ⟨ha, hb⟩ := findSeqsVal_some v h
      exact absurd hb (hno u ha)
  rw [rewriteFile_found (by simp [hu]) (.inr ⟨hq, rfl, rfl⟩) hu hp, hs]

/-- With a path, a lineage that is not written as a struct literal is reported; so is a path without a
value, and a value without `seqs`. -/
theorem C151_reported :
    (∃ e, rewriteFile rw' W none root n = .err e) ∧
    (v.legacy = none → ∃ e, rewriteFile rw' W (some v) root n = .err e) ∧
    ((∀ w, OperandOf w v → ¬ Literal W w) → ∃ e, rewriteFile rw' W (some v) false n = .err e) := by
  refine ⟨⟨_, rfl⟩, fun h => ⟨⟨[]⟩, by simp [rewriteFile, h]⟩, fun h => ?_⟩
  have hq : findSeqsVal W v = none := by
    cases hx : findSeqsVal W v with
    | none => rfl
    | some u =>
      obtain ⟨ha, hb⟩ := findSeqsVal_some v hx
      exact absurd hb (h u ha)
  unfold rewriteFile
  dsimp only
  split
  · exact ⟨_, rfl⟩
  · rw [hq]
    exact ⟨_, rfl⟩

/-! ### Examples -/

/-- A unification of values one of which is the lineage. -/
theorem only_operand {s : Option Loc} {lg : Option Legacy} {ops : List View} {u : View}
    (h1 : ¬ Literal W (.mk s lg ops)) (h2 : ∀ w ∈ ops, w.legacy.isSome → w = u)
    (h3 : u.operands = []) : ∀ w, OperandOf w (.mk s lg ops) → Literal W w → w = u := by
  intro w hw hl
  cases hw with
  | refl => exact absurd hl h1
  | step ha hb hc =>
    have := h2 _ ha hb
    subst this
    cases hc with
    | refl => rfl
    | step hd _ _ => simp only [View.operands] at h3; rw [h3] at hd; simp at hd

theorem only_self {u : View} (h3 : u.operands = []) : ∀ w, OperandOf w u → Literal W w → w = u := by
  intro w hw _
  cases hw with
  | refl => rfl
  | step hd _ _ => simp only [View.operands] at h3; rw [h3] at hd; simp at hd

/-- The sequences of the lineage in the examples, with a lens body inside of them. -/
def exampleLegacy (body : Loc) : Legacy := ⟨legacyFix "x".toList (.list []), [body]⟩

/-- `lin: thema.#Lineage & {name: "foo", seqs: [...]}` in the second file of a package. -/
def twoFiles : World where
  files := [.struct [(some "x".toList, .leaf "5".toList)],
    .struct [(some "lin".toList, .expr "&".toList [.leaf "thema.#Lineage".toList,
      .struct ([(some "name".toList, .leaf "foo".toList)] ++
        (some "seqs".toList, .list [.struct []]) :: [])])]]
  others := []

/-- The literal in it. -/
def twoFilesLit : View := .mk (some ⟨1, [0, 1]⟩) (some (exampleLegacy ⟨1, [0, 1, 1, 0]⟩)) []

/-- The value at the path `lin`. -/
def twoFilesView : View :=
  .mk (some ⟨1, [0]⟩) (some (exampleLegacy ⟨1, [0, 1, 1, 0]⟩)) [.mk none none [], twoFilesLit]

theorem twoFiles_only : ∀ w, OperandOf w twoFilesView → Literal twoFiles w → w = twoFilesLit := by
  refine only_operand ?_ ?_ rfl
  · rintro ⟨l, ds, hl, -, hg⟩
    injection hl with hl
    subst hl
    simp [World.get, twoFiles, at?] at hg
  · intro w hw hs
    simp at hw
    rcases hw with rfl | rfl
    · simp [View.legacy] at hs
    · rfl

/-- The second file is changed, at `lin`, second operand. -/
example : ∃ N c t, (∀ n ≥ N, rewriteFile id twoFiles (some twoFilesView) false n = .ok (1, c)) ∧
    at? [0, 1] c = some t ∧ at? [0, 0] c = some (.leaf "thema.#Lineage".toList) := by
  obtain ⟨N, c, t, h1, h2⟩ := C151_replaced_partial (rw' := id) (W := twoFiles) (v := twoFilesView)
    (u := twoFilesLit) (root := false) (l := ⟨1, [0, 1]⟩)
    (pre := [(some "name".toList, .leaf "foo".toList)]) (post := []) (old := .list [.struct []])
    rfl (.step (List.mem_cons_of_mem _ (List.mem_singleton.2 rfl)) rfl (.refl _)) rfl rfl (by simp)
    rfl rfl twoFiles_only
    (by intro b hb _; simp [exampleLegacy] at hb; subst hb; exact .inl ⟨[0], rfl⟩)
    (legacyFix_schemas _ _) (legacyFix_mappers _ _) (legacyFix_lacunas _ _)
    (legacyFix_no_seqs (.list [])) (no_seqs_name "foo".toList)
    (by intro h; cases h with | here h => simp at h | decl h _ => simp at h)
  refine ⟨N, c, t, fun n hn => (h1 n hn).1, h2, ?_⟩
  obtain ⟨u, lin, l, f, ho, hu, hs, hi, hf, hl, hq⟩ := C151_elsewhere (h1 N (Nat.le_refl _)).1
  have hu' : u = twoFilesLit := by
    rcases hl with hl | ⟨hr, -⟩
    · exact twoFiles_only u ho hl
    · cases hr
  subst hu'
  injection hs with hs
  injection hu with hu
  subst hs; subst hu
  injection hf with hf
  subst hf
  rw [hq [0, 0] (by constructor <;> decide)
    (by intro b hb _; simp [exampleLegacy] at hb; subst hb; constructor <;> decide)]
  rfl

/-- `#base: {seqs: [...]}`, `lin: {#base, name: "foo"}`. -/
def embedded : World where
  files := [.struct [(some "#base".toList, .struct [(some "seqs".toList, .list [.struct []])]),
    (some "lin".toList, .struct [(none, .leaf "#base".toList),
      (some "name".toList, .leaf "foo".toList)])]]
  others := []

/-- The value at the path `lin`. -/
def embeddedView : View := .mk (some ⟨0, [1]⟩) (some (exampleLegacy ⟨0, [0, 0, 0]⟩)) []

/-- The command says that all is well, `seqs` is still there, and only the lens has been changed. -/
theorem C151_not_replaced_witness (rw' : Syn → Syn) : ∃ N c, (∀ n ≥ N,
      fixCmd rw' (fun _ => true) embedded (some embeddedView) false n = ([c], some 0)) ∧
    at? [1] c = some (.struct [(none, .leaf "#base".toList),
      (some "name".toList, .leaf "foo".toList)]) ∧
    at? [0, 0, 0] c = some (rw' (.struct [])) := by
  obtain ⟨N, c, h1, h2, h3⟩ := C151_not_replaced (rw' := rw') (W := embedded) (v := embeddedView)
    (u := embeddedView) (root := false) (l := ⟨0, [1]⟩) rfl (.refl _) rfl rfl (by simp) rfl rfl
    (only_self rfl)
    (by
      intro h
      cases h with
      | here h => simp at h
      | decl h h' => simp at h; rcases h with ⟨-, rfl⟩ | ⟨-, rfl⟩ <;> cases h')
    (by intro b hb _; simp [exampleLegacy] at hb; subst hb; constructor <;> decide)
    (legacyFix_schemas _ _) (legacyFix_mappers _ _) (legacyFix_lacunas _ _)
  refine ⟨N, c, fun n hn => ?_, h2, h3 [] _ [] rfl rfl (by simp)⟩
  unfold fixCmd
  rw [h1 n hn]
  rfl

/-- `a: pkg.#A`, path `a.b`: the lineage is in a file of the package `pkg`. -/
def imported : World where
  files := [.struct [(some "a".toList, .leaf "pkg.#A".toList)]]
  others := [.struct [(some "#A".toList, .struct [(some "b".toList,
    .struct [(some "seqs".toList, .list [])])])]]

example (n : Nat) : rewriteFile id imported
      (some (.mk (some ⟨1, [0, 0]⟩) (some (exampleLegacy ⟨1, [0, 0, 0, 0]⟩)) [])) false n =
        .panic .explicit :=
  (C151_other_package (rw' := id) (fun _ => true) rfl (.refl _) rfl rfl
    ⟨⟨1, [0, 0]⟩, _, rfl, by simp, rfl⟩ (Nat.le_refl _) (only_self rfl)
    (legacyFix_schemas _ _) (legacyFix_mappers _ _) (legacyFix_lacunas _ _)).1

/-- `lin: otherLineage`, with a path: reported. -/
example (n : Nat) : ∃ e, rewriteFile id embedded
    (some (.mk (some ⟨0, [1, 0]⟩) (some (exampleLegacy ⟨0, [0, 0, 0]⟩)) [])) false n = .err e :=
  C151_reported (rw' := id) (root := false).2.2 fun w hw hl => by
    have := only_self (W := embedded) rfl w hw hl
    subst this
    obtain ⟨l, ds, h, -, hg⟩ := hl
    injection h with h
    subst h
    simp [World.get, embedded, at?] at hg

/-- A package of two files without a path. -/
example (n : Nat) : rewriteFile id twoFiles
      (some (.mk none (some (exampleLegacy ⟨0, [1]⟩)) [])) true n = .panic .explicit :=
  C151_no_source (rw' := id) rfl rfl
    (by
      intro w hw hl
      have := only_self (W := twoFiles) rfl w hw hl
      subst this
      obtain ⟨l, _, h, _⟩ := hl
      cases h)
    (legacyFix_schemas _ _) (legacyFix_mappers _ _) (legacyFix_lacunas _ _)

end Thema.Props

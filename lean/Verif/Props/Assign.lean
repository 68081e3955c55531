import Verif.Lemmas.Assign
import Verif.Model.TyCue

/-!
# Assignability (C61-C65)
-/

namespace Thema.Props

open Thema.Assign Thema.Spec.Assign

variable {V : Type} {O : Obs V}

theorem elemTypes_some {b : V} {r : Option V × V} :
    elemTypes O b = some r ↔ SameTypes O (O.elems b) ∧
      r = ((O.elems b).getLast?, if (O.elems b).length ≤ 1 then O.zero
        else ((O.elems b).getLast?).getD O.zero) := by
  unfold elemTypes
  cases he : O.elems b with
  | nil => simp [SameTypes, eq_comm]
  | cons x rest =>
    simp only [Option.map_eq_some_iff]
    constructor
    · rintro ⟨q, hq, rfl⟩
      rw [elemLoop_some] at hq
      refine ⟨hq.1, ?_⟩
      rw [hq.2, List.getLast?_eq_some_getLast (l := x :: rest) (by simp)]
      cases rest with
      | nil => simp
      | cons y rest => simp
    · rintro ⟨hs, rfl⟩
      refine ⟨_, elemLoop_some.2 ⟨hs, rfl⟩, ?_⟩
      rw [List.getLast?_eq_some_getLast (l := x :: rest) (by simp)]
      cases rest with
      | nil => simp
      | cons y rest => simp

theorem checkListBody_nil {rec : V → V → P → Res Errs} {g b : V} {p : P} :
    checkListBody O rec g b p = .ok [] ↔
      O.lenSub g b = true ∧ SameTypes O (O.elems b) ∧
      ((∃ n m, O.len g = some n ∧ O.len b = some m ∧ ∀ x, (O.elems g).head? = some x →
          rec x (if (O.elems b).length ≤ 1 then O.zero
            else ((O.elems b).getLast?).getD O.zero) (p ++ [none]) = .ok []) ∨
       (O.len g = none ∧ O.len b = none ∧ SameTypes O (O.elems b ++ [O.anyIdx b]) ∧
          rec (O.anyIdx g) (O.anyIdx b) (p ++ [none]) = .ok [])) := by
  unfold checkListBody
  by_cases h1 : (O.len g).isSome ≠ (O.len b).isSome
  · rw [if_pos h1]
    constructor
    · intro h; split at h <;> simp at h
    · rintro ⟨_, _, ⟨n, m, hg, hb, _⟩ | ⟨hg, hb, _⟩⟩ <;> simp [hg, hb] at h1
  rw [if_neg h1]
  by_cases h2 : (!O.lenSub g b) = true
  · rw [if_pos h2]
    simp only [Bool.not_eq_true'] at h2
    simp [h2]
  rw [if_neg h2]
  simp only [Bool.not_eq_true', Bool.not_eq_false] at h2
  cases h3 : elemTypes O b with
  | none =>
    have hns : ¬ SameTypes O (O.elems b) := by
      intro hs
      have := elemTypes_some.2 ⟨hs, rfl⟩
      rw [h3] at this
      cases this
    simp [hns]
  | some x =>
    rw [elemTypes_some] at h3
    obtain ⟨hs, rfl⟩ := h3
    simp only [h2, hs, true_and]
    cases hg : O.len g with
    | some n =>
      cases hb : O.len b with
      | none => simp [hg, hb] at h1
      | some m =>
        simp only [Option.isSome_some, if_true]
        constructor
        · intro h
          left
          refine ⟨n, m, rfl, rfl, fun x hx => ?_⟩
          cases he : O.elems g with
          | nil => rw [he] at hx; simp at hx
          | cons y l =>
            rw [he] at hx h
            simp at hx
            subst hx
            exact h
        · rintro (⟨n', m', _, _, h⟩ | ⟨h, _⟩)
          · cases he : O.elems g with
            | nil => rfl
            | cons y l => exact h y (by simp [he])
          · cases h
    | none =>
      cases hb : O.len b with
      | some m => simp [hg, hb] at h1
      | none =>
        rw [if_neg (by simp)]
        rw [sameTypes_snoc]
        simp only [hs, true_and, reduceCtorEq, false_and, exists_false, exists_const, false_or]
        cases hl : (O.elems b).getLast? with
        | none => simp
        | some l =>
          simp only [Option.some.injEq, forall_eq']
          by_cases hm : mutual_ O l (O.anyIdx b) = true
          · rw [if_pos hm]
            simp only [mutual_, Bool.and_eq_true] at hm
            simp [hm]
          · rw [if_neg hm]
            simp only [mutual_, Bool.and_eq_true] at hm
            simp only [Res.ok.injEq, List.cons_ne_self, reduceCtorEq, false_iff, not_and]
            intro h
            exact absurd h hm

theorem checkList_nil {rec : V → V → P → Res Errs} {g s : V} {p : P} :
    checkList O rec g s p = .ok [] ↔
      ∃ b, ListType O s b ∧ checkListBody O rec g b p = .ok [] := by
  unfold checkList ListType
  cases hd : O.hasDefault s with
  | false => simp
  | true =>
    simp only [if_true]
    by_cases hl : (O.alts s).length > 2
    · rw [if_pos hl]
      constructor
      · intro h; simp at h
      · rintro ⟨b, ⟨h, _⟩ | ⟨_, rest, ha, hr⟩, _⟩
        · simp at h
        · rw [ha] at hl; simp at hl; omega
    · rw [if_neg hl]
      cases ha : O.alts s with
      | nil => simp
      | cons b rest =>
        rw [ha] at hl
        simp only [List.length_cons] at hl
        simp only
        constructor
        · intro h
          exact ⟨b, .inr ⟨trivial, rest, rfl, by omega⟩, h⟩
        · rintro ⟨b', ⟨h, _⟩ | ⟨_, rest', he, _⟩, h⟩
          · simp at h
          · cases he; exact h

/-- Against the zero `cue.Value` only `any` passes. -/
theorem check_zero (hc : Coherent O) {n : Nat} {g : V} {p : P}
    (h : check O n g O.zero p = .ok []) : AnyType O g := by
  cases n with
  | zero => cases h
  | succ n =>
    by_cases ha : (O.kind g).noNull = .topNoNull
    · exact ha
    exfalso
    rw [check] at h
    simp only [hc.zero] at h
    by_cases hk : (O.kind g).noNull = Kinds.bottom.noNull
    · rw [hk] at h
      rw [if_neg (by decide), if_neg (by decide), if_neg (by decide), if_neg (by decide),
        if_neg (by decide), if_neg (by decide), if_pos (by decide)] at h
      cases h
    · rw [if_pos ⟨Ne.symm hk, ha⟩] at h
      cases h

theorem check_any {n : Nat} {g s : V} {p : P} (h : AnyType O g) :
    check O (n + 1) g s p = .ok [] := by
  rw [check]
  rw [if_neg (by intro hh; exact hh.2 h), if_pos (show (O.kind g).noNull = .topNoNull from h)]

theorem check_rules (hc : Coherent O) : ∀ n g s p, check O n g s p = .ok [] →
    Rules O False g s := by
  intro n
  induction n with
  | zero => intro g s p h; cases h
  | succ n ih =>
    intro g s p h
    by_cases ha : (O.kind g).noNull = .topNoNull
    · exact .any ha
    rw [check] at h
    by_cases hk : (O.kind s).noNull = (O.kind g).noNull
    case neg => rw [if_pos ⟨hk, ha⟩] at h; cases h
    rw [if_neg (fun hh => hh.1 hk), if_neg ha] at h
    by_cases hl : (O.kind s).noNull = .listK
    · rw [if_pos hl, checkList_nil] at h
      obtain ⟨b, hb, h⟩ := h
      rw [checkListBody_nil] at h
      obtain ⟨hlen, hst, ⟨a, m, hg, hbl, hrec⟩ | ⟨hg, hbl, hst', hrec⟩⟩ := h
      · cases he : (O.elems (stripLeadNull O g)).head? with
        | none =>
          exact .closedListEmpty hl (hk ▸ hl) (core_strip O g) hb hg hbl hlen hst
            (List.head?_eq_none_iff.1 he)
        | some x =>
          have hr := hrec x he
          by_cases h1 : (O.elems b).length ≤ 1
          · rw [if_pos h1] at hr
            exact .closedListAny hl (hk ▸ hl) (core_strip O g) hb hg hbl hlen hst he
              (check_zero hc hr)
          · rw [if_neg h1] at hr
            have hne : O.elems b ≠ [] := by intro e; rw [e] at h1; simp at h1
            rw [List.getLast?_eq_some_getLast hne] at hr
            exact .closedList hl (hk ▸ hl) (core_strip O g) hb hg hbl hlen hst he
              (List.getLast?_eq_some_getLast hne) (.inr (by omega)) (ih _ _ _ hr)
      · exact .openList hl (hk ▸ hl) (core_strip O g) hb hg hbl hlen hst' (ih _ _ _ hrec)
    rw [if_neg hl] at h
    by_cases hsc : (O.kind s).noNull.isScalar = true
    · rw [if_pos hsc] at h
      simp only [checkScalar, Res.ok.injEq] at h
      have hsub : O.sub (if (O.kind s).null = true then g else stripLeadNull O g) s = true :=
        Decidable.byContradiction fun hn => by
          rw [if_neg hn] at h
          cases h
      by_cases hn : (O.kind s).null = true
      · rw [if_pos hn] at hsub
        exact .basicNull hk ((isScalar_iff _).1 hsc) hn hsub
      · rw [if_neg hn] at hsub
        exact .basic hk ((isScalar_iff _).1 hsc) (by simpa using hn) (core_strip O g) hsub
    rw [if_neg hsc] at h
    by_cases hst : (O.kind s).noNull = .structK
    · rw [if_pos hst] at h
      by_cases ho : O.isOr s = true
      · rw [if_pos ho] at h; cases h
      rw [if_neg ho] at h
      unfold checkStruct at h
      cases hf : O.fields s with
      | none => rw [hf] at h; cases h
      | some ss =>
        cases hfg : O.fields (stripLeadNull O g) with
        | none => rw [hf, hfg] at h; cases h
        | some gs =>
          rw [hf, hfg] at h
          simp only at h
          rw [structLoop_nil (hc.nodup _ _ hf) (hc.nodup _ _ hfg)] at h
          exact .struct hst (hk ▸ hst) (by simpa using ho) (core_strip O g) hf hfg h.1
            (fun k sv gv h1 h2 => ih _ _ _ (h.2 k sv gv h1 h2))
    rw [if_neg hst, if_neg (noNull_ne_nullK _)] at h
    split at h <;> cases h

/-- A common amount of fuel for all pairs. -/
theorem common_fuel {ss gs : List (Str × V)}
    (h : ∀ k sv gv, (k, sv) ∈ ss → (k, gv) ∈ gs → ∃ n, ∀ p, check O n gv sv p = .ok []) :
    ∃ n, ∀ k sv gv, (k, sv) ∈ ss → (k, gv) ∈ gs → ∀ p, check O n gv sv p = .ok [] := by
  have inner : ∀ (k : Str) (sv : V) (l : List (Str × V)),
      (∀ gv, (k, gv) ∈ l → ∃ n, ∀ p, check O n gv sv p = .ok []) →
      ∃ n, ∀ gv, (k, gv) ∈ l → ∀ p, check O n gv sv p = .ok [] := by
    intro k sv l
    induction l with
    | nil => intro _; exact ⟨0, fun _ h => by cases h⟩
    | cons f l ih =>
      intro hl
      obtain ⟨n, hn⟩ := ih (fun gv hgv => hl gv (List.mem_cons_of_mem _ hgv))
      obtain ⟨k', gv'⟩ := f
      by_cases hk : k = k'
      · subst hk
        obtain ⟨m, hm⟩ := hl gv' (by simp)
        refine ⟨max n m, fun gv hgv p => ?_⟩
        rcases List.mem_cons.1 hgv with e | hgv
        · cases e
          exact check_mono (Nat.le_max_right n m) (hm p)
        · exact check_mono (Nat.le_max_left n m) (hn gv hgv p)
      · refine ⟨n, fun gv hgv p => ?_⟩
        rcases List.mem_cons.1 hgv with e | hgv
        · cases e; exact absurd rfl hk
        · exact hn gv hgv p
  induction ss with
  | nil => exact ⟨0, fun _ _ _ h => by cases h⟩
  | cons f ss ih =>
    obtain ⟨n, hn⟩ := ih (fun k sv gv h1 h2 => h k sv gv (List.mem_cons_of_mem _ h1) h2)
    obtain ⟨k', sv'⟩ := f
    obtain ⟨m, hm⟩ := inner k' sv' gs (fun gv hgv => h k' sv' gv (by simp) hgv)
    refine ⟨max n m, fun k sv gv h1 h2 p => ?_⟩
    rcases List.mem_cons.1 h1 with e | h1
    · cases e
      exact check_mono (Nat.le_max_right n m) (hm gv h2 p)
    · exact check_mono (Nat.le_max_left n m) (hn k sv gv h1 h2 p)

theorem rules_check (hc : Coherent O) {g s : V} (h : Rules O False g s) :
    ∃ n, ∀ p, check O n g s p = .ok [] := by
  have notTop : ∀ {k : Kinds}, k = .listK ∨ k = .structK ∨ Basic k → k ≠ .topNoNull := by
    rintro k (h | h | h | h | h | h | h | h) <;> subst h <;> decide
  induction h with
  | any ha => exact ⟨1, fun p => check_any ha⟩
  | @basicNull g s hk hb hn hsub =>
    refine ⟨1, fun p => ?_⟩
    rw [check]
    rw [if_neg (fun hh => hh.1 hk), if_neg (hk ▸ notTop (.inr (.inr hb))), if_neg, if_pos, if_pos hn]
    · simp [checkScalar, hsub]
    · exact (isScalar_iff _).2 hb
    · intro e; rw [e] at hb; revert hb; simp [Basic, Kinds.listK]
  | @basic g g' s hk hb hn hcore hsub =>
    refine ⟨1, fun p => ?_⟩
    rw [check]
    rw [if_neg (fun hh => hh.1 hk), if_neg (hk ▸ notTop (.inr (.inr hb))), if_neg, if_pos,
      if_neg (by simp [hn]), core_eq hcore]
    · simp [checkScalar, hsub]
    · exact (isScalar_iff _).2 hb
    · intro e; rw [e] at hb; revert hb; simp [Basic, Kinds.listK]
  | @struct g g' s fs gs hks hkg ho hcore hf hfg hkeys _ ih =>
    obtain ⟨n, hn⟩ := common_fuel ih
    refine ⟨n + 1, fun p => ?_⟩
    rw [check]
    rw [if_neg (fun hh => hh.1 (hks.trans hkg.symm)), if_neg (hkg ▸ by decide),
      if_neg (hks ▸ by decide), if_neg (hks ▸ by decide), if_pos (by rw [hks]; rfl),
      if_neg (by simp [ho]), core_eq hcore]
    unfold checkStruct
    rw [hf, hfg]
    simp only
    rw [structLoop_nil (hc.nodup _ _ hf) (hc.nodup _ _ hfg)]
    exact ⟨hkeys, fun k sv gv h1 h2 => hn k sv gv h1 h2 _⟩
  | @openList g g' s b hks hkg hcore hb hlg hlb hlen hst _ ih =>
    obtain ⟨n, hn⟩ := ih
    refine ⟨n + 1, fun p => ?_⟩
    rw [check]
    rw [if_neg (fun hh => hh.1 (hks.trans hkg.symm)), if_neg (hkg ▸ by decide),
      if_pos (by rw [hks]; rfl), core_eq hcore, checkList_nil]
    exact ⟨b, hb, checkListBody_nil.2 ⟨hlen, (sameTypes_snoc.1 hst).1,
      .inr ⟨hlg, hlb, hst, hn _⟩⟩⟩
  | @closedList g g' s b n m x e hks hkg hcore hb hlg hlb hlen hst hx he hone _ ih =>
    obtain ⟨n, hn⟩ := ih
    refine ⟨n + 1, fun p => ?_⟩
    rw [check]
    rw [if_neg (fun hh => hh.1 (hks.trans hkg.symm)), if_neg (hkg ▸ by decide),
      if_pos (by rw [hks]; rfl), core_eq hcore, checkList_nil]
    refine ⟨b, hb, checkListBody_nil.2 ⟨hlen, hst, .inl ⟨_, _, hlg, hlb, fun y hy => ?_⟩⟩⟩
    rw [hx] at hy
    cases hy
    have h1 : ¬ (O.elems b).length ≤ 1 := by
      rcases hone with h | h
      · exact h.elim
      · have : (O.elems b).length ≠ 0 := by
          intro h0
          rw [List.length_eq_zero_iff.1 h0] at he
          simp at he
        omega
    rw [if_neg h1, he]
    exact hn _
  | @closedListAny g g' s b n m x hks hkg hcore hb hlg hlb hlen hst hx hany =>
    refine ⟨2, fun p => ?_⟩
    rw [check]
    rw [if_neg (fun hh => hh.1 (hks.trans hkg.symm)), if_neg (hkg ▸ by decide),
      if_pos (by rw [hks]; rfl), core_eq hcore, checkList_nil]
    refine ⟨b, hb, checkListBody_nil.2 ⟨hlen, hst, .inl ⟨_, _, hlg, hlb, fun y hy => ?_⟩⟩⟩
    rw [hx] at hy
    cases hy
    exact check_any hany
  | @closedListEmpty g g' s b n m hks hkg hcore hb hlg hlb hlen hst he =>
    refine ⟨1, fun p => ?_⟩
    rw [check]
    rw [if_neg (fun hh => hh.1 (hks.trans hkg.symm)), if_neg (hkg ▸ by decide),
      if_pos (by rw [hks]; rfl), core_eq hcore, checkList_nil]
    refine ⟨b, hb, checkListBody_nil.2 ⟨hlen, hst, .inl ⟨_, _, hlg, hlb, fun y hy => ?_⟩⟩⟩
    rw [he] at hy
    simp at hy

/-- Rules that hold without the exception for one-element lists also hold with it. -/
theorem rules_single {g s : V} (h : Rules O False g s) : Rules O True g s := by
  induction h with
  | any h => exact .any h
  | basicNull h1 h2 h3 h4 => exact .basicNull h1 h2 h3 h4
  | basic h1 h2 h3 h4 h5 => exact .basic h1 h2 h3 h4 h5
  | struct h1 h2 h3 h4 h5 h6 h7 _ ih => exact .struct h1 h2 h3 h4 h5 h6 h7 ih
  | openList h1 h2 h3 h4 h5 h6 h7 h8 _ ih => exact .openList h1 h2 h3 h4 h5 h6 h7 h8 ih
  | closedList h1 h2 h3 h4 h5 h6 h7 h8 h9 h10 _ _ ih =>
    exact .closedList h1 h2 h3 h4 h5 h6 h7 h8 h9 h10 (.inl trivial) ih
  | closedListAny h1 h2 h3 h4 h5 h6 h7 h8 h9 h10 =>
    exact .closedListAny h1 h2 h3 h4 h5 h6 h7 h8 h9 h10
  | closedListEmpty h1 h2 h3 h4 h5 h6 h7 h8 h9 =>
    exact .closedListEmpty h1 h2 h3 h4 h5 h6 h7 h8 h9

theorem sameTypes_last {inst : V → Data → Prop} {S : V → Prop} (hs : Sem O inst S) :
    ∀ {l : List V}, SameTypes O l → ∀ w ∈ l, ∀ d, inst w d → ∀ e, l.getLast? = some e → inst e d
  | [], _, w, hw, _, _, _, _ => by cases hw
  | [x], _, w, hw, d, hi, e, he => by
    simp at hw he
    subst hw he
    exact hi
  | x :: y :: rest, h, w, hw, d, hi, e, he => by
    rw [SameTypes] at h
    rw [List.getLast?_cons_cons] at he
    rcases List.mem_cons.1 hw with rfl | hw
    · exact sameTypes_last hs h.2.2 y (by simp) d (hs.sub _ _ _ h.2.1 hi) e he
    · exact sameTypes_last hs h.2.2 w hw d hi e he

theorem represents_of_rules {inst : V → Data → Prop} {S : V → Prop} (hs : Sem O inst S)
    {g s : V} (h : Rules O True g s) : S s → ∀ d, inst s d → Represents O inst g d := by
  have listInst : ∀ {s b : V} {d : Data}, S s → ListType O s b → inst s d → S b ∧ inst b d := by
    rintro s b d hS (⟨_, rfl⟩ | ⟨hd, rest, ha, hr⟩) hi
    · exact ⟨hS, hi⟩
    · exact ⟨hs.altS s b hS (by simp [ha]), hs.dflt s b rest d hS hd ha hr hi⟩
  have listData : ∀ {s : V} {d : Data}, S s → (O.kind s).noNull = { list := true } → inst s d →
      ∃ l, d = .list l := by
    intro s d hS hk hi
    have hkd := hs.kind s d hi
    cases d with
    | null => exact absurd hk (hs.nullBasic s hS hkd).1
    | list l => exact ⟨l, rfl⟩
    | obj fs =>
      have : (O.kind s).noNull.struct = true := hkd
      rw [hk] at this; cases this
    | scalar k c =>
      cases k
      · have : (O.kind s).noNull.bool = true := hkd
        rw [hk] at this; cases this
      · have : (O.kind s).noNull.int = true := hkd
        rw [hk] at this; cases this
      · have : (O.kind s).noNull.float = true := hkd
        rw [hk] at this; cases this
      · have : (O.kind s).noNull.str = true := hkd
        rw [hk] at this; cases this
      · have : (O.kind s).noNull.bytes = true := hkd
        rw [hk] at this; cases this
  have basicData : ∀ {s : V} {d : Data}, Basic (O.kind s).noNull → inst s d →
      ((O.kind s).null = true ∧ d = .null) ∨ ∃ k c, d = .scalar k c := by
    intro s d hb hi
    have hkd := hs.kind s d hi
    cases d with
    | null => exact .inl ⟨hkd, rfl⟩
    | scalar k c => exact .inr ⟨k, c, rfl⟩
    | list l =>
      have h : (O.kind s).noNull.list = true := hkd
      rcases hb with hb | hb | hb | hb | hb | hb <;> rw [hb] at h <;> cases h
    | obj fs =>
      have h : (O.kind s).noNull.struct = true := hkd
      rcases hb with hb | hb | hb | hb | hb | hb <;> rw [hb] at h <;> cases h
  induction h with
  | any h => intro _ d _; exact .any h
  | basicNull _ hb _ hsub =>
    intro _ d hi
    rcases basicData hb hi with ⟨_, rfl⟩ | ⟨k, c, rfl⟩
    · exact .nilPtr (hs.sub _ _ _ hsub hi)
    · exact .basic (hs.sub _ _ _ hsub hi)
  | basic _ hb hn hcore hsub =>
    intro _ d hi
    rcases basicData hb hi with ⟨h, _⟩ | ⟨k, c, rfl⟩
    · rw [hn] at h; cases h
    · exact .pointee hcore (hs.sub _ _ _ hsub hi)
  | @struct g g' s fs gs hks _ ho hcore hf hfg hkeys _ ih =>
    intro hS d hi
    have hkd := hs.kind s d hi
    have hobj : ∃ ds, d = .obj ds := by
      cases d with
      | null => exact absurd hks (hs.nullBasic s hS hkd).2
      | obj ds => exact ⟨ds, rfl⟩
      | list l =>
        have : (O.kind s).noNull.list = true := hkd
        rw [hks] at this; cases this
      | scalar k c =>
        cases k
        · have : (O.kind s).noNull.bool = true := hkd
          rw [hks] at this; cases this
        · have : (O.kind s).noNull.int = true := hkd
          rw [hks] at this; cases this
        · have : (O.kind s).noNull.float = true := hkd
          rw [hks] at this; cases this
        · have : (O.kind s).noNull.str = true := hkd
          rw [hks] at this; cases this
        · have : (O.kind s).noNull.bytes = true := hkd
          rw [hks] at this; cases this
    obtain ⟨ds, rfl⟩ := hobj
    have hex : ∀ k d, (k, d) ∈ ds → ∃ gv, (k, gv) ∈ gs ∧ Represents O inst gv d := by
      intro k d hd
      obtain ⟨w, hw, hiw⟩ := hs.struct s fs ds hS ho hf hi k d hd
      obtain ⟨f, hfm, hfk⟩ := List.mem_map.1 ((hkeys k).1 (List.mem_map.2 ⟨_, hw, rfl⟩))
      obtain ⟨k', gv⟩ := f
      cases hfk
      exact ⟨gv, hfm, ih _ w gv hw hfm (hs.fieldS s fs _ w hS hf hw) d hiw⟩
    classical
    refine .struct (fun k d => if h : (k, d) ∈ ds then (hex k d h).choose else g') hcore hfg
      (fun k d hd => ?_) (fun k d hd => ?_)
    · simp only [hd, dif_pos]; exact (hex k d hd).choose_spec.1
    · simp only [hd, dif_pos]; exact (hex k d hd).choose_spec.2
  | @openList g g' s b hks _ hcore hb hlg hlb _ hst _ ih =>
    intro hS d hi
    obtain ⟨l, rfl⟩ := listData hS hks hi
    obtain ⟨hSb, hib⟩ := listInst hS hb hi
    refine .slice hcore hlg fun x hx => ih (hs.anyS b hSb hlb) x ?_
    obtain ⟨i, hi⟩ := List.getElem?_of_mem hx
    have ho := hs.open_ b l hSb hlb hib i x hi
    cases he : (O.elems b)[i]? with
    | none => exact ho.2 he
    | some w =>
      exact sameTypes_last hs hst w (List.mem_append_left _ (List.mem_of_getElem? he)) x
        (ho.1 w he) _ (by simp)
  | @closedList g g' s b n m x e hks _ hcore hb hlg hlb hlen hst hx he _ _ ih =>
    intro hS d hi
    obtain ⟨l, rfl⟩ := listData hS hks hi
    obtain ⟨hSb, hib⟩ := listInst hS hb hi
    obtain ⟨hl1, hl2, hl3⟩ := hs.closed b m l hSb hlb hib
    have hnm := hs.lenSub _ _ _ _ hlen hlg hlb
    refine .array hcore hlg hx (hl1.trans hnm.symm) fun y hy => ?_
    obtain ⟨i, hi⟩ := List.getElem?_of_mem hy
    have hlt : i < (O.elems b).length := by
      have := (List.getElem?_eq_some_iff.1 hi).1
      omega
    have hw := List.getElem?_eq_getElem hlt
    exact ih (hs.elemS b e hSb (List.mem_of_getLast? he)) y
      (sameTypes_last hs hst _ (List.mem_of_getElem? hw) y (hl3 i y _ hi hw) e he)
  | @closedListAny g g' s b n m x hks _ hcore hb hlg hlb hlen hst hx hany =>
    intro hS d hi
    obtain ⟨l, rfl⟩ := listData hS hks hi
    obtain ⟨hSb, hib⟩ := listInst hS hb hi
    obtain ⟨hl1, _, _⟩ := hs.closed b m l hSb hlb hib
    exact .array hcore hlg hx (hl1.trans (hs.lenSub _ _ _ _ hlen hlg hlb).symm)
      fun y _ => .any hany
  | @closedListEmpty g g' s b n m hks _ hcore hb hlg hlb hlen hst he =>
    intro hS d hi
    obtain ⟨l, rfl⟩ := listData hS hks hi
    obtain ⟨hSb, hib⟩ := listInst hS hb hi
    obtain ⟨hl1, _, _⟩ := hs.closed b m l hSb hlb hib
    have h0 : n = 0 := by rw [← hs.arr _ _ hlg, he]; rfl
    have hnm := hs.lenSub _ _ _ _ hlen hlg hlb
    subst h0
    have : l = [] := List.length_eq_zero_iff.1 (by omega)
    subst this
    exact .emptyArray hcore hlg

/-! ### What is reported -/

theorem structLoop_mem {rec : V → V → P → Res Errs} {p : P} :
    ∀ {ss gs : List (Str × V)} {es : Errs}, (ss.map (·.1)).Nodup → (gs.map (·.1)).Nodup →
    structLoop rec p ss gs = .ok es → ∀ x m, (x, m) ∈ es ↔
      (∃ k, k ∈ ss.map (·.1) ∧ k ∉ gs.map (·.1) ∧ x = p ++ [some k] ∧ m = .absentInGo) ∨
      (∃ k, k ∈ gs.map (·.1) ∧ k ∉ ss.map (·.1) ∧ x = [some k] ∧ m = .absentInSchema) ∨
      (∃ k sv gv es', (k, sv) ∈ ss ∧ (k, gv) ∈ gs ∧ rec gv sv (p ++ [some k]) = .ok es' ∧
        (x, m) ∈ es') := by
  intro ss
  induction ss with
  | nil =>
    intro gs es _ _ h x m
    simp only [structLoop, Res.ok.injEq] at h
    subst h
    simp only [List.mem_map, Prod.mk.injEq, List.map_nil, List.not_mem_nil, false_and,
      exists_false, false_or, not_false_eq_true, true_and, or_false]
    constructor
    · rintro ⟨f, hf, rfl, rfl⟩
      exact ⟨f.1, ⟨f, hf, rfl⟩, rfl, rfl⟩
    · rintro ⟨k, ⟨f, hf, rfl⟩, rfl, rfl⟩
      exact ⟨f, hf, rfl, rfl⟩
  | cons f ss ih =>
    intro gs es hss hgs h x m
    obtain ⟨k, sv⟩ := f
    simp only [List.map_cons, List.nodup_cons] at hss
    unfold structLoop at h
    cases hl : gs.lookup k with
    | none =>
      have hk := lookup_none.1 hl
      simp only [hl, Res.map] at h
      rw [Res.bind_eq_ok'] at h
      obtain ⟨es', h', he⟩ := h
      simp only [Res.ok.injEq] at he
      subst he
      simp only [List.mem_cons, Prod.mk.injEq, ih hss.2 hgs h' x m, List.map_cons]
      constructor
      · rintro (⟨rfl, rfl⟩ | ⟨k', h1, h2, h3⟩ | ⟨k', h1, h2, h3⟩ | ⟨k', a, b, c, h1, h2, h3⟩)
        · exact .inl ⟨k, .inl rfl, hk, rfl, rfl⟩
        · exact .inl ⟨k', .inr h1, h2, h3⟩
        · refine .inr (.inl ⟨k', h1, fun hh => ?_, h3⟩)
          rcases hh with rfl | hh
          · exact hk h1
          · exact h2 hh
        · exact .inr (.inr ⟨k', a, b, c, .inr h1, h2, h3⟩)
      · rintro (⟨k', h1 | h1, h2, h3, h4⟩ | ⟨k', h1, h2, h3⟩ | ⟨k', a, b, c, h1 | h1, h2, h3⟩)
        · subst h1; exact .inl ⟨h3, h4⟩
        · exact .inr (.inl ⟨k', h1, h2, h3, h4⟩)
        · exact .inr (.inr (.inl ⟨k', h1, fun hh => h2 (.inr hh), h3⟩))
        · obtain ⟨rfl, rfl⟩ := h1
          exact absurd (List.mem_map.2 ⟨_, h2, rfl⟩) hk
        · exact .inr (.inr (.inr ⟨k', a, b, c, h1, h2, h3⟩))
    | some gv =>
      have hg := mem_of_lookup hl
      simp only [hl] at h
      rw [Res.bind_eq_ok'] at h
      obtain ⟨es1, hr, h⟩ := h
      simp only [Res.map] at h
      rw [Res.bind_eq_ok'] at h
      obtain ⟨es2, h', he⟩ := h
      simp only [Res.ok.injEq] at he
      subst he
      have hmem : ∀ k', k' ∈ (gs.filter (fun f => decide (f.1 ≠ k))).map (·.1) ↔
          k' ∈ gs.map (·.1) ∧ k' ≠ k := by
        intro k'
        simp only [List.mem_map, List.mem_filter, decide_eq_true_eq]
        constructor
        · rintro ⟨f, ⟨hf, hne⟩, rfl⟩; exact ⟨⟨f, hf, rfl⟩, hne⟩
        · rintro ⟨⟨f, hf, rfl⟩, hne⟩; exact ⟨f, ⟨hf, hne⟩, rfl⟩
      have hkss : ∀ k' ∈ ss.map (·.1), k' ≠ k := fun k' h e => hss.1 (e ▸ h)
      simp only [List.mem_append, ih hss.2 (nodup_filter hgs _) h' x m, hmem, List.map_cons,
        List.mem_cons]
      constructor
      · rintro (h1 | ⟨k', h1, h2, h3⟩ | ⟨k', h1, h2, h3⟩ | ⟨k', a, b, c, h1, h2, h3⟩)
        · exact .inr (.inr ⟨k, sv, gv, es1, .inl rfl, hg, hr, h1⟩)
        · exact .inl ⟨k', .inr h1, fun hh => h2 ⟨hh, hkss k' h1⟩, h3⟩
        · exact .inr (.inl ⟨k', h1.1, fun hh => hh.elim h1.2 h2, h3⟩)
        · exact .inr (.inr ⟨k', a, b, c, .inr h1, (List.mem_filter.1 h2).1, h3⟩)
      · rintro (⟨k', h1 | h1, h2, h3⟩ | ⟨k', h1, h2, h3⟩ | ⟨k', a, b, c, h1 | h1, h2, h3, h4⟩)
        · subst h1; exact absurd (List.mem_map.2 ⟨_, hg, rfl⟩) h2
        · exact .inr (.inl ⟨k', h1, fun hh => h2 hh.1, h3⟩)
        · exact .inr (.inr (.inl ⟨k', ⟨h1, fun e => h2 (.inl e)⟩, fun hh => h2 (.inr hh), h3⟩))
        · cases h1
          rw [lookup_of_mem hgs h2] at hl
          cases hl
          rw [hr] at h3
          cases h3
          exact .inl h4
        · refine .inr (.inr (.inr ⟨k', a, b, c, h1, ?_, h3, h4⟩))
          have : k' ≠ k := hkss k' (List.mem_map.2 ⟨_, h1, rfl⟩)
          exact List.mem_filter.2 ⟨h2, by simpa using this⟩

/-- How a discrepancy at path `q` below `p` shows up: under its path, except that a field
that only the Go type has shows up under its bare name. -/
def ShownAs (O : Obs V) (p : P) (g s : V) (x : P) (m : Msg) : Prop :=
  (m ≠ .absentInSchema ∧ ∃ q, x = p ++ q ∧ Disc O g s q m) ∨
  (m = .absentInSchema ∧ ∃ q k, x = [some k] ∧ Disc O g s (q ++ [some k]) m)

theorem excess_path {g s : V} {q : P} {m : Msg} (h : Disc O g s q m) (hm : m = .absentInSchema) :
    ∃ q' k, q = q' ++ [some k] := by
  induction h with
  | excess => exact ⟨[], _, rfl⟩
  | @field _ _ _ _ _ k _ _ _ _ _ _ _ _ _ _ _ _ _ ih =>
    obtain ⟨q', k', rfl⟩ := ih hm; exact ⟨some k :: q', k', rfl⟩
  | openElem _ _ _ _ _ _ _ _ _ ih => obtain ⟨q', k', rfl⟩ := ih hm; exact ⟨none :: q', k', rfl⟩
  | closedElem _ _ _ _ _ _ _ _ _ _ _ ih =>
    obtain ⟨q', k', rfl⟩ := ih hm; exact ⟨none :: q', k', rfl⟩
  | _ => cases hm

/-- Discrepancies of a part, shown as discrepancies of the whole. -/
theorem shown_part {g s g1 s1 : V} {p : P} {c : Sel}
    (h : ∀ q m, Disc O g1 s1 q m → Disc O g s (c :: q) m) {x : P} {m : Msg}
    (hs : ShownAs O (p ++ [c]) g1 s1 x m) : ShownAs O p g s x m := by
  rcases hs with ⟨hm, q, rfl, hd⟩ | ⟨hm, q, k, rfl, hd⟩
  · exact .inl ⟨hm, c :: q, by simp, h q m hd⟩
  · exact .inr ⟨hm, c :: q, k, rfl, h _ m hd⟩

theorem shown_nil {g s : V} {p x : P} {m m' : Msg} (hm : m' ≠ .absentInSchema)
    (hd : Disc O g s [] m') (h : (x, m) ∈ [(p, m')]) : ShownAs O p g s x m := by
  simp only [List.mem_singleton, Prod.mk.injEq] at h
  obtain ⟨rfl, rfl⟩ := h
  exact .inl ⟨hm, [], by simp, hd⟩

theorem core_unique {g a b : V} (h : Core O g a) (h' : Core O g b) : a = b :=
  (core_eq h).symm.trans (core_eq h')

theorem listType_unique {s a b : V} (h : ListType O s a) (h' : ListType O s b) : a = b := by
  rcases h with ⟨hd, rfl⟩ | ⟨hd, r, ha, _⟩
  · rcases h' with ⟨_, rfl⟩ | ⟨hd', _⟩
    · rfl
    · rw [hd] at hd'; cases hd'
  · rcases h' with ⟨hd', _⟩ | ⟨_, r', ha', _⟩
    · rw [hd] at hd'; cases hd'
    · rw [ha] at ha'; cases ha'; rfl

/-- Everything reported is a discrepancy. -/
theorem check_reported (hc : Coherent O) : ∀ n g s p es, check O n g s p = .ok es →
    ∀ x m, (x, m) ∈ es → ShownAs O p g s x m := by
  intro n
  induction n with
  | zero => intro g s p es h; cases h
  | succ n ih =>
    intro g s p es h x m hx
    rw [check] at h
    by_cases ha : (O.kind g).noNull = .topNoNull
    · rw [if_neg (fun hh => hh.2 ha), if_pos ha] at h
      cases h; cases hx
    by_cases hk : (O.kind s).noNull = (O.kind g).noNull
    case neg =>
      rw [if_pos ⟨hk, ha⟩] at h
      cases h
      exact shown_nil (by decide) (.kind ha hk) hx
    rw [if_neg (fun hh => hh.1 hk), if_neg ha] at h
    by_cases hl : (O.kind s).noNull = .listK
    · rw [if_pos hl] at h
      have hg := hk.symm.trans hl
      unfold checkList at h
      have body : ∀ b, ListType O s b →
          checkListBody O (check O n) (stripLeadNull O g) b p = .ok es → ShownAs O p g s x m := by
        intro b hb h
        have hcore := core_strip O g
        unfold checkListBody at h
        by_cases h1 : (O.len (stripLeadNull O g)).isSome ≠ (O.len b).isSome
        · rw [if_pos h1] at h
          cases h2 : O.len b with
          | some k =>
            rw [h2] at h1 h
            cases h
            refine shown_nil (by decide) (.closed hl hg hcore hb ?_ h2) hx
            cases h3 : O.len (stripLeadNull O g) with
            | none => rfl
            | some _ => rw [h3] at h1; simp at h1
          | none =>
            rw [h2] at h1 h
            cases h
            cases h3 : O.len (stripLeadNull O g) with
            | none => rw [h3] at h1; simp at h1
            | some k => exact shown_nil (by decide) (.open_ hl hg hcore hb h3 h2) hx
        rw [if_neg h1] at h
        have h1 : (O.len (stripLeadNull O g)).isSome = (O.len b).isSome := by
          simpa using h1
        by_cases h2 : (!O.lenSub (stripLeadNull O g) b) = true
        · rw [if_pos h2] at h
          cases h
          exact shown_nil (by decide) (.lengths hl hg hcore hb h1 (by simpa using h2)) hx
        rw [if_neg h2] at h
        have h2 : O.lenSub (stripLeadNull O g) b = true := by simpa using h2
        cases h3 : elemTypes O b with
        | none =>
          rw [h3] at h
          cases h
          have hns : ¬ SameTypes O (O.elems b) := by
            intro hs
            have := elemTypes_some.2 ⟨hs, rfl⟩
            rw [h3] at this
            cases this
          refine shown_nil (by decide) (.types hl hg hcore hb h1 h2 ?_) hx
          split
          · exact fun hh => hns (sameTypes_snoc.1 hh).1
          · simpa using hns
        | some r =>
          rw [h3] at h
          rw [elemTypes_some] at h3
          obtain ⟨hst, rfl⟩ := h3
          simp only at h
          cases h4 : O.len (stripLeadNull O g) with
          | some k =>
            obtain ⟨k', hk'⟩ : ∃ k', O.len b = some k' := by
              rw [h4] at h1
              exact Option.isSome_iff_exists.1 h1.symm
            rw [h4] at h
            simp only [Option.isSome_some, if_true] at h
            cases he : O.elems (stripLeadNull O g) with
            | nil => rw [he] at h; cases h; cases hx
            | cons y rest =>
              rw [he] at h
              simp only at h
              refine shown_part (c := none) ?_ (ih _ _ _ _ h x m hx)
              intro q m' hd
              refine .closedElem hl hg hcore hb h4 hk' h2 hst (by rw [he]; rfl) ?_ hd
              by_cases hlen : (O.elems b).length ≤ 1
              · rw [if_pos hlen]; exact .inr ⟨by omega, rfl⟩
              · rw [if_neg hlen]
                have hne : O.elems b ≠ [] := by intro e; rw [e] at hlen; simp at hlen
                rw [List.getLast?_eq_some_getLast hne]
                exact .inl ⟨by omega, rfl⟩
          | none =>
            have hbn : O.len b = none := by
              rw [h4] at h1
              cases hb' : O.len b with
              | none => rfl
              | some _ => rw [hb'] at h1; simp at h1
            rw [h4] at h
            simp only [Option.isSome_none, Bool.false_eq_true, if_false] at h
            have finish : SameTypes O (O.elems b ++ [O.anyIdx b]) →
                check O n (O.anyIdx (stripLeadNull O g)) (O.anyIdx b) (p ++ [none]) = .ok es →
                ShownAs O p g s x m := fun hst' hr =>
              shown_part (c := none) (fun q m' hd => .openElem hl hg hcore hb h4 hbn h2 hst' hd)
                (ih _ _ _ _ hr x m hx)
            cases hgl : (O.elems b).getLast? with
            | none =>
              rw [hgl] at h
              exact finish (sameTypes_snoc.2 ⟨hst, fun e he => by rw [hgl] at he; cases he⟩) h
            | some l =>
              rw [hgl] at h
              simp only at h
              by_cases hm : mutual_ O l (O.anyIdx b) = true
              · rw [if_pos hm] at h
                simp only [mutual_, Bool.and_eq_true] at hm
                refine finish (sameTypes_snoc.2 ⟨hst, fun e he => ?_⟩) h
                rw [hgl] at he; cases he; exact hm
              · rw [if_neg hm] at h
                cases h
                simp only [mutual_, Bool.and_eq_true] at hm
                refine shown_nil (by decide) (.types hl hg hcore hb (by rw [h4, hbn]) h2 ?_) hx
                rw [if_pos hbn]
                exact fun hh => hm ((sameTypes_snoc.1 hh).2 l hgl)
      cases hd : O.hasDefault s with
      | false =>
        rw [hd] at h
        exact body s (.inl ⟨hd, rfl⟩) h
      | true =>
        rw [hd] at h
        simp only [if_true] at h
        by_cases hlen : (O.alts s).length > 2
        · rw [if_pos hlen] at h
          cases h
          exact shown_nil (by decide) (.listDisjunction hl hg hd hlen) hx
        · rw [if_neg hlen] at h
          cases hal : O.alts s with
          | nil => rw [hal] at h; cases h
          | cons b rest =>
            rw [hal] at h hlen
            simp only [List.length_cons] at hlen
            exact body b (.inr ⟨hd, rest, hal, by omega⟩) h
    rw [if_neg hl] at h
    by_cases hsc : (O.kind s).noNull.isScalar = true
    · rw [if_pos hsc] at h
      simp only [checkScalar, Res.ok.injEq] at h
      subst h
      have hb := (isScalar_iff _).1 hsc
      by_cases hn : (O.kind s).null = true
      · rw [if_pos hn] at hx
        by_cases hsub : O.sub g s = true
        · rw [if_pos hsub] at hx; cases hx
        · rw [if_neg hsub] at hx
          exact shown_nil (by decide) (.basicNull hk hb hn (by simpa using hsub)) hx
      · rw [if_neg hn] at hx
        by_cases hsub : O.sub (stripLeadNull O g) s = true
        · rw [if_pos hsub] at hx; cases hx
        · rw [if_neg hsub] at hx
          exact shown_nil (by decide)
            (.basic hk hb (by simpa using hn) (core_strip O g) (by simpa using hsub)) hx
    rw [if_neg hsc] at h
    by_cases hst : (O.kind s).noNull = .structK
    · rw [if_pos hst] at h
      have hg := hk.symm.trans hst
      by_cases ho : O.isOr s = true
      · rw [if_pos ho] at h
        cases h
        exact shown_nil (by decide) (.structOr hst hg ho) hx
      rw [if_neg ho] at h
      have ho : O.isOr s = false := by simpa using ho
      unfold checkStruct at h
      cases hf : O.fields s with
      | none => rw [hf] at h; cases h
      | some ss =>
        cases hfg : O.fields (stripLeadNull O g) with
        | none => rw [hf, hfg] at h; cases h
        | some gs =>
          rw [hf, hfg] at h
          simp only at h
          have hcore := core_strip O g
          rcases (structLoop_mem (hc.nodup _ _ hf) (hc.nodup _ _ hfg) h x m).1 hx with
            ⟨k, h1, h2, rfl, rfl⟩ | ⟨k, h1, h2, rfl, rfl⟩ | ⟨k, sv, gv, es', h1, h2, hr, hx'⟩
          · exact .inl ⟨by decide, [some k], rfl, .missing hst hg ho hcore hf hfg h1 h2⟩
          · exact .inr ⟨rfl, [], k, rfl, .excess hst hg ho hcore hf hfg h1 h2⟩
          · exact shown_part (c := some k)
              (fun q m' hd => .field hst hg ho hcore hf hfg h1 h2 hd) (ih _ _ _ _ hr x m hx')
    rw [if_neg hst, if_neg (noNull_ne_nullK _)] at h
    by_cases hso : (O.kind s).noNull.scalarOnly = true
    · rw [if_pos hso] at h
      cases h
      simp only [Kinds.scalarOnly, Kinds.noNull, Bool.and_eq_true, Bool.not_eq_true'] at hso
      exact shown_nil (by decide)
        (.kinds ha hk (fun hb => hsc ((isScalar_iff _).2 hb)) hso.1 hso.2) hx
    · rw [if_neg hso] at h; cases h

/-- The discrepancy at path `q` below `p` is among the errors. -/
def ShownIn (es : Errs) (p q : P) (m : Msg) : Prop :=
  (m ≠ .absentInSchema → (p ++ q, m) ∈ es) ∧
  (m = .absentInSchema → ∀ q' k, q = q' ++ [some k] → ([some k], m) ∈ es)

theorem shownIn_nil {p : P} {m : Msg} : ShownIn [(p, m)] p [] m :=
  ⟨fun _ => by simp, fun _ q' k h => by simp at h⟩

theorem shownIn_part {es : Errs} {p q : P} {c : Sel} {m : Msg} (hd : m = .absentInSchema → q ≠ [])
    (h : ShownIn es (p ++ [c]) q m) : ShownIn es p (c :: q) m := by
  refine ⟨fun hm => by simpa using h.1 hm, fun hm q' k he => ?_⟩
  cases q' with
  | nil =>
    simp only [List.nil_append, List.cons.injEq] at he
    exact absurd he.2 (hd hm)
  | cons c' q'' =>
    simp only [List.cons_append, List.cons.injEq] at he
    exact h.2 hm q'' k he.2

theorem disc_excess_ne_nil {g s : V} {q : P} {m : Msg} (h : Disc O g s q m)
    (hm : m = .absentInSchema) : q ≠ [] := by
  obtain ⟨q', k, rfl⟩ := excess_path h hm
  simp

theorem disc_not_any {g s : V} {q : P} {m : Msg} (h : Disc O g s q m) : ¬ AnyType O g := by
  intro ha
  have basicTop : ∀ {k : Kinds}, Basic k → k ≠ Kinds.topNoNull := by
    rintro k (h | h | h | h | h | h) <;> subst h <;> decide
  unfold AnyType at ha
  cases h with
  | kind h _ => exact h ha
  | kinds h _ => exact h ha
  | basicNull hk hb => exact basicTop hb (hk.trans ha)
  | basic hk hb => exact basicTop hb (hk.trans ha)
  | structOr _ hg => rw [hg] at ha; revert ha; decide
  | missing _ hg => rw [hg] at ha; revert ha; decide
  | excess _ hg => rw [hg] at ha; revert ha; decide
  | field _ hg => rw [hg] at ha; revert ha; decide
  | listDisjunction _ hg => rw [hg] at ha; revert ha; decide
  | closed _ hg => rw [hg] at ha; revert ha; decide
  | open_ _ hg => rw [hg] at ha; revert ha; decide
  | lengths _ hg => rw [hg] at ha; revert ha; decide
  | types _ hg => rw [hg] at ha; revert ha; decide
  | openElem _ hg => rw [hg] at ha; revert ha; decide
  | closedElem _ hg => rw [hg] at ha; revert ha; decide

theorem check_struct_eq {n : Nat} {g g' s : V} {p : P} {fs gs : List (Str × V)}
    (hks : (O.kind s).noNull = { struct := true }) (hkg : (O.kind g).noNull = { struct := true })
    (ho : O.isOr s = false) (hcore : Core O g g') (hf : O.fields s = some fs)
    (hfg : O.fields g' = some gs) :
    check O (n + 1) g s p = structLoop (check O n) p fs gs := by
  rw [check, if_neg (fun hh => hh.1 (hks.trans hkg.symm)), if_neg (hkg ▸ by decide),
    if_neg (hks ▸ by decide), if_neg (hks ▸ by decide), if_pos (by rw [hks]; rfl),
    if_neg (by simp [ho]), core_eq hcore]
  unfold checkStruct
  rw [hf, hfg]

theorem check_list_eq {n : Nat} {g g' s b : V} {p : P}
    (hks : (O.kind s).noNull = { list := true }) (hkg : (O.kind g).noNull = { list := true })
    (hcore : Core O g g') (hb : ListType O s b) :
    check O (n + 1) g s p = checkListBody O (check O n) g' b p := by
  rw [check, if_neg (fun hh => hh.1 (hks.trans hkg.symm)), if_neg (hkg ▸ by decide),
    if_pos (by rw [hks]; rfl), core_eq hcore]
  unfold checkList
  rcases hb with ⟨hd, rfl⟩ | ⟨hd, rest, ha, hr⟩
  · simp [hd]
  · simp only [hd, if_true, ha, List.length_cons]
    rw [if_neg (by omega)]

/-- Every discrepancy is reported. -/
theorem check_complete (hc : Coherent O) {g s : V} {q : P} {m : Msg} (h : Disc O g s q m) :
    ∀ n p es, check O n g s p = .ok es → ShownIn es p q m := by
  induction h with
  | @kind g s ha hk =>
    intro n p es h
    cases n with
    | zero => cases h
    | succ n =>
      rw [check, if_pos ⟨hk, ha⟩] at h
      cases h
      exact shownIn_nil
  | @basicNull g s hk hb hn hsub =>
    intro n p es h
    cases n with
    | zero => cases h
    | succ n =>
      have ha : ¬ (O.kind g).noNull = .topNoNull := disc_not_any (.basicNull hk hb hn hsub)
      rw [check, if_neg (fun hh => hh.1 hk), if_neg ha, if_neg, if_pos ((isScalar_iff _).2 hb),
        if_pos hn] at h
      · simp only [checkScalar, hsub] at h
        cases h
        exact shownIn_nil
      · intro e; rw [e] at hb; revert hb; simp [Basic, Kinds.listK]
  | @basic g g' s hk hb hn hcore hsub =>
    intro n p es h
    cases n with
    | zero => cases h
    | succ n =>
      have ha : ¬ (O.kind g).noNull = .topNoNull := disc_not_any (.basic hk hb hn hcore hsub)
      rw [check, if_neg (fun hh => hh.1 hk), if_neg ha, if_neg, if_pos ((isScalar_iff _).2 hb),
        if_neg (by simp [hn]), core_eq hcore] at h
      · simp only [checkScalar, hsub] at h
        cases h
        exact shownIn_nil
      · intro e; rw [e] at hb; revert hb; simp [Basic, Kinds.listK]
  | @kinds g s ha hk hnb hl hst =>
    intro n p es h
    cases n with
    | zero => cases h
    | succ n =>
      rw [check, if_neg (fun hh => hh.1 hk),
        if_neg (show ¬ (O.kind g).noNull = .topNoNull from ha), if_neg,
        if_neg (fun hh => hnb ((isScalar_iff _).1 hh)), if_neg, if_neg (noNull_ne_nullK _),
        if_pos] at h
      · cases h; exact shownIn_nil
      · simp [Kinds.scalarOnly, Kinds.noNull, hl, hst]
      · intro e
        have := congrArg Kinds.struct e
        simp [Kinds.noNull, hst, Kinds.structK] at this
      · intro e
        have := congrArg Kinds.list e
        simp [Kinds.noNull, hl, Kinds.listK] at this
  | @structOr g s hks hkg ho =>
    intro n p es h
    cases n with
    | zero => cases h
    | succ n =>
      rw [check, if_neg (fun hh => hh.1 (hks.trans hkg.symm)), if_neg (hkg ▸ by decide),
        if_neg (hks ▸ by decide), if_neg (hks ▸ by decide), if_pos (by rw [hks]; rfl),
        if_pos ho] at h
      cases h
      exact shownIn_nil
  | @missing g g' s fs gs k hks hkg ho hcore hf hfg h1 h2 =>
    intro n p es h
    cases n with
    | zero => cases h
    | succ n =>
      rw [check_struct_eq hks hkg ho hcore hf hfg] at h
      exact ⟨fun _ => (structLoop_mem (hc.nodup _ _ hf) (hc.nodup _ _ hfg) h _ _).2
        (.inl ⟨k, h1, h2, rfl, rfl⟩), fun hm => by cases hm⟩
  | @excess g g' s fs gs k hks hkg ho hcore hf hfg h1 h2 =>
    intro n p es h
    cases n with
    | zero => cases h
    | succ n =>
      rw [check_struct_eq hks hkg ho hcore hf hfg] at h
      refine ⟨fun hm => absurd rfl hm, fun _ q' k' he => ?_⟩
      have : k' = k := by
        cases q' with
        | nil => simpa using he.symm
        | cons c q' => simp at he
      subst this
      exact (structLoop_mem (hc.nodup _ _ hf) (hc.nodup _ _ hfg) h _ _).2
        (.inr (.inl ⟨k', h1, h2, rfl, rfl⟩))
  | @field g g' s fs gs k sv gv q m hks hkg ho hcore hf hfg h1 h2 hd ih =>
    intro n p es h
    cases n with
    | zero => cases h
    | succ n =>
      rw [check_struct_eq hks hkg ho hcore hf hfg] at h
      have hmem := structLoop_mem (hc.nodup _ _ hf) (hc.nodup _ _ hfg) h
      refine shownIn_part (disc_excess_ne_nil hd) ?_
      -- the recursive call returned
      have hret : ∃ es', check O n gv sv (p ++ [some k]) = .ok es' := by
        clear hmem ih hd
        have hns := hc.nodup _ _ hf
        have hng := hc.nodup _ _ hfg
        clear hf hfg
        induction fs generalizing gs es with
        | nil => cases h1
        | cons f fs ihf =>
          obtain ⟨k0, sv0⟩ := f
          simp only [List.map_cons, List.nodup_cons] at hns
          unfold structLoop at h
          cases hl : gs.lookup k0 with
          | none =>
            rcases List.mem_cons.1 h1 with e | h1
            · cases e
              rw [lookup_of_mem hng h2] at hl; cases hl
            · simp only [hl, Res.map] at h
              rw [Res.bind_eq_ok'] at h
              obtain ⟨es', h', _⟩ := h
              exact ihf h1 h2 es' h' hns.2 hng
          | some gv0 =>
            simp only [hl] at h
            rw [Res.bind_eq_ok'] at h
            obtain ⟨es1, hr, h⟩ := h
            rcases List.mem_cons.1 h1 with e | h1
            · cases e
              rw [lookup_of_mem hng h2] at hl; cases hl
              exact ⟨es1, hr⟩
            · simp only [Res.map] at h
              rw [Res.bind_eq_ok'] at h
              obtain ⟨es2, h', _⟩ := h
              have hne : k ≠ k0 := fun e => hns.1 (e ▸ List.mem_map.2 ⟨_, h1, rfl⟩)
              exact ihf (gs := gs.filter fun x => decide (x.1 ≠ k0)) h1
                (List.mem_filter.2 ⟨h2, by simpa using hne⟩) es2 h' hns.2
                (nodup_filter hng _)
      obtain ⟨es', hr⟩ := hret
      have hi := ih n _ es' hr
      refine ⟨fun hm => (hmem _ _).2 (.inr (.inr ⟨k, sv, gv, es', h1, h2, hr, hi.1 hm⟩)),
        fun hm q' k' he => (hmem _ _).2 (.inr (.inr ⟨k, sv, gv, es', h1, h2, hr, hi.2 hm q' k' he⟩))⟩
  | @listDisjunction g s hks hkg hd hl =>
    intro n p es h
    cases n with
    | zero => cases h
    | succ n =>
      rw [check, if_neg (fun hh => hh.1 (hks.trans hkg.symm)), if_neg (hkg ▸ by decide),
        if_pos (by rw [hks]; rfl)] at h
      unfold checkList at h
      rw [if_pos hd, if_pos hl] at h
      cases h
      exact shownIn_nil
  | @closed g g' s b m hks hkg hcore hb h1 h2 =>
    intro n p es h
    cases n with
    | zero => cases h
    | succ n =>
      rw [check_list_eq hks hkg hcore hb] at h
      unfold checkListBody at h
      rw [h1, h2, if_pos (by simp)] at h
      cases h
      exact shownIn_nil
  | @open_ g g' s b m hks hkg hcore hb h1 h2 =>
    intro n p es h
    cases n with
    | zero => cases h
    | succ n =>
      rw [check_list_eq hks hkg hcore hb] at h
      unfold checkListBody at h
      rw [h1, h2, if_pos (by simp)] at h
      cases h
      exact shownIn_nil
  | @lengths g g' s b hks hkg hcore hb h1 h2 =>
    intro n p es h
    cases n with
    | zero => cases h
    | succ n =>
      rw [check_list_eq hks hkg hcore hb] at h
      unfold checkListBody at h
      rw [if_neg (by simp [h1]), if_pos (by simp [h2])] at h
      cases h
      exact shownIn_nil
  | @types g g' s b hks hkg hcore hb h1 h2 h3 =>
    intro n p es h
    cases n with
    | zero => cases h
    | succ n =>
      rw [check_list_eq hks hkg hcore hb] at h
      unfold checkListBody at h
      rw [if_neg (by simp [h1]), if_neg (by simp [h2])] at h
      cases h4 : elemTypes O b with
      | none => rw [h4] at h; cases h; exact shownIn_nil
      | some r =>
        rw [h4] at h
        rw [elemTypes_some] at h4
        obtain ⟨hst, rfl⟩ := h4
        simp only at h
        cases hbl : O.len b with
        | some k => rw [hbl] at h3; simp [hst] at h3
        | none =>
          rw [hbl] at h1 h3
          simp only [if_true] at h3
          rw [if_neg (by simp [h1])] at h
          cases hgl : (O.elems b).getLast? with
          | none =>
            exact absurd (sameTypes_snoc.2 ⟨hst, fun e he => by rw [hgl] at he; cases he⟩) h3
          | some l =>
            rw [hgl] at h
            simp only at h
            rw [if_neg] at h
            · cases h; exact shownIn_nil
            · intro hm
              simp only [mutual_, Bool.and_eq_true] at hm
              refine h3 (sameTypes_snoc.2 ⟨hst, fun e he => ?_⟩)
              rw [hgl] at he; cases he; exact hm
  | @openElem g g' s b q m hks hkg hcore hb h1 h2 h3 hst hd ih =>
    intro n p es h
    cases n with
    | zero => cases h
    | succ n =>
      rw [check_list_eq hks hkg hcore hb] at h
      refine shownIn_part (disc_excess_ne_nil hd) (ih n _ es ?_)
      unfold checkListBody at h
      rw [h1, h2, if_neg (by simp), if_neg (by simp [h3]),
        elemTypes_some.2 ⟨(sameTypes_snoc.1 hst).1, rfl⟩] at h
      simp only [Option.isSome_none, Bool.false_eq_true, if_false] at h
      cases hgl : (O.elems b).getLast? with
      | none => rw [hgl] at h; exact h
      | some l =>
        rw [hgl] at h
        simp only at h
        rw [if_pos] at h
        · exact h
        · have := (sameTypes_snoc.1 hst).2 l hgl
          simp [mutual_, this]
  | @closedElem g g' s b k1 k2 x e q m hks hkg hcore hb h1 h2 h3 hst hx he hd ih =>
    intro n p es h
    cases n with
    | zero => cases h
    | succ n =>
      rw [check_list_eq hks hkg hcore hb] at h
      refine shownIn_part (disc_excess_ne_nil hd) (ih n _ es ?_)
      unfold checkListBody at h
      rw [h1, h2, if_neg (by simp), if_neg (by simp [h3]), elemTypes_some.2 ⟨hst, rfl⟩] at h
      simp only [Option.isSome_some, if_true] at h
      cases hl : O.elems g' with
      | nil => rw [hl] at hx; cases hx
      | cons y rest =>
        rw [hl] at h hx
        simp only [List.head?_cons, Option.some.injEq] at hx
        subst hx
        simp only at h
        rcases he with ⟨hlen, he⟩ | ⟨hlen, rfl⟩
        · rw [if_neg (by omega), he] at h; exact h
        · rw [if_pos (by omega)] at h; exact h

/-! ## C61: the verdict follows the documented rules -/

/-- C61 (accepting side, exactly): the verdict is nil for some depth of recursion iff the
argument is a struct or a pointer to one, and the rules hold, closed lists of one element
excepted. -/
theorem C61_accepts_partial (hc : Coherent O) (s : V) (t : GoVal V) :
    (∃ n, assignable O n s t = .ok .nil) ↔
      ∃ g, (t = .struct g ∨ t = .ptr (.struct g)) ∧ Rules O False g s := by
  have key : ∀ n g, (check O n g s []).map
      (fun es => if es.length > 0 then Verdict.errs es else .nil) = .ok .nil ↔
      check O n g s [] = .ok [] := by
    intro n g
    cases hk : check O n g s [] with
    | ok es => cases es <;> simp [Res.map, Res.bind]
    | _ => simp [Res.map, Res.bind]
  constructor
  · rintro ⟨n, h⟩
    cases t with
    | struct g =>
      exact ⟨g, .inl rfl, check_rules hc n g s [] ((key n g).1 h)⟩
    | ptr e =>
      cases e with
      | struct g => exact ⟨g, .inr rfl, check_rules hc n g s [] ((key n g).1 h)⟩
      | ptr e => cases h
      | other => cases h
    | other => cases h
  · rintro ⟨g, ht, hr⟩
    obtain ⟨n, hn⟩ := rules_check hc hr
    refine ⟨n, ?_⟩
    rcases ht with rfl | rfl <;> exact (key n g).2 (hn [])

/-- C61: an accepted schema obeys the documented rules. -/
theorem C61_sound (hc : Coherent O) (n : Nat) (s : V) (t : GoVal V)
    (h : assignable O n s t = .ok .nil) :
    ∃ g, (t = .struct g ∨ t = .ptr (.struct g)) ∧ Rules O True g s := by
  obtain ⟨g, ht, hr⟩ := (C61_accepts_partial hc s t).1 ⟨n, h⟩
  exact ⟨g, ht, rules_single hr⟩

/-- C61 fails: a closed list of one element is not assignable to an array of anything but
`any`, whatever the types. -/
theorem C61_single_element_list (hc : Coherent O) {g g' s b x e : V} {n m : Nat}
    (hks : (O.kind s).noNull = { list := true }) (hkg : (O.kind g).noNull = { list := true })
    (hcore : Core O g g') (hb : ListType O s b) (h1 : O.len g' = some n) (h2 : O.len b = some m)
    (hx : (O.elems g').head? = some x) (he : O.elems b = [e]) (hx' : ¬ AnyType O x) :
    ¬ Rules O False g s := by
  intro hr
  obtain ⟨k, hk⟩ := rules_check hc hr
  have hk := hk []
  cases k with
  | zero => cases hk
  | succ k =>
    rw [check_list_eq hks hkg hcore hb, checkListBody_nil] at hk
    obtain ⟨_, _, ⟨_, _, _, _, hh⟩ | ⟨h0, _⟩⟩ := hk
    · have := hh x hx
      rw [he] at this
      exact hx' (check_zero hc this)
    · rw [h1] at h0; cases h0

open TyCue in
/-- C61 fails: `{a: [int]}` is documented to be assignable to `struct{A [1]int}` and is
rejected at every depth of recursion. -/
theorem C61_refuted : ∃ g s : Ty, Rules obs True g s ∧
    ∀ n, assignable obs n s (.struct g) ≠ .ok .nil := by
  refine ⟨.st [("a".toList, .cl 1 (.sc .int 7 false))],
    .st [("a".toList, .cl 1 (.sc .int 3 false))], ?_, fun n h => ?_⟩
  · refine .struct (fs := [("a".toList, .cl 1 (.sc .int 3 false))])
      (gs := [("a".toList, .cl 1 (.sc .int 7 false))]) rfl rfl rfl (.inl ⟨rfl, rfl⟩) rfl
      rfl (by simp) ?_
    intro k sv gv h1 h2
    simp only [List.mem_singleton, Prod.mk.injEq] at h1 h2
    obtain ⟨_, rfl⟩ := h1; obtain ⟨_, rfl⟩ := h2
    exact .closedList rfl rfl (.inl ⟨rfl, rfl⟩) (.inl ⟨rfl, rfl⟩) rfl rfl rfl trivial rfl rfl
      (.inl trivial) (.basic rfl (by simp [Basic, obs, kind, basicKinds, Kinds.noNull]) rfl
        (.inl ⟨rfl, rfl⟩) rfl)
  · have := (C61_accepts_partial coherent _ _).1 ⟨n, h⟩
    obtain ⟨g, hg, hr⟩ := this
    rcases hg with hg | hg
    · cases hg
      cases hr with
      | any ha => revert ha; simp [AnyType, obs, kind, Kinds.noNull, Kinds.topNoNull]
      | struct _ _ _ hcore hf hg hk hr =>
        have := core_unique hcore (.inl ⟨rfl, rfl⟩)
        subst this
        cases hf; cases hg
        refine C61_single_element_list coherent (e := .sc .int 3 false) (x := .sc .int 7 false)
          rfl rfl (.inl ⟨rfl, rfl⟩) (.inl ⟨rfl, rfl⟩) rfl rfl rfl rfl ?_
          (hr _ _ _ (List.mem_singleton.2 rfl) (List.mem_singleton.2 rfl))
        simp [AnyType, obs, kind, basicKinds, Kinds.noNull, Kinds.topNoNull]
      | basicNull _ hb => revert hb; simp [Basic, obs, kind, Kinds.noNull]
      | basic _ hb => revert hb; simp [Basic, obs, kind, Kinds.noNull]
      | openList h => revert h; simp [obs, kind, Kinds.noNull]
      | closedList h => revert h; simp [obs, kind, Kinds.noNull]
      | closedListAny h => revert h; simp [obs, kind, Kinds.noNull]
      | closedListEmpty h => revert h; simp [obs, kind, Kinds.noNull]
    · cases hg

/-- C61 fails: `number` and `null` are documented as not permitted; both are accepted
wherever the Go type allows the values. -/
theorem C61_number_and_null_accepted (g s : V) (p : P) (n : Nat)
    (hk : (O.kind s).noNull = (O.kind g).noNull)
    (h : (O.kind s).noNull = { int := true, float := true } ∨ (O.kind s).null = true ∧
      Basic (O.kind s).noNull) (hsub : O.sub g s = true) (ho : O.isOr g = false) :
    check O (n + 1) g s p = .ok [] := by
  have hb : Basic (O.kind s).noNull := by
    rcases h with h | h
    · simp [Basic, h]
    · exact h.2
  have ha : ¬ (O.kind g).noNull = .topNoNull := by
    rw [← hk]; intro e; rw [e] at hb; revert hb; simp [Basic, Kinds.topNoNull]
  have hst : stripLeadNull O g = g := by simp [stripLeadNull, ho]
  rw [check, if_neg (fun hh => hh.1 hk), if_neg ha, if_neg, if_pos ((isScalar_iff _).2 hb)]
  · simp [checkScalar, hst, hsub]
  · intro e; rw [e] at hb; revert hb; simp [Basic, Kinds.listK]

section Examples

open TyCue

/-- A nested schema and a Go type it is assignable to: bounds narrower than the Go type's,
a pointer, a slice, an array of two, `any`. -/
def exSchema : Ty :=
  .st [("n".toList, .sc .int 7 false), ("p".toList, .sc .str 3 false),
    ("l".toList, .op (.st [("x".toList, .sc .bool 1 false)])),
    ("a".toList, .cl 2 (.sc .int 3 false)), ("any".toList, .mp (.sc .int 3 false))]

/-- See `exSchema`. -/
def exGo : Ty :=
  .st [("any".toList, .any), ("n".toList, .sc .int 7 false),
    ("p".toList, .orNull (.sc .str 9 false)),
    ("l".toList, .orNull (.op (.st [("x".toList, .sc .bool 1 false)]))),
    ("a".toList, .cl 2 (.sc .int 7 false))]

theorem exAccepted : assignable obs 5 exSchema (.ptr (.struct exGo)) = .ok .nil := rfl

example : ∃ g, (GoVal.ptr (GoVal.struct exGo) = .struct g ∨
    GoVal.ptr (GoVal.struct exGo) = .ptr (.struct g)) ∧ Rules obs False g exSchema :=
  (C61_accepts_partial coherent exSchema _).1 ⟨5, exAccepted⟩

example : ∃ g, (GoVal.ptr (GoVal.struct exGo) = .struct g ∨
    GoVal.ptr (GoVal.struct exGo) = .ptr (.struct g)) ∧ Rules obs True g exSchema :=
  C61_sound coherent 5 exSchema _ exAccepted

/-- `[int]` and `[1]int`. -/
example : ¬ Rules obs False (.cl 1 (.sc .int 9 false)) (.cl 1 (.sc .int 9 false)) :=
  C61_single_element_list coherent (x := .sc .int 9 false) (e := .sc .int 9 false) rfl rfl
    (.inl ⟨rfl, rfl⟩) (.inl ⟨rfl, rfl⟩) rfl rfl rfl rfl
    (by simp [AnyType, obs, kind, basicKinds, Kinds.noNull, Kinds.topNoNull])

/-- `null | int` for a Go type that allows both. -/
example : check obs 1 (.sc .int 9 true) (.sc .int 3 true) [] = .ok [] :=
  C61_number_and_null_accepted _ _ [] 0 rfl
    (.inr ⟨rfl, by simp [Basic, obs, kind, basicKinds, Kinds.noNull]⟩) rfl rfl

end Examples

/-! ## C62: accepted means representable -/

/-- C62: if the verdict is nil then every instance of the schema can be represented in the
Go type. -/
theorem C62_accepted_representable (hc : Coherent O) {inst : V → Data → Prop} {S : V → Prop}
    (hs : Sem O inst S) (n : Nat) (s : V) (hS : S s) (t : GoVal V)
    (h : assignable O n s t = .ok .nil) :
    ∃ g, (t = .struct g ∨ t = .ptr (.struct g)) ∧ ∀ d, inst s d → Represents O inst g d := by
  obtain ⟨g, ht, hr⟩ := C61_sound hc n s t h
  exact ⟨g, ht, represents_of_rules hs hr hS⟩

open TyCue in
/-- The hypotheses of C62, and its conclusion for an instance of a nested schema. -/
example : Represents obs Inst (.st [("l".toList, .orNull (.op (.sc .int 7 false)))])
    (.obj [("l".toList, .list [.scalar .int 1, .scalar .int 2])]) := by
  obtain ⟨g, hg, h⟩ := C62_accepted_representable coherent sem 4
    (.st [("l".toList, .op (.sc .int 3 false))])
    (.st fun k t h => by
      simp only [List.mem_singleton, Prod.mk.injEq] at h
      rw [h.2]; exact .op .sc)
    (.struct (.st [("l".toList, .orNull (.op (.sc .int 7 false)))])) rfl
  rcases hg with hg | hg
  · cases hg
    refine h _ (.st (fun _ _ => .op (.sc .int 3 false)) ?_ ?_)
    · intro k d h; simp only [List.mem_singleton, Prod.mk.injEq] at h; simp [h.1, uniq]
    · intro k d h
      simp only [List.mem_singleton, Prod.mk.injEq] at h
      rw [h.2]
      refine .op fun d hd => ?_
      simp only [List.mem_cons, List.not_mem_nil, or_false] at hd
      rcases hd with rfl | rfl <;> exact .sc (by omega)
  · cases hg

open TyCue in
/-- C62 fails for schemas with open structs: `{a: {[string]: int}}` is accepted for
`struct{A struct{}}`, which cannot represent `{a: {b: 1}}`. -/
theorem C62_refuted_open_structs : ∃ (s g : Ty) (d : Data),
    assignable obs 3 s (.struct g) = .ok .nil ∧ Inst s d ∧ ¬ Represents obs Inst g d := by
  refine ⟨.st [("a".toList, .mp (.sc .int 9 false))], .st [("a".toList, .st [])],
    .obj [("a".toList, .obj [("b".toList, .scalar .int 1)])], rfl, ?_, ?_⟩
  · refine .st (fun _ _ => .mp (.sc .int 9 false)) ?_ ?_
    · intro k d h; simp only [List.mem_singleton, Prod.mk.injEq] at h; simp [h.1, uniq]
    · intro k d h
      simp only [List.mem_singleton, Prod.mk.injEq] at h
      obtain ⟨_, rfl⟩ := h
      refine .mp fun k d h => ?_
      simp only [List.mem_singleton, Prod.mk.injEq] at h
      obtain ⟨_, rfl⟩ := h
      exact .sc (by omega)
  · intro h
    cases h with
    | any ha => revert ha; simp [AnyType, obs, kind, Kinds.noNull, Kinds.topNoNull]
    | struct gv hcore hf h1 h2 =>
      have := core_unique hcore (.inl ⟨rfl, rfl⟩)
      subst this
      cases hf
      have h1 := h1 _ _ (List.mem_singleton.2 rfl)
      have h2 := h2 _ _ (List.mem_singleton.2 rfl)
      simp only [uniq, List.filter_nil, List.mem_singleton, Prod.mk.injEq] at h1
      rw [h1.2] at h2
      cases h2 with
      | any ha => revert ha; simp [AnyType, obs, kind, Kinds.noNull, Kinds.topNoNull]
      | struct gv hcore hf h1 h2 =>
        have := core_unique hcore (.inl ⟨rfl, rfl⟩)
        subst this
        cases hf
        exact absurd (h1 _ _ (List.mem_singleton.2 rfl)) (by simp [uniq])

/-! ## C63: the discrepancies reported -/

/-- C63 (partial): what is reported is exactly the set of discrepancies, but a field of the
Go type that the schema lacks is reported under its bare name. -/
theorem C63_reports_partial (hc : Coherent O) (n : Nat) (g s : V) (es : Errs)
    (h : check O n g s [] = .ok es) (x : P) (m : Msg) :
    (x, m) ∈ es ↔ (m ≠ .absentInSchema ∧ Disc O g s x m) ∨
      (m = .absentInSchema ∧ ∃ q k, x = [some k] ∧ Disc O g s (q ++ [some k]) m) := by
  constructor
  · intro hx
    rcases check_reported hc n g s [] es h x m hx with ⟨hm, q, rfl, hd⟩ | h
    · exact .inl ⟨hm, by simpa using hd⟩
    · exact .inr h
  · rintro (⟨hm, hd⟩ | ⟨hm, q, k, rfl, hd⟩)
    · simpa using (check_complete hc hd n [] es h).1 hm
    · exact (check_complete hc hd n [] es h).2 hm q k rfl

/-- C63: the verdict is nil iff there is no discrepancy. -/
theorem C63_nil_iff_no_discrepancy (hc : Coherent O) (n : Nat) (g s : V) (es : Errs)
    (h : check O n g s [] = .ok es) : es = [] ↔ ∀ q m, ¬ Disc O g s q m := by
  constructor
  · rintro rfl q m hd
    have hs := check_complete hc hd n [] [] h
    by_cases hm : m = .absentInSchema
    · obtain ⟨q', k, rfl⟩ := excess_path hd hm
      exact absurd (hs.2 hm q' k rfl) (by simp)
    · exact absurd (hs.1 hm) (by simp)
  · intro hn
    rw [List.eq_nil_iff_forall_not_mem]
    rintro ⟨x, m⟩ hx
    rcases (C63_reports_partial hc n g s es h x m).1 hx with ⟨_, hd⟩ | ⟨_, q, k, _, hd⟩
    · exact hn _ _ hd
    · exact hn _ _ hd

/-- C63 fails: an excess field below the top level is never reported at its path. -/
theorem C63_nested_excess_misreported (hc : Coherent O) (n : Nat) (g s : V) (es : Errs)
    (h : check O n g s [] = .ok es) (q : P) (k : Str) (hq : q ≠ []) :
    (q ++ [some k], Msg.absentInSchema) ∉ es := by
  intro hx
  rcases (C63_reports_partial hc n g s es h _ _).1 hx with ⟨hm, _⟩ | ⟨_, q', k', he, _⟩
  · exact hm rfl
  · cases q with
    | nil => exact hq rfl
    | cons a q => simp at he

section Examples

open TyCue

/-- A missing field, a field of another kind inside a slice, and an excess field. -/
def badGo : Ty :=
  .st [("l".toList, .op (.st [("x".toList, .sc .str 1 false)])), ("z".toList, .any)]

/-- See `badGo`. -/
def badSchema : Ty :=
  .st [("n".toList, .sc .int 7 false), ("l".toList, .op (.st [("x".toList, .sc .bool 1 false)]))]

theorem badErrs : check obs 5 badGo badSchema [] = .ok
    [([some "n".toList], .absentInGo), ([some "l".toList, none, some "x".toList], .kindMismatch),
     ([some "z".toList], .absentInSchema)] := rfl

example : Disc obs badGo badSchema [some "l".toList, none, some "x".toList] .kindMismatch := by
  rcases (C63_reports_partial coherent 5 _ _ _ badErrs
    [some "l".toList, none, some "x".toList] .kindMismatch).1 (by simp) with h | h
  · exact h.2
  · cases h.1

example : ∀ q m, ¬ Disc obs exGo exSchema q m :=
  (C63_nil_iff_no_discrepancy coherent 5 exGo exSchema [] rfl).1 rfl

example : ([some "l".toList] ++ [some "x".toList], Msg.absentInSchema) ∉
    [(([some "x".toList] : P), Msg.absentInSchema)] :=
  C63_nested_excess_misreported coherent 5
    (.st [("l".toList, .st [("x".toList, .any)])]) (.st [("l".toList, .st [])]) _ rfl
    [some "l".toList] "x".toList (by simp)

end Examples

open TyCue in
/-- C63 fails: two discrepancies at different paths give one error. -/
theorem C63_refuted_merged : ∃ (g s : Ty) (es : Errs), check obs 5 g s [] = .ok es ∧
    Disc obs g s [some "a".toList, some "x".toList] .absentInSchema ∧
    Disc obs g s [some "b".toList, some "x".toList] .absentInSchema ∧
    ∀ e ∈ es, e.1 = [some "x".toList] := by
  refine ⟨.st [("a".toList, .st [("x".toList, .any)]), ("b".toList, .st [("x".toList, .any)])],
    .st [("a".toList, .st []), ("b".toList, .st [])],
    [([some "x".toList], .absentInSchema), ([some "x".toList], .absentInSchema)],
    rfl, ?_, ?_, by simp⟩
  · refine .field (fs := [("a".toList, .st []), ("b".toList, .st [])])
      (gs := [("a".toList, .st [("x".toList, .any)]), ("b".toList, .st [("x".toList, .any)])])
      (sv := .st []) (gv := .st [("x".toList, .any)]) rfl rfl rfl (.inl ⟨rfl, rfl⟩)
      rfl rfl (by simp) (by simp) ?_
    exact .excess (fs := []) (gs := [("x".toList, .any)]) rfl rfl rfl (.inl ⟨rfl, rfl⟩)
      rfl rfl (by simp) (by simp)
  · refine .field (fs := [("a".toList, .st []), ("b".toList, .st [])])
      (gs := [("a".toList, .st [("x".toList, .any)]), ("b".toList, .st [("x".toList, .any)])])
      (sv := .st []) (gv := .st [("x".toList, .any)]) rfl rfl rfl (.inl ⟨rfl, rfl⟩)
      rfl rfl (by simp) (by simp) ?_
    exact .excess (fs := []) (gs := [("x".toList, .any)]) rfl rfl rfl (.inl ⟨rfl, rfl⟩)
      rfl rfl (by simp) (by simp)

/-! ## C64: the check returns -/

/-- The Go types that `EncodeType` handles: one kind, `any` or none at all; structs have
fields; the parts are such types too and smaller. -/
structure GoTypes (O : Obs V) (G : V → Prop) (size : V → Nat) : Prop where
  kind : ∀ v, G v → Basic (O.kind v).noNull ∨ (O.kind v).noNull = { list := true } ∨
    (O.kind v).noNull = { struct := true } ∨ AnyType O v ∨ (O.kind v).noNull = {}
  fields : ∀ v w, G v → Core O v w → (O.kind v).noNull = { struct := true } →
    ∃ fs, O.fields w = some fs ∧ ∀ k x, (k, x) ∈ fs → G x ∧ size x < size v
  elems : ∀ v w, G v → Core O v w → (O.kind v).noNull = { list := true } →
    ∀ x, x ∈ O.elems w → G x ∧ size x < size v
  anyIdx : ∀ v w, G v → Core O v w → (O.kind v).noNull = { list := true } → O.len w = none →
    G (O.anyIdx w) ∧ size (O.anyIdx w) < size v

/-- What `check` needs from schemas: fields of structs that are not disjunctions can be
listed, and a list with a default has an expression. -/
structure Listable (O : Obs V) : Prop where
  fields : ∀ v, (O.kind v).noNull = { struct := true } → O.isOr v = false →
    ∃ fs, O.fields v = some fs
  dflt : ∀ v, O.hasDefault v = true → O.alts v ≠ []

theorem structLoop_returns {rec : V → V → P → Res Errs} {p : P} :
    ∀ (ss gs : List (Str × V)),
    (∀ k sv gv p, (k, sv) ∈ ss → (k, gv) ∈ gs → ∃ es, rec gv sv p = .ok es) →
    ∃ es, structLoop rec p ss gs = .ok es
  | [], gs, _ => ⟨_, rfl⟩
  | (k, sv) :: ss, gs, h => by
    unfold structLoop
    cases hl : gs.lookup k with
    | none =>
      obtain ⟨es, he⟩ := structLoop_returns (rec := rec) (p := p) ss gs
        (fun k sv gv p h1 h2 => h k sv gv p (List.mem_cons_of_mem _ h1) h2)
      exact ⟨_, by simp only [he]; rfl⟩
    | some gv =>
      obtain ⟨es, he⟩ := h k sv gv (p ++ [some k]) List.mem_cons_self (mem_of_lookup hl)
      obtain ⟨es', he'⟩ := structLoop_returns (rec := rec) (p := p) ss
        (gs.filter (fun f => decide (f.1 ≠ k)))
        (fun k sv gv p h1 h2 => h k sv gv p (List.mem_cons_of_mem _ h1) (List.mem_filter.1 h2).1)
      exact ⟨_, by simp only [he, he']; rfl⟩

/-- The core exists. -/
theorem core_exists (O : Obs V) (g : V) : ∃ g', Core O g g' := ⟨_, core_strip O g⟩

theorem check_returns (hl : Listable O) {G : V → Prop} {size : V → Nat}
    (hg : GoTypes O G size) : ∀ n g s p, G g → size g < n → ∃ es, check O n g s p = .ok es := by
  intro n
  induction n with
  | zero => intro g s p _ h; omega
  | succ n ih =>
    intro g s p hG hlt
    by_cases ha : AnyType O g
    · exact ⟨[], check_any ha⟩
    have ha' : ¬ (O.kind g).noNull = .topNoNull := ha
    by_cases hk : (O.kind s).noNull = (O.kind g).noNull
    case neg => exact ⟨_, (by rw [check, if_pos ⟨hk, ha'⟩] : _ = Res.ok [(p, Msg.kindMismatch)])⟩
    obtain ⟨g', hcore⟩ := core_exists O g
    rcases hg.kind g hG with hb | hkg | hkg | h | hkg
    · rw [← hk] at hb
      refine ⟨checkScalar O (if (O.kind s).null = true then g else stripLeadNull O g) s p, ?_⟩
      rw [check, if_neg (fun hh => hh.1 hk), if_neg ha', if_neg, if_pos ((isScalar_iff _).2 hb)]
      intro e; rw [e] at hb; revert hb; simp [Basic, Kinds.listK]
    · have hks := hk.trans hkg
      have hbody : ∀ b, ∃ es, checkListBody O (check O n) g' b p = .ok es := by
        intro b
        unfold checkListBody
        split
        · split <;> exact ⟨_, rfl⟩
        split
        · exact ⟨_, rfl⟩
        split
        · exact ⟨_, rfl⟩
        split
        · split
          · exact ⟨_, rfl⟩
          · rename_i x rest he
            have := hg.elems g g' hG hcore hkg x (by rw [he]; simp)
            exact ih _ _ _ this.1 (by omega)
        · rename_i hgl
          have hgl : O.len g' = none := by simpa using hgl
          have := hg.anyIdx g g' hG hcore hkg hgl
          split
          · split
            · exact ih _ _ _ this.1 (by omega)
            · exact ⟨_, rfl⟩
          · exact ih _ _ _ this.1 (by omega)
      rw [check, if_neg (fun hh => hh.1 hk), if_neg ha', if_pos (by rw [hks]; rfl), core_eq hcore]
      unfold checkList
      cases hd : O.hasDefault s with
      | false => simpa using hbody s
      | true =>
        simp only [if_true]
        split
        · exact ⟨_, rfl⟩
        · cases hal : O.alts s with
          | nil => exact absurd hal (hl.dflt s hd)
          | cons b rest => exact hbody b
    · have hks := hk.trans hkg
      cases ho : O.isOr s with
      | true =>
        refine ⟨[(p, .structDisjunction)], ?_⟩
        rw [check, if_neg (fun hh => hh.1 hk), if_neg ha', if_neg (hks ▸ by decide),
          if_neg (hks ▸ by decide), if_pos (by rw [hks]; rfl), if_pos ho]
      | false =>
        obtain ⟨fs, hf⟩ := hl.fields s hks ho
        obtain ⟨gs, hgs, hp⟩ := hg.fields g g' hG hcore hkg
        rw [check_struct_eq hks hkg ho hcore hf hgs]
        apply structLoop_returns
        intro k sv gv p _ h2
        have := hp k gv h2
        exact ih _ _ _ this.1 (by omega)
    · exact absurd h ha
    · refine ⟨[(p, .multipleKinds)], ?_⟩
      have hks := hk.trans hkg
      rw [check, if_neg (fun hh => hh.1 hk), if_neg ha', if_neg (hks ▸ by decide),
        if_neg (hks ▸ by decide), if_neg (hks ▸ by decide), if_neg (hks ▸ by decide),
        if_pos (hks ▸ by decide)]

/-- C64: for every schema and every Go type, `AssignableTo` returns: it does not panic, and
its recursion ends. -/
theorem C64_returns (hl : Listable O) {G : V → Prop} {size : V → Nat} (hg : GoTypes O G size)
    (s : V) (t : GoVal V) (ht : ∀ g, t.deref = .struct g → G g) :
    ∃ n, ∀ n', n ≤ n' → ∃ v, assignable O n' s t = .ok v := by
  unfold assignable
  cases hd : t.deref with
  | ptr e => exact ⟨0, fun _ _ => ⟨_, rfl⟩⟩
  | other => exact ⟨0, fun _ _ => ⟨_, rfl⟩⟩
  | struct g =>
    refine ⟨size g + 1, fun n' hn' => ?_⟩
    obtain ⟨es, he⟩ := check_returns hl hg n' g s [] (ht g hd) (by omega)
    exact ⟨_, by simp only [he]; rfl⟩

/-- C64: the verdict does not depend on the depth allowed. -/
theorem C64_verdict_unique (s : V) (t : GoVal V) (n m : Nat) (v w : Verdict)
    (h : assignable O n s t = .ok v) (h' : assignable O m s t = .ok w) : v = w := by
  unfold assignable at h h'
  cases hd : t.deref with
  | ptr e => rw [hd] at h h'; cases h; cases h'; rfl
  | other => rw [hd] at h h'; cases h; cases h'; rfl
  | struct g =>
    rw [hd] at h h'
    simp only [Res.map] at h h'
    rw [Res.bind_eq_ok'] at h h'
    obtain ⟨es, he, h⟩ := h
    obtain ⟨es', he', h'⟩ := h'
    have h1 := check_mono (Nat.le_max_left n m) he
    have h2 := check_mono (Nat.le_max_right n m) he'
    rw [h1] at h2
    cases h2
    cases h; cases h'; rfl

section Examples

open TyCue

theorem listable : Listable obs where
  fields v hk ho := by
    cases v with
    | sc k m n => cases k <;> simp [obs, kind, basicKinds, Kinds.noNull] at hk
    | orNull t => simp [obs] at ho
    | st fs => exact ⟨_, rfl⟩
    | mp e => exact ⟨_, rfl⟩
    | _ => simp [obs, kind, Kinds.noNull, Kinds.topNoNull] at hk
  dflt v h := by simp [obs] at h

theorem find_alts : ∀ (v w : Ty), (alts v).find? (fun x => !obs.isNull x) = some w →
    sizeOf w ≤ sizeOf v ∧ kind w = { kind v with null := (kind w).null } ∧
      obs.isOr w = false
  | .orNull t, w, h => by
    rw [alts, List.find?_cons_of_neg (by simp [obs])] at h
    obtain ⟨h1, h2, h3⟩ := find_alts t w h
    refine ⟨by simp; omega, ?_, h3⟩
    rw [h2]; simp [kind]
  | .nul, w, h => by simp [alts, obs] at h
  | .bot, w, h => by simp [alts, obs] at h; subst h; simp [kind, obs]
  | .any, w, h => by simp [alts, obs] at h; subst h; simp [kind, obs]
  | .sc .., w, h => by simp [alts, obs] at h; subst h; simp [kind, obs]
  | .st .., w, h => by simp [alts, obs] at h; subst h; simp [kind, obs]
  | .mp .., w, h => by simp [alts, obs] at h; subst h; simp [kind, obs]
  | .op .., w, h => by simp [alts, obs] at h; subst h; simp [kind, obs]
  | .cl .., w, h => by simp [alts, obs] at h; subst h; simp [kind, obs]

theorem kinds_all : ∀ v : Ty, Basic (kind v).noNull ∨ (kind v).noNull = { list := true } ∨
    (kind v).noNull = { struct := true } ∨ (kind v).noNull = Kinds.topNoNull ∨
    (kind v).noNull = {}
  | .sc k m n => by cases k <;> simp [kind, basicKinds, Kinds.noNull, Basic]
  | .orNull t => by simpa [kind, Kinds.noNull] using kinds_all t
  | .bot => by simp [kind, Kinds.noNull]
  | .any => by simp [kind, Kinds.noNull, Kinds.topNoNull]
  | .nul => by simp [kind, Kinds.noNull]
  | .st _ => by simp [kind, Kinds.noNull]
  | .mp _ => by simp [kind, Kinds.noNull]
  | .op _ => by simp [kind, Kinds.noNull]
  | .cl _ _ => by simp [kind, Kinds.noNull]

theorem find_alts_none : ∀ v : Ty, (alts v).find? (fun x => !obs.isNull x) = none →
    (kind v).noNull = {}
  | .orNull t, h => by
    rw [alts, List.find?_cons_of_neg (by simp [obs])] at h
    simpa [kind, Kinds.noNull] using find_alts_none t h
  | .nul, _ => rfl
  | .bot, h => by simp [alts, obs] at h
  | .any, h => by simp [alts, obs] at h
  | .sc .., h => by simp [alts, obs] at h
  | .st .., h => by simp [alts, obs] at h
  | .mp .., h => by simp [alts, obs] at h
  | .op .., h => by simp [alts, obs] at h
  | .cl .., h => by simp [alts, obs] at h

/-- The part of a type that is not null: smaller, and of the same kind. -/
theorem core_ty {v w : Ty} (hc : Core obs v w)
    (hk : (kind v).noNull = { list := true } ∨ (kind v).noNull = { struct := true }) :
    sizeOf w ≤ sizeOf v ∧ (kind w).noNull = (kind v).noNull ∧ obs.isOr w = false := by
  have hw := core_eq hc
  unfold stripLeadNull at hw
  cases ho : obs.isOr v with
  | false => simp [ho] at hw; subst hw; exact ⟨Nat.le_refl _, rfl, ho⟩
  | true =>
    simp only [ho, if_true] at hw
    cases hf : (obs.alts v).find? (fun x => !obs.isNull x) with
    | some x =>
      simp only [hf] at hw
      subst hw
      obtain ⟨h1, h2, h3⟩ := find_alts v x hf
      exact ⟨h1, by rw [h2]; rfl, h3⟩
    | none =>
      exfalso
      rw [find_alts_none v hf] at hk
      simp at hk

/-- All types of the small language qualify as Go types. -/
theorem goTypes : GoTypes obs (fun _ => True) sizeOf where
  kind v _ := kinds_all v
  fields v w _ hc hk := by
    obtain ⟨h1, h2, h3⟩ := core_ty hc (.inr hk)
    have hk : (kind v).noNull = { struct := true } := hk
    rw [hk] at h2
    cases w with
    | st fs =>
      refine ⟨_, rfl, fun k x hx => ⟨trivial, ?_⟩⟩
      have := List.sizeOf_lt_of_mem (mem_uniq hx)
      simp only [Ty.st.sizeOf_spec, Prod.mk.sizeOf_spec] at this h1
      omega
    | mp e => exact ⟨_, rfl, fun k x hx => by cases hx⟩
    | orNull t => simp [obs] at h3
    | sc k m n => cases k <;> simp [kind, basicKinds, Kinds.noNull] at h2
    | _ => simp [kind, Kinds.noNull, Kinds.topNoNull] at h2
  elems v w _ hc hk := by
    obtain ⟨h1, h2, h3⟩ := core_ty hc (.inl hk)
    intro x hx
    refine ⟨trivial, ?_⟩
    cases w with
    | cl n e =>
      rw [List.eq_of_mem_replicate hx]
      simp only [Ty.cl.sizeOf_spec] at h1
      omega
    | _ => simp [obs] at hx
  anyIdx v w _ hc hk hl := by
    obtain ⟨h1, h2, h3⟩ := core_ty hc (.inl hk)
    have hk : (kind v).noNull = { list := true } := hk
    rw [hk] at h2
    refine ⟨trivial, ?_⟩
    cases w with
    | op e =>
      simp only [Ty.op.sizeOf_spec] at h1
      simp only [obs]
      omega
    | cl n e => simp [obs] at hl
    | orNull t => simp [obs] at h3
    | sc k m n => cases k <;> simp [kind, basicKinds, Kinds.noNull] at h2
    | _ => simp [kind, Kinds.noNull, Kinds.topNoNull] at h2

example : ∃ n, ∀ n', n ≤ n' → ∃ v, assignable obs n' badSchema (.struct badGo) = .ok v :=
  C64_returns listable goTypes badSchema _ (fun _ _ => trivial)

example (n : Nat) (v : Verdict) (h : assignable obs n exSchema (.ptr (.struct exGo)) = .ok v) :
    v = .nil :=
  C64_verdict_unique _ _ n 5 _ _ h exAccepted

end Examples

/-! ## C65: arguments that are not structs -/

/-- The number of pointers and what is behind them. -/
def GoVal.unptr : GoVal V → Nat × Option V
  | .ptr e => ((GoVal.unptr e).1 + 1, (GoVal.unptr e).2)
  | .struct g => (0, some g)
  | .other => (0, none)

/-- C65: more than one pointer gives `ErrPointerDepth`; otherwise anything but a struct
gives the other error; a struct, behind at most one pointer, is compared with the schema. -/
theorem C65_arguments (n : Nat) (s : V) (t : GoVal V) :
    (assignable O n s t = .ok .pointerDepth ↔ 2 ≤ (GoVal.unptr t).1) ∧
    (assignable O n s t = .ok .notAStruct ↔ (GoVal.unptr t).1 < 2 ∧ (GoVal.unptr t).2 = none) ∧
    (∀ g, (GoVal.unptr t).1 < 2 → (GoVal.unptr t).2 = some g →
      assignable O n s t = assignable O n s (.struct g)) := by
  have key : ∀ (r : Res Errs) (v : Verdict), v = .pointerDepth ∨ v = .notAStruct →
      r.map (fun es => if es.length > 0 then Verdict.errs es else .nil) ≠ .ok v := by
    intro r v hv h
    cases r with
    | ok es => cases es <;> rcases hv with rfl | rfl <;> simp [Res.map, Res.bind] at h
    | _ => cases h
  cases t with
  | struct g =>
    refine ⟨⟨fun h => absurd h (key _ _ (.inl rfl)), fun h => absurd h (by simp [GoVal.unptr])⟩,
      ⟨fun h => absurd h (key _ _ (.inr rfl)), fun h => absurd h.2 (by simp [GoVal.unptr])⟩,
      fun g' _ h => ?_⟩
    cases h; rfl
  | other =>
    refine ⟨⟨fun h => (by cases h), fun h => by simp [GoVal.unptr] at h⟩,
      ⟨fun _ => by simp [GoVal.unptr], fun _ => rfl⟩, fun g' _ h => by cases h⟩
  | ptr e =>
    cases e with
    | struct g =>
      refine ⟨⟨fun h => absurd h (key _ _ (.inl rfl)), fun h => absurd h (by simp [GoVal.unptr])⟩,
        ⟨fun h => absurd h (key _ _ (.inr rfl)), fun h => absurd h.2 (by simp [GoVal.unptr])⟩,
        fun g' _ h => ?_⟩
      cases h; rfl
    | other =>
      refine ⟨⟨fun h => (by cases h), fun h => by simp [GoVal.unptr] at h⟩,
        ⟨fun _ => by simp [GoVal.unptr], fun _ => rfl⟩, fun g' _ h => by cases h⟩
    | ptr e =>
      refine ⟨⟨fun _ => by simp [GoVal.unptr], fun _ => rfl⟩,
        ⟨fun h => (by cases h), fun h => absurd h.1 (by simp [GoVal.unptr])⟩,
        fun g' h => absurd h (by simp [GoVal.unptr])⟩

/-- Two pointers, a pointer to a string, one pointer. -/
example : assignable TyCue.obs 0 exSchema (.ptr (.ptr (.struct exGo))) = .ok .pointerDepth ∧
    assignable TyCue.obs 0 exSchema (.ptr .other) = .ok .notAStruct ∧
    assignable TyCue.obs 5 exSchema (.ptr (.struct exGo)) =
      assignable TyCue.obs 5 exSchema (.struct exGo) :=
  ⟨(C65_arguments 0 exSchema _).1.2 (by simp [GoVal.unptr]),
   (C65_arguments 0 exSchema _).2.1.2 (by simp [GoVal.unptr]),
   (C65_arguments 5 exSchema (.ptr (.struct exGo))).2.2 exGo (by simp [GoVal.unptr]) rfl⟩

end Thema.Props

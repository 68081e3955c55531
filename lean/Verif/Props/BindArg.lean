import Verif.Spec.BindArg
import Verif.Props.TypedExact

/-!
# C198: the argument of BindType, exactly
-/

namespace Thema.Props

open Thema.Typed Thema.Assign Thema.Spec.Assign Thema.Spec.Typed Thema.Spec.BindArg Thema.Lemmas.Typed

mutual
theorem of_zero : ∀ t : GT, Of t (zero t)
  | .scal _ _ => by rw [zero, Of]; trivial
  | .ptr _ => by rw [zero, Of]; trivial
  | .slice _ => by rw [zero, Of]; trivial
  | .st gs => by rw [zero, Of]; exact ofF_zero gs
theorem ofF_zero : ∀ gs : GF, OfF gs (zeroF gs)
  | .nil => by rw [zeroF, OfF]; trivial
  | .cons n t rest => by rw [zeroF, OfF]; exact ⟨rfl, of_zero t, ofF_zero rest⟩
end

theorem of_ptr {t : GT} {x : GV} (h : Of (.ptr t) x) :
    x = .ptr none ∨ ∃ y, x = .ptr (some y) ∧ Of t y := by
  cases x with
  | ptr p =>
    cases p with
    | none => exact .inl rfl
    | some y => rw [Of] at h; exact .inr ⟨y, rfl, h⟩
  | _ => simp [Of] at h

theorem of_slice {t : GT} {x : GV} (h : Of (.slice t) x) :
    ∃ o, x = .slice o ∧ ∀ l, o = some l → ∀ y ∈ l, Of t y := by
  cases x with
  | slice o =>
    refine ⟨o, rfl, ?_⟩
    rintro l rfl
    rw [Of] at h
    exact h
  | _ => simp [Of] at h

theorem of_st {gs : GF} {x : GV} (h : Of (.st gs) x) : ∃ xs, x = .st xs ∧ OfF gs xs := by
  cases x with
  | st xs => rw [Of] at h; exact ⟨xs, rfl, h⟩
  | _ => simp [Of] at h

theorem of_scal {k : BK} {m : Nat} {x : GV} (h : Of (.scal k m) x) : ∃ c, x = .scal c := by
  cases x with
  | scal c => exact ⟨c, rfl⟩
  | _ => simp [Of] at h

theorem ofF_cons {n : Str} {t : GT} {rest : GF} {xs : List (Str × GV)}
    (h : OfF (.cons n t rest) xs) : ∃ x ys, xs = (n, x) :: ys ∧ Of t x ∧ OfF rest ys := by
  cases xs with
  | nil => simp [OfF] at h
  | cons f ys =>
    obtain ⟨m, x⟩ := f
    rw [OfF] at h
    obtain ⟨rfl, h⟩ := h
    exact ⟨x, ys, rfl, h⟩

/-- The first field and the others, of a struct that has these fields. -/
theorem field_tail {n : Str} {x : GV} {ys : List (Str × GV)} {t : GT} {rest : GF} {X : GV}
    (hn : (gnames (.cons n t rest)).Nodup)
    (hX : ∀ m ∈ gnames (.cons n t rest), X.field m = ((n, x) :: ys).lookup m) :
    X.field n = some x ∧ ∀ m ∈ gnames rest, X.field m = ys.lookup m := by
  rw [gnames] at hn hX
  rw [List.nodup_cons] at hn
  refine ⟨?_, fun m hm => ?_⟩
  · rw [hX n List.mem_cons_self, List.lookup_cons, beq_self_eq_true]
  · rw [hX m (List.mem_cons_of_mem _ hm), List.lookup_cons, beq_false_of_ne]
    rintro rfl
    exact hn.1 hm

mutual
theorem decodeD_written (r : Bool) : ∀ (t : GT) (s : S) (d : D) (x : GV), WFG t → Fits t s →
    Valid s d → Of t x → Written r t d x (decodeD r t d x).1 ∧ Of t (decodeD r t d x).1
  | .ptr t, s, d, x, hw, hf, hv, hx => by
    rw [WFG] at hw
    rw [Fits] at hf
    rw [decodeD]
    rcases of_ptr hx with rfl | ⟨y, rfl, hy⟩
    · have := decodeD_written r t s d (zero t) hw hf hv (of_zero t)
      exact ⟨.new this.1, by rw [Of]; exact this.2⟩
    · have := decodeD_written r t s d y hw hf hv hy
      exact ⟨.target this.1, by rw [Of]; exact this.2⟩
  | .scal k m, s, d, x, hw, hf, hv, hx => by
    obtain ⟨z, rfl⟩ := of_scal hx
    rcases fits_scal hf with ⟨c, rfl, hc⟩ | ⟨m', o, rfl, hm⟩
    · rw [Valid] at hv
      subst hv
      rw [decodeD, if_pos ⟨rfl, hc⟩]
      exact ⟨.basic, by rw [Of]; trivial⟩
    · rw [Valid] at hv
      obtain ⟨c, rfl, hc⟩ := hv
      rw [decodeD, if_pos ⟨rfl, Nat.le_trans hc hm⟩]
      exact ⟨.basic, by rw [Of]; trivial⟩
  | .slice t, s, d, x, hw, hf, hv, hx => by
    rw [WFG] at hw
    obtain ⟨e, l, rfl, hf⟩ := fits_slice hf
    rw [Valid] at hv
    obtain ⟨ds, rfl, hl⟩ := hv
    obtain ⟨o, rfl, ho⟩ := of_slice hx
    rw [decodeD]
    dsimp only
    have hslots : ∀ y ∈ slots r (zero t) ds.length (GV.slice o).elems, Of t y := by
      unfold slots
      split
      · intro y hy
        cases o with
        | none => simp [GV.elems] at hy
        | some old => exact ho old rfl y (List.mem_of_mem_take hy)
      · intro y hy
        rw [List.eq_of_mem_replicate hy]
        exact of_zero t
    have hlen : (slots r (zero t) ds.length (GV.slice o).elems).length = ds.length :=
      slots_length ..
    have hys : ((List.zipWith (fun d y => decodeD r t d y) ds
        (slots r (zero t) ds.length (GV.slice o).elems)).map (·.1)).length = ds.length := by
      simp [hlen]
    have key : ∀ (i : Nat) d x y, ds[i]? = some d →
        (slots r (zero t) ds.length (GV.slice o).elems)[i]? = some x →
        ((List.zipWith (fun d y => decodeD r t d y) ds
          (slots r (zero t) ds.length (GV.slice o).elems)).map (·.1))[i]? = some y →
        Written r t d x y ∧ Of t y := by
      intro i d x y hd hx hy
      rw [List.getElem?_map, List.getElem?_zipWith, hd, hx] at hy
      cases hy
      exact decodeD_written r t e d x hw hf (hl d (List.mem_of_getElem? hd))
        (hslots x (List.mem_of_getElem? hx))
    refine ⟨?_, ?_⟩
    · by_cases hc : r = true ∧ (GV.slice o).elems ≠ [] ∧ ds.length ≤ (GV.slice o).elems.length
      · obtain ⟨h1, h2, h3⟩ := hc
        cases o with
        | none => exact absurd rfl h2
        | some old =>
          refine .over h1 h2 h3 hys fun i d x y hd hx hy => (key i d x y hd ?_ hy).1
          have h2' : old ≠ [] := h2
          have h3' : ds.length ≤ old.length := h3
          unfold slots
          rw [if_pos (by simp [GV.elems, h1, h2', h3'])]
          rw [List.getElem?_take, if_pos]
          · exact hx
          · exact (List.getElem?_eq_some_iff.1 hd).1
      · refine .fresh ?_ hys fun i d y hd hy => (key i d (zero t) y hd ?_ hy).1
        · rintro old rfl h1 h2
          refine Nat.lt_of_not_le fun h3 => hc ⟨h1, h2, h3⟩
        · unfold slots
          rw [if_neg]
          · rw [List.getElem?_replicate, if_pos]
            exact (List.getElem?_eq_some_iff.1 hd).1
          · intro h
            simp only [Bool.and_eq_true, decide_eq_true_eq] at h
            exact hc ⟨h.1.1, fun hh => h.1.2 (by rw [hh]; rfl), h.2⟩
    · rw [Of]
      intro y hy
      obtain ⟨i, hi⟩ := List.getElem?_of_mem hy
      have hil : i < ds.length := by
        rw [← hys]
        exact (List.getElem?_eq_some_iff.1 hi).1
      exact (key i ds[i] _ y (List.getElem?_eq_getElem hil)
        (List.getElem?_eq_getElem (by rw [hlen]; exact hil)) hi).2
  | .st gs, s, d, x, hw, hf, hv, hx => by
    rw [WFG] at hw
    obtain ⟨fs, rfl, hf⟩ := fits_st hf
    rw [Valid] at hv
    obtain ⟨ds, rfl, hk, hd⟩ := hv
    obtain ⟨xs, rfl, hx⟩ := of_st hx
    rw [decodeD]
    have := decodeDF_written r gs fs ds xs (.st xs) hw.1 hw.2 hf hd hx (fun _ _ => rfl)
    exact ⟨.struct this.1, by rw [Of]; exact this.2⟩
theorem decodeDF_written (r : Bool) : ∀ (gs : GF) (fs : SF) (ds : List (Str × D))
    (xs : List (Str × GV)) (X : GV), (gnames gs).Nodup → WFGF gs → FitsF gs fs → ValidF fs ds →
    OfF gs xs → (∀ m ∈ gnames gs, X.field m = xs.lookup m) →
    WrittenF r gs ds xs (decodeDF r gs ds X).1 ∧ OfF gs (decodeDF r gs ds X).1
  | .nil, _, _, xs, X, _, _, _, _, hx, _ => by
    cases xs with
    | nil => rw [decodeDF]; exact ⟨.nil, by rw [OfF]; trivial⟩
    | cons f ys => simp [OfF] at hx
  | .cons n t rest, fs, ds, xs, X, hn, hw, hf, hv, hx, hX => by
    rw [WFGF] at hw
    rw [FitsF] at hf
    obtain ⟨x, ys, rfl, hx, hys⟩ := ofF_cons hx
    obtain ⟨h1, h2⟩ := field_tail hn hX
    rw [gnames, List.nodup_cons] at hn
    have ih := decodeDF_written r rest fs ds ys X hn.2 hw.2 hf.2 hv hys h2
    obtain ⟨o, s, hd, hs⟩ := hf.1
    rw [decodeDF, h1]
    dsimp only [Option.getD_some]
    cases h : ds.lookup n with
    | none => exact ⟨.kept h ih.1, by rw [OfF]; exact ⟨rfl, hx, ih.2⟩⟩
    | some d =>
      have := decodeD_written r t s d x hw.1 hs (valid_decl hv hd h) hx
      exact ⟨.set h this.1 ih.1, by rw [OfF]; exact ⟨rfl, this.2, ih.2⟩⟩
end

mutual
theorem decodeS_after (r : Bool) : ∀ (t : GT) (s : S) (x : GV), WFG t → Fits t s → WF s → Of t x →
    After r t s x (decodeS r t s x).1 ∧ Of t (decodeS r t s x).1
  | t, .con k c, x, hg, hf, hw, hx => by
    have := decodeD_written r t (.con k c) (.con k c) x hg hf (by rw [Valid]) hx
    rw [decodeS]
    exact ⟨.const this.1, this.2⟩
  | t, .typ k m (some c), x, hg, hf, hw, hx => by
    have := decodeD_written r t (.typ k m (some c)) (.con k c) x hg hf
      (by rw [Valid]; rw [WF] at hw; exact ⟨c, rfl, hw c rfl⟩) hx
    rw [decodeS]
    exact ⟨.dflt this.1, this.2⟩
  | .ptr t, .typ k m none, x, _, _, _, _ => by
    rw [decodeS]
    exact ⟨.cleared, by rw [Of]; trivial⟩
  | .scal k' m', .typ k m none, x, _, _, _, hx => by rw [decodeS]; exact ⟨.kept, hx⟩
  | .slice t, .typ k m none, x, _, hf, _, _ => by simp [Fits] at hf
  | .st t, .typ k m none, x, _, hf, _, _ => by simp [Fits] at hf
  | t, .olist e l, x, hg, hf, hw, hx => by
    rw [WF] at hw
    have := decodeD_written r t (.olist e l) (.list l) x hg hf (by rw [Valid]; exact ⟨l, rfl, hw.2⟩) hx
    rw [decodeS]
    exact ⟨.list this.1, this.2⟩
  | .ptr t, .st fs, x, hg, hf, hw, hx => by
    rw [WFG] at hg
    rw [Fits] at hf
    rw [decodeS]
    rcases of_ptr hx with rfl | ⟨y, rfl, hy⟩
    · have := decodeS_after r t (.st fs) (zero t) hg hf hw (of_zero t)
      exact ⟨.new this.1, by rw [Of]; exact this.2⟩
    · have := decodeS_after r t (.st fs) y hg hf hw hy
      exact ⟨.target this.1, by rw [Of]; exact this.2⟩
  | .st gs, .st fs, x, hg, hf, hw, hx => by
    rw [WFG] at hg
    rw [Fits] at hf
    rw [WF] at hw
    obtain ⟨xs, rfl, hx⟩ := of_st hx
    rw [decodeS]
    have := decodeSF_after r gs fs xs (.st xs) hg.1 hg.2 hf hw.2 hx (fun _ _ => rfl)
    exact ⟨.struct this.1, by rw [Of]; exact this.2⟩
  | .scal _ _, .st _, _, _, hf, _, _ => by simp [Fits] at hf
  | .slice _, .st _, _, _, hf, _, _ => by simp [Fits] at hf
theorem decodeSF_after (r : Bool) : ∀ (gs : GF) (fs : SF) (xs : List (Str × GV)) (X : GV),
    (gnames gs).Nodup → WFGF gs → FitsF gs fs → WFF fs → OfF gs xs →
    (∀ m ∈ gnames gs, X.field m = xs.lookup m) →
    AfterF r gs fs xs (decodeSF r gs fs X).1 ∧ OfF gs (decodeSF r gs fs X).1
  | .nil, _, xs, X, _, _, _, _, hx, _ => by
    cases xs with
    | nil => rw [decodeSF]; exact ⟨.nil, by rw [OfF]; trivial⟩
    | cons f ys => simp [OfF] at hx
  | .cons n t rest, fs, xs, X, hn, hg, hf, hw, hx, hX => by
    rw [WFGF] at hg
    rw [FitsF] at hf
    obtain ⟨x, ys, rfl, hx, hys⟩ := ofF_cons hx
    obtain ⟨h1, h2⟩ := field_tail hn hX
    rw [gnames, List.nodup_cons] at hn
    have ih := decodeSF_after r rest fs ys X hn.2 hg.2 hf.2 hw hys h2
    obtain ⟨o, s, hd, hs⟩ := hf.1
    rw [decodeSF, h1, decl_regular, hd]
    dsimp only [Option.getD_some]
    cases o with
    | true => exact ⟨.optional hd ih.1, by rw [OfF]; exact ⟨rfl, hx, ih.2⟩⟩
    | false =>
      have := decodeS_after r t s x hg.1 hs (wff_decl hw hd) hx
      exact ⟨.required hd this.1 ih.1, by rw [OfF]; exact ⟨rfl, this.2, ih.2⟩⟩
end

/-! ## The relation is a function, and it is idempotent -/

mutual
theorem written_unique {r : Bool} : ∀ {t : GT} {d : D} {x y z : GV}, Written r t d x y →
    Written r t d x z → y = z
  | .scal _ _, _, _, _, _, h, h' => by cases h; cases h'; rfl
  | .ptr t, _, _, _, _, h, h' => by
    cases h with
    | target h => cases h' with | target h' => rw [written_unique (t := t) h h']
    | new h => cases h' with | new h' => rw [written_unique (t := t) h h']
  | .slice t, _, _, _, _, h, h' => by
    cases h with
    | over h1 h2 h3 h4 h5 =>
      rename_i ds old ys
      cases h' with
      | over _ _ _ g4 g5 =>
        rename_i zs
        congr 2
        apply List.ext_getElem (by rw [h4, g4])
        intro i hi hi'
        have hid : i < ds.length := h4 ▸ hi
        exact written_unique (t := t)
          (h5 i _ _ _ (List.getElem?_eq_getElem hid)
            (List.getElem?_eq_getElem (Nat.lt_of_lt_of_le hid h3)) (List.getElem?_eq_getElem hi))
          (g5 i _ _ _ (List.getElem?_eq_getElem hid)
            (List.getElem?_eq_getElem (Nat.lt_of_lt_of_le hid h3)) (List.getElem?_eq_getElem hi'))
      | fresh g1 _ _ => exact absurd (g1 _ rfl h1 h2) (Nat.not_lt_of_le h3)
    | fresh h1 h4 h5 =>
      rename_i ds old ys
      cases h' with
      | over g1 g2 g3 _ _ => exact absurd (h1 _ rfl g1 g2) (Nat.not_lt_of_le g3)
      | fresh g1 g4 g5 =>
        congr 2
        apply List.ext_getElem (by rw [h4, g4])
        intro i hi hi'
        have hid : i < ds.length := h4 ▸ hi
        exact written_unique (t := t)
          (h5 i _ _ (List.getElem?_eq_getElem hid) (List.getElem?_eq_getElem hi))
          (g5 i _ _ (List.getElem?_eq_getElem hid) (List.getElem?_eq_getElem hi'))
  | .st gs, _, _, _, _, h, h' => by
    cases h with
    | struct h => cases h' with | struct h' => rw [writtenF_unique (gs := gs) h h']
theorem writtenF_unique {r : Bool} : ∀ {gs : GF} {ds : List (Str × D)} {x y z : List (Str × GV)},
    WrittenF r gs ds x y → WrittenF r gs ds x z → y = z
  | .nil, _, _, _, _, h, h' => by cases h; cases h'; rfl
  | .cons n t rest, _, _, _, _, h, h' => by
    cases h with
    | set h1 h2 h3 =>
      cases h' with
      | set g1 g2 g3 =>
        rw [h1] at g1
        cases g1
        rw [written_unique (t := t) h2 g2, writtenF_unique (gs := rest) h3 g3]
      | kept g1 _ => rw [h1] at g1; cases g1
    | kept h1 h3 =>
      cases h' with
      | set g1 _ _ => rw [h1] at g1; cases g1
      | kept _ g3 => rw [writtenF_unique (gs := rest) h3 g3]
end

mutual
theorem after_unique {r : Bool} : ∀ {t : GT} {s : S} {x y z : GV}, After r t s x y →
    After r t s x z → y = z
  | t, .con _ _, _, _, _, h, h' => by
    cases h with | const h => cases h' with | const h' => exact written_unique h h'
  | t, .typ _ _ (some _), _, _, _, h, h' => by
    cases h with | dflt h => cases h' with | dflt h' => exact written_unique h h'
  | t, .typ _ _ none, _, _, _, h, h' => by cases h <;> cases h' <;> rfl
  | t, .olist _ _, _, _, _, h, h' => by
    cases h with | list h => cases h' with | list h' => exact written_unique h h'
  | .ptr t, .st _, _, _, _, h, h' => by
    cases h with
    | target h => cases h' with | target h' => rw [after_unique (t := t) h h']
    | new h => cases h' with | new h' => rw [after_unique (t := t) h h']
  | .st gs, .st _, _, _, _, h, h' => by
    cases h with
    | struct h => cases h' with | struct h' => rw [afterF_unique (gs := gs) h h']
  | .scal _ _, .st _, _, _, _, h, _ => by cases h
  | .slice _, .st _, _, _, _, h, _ => by cases h
theorem afterF_unique {r : Bool} : ∀ {gs : GF} {fs : SF} {x y z : List (Str × GV)},
    AfterF r gs fs x y → AfterF r gs fs x z → y = z
  | .nil, _, _, _, _, h, h' => by cases h; cases h'; rfl
  | .cons n t rest, _, _, _, _, h, h' => by
    cases h with
    | required h1 h2 h3 =>
      cases h' with
      | required g1 g2 g3 =>
        rw [h1] at g1
        cases g1
        rw [after_unique (t := t) h2 g2, afterF_unique (gs := rest) h3 g3]
      | optional g1 _ => rw [h1] at g1; cases g1
    | optional h1 h3 =>
      cases h' with
      | required g1 _ _ => rw [h1] at g1; cases g1
      | optional _ g3 => rw [afterF_unique (gs := rest) h3 g3]
end

mutual
theorem written_again {r : Bool} : ∀ {t : GT} {d : D} {x y : GV}, Written r t d x y →
    Written r t d y y
  | .scal _ _, _, _, _, h => by cases h; exact .basic
  | .ptr t, _, _, _, h => by
    cases h with
    | target h => exact .target (written_again (t := t) h)
    | new h => exact .target (written_again (t := t) h)
  | .slice t, _, _, _, h => by
    have key : ∀ {ds ys}, ys.length = ds.length →
        (∀ (i : Nat) d y, ds[i]? = some d → ys[i]? = some y → ∃ x, Written r t d x y) →
        (r = false → ∀ (i : Nat) d y, ds[i]? = some d → ys[i]? = some y → Written r t d (zero t) y) →
        Written r (.slice t) (.list ds) (.slice (some ys)) (.slice (some ys)) := by
      intro ds ys h1 h2 h3
      cases hr : r with
      | false =>
        subst hr
        exact .fresh (fun _ _ h => by cases h) h1 (h3 rfl)
      | true =>
        subst hr
        by_cases hy : ys = []
        · subst hy
          refine .fresh (fun l hl _ h => ?_) h1 fun i d y _ hy => by simp at hy
          cases hl
          exact absurd rfl h
        · refine .over rfl hy (Nat.le_of_eq h1.symm) h1 fun i d x y hd hx hy => ?_
          rw [hx] at hy
          cases hy
          obtain ⟨x', hx'⟩ := h2 i d x hd hx
          exact written_again (t := t) hx'
    cases h with
    | over h1 h2 h3 h4 h5 =>
      rename_i ds old ys
      refine key h4 (fun i d y hd hy => ?_) (fun hr => by rw [h1] at hr; cases hr)
      have hi := Nat.lt_of_lt_of_le (List.getElem?_eq_some_iff.1 hd).1 h3
      exact ⟨_, h5 i d _ y hd (List.getElem?_eq_getElem hi) hy⟩
    | fresh h1 h4 h5 => exact key h4 (fun i d y hd hy => ⟨_, h5 i d y hd hy⟩) fun _ => h5
  | .st gs, _, _, _, h => by
    cases h with | struct h => exact .struct (writtenF_again (gs := gs) h)
theorem writtenF_again {r : Bool} : ∀ {gs : GF} {ds : List (Str × D)} {x y : List (Str × GV)},
    WrittenF r gs ds x y → WrittenF r gs ds y y
  | .nil, _, _, _, h => by cases h; exact .nil
  | .cons n t rest, _, _, _, h => by
    cases h with
    | set h1 h2 h3 => exact .set h1 (written_again (t := t) h2) (writtenF_again (gs := rest) h3)
    | kept h1 h3 => exact .kept h1 (writtenF_again (gs := rest) h3)
end

mutual
theorem after_again {r : Bool} : ∀ {t : GT} {s : S} {x y : GV}, After r t s x y → After r t s y y
  | t, .con _ _, _, _, h => by cases h with | const h => exact .const (written_again h)
  | t, .typ _ _ (some _), _, _, h => by cases h with | dflt h => exact .dflt (written_again h)
  | t, .typ _ _ none, _, _, h => by
    cases h with
    | cleared => exact .cleared
    | kept => exact .kept
  | t, .olist _ _, _, _, h => by cases h with | list h => exact .list (written_again h)
  | .ptr t, .st _, _, _, h => by
    cases h with
    | target h => exact .target (after_again (t := t) h)
    | new h => exact .target (after_again (t := t) h)
  | .st gs, .st _, _, _, h => by
    cases h with | struct h => exact .struct (afterF_again (gs := gs) h)
  | .scal _ _, .st _, _, _, h => by cases h
  | .slice _, .st _, _, _, h => by cases h
theorem afterF_again {r : Bool} : ∀ {gs : GF} {fs : SF} {x y : List (Str × GV)},
    AfterF r gs fs x y → AfterF r gs fs y y
  | .nil, _, _, _, h => by cases h; exact .nil
  | .cons n t rest, _, _, _, h => by
    cases h with
    | required h1 h2 h3 => exact .required h1 (after_again (t := t) h2) (afterF_again (gs := rest) h3)
    | optional h1 h3 => exact .optional h1 (afterF_again (gs := rest) h3)
end

/-! ## C198 -/

/-- **C198**.  If BindType returns a typed schema, the struct that its argument points to is, field
by field, what it was with the schema written over it; it is still a value of its type. -/
theorem C198_after {r : Bool} {n : Nat} {s : S} {T : GT} {x : GV} {ts : TypedSch} (hs : WF s)
    (hT : WFG T) (hx : Of T x) (h : (bindType r n s T x).1 = .ok ts) :
    ∃ gs y z, T = .ptr (.st gs) ∧ x = .ptr (some y) ∧
      (bindType r n s T x).2 = .ptr (some z) ∧ After r (.st gs) s y z ∧ Of (.st gs) z := by
  obtain ⟨-, ha, gs, y, rfl, rfl⟩ := C121_accepted_assignable hT h
  have hf := (fits_of_assignable hT ha).1
  rw [Fits] at hf
  rw [WFG] at hT
  rw [Of] at hx
  have := decodeS_after r (.st gs) s y hT hf hs hx
  refine ⟨gs, y, _, rfl, rfl, ?_, this⟩
  unfold bindType
  rw [ha]
  dsimp only [decodeTop]
  split <;> rfl

/-- **C198**.  What is written is determined by what was there. -/
theorem C198_unique {r : Bool} {t : GT} {s : S} {x y z : GV} (h : After r t s x y)
    (h' : After r t s x z) : y = z := after_unique h h'

/-- **C198**.  If BindType returns an error or panics, its argument is not changed. -/
theorem C198_refused {r : Bool} {n : Nat} {s : S} {T : GT} {x : GV} (hs : WF s) (hT : WFG T)
    (h : ∀ ts, (bindType r n s T x).1 ≠ .ok ts) : (bindType r n s T x).2 = x := by
  by_cases ha : assignable obs n (.sch s) (goVal T x) = .ok .nil
  · rcases (fits_of_assignable hT ha).2 with ⟨gs, rfl⟩ | ⟨gs, y, rfl, rfl⟩
    · unfold bindType
      rw [ha]
      dsimp only [decodeTop]
      split <;> rfl
    · exact absurd ((C121_pointer_partial hs hT).2 ha) (h _)
  · exact C122_refused_partial ha

/-- **C198**.  The second time, BindType leaves its argument as the first time left it, and returns
the same. -/
theorem C198_again {r : Bool} {n : Nat} {s : S} {T : GT} {x : GV} (hs : WF s) (hT : WFG T)
    (hx : Of T x) :
    bindType r n s T (bindType r n s T x).2 = bindType r n s T x := by
  cases h : (bindType r n s T x).1 with
  | ok ts =>
    obtain ⟨gs, y, z, rfl, rfl, hz, hA, hO⟩ := C198_after hs hT hx h
    have h2 : (bindType r n s (.ptr (.st gs)) (.ptr (some z))).1 = .ok ts := by
      obtain ⟨h1, ha, -⟩ := C121_accepted_assignable hT h
      subst h1
      exact (C121_pointer_partial hs hT).2 ha
    obtain ⟨gs', y', z', e1, e2, hz', hA', -⟩ := C198_after hs hT (by rw [Of]; exact hO) h2
    cases e1
    cases e2
    rw [hz]
    refine Prod.ext ?_ ?_
    · rw [h2, h]
    · rw [hz', hz, after_unique hA' (after_again hA)]
  | _ =>
    rw [C198_refused hs hT (by rw [h]; simp)]

/-- **C198**.  And the argument is as before exactly if it holds already what the schema writes. -/
theorem C198_unchanged_iff {r : Bool} {n : Nat} {s : S} {gs : GF} {y : GV} {ts : TypedSch} (hs : WF s)
    (hT : WFG (.ptr (.st gs))) (hx : Of (.st gs) y)
    (h : (bindType r n s (.ptr (.st gs)) (.ptr (some y))).1 = .ok ts) :
    (bindType r n s (.ptr (.st gs)) (.ptr (some y))).2 = .ptr (some y) ↔ After r (.st gs) s y y := by
  obtain ⟨gs', y', z, e1, e2, hz, hA, -⟩ := C198_after hs hT (by rw [Of]; exact hx) h
  cases e1
  cases e2
  rw [hz]
  constructor
  · intro h
    cases h
    exact hA
  · intro h
    rw [after_unique hA h]

/-- The example of C122. -/
theorem tvArg_of : Of (.ptr (.st tvFields)) tvArg := by
  simp [tvArg, tvFields, Of, OfF]

example : ∃ gs y z, GT.ptr (.st tvFields) = .ptr (.st gs) ∧ tvArg = .ptr (some y) ∧
    (bindType true 9 tvSchema (.ptr (.st tvFields)) tvArg).2 = .ptr (some z) ∧
    After true (.st gs) tvSchema y z ∧ Of (.st gs) z :=
  C198_after tvSchema_wf tvFields_wf tvArg_of
    ((C121_pointer_partial tvSchema_wf tvFields_wf).2 tvSchema_assignable)

/-- There it is changed. -/
example : (bindType true 9 tvSchema (.ptr (.st tvFields)) tvArg).2 ≠ tvArg := by
  have h : (bindType true 9 tvSchema (.ptr (.st tvFields)) tvArg).2 =
    .ptr (some (.st [("astring".toList, .ptr (some (.scal 5))),
      ("anint".toList, .scal 42), ("abool".toList, .scal 1),
      ("sub".toList, .st [("p".toList, .scal 7), ("q".toList, .ptr none)]),
      ("tags".toList, .slice (some [.scal 3]))])) := by rfl
  rw [h]
  simp [tvArg]

/-- A struct instead of a pointer to one is refused. -/
example : (bindType true 9 tvSchema (.st tvFields) (zero (.st tvFields))).2 = zero (.st tvFields) :=
  C198_refused tvSchema_wf (by have := tvFields_wf; rwa [WFG] at this)
    (C121_struct_rejected true 9 tvSchema tvFields _).1

example : bindType false 9 tvSchema (.ptr (.st tvFields))
      (bindType false 9 tvSchema (.ptr (.st tvFields)) tvArg).2 =
    bindType false 9 tvSchema (.ptr (.st tvFields)) tvArg :=
  C198_again tvSchema_wf tvFields_wf tvArg_of

end Thema.Props

import Verif.Spec.Typed
import Verif.Props.Assign

/-!
# Lemmas on Go types bound to schemas
-/

namespace Thema.Lemmas.Typed

open Thema.Typed Thema.Spec.Typed Thema.Assign Thema.Spec.Assign

/-! ## Assignable types -/

mutual
/-- The rules of assignability, read off the Go type. -/
def Fits : GT → S → Prop
  | .ptr t, s => Fits t s
  | .scal k m, .typ k' m' _ => k = k' ∧ m' ≤ m
  | .scal k m, .con k' c => k = k' ∧ c ≤ m
  | .slice t, .olist e _ => Fits t e
  | .st gs, .st fs => FitsF gs fs
  | _, _ => False
def FitsF : GF → SF → Prop
  | .nil, _ => True
  | .cons n t rest, fs => (∃ o s, decl fs n = some (o, s) ∧ Fits t s) ∧ FitsF rest fs
end

/-- The names of a Go struct. -/
def gnames : GF → List Str
  | .nil => []
  | .cons n _ rest => n :: gnames rest

mutual
/-- The fields of Go structs have distinct names. -/
def WFG : GT → Prop
  | .ptr t => WFG t
  | .scal _ _ => True
  | .slice t => WFG t
  | .st gs => (gnames gs).Nodup ∧ WFGF gs
def WFGF : GF → Prop
  | .nil => True
  | .cons _ t rest => WFG t ∧ WFGF rest
end

theorem sflist_nodup : ∀ fs : SF, (fs.list.map (·.1)).Nodup
  | .nil => List.nodup_nil
  | .cons n _ s rest => by
    rw [SF.list, List.map_cons, List.nodup_cons]
    constructor
    · intro h
      obtain ⟨y, hy, he⟩ := List.mem_map.1 h
      exact absurd he (by simpa using (List.mem_filter.1 hy).2)
    · exact (sflist_nodup rest).sublist (List.filter_sublist.map _)

theorem gflist_nodup : ∀ fs : GF, (fs.list.map (·.1)).Nodup
  | .nil => List.nodup_nil
  | .cons n s rest => by
    rw [GF.list, List.map_cons, List.nodup_cons]
    constructor
    · intro h
      obtain ⟨y, hy, he⟩ := List.mem_map.1 h
      exact absurd he (by simpa using (List.mem_filter.1 hy).2)
    · exact (gflist_nodup rest).sublist (List.filter_sublist.map _)

theorem coherent : Coherent obs where
  nodup v fs h := by
    cases v with
    | go t => cases t <;> simp only [obs, reduceCtorEq, Option.some.injEq] at h; subst h; exact gflist_nodup _
    | sch s => cases s <;> simp only [obs, reduceCtorEq, Option.some.injEq] at h; subst h; exact sflist_nodup _
    | _ => simp [obs] at h
  zero := rfl

theorem mem_sflist {fs : SF} : ∀ {n : Str} {w : W},
    (n, w) ∈ fs.list ↔ ∃ o s, decl fs n = some (o, s) ∧ w = .sch s := by
  cases fs with
  | nil => simp [SF.list, decl]
  | cons m o s rest =>
    intro n w
    rw [SF.list, List.mem_cons, List.mem_filter, mem_sflist (fs := rest), decl]
    by_cases h : m = n
    · subst h
      rw [if_pos rfl]
      constructor
      · rintro (h | h)
        · cases h; exact ⟨o, s, rfl, rfl⟩
        · simp at h
      · rintro ⟨o', s', h, rfl⟩
        cases h; exact .inl rfl
    · simp [h, Ne.symm h]

theorem mem_gflist {fs : GF} : ∀ {n : Str} {w : W},
    (n, w) ∈ fs.list ↔ ∃ t, goField fs n = some t ∧ w = .go t := by
  cases fs with
  | nil => simp [GF.list, goField]
  | cons m t rest =>
    intro n w
    rw [GF.list, List.mem_cons, List.mem_filter, mem_gflist (fs := rest), goField]
    by_cases h : m = n
    · subst h
      simp
    · simp [h, Ne.symm h]

/-- The encoding of a Go type without null. -/
def coreOf : GT → W
  | .ptr t => coreOf t
  | .slice t => .lst t
  | t => .go t

theorem find_goAlts : ∀ t : GT, (goAlts t).find? (fun x => !obs.isNull x) = some (coreOf t)
  | .ptr t => by rw [goAlts, List.find?_cons]; simpa [obs, coreOf] using find_goAlts t
  | .slice t => rfl
  | .scal _ _ => rfl
  | .st _ => rfl

theorem core_goOf {t : GT} {g' : W} (h : Core obs (.go t) g') : g' = coreOf t := by
  have h1 := Thema.Assign.core_eq h
  rw [← h1]
  cases t with
  | ptr t =>
    rw [stripLeadNull, if_pos (show obs.isOr (.go (.ptr t)) = true from rfl),
      show obs.alts (.go (.ptr t)) = goAlts (.ptr t) from rfl, find_goAlts]
  | slice t => rfl
  | scal _ _ => rfl
  | st _ => rfl

theorem not_any : ∀ t : GT, ¬ AnyType obs (.go t)
  | .ptr t, h => not_any t (by simpa [AnyType, obs, goKind, Kinds.noNull] using h)
  | .slice t, h => by simp [AnyType, obs, goKind, Kinds.noNull, Kinds.topNoNull] at h
  | .scal k _, h => by cases k <;> simp [AnyType, obs, goKind, Kinds.noNull, Kinds.topNoNull, BK.kinds] at h
  | .st _, h => by simp [AnyType, obs, goKind, Kinds.noNull, Kinds.topNoNull] at h

theorem coreOf_form : ∀ t : GT, (∃ k m, coreOf t = .go (.scal k m)) ∨ (∃ t', coreOf t = .lst t') ∨
    ∃ gs, coreOf t = .go (.st gs)
  | .ptr t => coreOf_form t
  | .slice t => .inr (.inl ⟨t, rfl⟩)
  | .scal k m => .inl ⟨k, m, rfl⟩
  | .st gs => .inr (.inr ⟨gs, rfl⟩)

theorem kind_core : ∀ t : GT, (goKind t).noNull = (obs.kind (coreOf t)).noNull
  | .ptr t => by
    rw [coreOf, ← kind_core t]; rfl
  | .slice t => rfl
  | .scal k m => rfl
  | .st gs => rfl

/-- What the rules say. -/
theorem rules_inv {t : GT} {s : S} (h : Rules obs True (.go t) (.sch s)) :
    basicSub (coreOf t) (.sch s) = true ∨
    (∃ gs fs, coreOf t = .go (.st gs) ∧ s = .st fs ∧
      (∀ k, k ∈ fs.list.map (·.1) ↔ k ∈ gs.list.map (·.1)) ∧
      (∀ k sv gv, (k, sv) ∈ fs.list → (k, gv) ∈ gs.list → Rules obs True gv sv)) ∨
    (∃ t' e l, coreOf t = .lst t' ∧ s = .olist e l ∧ Rules obs True (.go t') (.sch e)) := by
  cases h with
  | any h => exact absurd h (not_any t)
  | basicNull _ _ hn _ =>
    exfalso
    cases s with
    | con k c => cases k <;> simp [obs, BK.kinds] at hn
    | typ k c => cases k <;> simp [obs, BK.kinds] at hn
    | olist _ _ => simp [obs] at hn
    | st _ => simp [obs] at hn
  | basic _ _ _ hc hs =>
    rw [core_goOf hc] at hs
    exact .inl hs
  | struct _ _ _ hc hf hg hk hr =>
    rw [core_goOf hc] at hg
    cases s with
    | st fs =>
      cases hf
      rcases coreOf_form t with ⟨k, m, h⟩ | ⟨t', h⟩ | ⟨gs, h⟩ <;> rw [h] at hg
      · simp [obs] at hg
      · simp [obs] at hg
      · cases hg; exact .inr (.inl ⟨_, _, h, rfl, hk, hr⟩)
    | _ => simp [obs] at hf
  | openList hs hg hc hb _ _ _ _ hr =>
    rw [core_goOf hc] at hr
    cases s with
    | con k c => cases k <;> simp [obs, BK.kinds, Kinds.noNull] at hs
    | typ k c => cases k <;> simp [obs, BK.kinds, Kinds.noNull] at hs
    | st _ => simp [obs, Kinds.noNull] at hs
    | olist e l =>
      rcases hb with ⟨h, _⟩ | ⟨_, r, h, _⟩
      · cases h
      · simp only [obs, List.cons.injEq] at h
        obtain ⟨rfl, rfl⟩ := h
        rcases coreOf_form t with ⟨k, m, h⟩ | ⟨t', h⟩ | ⟨gs, h⟩ <;> rw [h] at hr
        · have hk := kind_core t
          rw [h] at hk
          rw [show (obs.kind (.go t)) = goKind t from rfl, hk] at hg
          cases k <;> simp [obs, goKind, BK.kinds, Kinds.noNull] at hg
        · exact .inr (.inr ⟨t', e, l, h, rfl, hr⟩)
        · have hk := kind_core t
          rw [h] at hk
          rw [show (obs.kind (.go t)) = goKind t from rfl, hk] at hg
          simp [obs, goKind, Kinds.noNull] at hg
  | closedList _ _ _ _ h1 => simp [obs] at h1
  | closedListAny _ _ _ _ h1 => simp [obs] at h1
  | closedListEmpty _ _ _ _ h1 => simp [obs] at h1


theorem goField_isSome {gs : GF} : ∀ {n : Str}, (goField gs n).isSome = true ↔ n ∈ gnames gs := by
  cases gs with
  | nil => simp [goField, gnames]
  | cons m t rest =>
    intro n
    rw [goField, gnames, List.mem_cons, ← goField_isSome (gs := rest)]
    by_cases h : m = n
    · simp [h]
    · simp [h, Ne.symm h]

mutual
theorem fits_of_inv : ∀ (t : GT) (s : S), WFG t →
    (basicSub (coreOf t) (.sch s) = true ∨
    (∃ gs fs, coreOf t = .go (.st gs) ∧ s = .st fs ∧
      (∀ k, k ∈ fs.list.map (·.1) ↔ k ∈ gs.list.map (·.1)) ∧
      (∀ k sv gv, (k, sv) ∈ fs.list → (k, gv) ∈ gs.list → Rules obs True gv sv)) ∨
    (∃ t' e l, coreOf t = .lst t' ∧ s = .olist e l ∧ Rules obs True (.go t') (.sch e))) → Fits t s
  | .ptr t, s, hw, h => by
    rw [Fits]
    exact fits_of_inv t s hw h
  | .scal k m, s, _, h => by
    rcases h with h | ⟨gs, fs, h, _⟩ | ⟨t', e, l, h, _⟩
    · cases s <;> simp_all [coreOf, basicSub, Fits]
    · cases h
    · cases h
  | .slice t, s, hw, h => by
    rcases h with h | ⟨gs, fs, h, _⟩ | ⟨t', e, l, h, rfl, hr⟩
    · cases s <;> simp [coreOf, basicSub] at h
    · cases h
    · cases h
      rw [Fits]
      exact fits_of_inv t e hw (rules_inv hr)
  | .st gs, s, hw, h => by
    rcases h with h | ⟨gs', fs, h, rfl, hk, hr⟩ | ⟨t', e, l, h, _⟩
    · cases s <;> simp [coreOf, basicSub] at h
    · cases h
      rw [Fits]
      refine fitsF_of_inv gs fs hw.1 hw.2 ?_
      intro n t hn
      have h1 : (n, W.go t) ∈ gs.list := mem_gflist.2 ⟨t, hn, rfl⟩
      obtain ⟨⟨m, sv⟩, hm, he⟩ := List.mem_map.1 ((hk n).2 (List.mem_map.2 ⟨_, h1, rfl⟩))
      obtain rfl : m = n := he
      obtain ⟨o, s, hd, rfl⟩ := mem_sflist.1 hm
      exact ⟨o, s, hd, hr _ _ _ hm h1⟩
    · cases h
theorem fitsF_of_inv : ∀ (gs : GF) (fs : SF), (gnames gs).Nodup → WFGF gs →
    (∀ n t, goField gs n = some t → ∃ o s, decl fs n = some (o, s) ∧
      Rules obs True (.go t) (.sch s)) → FitsF gs fs
  | .nil, _, _, _, _ => trivial
  | .cons n t rest, fs, hn, hw, h => by
    rw [FitsF]
    refine ⟨?_, fitsF_of_inv rest fs (List.nodup_cons.1 hn).2 hw.2 fun m t' hm => ?_⟩
    · obtain ⟨o, s, hd, hr⟩ := h n t (by rw [goField, if_pos rfl])
      exact ⟨o, s, hd, fits_of_inv t s hw.1 (rules_inv hr)⟩
    · refine h m t' ?_
      rw [goField, if_neg, hm]
      rintro rfl
      exact (List.nodup_cons.1 hn).1 (goField_isSome.1 (by rw [hm]; rfl))
end

/-- What `AssignableTo` accepts fits. -/
theorem fits_of_assignable {n : Nat} {s : S} {T : GT} {x : GV} (hw : WFG T)
    (h : assignable obs n (.sch s) (goVal T x) = .ok .nil) :
    Fits T s ∧ ((∃ gs, T = .st gs) ∨ ∃ gs y, T = .ptr (.st gs) ∧ x = .ptr (some y)) := by
  obtain ⟨g, hg, hr⟩ := Props.C61_sound coherent n (.sch s) (goVal T x) h
  cases T with
  | scal k m => rcases hg with hg | hg <;> cases hg
  | slice t => rcases hg with hg | hg <;> cases hg
  | st gs =>
    rcases hg with hg | hg <;> cases hg
    exact ⟨fits_of_inv _ _ hw (rules_inv hr), .inl ⟨gs, rfl⟩⟩
  | ptr t =>
    cases x with
    | ptr y =>
      cases y with
      | none => rcases hg with hg | hg <;> cases hg
      | some y =>
        cases t with
        | st gs =>
          rcases hg with hg | hg <;> cases hg
          exact ⟨by rw [Fits]; exact fits_of_inv _ _ hw (rules_inv hr), .inr ⟨gs, y, rfl, rfl⟩⟩
        | ptr t => cases y with
          | ptr z => cases z <;> rcases hg with hg | hg <;> cases hg
          | _ => rcases hg with hg | hg <;> cases hg
        | _ => rcases hg with hg | hg <;> cases hg
    | _ => rcases hg with hg | hg <;> cases hg

/-! ## Decoding -/

theorem decl_regular : ∀ (fs : SF) (n : Str), fs.regular n =
    match decl fs n with
    | some (false, s) => some s
    | _ => none
  | .nil, _ => rfl
  | .cons m o s rest, n => by
    rw [SF.regular, decl]
    by_cases h : m = n
    · rw [if_pos h, if_pos h]
      cases o <;> rfl
    · rw [if_neg h, if_neg h]
      exact decl_regular rest n

theorem slots_length (r : Bool) (z : GV) (n : Nat) (old : List GV) :
    (slots r z n old).length = n := by
  unfold slots
  split
  · rename_i h
    simp only [Bool.and_eq_true, decide_eq_true_eq] at h
    simp [h.2]
  · simp

theorem mem_zipWith {α β γ : Type} {f : α → β → γ} : ∀ {l : List α} {m : List β} {x : γ},
    x ∈ List.zipWith f l m → ∃ a ∈ l, ∃ b ∈ m, x = f a b
  | [], _, _, h => by simp at h
  | _ :: _, [], _, h => by simp at h
  | a :: l, b :: m, x, h => by
    rw [List.zipWith_cons_cons, List.mem_cons] at h
    rcases h with rfl | h
    · exact ⟨a, List.mem_cons_self, b, List.mem_cons_self, rfl⟩
    · obtain ⟨a', ha, b', hb, rfl⟩ := mem_zipWith h
      exact ⟨a', List.mem_cons_of_mem _ ha, b', List.mem_cons_of_mem _ hb, rfl⟩

theorem fits_scal {k : BK} {m : Nat} {s : S} (h : Fits (.scal k m) s) :
    (∃ c, s = .con k c ∧ c ≤ m) ∨ ∃ m' o, s = .typ k m' o ∧ m' ≤ m := by
  cases s with
  | con k' c =>
    rw [Fits] at h
    exact .inl ⟨c, by rw [h.1], h.2⟩
  | typ k' m' o =>
    rw [Fits] at h
    exact .inr ⟨m', o, by rw [h.1], h.2⟩
  | olist _ _ => simp [Fits] at h
  | st _ => simp [Fits] at h

theorem fits_slice {t : GT} {s : S} (h : Fits (.slice t) s) :
    ∃ e l, s = .olist e l ∧ Fits t e := by
  cases s with
  | olist e l => rw [Fits] at h; exact ⟨e, l, rfl, h⟩
  | con _ _ => simp [Fits] at h
  | typ _ _ _ => simp [Fits] at h
  | st _ => simp [Fits] at h

theorem fits_st {gs : GF} {s : S} (h : Fits (.st gs) s) : ∃ fs, s = .st fs ∧ FitsF gs fs := by
  cases s with
  | st fs => rw [Fits] at h; exact ⟨fs, rfl, h⟩
  | con _ _ => simp [Fits] at h
  | typ _ _ _ => simp [Fits] at h
  | olist _ _ => simp [Fits] at h

/-- What validity says about one field. -/
theorem validF_decl : ∀ {fs : SF} {ds : List (Str × D)} {n : Str} {o : Bool} {s : S},
    ValidF fs ds → decl fs n = some (o, s) →
      match ds.lookup n with
      | some d => Valid s d
      | none => o = true ∨ mayOmit s = true
  | .nil, _, _, _, _, _, h => by cases h
  | .cons m o' s' rest, ds, n, o, s, hv, h => by
    rw [ValidF] at hv
    rw [decl] at h
    by_cases hm : m = n
    · subst hm
      rw [if_pos rfl] at h
      cases h
      exact hv.1
    · rw [if_neg hm] at h
      exact validF_decl hv.2 h

theorem valid_decl {fs : SF} {ds : List (Str × D)} {n : Str} {o : Bool} {s : S} {d : D}
    (hv : ValidF fs ds) (h : decl fs n = some (o, s)) (hd : ds.lookup n = some d) : Valid s d := by
  have := validF_decl hv h
  rw [hd] at this
  exact this

mutual
/-- Instances of a type that fits are decoded without errors. -/
theorem decodeD_ok (r : Bool) : ∀ (t : GT) (s : S) (d : D) (x : GV), Fits t s → Valid s d →
    (decodeD r t d x).2 = []
  | .ptr t, s, d, x, hf, hv => by
    rw [decodeD]
    rw [Fits] at hf
    exact decodeD_ok r t s d _ hf hv
  | .scal k m, s, d, x, hf, hv => by
    rcases fits_scal hf with ⟨c, rfl, hc⟩ | ⟨m', o, rfl, hm⟩
    · rw [Valid] at hv
      subst hv
      rw [decodeD, if_pos ⟨rfl, hc⟩]
    · rw [Valid] at hv
      obtain ⟨c, rfl, hc⟩ := hv
      rw [decodeD, if_pos ⟨rfl, Nat.le_trans hc hm⟩]
  | .slice t, s, d, x, hf, hv => by
    obtain ⟨e, l, rfl, hf⟩ := fits_slice hf
    rw [Valid] at hv
    obtain ⟨l', rfl, hl⟩ := hv
    rw [decodeD]
    simp only [List.flatten_eq_nil_iff, List.mem_map]
    rintro _ ⟨p, hp, rfl⟩
    obtain ⟨a, ha, b, hb, rfl⟩ := mem_zipWith hp
    exact decodeD_ok r t e a b hf (hl a ha)
  | .st gs, s, d, x, hf, hv => by
    obtain ⟨fs, rfl, hf⟩ := fits_st hf
    rw [Valid] at hv
    obtain ⟨ds, rfl, hk, hd⟩ := hv
    rw [decodeD]
    exact decodeDF_ok r gs fs ds x hf hd
theorem decodeDF_ok (r : Bool) : ∀ (gs : GF) (fs : SF) (ds : List (Str × D)) (x : GV),
    FitsF gs fs → ValidF fs ds → (decodeDF r gs ds x).2 = []
  | .nil, _, _, _, _, _ => by rw [decodeDF]
  | .cons n t rest, fs, ds, x, hf, hv => by
    rw [FitsF] at hf
    rw [decodeDF]
    dsimp only
    rw [decodeDF_ok r rest fs ds x hf.2 hv, List.append_nil]
    obtain ⟨o, s, hd, hs⟩ := hf.1
    cases h : ds.lookup n with
    | none => rfl
    | some d => exact decodeD_ok r t s d _ hs (valid_decl hv hd h)
end

theorem wff_decl : ∀ {fs : SF} {n : Str} {o : Bool} {s : S}, WFF fs → decl fs n = some (o, s) → WF s
  | .nil, _, _, _, _, h => by cases h
  | .cons m o' s' rest, n, o, s, hw, h => by
    rw [WFF] at hw
    rw [decl] at h
    by_cases hm : m = n
    · rw [if_pos hm] at h
      cases h
      exact hw.1
    · rw [if_neg hm] at h
      exact wff_decl hw.2 h

mutual
/-- A well-formed schema that fits gives no errors but for types without a default. -/
theorem decodeS_ok (r : Bool) : ∀ (t : GT) (s : S) (x : GV), Fits t s → WF s →
    ∀ e ∈ (decodeS r t s x).2, e = .nonConcrete
  | t, .con k c, x, hf, hw => by
    rw [decodeS, decodeD_ok r t (.con k c) (.con k c) x hf (by rw [Valid])]
    simp
  | t, .typ k m (some c), x, hf, hw => by
    rw [decodeS, decodeD_ok r t (.typ k m (some c)) (.con k c) x hf
      (by rw [Valid]; rw [WF] at hw; exact ⟨c, rfl, hw c rfl⟩)]
    simp
  | .ptr t, .typ k m none, x, _, _ => by rw [decodeS]; simp
  | .scal k' m', .typ k m none, x, _, _ => by rw [decodeS]; simp
  | .slice t, .typ k m none, x, hf, _ => by simp [Fits] at hf
  | .st t, .typ k m none, x, hf, _ => by simp [Fits] at hf
  | t, .olist e l, x, hf, hw => by
    rw [WF] at hw
    rw [decodeS, decodeD_ok r t (.olist e l) (.list l) x hf (by rw [Valid]; exact ⟨l, rfl, hw.2⟩)]
    simp
  | .ptr t, .st fs, x, hf, hw => by
    rw [decodeS]
    rw [Fits] at hf
    exact decodeS_ok r t (.st fs) _ hf hw
  | .st gs, .st fs, x, hf, hw => by
    rw [decodeS]
    rw [Fits] at hf
    rw [WF] at hw
    exact decodeSF_ok r gs fs x hf hw.2
  | .scal _ _, .st _, _, hf, _ => by simp [Fits] at hf
  | .slice _, .st _, _, hf, _ => by simp [Fits] at hf
theorem decodeSF_ok (r : Bool) : ∀ (gs : GF) (fs : SF) (x : GV), FitsF gs fs → WFF fs →
    ∀ e ∈ (decodeSF r gs fs x).2, e = .nonConcrete
  | .nil, _, _, _, _ => by rw [decodeSF]; simp
  | .cons n t rest, fs, x, hf, hw => by
    rw [FitsF] at hf
    obtain ⟨⟨o, s, hd, hs⟩, hf⟩ := hf
    rw [decodeSF]
    dsimp only
    intro e he
    rcases List.mem_append.1 he with he | he
    · rw [decl_regular, hd] at he
      cases o with
      | true => simp at he
      | false => exact decodeS_ok r t s _ hs (wff_decl hw hd) e he
    · exact decodeSF_ok r rest fs x hf hw e he
end

/-! ## Go values that hold data -/

theorem zeroF_eq : ∀ gs : GF, zeroF gs = repF gs []
  | .nil => by rw [zeroF, repF]
  | .cons n t rest => by rw [zeroF, repF, zeroF_eq rest]; rfl

/-- The Go value for data that may be absent. -/
def repO (t : GT) : Option D → GV
  | some d => rep t d
  | none => zero t

theorem repF_lookup {ds : List (Str × D)} : ∀ {gs : GF} {n : Str} {t : GT},
    goField gs n = some t → (repF gs ds).lookup n = some (repO t (ds.lookup n))
  | .nil, _, _, h => by cases h
  | .cons m t' rest, n, t, h => by
    rw [goField] at h
    rw [repF, List.lookup_cons]
    by_cases hm : m = n
    · subst hm
      rw [if_pos rfl] at h
      cases h
      rw [beq_self_eq_true]
      cases ds.lookup m <;> rfl
    · rw [if_neg hm] at h
      rw [beq_false_of_ne (Ne.symm hm)]
      exact repF_lookup h

theorem goField_cons {n m : Str} {t t' : GT} {rest : GF} (hn : (gnames (.cons n t rest)).Nodup)
    (h : goField rest m = some t') : goField (.cons n t rest) m = some t' := by
  rw [goField, if_neg, h]
  rintro rfl
  exact (List.nodup_cons.1 hn).1 (goField_isSome.1 (by rw [h]; rfl))

theorem zipWith_replicate {α β : Type} {f : D → GV → α} {g : α → β} {h : D → β} {z : GV} :
    ∀ l : List D, (∀ d ∈ l, g (f d z) = h d) →
      (List.zipWith f l (List.replicate l.length z)).map g = l.map h
  | [], _ => rfl
  | d :: l, H => by
    rw [List.length_cons, List.replicate_succ, List.zipWith_cons_cons, List.map_cons, List.map_cons,
      H d List.mem_cons_self, zipWith_replicate l fun d hd => H d (List.mem_cons_of_mem _ hd)]

mutual
/-- Data decoded into a zero value. -/
theorem decodeD_zero (r : Bool) : ∀ (t : GT) (s : S) (d : D), WFG t → Fits t s → Valid s d →
    (decodeD r t d (zero t)).1 = rep t d
  | .ptr t, s, d, hg, hf, hv => by
    rw [decodeD, rep, zero]
    rw [Fits] at hf
    rw [WFG] at hg
    dsimp only [GV.deref, Option.getD]
    rw [decodeD_zero r t s d hg hf hv]
  | .scal k m, s, d, hg, hf, hv => by
    rcases fits_scal hf with ⟨c, rfl, hc⟩ | ⟨m', o, rfl, hm⟩
    · rw [Valid] at hv
      subst hv
      rw [decodeD, if_pos ⟨rfl, hc⟩, rep]
    · rw [Valid] at hv
      obtain ⟨c, rfl, hc⟩ := hv
      rw [decodeD, if_pos ⟨rfl, Nat.le_trans hc hm⟩, rep]
  | .slice t, s, d, hg, hf, hv => by
    obtain ⟨e, l, rfl, hf⟩ := fits_slice hf
    rw [WFG] at hg
    rw [Valid] at hv
    obtain ⟨l', rfl, hl⟩ := hv
    rw [decodeD, rep, zero]
    dsimp only [GV.elems]
    rw [slots, if_neg (by simp), zipWith_replicate l' fun d hd => decodeD_zero r t e d hg hf (hl d hd)]
  | .st gs, s, d, hg, hf, hv => by
    obtain ⟨fs, rfl, hf⟩ := fits_st hf
    rw [WFG] at hg
    rw [Valid] at hv
    obtain ⟨ds, rfl, hk, hd⟩ := hv
    rw [decodeD, rep, zero, zeroF_eq]
    dsimp only
    congr 1
    exact decodeDF_zero r gs fs ds _ hg.1 hg.2 hf hd fun n t h => by
      rw [GV.field, repF_lookup h]; rfl
theorem decodeDF_zero (r : Bool) : ∀ (gs : GF) (fs : SF) (ds : List (Str × D)) (x : GV),
    (gnames gs).Nodup → WFGF gs → FitsF gs fs → ValidF fs ds →
    (∀ n t, goField gs n = some t → x.field n = some (zero t)) →
    (decodeDF r gs ds x).1 = repF gs ds
  | .nil, _, _, _, _, _, _, _, _ => by rw [decodeDF, repF]
  | .cons n t rest, fs, ds, x, hn, hg, hf, hv, hx => by
    rw [FitsF] at hf
    rw [WFGF] at hg
    rw [decodeDF, repF]
    dsimp only
    rw [decodeDF_zero r rest fs ds x (List.nodup_cons.1 hn).2 hg.2 hf.2 hv
      fun m t' h => hx m t' (goField_cons hn h)]
    rw [hx n t (by rw [goField, if_pos rfl])]
    obtain ⟨o, s, hd, hs⟩ := hf.1
    cases h : ds.lookup n with
    | none => rfl
    | some d =>
      dsimp only [Option.getD]
      rw [decodeD_zero r t s d hg.1 hs (valid_decl hv hd h)]
end

theorem dfltF_eq : ∀ fs : SF, dfltF fs = fillF fs []
  | .nil => by rw [dfltF, fillF]
  | .cons n o s rest => by
    rw [dfltF, fillF, dfltF_eq rest]; rfl

theorem decl_none : ∀ {fs : SF} {n : Str}, n ∉ names fs → decl fs n = none
  | .nil, _, _ => rfl
  | .cons m o s rest, n, h => by
    rw [names, List.mem_cons, not_or] at h
    rw [decl, if_neg (Ne.symm h.1), decl_none h.2]

/-- What data with defaults has in a field. -/
def filled (ds : List (Str × D)) (n : Str) : Option (Bool × S) → Option D
  | none => none
  | some (o, s) =>
    match ds.lookup n with
    | some d => some (fill s d)
    | none => if o then none else dflt s

theorem lookup_append {n : Str} : ∀ (a b : List (Str × D)),
    (a ++ b).lookup n = match a.lookup n with
      | some d => some d
      | none => b.lookup n
  | [], b => rfl
  | (m, d) :: a, b => by
    rw [List.cons_append, List.lookup_cons, List.lookup_cons]
    cases h : n == m with
    | true => rfl
    | false => exact lookup_append a b

theorem own_lookup_ne {n m : Str} {o : Bool} {x : Option D} (h : n ≠ m) :
    (own m o x).lookup n = none := by
  have hb : (n == m) = false := beq_false_of_ne h
  cases o <;> cases x <;> simp [own, List.lookup_cons, hb]

theorem fillF_not_mem {ds : List (Str × D)} : ∀ {fs : SF} {n : Str}, n ∉ names fs →
    (fillF fs ds).lookup n = none
  | .nil, _, _ => by rw [fillF]; rfl
  | .cons m o s rest, n, h => by
    rw [names, List.mem_cons, not_or] at h
    rw [fillF, lookup_append, fillF_not_mem h.2]
    have hb : (n == m) = false := beq_false_of_ne h.1
    cases ds.lookup m with
    | some d => simp [List.lookup_cons, hb]
    | none => rw [own_lookup_ne h.1]

theorem fillF_lookup {ds : List (Str × D)} : ∀ {fs : SF} {n : Str}, (names fs).Nodup →
    (fillF fs ds).lookup n = filled ds n (decl fs n)
  | .nil, _, _ => by rw [fillF, decl]; rfl
  | .cons m o s rest, n, hn => by
    rw [names, List.nodup_cons] at hn
    rw [fillF, lookup_append, decl]
    by_cases hm : m = n
    · subst hm
      rw [if_pos rfl, filled, fillF_not_mem hn.1]
      cases ds.lookup m with
      | some d => simp
      | none =>
        cases o with
        | true => rfl
        | false => cases dflt s <;> simp [own]
    · rw [if_neg hm, ← fillF_lookup hn.2]
      have hb : (n == m) = false := beq_false_of_ne (Ne.symm hm)
      cases ds.lookup m with
      | some d => simp [List.lookup_cons, hb]
      | none => rw [own_lookup_ne (Ne.symm hm)]

/-- `NewT`'s decoding: the defaults of the schema, and zero values. -/
theorem repO_ptr (t : GT) (d : D) : repO (.ptr t) (some d) = .ptr (some (repO t (some d))) := by
  rw [repO, rep]; rfl

mutual
theorem decodeS_zero (r : Bool) : ∀ (t : GT) (s : S), WFG t → Fits t s → WF s →
    (decodeS r t s (zero t)).1 = repO t (dflt s)
  | t, .con k c, hg, hf, hw => by
    rw [decodeS, decodeD_zero r t (.con k c) (.con k c) hg hf (by rw [Valid]), dflt]; rfl
  | t, .typ k m (some c), hg, hf, hw => by
    rw [decodeS, decodeD_zero r t (.typ k m (some c)) (.con k c) hg hf
      (by rw [Valid]; rw [WF] at hw; exact ⟨c, rfl, hw c rfl⟩), dflt]; rfl
  | .ptr t, .typ k m none, _, _, _ => by rw [decodeS, dflt, Option.map, repO, zero]
  | .scal k' m', .typ k m none, _, _, _ => by rw [decodeS, dflt, Option.map, repO]
  | .slice t, .typ k m none, _, hf, _ => by simp [Fits] at hf
  | .st t, .typ k m none, _, hf, _ => by simp [Fits] at hf
  | t, .olist e l, hg, hf, hw => by
    rw [WF] at hw
    rw [decodeS, decodeD_zero r t (.olist e l) (.list l) hg hf (by rw [Valid]; exact ⟨l, rfl, hw.2⟩),
      dflt]; rfl
  | .ptr t, .st fs, hg, hf, hw => by
    rw [Fits] at hf
    rw [WFG] at hg
    rw [decodeS, zero]
    dsimp only [GV.deref, Option.getD]
    rw [decodeS_zero r t (.st fs) hg hf hw, dflt, repO_ptr]
  | .st gs, .st fs, hg, hf, hw => by
    rw [Fits] at hf
    rw [WFG] at hg
    rw [WF] at hw
    rw [decodeS, dflt, repO, rep, zero, zeroF_eq]
    dsimp only
    congr 1
    exact decodeSF_zero r gs fs _ hg.1 hg.2 hf hw.1 hw.2 fun n t h => by
      rw [GV.field, repF_lookup h]; rfl
  | .scal _ _, .st _, _, hf, _ => by simp [Fits] at hf
  | .slice _, .st _, _, hf, _ => by simp [Fits] at hf
theorem decodeSF_zero (r : Bool) : ∀ (gs : GF) (fs : SF) (x : GV), (gnames gs).Nodup → WFGF gs →
    FitsF gs fs → (names fs).Nodup → WFF fs →
    (∀ n t, goField gs n = some t → x.field n = some (zero t)) →
    (decodeSF r gs fs x).1 = repF gs (dfltF fs)
  | .nil, _, _, _, _, _, _, _, _ => by rw [decodeSF, repF]
  | .cons n t rest, fs, x, hn, hg, hf, hd, hw, hx => by
    rw [FitsF] at hf
    rw [WFGF] at hg
    rw [decodeSF, repF]
    dsimp only
    rw [decodeSF_zero r rest fs x (List.nodup_cons.1 hn).2 hg.2 hf.2 hd hw
      fun m t' h => hx m t' (goField_cons hn h)]
    rw [hx n t (by rw [goField, if_pos rfl])]
    obtain ⟨o, s, hs, hs'⟩ := hf.1
    rw [dfltF_eq, fillF_lookup hd, decl_regular, hs]
    cases o with
    | true => rfl
    | false =>
      dsimp only [filled, Option.getD, List.lookup]
      rw [decodeS_zero r t s hg.1 hs' (wff_decl hw hs)]
      rw [if_neg (by simp)]
      cases dflt s <;> rfl
end

theorem spelledF_decl : ∀ {fs : SF} {n : Str} {o : Bool} {s : S}, SpelledF fs →
    decl fs n = some (o, s) → (o = true ∨ mayOmit s = false) ∧ Spelled s
  | .nil, _, _, _, _, h => by cases h
  | .cons m o' s' rest, n, o, s, hw, h => by
    rw [SpelledF] at hw
    rw [decl] at h
    by_cases hm : m = n
    · rw [if_pos hm] at h
      cases h
      exact ⟨hw.1, hw.2.1⟩
    · rw [if_neg hm] at h
      exact spelledF_decl hw.2.2 h

mutual
/-- Nothing is filled in where everything is spelled out. -/
theorem spelled_rep : ∀ (t : GT) (s : S) (d : D), Fits t s → WF s → Valid s d → Spelled s →
    rep t (fill s d) = rep t d
  | .ptr t, s, d, hf, hw, hv, hs => by
    rw [Fits] at hf
    rw [rep, rep, spelled_rep t s d hf hw hv hs]
  | .scal k m, s, d, hf, hw, hv, hs => by
    rcases fits_scal hf with ⟨c, rfl, hc⟩ | ⟨m', o, rfl, hm⟩
    · rw [fill] <;> simp
    · rw [fill] <;> simp
  | .slice t, s, d, hf, hw, hv, hs => by
    obtain ⟨e, l, rfl, hf⟩ := fits_slice hf
    rw [Valid] at hv
    obtain ⟨l', rfl, hl⟩ := hv
    rw [WF] at hw
    rw [Spelled] at hs
    rw [fill, rep, rep, List.map_map]
    congr 2
    exact List.map_congr_left fun d hd => spelled_rep t e d hf hw.1 (hl d hd) hs
  | .st gs, s, d, hf, hw, hv, hs => by
    obtain ⟨fs, rfl, hf⟩ := fits_st hf
    rw [Valid] at hv
    obtain ⟨ds, rfl, hk, hd⟩ := hv
    rw [WF] at hw
    rw [Spelled] at hs
    rw [fill, rep, rep]
    congr 1
    exact spelledF_rep gs fs ds hf hw.1 hw.2 hd hs
theorem spelledF_rep : ∀ (gs : GF) (fs : SF) (ds : List (Str × D)), FitsF gs fs →
    (names fs).Nodup → WFF fs → ValidF fs ds → SpelledF fs → repF gs (fillF fs ds) = repF gs ds
  | .nil, _, _, _, _, _, _, _ => by rw [repF, repF]
  | .cons n t rest, fs, ds, hf, hn, hw, hv, hs => by
    rw [FitsF] at hf
    rw [repF, repF, spelledF_rep rest fs ds hf.2 hn hw hv hs, fillF_lookup hn]
    obtain ⟨o, s, hd, hs'⟩ := hf.1
    have h1 := validF_decl hv hd
    have h2 := spelledF_decl hs hd
    rw [hd, filled]
    cases h : ds.lookup n with
    | some d =>
      dsimp only
      rw [h] at h1
      rw [spelled_rep t s d hs' (wff_decl hw hd) h1 h2.2]
    | none =>
      rw [h] at h1
      cases o with
      | true => rfl
      | false =>
        rcases h1 with h1 | h1
        · cases h1
        · rcases h2.1 with h2 | h2
          · cases h2
          · rw [h1] at h2; cases h2
end

theorem zipWith_any {α β : Type} {f : D → GV → α} {g : α → β} {h : D → β} :
    ∀ (l : List D) (m : List GV), m.length = l.length → (∀ d ∈ l, ∀ z, g (f d z) = h d) →
      (List.zipWith f l m).map g = l.map h
  | [], _, _, _ => by simp
  | d :: l, [], hl, _ => by simp at hl
  | d :: l, z :: m, hl, H => by
    rw [List.zipWith_cons_cons, List.map_cons, List.map_cons, H d List.mem_cons_self,
      zipWith_any l m (by simpa using hl) fun d hd => H d (List.mem_cons_of_mem _ hd)]

theorem structless_spelled : ∀ s : S, Structless s → Spelled s
  | .con _ _, _ => by rw [Spelled]; trivial
  | .typ _ _ _, _ => by rw [Spelled]; trivial
  | .olist e _, h => by rw [Spelled]; rw [Structless] at h; exact structless_spelled e h
  | .st _, h => by rw [Structless] at h; exact h.elim

/-- Values without structs are replaced. -/
theorem decodeD_structless (r : Bool) : ∀ (t : GT) (s : S) (d : D) (x : GV), Fits t s → Valid s d →
    Structless s → (decodeD r t d x).1 = rep t d
  | .ptr t, s, d, x, hf, hv, hs => by
    rw [Fits] at hf
    rw [decodeD, rep]
    dsimp only
    rw [decodeD_structless r t s d _ hf hv hs]
  | .scal k m, s, d, x, hf, hv, hs => by
    rcases fits_scal hf with ⟨c, rfl, hc⟩ | ⟨m', o, rfl, hm⟩
    · rw [Valid] at hv
      subst hv
      rw [decodeD, if_pos ⟨rfl, hc⟩, rep]
    · rw [Valid] at hv
      obtain ⟨c, rfl, hc⟩ := hv
      rw [decodeD, if_pos ⟨rfl, Nat.le_trans hc hm⟩, rep]
  | .slice t, s, d, x, hf, hv, hs => by
    obtain ⟨e, l, rfl, hf⟩ := fits_slice hf
    rw [Valid] at hv
    obtain ⟨l', rfl, hl⟩ := hv
    rw [Structless] at hs
    rw [decodeD, rep]
    dsimp only
    rw [zipWith_any l' _ (slots_length _ _ _ _)
      fun d hd z => decodeD_structless r t e d z hf (hl d hd) hs]
  | .st gs, s, d, x, hf, hv, hs => by
    obtain ⟨fs, rfl, hf⟩ := fits_st hf
    rw [Structless] at hs
    exact hs.elim

theorem reachedF_decl : ∀ {fs : SF} {n : Str} {o : Bool} {s : S}, ReachedF fs →
    decl fs n = some (o, s) → if o then Spelled s else Reached s
  | .nil, _, _, _, _, h => by cases h
  | .cons m o' s' rest, n, o, s, hw, h => by
    rw [ReachedF] at hw
    rw [decl] at h
    by_cases hm : m = n
    · rw [if_pos hm] at h
      cases h
      exact hw.1
    · rw [if_neg hm] at h
      exact reachedF_decl hw.2 h

mutual
/-- Data decoded over the defaults of the schema. -/
theorem decodeD_over (r : Bool) : ∀ (t : GT) (s : S) (d : D), WFG t → Fits t s → WF s → Valid s d →
    Reached s → (decodeD r t d (repO t (dflt s))).1 = rep t (fill s d)
  | .ptr t, s, d, hg, hf, hw, hv, hr => by
    rw [Fits] at hf
    rw [WFG] at hg
    rw [decodeD, rep]
    dsimp only
    rw [← decodeD_over r t s d hg hf hw hv hr]
    cases dflt s with
    | none => rw [repO, repO, zero]; rfl
    | some d' => rw [repO_ptr]; rfl
  | .scal k m, s, d, hg, hf, hw, hv, hr => by
    have h1 : Structless s := by
      rcases fits_scal hf with ⟨c, rfl, hc⟩ | ⟨m', o, rfl, hm⟩ <;> rw [Structless] <;> simp
    rw [decodeD_structless r _ s d _ hf hv h1, spelled_rep _ s d hf hw hv (structless_spelled s h1)]
  | .slice t, s, d, hg, hf, hw, hv, hr => by
    have hf0 := hf
    obtain ⟨e, l, rfl, hf⟩ := fits_slice hf
    rw [Reached] at hr
    rw [spelled_rep _ _ d hf0 hw hv (by rw [Spelled]; exact hr.1)]
    rcases hr.2 with rfl | hs
    · rw [Valid] at hv
      obtain ⟨l', rfl, hl⟩ := hv
      rw [WFG] at hg
      rw [decodeD, rep, dflt, repO, rep]
      dsimp only [GV.elems]
      rw [slots, if_neg (by simp), zipWith_replicate l' fun d hd => decodeD_zero r t e d hg hf (hl d hd)]
    · exact decodeD_structless r _ _ d _ hf0 hv (by rw [Structless]; exact hs)
  | .st gs, s, d, hg, hf, hw, hv, hr => by
    obtain ⟨fs, rfl, hf⟩ := fits_st hf
    rw [WFG] at hg
    rw [Valid] at hv
    obtain ⟨ds, rfl, hk, hd⟩ := hv
    rw [WF] at hw
    rw [Reached] at hr
    rw [decodeD, dflt, repO, rep, fill, rep]
    dsimp only
    congr 1
    exact decodeDF_over r gs fs ds _ hg.1 hg.2 hf hw.1 hw.2 hd hr fun n t h => by
      rw [GV.field, repF_lookup h]
theorem decodeDF_over (r : Bool) : ∀ (gs : GF) (fs : SF) (ds : List (Str × D)) (x : GV),
    (gnames gs).Nodup → WFGF gs → FitsF gs fs → (names fs).Nodup → WFF fs → ValidF fs ds →
    ReachedF fs →
    (∀ n t, goField gs n = some t → x.field n = some (repO t ((dfltF fs).lookup n))) →
    (decodeDF r gs ds x).1 = repF gs (fillF fs ds)
  | .nil, _, _, _, _, _, _, _, _, _, _, _ => by rw [decodeDF, repF]
  | .cons n t rest, fs, ds, x, hn, hg, hf, hd, hw, hv, hr, hx => by
    rw [FitsF] at hf
    rw [WFGF] at hg
    rw [decodeDF, repF]
    dsimp only
    rw [decodeDF_over r rest fs ds x (List.nodup_cons.1 hn).2 hg.2 hf.2 hd hw hv hr
      fun m t' h => hx m t' (goField_cons hn h)]
    rw [hx n t (by rw [goField, if_pos rfl])]
    obtain ⟨o, s, hs, hs'⟩ := hf.1
    have h1 := validF_decl hv hs
    have h2 := reachedF_decl hr hs
    rw [dfltF_eq, fillF_lookup hd, fillF_lookup hd, hs, filled, filled, List.lookup]
    dsimp only [Option.getD]
    cases h : ds.lookup n with
    | some d =>
      rw [h] at h1
      dsimp only
      cases o with
      | true =>
        rw [if_pos rfl, repO, decodeD_zero r t s d hg.1 hs' h1,
          spelled_rep t s d hs' (wff_decl hw hs) h1 h2]
      | false =>
        rw [if_neg (by simp), decodeD_over r t s d hg.1 hs' (wff_decl hw hs) h1 h2]
    | none =>
      dsimp only
      cases o with
      | true => rfl
      | false => rw [if_neg (by simp)]; cases dflt s <;> rfl
end

theorem fitsF_field : ∀ {gs : GF} {fs : SF} {n : Str} {t : GT} {o : Bool} {s : S}, FitsF gs fs →
    goField gs n = some t → decl fs n = some (o, s) → Fits t s
  | .nil, _, _, _, _, _, _, h, _ => by cases h
  | .cons m t' rest, fs, n, t, o, s, hf, h, hd => by
    rw [FitsF] at hf
    rw [goField] at h
    by_cases hm : m = n
    · subst hm
      rw [if_pos rfl] at h
      cases h
      obtain ⟨o', s', hd', hs⟩ := hf.1
      rw [hd] at hd'
      cases hd'
      exact hs
    · rw [if_neg hm] at h
      exact fitsF_field hf.2 h hd

end Thema.Lemmas.Typed

import Verif.Props.Hydrate
import Verif.Lemmas.Bind
import Verif.Spec.HydrateSem
import Mathlib.Data.List.Dedup
import Mathlib.Order.PropInstances

/-!
# Hydrating and dehydrating against the schema itself
-/

namespace Thema.Props

open Thema Thema.Hydrate Thema.Spec.Hydrate

variable {V D : Type} [SemilatticeInf D] {H : HCue V} {m : V → D} {at_ : Str → D → D}
  {lst : List D → D} {all : D → D} {K : V → Prop}

theorem at_mono (hl : Means H m at_ lst all K) {l : Str} {a b : D} (h : a ≤ b) :
    at_ l a ≤ at_ l b := by
  have := hl.atInf l a b
  rw [inf_eq_left.2 h] at this
  rw [this]
  exact inf_le_right

/-- The loop over fields only makes the data more specific. -/
theorem hydrateFields_le (hl : Means H m at_ lst all K) {rec : V → V → Res V} :
    ∀ (fs : List (Str × V × Bool)) (data r : V), hydrateFields H rec fs data = .ok r →
      m r ≤ m data := by
  intro fs
  induction fs with
  | nil => intro data r h; cases h; exact le_refl _
  | cons f fs ih =>
    intro data r h
    obtain ⟨l, v, opt⟩ := f
    simp only [hydrateFields] at h
    split at h
    · split at h
      · exact (ih _ _ h).trans (by rw [hl.fill]; exact inf_le_left)
      · exact ih _ _ h
      · cases h
      · cases h
    · split at h
      · exact ih _ _ h
      · exact (ih _ _ h).trans (by rw [hl.fill]; exact inf_le_left)

/-- Unless lists are made anew, hydration only makes the data more specific. -/
theorem doHydrate_le (hl : Means H m at_ lst all K) {n : Nat} {sch data r : V}
    (h : doHydrate H n sch data = .ok r) (hk : H.kind sch ≠ .list ∨ H.anyIdx sch = none) :
    m r ≤ m data := by
  cases n with
  | zero => cases h
  | succ n =>
    simp only [doHydrate] at h
    split at h
    · rename_i hkind
      rcases hk with hk | hk
      · exact absurd hkind hk
      · rw [hk] at h
        cases h
        rw [hl.unify]; exact inf_le_left
    · split at h
      · cases h
      · exact hydrateFields_le hl _ _ _ h
    · cases h
      rw [hl.unify]; exact inf_le_left

/-- The loop over fields adds nothing that the schema does not say. -/
theorem hydrateFields_ge (hl : Means H m at_ lst all K) {rec : V → V → Res V} {sch : V}
    {c : D} (hcs : c ≤ m sch) {all_ : List (Str × V × Bool)} (ha : H.fields sch = some all_)
    {orig : V}
    (hrec : ∀ l v opt lv r, (l, v, opt) ∈ all_ → H.lookup orig l = some lv → rec lv v = .ok r →
      m v ⊓ m lv ≤ m r) :
    ∀ (fs : List (Str × V × Bool)) (data r : V), (∀ f ∈ fs, f ∈ all_) → (fs.map (·.1)).Nodup →
      (∀ f ∈ fs, H.lookup data f.1 = H.lookup orig f.1) →
      c ≤ m data → hydrateFields H rec fs data = .ok r → c ≤ m r := by
  intro fs
  induction fs with
  | nil => intro data r _ _ _ hc h; cases h; exact hc
  | cons f fs ih =>
    intro data r hsub hnd hlk hc h
    obtain ⟨l, v, opt⟩ := f
    simp only [List.map_cons, List.nodup_cons] at hnd
    have hm : (l, v, opt) ∈ all_ := hsub _ (by simp)
    have hne : ∀ f ∈ fs, f.1 ≠ l := fun f hf e => hnd.1 (e ▸ List.mem_map_of_mem hf)
    have hfill : ∀ x, c ≤ m (H.fill data l x) →
        hydrateFields H rec fs (H.fill data l x) = .ok r → c ≤ m r := fun x hx hh =>
      ih _ _ (fun f hf => hsub f (by simp [hf])) hnd.2
        (fun f hf => by
          rw [hl.fillOther _ _ _ _ (hne f hf)]
          exact hlk f (by simp [hf])) hx hh
    have hstay : hydrateFields H rec fs data = .ok r → c ≤ m r := fun hh =>
      ih _ _ (fun f hf => hsub f (by simp [hf])) hnd.2 (fun f hf => hlk f (by simp [hf])) hc hh
    simp only [hydrateFields] at h
    split at h
    · rename_i lv hlv
      have hv : c ≤ at_ l (m v) := by
        cases opt with
        | false => exact hcs.trans (hl.regular _ _ _ _ ha hm)
        | true => exact (le_inf hcs hc).trans (hl.optional _ _ _ _ _ _ ha hm hlv)
      split at h
      · rename_i res hres
        refine hfill _ ?_ h
        rw [hl.fill]
        refine le_inf hc ?_
        have h1 : c ≤ at_ l (m v ⊓ m lv) := by
          rw [hl.atInf]
          exact le_inf hv (hc.trans (hl.lookup _ _ _ hlv))
        refine h1.trans (at_mono hl (hrec l v opt lv res hm ?_ hres))
        exact (hlk (l, v, opt) (by simp)).symm.trans hlv
      · exact hstay h
      · cases h
      · cases h
    · cases opt with
      | true => exact hstay h
      | false =>
        refine hfill _ ?_ h
        rw [hl.fill, hl.eval]
        exact le_inf hc (hcs.trans (hl.regular _ _ _ _ ha hm))

theorem hydrateElems_ge {rec : V → V → Res V} {ele : V}
    (hor : H.isOr ele = false) (xs : List V) :
    (∀ x ∈ xs, ∀ r, rec x ele = .ok r → m ele ⊓ m x ≤ m r) →
    (∀ x ∈ xs, ∀ e, rec x ele ≠ .err e) → ∀ l, hydrateElems H rec ele xs = .ok l →
      List.Forall₂ (· ≤ ·) (xs.map fun x => m x ⊓ m ele) (l.map m) := by
  induction xs with
  | nil => intro _ _ l h; cases h; exact .nil
  | cons x xs ih =>
    intro h1 h2 l h
    have hb : getBranch H ele x = .ok ele := by simp [getBranch, hor]
    simp only [hydrateElems, hb, Res.bind_ok] at h
    split at h
    · rename_i re hre
      obtain ⟨l', h3, h4⟩ := Res.map_eq_ok.1 h
      subst h4
      refine .cons ?_ (ih (fun y hy => h1 y (by simp [hy])) (fun y hy => h2 y (by simp [hy])) _ h3)
      show m x ⊓ m ele ≤ m re
      rw [inf_comm]
      exact h1 x (by simp) _ hre
    · rename_i e he
      exact absurd he (h2 x (by simp) e)
    · cases h
    · cases h

/-- Errors do not occur. -/
theorem doHydrate_no_err (hp : Plain H) (n : Nat) : ∀ sch data e, doHydrate H n sch data ≠ .err e := by
  induction n with
  | zero => intro _ _ _ h; cases h
  | succ n ih =>
    have hfields : ∀ fs data e, hydrateFields H (doHydrate H n) fs data ≠ .err e := by
      intro fs
      induction fs with
      | nil => intro _ _ h; cases h
      | cons f fs ihf =>
        intro data e h
        obtain ⟨l, v, opt⟩ := f
        simp only [hydrateFields] at h
        split at h
        · split at h
          · exact ihf _ _ h
          · exact ihf _ _ h
          · cases h
          · cases h
        · split at h
          · exact ihf _ _ h
          · exact ihf _ _ h
    intro sch data e h
    simp only [doHydrate] at h
    split at h
    · split at h
      · rename_i ele hele
        split at h
        · cases h
        · split at h
          · cases h
          · rename_i xs _
            have hel : ∀ xs e, hydrateElems H (doHydrate H n) ele xs ≠ .err e := by
              intro xs
              induction xs with
              | nil => intro _ h; cases h
              | cons x xs ihx =>
                intro e h
                have hb : getBranch H ele x = .ok ele := by simp [getBranch, hp.branch _ _ hele]
                simp only [hydrateElems, hb, Res.bind_ok] at h
                split at h
                · cases hh : hydrateElems H (doHydrate H n) ele xs with
                  | err e' => exact ihx _ hh
                  | ok _ => rw [hh] at h; cases h
                  | panic _ => rw [hh] at h; cases h
                  | fuel => rw [hh] at h; cases h
                · exact ihx _ h
                · cases h
                · cases h
            cases hh : hydrateElems H (doHydrate H n) ele xs with
            | err e' => exact hel _ _ hh
            | ok l => rw [hh, Res.bind_ok] at h; simp [hp.newList] at h
            | panic _ => rw [hh] at h; cases h
            | fuel => rw [hh] at h; cases h
      · cases h
    · rename_i hk
      split at h
      · rename_i hn
        exact hp.fields _ hk hn
      · exact hfields _ _ _ h
    · cases h

theorem doHydrate_ge (hl : Means H m at_ lst all K) (hp : Plain H) (n : Nat) :
    ∀ sch data r, K sch ∨ K data → doHydrate H n sch data = .ok r → m data ⊓ m sch ≤ m r := by
  induction n with
  | zero => intro _ _ _ _ h; cases h
  | succ n ih =>
    intro sch data r hk h
    simp only [doHydrate] at h
    split at h
    · split at h
      · rename_i ele hele
        have hK : K data := hk.resolve_left fun hs => by
          rw [hl.dataAnyIdx _ hs] at hele; cases hele
        split at h
        · cases h
        · split at h
          · cases h
          · rename_i xs hxs
            obtain ⟨l, h1, h2⟩ := Res.bind_eq_ok.1 h
            simp only [hp.newList, Bool.false_eq_true, if_false] at h2
            cases h2
            rw [hl.newList, hl.elems _ _ hK hxs]
            refine (inf_le_inf_left _ (hl.anyIdx _ _ hele)).trans ((hl.lstAll _ _).trans ?_)
            refine hl.lstMono _ _ ?_
            rw [List.map_map]
            exact hydrateElems_ge (hp.branch _ _ hele) xs
              (fun x hx r hr => ih _ _ _ (.inl (hl.dataElems _ _ _ hK hxs hx)) hr)
              (fun x _ e => doHydrate_no_err hp n _ _ _) _ h1
      · cases h
        rw [hl.unify]
    · rename_i hks
      split at h
      · cases h
      · rename_i fs hfs
        refine hydrateFields_ge (orig := data) hl inf_le_right hfs ?_ fs data r (fun _ h => h)
          (hl.labels _ _ hfs) (fun _ _ => rfl) inf_le_left h
        intro l v opt lv r' hm hlv hr
        refine ih _ _ _ ?_ hr
        rcases hk with hk | hk
        · exact .inr (hl.dataFields _ _ _ hk hfs hm)
        · exact .inl (hl.dataLookup _ _ _ hk hlv)
    · cases h
      rw [hl.unify]

theorem hydrateFields_has (hl : Means H m at_ lst all K) {rec : V → V → Res V}
    (hrec : ∀ lv v r, rec lv v = .ok r → K lv → m r ≤ m v) (hne : ∀ a b e, rec a b ≠ .err e)
    {orig : V} (hK : K orig) :
    ∀ (fs : List (Str × V × Bool)) (data r : V), (fs.map (·.1)).Nodup →
      (∀ f ∈ fs, H.lookup data f.1 = H.lookup orig f.1) → hydrateFields H rec fs data = .ok r →
      ∀ l v, (l, v, false) ∈ fs → m r ≤ at_ l (m v) := by
  intro fs
  induction fs with
  | nil => intro _ _ _ _ _ l v h; cases h
  | cons f fs ih =>
    intro data r hnd hlk h
    obtain ⟨l', v', opt⟩ := f
    simp only [List.map_cons, List.nodup_cons] at hnd
    have hne' : ∀ f ∈ fs, f.1 ≠ l' := fun f hf e => hnd.1 (e ▸ List.mem_map_of_mem hf)
    have hfill : ∀ x, hydrateFields H rec fs (H.fill data l' x) = .ok r →
        m r ≤ at_ l' (m x) ∧ ∀ l v, (l, v, false) ∈ fs → m r ≤ at_ l (m v) := by
      intro x hh
      refine ⟨(hydrateFields_le hl _ _ _ hh).trans (by rw [hl.fill]; exact inf_le_right), ?_⟩
      refine ih _ _ hnd.2 (fun f hf => ?_) hh
      rw [hl.fillOther _ _ _ _ (hne' f hf)]
      exact hlk f (by simp [hf])
    simp only [hydrateFields] at h
    intro l v hm
    split at h
    · rename_i lv hlv
      split at h
      · rename_i res hres
        obtain ⟨a, b⟩ := hfill _ h
        rcases List.mem_cons.1 hm with hm | hm
        · cases hm
          refine a.trans (at_mono hl (hrec _ _ _ hres (hl.dataLookup orig _ _ hK
            ((hlk (l', v', false) (by simp)).symm.trans hlv))))
        · exact b _ _ hm
      · rename_i e he
        exact absurd he (hne _ _ _)
      · cases h
      · cases h
    · split at h
      · rcases List.mem_cons.1 hm with hm | hm
        · cases hm; simp_all
        · exact ih _ _ hnd.2 (fun f hf => hlk f (by simp [hf])) h _ _ hm
      · obtain ⟨a, b⟩ := hfill _ h
        rcases List.mem_cons.1 hm with hm | hm
        · cases hm
          rw [hl.eval] at a
          exact a
        · exact b _ _ hm

/-! ### C147 -/

/-- **C147** (part), hydration.  Run against a schema (rather than against its `#SchemaDef`, see C66),
hydration yields something that says all that the data says, and for every field that is not optional
what the schema says about it, and no more than data and schema together.  So both have the same
meaning under the schema. -/
theorem C147_hydrated_partial (hl : Means H m at_ lst all K) (hp : Plain H) {n : Nat} {sch data r : V}
    {fs : List (Str × V × Bool)} (hk : H.kind sch = .struct) (hfs : H.fields sch = some fs)
    (hK : K data) (h : doHydrate H n sch data = .ok r) :
    m r ≤ m data ∧ (∀ l v, (l, v, false) ∈ fs → m r ≤ at_ l (m v)) ∧ m data ⊓ m sch ≤ m r ∧
      m r ⊓ m sch = m data ⊓ m sch := by
  have h1 : m r ≤ m data := doHydrate_le hl h (.inl (by rw [hk]; simp))
  have h2 := doHydrate_ge hl hp n _ _ _ (.inr hK) h
  refine ⟨h1, ?_, h2, le_antisymm (inf_le_inf_right _ h1) (le_inf h2 inf_le_right)⟩
  cases n with
  | zero => cases h
  | succ n =>
    simp only [doHydrate, hk, hfs] at h
    exact hydrateFields_has hl
      (fun lv v r hr hlv => doHydrate_le hl hr (.inr (hl.dataAnyIdx _ hlv)))
      (doHydrate_no_err hp n) hK fs data r (hl.labels _ _ hfs) (fun _ _ => rfl) h

theorem dehydrateFields_ge (hl : Means H m at_ lst all K) {rec : V → V → Res (V × Bool)} {sch data : V}
    {c : D} (hcs : c ≤ m sch) (hcd : c ≤ m data) {all_ : List (Str × V × Bool)}
    (ha : H.fields sch = some all_)
    (hrec : ∀ l v opt lv r, (l, v, opt) ∈ all_ → H.lookup data l = some lv →
      rec v lv = .ok (r, false) → m lv ⊓ m v ≤ m r) :
    ∀ (fs : List (Str × V × Bool)) (rv r : V), (∀ f ∈ fs, f ∈ all_) →
      c ≤ m rv → dehydrateFields H rec data fs rv = .ok r → c ≤ m r := by
  intro fs
  induction fs with
  | nil => intro rv r _ hc h; cases h; exact hc
  | cons f fs ih =>
    intro rv r hsub hc h
    obtain ⟨l, v, opt⟩ := f
    have hm : (l, v, opt) ∈ all_ := hsub _ (by simp)
    have hs' : ∀ f ∈ fs, f ∈ all_ := fun f hf => hsub f (by simp [hf])
    simp only [dehydrateFields] at h
    split at h
    · exact ih _ _ hs' hc h
    · rename_i lv hlv
      split at h
      · rename_i re hre
        refine ih _ _ hs' ?_ h
        rw [hl.fill]
        refine le_inf hc ((?_ : c ≤ at_ l (m lv ⊓ m v)).trans (at_mono hl (hrec _ _ _ _ _ hm hlv hre)))
        rw [hl.atInf]
        refine le_inf (hcd.trans (hl.lookup _ _ _ hlv)) ?_
        cases opt with
        | false => exact hcs.trans (hl.regular _ _ _ _ ha hm)
        | true => exact (le_inf hcs hcd).trans (hl.optional _ _ _ _ _ _ ha hm hlv)
      · exact ih _ _ hs' hc h
      · exact ih _ _ hs' hc h
      · cases h
      · cases h

theorem copyOthers_ge (hl : Means H m at_ lst all K) {labels : List Str} {data : V} {c : D}
    (hcd : c ≤ m data) :
    ∀ (fs : List (Str × V)) (rv : V), (∀ f ∈ fs, f ∈ H.regular data) → c ≤ m rv →
      c ≤ m (copyOthers H labels fs rv) := by
  intro fs
  induction fs with
  | nil => intro rv _ hc; exact hc
  | cons f fs ih =>
    intro rv hsub hc
    obtain ⟨l, v⟩ := f
    simp only [copyOthers]
    refine ih _ (fun f hf => hsub f (by simp [hf])) ?_
    split
    · exact hc
    · rw [hl.fill]
      exact le_inf hc (hcd.trans (hl.regularFields _ _ _ (hsub _ (by simp))))

theorem dehydrateElems_ge {rec : V → V → Res (V × Bool)} {ele : V}
    (hor : H.isOr ele = false) (xs : List V) :
    (∀ x ∈ xs, ∀ r, rec ele x = .ok (r, false) → m x ⊓ m ele ≤ m r) →
    ∀ l, dehydrateElems H rec ele xs = .ok l →
      List.Forall₂ (· ≤ ·) (xs.map fun x => m x ⊓ m ele) (l.map m) := by
  induction xs with
  | nil => intro _ l h; cases h; exact .nil
  | cons x xs ih =>
    intro h1 l h
    have hb : getBranch H ele x = .ok ele := by simp [getBranch, hor]
    simp only [dehydrateElems, hb] at h
    have keep : (dehydrateElems H rec ele xs).map (x :: ·) = .ok l →
        List.Forall₂ (· ≤ ·) ((x :: xs).map fun x => m x ⊓ m ele) (l.map m) := by
      intro h
      obtain ⟨l', h3, h4⟩ := Res.map_eq_ok.1 h
      subst h4
      exact .cons inf_le_left (ih (fun y hy => h1 y (by simp [hy])) _ h3)
    split at h
    · rename_i re hre
      obtain ⟨l', h3, h4⟩ := Res.map_eq_ok.1 h
      subst h4
      exact .cons (h1 x (by simp) _ hre) (ih (fun y hy => h1 y (by simp [hy])) _ h3)
    · exact keep h
    · exact keep h
    · cases h
    · cases h

/-- **C147** (part), dehydration.  What is left says no more than data and schema together. -/
theorem C147_dehydrated_partial (hl : Means H m at_ lst all K) (hp : Plain H) (n : Nat) :
    ∀ sch data r, K data → doDehydrate H n sch data = .ok (r, false) → m data ⊓ m sch ≤ m r := by
  induction n with
  | zero => intro _ _ _ _ h; cases h
  | succ n ih =>
    intro sch data r hK h
    simp only [doDehydrate] at h
    split at h
    · rename_i hk
      obtain ⟨rv, h1, h2⟩ := Res.map_eq_ok.1 h
      cases h2
      obtain ⟨fs, hfs⟩ := Option.ne_none_iff_exists'.1 (hp.fields _ hk)
      rw [hfs] at h1
      refine copyOthers_ge hl inf_le_left _ _ (fun _ h => h) ?_
      exact dehydrateFields_ge hl inf_le_right inf_le_left hfs
        (fun l v opt lv r' _ hlv hr => ih _ _ _ (hl.dataLookup _ _ _ hK hlv) hr) _ _ _
        (fun _ h => h) (inf_le_right.trans (hl.empty _ hk)) h1
    · split at h
      · cases h
      · split at h
        · rename_i ele hele
          split at h
          · cases h
          · split at h
            · cases h
            · rename_i xs hxs
              obtain ⟨l, h1, h2⟩ := Res.bind_eq_ok.1 h
              simp only [hp.newList, Bool.false_eq_true, if_false] at h2
              cases h2
              rw [hl.newList, hl.elems _ _ hK hxs]
              refine (inf_le_inf_left _ (hl.anyIdx _ _ hele)).trans ((hl.lstAll _ _).trans ?_)
              refine hl.lstMono _ _ ?_
              rw [List.map_map]
              exact dehydrateElems_ge (hp.branch _ _ hele) xs
                (fun x hx r hr => ih _ _ _ (hl.dataElems _ _ _ hK hxs hx) hr) _ h1
        · cases h
          exact inf_le_left
    · split at h
      · cases h
      · cases h
        exact inf_le_left

theorem getDefault_iff {v d : V} : getDefault H v = some d ↔ DefaultOf H v d := by
  unfold getDefault DefaultOf
  cases hd : H.dflt v with
  | none => simp
  | some e =>
    simp only [Option.some.injEq]
    cases hli : H.isList e with
    | false =>
      simp only [Bool.false_eq_true, if_false, Option.some.injEq]
      constructor
      · rintro rfl; exact ⟨rfl, by simp [hli]⟩
      · exact fun h => h.1
    | true =>
      simp only [if_true]
      cases hlen : H.len e with
      | none =>
        simp only [reduceCtorEq, false_iff, not_and]
        rintro rfl h
        obtain ⟨n, h, _⟩ := h hli
        rw [hlen] at h; cases h
      | some k =>
        simp only
        by_cases hk : k ≤ 0
        · simp only [hk, if_true]
          cases hor : H.isOr v with
          | false =>
            simp only [Bool.false_eq_true, if_false, reduceCtorEq, false_iff, not_and]
            rintro rfl h
            obtain ⟨n, h, h'⟩ := h hli
            rw [hlen] at h; cases h
            exact absurd (h' hk).1 (by simp)
          | true =>
            simp only [if_true]
            split
            · rename_i ha
              simp only [List.any_eq_true, Bool.and_eq_true, decide_eq_true_eq] at ha
              simp only [Option.some.injEq]
              constructor
              · rintro rfl; exact ⟨rfl, fun _ => ⟨k, hlen, fun _ => ⟨trivial, ha⟩⟩⟩
              · exact fun h => h.1
            · rename_i ha
              simp only [List.any_eq_true, Bool.and_eq_true, decide_eq_true_eq] at ha
              simp only [reduceCtorEq, false_iff, not_and]
              rintro rfl h
              obtain ⟨n, h, h'⟩ := h hli
              rw [hlen] at h; cases h
              exact ha (h' hk).2
        · simp only [hk, if_false, Option.some.injEq]
          constructor
          · rintro rfl; exact ⟨rfl, fun _ => ⟨k, hlen, fun h => absurd h hk⟩⟩
          · exact fun h => h.1

theorem isCueValueEqual_iff {v x : V} : isCueValueEqual H v x = true ↔ IsDefault H v x := by
  unfold isCueValueEqual IsDefault
  cases hd : getDefault H v with
  | none =>
    simp only [Bool.false_eq_true, false_iff, not_exists, not_and]
    intro d h
    rw [getDefault_iff.2 h] at hd; cases hd
  | some d =>
    simp only [Bool.and_eq_true]
    constructor
    · exact fun h => ⟨d, getDefault_iff.1 hd, h⟩
    · rintro ⟨e, h, h'⟩
      rw [getDefault_iff.2 h] at hd; cases hd
      exact h'

variable {St : V → Prop}

theorem copyOthers_kept (hl : FillLaws H St) {labels : List Str} {k : Str} (hk : k ∈ labels) :
    ∀ (fs : List (Str × V)) (d : V), St d →
      H.lookup (copyOthers H labels fs d) k = H.lookup d k := by
  intro fs
  induction fs with
  | nil => intro d _; rfl
  | cons f fs ih =>
    intro d hd
    obtain ⟨l, v⟩ := f
    simp only [copyOthers]
    split
    · exact ih d hd
    · rename_i hll
      have hne : k ≠ l := fun e => hll (e ▸ hk)
      rw [ih _ (hl.fillSt _ _ _ hd), hl.other _ _ _ _ hd hne]

theorem dehydrateFields_lookup (hl : FillLaws H St) {rec : V → V → Res (V × Bool)} {data : V} :
    ∀ (fs : List (Str × V × Bool)) (d r : V), St d → (fs.map (·.1)).Nodup →
      (∀ f ∈ fs, H.lookup d f.1 = none) → dehydrateFields H rec data fs d = .ok r →
      ∀ l v opt, (l, v, opt) ∈ fs → ∀ lv, H.lookup data l = some lv →
        (∀ re, rec v lv = .ok (re, false) → H.lookup r l = some re) ∧
        ((∃ re, rec v lv = .ok (re, true)) ∨ (∃ e, rec v lv = .err e) → H.lookup r l = none) ∧
        (∀ k, rec v lv ≠ .panic k) ∧ rec v lv ≠ .fuel := by
  intro fs
  induction fs with
  | nil => intro _ _ _ _ _ _ l v opt h; cases h
  | cons f fs ih =>
    intro d r hd hnd hno h l v opt hm lv hlv
    obtain ⟨l', v', opt'⟩ := f
    simp only [List.map_cons, List.nodup_cons] at hnd
    simp only [dehydrateFields] at h
    have hno' : ∀ f ∈ fs, H.lookup d f.1 = none := fun f hf => hno f (by simp [hf])
    have hfill : ∀ x, ∀ f ∈ fs, H.lookup (H.fill d l' x) f.1 = none := fun x f hf => by
      have hne : f.1 ≠ l' := fun e => hnd.1 (e ▸ List.mem_map_of_mem hf)
      rw [hl.other _ _ _ _ hd hne]
      exact hno' f hf
    have hl0 : H.lookup d l' = none := hno (l', v', opt') (by simp)
    rcases List.mem_cons.1 hm with hm | hm
    · cases hm
      rw [hlv] at h
      simp only at h
      split at h
      · rename_i re hre
        rw [(dehydrateFields_other hl (hl.fillSt _ _ _ hd) h).2 _ hnd.1, hl.same _ _ _ hd hl0, hre]
        simp
      · rename_i re hre
        rw [(dehydrateFields_other hl hd h).2 _ hnd.1, hl0, hre]
        simp
      · rename_i e he
        rw [(dehydrateFields_other hl hd h).2 _ hnd.1, hl0, he]
        simp
      · cases h
      · cases h
    · split at h
      · exact ih _ _ hd hnd.2 hno' h _ _ _ hm _ hlv
      · split at h
        · exact ih _ _ (hl.fillSt _ _ _ hd) hnd.2 (hfill _) h _ _ _ hm _ hlv
        · exact ih _ _ hd hnd.2 hno' h _ _ _ hm _ hlv
        · exact ih _ _ hd hnd.2 hno' h _ _ _ hm _ hlv
        · cases h
        · cases h

/-- The fields of dehydrated structs. -/
theorem dehydrate_struct (hl : FillLaws H St) {n : Nat} {sch data r : V} {b : Bool}
    {fs : List (Str × V × Bool)} (hk : H.kind sch = .struct) (hfs : H.fields sch = some fs)
    (hnd : (fs.map (·.1)).Nodup) (hd : St data) (h : doDehydrate H (n + 1) sch data = .ok (r, b)) :
    b = false ∧ (∀ k, k ∉ fs.map (·.1) → H.lookup r k = H.lookup data k) ∧
      ∀ l v opt, (l, v, opt) ∈ fs → (H.lookup data l = none → H.lookup r l = none) ∧
        ∀ lv, H.lookup data l = some lv →
          (∀ re, doDehydrate H n v lv = .ok (re, false) → H.lookup r l = some re) ∧
          ((∃ re, doDehydrate H n v lv = .ok (re, true)) ∨ (∃ e, doDehydrate H n v lv = .err e) →
            H.lookup r l = none) ∧
          (∀ k, doDehydrate H n v lv ≠ .panic k) ∧ doDehydrate H n v lv ≠ .fuel := by
  simp only [doDehydrate, hk, hfs, Option.getD_some] at h
  obtain ⟨rv, h1, h2⟩ := Res.map_eq_ok.1 h
  cases h2
  obtain ⟨a1, a2⟩ := dehydrateFields_other hl hl.emptySt h1
  obtain ⟨r1, r2⟩ := hl.regular data hd
  refine ⟨rfl, ?_, ?_⟩
  · intro k hk'
    have := copyOthers_lookup hl (labels := fs.map (·.1)) a1 r2
      (fun k _ hk => by rw [a2 k hk, hl.emptyLookup]) k hk'
    refine this.trans ?_
    cases hlk : (H.regular data).lookup k with
    | some x =>
      have hm : (k, x) ∈ H.regular data := by
        have h0 := hlk
        rw [List.lookup_eq_some_iff] at h0
        obtain ⟨l1, l2, he, _⟩ := h0
        rw [he]; simp
      exact ((r1 k x).1 hm).symm
    | none =>
      simp only
      rw [a2 k hk', hl.emptyLookup]
      cases hx : H.lookup data k with
      | none => rfl
      | some x =>
        have hm := (r1 k x).2 hx
        rw [List.lookup_eq_none_iff] at hlk
        exact absurd (hlk _ hm) (by simp)
  · intro l v opt hm
    rw [copyOthers_kept hl (List.mem_map_of_mem hm) _ _ a1]
    constructor
    · intro hno
      have key : ∀ (gs : List (Str × V × Bool)) (d r : V), St d → H.lookup d l = none →
          dehydrateFields H (doDehydrate H n) data gs d = .ok r → H.lookup r l = none := by
        intro gs
        induction gs with
        | nil => intro d r _ h0 h; cases h; exact h0
        | cons g gs ih =>
          intro d r hd h0 h
          obtain ⟨l', v', o'⟩ := g
          simp only [dehydrateFields] at h
          split at h
          · exact ih _ _ hd h0 h
          · rename_i lv hlv
            have hne : l ≠ l' := fun e => by rw [e, hlv] at hno; cases hno
            split at h
            · exact ih _ _ (hl.fillSt _ _ _ hd) (by rw [hl.other _ _ _ _ hd hne]; exact h0) h
            · exact ih _ _ hd h0 h
            · exact ih _ _ hd h0 h
            · cases h
            · cases h
      exact key _ _ _ hl.emptySt (hl.emptyLookup _) h1
    · intro lv hlv
      exact dehydrateFields_lookup hl fs _ _ hl.emptySt hnd (fun _ _ => hl.emptyLookup _) h1
        l v opt hm lv hlv

theorem doDehydrate_other {n : Nat} {v lv : V} (hk : H.kind v ≠ .struct) (hk' : H.kind v ≠ .list) :
    doDehydrate H (n + 1) v lv = .ok (lv, isCueValueEqual H v lv) := by
  cases he : isCueValueEqual H v lv <;> cases hh : H.kind v <;> simp_all [doDehydrate]

/-- **C147** (part), which fields dehydration removes.  Run against a schema, it keeps fields that the
schema does not have, adds none, and of the others removes those - and, other than lists, only
those - that are equal to the default in the schema; what it keeps of scalars is unchanged, and structs
are dehydrated in turn. -/
theorem C147_removed_fields (hl : FillLaws H St) {n : Nat} {sch data r : V} {b : Bool}
    {fs : List (Str × V × Bool)} (hk : H.kind sch = .struct) (hfs : H.fields sch = some fs)
    (hnd : (fs.map (·.1)).Nodup) (hd : St data) (h : doDehydrate H (n + 2) sch data = .ok (r, b)) :
    (∀ k, k ∉ fs.map (·.1) → H.lookup r k = H.lookup data k) ∧
      ∀ l v opt, (l, v, opt) ∈ fs → (H.lookup data l = none → H.lookup r l = none) ∧
        ∀ x, H.lookup data l = some x →
          (H.kind v ≠ .struct → H.kind v ≠ .list →
            (H.lookup r l = none ↔ IsDefault H v x) ∧ (¬ IsDefault H v x → H.lookup r l = some x)) ∧
          (H.kind v = .struct → ∀ y, H.lookup r l = some y →
            doDehydrate H (n + 1) v x = .ok (y, false)) ∧
          (H.kind v = .list → IsDefault H v x → H.lookup r l = none) := by
  obtain ⟨_, h1, h2⟩ := dehydrate_struct hl hk hfs hnd hd h
  refine ⟨h1, fun l v opt hm => ⟨(h2 l v opt hm).1, fun x hx => ?_⟩⟩
  obtain ⟨h3, h4, h5, h6⟩ := (h2 l v opt hm).2 x hx
  refine ⟨?_, ?_, ?_⟩
  · intro hk1 hk2
    have hr := doDehydrate_other (H := H) (n := n) (lv := x) hk1 hk2
    rw [← isCueValueEqual_iff]
    cases he : isCueValueEqual H v x with
    | true =>
      rw [he] at hr
      simp [h4 (.inl ⟨x, hr⟩)]
    | false =>
      rw [he] at hr
      simp [h3 x hr]
  · intro hks y hy
    cases hr : doDehydrate H (n + 1) v x with
    | ok p =>
      obtain ⟨re, eq⟩ := p
      cases eq with
      | false =>
        have := h3 re hr
        rw [hy] at this
        cases this
        rfl
      | true =>
        have := h4 (.inl ⟨re, hr⟩)
        rw [hy] at this; cases this
    | err e =>
      have := h4 (.inr ⟨e, hr⟩)
      rw [hy] at this; cases this
    | panic k => exact absurd hr (h5 k)
    | fuel => exact absurd hr h6
  · intro hkl hdf
    refine h4 (.inl ⟨H.empty, ?_⟩)
    simp [doDehydrate, hkl, isCueValueEqual_iff.2 hdf]

theorem doDehydrate_data (hl : Means H m at_ lst all K) (n : Nat) :
    ∀ sch data r b, K data → doDehydrate H n sch data = .ok (r, b) → K r := by
  induction n with
  | zero => intro _ _ _ _ _ h; cases h
  | succ n ih =>
    intro sch data r b hK h
    simp only [doDehydrate] at h
    split at h
    · obtain ⟨rv, h1, h2⟩ := Res.map_eq_ok.1 h
      cases h2
      have key : ∀ (fs : List (Str × V × Bool)) (d r : V), K d →
          dehydrateFields H (doDehydrate H n) data fs d = .ok r → K r := by
        intro fs
        induction fs with
        | nil => intro d r hd h; cases h; exact hd
        | cons f fs ihf =>
          intro d r hd h
          obtain ⟨l, v, o⟩ := f
          simp only [dehydrateFields] at h
          split at h
          · exact ihf _ _ hd h
          · rename_i lv hlv
            split at h
            · rename_i re hre
              exact ihf _ _ (hl.dataFill _ _ _ hd (ih _ _ _ _ (hl.dataLookup _ _ _ hK hlv) hre)) h
            · exact ihf _ _ hd h
            · exact ihf _ _ hd h
            · cases h
            · cases h
      have key2 : ∀ (fs : List (Str × V)) labels (d : V), (∀ f ∈ fs, f ∈ H.regular data) → K d →
          K (copyOthers H labels fs d) := by
        intro fs labels
        induction fs with
        | nil => intro d _ hd; exact hd
        | cons f fs ihf =>
          intro d hsub hd
          obtain ⟨l, v⟩ := f
          simp only [copyOthers]
          refine ihf _ (fun f hf => hsub f (by simp [hf])) ?_
          split
          · exact hd
          · exact hl.dataFill _ _ _ hd (hl.dataRegular _ _ hK (hsub (l, v) (by simp)))
      exact key2 _ _ _ (fun _ h => h) (key _ _ _ hl.dataEmpty h1)
    · split at h
      · cases h; exact hl.dataEmpty
      · split at h
        · rename_i ele hele
          split at h
          · cases h; exact hl.dataEmpty
          · split at h
            · cases h; exact hl.dataEmpty
            · rename_i xs hxs
              obtain ⟨l, h1, h2⟩ := Res.bind_eq_ok.1 h
              have key : ∀ (xs : List V), (∀ x ∈ xs, K x) → ∀ l,
                  dehydrateElems H (doDehydrate H n) ele xs = .ok l → ∀ x ∈ l, K x := by
                intro xs
                induction xs with
                | nil => intro _ l h; cases h; simp
                | cons x xs ihx =>
                  intro hx l h
                  have tail : ∀ y, K y → (dehydrateElems H (doDehydrate H n) ele xs).map (y :: ·) =
                      .ok l → ∀ x ∈ l, K x := by
                    intro y hy h
                    obtain ⟨l', h3, h4⟩ := Res.map_eq_ok.1 h
                    subst h4
                    intro z hz
                    rcases List.mem_cons.1 hz with rfl | hz
                    · exact hy
                    · exact ihx (fun x hx' => hx x (by simp [hx'])) _ h3 _ hz
                  simp only [dehydrateElems] at h
                  split at h
                  · split at h
                    · rename_i re hre
                      exact tail _ (ih _ _ _ _ (hx x (by simp)) hre) h
                    · exact tail _ (hx x (by simp)) h
                    · exact tail _ (hx x (by simp)) h
                    · cases h
                    · cases h
                  · exact tail _ (hx x (by simp)) h
              split at h2
              · cases h2
              · cases h2
                exact hl.dataNewList _ (key xs (fun x hx => hl.dataElems _ _ _ hK hxs hx) l h1)
        · cases h; exact hK
    · split at h <;> cases h <;> exact hK

/-- **C147** (part), there and back.  After dehydrating and hydrating, each field of the data that is not
described by a struct or list in the schema is still there with its value, or has the value that the
schema gives it, of which it was the default - unless it is an optional field, see
`C147_refuted`. -/
theorem C147_round_trip_partial (hm : Means H m at_ lst all K) (hp : Plain H) (hl : FillLaws H St)
    {n k : Nat} {sch data r r' : V} {b : Bool} {fs : List (Str × V × Bool)}
    (hk : H.kind sch = .struct) (hfs : H.fields sch = some fs) (hd : St data) (hK : K data)
    (h : doDehydrate H (n + 2) sch data = .ok (r, b)) (h' : doHydrate H k sch r = .ok r')
    {l : Str} {x : V} (hx : H.lookup data l = some x)
    (hsc : ∀ v opt, (l, v, opt) ∈ fs → H.kind v ≠ .struct ∧ H.kind v ≠ .list) :
    m r' ≤ at_ l (m x) ∨
      ∃ v opt, (l, v, opt) ∈ fs ∧ IsDefault H v x ∧ (opt = false → m r' ≤ at_ l (m v)) := by
  obtain ⟨h1, h2⟩ := C147_removed_fields hl hk hfs (hm.labels _ _ hfs) hd h
  obtain ⟨g1, g2, _⟩ := C147_hydrated_partial hm hp hk hfs (doDehydrate_data hm _ _ _ _ _ hK h) h'
  by_cases hmem : l ∈ fs.map (·.1)
  · obtain ⟨⟨l', v, opt⟩, hf, rfl⟩ := List.mem_map.1 hmem
    obtain ⟨c1, c2⟩ := hsc v opt hf
    obtain ⟨a1, a2⟩ := ((h2 _ v opt hf).2 x hx).1 c1 c2
    by_cases hdf : IsDefault H v x
    · refine .inr ⟨v, opt, hf, hdf, ?_⟩
      rintro rfl
      exact g2 _ _ hf
    · exact .inl (g1.trans (hm.lookup _ _ _ (a2 hdf)))
  · exact .inl (g1.trans (hm.lookup _ _ _ ((h1 l hmem).trans hx)))

theorem getBranch_ok {ele x ref : V} : getBranch H ele x = .ok ref ↔ BranchOf H ele x ref := by
  unfold getBranch BranchOf
  cases hor : H.isOr ele with
  | false => simp only [Bool.false_eq_true, if_false, Res.ok.injEq, true_and, false_and, or_false]; exact eq_comm
  | true =>
    simp only [if_true, Bool.true_eq_false, false_and, false_or, true_and]
    cases hf : (H.alts ele).find? fun d => H.concrete (H.unify d x) with
    | none =>
      simp only [reduceCtorEq, false_iff, not_exists, not_and]
      rintro pre post he hc
      rw [List.find?_eq_none] at hf
      exact absurd hc (hf ref (by rw [he]; simp))
    | some d =>
      simp only [Res.ok.injEq]
      have hf' := hf
      rw [List.find?_eq_some_iff_append] at hf'
      obtain ⟨h1, as, bs, h2, h3⟩ := hf'
      constructor
      · rintro rfl
        exact ⟨as, bs, h2, h1, fun d hd => by simpa using h3 d hd⟩
      · rintro ⟨pre, post, he, hc, hn⟩
        have hf'' : (H.alts ele).find? (fun d => H.concrete (H.unify d x)) = some ref := by
          rw [List.find?_eq_some_iff_append]
          exact ⟨hc, pre, post, he, fun d hd => by simpa using hn d hd⟩
        rw [hf] at hf''
        exact Option.some.inj hf''

/-- **C147** (part), lists.  A list described by `[...T]` is hydrated element by element: if no element
fails, the result has as many elements, each of which says at least what its description says, and for
scalars exactly what the element and its description say; where `T` is a disjunction, the description
is the first alternative that the element satisfies.  If there is none for some element, hydration of
the list does not succeed. -/
theorem C147_list_elements (hl : Means H m at_ lst all K) {n : Nat} {sch data ele r : V}
    {xs : List V} (hk : H.kind sch = .list) (he : H.anyIdx sch = some ele) (hx : H.elems data = some xs)
    (hK : K data) (hne : ∀ x ∈ xs, ∀ ref e, doHydrate H n x ref ≠ .err e)
    (h : doHydrate H (n + 1) sch data = .ok r) :
    ∃ rs, r = H.newList rs ∧ List.Forall₂
      (fun x y => ∃ ref, BranchOf H ele x ref ∧ m y ≤ m ref ∧
        (H.kind x = .other → m y = m x ⊓ m ref)) xs rs := by
  simp only [doHydrate, hk, he, hx] at h
  split at h
  · cases h
  · obtain ⟨l, h1, h2⟩ := Res.bind_eq_ok.1 h
    split at h2
    · cases h2
    · rename_i herr
      cases h2
      refine ⟨l, rfl, ?_⟩
      clear herr
      have hxK : ∀ x ∈ xs, K x := fun x hx' => hl.dataElems _ _ _ hK hx hx'
      clear hx h
      induction xs generalizing l with
      | nil => cases h1; exact .nil
      | cons x xs ih =>
        simp only [hydrateElems] at h1
        obtain ⟨ref, h3, h4⟩ := Res.bind_eq_ok.1 h1
        split at h4
        · rename_i re hre
          obtain ⟨l', h5, h6⟩ := Res.map_eq_ok.1 h4
          subst h6
          refine .cons ⟨ref, getBranch_ok.1 h3, ?_, ?_⟩ (ih (fun y hy => hne y (by simp [hy])) l' h5
            (fun y hy => hxK y (by simp [hy])))
          · exact doHydrate_le hl hre (.inr (hl.dataAnyIdx _ (hxK x (by simp))))
          · intro ho
            cases n with
            | zero => cases hre
            | succ n =>
              simp only [doHydrate, ho] at hre
              cases hre
              rw [hl.unify, inf_comm]
        · rename_i e he'
          exact absurd he' (hne x (by simp) _ _)
        · cases h4
        · cases h4

/-! ### A concrete evaluator -/

/-- JSON-like data. -/
inductive Doc
  | num (n : Nat)
  | obj (fs : List (Str × Doc))
  | arr (xs : List Doc)

/-- Values as conjunctions.  `dfl n` is `*n | number`. -/
inductive Val
  | top
  | num (n : Nat)
  | dfl (n : Nat)
  | emp
  | fld (l : Str) (v : Val) (opt : Bool)
  | both (a b : Val)
  | lnil
  | lcons (x xs : Val)
  | opn (e : Val)
  deriving DecidableEq

namespace Val

/-- What documents a value accepts. -/
def sat : Val → Doc → Prop
  | top, _ => True
  | num n, j => j = .num n
  | dfl _, j => ∃ n, j = .num n
  | emp, j => ∃ fs, j = .obj fs
  | fld l v false, j => ∃ fs x, j = .obj fs ∧ fs.lookup l = some x ∧ v.sat x
  | fld l v true, j => ∃ fs, j = .obj fs ∧ ∀ x, fs.lookup l = some x → v.sat x
  | both a b, j => a.sat j ∧ b.sat j
  | lnil, j => j = .arr []
  | lcons x xs, j => ∃ y ys, j = .arr (y :: ys) ∧ x.sat y ∧ xs.sat (.arr ys)
  | opn e, j => ∃ ys, j = .arr ys ∧ ∀ y ∈ ys, e.sat y

def meet : Option Val → Option Val → Option Val
  | none, b => b
  | some a, none => some a
  | some a, some b => some (both a b)

/-- The value of a regular field. -/
def get : Val → Str → Option Val
  | fld l v false, k => if k = l then some v else none
  | both a b, k => meet (a.get k) (b.get k)
  | _, _ => none

/-- All that is said about a field. -/
def said : Val → Str → Option Val
  | fld l v _, k => if k = l then some v else none
  | both a b, k => meet (a.said k) (b.said k)
  | _, _ => none

def labels : Val → List Str
  | fld l _ _ => [l]
  | both a b => a.labels ++ b.labels
  | _ => []

def isStruct : Val → Bool
  | emp => true
  | fld _ _ _ => true
  | both a b => a.isStruct || b.isStruct
  | _ => false

def elems : Val → Option (List Val)
  | lnil => some []
  | lcons x xs => (xs.elems).map (x :: ·)
  | _ => none

/-- Concrete data. -/
def conc : Val → Prop
  | num _ => True
  | emp => True
  | fld _ v opt => opt = false ∧ v.conc
  | both a b => a.conc ∧ b.conc
  | lnil => True
  | lcons x xs => x.conc ∧ xs.conc
  | _ => False

end Val

/-- The evaluator. -/
def valCue : HCue Val where
  kind v := if v.isStruct then .struct else match v with
    | .lnil => .list
    | .lcons _ _ => .list
    | .opn _ => .list
    | _ => .other
  fields v := some (v.labels.dedup.map fun l => (l, (v.said l).getD .top, (v.get l).isNone))
  regular v := v.labels.dedup.filterMap fun l => (v.get l).map fun x => (l, x)
  lookup := Val.get
  anyIdx | .opn e => some e
         | _ => none
  elems := Val.elems
  unify := .both
  fill d l v := .both d (.fld l v false)
  eval v := v
  newList xs := xs.foldr .lcons .lnil
  isErr _ := false
  isOr _ := false
  alts v := [v]
  concrete _ := true
  subsume a b := decide (a = b)
  dflt | .dfl n => some (.num n)
       | _ => none
  isList | .lnil => true
         | .lcons _ _ => true
         | _ => false
  len v := v.elems.map fun l => (l.length : Int)
  empty := .emp

theorem valPlain : Plain valCue := ⟨fun _ _ _ => rfl, fun _ _ h => by simp [valCue] at h, fun _ => rfl⟩

/-- A struct with the given field. -/
def atField (l : Str) (p : Doc → Prop) (j : Doc) : Prop :=
  ∃ fs x, j = .obj fs ∧ fs.lookup l = some x ∧ p x

def listOf (ps : List (Doc → Prop)) (j : Doc) : Prop :=
  ∃ ys, j = .arr ys ∧ List.Forall₂ (fun p y => p y) ps ys

def listAll (p : Doc → Prop) (j : Doc) : Prop := ∃ ys, j = .arr ys ∧ ∀ y ∈ ys, p y

theorem val_isStruct {v : Val} (h : v.isStruct = true) {j : Doc} (hj : v.sat j) : ∃ fs, j = .obj fs := by
  induction v generalizing j with
  | emp => exact hj
  | fld l v opt _ =>
    cases opt with
    | false => obtain ⟨fs, _, h, _⟩ := hj; exact ⟨fs, h⟩
    | true => obtain ⟨fs, h, _⟩ := hj; exact ⟨fs, h⟩
  | both a b ha hb =>
    simp only [Val.isStruct, Bool.or_eq_true] at h
    exact h.elim (fun h => ha h hj.1) (fun h => hb h hj.2)
  | _ => simp [Val.isStruct] at h

theorem val_get {v : Val} {l : Str} {x : Val} (h : v.get l = some x) {j : Doc} (hj : v.sat j) :
    atField l x.sat j := by
  induction v generalizing x with
  | fld k v opt _ =>
    cases opt with
    | true => simp [Val.get] at h
    | false =>
      simp only [Val.get] at h
      split at h
      · rename_i e; cases h; subst e; exact hj
      · cases h
  | both a b ha hb =>
    simp only [Val.get] at h
    cases h1 : a.get l with
    | none => rw [h1] at h; exact hb h hj.2
    | some y =>
      cases h2 : b.get l with
      | none => rw [h1, h2] at h; cases h; exact ha h1 hj.1
      | some z =>
        rw [h1, h2] at h; cases h
        obtain ⟨fs, w, e1, e2, e3⟩ := ha h1 hj.1
        obtain ⟨fs', w', e1', e2', e3'⟩ := hb h2 hj.2
        rw [e1] at e1'; cases e1'
        rw [e2] at e2'; cases e2'
        exact ⟨fs, w, e1, e2, e3, e3'⟩
  | _ => simp [Val.get] at h

theorem val_said {v : Val} {l : Str} {x : Val} (h : v.said l = some x) {fs : List (Str × Doc)}
    {w : Doc} (hw : fs.lookup l = some w) (hj : v.sat (.obj fs)) : x.sat w := by
  induction v generalizing x with
  | fld k v opt _ =>
    simp only [Val.said] at h
    split at h
    · rename_i e
      cases h
      subst e
      cases opt with
      | false =>
        obtain ⟨fs', w', e1, e2, e3⟩ := hj
        cases e1
        rw [hw] at e2; cases e2
        exact e3
      | true =>
        obtain ⟨fs', e1, e2⟩ := hj
        cases e1
        exact e2 _ hw
    · cases h
  | both a b ha hb =>
    simp only [Val.said] at h
    cases h1 : a.said l with
    | none => rw [h1] at h; exact hb h hj.2
    | some y =>
      cases h2 : b.said l with
      | none => rw [h1, h2] at h; cases h; exact ha h1 hj.1
      | some z => rw [h1, h2] at h; cases h; exact ⟨ha h1 hj.1, hb h2 hj.2⟩
  | _ => simp [Val.said] at h

theorem val_said_conc {v : Val} (hc : v.conc) {l : Str} {x : Val} (h : v.said l = some x) : x.conc := by
  induction v generalizing x with
  | fld k v opt _ =>
    simp only [Val.said] at h
    split at h
    · cases h; exact hc.2
    · cases h
  | both a b ha hb =>
    simp only [Val.said] at h
    cases h1 : a.said l with
    | none => rw [h1] at h; exact hb hc.2 h
    | some y =>
      cases h2 : b.said l with
      | none => rw [h1, h2] at h; cases h; exact ha hc.1 h1
      | some z => rw [h1, h2] at h; cases h; exact ⟨ha hc.1 h1, hb hc.2 h2⟩
  | _ => simp [Val.said] at h

theorem val_get_conc {v : Val} (hc : v.conc) {l : Str} {x : Val} (h : v.get l = some x) : x.conc := by
  induction v generalizing x with
  | fld k v opt _ =>
    cases opt with
    | true => simp [Val.get] at h
    | false =>
      simp only [Val.get] at h
      split at h
      · cases h; exact hc.2
      · cases h
  | both a b ha hb =>
    simp only [Val.get] at h
    cases h1 : a.get l with
    | none => rw [h1] at h; exact hb hc.2 h
    | some y =>
      cases h2 : b.get l with
      | none => rw [h1, h2] at h; cases h; exact ha hc.1 h1
      | some z => rw [h1, h2] at h; cases h; exact ⟨ha hc.1 h1, hb hc.2 h2⟩
  | _ => simp [Val.get] at h

theorem val_mem_labels {v : Val} {l : Str} : l ∈ v.labels ↔ (v.said l).isSome := by
  induction v with
  | fld k v opt _ =>
    simp only [Val.labels, Val.said, List.mem_singleton]
    split <;> simp_all
  | both a b ha hb =>
    simp only [Val.labels, Val.said, List.mem_append, ha, hb]
    cases a.said l <;> cases b.said l <;> simp [Val.meet]
  | _ => simp [Val.labels, Val.said]

theorem val_get_said {v : Val} {l : Str} (h : (v.get l).isSome) : (v.said l).isSome := by
  induction v with
  | fld k v opt _ =>
    cases opt with
    | true => simp [Val.get] at h
    | false => simpa [Val.get, Val.said] using h
  | both a b ha hb =>
    simp only [Val.get, Val.said] at *
    cases h1 : a.get l with
    | some y =>
      have := ha (by rw [h1]; rfl)
      cases h3 : a.said l with
      | none => rw [h3] at this; cases this
      | some _ => cases b.said l <;> simp [Val.meet]
    | none =>
      rw [h1] at h
      have := hb (by simpa [Val.meet] using h)
      cases h3 : b.said l with
      | none => rw [h3] at this; cases this
      | some _ => cases a.said l <;> simp [Val.meet]
  | _ => simp [Val.get] at h

theorem val_elems {v : Val} {xs : List Val} (h : v.elems = some xs) :
    v.sat = listOf (xs.map Val.sat) := by
  induction v generalizing xs with
  | lnil =>
    cases h
    funext j
    refine propext ⟨fun h => ⟨[], h, .nil⟩, ?_⟩
    rintro ⟨ys, rfl, h⟩
    cases h; rfl
  | lcons x t _ ht =>
    simp only [Val.elems, Option.map_eq_some_iff] at h
    obtain ⟨ys, h1, rfl⟩ := h
    funext j
    refine propext ⟨?_, ?_⟩
    · rintro ⟨y, zs, rfl, h2, h3⟩
      rw [ht h1] at h3
      obtain ⟨_, e, h4⟩ := h3
      cases e
      exact ⟨_, rfl, .cons h2 h4⟩
    · rintro ⟨zs, rfl, h2⟩
      cases h2 with
      | cons a b => exact ⟨_, _, rfl, a, by rw [ht h1]; exact ⟨_, rfl, b⟩⟩
  | _ => simp [Val.elems] at h

theorem val_elems_conc {v : Val} (hc : v.conc) {xs : List Val} (h : v.elems = some xs) :
    ∀ x ∈ xs, x.conc := by
  induction v generalizing xs with
  | lnil => cases h; simp
  | lcons x t _ ht =>
    simp only [Val.elems, Option.map_eq_some_iff] at h
    obtain ⟨ys, h1, rfl⟩ := h
    intro y hy
    rcases List.mem_cons.1 hy with rfl | hy
    · exact hc.1
    · exact ht hc.2 h1 y hy
  | _ => simp [Val.elems] at h

theorem val_newList (xs : List Val) : (xs.foldr Val.lcons .lnil).elems = some xs := by
  induction xs with
  | nil => rfl
  | cons x xs ih => simp [Val.elems, ih]

theorem valMeans : Means valCue Val.sat atField listOf listAll Val.conc where
  unify _ _ := rfl
  fill d l v := by
    funext j
    rfl
  fillOther d l v k hk := by
    show Val.meet (d.get k) (if k = l then some v else none) = d.get k
    rw [if_neg hk]
    cases d.get k <;> rfl
  eval _ := rfl
  atInf l a b := by
    funext j
    refine propext ⟨?_, ?_⟩
    · rintro ⟨fs, x, h1, h2, h3⟩
      exact ⟨⟨fs, x, h1, h2, h3.1⟩, ⟨fs, x, h1, h2, h3.2⟩⟩
    · rintro ⟨⟨fs, x, rfl, h2, h3⟩, ⟨fs', x', e, h2', h3'⟩⟩
      cases e
      rw [h2] at h2'; cases h2'
      exact ⟨fs, x, rfl, h2, h3, h3'⟩
  lookup d l x h j hj := val_get h hj
  regular s fs l v hfs hm j hj := by
    cases hfs
    obtain ⟨l', _, e⟩ := List.mem_map.1 hm
    simp only [Prod.mk.injEq] at e
    obtain ⟨rfl, rfl, e⟩ := e
    obtain ⟨x, hx⟩ := Option.isSome_iff_exists.1 (by simpa using e : (s.get l').isSome)
    obtain ⟨fs, w, e1, e2, _⟩ := val_get hx hj
    obtain ⟨y, hy⟩ := Option.isSome_iff_exists.1 (val_get_said (by rw [hx]; rfl : (s.get l').isSome))
    refine ⟨fs, w, e1, e2, ?_⟩
    rw [hy]
    exact val_said hy e2 (e1 ▸ hj)
  optional s fs l v d x hfs hm hx j hj := by
    cases hfs
    obtain ⟨l', hl', e⟩ := List.mem_map.1 hm
    simp only [Prod.mk.injEq] at e
    obtain ⟨rfl, rfl, e⟩ := e
    obtain ⟨y, hy⟩ := Option.isSome_iff_exists.1 (val_mem_labels.1 (List.mem_dedup.1 hl'))
    obtain ⟨fs, w, e1, e2, _⟩ := val_get hx hj.2
    refine ⟨fs, w, e1, e2, ?_⟩
    rw [hy]
    exact val_said hy e2 (e1 ▸ hj.1)
  labels s fs h := by
    cases h
    rw [List.map_map]
    simpa [Function.comp_def] using List.nodup_dedup _
  elems d xs _ h := val_elems h
  newList xs := val_elems (val_newList xs)
  anyIdx s e h j hj := by
    cases s with
    | opn e' => cases h; exact hj
    | _ => cases h
  lstAll ds e j hj := by
    obtain ⟨⟨ys, rfl, h1⟩, ⟨ys', e1, h2⟩⟩ := hj
    cases e1
    refine ⟨ys, rfl, ?_⟩
    induction h1 with
    | nil => exact .nil
    | cons h _ ih => exact .cons ⟨h, h2 _ (by simp)⟩ (ih (fun y hy => h2 y (by simp [hy])))
  lstMono ds es h j hj := by
    obtain ⟨ys, rfl, h1⟩ := hj
    refine ⟨ys, rfl, ?_⟩
    induction h generalizing ys with
    | nil => cases h1; exact .nil
    | cons h _ ih =>
      cases h1 with
      | cons a b => exact .cons (h _ a) (ih _ b)
  regularFields d k v h j hj := by
    obtain ⟨l, _, hl⟩ := List.mem_filterMap.1 h
    obtain ⟨x, hx, e⟩ := Option.map_eq_some_iff.1 hl
    cases e
    exact val_get hx hj
  empty s hs j hj := by
    simp only [valCue] at hs
    split at hs
    · rename_i h; exact val_isStruct h hj
    · cases s <;> simp at hs
  dataAnyIdx d hd := by
    cases d with
    | opn e => exact hd.elim
    | _ => rfl
  dataLookup d l x hd h := val_get_conc hd h
  dataFields d fs f hd hfs hf := by
    cases hfs
    obtain ⟨l, hl, rfl⟩ := List.mem_map.1 hf
    obtain ⟨y, hy⟩ := Option.isSome_iff_exists.1 (val_mem_labels.1 (List.mem_dedup.1 hl))
    simp only [hy, Option.getD_some]
    exact val_said_conc hd hy
  dataRegular d f hd hf := by
    obtain ⟨l, _, hl⟩ := List.mem_filterMap.1 hf
    obtain ⟨x, hx, e⟩ := Option.map_eq_some_iff.1 hl
    cases e
    exact val_get_conc hd hx
  dataFill d l v hd hv := ⟨hd, rfl, hv⟩
  dataEmpty := trivial
  dataNewList xs h := by
    induction xs with
    | nil => trivial
    | cons x xs ih => exact ⟨h x (by simp), ih (fun y hy => h y (by simp [hy]))⟩
  dataElems d xs x hd h hx := val_elems_conc hd h x hx

theorem valFill : FillLaws valCue (fun _ => True) where
  fillSt _ _ _ _ := trivial
  other d l v k _ hk := valMeans.fillOther d l v k hk
  same d l v _ h := by
    show Val.meet (d.get l) (if l = l then some v else none) = some v
    have h' : d.get l = none := h
    rw [h', if_pos rfl]; rfl
  present d l v _ := by
    show (Val.meet (d.get l) (if l = l then some v else none)).isSome
    rw [if_pos rfl]
    cases d.get l <;> rfl
  emptySt := trivial
  emptyLookup _ := rfl
  regular d _ := by
    constructor
    · intro k v
      simp only [valCue, List.mem_filterMap, List.mem_dedup, Option.map_eq_some_iff, Prod.mk.injEq]
      constructor
      · rintro ⟨l, _, x, hx, rfl, rfl⟩; exact hx
      · intro h
        exact ⟨k, val_mem_labels.2 (val_get_said (by rw [h]; rfl)), v, h, rfl, rfl⟩
    · have : ∀ ls : List Str, ls.Nodup →
          ((ls.filterMap fun l => (d.get l).map fun x => (l, x)).map (·.1)).Nodup := by
        intro ls hn
        have hsub : ((ls.filterMap fun l => (d.get l).map fun x => (l, x)).map (·.1)).Sublist ls := by
          clear hn
          induction ls with
          | nil => simp
          | cons l ls ih =>
            cases hg : d.get l with
            | none => simp only [List.filterMap_cons, hg, Option.map_none]; exact ih.cons _
            | some x => simp only [List.filterMap_cons, hg, Option.map_some, List.map_cons]; exact ih.cons_cons _
        exact hn.sublist hsub
      exact this _ (List.nodup_dedup _)

/-- `{a: *1 | number, b: number, c: {d: *2 | number}, e?: *3 | number}`. -/
def valSchema : Val :=
  .both (.fld ['a'] (.dfl 1) false) (.both (.fld ['b'] (.dfl 7) false)
    (.both (.fld ['c'] (.fld ['d'] (.dfl 2) false) false) (.fld ['e'] (.dfl 3) true)))

/-- `{a: 1, b: 5, c: {d: 2}}`. -/
def valData : Val :=
  .both (.fld ['a'] (.num 1) false) (.both (.fld ['b'] (.num 5) false)
    (.fld ['c'] (.fld ['d'] (.num 2) false) false))

/-- `valData` without its defaults. -/
def valTrim : Val :=
  .both (.both .emp (.fld ['b'] (.num 5) false)) (.fld ['c'] .emp false)

/-- The hypotheses of the theorems about hydration are met: `a` and `c.d` are removed, and come back. -/
example :
    ∃ r r', doDehydrate valCue 5 valSchema valData = .ok (r, false) ∧
      valCue.lookup r ['a'] = none ∧ valCue.lookup r ['b'] = some (.num 5) ∧
      (∃ c, valCue.lookup r ['c'] = some c ∧ valCue.lookup c ['d'] = none) ∧
      doHydrate valCue 5 valSchema r = .ok r' ∧ valCue.kind valSchema = .struct ∧ valData.conc ∧
      r'.sat ≤ atField ['a'] (Val.dfl 1).sat ∧ r'.sat ≤ atField ['b'] (Val.num 5).sat := by
  have h1 : doDehydrate valCue 5 valSchema valData = .ok (valTrim, false) := rfl
  have h2 : doHydrate valCue 5 valSchema valTrim = .ok _ := rfl
  have hc : valData.conc := by simp [valData, Val.conc]
  refine ⟨_, _, h1, rfl, rfl, ⟨_, rfl, rfl⟩, h2, rfl, hc, ?_, ?_⟩
  · exact (C147_hydrated_partial valMeans valPlain rfl rfl
      (doDehydrate_data valMeans _ _ _ _ _ hc h1) h2).2.1 _ _ (by decide)
  · have hb : ∀ v opt, (['b'], v, opt) ∈ (valCue.fields valSchema).getD [] → v = .dfl 7 := by
      intro v opt hm
      simp [valCue, valSchema, Val.labels, Val.said, Val.meet, Val.get] at hm
      exact hm.1
    refine (C147_round_trip_partial valMeans valPlain valFill (n := 3) (l := ['b']) (x := .num 5)
      rfl rfl trivial hc h1 h2 rfl (fun v opt hm => ?_)).resolve_right ?_
    · rw [hb v opt hm]; decide
    rintro ⟨v, opt, hm, ⟨d, hd, he, _⟩, _⟩
    have hv : v = .dfl 7 := hb v opt hm
    subst hv
    obtain ⟨hd, _⟩ := hd
    cases hd
    simp [valCue] at he

/-- An evaluator in which `_` as the description of elements is the disjunction `1 | 2`. -/
def orCue : HCue Val :=
  { valCue with
    isOr := fun v => v == .top
    alts := fun v => if v = .top then [.num 1, .num 2] else [v]
    concrete := fun v => match v with
      | .both a b => a == b
      | _ => true }

theorem orMeans : Means orCue Val.sat atField listOf listAll Val.conc := { valMeans with }

/-- The second alternative describes the first element, the first one the second. -/
example : ∃ r rs, doHydrate orCue 2 (.opn .top) (.lcons (.num 2) (.lcons (.num 1) .lnil)) = .ok r ∧
    r = orCue.newList rs ∧ List.Forall₂ (fun x y => ∃ ref, BranchOf orCue .top x ref ∧ y.sat ≤ ref.sat ∧
      (orCue.kind x = .other → y.sat = x.sat ⊓ ref.sat)) [.num 2, .num 1] rs := by
  obtain ⟨rs, h1, h2⟩ := C147_list_elements orMeans (n := 1) (sch := .opn .top)
    (data := .lcons (.num 2) (.lcons (.num 1) .lnil)) (ele := .top) (xs := [.num 2, .num 1])
    rfl rfl rfl (by simp [Val.conc]) (by
      intro x hx ref e
      rcases List.mem_cons.1 hx with rfl | hx
      · exact fun h => by cases h
      · rcases List.mem_cons.1 hx with rfl | hx
        · exact fun h => by cases h
        · cases hx) rfl
  exact ⟨_, rs, rfl, h1, h2⟩

/-- **C147**, refuted: a field that is optional in the schema and has a default there is removed by
dehydration if it has the default, and does not come back with hydration. -/
theorem C147_refuted :
    ∃ (sch data r r' : Val), doDehydrate valCue 5 sch data = .ok (r, false) ∧
      doHydrate valCue 5 sch r = .ok r' ∧ valCue.lookup data ['e'] = some (.num 3) ∧
      valCue.lookup r' ['e'] = none ∧ ¬ r'.sat ≤ atField ['e'] Val.top.sat := by
  refine ⟨.fld ['e'] (.dfl 3) true, .fld ['e'] (.num 3) false, .emp, .emp, rfl, rfl, rfl, rfl, ?_⟩
  intro h
  obtain ⟨fs, x, e1, e2, _⟩ := h (.obj []) ⟨[], rfl⟩
  cases e1
  cases e2

end Thema.Props

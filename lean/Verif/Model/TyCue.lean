import Verif.Spec.Assign

/-!
# A small concrete type language

Satisfies the laws that the theorems on assignability assume; used in examples and
witnesses.
-/

namespace Thema.TyCue

open Thema.Assign Thema.Spec.Assign

/-- Types: nothing, `_`, null, a basic kind with an upper bound (and null), a closed struct,
a struct of any fields of one type (`{[string]: t}`), an open list, a closed list, and
`*null | t`. -/
inductive Ty
  | bot
  | any
  | nul
  | sc (k : BasicKind) (max : Nat) (null : Bool)
  | st (fs : List (Str × Ty))
  | mp (e : Ty)
  | op (e : Ty)
  | cl (n : Nat) (e : Ty)
  | orNull (t : Ty)

/-- One basic kind. -/
def basicKinds : BasicKind → Kinds
  | .bool => { bool := true }
  | .int => { int := true }
  | .float => { float := true }
  | .str => { str := true }
  | .bytes => { bytes := true }

/-- Kinds of a type. -/
def kind : Ty → Kinds
  | .bot => {}
  | .any => { Kinds.topNoNull with null := true }
  | .nul => { null := true }
  | .sc k _ n => { basicKinds k with null := n }
  | .st _ => { struct := true }
  | .mp _ => { struct := true }
  | .op _ => { list := true }
  | .cl _ _ => { list := true }
  | .orNull t => { kind t with null := true }

/-- Subsumption, between basic types only. -/
def sub : Ty → Ty → Bool
  | .any, _ => true
  | .sc k m n, .sc k' m' n' => decide (k = k') && decide (m' ≤ m) && (n || !n')
  | .orNull (.sc k m _), .sc k' m' _ => decide (k = k') && decide (m' ≤ m)
  | _, _ => false

/-- The first field of each name. -/
def uniq : List (Str × Ty) → List (Str × Ty)
  | [] => []
  | f :: rest => f :: (uniq rest).filter (fun x => decide (x.1 ≠ f.1))

/-- Alternatives, flattened. -/
def alts : Ty → List Ty
  | .orNull t => .nul :: alts t
  | t => [t]

/-- The observations. -/
def obs : Obs Ty where
  kind := kind
  isOr | .orNull _ => true
       | _ => false
  alts := alts
  isNull | .nul => true
         | _ => false
  hasDefault _ := false
  fields | .st fs => some (uniq fs)
         | .mp _ => some []
         | _ => none
  len | .cl n _ => some n
      | _ => none
  lenSub | .cl n _, .cl m _ => decide (n = m)
         | _, _ => true
  elems | .cl n e => List.replicate n e
        | _ => []
  anyIdx | .op e => e
         | .cl _ e => e
         | .any => .any
         | _ => .bot
  sub := sub
  zero := .bot

/-- Instances. -/
inductive Inst : Ty → Data → Prop
  | any {d} : Inst .any d
  | nul : Inst .nul .null
  | sc {k m n c} : c ≤ m → Inst (.sc k m n) (.scalar k c)
  | scNull {k m} : Inst (.sc k m true) .null
  | st {fs ds} (f : Str → Data → Ty) : (∀ k d, (k, d) ∈ ds → (k, f k d) ∈ uniq fs) →
      (∀ k d, (k, d) ∈ ds → Inst (f k d) d) → Inst (.st fs) (.obj ds)
  | mp {e ds} : (∀ k d, (k, d) ∈ ds → Inst e d) → Inst (.mp e) (.obj ds)
  | op {e l} : (∀ d ∈ l, Inst e d) → Inst (.op e) (.list l)
  | cl {n e l} : l.length = n → (∀ d ∈ l, Inst e d) → Inst (.cl n e) (.list l)
  | orNull {t} : Inst (.orNull t) .null
  | orElse {t d} : Inst t d → Inst (.orNull t) d

/-- Schemas: types without `*null |` and with closed structs. -/
inductive Sch : Ty → Prop
  | bot : Sch .bot
  | any : Sch .any
  | nul : Sch .nul
  | sc {k m n} : Sch (.sc k m n)
  | st {fs} : (∀ k t, (k, t) ∈ fs → Sch t) → Sch (.st fs)
  | op {e} : Sch e → Sch (.op e)
  | cl {n e} : Sch e → Sch (.cl n e)

theorem mem_uniq {f : Str × Ty} : ∀ {fs : List (Str × Ty)}, f ∈ uniq fs → f ∈ fs
  | [], h => h
  | x :: rest, h => by
    rcases List.mem_cons.1 h with rfl | h
    · exact List.mem_cons_self
    · exact List.mem_cons_of_mem _ (mem_uniq (List.mem_filter.1 h).1)

theorem uniq_nodup : ∀ fs, ((uniq fs).map (·.1)).Nodup
  | [] => List.nodup_nil
  | x :: rest => by
    rw [uniq, List.map_cons, List.nodup_cons]
    constructor
    · intro h
      obtain ⟨y, hy, he⟩ := List.mem_map.1 h
      exact absurd he (by simpa using (List.mem_filter.1 hy).2)
    · exact (uniq_nodup rest).sublist (List.filter_sublist.map _)

theorem coherent : Coherent obs where
  nodup v fs h := by
    cases v with
    | st l => cases h; exact uniq_nodup l
    | mp e => cases h; exact List.nodup_nil
    | _ => simp [obs] at h
  zero := rfl

theorem inst_kind {v : Ty} {d : Data} (h : Inst v d) : d.kindIn (kind v) := by
  induction h with
  | @any d =>
    cases d with
    | scalar k c => cases k <;> rfl
    | _ => rfl
  | @sc k m n c _ => cases k <;> rfl
  | @orElse t d _ ih =>
    cases d with
    | scalar k c => cases k <;> exact ih
    | null => rfl
    | list l => exact ih
    | obj fs => exact ih
  | _ => rfl

theorem sem : Sem obs Inst Sch where
  fieldS v fs k w hv hf hm := by
    cases hv <;> simp only [obs, reduceCtorEq] at hf
    cases hf
    rename_i h
    exact h k w (mem_uniq hm)
  elemS v w hv hm := by
    cases hv <;> simp only [obs, List.not_mem_nil] at hm
    rename_i h
    rw [List.eq_of_mem_replicate hm]; exact h
  anyS v hv hl := by
    cases hv <;> simp only [obs, reduceCtorEq] at hl ⊢ <;> first | exact .bot | exact .any | assumption
  altS v w hv hm := by
    cases hv <;> simp only [obs, alts, List.mem_singleton] at hm <;> subst hm
    · exact .bot
    · exact .any
    · exact .nul
    · exact .sc
    · exact .st (by assumption)
    · exact .op (by assumption)
    · exact .cl (by assumption)
  kind _ _ h := inst_kind h
  nullBasic v hv hn := by
    cases hv with
    | @sc k m n =>
      cases k <;> constructor <;>
        simp [obs, kind, basicKinds, Kinds.noNull, Kinds.listK, Kinds.structK]
    | any => constructor <;> decide
    | nul => constructor <;> decide
    | _ => simp [obs, kind] at hn
  struct v fs ds hv ho hf hi := by
    cases hi with
    | any => simp [obs] at hf
    | st f h1 h2 =>
      cases hf
      exact fun k x hx => ⟨f k x, h1 k x hx, h2 k x hx⟩
    | mp _ => cases hv
    | orElse _ => simp [obs] at ho
  dflt v w rest d _ hd := by simp [obs] at hd
  closed v n l hv hl hi := by
    cases hi with
    | any => simp [obs] at hl
    | @cl n' e l hn h =>
      simp only [obs, Option.some.injEq] at hl
      subst hl
      refine ⟨hn, by simp [obs], fun i x w hx hw => ?_⟩
      have : w = e := List.eq_of_mem_replicate (List.mem_of_getElem? hw)
      subst this
      exact h x (List.mem_of_getElem? hx)
    | op _ => simp [obs] at hl
    | orElse _ => cases hv
  open_ v l hv hl hi := by
    cases hi with
    | any => exact fun i x _ => ⟨fun w hw => by simp [obs] at hw, fun _ => .any⟩
    | cl _ _ => simp [obs] at hl
    | op h =>
      exact fun i x hx => ⟨fun w hw => by simp [obs] at hw, fun _ => h x (List.mem_of_getElem? hx)⟩
    | orElse _ => cases hv
  sub a b d hs hi := by
    simp only [obs] at hs
    unfold sub at hs
    split at hs
    · exact .any
    · rename_i k m n k' m' n'
      simp only [Bool.and_eq_true, decide_eq_true_eq, Bool.or_eq_true, Bool.not_eq_true'] at hs
      obtain ⟨⟨rfl, hm⟩, hn⟩ := hs
      cases hi with
      | sc hc => exact .sc (Nat.le_trans hc hm)
      | scNull =>
        rcases hn with rfl | hn
        · exact .scNull
        · cases hn
    · rename_i k m n k' m' n'
      simp only [Bool.and_eq_true, decide_eq_true_eq] at hs
      obtain ⟨rfl, hm⟩ := hs
      cases hi with
      | sc hc => exact .orElse (.sc (Nat.le_trans hc hm))
      | scNull => exact .orNull
    · cases hs
  lenSub g s n m h hg hs := by
    cases g <;> simp only [obs, reduceCtorEq] at hg
    cases s <;> simp only [obs, reduceCtorEq] at hs
    simp only [obs, decide_eq_true_eq] at h
    cases hg; cases hs; exact h
  arr v n h := by
    cases v <;> simp only [obs, reduceCtorEq] at h
    cases h
    simp [obs]

end Thema.TyCue

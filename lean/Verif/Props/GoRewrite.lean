import Verif.Spec.GoRewrite
import Verif.Props.GoTypes

/-!
# C203, C204: what the rewritings do to generated Go declarations, exactly
-/

namespace Thema.Props

open GoTypes

/-! ### Positions -/

/-- The positions that are found from the element of a slice, the value of a map, what a pointer
points to, the type of a field. -/
private inductive St | arr | map | ptr | fld | top
  deriving DecidableEq

private def fnd : St → List Step → Bool
  | .top, [] => false
  | _, [] => true
  | _, .elt :: p => fnd .arr p
  | .arr, .val :: _ => false
  | _, .val :: p => fnd .map p
  | .map, .fld _ :: _ => false
  | _, .fld _ :: p => fnd .fld p
  | .fld, .ptr :: p => fnd .ptr p
  | _, .ptr :: _ => false
  | _, .key :: _ => false

private def app (b : Bool) (fn : Str → Str) (n : Str) : Str := if b then fn n else n

private theorem map_app_true (fn : Str → Str) (o : Option Str) : o.map (app true fn) = o.map fn := by
  cases o <;> rfl

private theorem map_app_false (fn : Str → Str) (o : Option Str) : o.map (app false fn) = o := by
  cases o <;> rfl

mutual
private theorem nameAt_arr (fn : Str → Str) : ∀ (t : GT) (p : List Step),
    nameAt (iterArr fn t) p = (nameAt t p).map (app (fnd .arr p) fn)
  | .ident n, [] => rfl
  | .ident n, s :: p => by simp [iterArr, nameAt]
  | .sel _ _, p => by cases p <;> simp [iterArr, nameAt]
  | .star t, [] => by simp [iterArr, nameAt]
  | .star t, s :: p => by cases s <;> simp [iterArr, nameAt, fnd, map_app_false]
  | .map k v, [] => by simp [iterArr, nameAt]
  | .map k v, s :: p => by cases s <;> simp [iterArr, nameAt, fnd, map_app_false]
  | .arr e, [] => by simp [iterArr, nameAt]
  | .arr e, s :: p => by cases s <;> simp [iterArr, nameAt, fnd, nameAt_arr fn e]
  | .struct fs, [] => by simp [iterArr, nameAt]
  | .struct fs, s :: p => by cases s <;> simp [iterArr, nameAt, fnd, nameAt_fs fn fs]
private theorem nameAt_map (fn : Str → Str) : ∀ (t : GT) (p : List Step),
    nameAt (iterMap fn t) p = (nameAt t p).map (app (fnd .map p) fn)
  | .ident n, [] => rfl
  | .ident n, s :: p => by simp [iterMap, nameAt]
  | .sel _ _, p => by cases p <;> simp [iterMap, nameAt]
  | .star t, [] => by simp [iterMap, nameAt]
  | .star t, s :: p => by cases s <;> simp [iterMap, nameAt, fnd, map_app_false]
  | .map k v, [] => by simp [iterMap, nameAt]
  | .map k v, s :: p => by cases s <;> simp [iterMap, nameAt, fnd, map_app_false, nameAt_map fn v]
  | .arr e, [] => by simp [iterMap, nameAt]
  | .arr e, s :: p => by cases s <;> simp [iterMap, nameAt, fnd, nameAt_arr fn e]
  | .struct fs, [] => by simp [iterMap, nameAt]
  | .struct fs, s :: p => by cases s <;> simp [iterMap, nameAt, fnd, map_app_false]
private theorem nameAt_field (fn : Str → Str) : ∀ (t : GT) (p : List Step),
    nameAt (iterField fn t) p = (nameAt t p).map (app (fnd .fld p) fn)
  | .ident n, [] => rfl
  | .ident n, s :: p => by simp [iterField, nameAt]
  | .sel _ _, p => by cases p <;> simp [iterField, nameAt]
  | .map k v, [] => by simp [iterField, nameAt]
  | .map k v, s :: p => by cases s <;> simp [iterField, nameAt, fnd, map_app_false, nameAt_map fn v]
  | .arr e, [] => by simp [iterField, nameAt]
  | .arr e, s :: p => by cases s <;> simp [iterField, nameAt, fnd, nameAt_arr fn e]
  | .struct fs, [] => by simp [iterField, nameAt]
  | .struct fs, s :: p => by cases s <;> simp [iterField, nameAt, fnd, nameAt_fs fn fs]
  | .star (.ident n), [] => by simp [iterField, nameAt]
  | .star (.ident n), [s] => by cases s <;> simp [iterField, nameAt, fnd, app]
  | .star (.ident n), s :: s' :: p => by cases s <;> simp [iterField, nameAt]
  | .star (.sel _ _), [] => by simp [iterField, nameAt]
  | .star (.sel _ _), s :: p => by cases s <;> cases p <;> simp [iterField, nameAt]
  | .star (.star t), [] => by simp [iterField, nameAt]
  | .star (.star t), [s] => by cases s <;> simp [iterField, nameAt]
  | .star (.star t), s :: s' :: p => by
      cases s <;> cases s' <;> simp [iterField, nameAt, fnd, map_app_false]
  | .star (.arr e), [] => by simp [iterField, nameAt]
  | .star (.arr e), [s] => by cases s <;> simp [iterField, nameAt]
  | .star (.arr e), s :: s' :: p => by
      cases s <;> cases s' <;> simp [iterField, nameAt, fnd, nameAt_arr fn e]
  | .star (.map k v), [] => by simp [iterField, nameAt]
  | .star (.map k v), [s] => by cases s <;> simp [iterField, nameAt]
  | .star (.map k v), s :: s' :: p => by
      cases s <;> cases s' <;> simp [iterField, nameAt, fnd, map_app_false, nameAt_map fn v]
  | .star (.struct fs), [] => by simp [iterField, nameAt]
  | .star (.struct fs), [s] => by cases s <;> simp [iterField, nameAt]
  | .star (.struct fs), s :: s' :: p => by
      cases s <;> cases s' <;> simp [iterField, nameAt, fnd, nameAt_fs fn fs]
private theorem nameAt_fs (fn : Str → Str) : ∀ (fs : GFs) (i : Nat) (p : List Step),
    nameAtFs (iterFs fn fs) i p = (nameAtFs fs i p).map (app (fnd .fld p) fn)
  | .nil, _, _ => by simp [iterFs, nameAtFs]
  | .cons _ t _, 0, p => by simp [iterFs, nameAtFs, nameAt_field fn t]
  | .cons _ _ r, i + 1, p => by simp [iterFs, nameAtFs, nameAt_fs fn r]
end

private theorem nameAt_top (fn : Str → Str) (t : GT) (p : List Step) :
    nameAt (iterTop fn t) p = (nameAt t p).map (app (fnd .top p) fn) := by
  cases t with
  | ident n => cases p <;> simp [iterTop, nameAt, fnd, app]
  | sel _ _ => cases p <;> simp [iterTop, nameAt]
  | star t =>
    cases p with
    | nil => simp [iterTop, nameAt]
    | cons s p => cases s <;> simp [iterTop, nameAt, fnd, map_app_false]
  | arr e =>
    cases p with
    | nil => simp [iterTop, nameAt]
    | cons s p => cases s <;> simp [iterTop, nameAt, fnd, nameAt_arr fn e]
  | map k v =>
    cases p with
    | nil => simp [iterTop, nameAt]
    | cons s p => cases s <;> simp [iterTop, nameAt, fnd, map_app_false, nameAt_map fn v]
  | struct fs =>
    cases p with
    | nil => simp [iterTop, nameAt]
    | cons s p => cases s <;> simp [iterTop, nameAt, fnd, nameAt_fs fn fs]


/-! ### The positions that are found -/

private theorem fnd_elts (b : Nat) (q : List Step) :
    fnd .arr (List.replicate b .elt ++ q) = fnd .arr q := by
  induction b with
  | zero => rfl
  | succ b ih => rw [List.replicate_succ, List.cons_append, fnd, ih]

private theorem fnd_vals (a : Nat) (q : List Step) :
    fnd .map (List.replicate a .val ++ q) = fnd .map q := by
  induction a with
  | zero => rfl
  | succ a ih => rw [List.replicate_succ, List.cons_append]; simpa [fnd] using ih

private theorem fnd_map_chain {a b : Nat} {q : List Step} (hq : fnd .arr q = true)
    (h : q ≠ [] → b ≠ 0) : fnd .map (chain a b ++ q) = true := by
  rw [chain, List.append_assoc, fnd_vals]
  cases b with
  | zero =>
    cases q with
    | nil => rfl
    | cons s q => exact absurd rfl (h (by simp))
  | succ b =>
    rw [List.replicate_succ, List.cons_append, fnd, fnd_elts]
    exact hq

private theorem fnd_chain {s : St} (hs : s = .ptr ∨ s = .fld ∨ s = .top) {a b : Nat} {q : List Step}
    (hq : fnd .arr q = true) (hq' : fnd .fld q = true) (hq'' : fnd .ptr q = true)
    (hn : s = .top → chain a b ++ q ≠ [])
    (ht : q ≠ [] → fnd .top q = true) (h : q ≠ [] → a ≠ 0 → b ≠ 0) :
    fnd s (chain a b ++ q) = true := by
  cases a with
  | zero =>
    cases b with
    | zero =>
      rcases hs with rfl | rfl | rfl
      · exact hq''
      · exact hq'
      · exact ht (by simpa [chain] using hn rfl)
    | succ b =>
      have e : chain 0 (b + 1) ++ q = .elt :: (List.replicate b .elt ++ q) := rfl
      rw [e]
      rcases hs with rfl | rfl | rfl <;> (rw [fnd, fnd_elts]; exact hq)
  | succ a =>
    have e : chain (a + 1) b ++ q = .val :: (chain a b ++ q) := rfl
    rw [e]
    have := fnd_map_chain (a := a) (b := b) hq fun hq => h hq (by simp)
    rcases hs with rfl | rfl | rfl <;> (simp only [fnd]; exact this)

private theorem fnd_blocks {q : List Step} (h : Blocks q) :
    fnd .arr q = true ∧ fnd .fld q = true ∧ fnd .ptr q = true ∧ (q ≠ [] → fnd .top q = true) := by
  induction h with
  | nil => exact ⟨rfl, rfl, rfl, fun h => absurd rfl h⟩
  | plain i a b h hp ih =>
    have := fnd_chain (s := .fld) (.inr (.inl rfl)) ih.1 ih.2.1 ih.2.2.1 (fun h => by cases h)
      ih.2.2.2 h
    simp only [fnd]
    exact ⟨this, this, this, fun _ => this⟩
  | ptr i a b h hp ih =>
    have := fnd_chain (s := .ptr) (.inl rfl) ih.1 ih.2.1 ih.2.2.1 (fun h => by cases h)
      ih.2.2.2 h
    simp only [fnd]
    exact ⟨this, this, this, fun _ => this⟩

private def ExA (p : List Step) : Prop := ∃ b q, p = List.replicate b .elt ++ q ∧ Blocks q
private def ExM (p : List Step) : Prop :=
  ∃ a b q, p = chain a b ++ q ∧ Blocks q ∧ (q ≠ [] → b ≠ 0)
private def ExP (p : List Step) : Prop :=
  ∃ a b q, p = chain a b ++ q ∧ Blocks q ∧ (q ≠ [] → a ≠ 0 → b ≠ 0)

private theorem exM_of_exA {p : List Step} : ExA p → ExM (.elt :: p)
  | ⟨b, q, e, h⟩ => ⟨0, b + 1, q, by rw [e]; rfl, h, fun _ => by simp⟩
private theorem exP_of_exM {p : List Step} : ExM p → ExP p
  | ⟨a, b, q, e, h, c⟩ => ⟨a, b, q, e, h, fun hq _ => c hq⟩
private theorem exM_val {p : List Step} : ExM p → ExM (.val :: p)
  | ⟨a, b, q, e, h, c⟩ => ⟨a + 1, b, q, by rw [e]; rfl, h, c⟩

private theorem fnd_sound : ∀ p : List Step,
    (fnd .arr p = true → ExA p) ∧ (fnd .map p = true → ExM p) ∧ (fnd .ptr p = true → ExP p) ∧
    (fnd .fld p = true → ExP p ∨ ∃ q, p = .ptr :: q ∧ ExP q)
  | [] => ⟨fun _ => ⟨0, [], rfl, .nil⟩, fun _ => ⟨0, 0, [], rfl, .nil, fun h => absurd rfl h⟩,
      fun _ => ⟨0, 0, [], rfl, .nil, fun h => absurd rfl h⟩,
      fun _ => .inl ⟨0, 0, [], rfl, .nil, fun h => absurd rfl h⟩⟩
  | .elt :: p => by
    obtain ⟨h1, _, _, _⟩ := fnd_sound p
    simp only [fnd]
    refine ⟨fun h => ?_, fun h => exM_of_exA (h1 h), fun h => exP_of_exM (exM_of_exA (h1 h)),
      fun h => .inl (exP_of_exM (exM_of_exA (h1 h)))⟩
    obtain ⟨b, q, e, hq⟩ := h1 h
    exact ⟨b + 1, q, by rw [e]; rfl, hq⟩
  | .val :: p => by
    obtain ⟨_, h1, _, _⟩ := fnd_sound p
    simp only [fnd]
    exact ⟨(fun h => by cases h), fun h => exM_val (h1 h), fun h => exP_of_exM (exM_val (h1 h)),
      fun h => .inl (exP_of_exM (exM_val (h1 h)))⟩
  | .key :: p => by simp [fnd]
  | .fld i :: p => by
    obtain ⟨_, _, _, h1⟩ := fnd_sound p
    have hb : fnd .fld p = true → Blocks (.fld i :: p) := by
      intro h
      rcases h1 h with ⟨a, b, q, rfl, hq, c⟩ | ⟨q', rfl, a, b, q, rfl, hq, c⟩
      · exact .plain i a b c hq
      · exact .ptr i a b c hq
    simp only [fnd]
    exact ⟨fun h => ⟨0, _, rfl, hb h⟩, (fun h => by cases h),
      fun h => ⟨0, 0, _, rfl, hb h, fun _ h => absurd rfl h⟩,
      fun h => .inl ⟨0, 0, _, rfl, hb h, fun _ h => absurd rfl h⟩⟩
  | .ptr :: p => by
    obtain ⟨_, _, h1, _⟩ := fnd_sound p
    simp only [fnd]
    exact ⟨(fun h => by cases h), (fun h => by cases h), (fun h => by cases h),
      fun h => .inr ⟨p, rfl, h1 h⟩⟩

private theorem fnd_top_iff (p : List Step) : fnd .top p = true ↔ Found p := by
  constructor
  · intro h
    cases p with
    | nil => cases h
    | cons s p =>
      refine ⟨by simp, (fnd_sound _).2.2.1 ?_⟩
      cases s <;> first | exact h | cases h
  · rintro ⟨hn, a, b, q, rfl, hq, c⟩
    have := fnd_blocks hq
    exact fnd_chain (.inr (.inr rfl)) this.1 this.2.1 this.2.2.1 (fun _ => hn) this.2.2.2 c

private theorem fnd_map_iff (p : List Step) : fnd .map p = true ↔ ExM p :=
  ⟨(fnd_sound p).2.1, fun ⟨_, _, _, e, hq, c⟩ => e ▸ fnd_map_chain (fnd_blocks hq).1 c⟩

/-! ### The visit of all fields -/

private def vf : List Step → Bool
  | [.ptr] => true
  | p => fnd .map p

private def vis : List Step → Bool
  | [] => false
  | .fld _ :: p => vf p || vis p
  | _ :: p => vis p

private theorem app_app (b c : Bool) (o : Option Str) :
    (o.map (app c ren)).map (app b ren) = o.map (app (b || c) ren) := by
  cases o with
  | none => rfl
  | some n => cases b <;> cases c <;> simp [app, ren_idem]

private theorem nameAt_visitField : ∀ (t : GT) (p : List Step),
    nameAt (visitField t) p = (nameAt t p).map (app (vf p) ren)
  | .ident n, [] => rfl
  | .ident n, s :: p => by simp [visitField, nameAt]
  | .sel _ _, p => by cases p <;> simp [visitField, nameAt]
  | .arr e, [] => by simp [visitField, nameAt]
  | .arr e, s :: p => by cases s <;> simp [visitField, nameAt, vf, fnd, nameAt_arr ren e]
  | .map k v, [] => by simp [visitField, nameAt]
  | .map k v, s :: p => by
    cases s <;> simp [visitField, nameAt, vf, fnd, map_app_false, nameAt_map ren v]
  | .struct fs, [] => by simp [visitField, nameAt]
  | .struct fs, s :: p => by cases s <;> simp [visitField, nameAt, vf, fnd, map_app_false]
  | .star (.ident n), [] => by simp [visitField, nameAt]
  | .star (.ident n), [s] => by cases s <;> simp [visitField, nameAt, vf, app]
  | .star (.ident n), s :: s' :: p => by cases s <;> simp [visitField, nameAt]
  | .star (.sel _ _), [] => by simp [visitField, nameAt]
  | .star (.sel _ _), s :: p => by cases s <;> cases p <;> simp [visitField, nameAt]
  | .star (.star t), [] => by simp [visitField, nameAt]
  | .star (.star t), [s] => by cases s <;> simp [visitField, nameAt]
  | .star (.star t), s :: s' :: p => by
    cases s <;> cases s' <;> simp [visitField, nameAt, vf, fnd, map_app_false]
  | .star (.arr e), [] => by simp [visitField, nameAt]
  | .star (.arr e), [s] => by cases s <;> simp [visitField, nameAt]
  | .star (.arr e), s :: s' :: p => by
    cases s <;> cases s' <;> simp [visitField, nameAt, vf, fnd, map_app_false]
  | .star (.map k v), [] => by simp [visitField, nameAt]
  | .star (.map k v), [s] => by cases s <;> simp [visitField, nameAt]
  | .star (.map k v), s :: s' :: p => by
    cases s <;> cases s' <;> simp [visitField, nameAt, vf, fnd, map_app_false]
  | .star (.struct fs), [] => by simp [visitField, nameAt]
  | .star (.struct fs), [s] => by cases s <;> simp [visitField, nameAt]
  | .star (.struct fs), s :: s' :: p => by
    cases s <;> cases s' <;> simp [visitField, nameAt, vf, fnd, map_app_false]

mutual
private theorem nameAt_visit : ∀ (t : GT) (p : List Step),
    nameAt (visit t) p = (nameAt t p).map (app (vis p) ren)
  | .ident n, [] => rfl
  | .ident n, s :: p => by simp [visit, nameAt]
  | .sel _ _, p => by cases p <;> simp [visit, nameAt]
  | .star t, [] => by simp [visit, nameAt]
  | .star t, s :: p => by cases s <;> simp [visit, nameAt, vis, nameAt_visit t]
  | .arr e, [] => by simp [visit, nameAt]
  | .arr e, s :: p => by cases s <;> simp [visit, nameAt, vis, nameAt_visit e]
  | .map k v, [] => by simp [visit, nameAt]
  | .map k v, s :: p => by
    cases s <;> simp [visit, nameAt, vis, nameAt_visit k, nameAt_visit v]
  | .struct fs, [] => by simp [visit, nameAt]
  | .struct fs, s :: p => by cases s <;> simp [visit, nameAt, vis, nameAt_visitFs fs]
private theorem nameAt_visitFs : ∀ (fs : GFs) (i : Nat) (p : List Step),
    nameAtFs (visitFs fs) i p = (nameAtFs fs i p).map (app (vf p || vis p) ren)
  | .nil, _, _ => by simp [visitFs, nameAtFs]
  | .cons _ t _, 0, p => by
    rw [visitFs, nameAtFs, nameAtFs, nameAt_visitField, nameAt_visit t, app_app]
  | .cons _ _ r, i + 1, p => by rw [visitFs, nameAtFs, nameAtFs, nameAt_visitFs r]
end

private theorem vf_iff (p : List Step) : vf p = true ↔ p = [.ptr] ∨ ExM p := by
  unfold vf
  split
  · simp
  · next h => rw [fnd_map_iff]; exact ⟨.inr, fun h' => h'.resolve_left h⟩

private theorem vis_iff : ∀ p : List Step, vis p = true ↔
    ∃ o i r, p = o ++ .fld i :: r ∧ (r = [.ptr] ∨ ExM r)
  | [] => by simp [vis]
  | s :: p => by
    have ih := vis_iff p
    have key : vis (s :: p) = true ↔ ((∃ i, s = .fld i) ∧ vf p = true) ∨ vis p = true := by
      cases s <;> simp [vis]
    rw [key, vf_iff, ih]
    constructor
    · rintro (⟨⟨i, rfl⟩, h⟩ | ⟨o, i, r, rfl, h⟩)
      · exact ⟨[], i, p, rfl, h⟩
      · exact ⟨s :: o, i, r, rfl, h⟩
    · rintro ⟨o, i, r, e, h⟩
      cases o with
      | nil =>
        cases e
        exact .inl ⟨⟨i, rfl⟩, h⟩
      | cons s' o =>
        cases e
        exact .inr ⟨o, i, r, rfl, h⟩

private theorem us_iff (p : List Step) : (vis p || fnd .top p) = true ↔ FoundUs p := by
  rw [Bool.or_eq_true, vis_iff, fnd_top_iff]
  constructor
  · rintro (⟨o, i, r, rfl, h | ⟨a, b, q, rfl, hq, c⟩⟩ | h)
    · exact .inr (.inl ⟨o, i, by rw [h]⟩)
    · exact .inr (.inr ⟨o, i, a, b, q, rfl, hq, c⟩)
    · exact .inl h
  · rintro (h | ⟨o, i, rfl⟩ | ⟨o, i, a, b, q, rfl, hq, c⟩)
    · exact .inr h
    · exact .inl ⟨o, i, [.ptr], rfl, .inl rfl⟩
    · exact .inl ⟨o, i, _, rfl, .inr ⟨a, b, q, rfl, hq, c⟩⟩

/-! ### Shapes -/

mutual
private theorem shape_arr (fn : Str → Str) : ∀ t : GT,
    mapNames (fun _ => []) (iterArr fn t) = mapNames (fun _ => []) t
  | .ident n => rfl
  | .sel _ _ => rfl
  | .star t => rfl
  | .map k v => rfl
  | .arr e => by simp [iterArr, mapNames, shape_arr fn e]
  | .struct fs => by simp [iterArr, mapNames, shape_fs fn fs]
private theorem shape_map (fn : Str → Str) : ∀ t : GT,
    mapNames (fun _ => []) (iterMap fn t) = mapNames (fun _ => []) t
  | .ident n => rfl
  | .sel _ _ => rfl
  | .star t => rfl
  | .map k v => by simp [iterMap, mapNames, shape_map fn v]
  | .arr e => by simp [iterMap, mapNames, shape_arr fn e]
  | .struct fs => rfl
private theorem shape_field (fn : Str → Str) : ∀ t : GT,
    mapNames (fun _ => []) (iterField fn t) = mapNames (fun _ => []) t
  | .ident n => rfl
  | .sel _ _ => rfl
  | .map k v => by simp [iterField, mapNames, shape_map fn v]
  | .arr e => by simp [iterField, mapNames, shape_arr fn e]
  | .struct fs => by simp [iterField, mapNames, shape_fs fn fs]
  | .star (.ident n) => rfl
  | .star (.sel _ _) => rfl
  | .star (.star _) => rfl
  | .star (.map k v) => by simp [iterField, mapNames, shape_map fn v]
  | .star (.arr e) => by simp [iterField, mapNames, shape_arr fn e]
  | .star (.struct fs) => by simp [iterField, mapNames, shape_fs fn fs]
private theorem shape_fs (fn : Str → Str) : ∀ fs : GFs,
    mapNamesFs (fun _ => []) (iterFs fn fs) = mapNamesFs (fun _ => []) fs
  | .nil => rfl
  | .cons _ t r => by simp [iterFs, mapNamesFs, shape_field fn t, shape_fs fn r]
end

private theorem shape_top (fn : Str → Str) (t : GT) : SameShape t (iterTop fn t) := by
  unfold SameShape
  cases t <;> simp [iterTop, mapNames, shape_map, shape_arr, shape_fs]

private theorem shape_visitField (t : GT) :
    mapNames (fun _ => []) (visitField t) = mapNames (fun _ => []) t := by
  unfold visitField
  split <;> simp [mapNames, shape_map, shape_arr]

mutual
private theorem shape_visit : ∀ t : GT,
    mapNames (fun _ => []) (visit t) = mapNames (fun _ => []) t
  | .ident n => rfl
  | .sel _ _ => rfl
  | .star t => by simp [visit, mapNames, shape_visit t]
  | .arr e => by simp [visit, mapNames, shape_visit e]
  | .map k v => by simp [visit, mapNames, shape_visit k, shape_visit v]
  | .struct fs => by simp [visit, mapNames, shape_visitFs fs]
private theorem shape_visitFs : ∀ fs : GFs,
    mapNamesFs (fun _ => []) (visitFs fs) = mapNamesFs (fun _ => []) fs
  | .nil => rfl
  | .cons _ t r => by
    rw [visitFs, mapNamesFs, mapNamesFs, shape_visitField, shape_visit t, shape_visitFs r]
end

/-! ### Names that occur -/

mutual
private theorem refs_iff : ∀ (t : GT) (n : Str), n ∈ refs t ↔ ∃ p, nameAt t p = some n
  | .ident m, n => by
    constructor
    · intro h
      exact ⟨[], by rw [List.mem_singleton.1 h]; rfl⟩
    · rintro ⟨p, h⟩
      cases p with
      | nil => cases h; exact List.mem_cons_self ..
      | cons s p => simp [nameAt] at h
  | .sel _ _, n => by
    simp only [refs, List.not_mem_nil, false_iff]
    rintro ⟨p, h⟩
    cases p <;> simp [nameAt] at h
  | .star t, n => by
    rw [refs, refs_iff t]
    constructor
    · rintro ⟨p, h⟩; exact ⟨.ptr :: p, h⟩
    · rintro ⟨p, h⟩
      cases p with
      | nil => simp [nameAt] at h
      | cons s p => cases s <;> simp [nameAt] at h; exact ⟨p, h⟩
  | .arr t, n => by
    rw [refs, refs_iff t]
    constructor
    · rintro ⟨p, h⟩; exact ⟨.elt :: p, h⟩
    · rintro ⟨p, h⟩
      cases p with
      | nil => simp [nameAt] at h
      | cons s p => cases s <;> simp [nameAt] at h; exact ⟨p, h⟩
  | .map k v, n => by
    rw [refs, List.mem_append, refs_iff k, refs_iff v]
    constructor
    · rintro (⟨p, h⟩ | ⟨p, h⟩)
      · exact ⟨.key :: p, h⟩
      · exact ⟨.val :: p, h⟩
    · rintro ⟨p, h⟩
      cases p with
      | nil => simp [nameAt] at h
      | cons s p =>
        cases s <;> simp [nameAt] at h
        · exact .inl ⟨p, h⟩
        · exact .inr ⟨p, h⟩
  | .struct fs, n => by
    rw [refs, refsFs_iff fs]
    constructor
    · rintro ⟨i, p, h⟩; exact ⟨.fld i :: p, h⟩
    · rintro ⟨p, h⟩
      cases p with
      | nil => simp [nameAt] at h
      | cons s p => cases s <;> simp [nameAt] at h; exact ⟨_, p, h⟩
private theorem refsFs_iff : ∀ (fs : GFs) (n : Str), n ∈ refsFs fs ↔ ∃ i p, nameAtFs fs i p = some n
  | .nil, n => by simp [refsFs, nameAtFs]
  | .cons f t r, n => by
    rw [refsFs, List.mem_append, refs_iff t, refsFs_iff r]
    constructor
    · rintro (⟨p, h⟩ | ⟨i, p, h⟩)
      · exact ⟨0, p, h⟩
      · exact ⟨i + 1, p, h⟩
    · rintro ⟨i, p, h⟩
      cases i with
      | zero => exact .inl ⟨p, h⟩
      | succ i => exact .inr ⟨i, p, h⟩
end

/-! ### C203: underscores -/

/-- **C203** (types).  Of a type only names change, and exactly the names at the positions of
`FoundUs`: they lose their underscores. -/
theorem C203_type (t : GT) : SameShape t (visit (iterTop ren t)) ∧
    ∀ p, (FoundUs p → nameAt (visit (iterTop ren t)) p =
        (nameAt t p).map fun n => n.filter (· != '_')) ∧
      (¬ FoundUs p → nameAt (visit (iterTop ren t)) p = nameAt t p) := by
  refine ⟨(shape_top ren t).trans (shape_visit _).symm, fun p => ?_⟩
  rw [nameAt_visit, nameAt_top, app_app, ← us_iff]
  refine ⟨fun h => ?_, fun h => ?_⟩
  · rw [h, map_app_true]; rfl
  · rw [Bool.eq_false_iff.2 h, map_app_false]

/-- **C203** (files).  Each declaration stays in its place.  A type declaration gets its name without
underscores, its type with the names changed as above, and if its name had underscores, another
first line of its comment; all other declarations are as before. -/
theorem C203_file {replace : Str → Str} : ∀ {ds ds' : List Decl}, fixUnderscores replace ds = .ok ds' →
    ds'.length = ds.length ∧ ∀ i : Nat,
      (∀ d n t, ds[i]? = some (.typ d n t) → ∃ d' t',
        ds'[i]? = some (.typ d' (n.filter (· != '_')) t') ∧ SameShape t t' ∧
        (∀ p, (FoundUs p → nameAt t' p = (nameAt t p).map fun n => n.filter (· != '_')) ∧
          (¬ FoundUs p → nameAt t' p = nameAt t p)) ∧
        ('_' ∉ n → d' = d) ∧ ('_' ∈ n → ∃ x r, d = x :: r ∧ d' = replace x :: r)) ∧
      (∀ o f, ds[i]? = some (.func o f) → ds'[i]? = some (.func o f)) ∧
      (∀ ts, ds[i]? = some (.consts ts) → ds'[i]? = some (.consts ts))
  | [], _, h => by cases h; exact ⟨rfl, fun i => ⟨by simp, by simp, by simp⟩⟩
  | x :: ds, r, h => by
    obtain ⟨x', ds', h1, h2, rfl⟩ := fixUnderscores_cons h
    obtain ⟨hl, ih⟩ := C203_file h2
    refine ⟨by simp [hl], fun i => ?_⟩
    cases i with
    | succ i => simpa using ih i
    | zero =>
      simp only [List.getElem?_cons_zero, Option.some.injEq]
      cases x with
      | func o f => cases h1; exact ⟨by simp, by simp, by simp⟩
      | consts ts => cases h1; exact ⟨by simp, by simp, by simp⟩
      | typ d n t =>
        refine ⟨?_, by simp, by simp⟩
        rintro d n t ⟨⟩
        rw [usDecl] at h1
        cases d with
        | nil =>
          rw [renDoc] at h1
          split at h1
          · cases h1
          · next hn =>
            cases h1
            exact ⟨[], _, rfl, (C203_type t).1, (C203_type t).2, fun _ => rfl, fun h => absurd h hn⟩
        | cons c cs =>
          cases h1
          refine ⟨_, _, rfl, (C203_type t).1, (C203_type t).2, fun hn => by rw [if_neg hn], fun hn => ?_⟩
          exact ⟨c, cs, rfl, by rw [if_pos hn]⟩

private theorem us_from {replace : Str → Str} {x' : Decl} : ∀ {ds ds' : List Decl},
    fixUnderscores replace ds = .ok ds' → x' ∈ ds' → ∃ x ∈ ds, usDecl replace x = .ok x'
  | [], _, h, hx => by cases h; cases hx
  | d :: ds, r, h, hx => by
    obtain ⟨d', ds', h1, h2, rfl⟩ := fixUnderscores_cons h
    rcases List.mem_cons.1 hx with hx | hx
    · subst hx; exact ⟨d, List.mem_cons_self .., h1⟩
    · obtain ⟨x, hx, he⟩ := us_from h2 hx
      exact ⟨x, List.mem_cons_of_mem _ hx, he⟩

/-- **C203** (uses).  Exactly what a file uses afterwards: the names of its type declarations,
without underscores where `FoundUs` says so, and the types of its constants, as they were. -/
theorem C203_uses {replace : Str → Str} {ds ds' : List Decl}
    (h : fixUnderscores replace ds = .ok ds') (n : Str) :
    (∃ x ∈ ds', n ∈ x.uses) ↔
      (∃ d k t p m, Decl.typ d k t ∈ ds ∧ nameAt t p = some m ∧
        (FoundUs p ∧ n = m.filter (· != '_') ∨ ¬ FoundUs p ∧ n = m)) ∨
      ∃ ts, Decl.consts ts ∈ ds ∧ n ∈ ts := by
  constructor
  · rintro ⟨x', hx', hn⟩
    obtain ⟨x, hx, he⟩ := us_from h hx'
    cases x with
    | func o m => cases he; cases hn
    | consts ts => cases he; exact .inr ⟨ts, hx, hn⟩
    | typ d k t =>
      obtain ⟨d', rfl⟩ := usDecl_typ he
      obtain ⟨p, hp⟩ := (refs_iff _ _).1 hn
      left
      obtain ⟨h1, h2⟩ := (C203_type t).2 p
      by_cases hf : FoundUs p
      · rw [h1 hf, Option.map_eq_some_iff] at hp
        obtain ⟨m, hm, e⟩ := hp
        exact ⟨d, k, t, p, m, hx, hm, .inl ⟨hf, e.symm⟩⟩
      · rw [h2 hf] at hp
        exact ⟨d, k, t, p, n, hx, hp, .inr ⟨hf, rfl⟩⟩
  · rintro (⟨d, k, t, p, m, hx, hm, hc⟩ | ⟨ts, hx, hn⟩)
    · obtain ⟨x', hx', he⟩ := us_keeps h hx
      obtain ⟨d', rfl⟩ := usDecl_typ he
      refine ⟨_, hx', (refs_iff _ _).2 ⟨p, ?_⟩⟩
      obtain ⟨h1, h2⟩ := (C203_type t).2 p
      rcases hc with ⟨hf, rfl⟩ | ⟨hf, rfl⟩
      · rw [h1 hf, hm]; rfl
      · rw [h2 hf, hm]
    · obtain ⟨x', hx', he⟩ := us_keeps h hx
      cases he
      exact ⟨_, hx', hn⟩

private theorem ren_clash : ∀ {l : List Str}, l.Nodup →
    ((l.map ren).Nodup ↔ ∀ n ∈ l, ∀ m ∈ l, ren n = ren m → n = m)
  | [], _ => by simp
  | x :: l, h => by
    obtain ⟨h1, h2⟩ := List.nodup_cons.1 h
    rw [List.map_cons, List.nodup_cons, ren_clash h2, List.mem_map]
    constructor
    · rintro ⟨ha, hb⟩ n hn m hm e
      rcases List.mem_cons.1 hn with rfl | hn' <;> rcases List.mem_cons.1 hm with rfl | hm'
      · rfl
      · exact absurd ⟨m, hm', e.symm⟩ ha
      · exact absurd ⟨n, hn', e⟩ ha
      · exact hb n hn' m hm' e
    · intro hc
      refine ⟨?_, fun n hn m hm => hc n (List.mem_cons_of_mem _ hn) m (List.mem_cons_of_mem _ hm)⟩
      rintro ⟨y, hy, e⟩
      exact h1 (hc y (List.mem_cons_of_mem _ hy) x (List.mem_cons_self ..) e ▸ hy)

/-- **C203** (compiles).  A file in which all types are declared, once each, is such a file
afterwards if and only if all names with underscores in its types are at the positions of
`FoundUs`, no type of a constant has one, and no two of its types differ in underscores only. -/
theorem C203_compiles_iff {replace : Str → Str} {pre : List Str} {ds ds' : List Decl}
    (hpre : ∀ n ∈ pre, '_' ∉ n) (hc : Compiles pre ds)
    (h : fixUnderscores replace ds = .ok ds') :
    Compiles pre ds' ↔
      (∀ d n t p m, Decl.typ d n t ∈ ds → nameAt t p = some m → '_' ∈ m → FoundUs p) ∧
      (∀ ts, Decl.consts ts ∈ ds → ∀ m ∈ ts, '_' ∉ m) ∧
      ∀ n ∈ declared ds, ∀ m ∈ declared ds,
        n.filter (· != '_') = m.filter (· != '_') → n = m := by
  obtain ⟨hcl, hnd⟩ := hc
  have hdec := C105_declared h
  have hbad : ∀ m, '_' ∈ m → (∃ x ∈ ds', m ∈ x.uses) → UndefinedType pre ds' m := by
    intro m hm hu
    refine ⟨hu, fun hd => ?_, fun hp => hpre m hp hm⟩
    rw [hdec] at hd
    obtain ⟨k, _, rfl⟩ := List.mem_map.1 hd
    exact ren_no k hm
  have hgood : ∀ m, (∃ x ∈ ds, m ∈ x.uses) → ren m ∈ declared ds' ∨ ren m ∈ pre := by
    intro m hu
    by_cases hd : m ∈ declared ds
    · left; rw [hdec]; exact List.mem_map.2 ⟨m, hd, rfl⟩
    · by_cases hp : m ∈ pre
      · right; rw [ren_eq (hpre m hp)]; exact hp
      · exact absurd ⟨hu, hd, hp⟩ (hcl m)
  unfold Compiles
  rw [hdec, ren_clash hnd]
  constructor
  · rintro ⟨h1, h2⟩
    refine ⟨fun d n t p m hx hm hu => ?_, fun ts hx m hm hu => ?_, h2⟩
    · apply Classical.byContradiction
      intro hf
      exact h1 m (hbad m hu ((C203_uses h m).2 (.inl ⟨d, n, t, p, m, hx, hm, .inr ⟨hf, rfl⟩⟩)))
    · exact h1 m (hbad m hu ((C203_uses h m).2 (.inr ⟨ts, hx, hm⟩)))
  · rintro ⟨h1, h2, h3⟩
    refine ⟨?_, h3⟩
    rintro n ⟨hu, hd, hp⟩
    have key : ∃ m, n = ren m ∧ ∃ x ∈ ds, m ∈ x.uses := by
      rcases (C203_uses h n).1 hu with ⟨d, k, t, p, m, hx, hm, ⟨hf, e⟩ | ⟨hf, rfl⟩⟩ | ⟨ts, hx, hn⟩
      · exact ⟨m, e, _, hx, (refs_iff _ _).2 ⟨p, hm⟩⟩
      · exact ⟨n, (ren_eq fun hu => hf (h1 d k t p n hx hm hu)).symm, _, hx,
          (refs_iff _ _).2 ⟨p, hm⟩⟩
      · exact ⟨n, (ren_eq (h2 ts hx n hn)).symm, _, hx, hn⟩
    obtain ⟨m, rfl, hm⟩ := key
    exact (hgood m hm).elim hd hp

/-- **C203** (panics).  It panics if and only if a type with an underscore in its name has no
comment, and otherwise returns. -/
theorem C203_panics_iff (replace : Str → Str) (ds : List Decl) :
    ((∃ n t, Decl.typ [] n t ∈ ds ∧ '_' ∈ n) ↔
      fixUnderscores replace ds = .panic .indexOutOfRange) ∧
    ((¬ ∃ n t, Decl.typ [] n t ∈ ds ∧ '_' ∈ n) ↔ ∃ ds', fixUnderscores replace ds = .ok ds') := by
  have hno : (¬ ∃ n t, Decl.typ [] n t ∈ ds ∧ '_' ∈ n) → ∃ ds', fixUnderscores replace ds = .ok ds' :=
    fun h => C105_succeeds fun n t hd hu => h ⟨n, t, hd, hu⟩
  have hyes : (∃ n t, Decl.typ [] n t ∈ ds ∧ '_' ∈ n) →
      fixUnderscores replace ds = .panic .indexOutOfRange :=
    fun ⟨n, t, hd, hu⟩ => C105_no_comment_panics hu hd
  refine ⟨⟨hyes, fun h => ?_⟩, hno, ?_⟩
  · apply Classical.byContradiction
    intro hn
    obtain ⟨ds', h'⟩ := hno hn
    rw [h] at h'; cases h'
  · rintro ⟨ds', h⟩ hn
    rw [hyes hn] at h; cases h

/-! ### C204: raw data -/

/-- **C204** (types).  Of a type only names change, and exactly the names of `ex` at the positions
of `Found`: they become `any`. -/
theorem C204_type (ex : List Str) (t : GT) : SameShape t (iterTop (rawName ex) t) ∧
    ∀ p n, nameAt t p = some n →
      (Found p ∧ n ∈ ex → nameAt (iterTop (rawName ex) t) p = some "any".toList) ∧
      (¬ (Found p ∧ n ∈ ex) → nameAt (iterTop (rawName ex) t) p = some n) := by
  refine ⟨shape_top _ t, fun p n hn => ?_⟩
  rw [nameAt_top, hn, Option.map_some]
  refine ⟨fun ⟨hf, he⟩ => ?_, fun hc => ?_⟩
  · rw [(fnd_top_iff p).2 hf]
    simp only [app, if_true, rawName, List.contains_iff_mem.2 he]
  · by_cases hf : Found p
    · simp only [app, rawName]
      rw [if_neg fun h => hc ⟨hf, List.contains_iff_mem.1 h⟩, ite_self]
    · rw [Bool.eq_false_iff.2 fun h => hf ((fnd_top_iff p).1 h)]
      rfl

private theorem raw_eq {ds : List Decl} (hm : ∀ f, Decl.func none f ∉ ds)
    (h2 : ∀ d n t, Decl.typ d n t ∈ ds → ¬ (Unnamed d ∧ RawType ds n)) :
    ∃ ex, (∀ n, n ∈ ex ↔ RawType ds n) ∧ fixRawData ds = .ok (ds.filterMap (keep ex)) := by
  obtain ⟨ex, hex⟩ := scan_ok [] [] hm
  have hspec : ∀ n, n ∈ ex ↔ RawType ds n := fun n => by rw [scan_spec hex n]; simp
  refine ⟨ex, hspec, ?_⟩
  unfold fixRawData
  rw [hex]
  exact sweep_ok false fun d n t hd h => h2 d n t hd ⟨(unnamed_iff d).1 h.1, (hspec n).1 h.2⟩

private theorem keep_typ {ds : List Decl} {ex : List Str} (hex : ∀ n, n ∈ ex ↔ RawType ds n)
    {d : List Str} {n : Str} {t : GT} {x : Decl} :
    keep ex (.typ d n t) = some x ↔ Stays ds d n ∧ x = .typ d n (iterTop (rawName ex) t) := by
  have hcond : (unnamed d || ex.contains n) = true ↔ (Unnamed d ∨ RawType ds n) := by
    rw [Bool.or_eq_true, unnamed_iff, List.contains_iff_mem, hex]
  rw [keep]
  split
  · next h =>
    rw [hcond] at h
    simp only [reduceCtorEq, false_iff]
    rintro ⟨⟨h1, h2⟩, _⟩
    exact h.elim h2 h1
  · next h =>
    rw [hcond] at h
    simp only [Option.some.injEq]
    exact ⟨fun e => ⟨⟨fun h' => h (.inr h'), fun h' => h (.inl h')⟩, e.symm⟩, fun e => e.2.symm⟩

/-- **C204** (uses).  Exactly what a file uses afterwards: the names of the declarations that
stay, with `any` for raw types where `Found` says so, and the types of its constants. -/
theorem C204_uses {ds ds' : List Decl} (hm : ∀ f, Decl.func none f ∉ ds)
    (h2 : ∀ d n t, Decl.typ d n t ∈ ds → ¬ (Unnamed d ∧ RawType ds n))
    (h : fixRawData ds = .ok ds') (n : Str) :
    (∃ x ∈ ds', n ∈ x.uses) ↔
      (∃ d k t p m, Decl.typ d k t ∈ ds ∧ Stays ds d k ∧ nameAt t p = some m ∧
        ((Found p ∧ RawType ds m) ∧ n = "any".toList ∨ ¬ (Found p ∧ RawType ds m) ∧ n = m)) ∨
      ∃ ts, Decl.consts ts ∈ ds ∧ n ∈ ts := by
  obtain ⟨ex, hex, he⟩ := raw_eq hm h2
  rw [he] at h
  cases h
  constructor
  · rintro ⟨x', hx', hn⟩
    obtain ⟨x, hx, hk⟩ := List.mem_filterMap.1 hx'
    cases x with
    | func o m => cases hk
    | consts ts => cases hk; exact .inr ⟨ts, hx, hn⟩
    | typ d k t =>
      obtain ⟨hs, rfl⟩ := (keep_typ hex).1 hk
      obtain ⟨p, hp⟩ := (refs_iff _ _).1 hn
      left
      have hp' := hp
      rw [nameAt_top, Option.map_eq_some_iff] at hp'
      obtain ⟨m, hm, _⟩ := hp'
      refine ⟨d, k, t, p, m, hx, hs, hm, ?_⟩
      have hc := (C204_type ex t).2 p m hm
      rw [hex] at hc
      by_cases hf : Found p ∧ RawType ds m
      · rw [hc.1 hf] at hp; cases hp; exact .inl ⟨hf, rfl⟩
      · rw [hc.2 hf] at hp; cases hp; exact .inr ⟨hf, rfl⟩
  · rintro (⟨d, k, t, p, m, hx, hs, hm, hc⟩ | ⟨ts, hx, hn⟩)
    · refine ⟨_, List.mem_filterMap.2 ⟨_, hx, (keep_typ hex).2 ⟨hs, rfl⟩⟩, (refs_iff _ _).2 ⟨p, ?_⟩⟩
      have ht := (C204_type ex t).2 p m hm
      rw [hex] at ht
      rcases hc with ⟨hc, rfl⟩ | ⟨hc, rfl⟩
      · exact ht.1 hc
      · exact ht.2 hc
    · exact ⟨_, List.mem_filterMap.2 ⟨_, hx, rfl⟩, hn⟩

/-- **C204** (declared).  Exactly the types that are declared afterwards. -/
theorem C204_declared {ds ds' : List Decl} (hm : ∀ f, Decl.func none f ∉ ds)
    (h2 : ∀ d n t, Decl.typ d n t ∈ ds → ¬ (Unnamed d ∧ RawType ds n))
    (h : fixRawData ds = .ok ds') (n : Str) :
    n ∈ declared ds' ↔ ∃ d t, Decl.typ d n t ∈ ds ∧ Stays ds d n := by
  obtain ⟨ex, hex, he⟩ := raw_eq hm h2
  rw [he] at h
  cases h
  constructor
  · intro hd
    obtain ⟨x', hx', e⟩ := List.mem_filterMap.1 hd
    obtain ⟨x, hx, hk⟩ := List.mem_filterMap.1 hx'
    cases x with
    | func o m => cases hk
    | consts ts => cases hk; cases e
    | typ d k t =>
      obtain ⟨hs, rfl⟩ := (keep_typ hex).1 hk
      cases e
      exact ⟨d, t, hx, hs⟩
  · rintro ⟨d, t, hx, hs⟩
    exact List.mem_filterMap.2 ⟨_, List.mem_filterMap.2 ⟨_, hx, (keep_typ hex).2 ⟨hs, rfl⟩⟩, rfl⟩

/-- **C204** (closed).  All types are declared afterwards if and only if in what stays every name
of a raw type is at a position of `Found`, every other name that occurs is predeclared or the name
of a declaration that stays, and so are the types of all constants. -/
theorem C204_closed_iff {pre : List Str} {ds ds' : List Decl} (hany : "any".toList ∈ pre)
    (hm : ∀ f, Decl.func none f ∉ ds)
    (h2 : ∀ d n t, Decl.typ d n t ∈ ds → ¬ (Unnamed d ∧ RawType ds n))
    (h : fixRawData ds = .ok ds') :
    (∀ n, ¬ UndefinedType pre ds' n) ↔
      (∀ d k t p m, Decl.typ d k t ∈ ds → Stays ds d k → nameAt t p = some m →
        RawType ds m ∧ Found p ∨ m ∈ pre ∨ ∃ d t, Decl.typ d m t ∈ ds ∧ Stays ds d m) ∧
      ∀ ts, Decl.consts ts ∈ ds → ∀ m ∈ ts,
        m ∈ pre ∨ ∃ d t, Decl.typ d m t ∈ ds ∧ Stays ds d m := by
  have hdef : (∀ n, ¬ UndefinedType pre ds' n) ↔ ∀ n, (∃ x ∈ ds', n ∈ x.uses) →
      n ∈ pre ∨ ∃ d t, Decl.typ d n t ∈ ds ∧ Stays ds d n := by
    constructor
    · intro hc n hu
      apply Classical.byContradiction
      intro hn
      exact hc n ⟨hu, fun hd => hn (.inr ((C204_declared hm h2 h n).1 hd)), fun hp => hn (.inl hp)⟩
    · rintro hc n ⟨hu, hd, hp⟩
      exact (hc n hu).elim hp fun h' => hd ((C204_declared hm h2 h n).2 h')
  rw [hdef]
  constructor
  · intro hc
    refine ⟨fun d k t p m hx hs hn => ?_, fun ts hx m hm' =>
      hc m ((C204_uses hm h2 h m).2 (.inr ⟨ts, hx, hm'⟩))⟩
    by_cases hf : Found p ∧ RawType ds m
    · exact .inl ⟨hf.2, hf.1⟩
    · exact .inr (hc m ((C204_uses hm h2 h m).2 (.inl ⟨d, k, t, p, m, hx, hs, hn, .inr ⟨hf, rfl⟩⟩)))
  · rintro ⟨h1, h3⟩ n hu
    rcases (C204_uses hm h2 h n).1 hu with ⟨d, k, t, p, m, hx, hs, hn, ⟨_, rfl⟩ | ⟨hf, rfl⟩⟩ |
      ⟨ts, hx, hn⟩
    · exact .inl hany
    · exact (h1 d k t p n hx hs hn).resolve_left fun h' => hf ⟨h'.2, h'.1⟩
    · exact h3 ts hx n hn

/-! ### C205: types that contain themselves -/

private theorem within_cons {s : Step} {p : List Step} : Within (s :: p) ↔ (∃ i, s = .fld i) ∧ Within p := by
  simp [Within]

mutual
private theorem contained_iff : ∀ (t : GT) (n : Str),
    n ∈ contained t ↔ ∃ p, nameAt t p = some n ∧ Within p
  | .ident m, n => by
    constructor
    · intro h
      exact ⟨[], by rw [List.mem_singleton.1 h]; rfl, fun _ h => nomatch h⟩
    · rintro ⟨p, h, _⟩
      cases p with
      | nil => cases h; exact List.mem_cons_self ..
      | cons s p => simp [nameAt] at h
  | .sel _ _, n => by
    simp only [contained, List.not_mem_nil, false_iff]
    rintro ⟨p, h, _⟩
    cases p <;> simp [nameAt] at h
  | .star t, n => by
    simp only [contained, List.not_mem_nil, false_iff]
    rintro ⟨p, h, hw⟩
    cases p with
    | nil => simp [nameAt] at h
    | cons s p =>
      obtain ⟨⟨i, rfl⟩, _⟩ := within_cons.1 hw
      simp [nameAt] at h
  | .arr t, n => by
    simp only [contained, List.not_mem_nil, false_iff]
    rintro ⟨p, h, hw⟩
    cases p with
    | nil => simp [nameAt] at h
    | cons s p =>
      obtain ⟨⟨i, rfl⟩, _⟩ := within_cons.1 hw
      simp [nameAt] at h
  | .map _ t, n => by
    simp only [contained, List.not_mem_nil, false_iff]
    rintro ⟨p, h, hw⟩
    cases p with
    | nil => simp [nameAt] at h
    | cons s p =>
      obtain ⟨⟨i, rfl⟩, _⟩ := within_cons.1 hw
      simp [nameAt] at h
  | .struct fs, n => by
    rw [contained, containedFs_iff fs]
    constructor
    · rintro ⟨i, p, h, hw⟩; exact ⟨.fld i :: p, h, within_cons.2 ⟨⟨i, rfl⟩, hw⟩⟩
    · rintro ⟨p, h, hw⟩
      cases p with
      | nil => simp [nameAt] at h
      | cons s p =>
        obtain ⟨⟨i, rfl⟩, hw'⟩ := within_cons.1 hw
        exact ⟨i, p, h, hw'⟩
private theorem containedFs_iff : ∀ (fs : GFs) (n : Str),
    n ∈ containedFs fs ↔ ∃ i p, nameAtFs fs i p = some n ∧ Within p
  | .nil, n => by simp [containedFs, nameAtFs]
  | .cons f t r, n => by
    rw [containedFs, List.mem_append, contained_iff t, containedFs_iff r]
    constructor
    · rintro (⟨p, h⟩ | ⟨i, p, h⟩)
      · exact ⟨0, p, h⟩
      · exact ⟨i + 1, p, h⟩
    · rintro ⟨i, p, h⟩
      cases i with
      | zero => exact .inl ⟨p, h⟩
      | succ i => exact .inr ⟨i, p, h⟩
end

/-- The type of a field, with or without a pointer. -/
private def OptAt (t : GT) (n : Str) : Prop :=
  (∃ p, nameAt t p = some n ∧ WithinOpt p) ∨ ∃ p, nameAt t (.ptr :: p) = some n ∧ WithinOpt p

private theorem not_opt {t : GT} {n : Str} (h0 : nameAt t [] = none) (hf : ∀ i p, nameAt t (.fld i :: p) = none) :
    ¬ ∃ p, nameAt t p = some n ∧ WithinOpt p := by
  rintro ⟨p, h, hw⟩
  cases hw with
  | nil => rw [h0] at h; cases h
  | plain i hp => rw [hf] at h; cases h
  | ptr i hp => rw [hf] at h; cases h

mutual
private theorem optFs_iff : ∀ (fs : GFs) (n : Str),
    n ∈ containedFs (depFs true fs) ↔ ∃ i p, nameAtFs fs i p = some n ∧
      (WithinOpt p ∨ ∃ q, p = .ptr :: q ∧ WithinOpt q)
  | .nil, n => by simp [depFs, containedFs, nameAtFs]
  | .cons f t r, n => by
    rw [depFs, containedFs, List.mem_append, optField_iff t, optFs_iff r]
    constructor
    · rintro ((⟨p, h, hw⟩ | ⟨p, h, hw⟩) | ⟨i, p, h⟩)
      · exact ⟨0, p, h, .inl hw⟩
      · exact ⟨0, _, h, .inr ⟨p, rfl, hw⟩⟩
      · exact ⟨i + 1, p, h⟩
    · rintro ⟨i, p, h, hw⟩
      cases i with
      | zero =>
        left
        rcases hw with hw | ⟨q, rfl, hw⟩
        · exact .inl ⟨p, h, hw⟩
        · exact .inr ⟨q, h, hw⟩
      | succ i => exact .inr ⟨i, p, h, hw⟩
private theorem optField_iff : ∀ (t : GT) (n : Str),
    n ∈ contained (depField true t) ↔ OptAt t n
  | .ident m, n => by
    simp only [depField, contained, List.mem_singleton]
    constructor
    · rintro rfl; exact .inl ⟨[], rfl, .nil⟩
    · rintro (⟨p, h, hw⟩ | ⟨p, h, hw⟩)
      · cases p with
        | nil => cases h; rfl
        | cons s p => simp [nameAt] at h
      · simp [nameAt] at h
  | .sel _ _, n => by
    simp only [depField, contained, List.not_mem_nil, false_iff]
    rintro (h | ⟨p, h, hw⟩)
    · exact not_opt (by simp [nameAt]) (by simp [nameAt]) h
    · simp [nameAt] at h
  | .arr _, n => by
    simp only [depField, contained, List.not_mem_nil, false_iff]
    rintro (h | ⟨p, h, hw⟩)
    · exact not_opt (by simp [nameAt]) (by simp [nameAt]) h
    · simp [nameAt] at h
  | .map _ _, n => by
    simp only [depField, contained, List.not_mem_nil, false_iff]
    rintro (h | ⟨p, h, hw⟩)
    · exact not_opt (by simp [nameAt]) (by simp [nameAt]) h
    · simp [nameAt] at h
  | .struct fs, n => by
    rw [depField, contained, optFs_iff fs]
    constructor
    · rintro ⟨i, p, h, hw | ⟨q, rfl, hw⟩⟩
      · exact .inl ⟨.fld i :: p, h, .plain i hw⟩
      · exact .inl ⟨.fld i :: .ptr :: q, h, .ptr i hw⟩
    · rintro (⟨p, h, hw⟩ | ⟨p, h, hw⟩)
      · cases hw with
        | nil => simp [nameAt] at h
        | plain i hp => exact ⟨i, _, h, .inl hp⟩
        | ptr i hp => exact ⟨i, _, h, .inr ⟨_, rfl, hp⟩⟩
      · simp [nameAt] at h
  | .star (.ident m), n => by
    simp only [depField, if_true, contained, List.mem_singleton]
    constructor
    · rintro rfl; exact .inr ⟨[], rfl, .nil⟩
    · rintro (h | ⟨p, h, hw⟩)
      · exact absurd h (not_opt (by simp [nameAt]) (by simp [nameAt]))
      · cases p with
        | nil => simp [nameAt] at h; exact h.symm
        | cons s p => simp [nameAt] at h
  | .star (.sel _ _), n => by
    simp only [depField, if_true, contained, List.not_mem_nil, false_iff]
    rintro (h | ⟨p, h, hw⟩)
    · exact not_opt (by simp [nameAt]) (by simp [nameAt]) h
    · rw [nameAt] at h
      exact not_opt (by simp [nameAt]) (by simp [nameAt]) ⟨p, h, hw⟩
  | .star (.star _), n => by
    simp only [depField, if_true, contained, List.not_mem_nil, false_iff]
    rintro (h | ⟨p, h, hw⟩)
    · exact not_opt (by simp [nameAt]) (by simp [nameAt]) h
    · rw [nameAt] at h
      exact not_opt (by simp [nameAt]) (by simp [nameAt]) ⟨p, h, hw⟩
  | .star (.arr _), n => by
    simp only [depField, contained, List.not_mem_nil, false_iff]
    rintro (h | ⟨p, h, hw⟩)
    · exact not_opt (by simp [nameAt]) (by simp [nameAt]) h
    · rw [nameAt] at h
      exact not_opt (by simp [nameAt]) (by simp [nameAt]) ⟨p, h, hw⟩
  | .star (.map _ _), n => by
    simp only [depField, contained, List.not_mem_nil, false_iff]
    rintro (h | ⟨p, h, hw⟩)
    · exact not_opt (by simp [nameAt]) (by simp [nameAt]) h
    · rw [nameAt] at h
      exact not_opt (by simp [nameAt]) (by simp [nameAt]) ⟨p, h, hw⟩
  | .star (.struct fs), n => by
    simp only [depField, if_true, contained]
    rw [optFs_iff fs]
    constructor
    · rintro ⟨i, p, h, hw | ⟨q, rfl, hw⟩⟩
      · exact .inr ⟨.fld i :: p, h, .plain i hw⟩
      · exact .inr ⟨.fld i :: .ptr :: q, h, .ptr i hw⟩
    · rintro (h | ⟨p, h, hw⟩)
      · exact absurd h (not_opt (by simp [nameAt]) (by simp [nameAt]))
      · rw [nameAt] at h
        cases hw with
        | nil => simp [nameAt] at h
        | plain i hp => exact ⟨i, _, h, .inl hp⟩
        | ptr i hp => exact ⟨i, _, h, .inr ⟨_, rfl, hp⟩⟩
end

private theorem opt_iff (t : GT) (n : Str) :
    n ∈ contained (dep true t) ↔ ∃ p, nameAt t p = some n ∧ WithinOpt p := by
  cases t with
  | ident m =>
    simp only [dep, contained, List.mem_singleton]
    constructor
    · rintro rfl; exact ⟨[], rfl, .nil⟩
    · rintro ⟨p, h, hw⟩
      cases p with
      | nil => cases h; rfl
      | cons s p => simp [nameAt] at h
  | struct fs =>
    have := optField_iff (.struct fs) n
    rw [depField] at this
    rw [dep, this]
    refine ⟨fun h => h.elim id ?_, .inl⟩
    rintro ⟨p, h, _⟩
    simp [nameAt] at h
  | sel _ _ =>
    simp only [dep, contained, List.not_mem_nil, false_iff]
    exact not_opt (by simp [nameAt]) (by simp [nameAt])
  | star _ =>
    simp only [dep, contained, List.not_mem_nil, false_iff]
    exact not_opt (by simp [nameAt]) (by simp [nameAt])
  | arr _ =>
    simp only [dep, contained, List.not_mem_nil, false_iff]
    exact not_opt (by simp [nameAt]) (by simp [nameAt])
  | map _ _ =>
    simp only [dep, contained, List.not_mem_nil, false_iff]
    exact not_opt (by simp [nameAt]) (by simp [nameAt])

private theorem typ_dep {all : Bool} {ds : List Decl} {d : List Str} {n : Str} {t' : GT} :
    Decl.typ d n t' ∈ ds.map (depDecl all) ↔ ∃ t, Decl.typ d n t ∈ ds ∧ t' = dep all t := by
  rw [List.mem_map]
  constructor
  · rintro ⟨x, hx, e⟩
    cases x with
    | typ d' n' t => cases e; exact ⟨t, hx, rfl⟩
    | func o m => cases e
    | consts ts => cases e
  · rintro ⟨t, hx, rfl⟩
    exact ⟨_, hx, rfl⟩

/-- **C205** (one step).  With `NoOptionalPointers` a type contains exactly the values of the types
that its fields had directly or with a pointer; by default what it contained before. -/
theorem C205_holds (ds : List Decl) (n m : Str) :
    (Holds (ds.map (depDecl true)) n m ↔ HoldsOpt ds n m) ∧
    (Holds (ds.map (depDecl false)) n m ↔ Holds ds n m) := by
  constructor
  · constructor
    · rintro ⟨d, t', p, hx, hp, hw⟩
      obtain ⟨t, hx', rfl⟩ := typ_dep.1 hx
      obtain ⟨q, hq⟩ := (opt_iff t m).1 ((contained_iff _ m).2 ⟨p, hp, hw⟩)
      exact ⟨d, t, q, hx', hq⟩
    · rintro ⟨d, t, q, hx, hq⟩
      obtain ⟨p, hp⟩ := (contained_iff _ m).1 ((opt_iff t m).2 ⟨q, hq⟩)
      exact ⟨d, _, p, typ_dep.2 ⟨t, hx, rfl⟩, hp⟩
  · constructor
    · rintro ⟨d, t', p, hx, hp, hw⟩
      obtain ⟨t, hx', rfl⟩ := typ_dep.1 hx
      have := (contained_iff _ m).2 ⟨p, hp, hw⟩
      rw [contained_dep] at this
      obtain ⟨q, hq⟩ := (contained_iff t m).1 this
      exact ⟨d, t, q, hx', hq⟩
    · rintro ⟨d, t, q, hx, hq⟩
      have := (contained_iff t m).2 ⟨q, hq⟩
      rw [← contained_dep] at this
      obtain ⟨p, hp⟩ := (contained_iff _ m).1 this
      exact ⟨d, _, p, typ_dep.2 ⟨t, hx, rfl⟩, hp⟩

private theorem leads_congr {R S : Str → Str → Prop} (h : ∀ n m, R n m → S n m) {n m : Str}
    (hl : Leads R n m) : Leads S n m := by
  induction hl with
  | one h' => exact .one (h _ _ h')
  | more h' _ ih => exact .more (h _ _ h') ih

/-- **C205**.  With `NoOptionalPointers` no declared type contains itself if and only if before
there was no cycle through fields with or without pointers; by default if and only if none did
before. -/
theorem C205_valid_iff (ds : List Decl) :
    (NoneContainsItself (ds.map (depDecl true)) ↔ ∀ n, ¬ Leads (HoldsOpt ds) n n) ∧
    (NoneContainsItself (ds.map (depDecl false)) ↔ NoneContainsItself ds) := by
  refine ⟨forall_congr' fun n => not_congr ⟨?_, ?_⟩, forall_congr' fun n => not_congr ⟨?_, ?_⟩⟩
  · exact leads_congr fun n m => (C205_holds ds n m).1.1
  · exact leads_congr fun n m => (C205_holds ds n m).1.2
  · exact leads_congr fun n m => (C205_holds ds n m).2.1
  · exact leads_congr fun n m => (C205_holds ds n m).2.2

/-! ### The theorems on concrete files -/

/-- `*A_b` in a struct in a map: there underscores are removed, but raw types stay. -/
private def pMap : List Step := [.fld 1, .val, .fld 0, .ptr]

private theorem pMap_us : FoundUs pMap := .inr (.inl ⟨[.fld 1, .val], 0, rfl⟩)

private theorem pMap_raw : ¬ Found pMap := fun h => by
  have := (fnd_top_iff _).2 h
  revert this; decide

/-- `type A_b string; type C struct { F A_b; G map[string]struct { H *A_b } }`. -/
private def cType : GT := .struct (.cons ⟨"F".toList, .none⟩ (.ident "A_b".toList)
  (.cons ⟨"G".toList, .none⟩ (.map (.ident "string".toList)
    (.struct (.cons ⟨"H".toList, .none⟩ (.star (.ident "A_b".toList)) .nil))) .nil))

example : nameAt (visit (iterTop ren cType)) pMap = some "Ab".toList := by
  rw [((C203_type cType).2 pMap).1 pMap_us]; rfl

example : nameAt (iterTop (rawName ["A_b".toList]) cType) pMap = some "A_b".toList :=
  (((C204_type ["A_b".toList] cType).2 pMap "A_b".toList rfl).2 fun h => pMap_raw h.1)

example := C203_file (replace := id) (ds := usFile ["A_b".toList]) rfl

private theorem usFile_compiles (cs : List Str) (hcs : cs ⊆ ["A_b".toList]) :
    Compiles ["string".toList] (usFile cs) := by
  refine ⟨?_, by simp only [usFile, declared, List.filterMap]; decide⟩
  rintro n ⟨⟨d, hd, hn⟩, h2, h3⟩
  simp only [usFile, declared, List.filterMap, List.mem_cons, List.not_mem_nil, or_false,
    not_or] at h2 h3 hd
  rcases hd with rfl | rfl | rfl
  · exact h3 (by simpa [Decl.uses, refs] using hn)
  · exact h2.1 (by simpa using hcs hn)
  · simp [Decl.uses, refs, refsFs] at hn
    rcases hn with rfl | rfl | rfl
    · exact h2.1 rfl
    · exact h3 rfl
    · exact h2.1 rfl

/-- With a constant of type `A_b` the file does not compile afterwards. -/
example : ∃ ds', fixUnderscores id (usFile ["A_b".toList]) = .ok ds' ∧
    Compiles ["string".toList] (usFile ["A_b".toList]) ∧ ¬ Compiles ["string".toList] ds' := by
  have hc := usFile_compiles ["A_b".toList] fun _ h => h
  refine ⟨_, rfl, hc, fun h => ?_⟩
  have := ((C203_compiles_iff (replace := id) (by decide) hc rfl).1 h).2.1 ["A_b".toList]
    (by simp [usFile]) _ (List.mem_cons_self ..)
  exact this (by decide)

/-- Without one it does. -/
example : ∃ ds', fixUnderscores id (usFile []) = .ok ds' ∧ Compiles ["string".toList] ds' := by
  obtain ⟨ds', h⟩ : ∃ ds', fixUnderscores id (usFile []) = .ok ds' := ⟨_, rfl⟩
  refine ⟨ds', h, (C203_compiles_iff (replace := id) (by decide)
    (usFile_compiles [] fun _ h => nomatch h) h).2 ⟨?_, ?_, by
      simp only [usFile, declared, List.filterMap]; decide⟩⟩
  · intro d n t p m hx hm hu
    simp only [usFile, List.mem_cons, List.not_mem_nil, or_false, Decl.typ.injEq, reduceCtorEq,
      false_or] at hx
    rcases hx with ⟨_, _, rfl⟩ | ⟨_, _, rfl⟩
    · cases p with
      | nil => cases hm; exact absurd hu (by decide)
      | cons s p => simp [nameAt] at hm
    · have hb : (vis p || fnd .top p) = true := by
        apply Classical.byContradiction
        intro hb
        match p, hm with
        | [.fld 0], _ => exact hb (by decide)
        | [.fld 1, .val, .fld 0, .ptr], _ => exact hb (by decide)
        | [.fld 1, .key], hm =>
          simp [nameAt, nameAtFs] at hm
          subst hm; revert hu; decide
      exact (us_iff p).1 hb
  · intro ts hx m hm
    simp only [usFile, List.mem_cons, List.not_mem_nil, or_false, Decl.consts.injEq, reduceCtorEq,
      false_or] at hx
    subst hx; cases hm

example : fixUnderscores id [.typ [] "A_b".toList (.ident "string".toList)] =
    .panic .indexOutOfRange :=
  (C203_panics_iff id _).1.1 ⟨_, _, List.mem_cons_self .., by decide⟩

/-- The file with a raw type, which is used with a pointer: nothing is undefined afterwards. -/
example : ∃ ds', fixRawData (rawFile []) = .ok ds' ∧
    ∀ n, ¬ UndefinedType ["any".toList, "string".toList] ds' n := by
  refine ⟨_, rfl, (C204_closed_iff (by decide) rawFile_hyps.1 rawFile_hyps.2.1 rfl).2 ⟨?_, ?_⟩⟩
  · intro d k t p m hx hs hm
    simp only [rawFile, List.mem_cons, List.not_mem_nil, or_false, Decl.typ.injEq, reduceCtorEq,
      false_or] at hx
    rcases hx with ⟨_, rfl, _⟩ | ⟨_, _, rfl⟩
    · exact absurd (rawFile_raw []) hs.1
    · left
      match p, hm with
      | [.fld 0, .ptr], hm =>
        simp only [nameAt, nameAtFs, Option.some.injEq] at hm
        subst hm
        exact ⟨rawFile_raw [], (fnd_top_iff _).1 (by decide)⟩
  · intro ts hx m hm
    simp only [rawFile, List.mem_cons, List.not_mem_nil, or_false, Decl.consts.injEq, reduceCtorEq,
      or_false] at hx
    subst hx; cases hm

example : ∀ ds', fixRawData (rawFile []) = .ok ds' → "Use".toList ∈ declared ds' ∧
    ∃ x ∈ ds', "any".toList ∈ x.uses := by
  intro ds' h
  have hs : Stays (rawFile []) [] "Use".toList :=
    ⟨fun h => absurd (rawFile_only h) (by decide), fun ⟨_, _, h⟩ => by cases h⟩
  have hx : Decl.typ [] "Use".toList (.struct (.cons ⟨"F".toList, .none⟩
      (.star (.ident "Raw".toList)) .nil)) ∈ rawFile [] := by simp [rawFile]
  refine ⟨(C204_declared rawFile_hyps.1 rawFile_hyps.2.1 h _).2 ⟨_, _, hx, hs⟩,
    (C204_uses rawFile_hyps.1 rawFile_hyps.2.1 h _).2 (.inl ⟨_, _, _, [.fld 0, .ptr], _, hx, hs,
      rfl, .inl ⟨⟨(fnd_top_iff _).1 (by decide), rawFile_raw []⟩, rfl⟩⟩)⟩

/-- `type A struct { B *B }; type B struct { A *A }`: valid, but not without the pointers. -/
private def mutualFile : List Decl :=
  [.typ [] "A".toList (.struct (.cons ⟨"B".toList, .none⟩ (.star (.ident "B".toList)) .nil)),
   .typ [] "B".toList (.struct (.cons ⟨"A".toList, .none⟩ (.star (.ident "A".toList)) .nil))]

example : NoneContainsItself mutualFile ∧ NoneContainsItself (mutualFile.map (depDecl false)) ∧
    ¬ NoneContainsItself (mutualFile.map (depDecl true)) := by
  have h : NoneContainsItself mutualFile := by
    have : ∀ n m, ¬ Holds mutualFile n m := by
      rintro n m ⟨d, t, p, hx, hm, hw⟩
      have := (contained_iff t m).2 ⟨p, hm, hw⟩
      simp only [mutualFile, List.mem_cons, List.not_mem_nil, or_false, Decl.typ.injEq] at hx
      rcases hx with ⟨_, _, rfl⟩ | ⟨_, _, rfl⟩ <;> cases this
    intro n hl
    cases hl with
    | one h => exact this _ _ h
    | more h _ => exact this _ _ h
  refine ⟨h, (C205_valid_iff mutualFile).2.2 h, fun hn => (C205_valid_iff mutualFile).1.1 hn "A".toList
    (.more (k := "B".toList) ?_ (.one ?_))⟩
  · exact ⟨_, _, [.fld 0, .ptr], List.mem_cons_self .., rfl, .ptr 0 .nil⟩
  · exact ⟨_, _, [.fld 0, .ptr], List.mem_cons_of_mem _ (List.mem_cons_self ..), rfl, .ptr 0 .nil⟩

end Thema.Props

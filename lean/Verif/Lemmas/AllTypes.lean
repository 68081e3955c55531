import Verif.Spec.AllTypes

/-!
# Replacing names in types
-/

namespace Thema.AllTypes

open GoTypes

mutual
/-- No pointers. -/
def Flat : GT → Prop
  | .ident _ => True
  | .sel _ _ => True
  | .star _ => False
  | .arr t => Flat t
  | .map k v => k = .ident "string".toList ∧ Flat v
  | .struct fs => FlatFs fs
/-- Pointers only as types of fields, and not to slices and maps. -/
def FlatFs : GFs → Prop
  | .nil => True
  | .cons _ t fs => FlatF t ∧ FlatFs fs
def FlatF : GT → Prop
  | .star t => Flat t ∧ (∀ e, t ≠ .arr e) ∧ ∀ k v, t ≠ .map k v
  | .ident _ => True
  | .sel _ _ => True
  | .arr t => Flat t
  | .map k v => k = .ident "string".toList ∧ Flat v
  | .struct fs => FlatFs fs
end

theorem Flat.field : ∀ {t : GT}, Flat t → FlatF t
  | .ident _, _ => by rw [FlatF]; trivial
  | .sel _ _, _ => by rw [FlatF]; trivial
  | .star _, h => by rw [Flat] at h; exact h.elim
  | .arr _, h => by rw [FlatF]; rw [Flat] at h; exact h
  | .map _ _, h => by rw [FlatF]; rw [Flat] at h; exact h
  | .struct _, h => by rw [FlatF]; rw [Flat] at h; exact h

/-! ### Cases -/

theorem subst_arr_arr {d : Bool} {f : Str → Str} {e : GT} :
    subst d f (.arr (.arr e)) = .arr (subst d f (.arr e)) := by
  generalize h : GT.arr e = t
  rw [subst]
  intro k v hc
  rw [← h] at hc
  cases hc

theorem subst_map_arr {d : Bool} {f : Str → Str} {k e : GT} :
    subst d f (.map k (.arr e)) = .map k (subst d f (.arr e)) := by
  generalize h : GT.arr e = t
  rw [subst]
  intro fs hc
  rw [← h] at hc
  cases hc

theorem subst_map_map {d : Bool} {f : Str → Str} {k k' e : GT} :
    subst d f (.map k (.map k' e)) = .map k (subst d f (.map k' e)) := by
  generalize h : GT.map k' e = t
  rw [subst]
  intro fs hc
  rw [← h] at hc
  cases hc

/-! ### Iterating -/

mutual
theorem iterField_subst (f : Str → Str) : ∀ t : GT, FlatF t → iterField f t = subst false f t
  | .ident n, _ => by simp only [iterField, subst]
  | .sel p n, _ => by simp only [iterField, subst]
  | .arr e, h => by
    rw [FlatF] at h
    rw [iterField, arr_subst f e h]
  | .map k v, h => by
    rw [FlatF] at h
    rw [iterField, map_subst f k v h.2]
  | .struct fs, h => by
    rw [FlatF] at h
    rw [iterField, subst, iterFs_subst f fs h]
  | .star (.ident n), _ => by simp only [iterField, subst]
  | .star (.sel p n), _ => by simp only [iterField, subst]
  | .star (.arr e), h => by rw [FlatF] at h; exact (h.2.1 e rfl).elim
  | .star (.map k v), h => by rw [FlatF] at h; exact (h.2.2 k v rfl).elim
  | .star (.struct fs), h => by
    rw [FlatF, Flat] at h
    rw [iterField, subst, subst, iterFs_subst f fs h.1]
  | .star (.star t), h => by rw [FlatF, Flat] at h; exact h.1.elim
theorem arr_subst (f : Str → Str) : ∀ e : GT, Flat e →
    GT.arr (iterArr f e) = subst false f (.arr e)
  | .ident n, _ => by simp only [iterArr, subst]
  | .sel p n, _ => by simp only [iterArr, subst]
  | .arr e, h => by
    rw [Flat] at h
    rw [iterArr, arr_subst f e h, subst_arr_arr]
  | .map k v, _ => by simp only [iterArr, subst, Bool.false_eq_true, if_false]
  | .struct fs, h => by
    rw [Flat] at h
    rw [iterArr, iterFs_subst f fs h]
    simp only [subst]
  | .star _, h => by rw [Flat] at h; exact h.elim
theorem map_subst (f : Str → Str) (k : GT) : ∀ v : GT, Flat v →
    GT.map k (iterMap f v) = subst false f (.map k v)
  | .ident n, _ => by simp only [iterMap, subst]
  | .sel p n, _ => by simp only [iterMap, subst]
  | .arr e, h => by
    rw [Flat] at h
    rw [iterMap, arr_subst f e h, subst_map_arr]
  | .map k' v, h => by
    rw [Flat] at h
    rw [iterMap, map_subst f k' v h.2, subst_map_map]
  | .struct fs, _ => by simp only [iterMap, subst, Bool.false_eq_true, if_false]
  | .star _, h => by rw [Flat] at h; exact h.elim
theorem iterFs_subst (f : Str → Str) : ∀ fs : GFs, FlatFs fs → iterFs f fs = substFs false f fs
  | .nil, _ => by rw [iterFs, substFs]
  | .cons n t fs, h => by
    rw [FlatFs] at h
    rw [iterFs, substFs, iterField_subst f t h.1, iterFs_subst f fs h.2]
end

theorem iterTop_subst (f : Str → Str) : ∀ t : GT, Flat t → iterTop f t = substDecl false f t
  | .ident n, _ => rfl
  | .sel p n, _ => by simp only [iterTop, substDecl, subst]
  | .arr e, h => by
    rw [Flat] at h
    rw [iterTop, arr_subst f e h, substDecl]
    nofun
  | .map k v, h => by
    rw [Flat] at h
    rw [iterTop, map_subst f k v h.2, substDecl]
    nofun
  | .struct fs, h => by
    rw [Flat] at h
    rw [iterTop, iterFs_subst f fs h, substDecl, subst]
    nofun
  | .star _, h => by rw [Flat] at h; exact h.elim

/-! ### Replacing keeps the form -/

mutual
theorem flat_subst (f : Str → Str) : ∀ t : GT, Flat t → Flat (subst false f t)
  | .ident n, _ => by simp only [subst, Flat]
  | .sel p n, _ => by simp only [subst, Flat]
  | .arr (.map k v), h => by simpa only [subst, Bool.false_eq_true, if_false] using h
  | .arr (.ident n), h => by simp only [subst, Flat]
  | .arr (.sel p n), h => by simp only [subst, Flat]
  | .arr (.arr e), h => by
    rw [Flat] at h
    rw [subst_arr_arr, Flat]
    exact flat_subst f (.arr e) h
  | .arr (.struct fs), h => by
    rw [Flat] at h
    have := flat_subst f (.struct fs) h
    rw [subst, Flat]
    · exact this
    · nofun
  | .arr (.star _), h => by rw [Flat, Flat] at h; exact h.elim
  | .map k (.struct fs), h => by simpa only [subst, Bool.false_eq_true, if_false] using h
  | .map k (.ident n), h => by rw [Flat] at h; simp only [subst, Flat, h.1, and_self]
  | .map k (.sel p n), h => by rw [Flat] at h; simp only [subst, Flat, h.1, and_self]
  | .map k (.arr e), h => by
    rw [Flat] at h
    rw [subst_map_arr, Flat]
    exact ⟨h.1, flat_subst f (.arr e) h.2⟩
  | .map k (.map k' v), h => by
    rw [Flat] at h
    rw [subst_map_map, Flat]
    exact ⟨h.1, flat_subst f (.map k' v) h.2⟩
  | .map k (.star _), h => by rw [Flat, Flat] at h; exact h.2.elim
  | .struct fs, h => by
    rw [Flat] at h
    rw [subst, Flat]
    exact flatFs_subst f fs h
  | .star _, h => by rw [Flat] at h; exact h.elim
theorem flatF_subst (f : Str → Str) : ∀ t : GT, FlatF t → FlatF (subst false f t)
  | .star t, h => by
    rw [FlatF] at h
    rw [subst, FlatF]
    refine ⟨flat_subst f t h.1, ?_, ?_⟩
    · intro e he
      cases t with
      | arr e => exact h.2.1 e rfl
      | map k v => exact h.2.2 k v rfl
      | _ => simp only [subst] at he; cases he
    · intro k' v' he
      cases t with
      | arr e => exact h.2.1 e rfl
      | map k v => exact h.2.2 k v rfl
      | _ => simp only [subst] at he; cases he
  | .ident n, _ => (flat_subst f _ (by rw [Flat]; trivial)).field
  | .sel p n, _ => (flat_subst f _ (by rw [Flat]; trivial)).field
  | .arr t, h => (flat_subst f _ (by rw [Flat]; rwa [FlatF] at h)).field
  | .map k v, h => (flat_subst f _ (by rw [Flat]; rwa [FlatF] at h)).field
  | .struct fs, h => (flat_subst f _ (by rw [Flat]; rwa [FlatF] at h)).field
theorem flatFs_subst (f : Str → Str) : ∀ fs : GFs, FlatFs fs → FlatFs (substFs false f fs)
  | .nil, _ => by rw [substFs, FlatFs]; trivial
  | .cons n t fs, h => by
    rw [FlatFs] at h
    rw [substFs, FlatFs]
    exact ⟨flatF_subst f t h.1, flatFs_subst f fs h.2⟩
end

theorem flat_substDecl (f : Str → Str) {t : GT} (h : Flat t) : Flat (substDecl false f t) := by
  cases t with
  | ident n => exact h
  | _ => exact flat_subst f _ h

/-! ### Removing underscores -/

theorem ren_ren (n : Str) : ren (ren n) = ren n := by
  unfold ren
  rw [List.filter_filter]
  congr 1
  funext c
  simp

mutual
theorem iterField_again : ∀ t : GT, FlatF t →
    iterField ren (subst true ren t) = subst true ren t
  | .ident n, _ => by simp only [iterField, subst, ren_ren]
  | .sel p n, _ => by simp only [iterField, subst]
  | .arr e, h => by
    rw [FlatF] at h
    obtain ⟨e', he, hi⟩ := arr_again e h
    rw [he, iterField, hi]
  | .map k v, h => by
    rw [FlatF] at h
    obtain ⟨e', he, hi⟩ := map_again k v h.2
    rw [he, iterField, hi]
  | .struct fs, h => by
    rw [FlatF] at h
    rw [subst, iterField, iterFs_again fs h]
  | .star (.ident n), _ => by simp only [iterField, subst, ren_ren]
  | .star (.sel p n), _ => by simp only [iterField, subst]
  | .star (.arr e), h => by rw [FlatF] at h; exact (h.2.1 e rfl).elim
  | .star (.map k v), h => by rw [FlatF] at h; exact (h.2.2 k v rfl).elim
  | .star (.struct fs), h => by
    rw [FlatF, Flat] at h
    rw [subst, subst, iterField, iterFs_again fs h.1]
  | .star (.star t), h => by rw [FlatF, Flat] at h; exact h.1.elim
theorem arr_again : ∀ e : GT, Flat e →
    ∃ e', subst true ren (.arr e) = .arr e' ∧ iterArr ren e' = e'
  | .ident n, _ => ⟨.ident (ren n), by simp only [subst], by rw [iterArr, ren_ren]⟩
  | .sel p n, _ => ⟨.sel p n, by simp only [subst], by rw [iterArr]⟩
  | .arr e, h => by
    rw [Flat] at h
    obtain ⟨e', he, hi⟩ := arr_again e h
    exact ⟨.arr e', by rw [subst_arr_arr, he], by rw [iterArr, hi]⟩
  | .map k v, _ => ⟨_, by rw [subst], by rw [iterArr]⟩
  | .struct fs, h => by
    rw [Flat] at h
    exact ⟨.struct (substFs true ren fs), by simp only [subst], by rw [iterArr, iterFs_again fs h]⟩
  | .star _, h => by rw [Flat] at h; exact h.elim
theorem map_again (k : GT) : ∀ v : GT, Flat v →
    ∃ v', subst true ren (.map k v) = .map k v' ∧ iterMap ren v' = v'
  | .ident n, _ => ⟨.ident (ren n), by simp only [subst], by rw [iterMap, ren_ren]⟩
  | .sel p n, _ => ⟨.sel p n, by simp only [subst], by rw [iterMap]⟩
  | .arr e, h => by
    rw [Flat] at h
    obtain ⟨e', he, hi⟩ := arr_again e h
    exact ⟨.arr e', by rw [subst_map_arr, he], by rw [iterMap, hi]⟩
  | .map k' v, h => by
    rw [Flat] at h
    obtain ⟨v', he, hi⟩ := map_again k' v h.2
    exact ⟨.map k' v', by rw [subst_map_map, he], by rw [iterMap, hi]⟩
  | .struct fs, h => ⟨.struct (substFs true ren fs), by simp only [subst, if_true], by rw [iterMap]⟩
  | .star _, h => by rw [Flat] at h; exact h.elim
theorem iterFs_again : ∀ fs : GFs, FlatFs fs →
    iterFs ren (substFs true ren fs) = substFs true ren fs
  | .nil, _ => by rw [substFs, iterFs]
  | .cons n t fs, h => by
    rw [FlatFs] at h
    rw [substFs, iterFs, iterField_again t h.1, iterFs_again fs h.2]
end

mutual
theorem visit_inStructs : ∀ t : GT, Flat t → visit t = inStructs true ren t
  | .ident n, _ => by rw [visit, inStructs]
  | .sel p n, _ => by rw [visit, inStructs]
  | .arr e, h => by
    rw [Flat] at h
    rw [visit, inStructs, visit_inStructs e h]
  | .map k v, h => by
    rw [Flat] at h
    rw [visit, inStructs, visit_inStructs v h.2, h.1, visit]
  | .struct fs, h => by
    rw [Flat] at h
    rw [visit, inStructs, visitFs_substFs fs h]
  | .star _, h => by rw [Flat] at h; exact h.elim
theorem visit_arr : ∀ e : GT, Flat e →
    GT.arr (iterArr ren (visit e)) = subst true ren (.arr e)
  | .ident n, _ => by simp only [visit, iterArr, subst]
  | .sel p n, _ => by simp only [visit, iterArr, subst]
  | .arr e, h => by
    rw [Flat] at h
    rw [visit, iterArr, visit_arr e h, subst_arr_arr]
  | .map k v, h => by
    rw [Flat] at h
    rw [visit, iterArr, subst, if_pos rfl, visit_inStructs v h.2, h.1, visit]
  | .struct fs, h => by
    rw [Flat] at h
    rw [visit, iterArr, visitFs_substFs fs h, iterFs_again fs h]
    simp only [subst]
  | .star _, h => by rw [Flat] at h; exact h.elim
theorem visit_map (k : GT) : ∀ v : GT, Flat v →
    GT.map k (iterMap ren (visit v)) = subst true ren (.map k v)
  | .ident n, _ => by simp only [visit, iterMap, subst]
  | .sel p n, _ => by simp only [visit, iterMap, subst]
  | .arr e, h => by
    rw [Flat] at h
    rw [visit, iterMap, visit_arr e h, subst_map_arr]
  | .map k' v, h => by
    rw [Flat] at h
    rw [visit, iterMap, visit_map _ v h.2, subst_map_map, h.1, visit]
  | .struct fs, h => by
    rw [Flat] at h
    rw [visit, iterMap, visitFs_substFs fs h, subst, if_pos rfl]
  | .star _, h => by rw [Flat] at h; exact h.elim
theorem visitField_subst : ∀ t : GT, FlatF t → visitField (visit t) = subst true ren t
  | .ident n, _ => by simp only [visit, visitField, subst]
  | .sel p n, _ => by simp only [visit, visitField, subst]
  | .arr e, h => by
    rw [FlatF] at h
    rw [visit, visitField, visit_arr e h]
  | .map k v, h => by
    rw [FlatF] at h
    rw [visit, visitField, visit_map _ v h.2, h.1, visit]
  | .struct fs, h => by
    rw [FlatF] at h
    rw [visit, subst, visitFs_substFs fs h]
    rfl
  | .star (.ident n), _ => by simp only [visit, visitField, subst]
  | .star (.sel p n), _ => by simp only [visit, visitField, subst]
  | .star (.arr e), h => by rw [FlatF] at h; exact (h.2.1 e rfl).elim
  | .star (.map k v), h => by rw [FlatF] at h; exact (h.2.2 k v rfl).elim
  | .star (.struct fs), h => by
    rw [FlatF, Flat] at h
    rw [visit, visit, subst, subst, visitFs_substFs fs h.1]
    rfl
  | .star (.star t), h => by rw [FlatF, Flat] at h; exact h.1.elim
theorem visitFs_substFs : ∀ fs : GFs, FlatFs fs → visitFs fs = substFs true ren fs
  | .nil, _ => by rw [visitFs, substFs]
  | .cons n t fs, h => by
    rw [FlatFs] at h
    rw [visitFs, substFs, visitField_subst t h.1, visitFs_substFs fs h.2]
end

/-- The visit of a field after it was rewritten. -/
theorem visitField_again : ∀ t : GT, FlatF t → visitField (subst true ren t) = subst true ren t
  | .ident n, _ => by simp only [visitField, subst, ren_ren]
  | .sel p n, _ => by simp only [visitField, subst]
  | .arr e, h => by
    rw [FlatF] at h
    obtain ⟨e', he, hi⟩ := arr_again e h
    rw [he, visitField, hi]
  | .map k v, h => by
    rw [FlatF] at h
    obtain ⟨e', he, hi⟩ := map_again k v h.2
    rw [he, visitField, hi]
  | .struct fs, h => by simp only [subst, visitField]
  | .star (.ident n), _ => by simp only [visitField, subst, ren_ren]
  | .star (.sel p n), _ => by simp only [visitField, subst]
  | .star (.arr e), h => by rw [FlatF] at h; exact (h.2.1 e rfl).elim
  | .star (.map k v), h => by rw [FlatF] at h; exact (h.2.2 k v rfl).elim
  | .star (.struct fs), h => by simp only [subst, visitField]
  | .star (.star t), h => by rw [FlatF, Flat] at h; exact h.1.elim

mutual
theorem visit_iterArr : ∀ e : GT, Flat e →
    GT.arr (visit (iterArr ren e)) = subst true ren (.arr e)
  | .ident n, _ => by simp only [visit, iterArr, subst]
  | .sel p n, _ => by simp only [visit, iterArr, subst]
  | .arr e, h => by
    rw [Flat] at h
    rw [iterArr, visit, visit_iterArr e h, subst_arr_arr]
  | .map k v, h => by
    rw [Flat] at h
    rw [iterArr, visit, subst, if_pos rfl, visit_inStructs v h.2, h.1, visit]
  | .struct fs, h => by
    rw [Flat] at h
    rw [iterArr, visit, visit_iterFs fs h]
    simp only [subst]
  | .star _, h => by rw [Flat] at h; exact h.elim
theorem visit_iterMap (k : GT) : ∀ v : GT, Flat v →
    GT.map k (visit (iterMap ren v)) = subst true ren (.map k v)
  | .ident n, _ => by simp only [visit, iterMap, subst]
  | .sel p n, _ => by simp only [visit, iterMap, subst]
  | .arr e, h => by
    rw [Flat] at h
    rw [iterMap, visit, visit_iterArr e h, subst_map_arr]
  | .map k' v, h => by
    rw [Flat] at h
    rw [iterMap, visit, visit_iterMap _ v h.2, subst_map_map, h.1, visit]
  | .struct fs, h => by
    rw [Flat] at h
    rw [iterMap, visit, visitFs_substFs fs h, subst, if_pos rfl]
  | .star _, h => by rw [Flat] at h; exact h.elim
theorem visit_iterField : ∀ t : GT, FlatF t → visit (iterField ren t) = subst true ren t
  | .ident n, _ => by simp only [visit, iterField, subst]
  | .sel p n, _ => by simp only [visit, iterField, subst]
  | .arr e, h => by
    rw [FlatF] at h
    rw [iterField, visit, visit_iterArr e h]
  | .map k v, h => by
    rw [FlatF] at h
    rw [iterField, visit, visit_iterMap _ v h.2, h.1, visit]
  | .struct fs, h => by
    rw [FlatF] at h
    rw [iterField, visit, subst, visit_iterFs fs h]
  | .star (.ident n), _ => by simp only [visit, iterField, subst]
  | .star (.sel p n), _ => by simp only [visit, iterField, subst]
  | .star (.arr e), h => by rw [FlatF] at h; exact (h.2.1 e rfl).elim
  | .star (.map k v), h => by rw [FlatF] at h; exact (h.2.2 k v rfl).elim
  | .star (.struct fs), h => by
    rw [FlatF, Flat] at h
    rw [iterField, visit, visit, subst, subst, visit_iterFs fs h.1]
  | .star (.star t), h => by rw [FlatF, Flat] at h; exact h.1.elim
theorem visit_iterFs : ∀ fs : GFs, FlatFs fs → visitFs (iterFs ren fs) = substFs true ren fs
  | .nil, _ => by rw [iterFs, visitFs, substFs]
  | .cons n t fs, h => by
    rw [FlatFs] at h
    rw [iterFs, visitFs, substFs, visit_iterField t h.1, visitField_again t h.1, visit_iterFs fs h.2]
end

theorem visit_iterTop : ∀ t : GT, Flat t → visit (iterTop ren t) = substDecl true ren t
  | .ident n, _ => by rw [iterTop, visit, substDecl]
  | .sel p n, _ => by simp only [iterTop, visit, substDecl, subst]
  | .arr e, h => by
    rw [Flat] at h
    rw [iterTop, visit, visit_iterArr e h, substDecl]
    nofun
  | .map k v, h => by
    rw [Flat] at h
    rw [iterTop, visit, visit_iterMap _ v h.2, substDecl, h.1, visit]
    nofun
  | .struct fs, h => by
    rw [Flat] at h
    rw [iterTop, visit, visit_iterFs fs h, substDecl, subst]
    nofun
  | .star _, h => by rw [Flat] at h; exact h.elim

end Thema.AllTypes

import Verif.Model.GoText
import Verif.Lemmas.OGenPipe

/-!
# C131: names and descriptions are data in generated Go code
-/

namespace Thema.Props

open Thema.GoText

/-! ### What the text should be -/

/-- The lines of a description: a line ends at `\r\n`, `\r` or `\n`. -/
def breaks : Str → List Str
  | [] => [[]]
  | '\r' :: '\n' :: cs => [] :: breaks cs
  | c :: cs =>
    if c = '\n' ∨ c = '\r' then [] :: breaks cs
    else match breaks cs with
      | [] => [[c]]
      | l :: ls => (c :: l) :: ls

/-- Without the empty line at the end, if there is one. -/
def docLines (t : Str) : List Str :=
  if (breaks t).length > 1 ∧ (breaks t).getLast? = some [] then (breaks t).dropLast else breaks t

/-- The lines of the comment. -/
def docComment (pre : Str) : List Str → List Str
  | [] => []
  | l :: ls => ("//".toList ++ (if pre = [] then [] else ' ' :: pre) ++ ' ' :: l) ::
      ls.map fun l => "// ".toList ++ l

/-- The value of a raw string. -/
def rawText (s : Str) : Str := s.filter fun c => c ≠ '\r' && c ≠ Char.ofNat 0xFEFF

mutual
/-- A type without comments. -/
def tyCode : Ty → Str
  | .plain t => t
  | .wrap b t => b ++ tyCode t
  | .struct fs => "struct {".toList ++ '\n' :: fieldsCode fs ++ "}".toList
/-- Fields without comments.  Carriage returns and byte order marks are dropped from raw
strings. -/
def fieldsCode : Fields → Str
  | .nil => []
  | .cons name _ star ty tag rest =>
    "    ".toList ++ name ++ ' ' :: star ++ tyCode ty ++
      fieldTag (tag.map rawText) ++ '\n' :: fieldsCode rest
end

/-- Definitions without comments. -/
def defsCode : List Def → Str
  | [] => ['\n']
  | d :: ds =>
    '\n' :: "type ".toList ++ d.name ++ ' ' :: (if d.isAlias then ['='] else []) ++ ' ' ::
      tyCode d.ty ++ '\n' :: defsCode ds

/-- Characters that Go allows in a source file. -/
def Legal (s : Str) : Prop := ∀ c ∈ s, c ≠ Char.ofNat 0

/-- Names and brackets: no slash, quotation mark, line break or byte order mark. -/
def Plain (s : Str) : Prop :=
  Legal s ∧ ∀ c ∈ s, c ≠ '/' ∧ c ≠ '`' ∧ c ≠ '"' ∧ c ≠ '\'' ∧ c ≠ '\n' ∧ c ≠ Char.ofNat 0xFEFF

/-- No backquote. -/
def TagOk (s : Str) : Prop := Legal s ∧ '`' ∉ s

mutual
/-- Go names are names; the names in JSON have no backquote; descriptions are any text. -/
def TyOk : Ty → Prop
  | .plain t => Plain t
  | .wrap b t => Plain b ∧ TyOk t
  | .struct fs => FieldsOk fs
/-- The same for fields. -/
def FieldsOk : Fields → Prop
  | .nil => True
  | .cons name d star ty tag rest =>
    Plain name ∧ Legal d ∧ Plain star ∧ TyOk ty ∧ (∀ t, tag = some t → TagOk t) ∧ FieldsOk rest
end

/-- A definition: where its name in JSON is written it has no line break. -/
def DefOk (d : Def) : Prop :=
  Plain d.name ∧ Legal d.description ∧ TyOk d.ty ∧
    (d.description = [] → Legal d.json ∧ '\n' ∉ d.json)

/-! ### Comments -/

private theorem split_breaks (t : Str) : split (cr (crlf t)) = breaks t := by
  fun_induction crlf t with
  | case1 cs ih => simp [cr, split, breaks, ih]
  | case2 c cs h ih =>
    have hb : breaks (c :: cs) = if c = '\n' ∨ c = '\r' then [] :: breaks cs
        else match breaks cs with
          | [] => [[c]]
          | l :: ls => (c :: l) :: ls := by
      rw [breaks.eq_def]
      split
      · simp_all
      · rename_i c' cs' he
        obtain ⟨rfl, rfl⟩ := List.cons.inj he
        exact absurd rfl (h _ rfl)
      · rename_i c' cs' _ he
        obtain ⟨rfl, rfl⟩ := List.cons.inj he
        rfl
    rw [hb]
    simp only [cr, split]
    by_cases h1 : c = '\r'
    · subst h1; simp [ih]
    · by_cases h2 : c = '\n'
      · subst h2; simp [ih]
      · simp only [h1, h2, ih, if_false, or_self]
        cases breaks cs <;> rfl
  | case3 => rfl

private theorem breaks_mem (t : Str) :
    ∀ l ∈ breaks t, ∀ c ∈ l, c ∈ t ∧ c ≠ '\n' := by
  fun_induction breaks t with
  | case1 => simp
  | case2 cs ih =>
    intro l hl c hc
    rcases List.mem_cons.1 hl with rfl | hl
    · simp at hc
    · have := ih l hl c hc; simp [this]
  | case3 c cs h hn ih =>
    intro l hl x hx
    rcases List.mem_cons.1 hl with rfl | hl
    · simp at hx
    · have := ih l hl x hx; simp [this]
  | case4 c cs h hn hb ih =>
    intro l hl x hx
    simp at hl; subst hl; simp at hx; subst hx
    exact ⟨by simp, fun e => hn (Or.inl e)⟩
  | case5 c cs h hn l' ls hb ih =>
    intro l hl x hx
    rw [hb] at ih
    rcases List.mem_cons.1 hl with rfl | hl
    · rcases List.mem_cons.1 hx with rfl | hx
      · exact ⟨by simp, fun e => hn (Or.inl e)⟩
      · have := ih l' (by simp) x hx; simp [this]
    · have := ih l (by simp [hl]) x hx; simp [this]

private theorem breaks_ne (t : Str) : breaks t ≠ [] := by
  fun_induction breaks t <;> simp

private theorem last_break : ∀ (a b u v : Str), '\n' ∉ u → '\n' ∉ v →
    a ++ '\n' :: u = b ++ '\n' :: v → a = b ∧ u = v
  | [], [], u, v, _, _, h => by simpa using h
  | [], c :: b, u, v, hu, _, h => by
    simp at h
    exact absurd (show '\n' ∈ u by rw [h.2]; simp) hu
  | c :: a, [], u, v, _, hv, h => by
    simp at h
    exact absurd (show '\n' ∈ v by rw [← h.2]; simp) hv
  | c :: a, d :: b, u, v, hu, hv, h => by
    simp at h
    have := last_break a b u v hu hv h.2
    simp [h.1, this]

private theorem join_snoc : ∀ (ls : List Str) (l : Str), ls ≠ [] →
    join (ls ++ [l]) = join ls ++ '\n' :: l
  | [], _, h => absurd rfl h
  | [a], l, _ => rfl
  | a :: b :: ls, l, _ => by
    have := join_snoc (b :: ls) l (by simp)
    simp only [List.cons_append] at this ⊢
    show a ++ '\n' :: join (b :: (ls ++ [l])) = _
    rw [this]
    simp [join]

private theorem prefixed_doc (pre : Str) (ls : List Str) : prefixed pre ls = docComment pre ls := by
  cases ls with
  | nil => rfl
  | cons l ls =>
    cases pre <;> simp [prefixed, docComment]

private theorem doc_snoc (pre : Str) (ls : List Str) (l : Str) (h : ls ≠ []) :
    docComment pre (ls ++ [l]) = docComment pre ls ++ ["// ".toList ++ l] := by
  cases ls with
  | nil => exact absurd rfl h
  | cons a ls => simp [docComment]

private theorem trim_yes (x : Str) : trimSuffix (x ++ "\n// ".toList) "\n// ".toList = x := by
  have : ("\n// ".toList).isSuffixOf (x ++ "\n// ".toList) = true := by
    rw [List.isSuffixOf_iff_suffix]; exact List.suffix_append _ _
  unfold trimSuffix
  rw [if_pos this]
  simp

private theorem trim_no (x m : Str) (hm : '\n' ∉ m) (hne : m ≠ "// ".toList) :
    trimSuffix (x ++ '\n' :: m) "\n// ".toList = x ++ '\n' :: m := by
  unfold trimSuffix
  rw [if_neg]
  rw [List.isSuffixOf_iff_suffix]
  rintro ⟨t, ht⟩
  have := last_break t x "// ".toList m (by decide) hm ht
  exact hne this.2.symm

private theorem trim_none (x : Str) (hm : '\n' ∉ x) : trimSuffix x "\n// ".toList = x := by
  unfold trimSuffix
  rw [if_neg]
  rw [List.isSuffixOf_iff_suffix]
  rintro ⟨t, ht⟩
  exact hm (by rw [← ht]; simp)

/-- **C131.** The comment of a description that has some text is its lines, each after `//`, the
first one after the name as well. -/
theorem C131_comment (space : Char → Bool) (text pre : Str) (hp : '\n' ∉ pre)
    (ht : text.all space = false) :
    goComment space text pre = join (docComment pre (docLines text)) := by
  have hne := breaks_ne text
  unfold goComment docLines
  rw [ht, split_breaks, prefixed_doc]
  simp only [Bool.false_eq_true, if_false]
  have hmem := breaks_mem text
  generalize hL : breaks text = L at *
  rcases List.eq_nil_or_concat L with rfl | ⟨ls, l, rfl⟩
  · exact absurd rfl hne
  have hl : '\n' ∉ l := fun h => (hmem l (by simp) _ h).2 rfl
  by_cases h0 : ls = []
  · subst h0
    simp only [List.concat_eq_append, List.nil_append, List.length_singleton, gt_iff_lt, Nat.lt_irrefl,
      false_and, if_false]
    apply trim_none
    by_cases hpre : pre = []
    · simpa [docComment, join, hpre] using hl
    · simpa [docComment, join, hpre] using ⟨hp, hl⟩
  · have hlen : (ls.concat l).length > 1 := by
      have := List.length_pos_iff.2 h0
      simp; omega
    have hdn : docComment pre ls ≠ [] := by
      cases ls with
      | nil => exact absurd rfl h0
      | cons => simp [docComment]
    rw [List.concat_eq_append] at *
    rw [doc_snoc pre ls l h0, join_snoc _ _ hdn]
    by_cases hl0 : l = []
    · subst hl0
      rw [if_pos ⟨hlen, by simp⟩]
      rw [List.dropLast_concat]
      exact trim_yes _
    · rw [if_neg (by simp [hl0])]
      rw [doc_snoc pre ls l h0, join_snoc _ _ hdn]
      exact trim_no _ _ (by simpa using hl) (by simpa using hl0)

/-! ### The scanner -/

private theorem scan_append : ∀ (s : St) (a b : Str),
    scan s (a ++ b) = (scan s a).bind fun p => (scan p.1 b).map fun q => (q.1, p.2 ++ q.2)
  | s, [], b => by simp [scan]
  | s, c :: a, b => by
    simp only [List.cons_append, scan]
    cases step s c with
    | none => rfl
    | some p =>
      simp only [Option.bind_some]
      rw [scan_append p.1 a b]
      cases scan p.1 a with
      | none => rfl
      | some q =>
        simp only [Option.map_some, Option.bind_some]
        cases scan q.1 b <;> simp

private theorem scan_seq {s s' s'' : St} {a b o o' : Str} (h : scan s a = some (s', o))
    (h' : scan s' b = some (s'', o')) : scan s (a ++ b) = some (s'', o ++ o') := by
  rw [scan_append, h]
  simp [h']

private theorem legal_cons {c : Char} {s : Str} (h : Legal (c :: s)) :
    c ≠ Char.ofNat 0 ∧ Legal s :=
  ⟨h c (by simp), fun x hx => h x (by simp [hx])⟩

private theorem scan_code : ∀ (s : Str), Legal s →
    (∀ c ∈ s, c ≠ '/' ∧ c ≠ '`' ∧ c ≠ '"' ∧ c ≠ '\'' ∧ c ≠ Char.ofNat 0xFEFF) → scan .code s = some (.code, s)
  | [], _, _ => rfl
  | c :: s, hl, h => by
    have hc := h c (by simp)
    have ⟨h1, h2⟩ := legal_cons hl
    have ih := scan_code s h2 fun x hx => h x (by simp [hx])
    simp only [scan, step, if_neg h1, if_neg hc.2.2.2.2, codeStep, if_neg hc.1, if_neg hc.2.1,
      Option.bind_some]
    rw [if_neg (fun e => e.elim hc.2.2.1 hc.2.2.2.1)]
    simp [ih]

private theorem scan_line : ∀ (s : Str), Legal s → '\n' ∉ s →
    scan .line (s ++ ['\n']) = some (.code, ['\n'])
  | [], _, _ => by decide
  | c :: s, hl, h => by
    have ⟨h1, h2⟩ := legal_cons hl
    simp only [List.mem_cons, not_or] at h
    have ih := scan_line s h2 h.2
    simp only [List.cons_append, scan, step, if_neg h1, if_neg (Ne.symm h.1)]
    split <;> simp [ih]

private theorem scan_comment (s : Str) (hl : Legal s) (h : '\n' ∉ s) :
    scan .code ("//".toList ++ s ++ ['\n']) = some (.code, ['\n']) := by
  rw [List.append_assoc]
  exact scan_seq (s' := .line) (o := []) (by decide) (scan_line s hl h)

private theorem scan_raw : ∀ (s : Str), Legal s → '`' ∉ s →
    scan .raw (s ++ ['`']) = some (.code, rawText s ++ ['`'])
  | [], _, _ => by decide
  | c :: s, hl, h => by
    have ⟨h1, h2⟩ := legal_cons hl
    simp only [List.mem_cons, not_or] at h
    have ih := scan_raw s h2 h.2
    simp only [List.cons_append, scan, step, if_neg h1, if_neg (Ne.symm h.1)]
    by_cases hb : c = Char.ofNat 0xFEFF
    · rw [if_pos hb]
      simp [ih, rawText, hb]
    · rw [if_neg hb]
      by_cases hr : c = '\r' <;> simp [hr, ih, rawText, hb]

/-! ### Blank lines -/

private theorem squeeze_mid : ∀ (x y : Str),
    squeeze (x ++ '\n' :: '\n' :: y) = squeeze (x ++ '\n' :: y)
  | [], y => by simp [squeeze]
  | c :: x, y => by
    have hh : (x ++ '\n' :: '\n' :: y).head? = (x ++ '\n' :: y).head? := by cases x <;> rfl
    simp only [List.cons_append, squeeze, hh, squeeze_mid x y]

private theorem squeeze_many : ∀ (k : Nat) (x y : Str),
    squeeze (x ++ '\n' :: (List.replicate k '\n' ++ y)) = squeeze (x ++ '\n' :: y)
  | 0, x, y => by simp
  | k + 1, x, y => by
    rw [List.replicate_succ, List.cons_append, squeeze_mid, squeeze_many k]

/-- The same but for blank lines, wherever it stands. -/
private def Eqv (a b : Str) : Prop := ∀ x y, squeeze (x ++ a ++ y) = squeeze (x ++ b ++ y)

private theorem Eqv.rfl' (a : Str) : Eqv a a := fun _ _ => rfl

private theorem Eqv.app {a b c d : Str} (h : Eqv a b) (h' : Eqv c d) : Eqv (a ++ c) (b ++ d) := by
  intro x y
  have h1 := h x (c ++ y)
  have h2 := h' (x ++ b) y
  simp only [List.append_assoc] at *
  rw [h1, h2]

private theorem Eqv.many (k : Nat) {a b : Str} (h : Eqv a b) :
    Eqv ('\n' :: (List.replicate k '\n' ++ a)) ('\n' :: b) := by
  intro x y
  have h1 := squeeze_many k x (a ++ y)
  have h2 := h (x ++ ['\n']) y
  simp only [List.append_assoc, List.cons_append, List.nil_append] at *
  rw [h1, h2]

/-! ### Comments are no code -/

private theorem scan_lines : ∀ (ls : List Str), ls ≠ [] →
    (∀ l ∈ ls, ∃ s, l = "//".toList ++ s ∧ Legal s ∧ '\n' ∉ s) →
    scan .code (join ls ++ ['\n']) = some (.code, List.replicate ls.length '\n')
  | [], h, _ => absurd rfl h
  | [l], _, h => by
    obtain ⟨s, rfl, hs, hn⟩ := h l (by simp)
    exact scan_comment s hs hn
  | l :: b :: ls, _, h => by
    obtain ⟨s, rfl, hs, hn⟩ := h l (by simp)
    have ih := scan_lines (b :: ls) (by simp) fun x hx => h x (List.mem_cons_of_mem _ hx)
    have := scan_seq (scan_comment s hs hn) ih
    simpa [join, List.replicate_succ] using this

private theorem legal_app {a b : Str} (ha : Legal a) (hb : Legal b) : Legal (a ++ b) := by
  intro c hc
  rcases List.mem_append.1 hc with h | h
  · exact ha c h
  · exact hb c h

private theorem legal_const (a : Str)
    (h : (a.all fun c => c ≠ Char.ofNat 0) = true) : Legal a := by
  intro c hc
  have := List.all_eq_true.1 h c hc
  simpa using this

private theorem docLines_mem (t : Str) : ∀ l ∈ docLines t, ∀ c ∈ l, c ∈ t ∧ c ≠ '\n' := by
  intro l hl
  unfold docLines at hl
  split at hl
  · exact breaks_mem t l ((List.dropLast_subset _ hl))
  · exact breaks_mem t l hl

private theorem docLines_ne (t : Str) : docLines t ≠ [] := by
  unfold docLines
  split
  · rename_i h
    intro e
    have : (breaks t).dropLast.length = 0 := by rw [e]; rfl
    simp at this
    omega
  · exact breaks_ne t

private theorem scan_goComment (space : Char → Bool) (d name : Str) (hd : Legal d)
    (hn : Legal name) (hn' : '\n' ∉ name) :
    ∃ k, scan .code (goComment space d name ++ ['\n']) =
      some (.code, List.replicate (k + 1) '\n') := by
  cases hs : d.all space with
  | true => exact ⟨0, by simp [goComment, hs]; decide⟩
  | false =>
    rw [C131_comment space d name hn' hs]
    have hm := docLines_mem d
    cases hL : docLines d with
    | nil => exact absurd hL (docLines_ne d)
    | cons l ls =>
      rw [hL] at hm
      refine ⟨ls.length, ?_⟩
      have hx : ∀ x ∈ l :: ls, Legal (' ' :: x) ∧ '\n' ∉ ' ' :: x := by
        intro x hx
        refine ⟨legal_app (a := [' ']) (legal_const _ (by decide)) fun c hc => hd c (hm x hx c hc).1, ?_⟩
        simp only [List.mem_cons, not_or]
        exact ⟨by decide, fun h => (hm x hx _ h).2 rfl⟩
      have := scan_lines (docComment name (l :: ls)) (by simp [docComment]) (by
        intro y hy
        simp only [docComment, List.mem_cons, List.mem_map] at hy
        rcases hy with rfl | ⟨x, hx', rfl⟩
        · have h := hx l (by simp)
          refine ⟨(if name = [] then [] else ' ' :: name) ++ ' ' :: l, by simp, ?_, ?_⟩
          · refine legal_app ?_ h.1
            split
            · exact legal_const _ (by decide)
            · exact legal_app (a := [' ']) (legal_const _ (by decide)) hn
          · have h2 := h.2
            simp only [List.mem_append, not_or]
            refine ⟨?_, h2⟩
            split
            · simp
            · simp only [List.mem_cons, not_or]
              exact ⟨by decide, hn'⟩
        · have h := hx x (by simp [hx'])
          exact ⟨' ' :: x, by simp, h.1, h.2⟩)
      simpa [docComment] using this

private theorem scan_plain {s : Str} (h : Plain s) : scan .code s = some (.code, s) :=
  scan_code s h.1 fun c hc =>
    have ⟨h1, h2, h3, h4, _, h6⟩ := h.2 c hc
    ⟨h1, h2, h3, h4, h6⟩

private theorem plain_nl {s : Str} (h : Plain s) : '\n' ∉ s := fun hc => (h.2 _ hc).2.2.2.2.1 rfl

private theorem scan_fieldComment (space : Char → Bool) (i : Nat) (name d : Str) (hd : Legal d)
    (hn : Plain name) :
    ∃ k, scan .code (fieldComment space i name d) = some (.code, List.replicate k '\n') := by
  unfold fieldComment
  by_cases h0 : d = []
  · exact ⟨0, by simp [h0]; rfl⟩
  · rw [if_pos h0]
    obtain ⟨k, hk⟩ := scan_goComment space d name hd hn.1 (plain_nl hn)
    by_cases hi : i = 0
    · exact ⟨k + 1, by simpa [hi] using hk⟩
    · refine ⟨k + 2, ?_⟩
      have := scan_seq (s := .code) (s' := .code) (a := ['\n']) (o := ['\n']) (by decide) hk
      simpa [hi, List.replicate_succ] using this

private theorem raw_app (a b : Str) : rawText (a ++ b) = rawText a ++ rawText b :=
  List.filter_append ..

private theorem raw_json : rawText "json:\"".toList = "json:\"".toList := by decide

private theorem raw_quote : rawText ['"'] = ['"'] := by decide

private theorem scan_tag (t : Option Str) (h : ∀ x, t = some x → TagOk x) :
    scan .code (fieldTag t) =
      some (.code, fieldTag (t.map rawText)) := by
  cases t with
  | none => rfl
  | some t =>
    have ht := h t rfl
    have h1 := scan_raw ("json:\"".toList ++ t ++ ['"'])
      (legal_app (legal_app (legal_const _ (by decide)) ht.1) (legal_const _ (by decide))) (by
        simp only [List.mem_append, not_or]
        exact ⟨⟨by decide, ht.2⟩, by decide⟩)
    rw [raw_app, raw_app, raw_json, raw_quote] at h1
    have h2 := scan_seq (s := .code) (s' := .raw) (a := ['`']) (o := ['`']) (by decide) h1
    simpa [fieldTag] using h2

private theorem scan_struct : scan .code "struct {".toList = some (.code, "struct {".toList) :=
  scan_code _ (legal_const _ (by decide)) (by decide)

private theorem scan_struct_ty (space : Char → Bool) (fs : Fields)
    (h : ∃ o, scan .code (fieldsText space 0 fs) = some (.code, o) ∧
      Eqv ('\n' :: o) ('\n' :: fieldsCode fs)) :
    ∃ o, scan .code (tyText space (.struct fs)) = some (.code, o) ∧ Eqv o (tyCode (.struct fs)) := by
  obtain ⟨o, h1, h2⟩ := h
  have ho := scan_struct
  have hc : scan .code "}".toList = some (.code, "}".toList) := by decide
  have hnl : scan .code ['\n'] = some (.code, ['\n']) := by decide
  have t1 : tyText space (.struct fs) =
      "struct {".toList ++ '\n' :: fieldsText space 0 fs ++ "}".toList := rfl
  have t2 : tyCode (.struct fs) = "struct {".toList ++ '\n' :: fieldsCode fs ++ "}".toList := rfl
  rw [t1, t2]
  clear t1 t2
  revert ho hc
  generalize "struct {".toList = S
  generalize "}".toList = E
  intro ho hc
  have e1 := scan_seq (scan_seq (scan_seq ho hnl) h1) hc
  have e2 := ((Eqv.rfl' S).app h2).app (Eqv.rfl' E)
  simp only [List.append_assoc, List.cons_append, List.nil_append] at e1 e2 ⊢
  exact ⟨_, e1, e2⟩

private theorem scan_oneField (space : Char → Bool) (name d star : Str) (ty : Ty) (tag : Option Str)
    (rest : Fields) (i : Nat) (hn : Plain name) (hd : Legal d) (hs : Plain star)
    (htag : ∀ t, tag = some t → TagOk t)
    (h1 : ∃ o, scan .code (tyText space ty) = some (.code, o) ∧ Eqv o (tyCode ty))
    (h2 : ∃ o, scan .code (fieldsText space (i + 1) rest) = some (.code, o) ∧
      Eqv ('\n' :: o) ('\n' :: fieldsCode rest)) :
    ∃ o, scan .code (fieldsText space i (.cons name d star ty tag rest)) = some (.code, o) ∧
      Eqv ('\n' :: o) ('\n' :: fieldsCode (.cons name d star ty tag rest)) := by
  obtain ⟨o1, h1, h1'⟩ := h1
  obtain ⟨o2, h2, h2'⟩ := h2
  obtain ⟨k, hk⟩ := scan_fieldComment space i name d hd hn
  have hsp : scan .code [' '] = some (.code, [' ']) := by decide
  have hnl : scan .code ['\n'] = some (.code, ['\n']) := by decide
  have h4 : scan .code "    ".toList = some (.code, "    ".toList) := by decide
  have e := ((Eqv.rfl' ("    ".toList ++ name ++ [' '] ++ star)).app h1').app
    ((Eqv.rfl' (fieldTag (tag.map rawText))).app h2')
  have e' := Eqv.many k e
  have e1 := scan_seq (scan_seq (scan_seq (scan_seq (scan_seq (scan_seq (scan_seq (scan_seq hk h4)
    (scan_plain hn)) hsp) (scan_plain hs)) h1) (scan_tag tag htag)) hnl) h2
  rw [fieldsText, fieldsCode]
  simp only [List.append_assoc, List.cons_append, List.nil_append] at e1 e' ⊢
  exact ⟨_, e1, e'⟩

mutual
private theorem scan_ty (space : Char → Bool) : ∀ (t : Ty), TyOk t →
    ∃ o, scan .code (tyText space t) = some (.code, o) ∧ Eqv o (tyCode t)
  | .plain t, h => ⟨t, scan_plain h, Eqv.rfl' _⟩
  | .wrap b t, h => by
    obtain ⟨o, h1, h2⟩ := scan_ty space t h.2
    exact ⟨b ++ o, scan_seq (scan_plain h.1) h1, (Eqv.rfl' b).app h2⟩
  | .struct fs, h => scan_struct_ty space fs (scan_fields space fs 0 (by rw [TyOk] at h; exact h))
private theorem scan_fields (space : Char → Bool) : ∀ (fs : Fields) (i : Nat), FieldsOk fs →
    ∃ o, scan .code (fieldsText space i fs) = some (.code, o) ∧
      Eqv ('\n' :: o) ('\n' :: fieldsCode fs)
  | .nil, i, _ => ⟨[], rfl, Eqv.rfl' _⟩
  | .cons name d star ty tag rest, i, h => by
    rw [FieldsOk] at h
    obtain ⟨hn, hd, hs, ht, htag, hr⟩ := h
    exact scan_oneField space name d star ty tag rest i hn hd hs htag (scan_ty space ty ht)
      (scan_fields space rest (i + 1) hr)
end

private theorem scan_defs (space : Char → Bool) : ∀ (ds : List Def), (∀ d ∈ ds, DefOk d) →
    ∃ o, scan .code (defsText space ds) = some (.code, o) ∧ Eqv o (defsCode ds)
  | [], _ => ⟨['\n'], by simp only [defsText]; decide, Eqv.rfl' _⟩
  | d :: ds, h => by
    obtain ⟨hn, hd, ht, hj⟩ := h d (by simp)
    obtain ⟨o2, h2, h2'⟩ := scan_defs space ds fun x hx => h x (by simp [hx])
    obtain ⟨o1, h1, h1'⟩ := scan_ty space d.ty ht
    have hnl : scan .code ['\n'] = some (.code, ['\n']) := by decide
    have hsp : scan .code [' '] = some (.code, [' ']) := by decide
    have hty : scan .code "type ".toList = some (.code, "type ".toList) := by decide
    have heq : scan .code (if d.isAlias then ['='] else []) =
        some (.code, if d.isAlias then ['='] else []) := by
      cases d.isAlias <;> decide
    have hc : ∃ k, scan .code ((if d.description ≠ [] then goComment space d.description d.name
        else "// ".toList ++ d.name ++ " defines model for ".toList ++ d.json ++ ".".toList) ++
        ['\n']) = some (.code, List.replicate (k + 1) '\n') := by
      by_cases h0 : d.description = []
      · refine ⟨0, ?_⟩
        have hj := hj h0
        have := scan_comment (" ".toList ++ d.name ++ " defines model for ".toList ++ d.json ++
          ".".toList) (legal_app (legal_app (legal_app (legal_app (legal_const _ (by decide)) hn.1)
            (legal_const _ (by decide))) hj.1) (legal_const _ (by decide))) (by
            simp only [List.mem_append, not_or]
            exact ⟨⟨⟨⟨by decide, plain_nl hn⟩, by decide⟩, hj.2⟩, by decide⟩)
        have e : "// ".toList = "//".toList ++ " ".toList := by decide
        rw [if_neg (by simp [h0]), e]
        simp only [List.append_assoc] at this ⊢
        exact this
      · rw [if_pos h0]
        exact scan_goComment space d.description d.name hd hn.1 (plain_nl hn)
    obtain ⟨k, hk⟩ := hc
    have e := Eqv.many (k + 1) ((((Eqv.rfl' ("type ".toList ++ d.name ++ [' '] ++
      (if d.isAlias then ['='] else []) ++ [' '])).app h1').app (Eqv.rfl' ['\n'])).app h2')
    have e1 := scan_seq (scan_seq (scan_seq (scan_seq (scan_seq (scan_seq (scan_seq (scan_seq (scan_seq
      hnl hk) hty) (scan_plain hn)) hsp) heq) hsp) h1) hnl) h2
    simp only [defsText, defText, defsCode, List.append_assoc, List.cons_append,
      List.nil_append] at e e1 ⊢
    exact ⟨_, e1, e⟩

/-- **C131.** What Go reads of the definitions is their names, types and tags, whatever the
descriptions say. -/
theorem C131_code_partial (space : Char → Bool) (ds : List Def) (h : ∀ d ∈ ds, DefOk d) :
    (code (defsText space ds)).map squeeze = some (squeeze (defsCode ds)) := by
  obtain ⟨o, h1, h2⟩ := scan_defs space ds h
  have := h2 [] []
  simp only [List.nil_append, List.append_nil] at this
  simp [code, h1, this]

/-- A struct of two fields, with descriptions that look like code. -/
private def sampleDef : Def :=
  ⟨"Foo".toList, "foo".toList, "*/ }\r\nfunc init() {}\n".toList, false,
    .struct (.cons "Bar".toList "`\rvar X = 1 /*".toList "*".toList (.plain "string".toList)
      (some "bar,omitempty".toList)
      (.cons "Baz".toList [] [] (.wrap "[]".toList (.struct (.cons "Qux".toList "\"".toList []
        (.plain "int".toList) (some "q\"u//x".toList) .nil))) (some "baz".toList) .nil))⟩

example : DefOk sampleDef := by
  refine ⟨⟨by unfold Legal; decide, by decide⟩, by unfold Legal; decide, ?_, fun h => absurd h (by decide)⟩
  simp only [sampleDef, TyOk, FieldsOk, Plain, TagOk, Legal]
  refine ⟨by decide, by decide, by decide, by decide, ?_, ?_⟩
  · rintro t ⟨⟩; exact ⟨by decide, by decide⟩
  · refine ⟨by decide, by decide, by decide, ⟨by decide, by decide, by decide, by decide, by decide, ?_, trivial⟩, ?_, trivial⟩
    · rintro t ⟨⟩; exact ⟨by decide, by decide⟩
    · rintro t ⟨⟩; exact ⟨by decide, by decide⟩

example : goComment Char.isWhitespace "a\r\n\rb\n".toList "Foo".toList =
    "// Foo a\n// \n// b".toList := by decide

/-! ### Names -/

private theorem scan_open (s : Str) (hl : Legal s) (h : '\n' ∉ s) (rest : Str) :
    scan .code ("//".toList ++ s ++ '\n' :: rest) = scan .code ('\n' :: rest) := by
  have h1 := scan_comment s hl h
  have e : "//".toList ++ s ++ '\n' :: rest = ("//".toList ++ s ++ ['\n']) ++ rest := by simp
  have hnl : scan .code ['\n'] = some (.code, ['\n']) := by decide
  have e' : '\n' :: rest = ['\n'] ++ rest := rfl
  rw [e, scan_append, h1, e', scan_append .code ['\n'], hnl]

/-- **C131.** The name in JSON of a definition without description is written as it is: what
follows a line break in it is read as code. -/
theorem C131_name_injection (space : Char → Bool) (d : Def) (ds : List Def) (a b : Str)
    (hd : d.description = []) (hn : Plain d.name) (ha : Legal a) (ha' : '\n' ∉ a)
    (hj : d.json = a ++ '\n' :: b) :
    scan .code (defsText space (d :: ds)) =
      scan .code ("\n\n".toList ++ b ++ ".\ntype ".toList ++ d.name ++ ' ' ::
        (if d.isAlias then ['='] else []) ++ ' ' :: tyText space d.ty ++ '\n' ::
        defsText space ds) := by
  have e1 : "// ".toList = "//".toList ++ " ".toList := by decide
  have e2 : ".\ntype ".toList = ".".toList ++ '\n' :: "type ".toList := by decide
  have e3 : "\n\n".toList = ['\n', '\n'] := by decide
  have h := fun rest => scan_open (" ".toList ++ d.name ++ " defines model for ".toList ++ a)
    (legal_app (legal_app (legal_app (legal_const _ (by decide)) hn.1) (legal_const _ (by decide)))
      ha) (by
      simp only [List.mem_append, not_or]
      exact ⟨⟨⟨by decide, plain_nl hn⟩, by decide⟩, ha'⟩) rest
  simp only [defsText, defText, hd, hj, ne_eq, not_true, if_false, e1, e2, e3]
  have hnl : scan .code ['\n'] = some (.code, ['\n']) := by decide
  have cut : ∀ x : Str, scan .code ('\n' :: x) = (scan .code x).map fun q => (q.1, '\n' :: q.2) := by
    intro x
    have := scan_append .code ['\n'] x
    rw [hnl] at this
    simpa using this
  simp only [List.append_assoc, List.cons_append, List.nil_append] at h ⊢
  rw [cut, h, ← cut]

/-- **C131.** The name in JSON of a field is written as it is into its tag: what follows a
backquote in it is read as code. -/
theorem C131_tag_injection (a b : Str) (ha : Legal a) (ha' : '`' ∉ a) :
    scan .code (fieldTag (some (a ++ '`' :: b))) =
      (scan .code (b ++ "\"`".toList)).map fun q =>
        (q.1, "`json:\"".toList ++ rawText a ++ '`' :: q.2) := by
  have h1 := scan_raw ("json:\"".toList ++ a) (legal_app (legal_const _ (by decide)) ha) (by
    simp only [List.mem_append, not_or]
    exact ⟨by decide, ha'⟩)
  rw [raw_app, raw_json] at h1
  have h2 := scan_seq (s := .code) (s' := .raw) (a := ['`']) (o := ['`']) (by decide) h1
  have e : fieldTag (some (a ++ '`' :: b)) =
      (['`'] ++ ("json:\"".toList ++ a ++ ['`'])) ++ (b ++ "\"`".toList) := by
    simp [fieldTag]
  rw [e, scan_append, h2]
  simp

private theorem plain_of_ld {U : OGen.Uni} (L : OGen.UniLaws U)
    (hb : U.isLetter (Char.ofNat 0xFEFF) = false ∧ U.isDigit (Char.ofNat 0xFEFF) = false)
    (s : Str) (h : ∀ c ∈ s, c = '.' ∨ c = '_' ∨ OGen.LD U [c]) : Plain s := by
  have key : ∀ x : Char, x.toNat < 128 → x.isAlphanum = false → x ≠ '.' → x ≠ '_' → x ∉ s := by
    intro x h1 h2 h3 h4 hx
    rcases h x hx with e | e | e
    · exact h3 e
    · exact h4 e
    · exact e.not_mem L h1 h2 (by simp)
  have hbom : Char.ofNat 0xFEFF ∉ s := by
    intro hx
    rcases h _ hx with e | e | e
    · exact absurd e (by decide)
    · exact absurd e (by decide)
    · rcases e (Char.ofNat 0xFEFF) (by simp) with e | e
      · rw [hb.1] at e; cases e
      · rw [hb.2] at e; cases e
  have ne : ∀ x : Char, x ∉ s → ∀ c ∈ s, c ≠ x := fun x hx c hc e => hx (e ▸ hc)
  refine ⟨fun c hc => ne _ (key _ ?_ ?_ ?_ ?_) c hc, fun c hc =>
    ⟨ne _ (key _ ?_ ?_ ?_ ?_) c hc, ne _ (key _ ?_ ?_ ?_ ?_) c hc, ne _ (key _ ?_ ?_ ?_ ?_) c hc,
      ne _ (key _ ?_ ?_ ?_ ?_) c hc, ne _ (key _ ?_ ?_ ?_ ?_) c hc, ne _ hbom c hc⟩⟩ <;> decide

/-- **C131.** Go names made of names in JSON, and paths of which every name was made a Go name,
are plain text, whatever the names. -/
theorem C131_names {U : OGen.Uni} (L : OGen.UniLaws U)
    (hb : U.isLetter (Char.ofNat 0xFEFF) = false ∧ U.isDigit (Char.ofNat 0xFEFF) = false)
    (label : Str) (path : List Str) :
    Plain (OGen.typeName U label) ∧ Plain (OGen.pathName U path) ∧ Plain (OGen.jsonName U path) := by
  have one : ∀ {s : Str}, OGen.LD U s → ∀ c ∈ s, OGen.LD U [c] := by
    intro s h c hc x hx
    simp at hx
    exact hx ▸ h c hc
  refine ⟨plain_of_ld L hb _ fun c hc => .inr (.inr (one (OGen.typeName_ld L label) c hc)),
    plain_of_ld L hb _ fun c hc => ?_, plain_of_ld L hb _ fun c hc => ?_⟩
  · rcases OGen.mem_intercalate hc with h | ⟨s, hs, h⟩
    · simp at h; exact .inr (.inl h)
    · obtain ⟨n, _, rfl⟩ := List.mem_map.1 hs
      exact .inr (.inr (one (OGen.camel_ld L n) c h))
  · rcases OGen.mem_intercalate hc with h | ⟨s, hs, h⟩
    · simp at h; exact .inl h
    · obtain ⟨n, _, rfl⟩ := List.mem_map.1 hs
      exact .inr (.inr (one (OGen.camel_ld L n) c h))

example : OGen.UniLaws OGen.ascii ∧ OGen.ascii.isLetter (Char.ofNat 0xFEFF) = false ∧
    OGen.ascii.isDigit (Char.ofNat 0xFEFF) = false ∧
    OGen.pathName OGen.ascii ["T".toList, "a\nvar X = 1 //".toList, "Item".toList] =
      "T_AvarX1_Item".toList :=
  ⟨OGen.ascii_laws, by decide, by decide, by decide⟩

set_option maxRecDepth 20000 in
/-- **C131, refuted.** Names of fields that add a variable, and a field, to the code.  The first
is a list of `int | string` with such a name: the path of its items is joined as it was
(`schema.go:520-530`). -/
theorem C131_refuted (space : Char → Bool) :
    (code (defsText space [⟨"T_AvarX1_Item".toList, "T.a\nvar X = 1 //.Item".toList, [], false,
        .struct (.cons "union".toList [] [] (.plain "json.RawMessage".toList) none .nil)⟩])).map
        squeeze =
      some ("\nvar X = 1 \ntype T_AvarX1_Item  struct {\n    union json.RawMessage\n}\n").toList ∧
    (code (defsText space [⟨"T".toList, "T".toList, [], false, .struct (.cons "A".toList [] []
        (.plain "int".toList) (some "a\"`\nY int `json:\"y".toList) .nil)⟩])).map squeeze =
      some ("\ntype T  struct {\n    A int`json:\"a\"`\nY int `json:\"y\"`\n}\n").toList := by
  constructor <;> rfl

/-! ### What the scanner is taken to do

The theorems above speak about generated text through `scan`.  These say that `scan` reads the
other forms of text as Go does: general comments vanish, literals are kept as they are. -/

/-- Neither NUL nor a byte order mark. -/
def Clean (c : Char) : Prop := c ≠ Char.ofNat 0 ∧ c ≠ Char.ofNat 0xFEFF

private theorem scan_block (t : Str) (h0 : ∀ c ∈ t, Clean c) (h : ¬ ['*', '/'] <:+: t) :
    scan .block (t ++ ['*', '/']) = some (.code, []) ∧
    (t.head? ≠ some '/' → scan .star (t ++ ['*', '/']) = some (.code, [])) := by
  induction t with
  | nil => exact ⟨by decide, fun _ => by decide⟩
  | cons c cs ih =>
    obtain ⟨h0c, hbc⟩ := h0 c (by simp)
    obtain ⟨i1, i2⟩ := ih (fun c hc => h0 c (by simp [hc]))
      (fun e => h (e.trans (List.suffix_cons c cs).isInfix))
    have hnext : c = '*' → cs.head? ≠ some '/' := by
      rintro rfl hh
      cases cs with
      | nil => cases hh
      | cons d ds =>
        injection hh with hh; subst hh
        exact h ⟨[], ds, rfl⟩
    by_cases hs : c = '*'
    · subst hs
      have e := i2 (hnext rfl)
      refine ⟨?_, fun _ => ?_⟩
      · rw [List.cons_append, scan, step, if_neg h0c, if_neg hbc]
        simp [e]
      · rw [List.cons_append, scan, step, if_neg h0c, if_neg hbc]
        simp [e]
    · refine ⟨?_, fun hh => ?_⟩
      · rw [List.cons_append, scan, step, if_neg h0c, if_neg hbc]
        simp [hs, i1]
      · have hc : c ≠ '/' := fun e => hh (by rw [e]; rfl)
        rw [List.cons_append, scan, step, if_neg h0c, if_neg hbc]
        simp [hs, hc, i1]

/-- **C131**, about the reader.  A general comment, up to the first `*/`, is no code. -/
theorem C131_reads_comment (t rest : Str) (h0 : ∀ c ∈ t, Clean c) (h : ¬ ['*', '/'] <:+: t) :
    scan .code ("/*".toList ++ t ++ "*/".toList ++ rest) = scan .code rest := by
  have e1 : "/*".toList = ['/', '*'] := by decide
  have e2 : "*/".toList = ['*', '/'] := by decide
  have h1 : scan .code ['/', '*'] = some (.block, []) := by decide
  have h2 := scan_seq h1 (scan_block t h0 h).1
  rw [e1, e2, List.append_assoc ['/', '*'], scan_append, h2]
  simp

/-- What may stand in a literal with the quotation mark `q`: characters, and backslashes each
followed by a character. -/
inductive LitBody (q : Char) : Str → Prop
  | nil : LitBody q []
  | char {c : Char} {t : Str} (hc : Clean c) (hq : c ≠ q) (hb : c ≠ '\\') (hn : c ≠ '\n')
      (h : LitBody q t) : LitBody q (c :: t)
  | esc {c : Char} {t : Str} (hc : Clean c) (hn : c ≠ '\n') (h : LitBody q t) :
      LitBody q ('\\' :: c :: t)

private theorem scan_lit {q : Char} (hq : q = '"' ∨ q = '\'') {t : Str} (h : LitBody q t) :
    scan (.lit q) (t ++ [q]) = some (.code, t ++ [q]) := by
  induction h with
  | nil => rcases hq with rfl | rfl <;> decide
  | char hc hq' hb hn _ ih =>
    rw [List.cons_append, scan, step, if_neg hc.1, if_neg hc.2]
    simp [hq', hb, hn, ih]
  | @esc c t hc hn _ ih =>
    have hqb : '\\' ≠ q := by rcases hq with rfl | rfl <;> decide
    rw [List.cons_append, scan, step, if_neg (by decide), if_neg (by decide)]
    simp only [hqb, if_false]
    rw [if_neg (by decide), if_pos trivial]
    rw [List.cons_append, Option.bind_some, scan, step, if_neg hc.1, if_neg hc.2]
    simp [hn, ih]

/-- **C131**, about the reader.  A string or rune literal is code, all of it: what stands in it ends
no comment and begins none. -/
theorem C131_reads_literal {q : Char} (hq : q = '"' ∨ q = '\'') {t : Str} (h : LitBody q t)
    (rest : Str) :
    scan .code (q :: t ++ [q] ++ rest) =
      (scan .code rest).map fun r => (r.1, q :: t ++ [q] ++ r.2) := by
  have h1 : scan .code [q] = some (.lit q, [q]) := by rcases hq with rfl | rfl <;> decide
  have h2 := scan_seq h1 (scan_lit hq h)
  have e : q :: t ++ [q] ++ rest = ([q] ++ (t ++ [q])) ++ rest := by simp
  rw [e, scan_append, h2]
  simp

example : scan .code "a /* // ` * */ \"/*\\\"\" b".toList =
    some (.code, "a  \"/*\\\"\" b".toList) := by decide

end Thema.Props

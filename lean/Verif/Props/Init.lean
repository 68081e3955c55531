import Verif.Spec.Init

/-!
# Creating lineages (C112, C113, C114)
-/

namespace Thema.Props

open Init

variable {F : Type} {X : Ext F} {stdin : Cli.Stdin} {fs : Str → Cli.FileState} {f : Flags}

/-! ### `NewLineage` -/

theorem beforeName_pkg {pkg : Str} (h : pkg ≠ []) : beforeName pkg = "package ".toList ++ pkg ++ "\n".toList ++
    "import \"github.com/grafana/thema\"\n\nthema.#Lineage\nname: ".toList := by
  simp [beforeName, h]

/-- The package of a lineage: none if the name is empty. -/
def pkgOf (pkg : Str) : Option Str := if pkg = [] then none else some pkg

/-- **C112** (where it holds, exactly).  The file that `NewLineage` parses has the package, the
name and the schema asked for if the name has no quotation mark, backslash, line break, NUL or
byte order mark. -/
theorem C112_text_partial {name : Str} (hp : Lit.Plain name) (pkg sch : Str) :
    IsLineage (pkgOf pkg) name sch (lineageText name pkg sch) := by
  refine ⟨if pkg = [] then [] else "package ".toList ++ pkg ++ "\n".toList, Lit.inQuotes name, ?_,
    (Lit.unquote_inQuotes Lit.cueEsc_shrinks name).2 hp, ?_⟩
  · unfold pkgOf
    by_cases h : pkg = [] <;> simp [h]
  · unfold lineageText beforeName afterName afterSchema
    by_cases h : pkg = [] <;> simp [h, List.append_assoc]

example : Lit.Plain "my-lineage".toList := by decide

/-- **C112** refuted, generally: no other name is written as a literal for itself. -/
theorem C112_literal_exact (name : Str) :
    Lit.unquote Lit.cueEsc (Lit.inQuotes name) = some name ↔ Lit.Plain name :=
  Lit.unquote_inQuotes Lit.cueEsc_shrinks name

/-- **C112** refuted, generally: with other names, any fields can get into the file: this is the
text of a lineage with other declarations. -/
theorem C112_injection (a b decls pkg sch : Str) :
    lineageText (a ++ "\"\n".toList ++ decls ++ "\"".toList ++ b) pkg sch =
      beforeName pkg ++ Lit.inQuotes a ++ "\n".toList ++ decls ++ Lit.inQuotes b ++ afterName ++ sch ++
        afterSchema := by
  simp [lineageText, Lit.inQuotes, List.append_assoc]

/-- **C112** refuted (witness): the name `a\tb` (with a backslash) becomes one with a
tabulator. -/
theorem C112_other_name :
    IsLineage none "a\tb".toList "{}".toList (lineageText "a\\tb".toList [] "{}".toList) := by
  refine ⟨[], Lit.inQuotes "a\\tb".toList, rfl, by decide +kernel, by decide +kernel⟩

/-! ### The commands -/

/-- **C113** (where it holds).  `lineage init empty` fails without a name, with an argument and if
both package flags are given, and otherwise prints a lineage with the package that was asked
for. -/
theorem C113_empty_partial {args : List Str} {t : Str}
    (h : run X stdin fs .empty f args = .printed t) :
    args = [] ∧ f.name ≠ [] ∧ ∃ p, Asked f p ∧ (∀ q, p = some q → X.validIdent q = true) ∧
      X.print (lineageText f.name (p.getD []) X.emptySch) = some t := by
  unfold run at h
  dsimp only at h
  split at h
  · cases h
  · rename_i hargs
    refine ⟨List.length_eq_zero_iff.1 (by omega), ?_⟩
    split at h
    · cases h
    · rename_i p hp
      have hpr : X.print (lineageText f.name p X.emptySch) = some t := by
        unfold finish newLineage at h
        dsimp only at h
        split at h
        · rename_i s hs
          injection h with h
          rw [← h]; exact hs
        · cases h
      unfold processPackageArgs at hp
      split at hp
      · cases hp
      · rename_i hn
        refine ⟨hn, ?_⟩
        split at hp
        · rename_i hk
          split at hp
          · cases hp
          · rename_i hpk
            injection hp with hp
            subst hp
            have hpk : f.pkgname = [] := by simpa using hpk
            exact ⟨none, .no hk hpk, (fun q hq => by cases hq), by rw [hpk] at hpr; exact hpr⟩
        · rename_i hk
          dsimp only at hp
          have hk : f.nopkg = false := by simpa using hk
          by_cases hpk : f.pkgname = []
          · rw [if_pos hpk] at hp
            split at hp
            · rename_i hv
              injection hp with hp
              subst hp
              exact ⟨some f.name, .dflt hk hpk,
                (fun q hq => by injection hq with hq; rw [← hq]; exact hv), hpr⟩
            · cases hp
          · rw [if_neg hpk] at hp
            split at hp
            · rename_i hv
              injection hp with hp
              subst hp
              exact ⟨some f.pkgname, .given hk hpk,
                (fun q hq => by injection hq with hq; rw [← hq]; exact hv), hpr⟩
            · cases hp

/-- **C113**: and it does so whenever the flags are right and CUE accepts the file. -/
theorem C113_empty_succeeds {p : Option Str} {t : Str} (hn : f.name ≠ []) (ha : Asked f p)
    (hv : ∀ q, p = some q → X.validIdent q = true)
    (hp : X.print (lineageText f.name (p.getD []) X.emptySch) = some t) :
    run X stdin fs .empty f [] = .printed t := by
  have key : ∀ q, processPackageArgs X f = some q → q = p.getD [] →
      run X stdin fs .empty f [] = .printed t := by
    intro q h1 h2
    simp only [run, h1, h2, finish, newLineage, hp]
    simp
  refine key (p.getD []) ?_ rfl
  cases ha with
  | no h1 h2 => simp [processPackageArgs, hn, h1, h2]
  | given h1 h2 => simp [processPackageArgs, hn, h1, h2, hv _ rfl]
  | dflt h1 h2 => simp [processPackageArgs, hn, h1, h2, hv _ rfl]

/-- CUE that takes everything as it is, for examples. -/
def anyCue : Ext Unit where
  print := some
  validIdent := fun s => s ≠ []
  emptySch := "{}".toList
  jsonSchema := fun _ _ => some "{a: int}".toList
  orphaned := fun args _ => if args = [['-']] then [] else [some .json]
  yaml := fun _ => some ()
  json := fun b => if b = [] then none else some ()
  openAPI := fun _ _ => some "{a: int}".toList

example : run anyCue ⟨.charDevice, []⟩ (fun _ => .unreadable) .empty { name := "foo".toList } [] =
    .printed (lineageText "foo".toList "foo".toList "{}".toList) := by decide +kernel

/-- What the other two subcommands print: the flags `--package-name` and `--name` as they are. -/
theorem run_others {sub : Sub} {args : List Str} {t : Str} (hs : sub ≠ .empty)
    (h : run X stdin fs sub f args = .printed t) :
    ∃ sch, X.print (lineageText f.name f.pkgname sch) = some t := by
  have hf : ∀ o, finish X f.name f.pkgname o = .printed t →
      ∃ sch, X.print (lineageText f.name f.pkgname sch) = some t := by
    intro o ho
    unfold finish newLineage at ho
    split at ho
    · cases ho
    · rename_i s
      split at ho
      · rename_i t' ht
        injection ho with ho
        exact ⟨s, by rw [← ho]; exact ht⟩
      · cases ho
  cases sub with
  | empty => exact absurd rfl hs
  | openapi =>
    simp only [run] at h
    split at h
    · cases h
    · split at h
      · cases h
      · unfold runOpenAPI at h
        split at h <;> first | exact hf _ h | cases h
  | jsonschema =>
    simp only [run] at h
    split at h
    · cases h
    · split at h
      · cases h
      · exact hf _ h

/-- The document that a schema is made from: the file or standard input, read as the subcommand
says. -/
inductive FromDoc {F : Type} (X : Ext F) (args : List Str) (srcpath : Str) (b : Bytes) :
    Sub → Str → Prop
  | openapi {file e es sch} : X.orphaned (if args = [] then [['-']] else args) b = some e :: es →
      (e = .yaml ∧ X.yaml b = some file ∨ e = .json ∧ X.json b = some file) →
      X.openAPI file srcpath = some sch → FromDoc X args srcpath b .openapi sch
  | jsonschema {sch} : X.jsonSchema b srcpath = some sch → FromDoc X args srcpath b .jsonschema sch

/-- **C113** (where it holds): the other subcommands print a lineage with the schema at the path
that was asked for in the document that they were given, with the name as it is and the package
that `--package-name` says. -/
theorem C113_document_partial {sub : Sub} {args : List Str} {t : Str} (hs : sub ≠ .empty) :
    run X stdin fs sub f args = .printed t ↔ args.length ≤ 1 ∧ ∃ b sch,
      Cli.pathOrStdin stdin fs args = .ok b ∧ FromDoc X args f.srcpath b sub sch ∧
      X.print (lineageText f.name f.pkgname sch) = some t := by
  have hf : ∀ o, finish X f.name f.pkgname o = .printed t ↔
      ∃ sch, o = some sch ∧ X.print (lineageText f.name f.pkgname sch) = some t := by
    intro o
    unfold finish newLineage
    cases o with
    | none => simp
    | some s =>
      dsimp only
      cases hX : X.print (lineageText f.name f.pkgname s) <;> simp [hX]
  cases sub with
  | empty => exact absurd rfl hs
  | openapi =>
    simp only [run]
    by_cases ha : args.length > 1
    · rw [if_pos ha]
      exact ⟨(fun h => by cases h), fun h => absurd h.1 (by omega)⟩
    · rw [if_neg ha]
      cases hb : Cli.pathOrStdin stdin fs args with
      | error e => simp
      | ok b =>
        have key : runOpenAPI X f b args = .printed t ↔ ∃ sch, FromDoc X args f.srcpath b .openapi sch ∧
            X.print (lineageText f.name f.pkgname sch) = some t := by
          unfold runOpenAPI
          constructor
          · intro h
            split at h
            · rename_i file hfile
              obtain ⟨sch, h1, h2⟩ := (hf _).1 h
              refine ⟨sch, ?_, h2⟩
              unfold inputToFile at hfile
              split at hfile
              · cases hfile
              · cases hfile
              · rename_i e es he
                cases e with
                | other => cases hfile
                | json =>
                  injection hfile with hfile
                  exact .openapi he (.inr ⟨rfl, hfile⟩) h1
                | yaml =>
                  dsimp only at hfile
                  cases hy : X.yaml b with
                  | none => rw [hy] at hfile; cases hfile
                  | some y =>
                    rw [hy] at hfile
                    injection hfile with hfile
                    injection hfile with hfile
                    exact .openapi he (.inl ⟨rfl, by rw [hy, hfile]⟩) h1
            all_goals cases h
          · rintro ⟨sch, ⟨he, hfile, h1⟩, h2⟩
            rename_i file e es
            have : inputToFile X b args = .ok (some file) := by
              unfold inputToFile
              rw [he]
              rcases hfile with ⟨rfl, hy⟩ | ⟨rfl, hy⟩ <;> simp [hy]
            rw [this]
            exact (hf _).2 ⟨sch, h1, h2⟩
        dsimp only
        rw [key]
        constructor
        · rintro ⟨sch, h1, h2⟩
          exact ⟨by omega, b, sch, rfl, h1, h2⟩
        · rintro ⟨_, b', sch, h1, h2, h3⟩
          injection h1 with h1
          subst h1
          exact ⟨sch, h2, h3⟩
  | jsonschema =>
    simp only [run]
    by_cases ha : args.length > 1
    · rw [if_pos ha]
      exact ⟨(fun h => by cases h), fun h => absurd h.1 (by omega)⟩
    · rw [if_neg ha]
      cases hb : Cli.pathOrStdin stdin fs args with
      | error e => simp
      | ok b =>
        dsimp only
        rw [hf]
        constructor
        · rintro ⟨sch, h1, h2⟩
          exact ⟨by omega, b, sch, rfl, .jsonschema h1, h2⟩
        · rintro ⟨_, b', sch, h1, h2, h3⟩
          injection h1 with h1
          subst h1
          cases h2 with
          | jsonschema h => exact ⟨sch, h, h3⟩

example : FromDoc anyCue ["a.json".toList] [] [0] .openapi "{a: int}".toList ∧
    FromDoc anyCue ["a.json".toList] [] [0] .jsonschema "{a: int}".toList :=
  ⟨.openapi (e := .json) (file := ()) (es := []) rfl (.inr ⟨rfl, rfl⟩) rfl, .jsonschema rfl⟩

/-- **C113** refuted, generally: with a document as input the package is never the name: without
`--package-name` there is none. -/
theorem C113_package_missing {sub : Sub} {args : List Str} {t : Str} (hs : sub ≠ .empty)
    (hp : f.pkgname = []) (h : run X stdin fs sub f args = .printed t) :
    ∃ sch, X.print ("import \"github.com/grafana/thema\"\n\nthema.#Lineage\nname: ".toList ++
      Lit.inQuotes f.name ++ afterName ++ sch ++ afterSchema) = some t := by
  obtain ⟨sch, hsch⟩ := run_others hs h
  refine ⟨sch, ?_⟩
  rw [hp] at hsch
  exact hsch

/-- **C113** refuted, generally: with a document as input the flag `--no-package` has no
effect, not even together with `--package-name`. -/
theorem C113_no_package_ignored {sub : Sub} (hs : sub ≠ .empty) (args : List Str) (b : Bool) :
    run X stdin fs sub { f with nopkg := b } args = run X stdin fs sub f args := by
  cases sub with
  | empty => exact absurd rfl hs
  | openapi => rfl
  | jsonschema => rfl

/-- **C113** refuted (witness): an empty name is accepted, and so are both flags. -/
theorem C113_no_name : ∀ sub, sub = .openapi ∨ sub = .jsonschema →
    run anyCue ⟨.charDevice, []⟩ (fun _ => .file [0]) sub
      { pkgname := "foo".toList, nopkg := true } ["a.json".toList] =
      .printed (lineageText [] "foo".toList "{a: int}".toList) := by
  rintro sub (rfl | rfl) <;> decide +kernel

example : ∃ t, run anyCue ⟨.charDevice, []⟩ (fun _ => .file [0]) .openapi { name := "foo".toList }
    ["a.json".toList] = .printed t ∧ t.take 7 ≠ "package".toList := ⟨_, rfl, by decide⟩

/-! ### Bad input -/

/-- **C114** (where it holds).  `lineage init` does not panic: but for `openapi`, and there if
CUE finds the file and it is YAML or can be read. -/
theorem C114_no_panic_partial {sub : Sub} {args : List Str} {k : PanicKind}
    (h : run X stdin fs sub f args = .panicked k) :
    sub = .openapi ∧ ∃ b, Cli.pathOrStdin stdin fs args = .ok b ∧
      ((X.orphaned (if args = [] then [['-']] else args) b = [] ∧ k = .indexOutOfRange) ∨
       ((X.orphaned (if args = [] then [['-']] else args) b).head? = some (some .json) ∧
        X.json b = none ∧ k = .nilDeref)) := by
  have hf : ∀ n p o, finish X n p o ≠ .panicked k := by
    intro n p o
    unfold finish
    split
    · simp
    · split <;> simp
  cases sub with
  | empty =>
    simp only [run] at h
    split at h
    · cases h
    · split at h
      · cases h
      · exact absurd h (hf _ _ _)
  | jsonschema =>
    simp only [run] at h
    split at h
    · cases h
    · split at h
      · cases h
      · exact absurd h (hf _ _ _)
  | openapi =>
    refine ⟨rfl, ?_⟩
    simp only [run] at h
    split at h
    · cases h
    · split at h
      · cases h
      · rename_i b hb
        refine ⟨b, hb, ?_⟩
        unfold runOpenAPI at h
        split at h
        · exact absurd h (hf _ _ _)
        · rename_i hi
          injection h with h
          unfold inputToFile at hi
          split at hi
          · cases hi
          · cases hi
          · rename_i e _ ho
            cases e with
            | yaml => dsimp only at hi; split at hi <;> cases hi
            | other => cases hi
            | json =>
              injection hi with hi
              exact .inr ⟨by simp [ho], hi, h.symm⟩
        · cases h
        · rename_i k' hi
          injection h with h
          unfold inputToFile at hi
          split at hi
          · rename_i ho
            injection hi with hi
            exact .inl ⟨ho, by rw [← h, ← hi]⟩
          · cases hi
          · rename_i e _ ho
            cases e with
            | yaml => dsimp only at hi; split at hi <;> cases hi
            | other => cases hi
            | json => cases hi
        · cases h

/-- **C114** refuted, generally: a file that is not valid JSON, but is called so, makes
`lineage init openapi` panic instead of reporting the error. -/
theorem C114_bad_json {p : Str} {b : Bytes} (hfs : fs p = .file b)
    (ho : (X.orphaned [p] b).head? = some (some .json)) (hj : X.json b = none) :
    run X stdin fs .openapi f [p] = .panicked .nilDeref := by
  have ho' : ∃ r, X.orphaned [p] b = some .json :: r := by
    cases h : X.orphaned [p] b with
    | nil => rw [h] at ho; cases ho
    | cons x r => rw [h] at ho; injection ho with ho; exact ⟨r, by rw [ho]⟩
  obtain ⟨r, hr⟩ := ho'
  simp [run, Cli.pathOrStdin, hfs, runOpenAPI, inputToFile, hr, hj]

/-- **C114** refuted, generally: and so does any input that CUE takes for CUE, which it does with
standard input. -/
theorem C114_stdin {b : Bytes} (ho : X.orphaned [['-']] b = []) :
    run X ⟨.namedPipe, b⟩ fs .openapi f [] = .panicked .indexOutOfRange := by
  simp [run, Cli.pathOrStdin, runOpenAPI, inputToFile, ho]

example : run anyCue ⟨.namedPipe, [0]⟩ (fun _ => .unreadable) .openapi {} [] =
    .panicked .indexOutOfRange := C114_stdin rfl
example : run anyCue ⟨.charDevice, []⟩ (fun _ => .file []) .openapi {} ["a.json".toList] =
    .panicked .nilDeref := C114_bad_json (b := []) rfl rfl rfl

end Thema.Props

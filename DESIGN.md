# A Lean 4 model of grafana/thema

## 1. What is checked, and by what

* Lean 4.33.0's kernel checks every theorem.  No axioms are declared, there is
  no `sorry`/`admit`, no `native_decide`, no `bv_decide`.  Property theorems
  depend at most on `propext`, `Classical.choice` and `Quot.sound`
  (`Verif/Axioms.lean` prints the list for each of them at build time).
* The theorems are about the *model* in `lean/Verif/Model/`.  The tie to the Go
  and CUE source in /repo is by reading: each definition cites the file and
  lines it transcribes and states every simplification.
* Property statements are in `lean/Verif/Props/`, the vocabulary they are stated
  in (which does not mention the model's helpers) is in `lean/Verif/Spec/`,
  supporting lemmas are in `lean/Verif/Lemmas/`.

## 2. Trusted base: what is assumed about things that are not thema's code

thema is a thin layer of Go and CUE over the CUE evaluator.  The CUE evaluator,
Go's runtime and standard library are *not* modelled.  Where thema calls them,
the call is either

* a field of an abstract structure `Cue V` (`Verif/Model/Cue.lean`): an
  arbitrary function.  Theorems quantify over all of them.  Laws are never
  assumed globally; a theorem that needs one (e.g. "subsumption is sound for
  validation") takes it as a named hypothesis, and a concrete evaluator
  (`Verif/Model/SetCue.lean`, values are sets of instances; `Verif/Model/TyCue.lean` for
  `AssignableTo`; small ones beside the theorems) is shown to satisfy it, so that the hypothesis is
  satisfiable; or
* a transcription of the documented behaviour: `sort.Search` (binary search),
  `strings.Split`, `strconv.ParseUint`, `fmt %d` of an unsigned integer,
  `sync.RWMutex` with writer preference, map insertion / deletion / lookup,
  the CUE builtins `list.Drop/Take/Slice/Sum/Range`, list indexing.

Behaviour of CUE relied on while transcribing `lineage.cue`/`translate.cue`
(comments at each definition repeat it):

* a failed list index, a failed version guard, or a conflicting unification
  inside a translation step is a (non-incomplete) error which propagates to
  `out`, so that `out.Err() != nil`;
* `*x | y` with `x` not in error has default `x`; with `x` in error it is `y`;
* a value outside `uint64` in `_counts` makes `uni.Validate` fail;
* the error paths handed to `trimThemaPath` are arbitrary lists of strings.

Further behaviour that is transcribed or assumed, by area (each at the definition or as a
hypothesis of the theorem):

* CUE builtins: `list.Range`, `list.Slice` and list indices fail out of range; whether a
  reference to a missing field of a lacuna is fatal is a parameter (`lacunaRefFatal`);
  whether a value is a struct (`isStruct`); `Selector.Optional`; `FillPath` on different paths
  commutes (hypothesis of C47); unification laws for hydration (`FillLaws`).
* `AssignableTo`: what `cue.Value` reports about a value (`Obs`), what `EncodeType` gives for a
  Go type, and how these relate to the instances (`Coherent`, `Sem`, `Listable`).
* JSON Schema and OpenAPI 3.0.0: which data a schema accepts (`Spec/JSchema.lean`), with the
  keywords that generation leaves alone as an arbitrary parameter.  Syntax trees are trees
  (no sharing between nodes).
* Go: `fmt` (`doPrintf`: verbs, flags, missing and extra arguments), `%q` and the lexing of
  string literals, `path` and `filepath` (`Clean`, `Join`, `Base`, `Dir`, `Ext`, `Rel`),
  `strings.Title`, `strings.ToLower` and the `unicode` predicates as parameters with laws
  (`GoGen.Std`), `fs.WalkDir` in lexical order on well-formed file systems, the merged file
  system (first the one, then the other), `os.ModeNamedPipe`, `astutil`-style `Apply` with
  deletion (`Cursor.Delete` moves the rest of the list up and the cursor back).
* `encoding/json`: `Unmarshal` into a zero value and `Marshal`, as documented (fields matched by
  name, exactly first, then ignoring case; `null` into a value leaves it; `omitempty`; slices of
  bytes as base64), for types without methods and embedded fields; numbers are rationals, with
  rounding to `float32` and `float64`, base64, case folding and types of other packages as
  parameters (`GoJson.Std`).
* Unicode: the classes of characters used by `oapi-codegen` are parameters with laws
  (`OGen.UniLaws`); maps are iterated over in any order; `text/template` substitutes text as it
  is.
* `allOf` with inline members: references in `allOf` are given with what they refer to, so there
  are no cycles; of two definitions with the same Go name the merged schemas are compared (the
  code compares them before they are merged).
* CUE's `Value.Decode` (`Model/Typed.lean`): defaults are used; a value that is not concrete
  clears pointers and slices and is an error ("cannot convert non-concrete") for other types;
  optional fields are skipped; decoding into what is not a non-nil pointer is an error; decoding
  goes on after errors.  Whether a slice with enough capacity keeps its elements (it does in
  v0.5, as far as known) is a parameter.
* CUE: `Selector.String` writes labels that are not identifiers in quotation marks, differently
  for different labels; a name means the field of the innermost enclosing struct that has it,
  and a reference of a field to itself is no constraint (`Model/Surface.lean`).
* A definition is closed: a regular field that it does not declare is an error, and so is the
  selection of one. A call or comparison with an operand that has no value is incomplete. What a
  comprehension yields inside of a struct are fields of this struct (`Model/Crd.lean`).
* dst: the `Imports` of a file are those found by the parser, and are not changed by changes of
  its declarations.
* cobra and pflag: a flag has its default unless given; `PersistentPreRun` of the nearest
  command runs before `Run`; `MarkFlagRequired` knows only the flags of the command itself; missing
  flags are reported after the functions that run before (`Model/Commands.lean`).
* `lineage init`: `cue.Runtime.CompileFile(nil)` panics; `load.Instances` lists files that are not
  CUE in `OrphanedFiles`, and takes standard input for CUE (hypotheses of C114).
* `lineage fix`: `astutil.Apply` visits the parts of a node that `Replace` put in place of
  another one, and does not visit what `InsertAfter` adds; `cue.Value.Source` is a given.
* oapi-codegen writes `// Name Documentation` as first line of a comment; regular expressions
  of `decorators.go` are written out with Go's rules (leftmost, lazy, greedy).
* cuetsy is a function from values, names and kinds to nodes.
* CUE's OpenAPI generator asks the naming function for the name of each definition, and the
  component of the value itself is named with the empty path.
* The exemplars: a CUE struct of fields with basic values, disjunctions of basic values and types,
  and one default; unification, closedness, defaults and references to missing fields as in
  `Model/Exemplars.lean`.  The alternatives of `disjunct` are kinds of values of their own.
* `go/scanner` (`Model/GoText.lean`): comments, raw strings, string and rune literals, and that NUL
  is an error; the rest of a source text is code.  A schema with the field
  name `"a\nvar X = 1 //"` is legal CUE, and its name reaches the OpenAPI document unchanged.
* C132: reads and writes of package variables are atomic and sequentially consistent (Go promises
  less for races); Go's runtime marks a map as being written at the beginning of an assignment and
  clears the mark at its end, and ends the program if another access to the map finds the mark;
  the OpenAPI that CUE writes has no `x-go-name` extensions.
* The text of `token.Pos` is a parameter of the messages of validation.  CUE's error for a
  field that a closed struct does not have is `field not allowed: %s` with the name of the
  field as its only argument.  The types of CUE are the ranges of integers and decimals in
  `Spec/ErrText.lean`; the bounds of `float64` are those that CUE writes.
* CUE names: in the body of a legacy lens `from` and `to` are the fields of the lens around it,
  in that of a new lens `input`, `result`, `from`, `to`; other names come from outside.  A literal
  `_|_` in a value is an error of the value.
* `joinSchema` (C144): `_join & schema` in a definition is `close (unify join schema)` for an
  unspecified `close`; where laws are used (`JoinLaws`, `TopNeutral`) they are hypotheses, met by
  `SetCue` with `close = id`.
* For what hydration means (C147): values have meanings in a meet-semilattice, unification is the
  meet, filling a field adds what is said about it, iterators list each field once, and concrete
  data contain no open lists (`Means` in Spec/HydrateSem; met by `valCue`).
* Go pointers (C149): `new(T)` and `&T{}` give an object different from all others; `*p = x` changes it for
  all who hold `p`; reading gives what was written last.  Calls in `Model/InstPtr.lean` do not overlap in time.
* `sync.RWMutex`: readers share, writers exclude; waiting writers may or may not have
  preference (the theorems hold for both).

Not modelled: the CUE evaluator, the parts of `oapi-codegen` that are not cited, goimports, text/template beyond substitution,
cuetsy, the kindsys-style code under `internal/` that is not cited; error
message texts (except where a property is about them),
source positions other than file names, CUE syntax trees except where listed,
performance, memory.  Go `uint` is modelled by `Nat`, with wrap-around written
out where the code increments or decrements a version component.  Go mapper
functions are modelled as functions (no hidden state).

## 3. Modelling conventions

* A Go call returning `(x, error)` that may panic is a `Res α`:
  `ok`/`err`/`panic`, plus `fuel` for loops that did not finish within the step
  budget given to the model function.  Index-out-of-range, nil dereference and
  explicit `panic(..)` are all `Res.panic`; nothing is totalised silently.
  Termination theorems say that from some explicit budget on, the result is not
  `fuel`; non-termination theorems say that it is `fuel` for every budget.
* `errors.Is` is modelled by the list of sentinel errors an error is marked
  with or unwraps to.
* Pointers to lineages are natural numbers into a heap of bound lineages;
  a schema pointer is (lineage, position).  Pointer equality is equality.
* Slices are lists; maps are association lists or functions.

## 4. Properties: what is modelled and how it is proved

| id | model | proof |
|---|---|---|
| C01 | `less`, `cmpSV` (all five CUE conditionals, ambiguity explicit) | case analysis + omega |
| C02 | `toStr` (decimal digits), `parse` | digit induction; negative theorem for components >= 2^32 |
| C03 | `split`, `parseUint`, `parse` on character lists | both directions against a declarative grammar |
| C04 | `search` = Go's binary search, `searchSynv`, `synvExists`, `schema`, `Schema` | loop invariant of binary search |
| C05 | `first/latest/all` | sortedness from bind's checks |
| C06 | `successor/predecessor` | via C04 lemmas, induction on position |
| C07 | `predecessor` | false: witness lineage starting at 1.0; partial under "first is 0.0" |
| C08 | `latestInMajor` | false for *every* lineage: general refutation; exact description of what is returned |
| C09 | `checkSchemasOrder` | false (duplicates): witness; partial: non-decreasing |
| C10 | bind | false: witnesses; partial: what is guaranteed |
| C11 | `checkGoValidity` with abstract subsumption | induction on the schema list, iff |
| C12 | C11 + soundness of subsumption | induction on distance; `SetCue` instance |
| C13 | `checkGoLensCompleteness` incl. report composition | multiset reasoning on expected pairs |
| C14 | `checkLensesOrder`, `doCheck` | induction; iff `Sorted` |
| C15 | bind | false: witness; partial: order only |
| C16 | `bindLineage` | case analysis |
| C17 | `unifyDecision` | counting conjuncts; false for repeated #Lineage with one other conjunct: witness, partial otherwise |
| C18 | bind | false: witness |
| C19 | `validate`, `mungeValidateErr` | unfolding + totality |
| C20 | `validateAny` with fuel | induction; false for duplicates (non-termination proved) ; partial for distinct versions |
| C21 | `munge` | against a declarative classification relation |
| C22 | `trimThemaPath` | false: witness; exact characterisation of panicking paths |
| C23 | `splitTokens` | induction |
| C24 | `translateCue` | from the final Validate |
| C25 | `translateCue` vs. independent path semantics | refinement by induction on the path; partial: at most three majors; general refutation from four majors on |
| C26 | `counts/basis/flatidx` | algebra on prefix sums; refutation for every lineage with >= 4 majors |
| C27 | `counts` | refutation for five singleton majors, partial for <= 3 |
| C28 | `translateCue` steps | induction on steps |
| C29 | `out` record, lookup of "lacunas" | refuted: always empty |
| C30 | marks of errors | refuted: witness; partial: what each error is |
| C31 | both translate paths | direct |
| C32 | both translate paths | refuted: panics for every absent version |
| C33 | `translateGo` with fuel, call trace | refinement to a fold over adjacent positions |
| C34 | `translateGo` | refuted: foreign mapper; partial for mappers that return instances of the schema they are given |
| C35 | `translateGo` | fold append |
| C36 | both paths | C12 + unfolding |
| C37 | `asSuccessor/asPredecessor` | refuted: always panic at the ends; partial elsewhere |
| C38 | reachable instances as inductive predicate | refuted (Examples, foreign lenses); partial for Validate/Translate/AsSuccessor histories |
| C39-C41 | mux functions with fuel | loop invariant from the newest down |
| C42-C44 | `isAppendOnly` | induction; C44 for checks in force, contiguous versions and the same join (each needed: C57) |
| C45 | RWMutex machine, threads as programs of critical sections | inductive invariant; progress |
| C46 | same machine with evaluation steps | refuted: witness schedule; partial: for calls that evaluate under lock |
| C47 | fold over permutations | permutation invariance from commutation of FillPath on different paths |
| C48-C49 | `extractParts` | induction on sequences with wrap-around `uint` |
| C50 | selector lists | list induction; TrimPathPrefix refuted, partial |
| C51 | filter | list lemmas |
| C52 | expression trees | tree induction |

| C53-C54 | `munge`, error marks | refutations for all failing validations; partial: all known shapes are reported |
| C55-C56 | `translateCue`, `mux` | totality from the index lemmas of C04/C26; refutations at the ends and for repeated versions |
| C57 | `isAppendOnly` | witnesses; partial: what is unconditional |
| C58 | paths | list induction |
| C59 | `rewrite` of legacy references | tree induction; refuted for deeper references |
| C60 | RWMutex machine with panics | invariant: a lock taken without defer is never released |
| C61-C65 | `AssignableTo` (`TyCue.lean`) | structural induction on Go types against a declarative relation |
| C66-C68 | `doHydrate`, `doDehydrate`, `Instance.Hydrate` | induction on fuel = depth; frame conditions |
| C69-C72 | `oapiToJSchema` rewriting | mutual induction on syntax trees; acceptance semantics with recursive references by fuel |
| C73-C79 | `cmd/thema/data.go` and the loading of arguments | case analysis on flags, files and standard input |
| C80-C82 | `findCueMod`, `dynLoad`, `buildInsts`, go.mod search | induction on directories and instances |
| C83-C86 | `lineage gen` commands, `doPrintf` | induction on the format string |
| C87-C93 | templates of generated bindings, literals | declared and used names of the generated file; lexing of literals by induction |
| C94-C97 | `AsModFS`, `InstanceWithThema`, overlays | file systems as finite maps; frame conditions |
| C98-C103 | `GenerateSchema` of the OpenAPI encoder | naming functions, configuration passed through calls |
| C104-C106 | `decorators.go` on a syntax of Go types | mutual induction on types; files as lists of declarations |
| C107-C109 | `oapi-codegen` (vendored): names, enumerations, structs | induction on names; iteration over maps as permutations |
| C110 | the whole pipeline from components to declarations | invariants over the phases: declared and used names |
| C111 | generated types with `encoding/json` (`Model/GoJson.lean`) | mutual induction on the derivation of validity; decoding with fuel, for all large fuels |
| C112-C114 | `NewLineage`, `lineage init` (`Model/Init.lean`) | literals; case analysis on subcommands and flags |
| C115-C116 | `lineage fix` (`Model/Fix.lean`) | induction on syntax trees and on the depth of calls; non-termination as failure for every depth |
| C117 | comments of Go code (`Model/Comment.lean`) | lists of characters; counting spaces |
| C118 | `typescript.GenerateTypes` (`Model/TsGen.lean`) | invariant of the configuration over calls |
| C119 | embedded structs of generated types with `encoding/json` | induction on the rank of the references; which of several fields counts |
| C120 | merging of `allOf` (`Model/OMerge.lean`) | mutual induction on schemas and members; induction on the derivation of validity |
| C121-C124 | `BindType`, `NewT`, `Value` (`Model/Typed.lean`) | C61 for the shape of accepted types; mutual induction on Go types: decoding data over the defaults |
| C125-C128 | `Examples`, `traverse.cue`, the report of `checkGoLensCompleteness`, `PostprocessGoFile` (`Model/Surface.lean`) | induction over the lists; C20 for the agreement with `ValidateAny`; the required pairs of C13 |
| C129, C130 | the lineages in `exemplars/`, with a small CUE of structs of basic fields (`Model/Exemplars.lean`), and `translate` of C10 for them | what a value represents (`Rep`) is kept by unification with a schema that it fits; one lemma per lens |
| C131 | the text of comments, fields, tags and type definitions (`Model/GoText.lean`), and a scanner that tells code from comments and literals | the scanner is a state machine, so what it reads of a text is composed of what it reads of the parts; descriptions only add blank lines |
| C132 | accesses of `codegen.Generate` to variables of its package as steps of threads (`Model/GenRace.lean`), any schedule | invariant: after the first assignments of any call the variables hold what every call of Thema writes; at most one thread is inside the assignment to the map |
| C133 | `Error` methods as functions to texts (`Model/ErrText.lean`); texts of constraints read as conditions on numbers (`Spec/ErrText.lean`) | parsing of all entries of the table, then arithmetic; splitting undoes joining for texts without bars |
| C134 | the written parts as a value to bind, lens bodies evaluated with names (`Model/Migrate.lean`); legacy walk from sequence to sequence (`Spec/Migrate.lean`) | evaluation depends only on the names used; explicit list of parts, then C25, C48, C49 |
| C135 | two lists of options with the same Go lenses (`Props/Options.lean`: `SameLineage`) | the check takes required pairs away from a set: a permutation is kept at each step; the rest depends on the lens table through lookups only |
| C136 | `Extends` (`Spec/Grow.lean`): schemas and lenses added at the end | the derived lists of the version index are prefixes of each other; indexes of old versions stay inside the old list (C26, C27); guards reject added lenses |
| C137 | `Undone`, `ClosedUnderTranslate`, `DataOnly` (`Spec/RoundTrip.lean`) | induction on the distance; translations compose (C35); results depend on the data only |
| C138 | `Walk` (`Spec/Translate.lean`) | walks divide and join at a version in between and are determined by the exact lenses; two concrete evaluators for the refutations |
| C139 | `CodecLaws`, `GenuinePlain` (`Spec/MuxAgain.lean`) | results of the multiplexer are accepted and plain (C24, C34); accepted data pass |
| C140 | `climb`, `descendBy` (`Spec/Steps.lean`) | C36, C37 for one step; composition (C35) for many; an evaluator with fields and defaults for the refutation |
| C141 | equality of the results of two multiplexers, one in each lineage | C39's description of the multiplexer in both lineages; which schemas accept the data is the same for old positions (prefix), translations agree by C136 |
| C142 | equality of the results of two calls of `translate`, one in each lineage | C44 gives equal versions at equal positions; the walk through Go lenses is the same in both; `rfl` for the fields that the check ignores |
| C143 | `LensesWork`/`FunctionsWork`: each lens alone; conclusion about `translate` between any two positions and about the multiplexer | induction over the walk (`Ascend`, `Descend`, `GoAscend`, `GoDescend`), with C12 for minor steps; C25, C33 and C39 turn walks into results |
| C144 | `DeclLineage`, `JoinLaws`, `writtenOut` (Spec/Declare) | bodies are `close (join & schema)`; accepted by both; C38 for obtainable; loop commutes with rewriting literals; C44 with its join hypothesis discharged |
| C145 | `DeclLineage` | version default, sortedness of bound versions, first hit of the search |
| C146 | `Describes` (Spec/BindReport) | split the list at the first schema that fails; appending a passing schema to a passing prefix |
| C147 | `Means`, `Plain`, `DefaultOf`, `BranchOf` (Spec/HydrateSem): meanings are elements of a meet-semilattice | induction on the depth for `doHydrate` and `doDehydrate`, on the fields and elements for their loops: the result lies between data and data ⊓ schema; evaluator `valCue` of conjunctions of fields and lists meets the laws; witness for the refutation |
| C148 | `linesOf` (Spec/AssignText) splits a text at line feeds; "recorded last" is a splitting of the sequence of assignments | induction on the assignments for the entries of the map, on the entries for the lines of the text; two permutations that begin with different entries for the refutation; witness with `TyCue` for the hidden discrepancy |
| C149 | `Spec/InstPtr.lean`: `Gentle`, `Call`/`Later`, `Record`, `AsAsked`, `Returns` | memory as a list of `Instance` objects; every step keeps the objects made before the call, since the loop writes only to the object it made itself; the refutation follows the loop with a log of what the lenses were given; agreement with the functions over values by a simulation |
| C150 | `Spec/InitFile.lean`: `Free`, `Dangling`, `Complete`, `FirstSchema` | the loop of `ToExpr` keeps all fields and embeddings (induction over the declarations) and no import; the names that dangle in the result are the free names of the schema less five |
| C151 | places in syntax trees (`Model/FixFile.lean`), `Apart`, `OperandOf`, `Literal` (`Spec/FixFile.lean`) | what is at a place apart from a changed one stays (induction over the way down); the search finds a literal operand if there is one (mutual induction over values) |
| C152 | `FirstWith` (`Spec/Exact.lean`) | the search finds the first occurrence in a sorted list; adjacent equal versions wherever one is repeated |
| C153 | `DistinctUpTo`, `RepeatsEarly` (`Spec/Exact.lean`) | up to the first repetition Successor steps by one; there it returns to the first schema with the version |
| C154 | the same | the loop that lists versions ends at the same place |
| C155 | `Stuck` (`Spec/LensErrors.lean`) | a walk arrives or is stuck (induction over the distance), not both since lenses are unique; steps are never incomplete |
| C156 | `InitialOf`, `Steps`, `Evaluates` (`Spec/Lock.lean`) | where a goroutine is comes from an action of its calls (invariant); explicit executions in which one goroutine runs alone to the action |
| C157 | `Opens`, `openedBefore` (`Spec/VersionLists.lean`) | the list of first positions grows at its end (reverse induction); a lineage whose schema bodies change exactly at minor zero satisfies the compatibility rule |
| C158 | `FirstWith` (`Spec/Exact.lean`) | equal versions: `steps` is empty and the result is the input; the search finds the first schema |
| C159 | `GoWalk` (`Spec/TranslateGo.lean`) | the loop follows the walk to the end of the lineage (induction), where the neighbour is nil |
| C160 | `AgreeUpTo` (`Props/PathExact.lean`) | the loop stops at the first difference, so that its index is the greatest |
| C161 | `FirstWith` (`Spec/Exact.lean`) | C152 gives the neighbouring schema; the rest is the definition of Translate |
| C162 | `Translate` returns no instance; it panics | the pairs demanded name 0.0 in place of the first version, so that no pair with the first version is stored; induction over the loop |
| C163 | `Repeated`: two positions with one version | the successor of a repeated version is that version again, so that the loop never passes it; otherwise each step climbs by one, induction over the remaining distance |
| C164 | `Required` on the list with 0.0 in place of the first; counting | completeness compares two sorted lists of pairs, hence permutation; the list of required pairs has no duplicate iff no version occurs three times, by induction |
| C165 | `openings`, `shortfall` (`Spec/Openings.lean`) | the list of positions is the list of openings, by induction from the end; the prefix sums of the counts telescope; contiguous lists are blocks, whose openings are the prefix sums of the sizes |
| C166 | `Ascend`, `Delivers`; `landing` is C165's position | the slice or range is taken between the landings; its first element is compared with the instance's version, from there on the walk of C25 |
| C167 | `FirstAbove` (position of the first version with a greater major) | the search for the version (major + 1, 0) in a sorted list ends there |
| C168 | `Reports`, `KnownShape`, `PathOk`, `Cut` (`Spec/Validate.lean`) | induction over the sub-errors; reports are unique because cuts, positions and paths are |
| C169 | the specification's `Selected`, `DataIs`, `Admits`, `Oldest`, `DistinctUpTo` | cases over the outcome of the command; C153 for the search of validate-any |
| C170 | `NearestReadable`, `BelowCueMods`, `GoModAt`, stated by path lengths | induction over the directory, with the state of the search generalised |
| C171 | `Undefined`, `Declares` of a generated file | cases over the configuration; names differ in their first letters |
| C172 | `Accepted`, `FlagIs`, `Means`; inductive outcomes per command; `PrintedAs` (Spec/Printf): the grammar of verbs and the complaints written for them | induction over the flags; the variables are the last values given |
| C173 | field lookups before and after, under the laws of filling | the loop over the definition's fields meets none of the data's |
| C174 | `Tried`, `NewestTried` (Spec/MuxExact): first schemas of the other versions | The walk over predecessors visits exactly the first schema of each version (C152), by induction on the walk; the typed walk is the untyped one followed by binding the result |
| C175 | `Writes`, `Crashes`, `written` (Spec/InitExact): what is asked for, and which input crashes | Case analysis over the subcommands, on C113 and C114 |
| C176 | `titleOf`, `roots`, `componentsOf`, `SubpathOk` (Spec/OApiExact) | The name function equals the naming rule on all paths in the definition; induction over the fields of a group |
| C177 | `Embedded` (Props/LoadExact): where Thema's own files are put | Overlays are maps: look-up after each `toOverlay`, paths below the module root are injective |
| C178 | Labels as written by CUE, data and schema of each entry | Induction over the fields with the map so far; labels are injective |
| C179 | First schema without a conflict | `head?` of filter and map, split at the first match |
| C180 | `PrintedReason` (Spec/SurfaceExact), unique for each migration; `TrueReason` | The loop over required pairs leaves those not required; binary search finds neighbours; uniqueness gives the converse |
| C181 | Result of goimports, imports of the given file | Appliers by induction, case analysis |
| C182 | `replaceSeqs`, `newSchemas`, `newLenses`, `Lens.Good/Reported/Crashes` (Spec/FixExact): the result by structural recursion, without the loop | The four outcomes are exclusive and exhaustive: each is shown under its condition, the converse follows by exclusion |
| C183 | `ShallowRefs`, `Mentions`, `renameRefs` | Structural induction |
| C184 | `Rules`, `Disc` (Spec/Assign); the last message under each path | Acceptance from C61; uniqueness of messages by induction over the depth, paths of different fields differ |
| C185 | `overlay` (Spec/TypedExact): data written over data | Mutual induction over type, list and fields |
| C186 | `firstName`: the first name that is not empty | Induction over the list of calls |
| C187 | `IsIdent`, `PackageName` (Spec/GoGen) | The used and declared names have the lineage's name and the suffix after letters |
| C188 | `FirstLiteral`, `Picked`, `Put`, `RenamedIn`, `Becomes` (Spec/FixFileExact): the search, replacement at a place and renaming as inductive relations | The relations are functional and agree with the model by induction on values and ways down; the outcomes are shown under their conditions, the converses follow by exclusion |
| C189 | `UsageRight`, from the texts of the usage lines | The tables of C190; the counterexamples are command lines without flags |
| C190 | Tables of flags, needs, checks and numbers of arguments; `Ends`, one rule for each end | The setup is evaluated once for each command; flags of a command have different names and shorthands, so lookup is membership; induction over the flags for help, over the checks for the first failure; `Ends` is functional |
| C191 | table `BasicType` of formats; inductive `TypeAs`, `FieldsAs`, `DeclsAs` (Spec/PlainTypes.lean) | induction on derivations (generation succeeds with that type) and on schemas (an error, or a derivation); the rewritings do nothing on such files |
| C192 | `goName` = `front` ++ `letters`, by positions in the name (Spec/GoNames.lean) | generalised over what has been read; state of the loop = whether the character before is a separator |
| C193 | `Candidate`: name of the value at an index, not taken again later (Spec/GoNames.lean); any order of iteration allowed by `Outcome` | last write to a key wins; for a given choice, the orders that put the chosen entries last |
| C194 | inductive `TypeAt`, `FieldsAt`, `EntriesAs` with the declared enumerations; `firstOfName` (Spec/NestedTypes.lean), names by Spec/GoNames.lean | induction on derivations and on schemas; deduplication succeeds iff equal names have equal schemas |
| C195 | inductive `TypeAt`, `AddlAt`, `FieldsAt`, `AltsAt`, `EntriesAs` with the declarations asked for; `survivors`, `subst`, `declOf` for what is left of them; `withRefs` for references of allOf (Spec/AllTypes.lean) | as C194, `genPs` of `withRefs` is `embed`; the names to replace are those of entries with alternatives only, by agreement of equal names; `iterTop`, `visit` equal `subst` on types with pointers only at fields |
| C196 | `Converted`, `Keywords`, `faults` in Spec/JSchemaExact.lean | mutual structural induction on trees, in both directions; outcomes composed in sequence |
| C197 | the comment per form of the documentation (one word, the name, a phrase, a sentence; `TODO`) | the one match of the regular expression, split at spaces |
| C198 | `Written`, `After` in Spec/BindArg.lean | induction on the Go type; the relation is a function and idempotent |
| C199 | `Comes`, `Member`, `Rounded` in Spec/GoJsonExact.lean, in terms of the schema alone | reading settles from some depth on; induction on validity; the fields of a struct are the properties that count |
| C200 | `Valid` of Spec/GoJson.lean, for what is written | from C199: induction on `Comes`; required properties that count are written, and visible values stay visible |
| C201 | each error of checkGoLensCompleteness ↔ what is wrong with the migrations; lines of the texts | first failing migration by induction over the list; second loop = two filters; C180 for the reasons |
| C202 | text of the multiplexer's final error ↔ no schema accepts | walk of the multiplexer (muxLoop_spec), allvstr = all versions, cutting at the first `)`, `:`, `,` |
| C203 | positions as lists of steps (field, pointer, element, key, value), `nameAt`, `FoundUs`, `Compiles` (Spec/GoRewrite) | automata on positions that follow the mutual recursion; automata = specification by induction on positions |
| C204 | `Found`, `Stays`, `RawType`, `UndefinedType` | same automata; the deletions as a filter |
| C205 | `Holds`, `HoldsOpt` (positions), `Leads`, `NoneContainsItself` | contained names = names at positions made of fields, by mutual recursion on types |
| C206 | `OneLine`, `SameShown` (Spec/ErrTextExact) | the text as a list of lines; first characters of lines separate problems and their parts |
| C207 | `Told`, `Overwritten` over `Disc` (Spec/AssignTextExact) | a place has one discrepancy and none below it; the loop over fields in three parts; last assignment per key |
| C208 | `Run`, `Over`, `Pc.ended` (Spec/Runtime.lean): executions by any schedule | invariant over all interleavings (what each call knows of the flag, the mutex and the instance), and a rank that every step lowers |
| C209 | `Fits`, `Misfit`, `LensFits`, `LensMisfit`, `Sound` (Spec/BindText.lean): what is expected of the schema or lens at an index, and which mistake it is otherwise | induction over the lists with what has been passed as invariant; agreement with `bindLineage` step by step; versions are read back from the texts |
| C210 | `FirstAbsent`, `AllFields`, `ThemaFile`, `lookedIn` (Spec/SubpathText.lean) | induction over the path; the second value of SplitSchema is never reported, as the joinSchema was checked with the first; literals are read back (Lemmas/Lit.lean); conjuncts by C52 |
| C211 | `BindLineage` for each field, `CompatRule` | induction over the fields, the map being what is put last for each name; C135 for the options |
| C212 | relation `SameDoc`, generated by exchanging neighbours of different names | inserting two names commutes; induction over the relation, mutual with schemas |
| C213 | `wantedVersions` over the sequences; `crd` never `.ok` | closedness against the field `seqs`; names of versions are injective (C02); resolution of names in `crdScopes` |

## 5. Findings (places where the code does not do what it says)

Each line is a property that is not proved as stated, with what is missing.
Where the note says that the property is false, the listed theorems prove the
refutation ("general": for every input of the kind described; "witness": for one
concrete input) besides the part that holds (suffix `_partial`).

* **C02** Version strings round-trip.  The parser accepts components below 2^32 only, so the round trip holds exactly there; it is refuted for larger components (C02_roundtrip_fails_above_2_32). Injectivity and canonical form hold without bound.
  Theorems: `Thema.Props.C02_roundtrip_partial`, `Thema.Props.C02_roundtrip_fails_above_2_32`, `Thema.Props.C02_str_injective`, `Thema.Props.C02_str_denotes`.
* **C07** Predecessor never panics.  False as stated: for every bound lineage whose first version is not 0.0 Predecessor of the first schema panics (C07_predecessor_panics, with a concrete witness). C07_predecessor_partial gives the claim for lineages that start at 0.0.
  Theorems: `Thema.Props.C07_predecessor_partial`, `Thema.Props.C07_predecessor_panics`, `Thema.Props.C07_predecessor_panics_witness`.
* **C08** LatestInMajor returns the newest schema in the receiver's major version.  False for every lineage: LatestInMajor never returns a schema of the receiver's major (C08_latestInMajor_never_in_major); it panics in the last major. LatestVersionInSequence shares the defect.
  Theorems: `Thema.Props.C08_latestInMajor_refuted`, `Thema.Props.C08_latestInMajor_never_in_major`, `Thema.Props.C08_latestVersionInSequence_refuted`.
* **C09** Bound lineages have strictly increasing versions.  Versions are non-decreasing and an out-of-order list is rejected (ErrInvalidSchemasOrder, unless a compatibility violation is met first). False as stated: repeated versions bind (C09_duplicates_accepted).
  Theorems: `Thema.Props.C09_versions_sorted_partial`, `Thema.Props.C09_out_of_order_rejected`, `Thema.Props.C09_duplicates_accepted`.
* **C10** Bound lineages start at 0.0 and have no version gaps.  False as stated: lineages that do not start at 0.0 and lineages with gaps bind (C10_gaps_accepted). The partial theorem says what is guaranteed.
  Theorems: `Thema.Props.C10_shape_partial`, `Thema.Props.C10_gaps_accepted`.
* **C15** CUE lens sets must be exactly the required set.  False as stated: no CUE lens is ever required (general) and superfluous ones are accepted (witness). The partial theorem gives what is guaranteed.
  Theorems: `Thema.Props.C15_cue_lenses_partial`, `Thema.Props.C15_lenses_never_required`, `Thema.Props.C15_wrong_lenses_accepted`.
* **C17** The lineage value is unified with #Lineage exactly once.  No conjunct is lost (any interpretation). Exactly-once holds without repeated conjuncts and is false with them (C17_more_than_once). Never panics if values that are only #Lineage are recognised as equal.
  Theorems: `Thema.Props.C17_exactly_once_partial`, `Thema.Props.C17_nothing_lost`, `Thema.Props.C17_never_panics`, `Thema.Props.C17_more_than_once`.
* **C18** A lens declared both in CUE and in Go is rejected.  False: ErrDuplicateLenses is never returned (general) and lenses in both places bind (witness).
  Theorems: `Thema.Props.C18_duplicate_never_reported`, `Thema.Props.C18_both_accepted`.
* **C20** ValidateAny returns the oldest validating schema.  Proved for distinct versions (and errors that can be reported, see C22). False as stated: with a repeated version ValidateAny loops for ever (general theorem and witness), or misses a validating schema (witness).
  Theorems: `Thema.Props.C20_validateAny_partial`, `Thema.Props.C20_validateAny_diverges`, `Thema.Props.C20_validateAny_diverges_witness`, `Thema.Props.C20_validateAny_misses_witness`.
* **C22** Reporting a validation failure never panics.  False as stated: C22_report_partial says exactly which paths make reporting panic (pathOk_failures lists them), C22_report_panics gives them.
  Theorems: `Thema.Props.C22_report_partial`, `Thema.Props.C22_report_panics`.
* **C53** Every validation problem is reported.  False as stated: sub-errors of unknown shape are dropped (C53_unknown_dropped), so the error can be empty. The partial theorem: with known shapes all are reported.
  Theorems: `Thema.Props.C53_all_reported_partial`, `Thema.Props.C53_unknown_dropped`.
* **C54** Validation errors match the sentinel of their class.  False for every failing validation (C54_class_sentinels_never_matched), with a concrete witness.
  Theorems: `Thema.Props.C54_class_sentinels_never_matched`, `Thema.Props.C54_witness`.
* **C25** CUE translation applies exactly the lenses between source and target, in order.  Proved (as an exact characterisation against a walk over neighbours) when both versions are in majors 0-2. False beyond: translating up to major 3 stops short and translating down from it applies no lens, in every such lineage, and a concrete lineage returns wrong data.
  Theorems: `Thema.Props.C25_translate_partial`, `Thema.Props.C25_up_wrong`, `Thema.Props.C25_down_wrong`, `Thema.Props.C25_wrong_witness`.
* **C26** Version-to-position index is right.  The index is right exactly for majors up to 2 (C26_index_exact); for larger majors it is too small, in every lineage.
  Theorems: `Thema.Props.C26_index_partial`, `Thema.Props.C26_index_exact`, `Thema.Props.C26_index_wrong`.
* **C27** Every contiguous lineage can be bound.  The derived counts are right for at most three majors and can be negative beyond, so some contiguous lineages with five majors can not be bound at all (C27_uniform_rejected, C27_five_majors_rejected).
  Theorems: `Thema.Props.C27_counts_partial`, `Thema.Props.C27_counts_exact`, `Thema.Props.C27_never_rejected_partial`, `Thema.Props.C27_uniform_rejected`, `Thema.Props.C27_five_majors_rejected`.
* **C29** Lacunas emitted by applied lenses are returned.  False: no lacuna is ever returned (general), with a witness that one is lost. The partial theorem: if CUE treats the dangling reference as an error, no translation with an applicable lacuna succeeds.
  Theorems: `Thema.Props.C29_lacunas_partial`, `Thema.Props.C29_never_returned`, `Thema.Props.C29_lost_witness`.
* **C30** All Translate errors are ErrInvalidLens.  False: ErrLensIncomplete and ErrLensResultIsInvalidData are not ErrInvalidLens, nor are any errors with Go lenses (C30_go_errors). The partial theorem lists all errors of the CUE path.
  Theorems: `Thema.Props.C30_errors_partial`, `Thema.Props.C30_other_errors`, `Thema.Props.C30_go_errors`.
* **C31** Translating to the instance's own version is the identity.  Proved for Go lenses without conditions; for CUE lenses if the data is a struct, concrete and its own default. False for non-concrete data.
  Theorems: `Thema.Props.C31_own_version_partial`, `Thema.Props.C31_own_version_go`, `Thema.Props.C31_incomplete_data`.
* **C32** Translating to an unknown version is reported as an error.  False: with CUE lenses every unknown version panics. With Go lenses an unknown version never succeeds (general), and panics in the witness.
  Theorems: `Thema.Props.C32_unknown_version_panics`, `Thema.Props.C32_unknown_version_panics_witness`, `Thema.Props.C32_go_unknown_version_fails`, `Thema.Props.C32_go_unknown_version_panics_witness`.
* **C55** Translate does not panic on valid instances.  False for data that is not a struct (always panics). Proved for structs if CUE's error paths have the expected form (see C22).
  Theorems: `Thema.Props.C55_returns_partial`, `Thema.Props.C55_panics_on_non_struct`, `Thema.Props.C55_panics_witness`.
* **C34** Go-lens translation yields a valid instance of the target schema of the same lineage.  False for mappers that return instances of another lineage (witness). Proved for mappers that keep to the lineage and return valid instances, with the compatibility checks in force and sound subsumption.
  Theorems: `Thema.Props.C34_result_valid_partial`, `Thema.Props.C34_foreign_lineage`.
* **C36** Forward translation within a major never fails and never changes the data.  Proved for Go lenses and AsSuccessor without conditions on mappers. With CUE lenses: proved for concrete data, checks in force, majors up to 2 and lawful embedding; false for non-concrete data and with SkipBuggyChecks (witnesses).
  Theorems: `Thema.Props.C36_go_forward_minor`, `Thema.Props.C36_asSuccessor_minor`, `Thema.Props.C36_cue_forward_minor_partial`, `Thema.Props.C36_cue_refuted`.
* **C37** AsSuccessor/AsPredecessor are safe at the ends.  False: both always panic at the ends (general). The partial theorem says what they do elsewhere.
  Theorems: `Thema.Props.C37_inner_partial`, `Thema.Props.C37_successor_panics`, `Thema.Props.C37_predecessor_panics`, `Thema.Props.C37_ends_panic_witness`.
* **C38** Every Instance reachable through the API satisfies its schema.  Invariant over all histories of Validate, ValidateAny, Translate, AsSuccessor, AsPredecessor and Examples, with mappers that return genuine instances, checks in force, and concrete examples. False without the last two (witnesses).
  Theorems: `Thema.Props.C38_obtainable_genuine_partial`, `Thema.Props.C38_skipped_checks`, `Thema.Props.C38_incomplete_example`.
* **C40** TypedMux never hits its 'unreachable' panic.  Equal to the untyped one under the contract on Go lenses. False for Go lenses returning foreign instances (witness) and for typed schemas made from typed schemas (general).
  Theorems: `Thema.Props.C40_typed_mux_partial`, `Thema.Props.C40_nested_panics`, `Thema.Props.C40_unreachable_reached`.
* **C56** A multiplexer can be made for every bound lineage.  False for lineages that do not start at 0.0 (panics) and for repeated versions (never returns), both of which bind; proved otherwise.
  Theorems: `Thema.Props.C56_construction_partial`, `Thema.Props.C56_construction_panics`, `Thema.Props.C56_construction_hangs`, `Thema.Props.C56_construction_witnesses`.
* **C50** Path prefix helpers.  Everything but TrimPathPrefix as claimed. TrimPathPrefix removes the common part of a prefix that does not match (general), and never trims a path of one selector.
  Theorems: `Thema.Props.C50_paths_equal`, `Thema.Props.C50_has_prefix`, `Thema.Props.C50_replace_prefix`, `Thema.Props.C50_trim_prefix_partial`, `Thema.Props.C50_trim_overtrims`, `Thema.Props.C50_last_selector`.
* **C57** IsAppendOnly protects users of published versions.  False: three witnesses (renumbering with a gap, renumbering without compatibility checks, changed join). The partial theorem is what is guaranteed unconditionally.
  Theorems: `Thema.Props.C57_positions_partial`, `Thema.Props.C57_contract_refuted`.
* **C59** Legacy lens bodies are rewritten to the new field names.  False for every reference of two or more levels, and for references without selector. Proved for references of one level.
  Theorems: `Thema.Props.C59_refs_renamed_partial`, `Thema.Props.C59_deep_refs_kept`, `Thema.Props.C59_bare_refs_kept`.
* **C46** CUE evaluation is never concurrent with a bind.  False: Translate and Hydrate evaluate outside of the lock (witness schedules). Proved for goroutines that call only BindLineage, Validate, ValidateAny, AssignableTo and NewT.
  Theorems: `Thema.Props.C46_no_eval_during_write_partial`, `Thema.Props.C46_eval_during_write`.
* **C60** A panic inside CUE does not leave the runtime locked.  False: NewT, Value and Translate have sections without defer; the lock is then held for ever (general), with a deadlock witness. Proved for BindLineage, Validate, AssignableTo, BindType, Hydrate and Dehydrate.
  Theorems: `Thema.Props.C60_panics_release_partial`, `Thema.Props.C60_stuck_for_ever`, `Thema.Props.C60_panic_leaks`, `Thema.Props.C60_panic_deadlocks`.
* **C61** AssignableTo decides the documented assignability rules.  False: a closed list of one element is rejected for every array but [1]any (general, and witness); number and null are accepted although documented as not permitted. Proved: accepted exactly when the rules hold, one-element lists excepted; accepted implies the documented rules.
  Theorems: `Thema.Props.C61_accepts_partial`, `Thema.Props.C61_sound`, `Thema.Props.C61_single_element_list`, `Thema.Props.C61_refuted`, `Thema.Props.C61_number_and_null_accepted`.
* **C63** AssignableTo reports exactly the discrepancies, at their paths.  False: excess fields of nested Go structs are reported under their bare name (general), so that errors are merged (witness). Proved: otherwise exactly the discrepancies; nil iff none.
  Theorems: `Thema.Props.C63_reports_partial`, `Thema.Props.C63_nil_iff_no_discrepancy`, `Thema.Props.C63_nested_excess_misreported`, `Thema.Props.C63_refuted_merged`.
* **C66** Hydrate includes all defaults of the schema.  False: Hydrate works on the #SchemaDef instead of the schema, so that no default is ever added, and version and schema are added to the data (general). Proved: it returns for data without these fields, and keeps all other fields, the schema and the name.
  Theorems: `Thema.Props.C66_fields_kept_partial`, `Thema.Props.C66_no_default_added`, `Thema.Props.C66_definition_added`, `Thema.Props.C66_returns`.
* **C67** Dehydrate removes all defaults of the schema.  False: nothing is ever removed, for the same reason (general). Proved: all fields, the schema and the name are kept.
  Theorems: `Thema.Props.C67_nothing_removed_partial`, `Thema.Props.C67_no_default_removed`.
* **C68** Hydrated and dehydrated instances are valid.  False for Hydrate wherever the schema does not allow a field version (general). Proved for Dehydrate on data without the fields version, schema, examples.
  Theorems: `Thema.Props.C68_hydrated_invalid`, `Thema.Props.C68_dehydrated_valid_partial`, `Thema.Props.C68_never_errors`.
* **C69** The generated JSON Schema accepts the same data as the OpenAPI schema.  False: the document returned accepts everything (general), as the schemas are under components.schemas. Proved: each component accepts the same data if nullable occurs only at typed schemas without enum, operators or references and not below operators of typed schemas (relation Good), for any meaning of the other keywords and recursive references. Each of these conditions is needed: C69_lost_*, C69_data_rewritten.
  Theorems: `Thema.Props.C69_components_equivalent_partial`, `Thema.Props.C69_root_accepts_everything`, `Thema.Props.C69_operators_untouched`, `Thema.Props.C69_lost_under_operators`, `Thema.Props.C69_lost_with_enum`, `Thema.Props.C69_lost_without_type`, `Thema.Props.C69_lost_without_type_witness`, `Thema.Props.C69_data_rewritten`.
* **C72** $schema is declared at the roots only.  False for components without a type of their own, whose alternatives get $schema instead (witness). Proved for components with a type.
  Theorems: `Thema.Props.C72_schema_declared_partial`, `Thema.Props.C72_refuted`.
* **C73** Data commands read the named file, or else standard input.  False: without an argument every command fails unless standard input is a named pipe, e.g. with `thema data ... < file` (general). Proved: otherwise exactly the documented input; with an argument standard input is ignored.
  Theorems: `Thema.Props.C73_input_partial`, `Thema.Props.C73_stdin_ignored`, `Thema.Props.C73_redirected_stdin_refused`.
* **C74** The requested input format decides how data is read.  False: with -e, every command fails on standard input and on files without a matching extension (general). Proved: whatever is accepted was decoded in the requested format.
  Theorems: `Thema.Props.C74_format_respected`, `Thema.Props.C74_format_refused`, `Thema.Props.C74_stdin_unnamed`.
* **C75** thema data validate succeeds exactly on valid data.  False: --quiet is ignored (general). Proved: success, silently, iff the schema admits the data, otherwise its problem.
  Theorems: `Thema.Props.C75_validate_partial`, `Thema.Props.C75_quiet_ignored`.
* **C76** thema data validate-any finds a schema if there is one.  False: without --version a failure prints the problem of the latest schema (general). Proved for distinct versions: the version printed, and failure iff no schema admits the data.
  Theorems: `Thema.Props.C76_validate_any_partial`, `Thema.Props.C76_failure_not_silent`.
* **C77** thema data hydrate and dehydrate select the schema as documented.  False: without --version only the latest schema is consulted (general). Proved with --version.
  Theorems: `Thema.Props.C77_version_partial`, `Thema.Props.C77_only_latest`.
* **C80** The lineage is loaded in its CUE module.  False for a module in the root directory: it is never found, though bindings are generated for it (general). Proved otherwise.
  Theorems: `Thema.Props.C80_nearest_partial`, `Thema.Props.C80_root_never_found`, `Thema.Props.C80_root_module_differs`.
* **C81** Generated bindings use the import path of the lineage.  False where the nearest CUE module is nameless: it hides Go modules in its directory and above (general). Proved otherwise, for module names without empty, . or .. components and readable go.mod files.
  Theorems: `Thema.Props.C81_import_path`, `Thema.Props.C81_go_module_partial`, `Thema.Props.C81_nameless_hides`.
* **C83** Generated documents are printed as they are.  False: a document is used as a format string, and changes whenever its first percent sign is followed by a verb or ends it (general). Proved for documents without percent signs; for documents where each is followed by a verb, that is exactly when.
  Theorems: `Thema.Props.C83_verbatim_partial`, `Thema.Props.C83_percent_changed`, `Thema.Props.C83_verbatim_iff`, `Thema.Props.C172_printed`.
* **C84** Flags of gen have the documented defaults.  False: gen openapi without --format writes JSON, not YAML (general). Proved for all other flags.
  Theorems: `Thema.Props.C84_default_partial`, `Thema.Props.C84_given`, `Thema.Props.C84_openapi_default`.
* **C85** Failed generation is reported.  False: an unknown format gives empty output and status 0 (general). Proved for the known formats.
  Theorems: `Thema.Props.C85_failure_partial`, `Thema.Props.C85_unknown_format`.
* **C86** Generated Go code goes where it was asked to go.  False: gen gotypes --stdout always writes the file and nothing to standard output (general). Proved for gobindings, and for gotypes without the flag, for file names without percent signs.
  Theorems: `Thema.Props.C86_destination_partial`, `Thema.Props.C86_gotypes_stdout`.
* **C87** Generated Go bindings are self-contained.  False with LoadDir but no EmbedPath, e.g. gen gobindings --no-embed, and outside of any module (general); the help of --stdout names the wrong function (general). Proved: exactly the documented name is missing if EmbedPath and CueModName are set when LoadDir is; the plain command in a module generates a complete file.
  Theorems: `Thema.Props.C87_self_contained_partial`, `Thema.Props.C87_fs_func_missing`, `Thema.Props.C87_cli`, `Thema.Props.C87_cli_undefined`, `Thema.Props.C87_cli_stdout`.
* **C89** Bindings of several lineages can share a package.  False for names with the same title, as foo and Foo (general). Proved for different suffixes.
  Theorems: `Thema.Props.C89_share_package_partial`, `Thema.Props.C89_same_suffix`.
* **C90** Generated bindings consist of valid Go names.  False for names with other characters, such as my-kind, and for keywords (general). Proved for names of letters, digits and underscores.
  Theorems: `Thema.Props.C90_identifiers_partial`, `Thema.Props.C90_bad_name`, `Thema.Props.C90_keyword`.
* **C91** String literals in generated bindings denote the configured values.  Proved for the CUE path; the module name and the directory are right if and only if they have no quotation marks, backslashes and line feeds.
  Theorems: `Thema.Props.C91_literals_partial`.
* **C92** The default package of generated code is the lowercase name of the lineage.  False for types: the name is not put in lower case, and is written to the caller's configuration, so that it is used for the next lineage (general). Proved for bindings, and for types with a configured name.
  Theorems: `Thema.Props.C92_bindings`, `Thema.Props.C92_types_partial`, `Thema.Props.C92_types_default`, `Thema.Props.C92_types_reused`.
* **C93** A generated convergent factory binds the type to the configured schema version.  False: the factory panics if the lineage does not have the version (general). Proved for versions of the lineage.
  Theorems: `Thema.Props.C93_target_partial`, `Thema.Props.C93_command_partial`, `Thema.Props.C93_assignee`, `Thema.Props.C93_unknown_version`.
* **C94** AsModFS makes a module out of a file system and changes nothing else.  False for a cue.mod without module.cue, and for names with backslashes (witnesses). Proved: no-op if module.cue exists, the frame condition, and the name if it needs no escapes.
  Theorems: `Thema.Props.C94_noop`, `Thema.Props.C94_frame`, `Thema.Props.C94_name_partial`, `Thema.Props.C94_name_changed`, `Thema.Props.C94_cue_mod_not_noop`.
* **C95** InstanceWithThema loads the caller's files and Thema's, and no others.  False in Thema's own module, where embedded files replace those of the caller (general). Proved: exactly when it fails, and the files outside of that module.
  Theorems: `Thema.Props.C95_success_iff`, `Thema.Props.C95_files_partial`, `Thema.Props.C95_thema_module`.
* **C97** The command line uses the user's files as they are on disk.  False for a vendored Thema, which is replaced silently (general). Proved for all other files.
  Theorems: `Thema.Props.C97_disk_files_partial`, `Thema.Props.C97_vendored_hidden`.
* **C98** OpenAPI generation for a subpath uses the value at that path.  False for nested paths, which are rejected unless each element is also a field of the root (general). Proved for paths of one element.
  Theorems: `Thema.Props.C98_subpath_partial`, `Thema.Props.C98_nested_rejected`.
* **C99** OpenAPI documents are named after the lineage and have its version.  False: the name of the lineage is not put in title case (general). Proved: version, title and root component.
  Theorems: `Thema.Props.C99_root_partial`, `Thema.Props.C99_not_titlecased`.
* **C100** Definitions in a schema become components with the names asked for.  False: a definition with the name of the root shares its component name (general). Proved: the names of all other definitions.
  Theorems: `Thema.Props.C100_definition_name`, `Thema.Props.C100_clash`, `Thema.Props.C176_unmarked`, `Thema.Props.C176_path_text`.
* **C101** Each field of a grouped lineage becomes one component.  False: foo and #foo get two components of one name (general). Proved: each field has a component with its name.
  Theorems: `Thema.Props.C101_group_partial`, `Thema.Props.C101_clash`, `Thema.Props.C176_unmarked`.
* **C102** SplitSchema merges the schema and the join schema.  False: they are not merged, the root is there twice under one name (general). Proved: the document has the components of both.
  Theorems: `Thema.Props.C102_split_partial`, `Thema.Props.C102_split_not_merged`.
* **C103** OpenAPI generation leaves the configuration of the caller alone.  False: NameFunc and Info are overwritten (general), and a second lineage gets other component names (witness). Proved with Group.
  Theorems: `Thema.Props.C103_config_kept_partial`, `Thema.Props.C103_config_overwritten`, `Thema.Props.C103_reused_config`.
* **C104** Redundant pointers are removed from generated Go types, and nothing else.  With NoOptionalPointers a recursive type with an optional field of its own type becomes invalid (general). Proved: only pointers change, which pointers go and stay, containment unchanged by default.
  Theorems: `Thema.Props.C104_only_pointers`, `Thema.Props.C104_removed`, `Thema.Props.C104_default`, `Thema.Props.C104_recursive`.
* **C105** Type names in generated Go lose their underscores consistently.  False in general: types of constants, aliases, maps in slices and pointers in slices and maps keep the old name, which is undefined then (general); Foo_Bar and FooBar clash (general); panics without a comment (general). Proved: the declared names, and that files with names in the other positions only stay closed.
  Theorems: `Thema.Props.C105_declared`, `Thema.Props.C105_underscores_partial`, `Thema.Props.C105_succeeds`, `Thema.Props.C105_no_comment_panics`, `Thema.Props.C105_clash`, `Thema.Props.C105_forgotten`.
* **C106** Unions in generated Go become any, and nothing else changes.  False in general: a declaration to delete for two reasons takes the next one with it, all methods go (also of structs that stay), uses in some positions stay and are undefined, functions that are not methods panic (all general). Proved for the other files.
  Theorems: `Thema.Props.C106_raw_partial`, `Thema.Props.C106_function_panics`, `Thema.Props.C106_methods_lost`, `Thema.Props.C106_dangling`, `Thema.Props.C106_double_deletion`, `Thema.Props.C106_use_lost`, `Thema.Props.C106_alias_dangles`.
* **C107** Names in generated Go are exported identifiers.  False in general (all general): names without cased letters or digits give the empty name; a name such as /foo gives foo, which is not exported; _1 gives 1, which is no identifier. Proved: exactly which names are good.
  Theorems: `Thema.Props.C107_names_partial`, `Thema.Props.C107_empty`, `Thema.Props.C107_unexported`, `Thema.Props.C107_digit`.
* **C108** Distinct properties have distinct Go fields.  False in general: names that differ in the case of the first letter, or by a separator before a letter, clash, and so does additionalProperties beside additional properties (all general). Proved: what the fields are, and that names of letters and digits that differ otherwise stay distinct.
  Theorems: `Thema.Props.C108_fields`, `Thema.Props.C108_distinct_partial`, `Thema.Props.C108_case_clash`, `Thema.Props.C108_separator_clash`, `Thema.Props.C108_refuted`, `Thema.Props.C108_additional_clash`.
* **C109** Every allowed value of an enumeration has one constant with that value.  False in general: a, A and a1 lose A (general); which value the constant for /foo and foo has depends on map iteration; values are not escaped (exact condition). Proved: all constants have allowed values, and one constant per value for good names that do not clash, or clash and are numbered, in any order of iteration.
  Theorems: `Thema.Props.C109_only_allowed`, `Thema.Props.C109_constants_partial`, `Thema.Props.C109_numbered_partial`, `Thema.Props.C109_value_lost`, `Thema.Props.C109_unstable`, `Thema.Props.C109_literal`.
* **C110** Generated Go declares one type for every definition and every type it uses.  False in general: enumerations nested in maps or in alternatives, and arrays of maps, give uses of types that are not declared, and constants of types that are not declared (witnesses); of two definitions that are references and have one Go name the second is dropped (general). Proved without alternatives, with enumerations in properties only, and with allOf of references to structs; for the file before the rewritings of C105 and C106 also with alternatives and additional properties beside properties at any depth, if nothing has to be declared for an alternative or for the properties of additional properties.
  Theorems: `Thema.Props.C110_closed_partial`, `Thema.Props.C110_definitions_partial`, `Thema.Props.C110_nested_enum`, `Thema.Props.C110_alternative_enum`, `Thema.Props.C110_array_of_maps`, `Thema.Props.C110_constants_without_type`, `Thema.Props.C110_reference_dropped`, `Thema.Props.C110_reference_dropped_file`.
* **C111** Data survives generated Go types.  False in general: optional empty arrays and maps are lost, absent nullable properties become null, numbers not of type float32 change, integers above 64 bits are unreadable, and with NoOptionalPointers zero values are lost and absent structs appear (all general); additional properties beside properties, alternatives beside properties, names such as - and /foo are lost, arrays of uint8 become strings (witnesses). Proved for the other schemas and data, recursive ones and allOf of references included.
  Theorems: `Thema.Props.C111_roundtrip_partial`, `Thema.Props.C111_empty_array_lost`, `Thema.Props.C111_empty_map_lost`, `Thema.Props.C111_absent_becomes_null`, `Thema.Props.C111_no_pointers_zero_lost`, `Thema.Props.C111_no_pointers_struct_appears`, `Thema.Props.C111_number_not_float32`, `Thema.Props.C111_integer_too_large`, `Thema.Props.C111_additional_lost`, `Thema.Props.C111_alternatives_lost`, `Thema.Props.C111_names_lost`, `Thema.Props.C111_bytes_become_string`.
* **C112** NewLineage writes a lineage with the given name, package and first schema.  False for names with quotation marks, backslashes, line breaks, NUL or byte order mark (exact condition): they denote another name or inject arbitrary fields (general). Proved for all others.
  Theorems: `Thema.Props.C112_text_partial`, `Thema.Props.C112_literal_exact`, `Thema.Props.C112_injection`, `Thema.Props.C112_other_name`.
* **C113** lineage init names the lineage and its package as its flags say.  False for openapi and jsonschema (general): the flags are not checked, without --package-name there is no package, --no-package has no effect, an empty name is accepted. Proved for empty.
  Theorems: `Thema.Props.C113_empty_partial`, `Thema.Props.C113_empty_succeeds`, `Thema.Props.C113_document_partial`, `Thema.Props.C113_package_missing`, `Thema.Props.C113_no_package_ignored`, `Thema.Props.C113_no_name`.
* **C114** lineage init reports bad input instead of panicking.  False for openapi (general): malformed JSON and standard input panic. Proved for the other subcommands and inputs.
  Theorems: `Thema.Props.C114_no_panic_partial`, `Thema.Props.C114_bad_json`, `Thema.Props.C114_stdin`.
* **C115** lineage fix puts the new fields in place of the legacy field and changes nothing else.  False if another field is called seqs: its value is replaced as well (general). Proved for all other files.
  Theorems: `Thema.Props.C115_in_place_partial`, `Thema.Props.C115_other_field`.
* **C116** lineage fix ends with a rewritten file or an error.  False (general): a field seqs in a schema makes it recurse for ever, lacunas that are not written as a list make it panic. Proved otherwise.
  Theorems: `Thema.Props.C116_ends_partial`, `Thema.Props.C116_schema_reported`, `Thema.Props.C116_endless`, `Thema.Props.C116_lacunas`.
* **C117** Generated Go comments have the documentation of the schema.  False for types with TODO in the documentation: all text before it is lost (general). Proved for fields, and for types otherwise.
  Theorems: `Thema.Props.C117_fields`, `Thema.Props.C117_types_partial`, `Thema.Props.C117_todo_lost`, `Thema.Props.C117_space_panics`.
* **C118** TypeScript types are generated as the configuration says.  True for one call. False for several: the name of the first lineage is written to the configuration (general).
  Theorems: `Thema.Props.C118_documented`, `Thema.Props.C118_several_partial`, `Thema.Props.C118_reused`.
* **C119** Generated Go types of schemas composed with allOf have the properties of all parts.  False in general: properties of two parts are lost, as are those of parts with an underscore in their name (all general); maps and properties named like a part are lost (witnesses). Proved for the properties that encoding/json does not hide: only they are written, and the required ones always; C111 has that their values are kept.
  Theorems: `Thema.Props.C119_written_partial`, `Thema.Props.C119_counts`, `Thema.Props.C119_field_order`, `Thema.Props.C119_twice_lost`, `Thema.Props.C119_underscore_lost`, `Thema.Props.C119_map_lost`, `Thema.Props.C119_name_lost`, `Thema.Props.C111_roundtrip_partial`.
* **C120** Inline members of allOf keep all properties in generated Go types.  False in general: what members have besides an allOf of their own is lost; generation fails for defaults, for formats and flags that members do not repeat, and for additional properties of both the schema and a member; items, additionalProperties: true, anyOf and the types of members are lost (all general; lost data also as witnesses). Proved for members that have not both allOf and properties of their own: the fields are exactly those properties, and data survives what C111 asks for.
  Theorems: `Thema.Props.C120_roundtrip_partial`, `Thema.Props.C120_fields_partial`, `Thema.Props.C120_nested_lost`, `Thema.Props.C120_nested_data_lost`, `Thema.Props.C120_fails`, `Thema.Props.C120_fails_additional`, `Thema.Props.C120_items_lost`, `Thema.Props.C120_free_lost`, `Thema.Props.C120_free_data_lost`, `Thema.Props.C120_type_lost`.
* **C121** BindType accepts exactly the types a schema is assignable to.  False for struct types that are not pointers: always rejected (general). Proved for pointers.
  Theorems: `Thema.Props.C121_pointer_partial`, `Thema.Props.C121_accepted_assignable`, `Thema.Props.C121_struct_rejected`, `Thema.Props.C121_refuted`.
* **C122** BindType does not change its argument.  False: required fields with a default are overwritten with it, pointers in required fields without one are set to nil (general). Proved: the argument is unchanged if it is not assignable; optional fields and basic values without a default are kept.
  Theorems: `Thema.Props.C122_refused_partial`, `Thema.Props.C122_kept_partial`, `Thema.Props.C122_overwritten`, `Thema.Props.C122_cleared`.
* **C124** Value has the data of the instance and the defaults of the schema.  False below optional fields and in elements of lists: Value has the data as it is, without defaults (general); a default list with structs shows through the list that replaces it if the decoder reuses slices (general in the default). Proved: no errors, and data with defaults for all other schemas.
  Theorems: `Thema.Props.C124_no_error`, `Thema.Props.C124_value_partial`, `Thema.Props.C124_optional_raw`, `Thema.Props.C124_list_raw`, `Thema.Props.C124_refuted_list`, `Thema.Props.C124_refuted_optional`, `Thema.Props.C124_refuted_stale`.
* **C125** Examples returns every example under the name given to it.  False for names that CUE writes in quotation marks: the example is not found under its name (general, witness). Proved: all examples are returned, and names that need no quotation marks.
  Theorems: `Thema.Props.C125_all_examples`, `Thema.Props.C125_name_partial`, `Thema.Props.C125_quoted_name`, `Thema.Props.C125_refuted`.
* **C126** #SearchAndValidate and #ValidFor find the first schema that the data satisfy.  False for the data: the result of #SearchAndValidate has the schema in place of the data (general, witness). Proved for the version, for #ValidFor, and agreement with ValidateAny.
  Theorems: `Thema.Props.C126_version_partial`, `Thema.Props.C126_validFor`, `Thema.Props.C126_agrees_with_go`, `Thema.Props.C126_data_lost`, `Thema.Props.C126_refuted`.
* **C127** The report on superfluous Go migrations names each of them with a true reason.  False for forward migrations: a minor upgrade is called not the successor, a jump to another major version a minor upgrade (general). Proved for all others, and that the list is exact.
  Theorems: `Thema.Props.C127_listed`, `Thema.Props.C127_reason_partial`, `Thema.Props.C127_minor_upgrade`, `Thema.Props.C127_major_jump`.
* **C128** Generation of Go fails if goimports has to add imports, and only then.  False for appliers that add an import declaration (refused) or remove one that goimports adds again (not noticed), since the list of imports is that of the parser (general, witness). Proved for other appliers.
  Theorems: `Thema.Props.C128_discovered_partial`, `Thema.Props.C128_failures`, `Thema.Props.C128_own_import_refused`, `Thema.Props.C128_discovery_missed`, `Thema.Props.C128_refuted`.
* **C129** Instances of the exemplar lineages can be translated between all versions.  Proved for rename, for the own version of all exemplars, for narrowing downwards and with values that are clearly booleans (all strings if references to the missing field lacuna are not errors), for expand except baz downwards, and for disjunct upwards. Refuted for defaultchange, for disjunct downwards, for baz in expand, and for narrowing and defaultchange if such references are errors.
  Theorems: `Thema.Props.C129_bind`, `Thema.Props.C129_same`, `Thema.Props.C129_rename`, `Thema.Props.C129_narrowing_partial`, `Thema.Props.C129_lacuna_fatal`, `Thema.Props.C129_defaultchange_fails`, `Thema.Props.C129_defaultchange_fatal`, `Thema.Props.C129_disjunct_down`, `Thema.Props.C129_disjunct_partial`, `Thema.Props.C129_expand_baz`, `Thema.Props.C130_expand_partial`.
* **C130** Translating instances of the exemplar lineages has the effect that their descriptions name.  Proved for rename and narrowing; for expand, disjunct and defaultchange where the translation succeeds at all (see C129). Refuted: the lacuna of the lens of defaultchange back to 0.0.
  Theorems: `Thema.Props.C130_rename`, `Thema.Props.C130_narrowing`, `Thema.Props.C130_expand_partial`, `Thema.Props.C129_disjunct_partial`, `Thema.Props.C130_defaultchange_partial`, `Thema.Props.C130_defaultchange_lacuna`.
* **C131** Names and descriptions of a schema are data in generated Go types, not code.  Proved for all descriptions (without NUL, which Go forbids in source files; byte order marks are removed from the text, and so from names in tags), if names in tags have no backquote and names in comments have no line break; Go names, and the names in comments that were made Go names before, are never a problem. Refuted for the other names, by general theorems and concrete schemas. Extra tags, deprecated fields and extensions are left out; what goimports makes of the text is not modelled.
  Theorems: `Thema.Props.C131_comment`, `Thema.Props.C131_code_partial`, `Thema.Props.C131_reads_comment`, `Thema.Props.C131_reads_literal`, `Thema.Props.C131_names`, `Thema.Props.C131_name_injection`, `Thema.Props.C131_tag_injection`, `Thema.Props.C131_refuted`.
* **C132** Go types can be generated by several goroutines at once.  Refuted for every two calls, by a schedule that ends the program. Proved for every interleaving: a call that ends has read what it would have read alone; the program is ended only by an access to the map while another call is in its assignment; calls made one after the other all end. Accesses to variables are taken to be atomic; what a call does with what it read is a function of its arguments and these reads.
  Theorems: `Thema.Props.C132_isolated_partial`, `Thema.Props.C132_alone`, `Thema.Props.C132_crash_cause`, `Thema.Props.C132_serial`, `Thema.Props.C132_refuted`.
* **C133** The message of a validation failure states each problem: where, what the schema expects, what the data contain.  False in three ways, each proved in general: C133_literal_changed, C133_path_ambiguous, C133_excess_value. Proved: the message has exactly one part for each problem with all it has to show, in order; every constraint replaced by the name of a type has the meaning of this type, for all numbers; alternatives without bars keep their number, order and meaning; names without dots can be told from the place. token.Pos.String is a parameter.
  Theorems: `Thema.Props.C133_shows`, `Thema.Props.C133_types`, `Thema.Props.C133_readable`, `Thema.Props.C133_path`, `Thema.Props.C133_literal_changed`, `Thema.Props.C133_path_ambiguous`, `Thema.Props.C133_excess_value`.
* **C134** A legacy lineage, once rewritten, can be bound and translates as its lenses did.  False in three ways, each proved in general: C134_unfinished, C134_deep_ignored, C134_captured; with more than three sequences also because of C27. Proved for complete legacy lineages of at most three sequences with one schema each whose lenses use from only as in from.x: they bind, with the schemas in order and exactly the lenses needed, and translate exactly as the legacy lenses. Lenses have no lacunas; names declared inside of a lens body are not modelled.
  Theorems: `Thema.Props.C134_lens_partial`, `Thema.Props.C134_binds_partial`, `Thema.Props.C134_translates_partial`, `Thema.Props.C134_unfinished`, `Thema.Props.C134_deep_ignored`, `Thema.Props.C134_captured`.
* **C138** With CUE lenses, translating through a version in between makes no difference.  False: a result that is not concrete in between makes the first hop fail although the whole way succeeds (witness), and defaults are chosen at the end of each hop but not in between on the whole way (witness). Proved where the first hop succeeds and choosing defaults there changes nothing; majors from 3 on are excluded since lenses are mixed up there (C25).
  Theorems: `Thema.Props.C138_hop_partial`, `Thema.Props.C138_incomplete_in_between`, `Thema.Props.C138_default_in_between`.
* **C140** AsSuccessor and AsPredecessor do what Translate does.  False for CUE lenses within a major: AsSuccessor leaves out fields that the next schema has a default for, Translate adds them (witness). Proved for Go lenses, for AsPredecessor, across majors, and within majors where the next schema adds nothing. Exactly when they agree there is C140_successor_minor_iff (AsSuccessor also keeps the name of an example, which Translate drops). The ends panic (C37).
  Theorems: `Thema.Props.C140_successor_go`, `Thema.Props.C140_predecessor`, `Thema.Props.C140_climb_go`, `Thema.Props.C140_descend_go`, `Thema.Props.C140_successor_major`, `Thema.Props.C140_successor_minor_partial`, `Thema.Props.C140_default_missing`, `Thema.Props.C140_successor_minor_exact`, `Thema.Props.C140_successor_minor_iff`.
* **C141** Adding versions does not change what a multiplexer for an earlier version returns.  False for data that the multiplexer's own schema does not accept but an added one does: it is translated from the newest added schema that accepts it (general), and the result can change (witness). Proved for all other inputs, with CUE lenses and with Go lenses that are still supplied.
  Theorems: `Thema.Props.C141_mux_cue_partial`, `Thema.Props.C141_mux_go_partial`, `Thema.Props.C141_taken_over`, `Thema.Props.C141_data_changed`.
* **C142** A change that IsAppendOnly accepts leaves translations between existing versions as they are.  False: lenses and the name are not looked at (general, witness). Proved for Go lenses that are still supplied, under the conditions of C44; for CUE lenses see C136.
  Theorems: `Thema.Props.C142_go_kept_partial`, `Thema.Props.C142_lenses_ignored`, `Thema.Props.C142_translation_changed`.
* **C143** Any input valid against any schema can be translated to the schema a program expects.  False: lineages bind without any CUE lenses and then nothing can be translated downwards (general), and lenses or Go functions may fail for valid data (witnesses). Proved: if each lens or function does its job for its two versions, every valid concrete instance can be translated to every version, and multiplexers accept all input that some schema accepts; for Go functions this is also necessary (C143_go_iff), and so it is for CUE lenses up to defaults (C143_cue_necessary); with CUE lenses for majors up to 2 (C25).
  Theorems: `Thema.Props.C143_translatable_cue_partial`, `Thema.Props.C143_translatable_go_partial`, `Thema.Props.C143_go_iff`, `Thema.Props.C143_cue_necessary`, `Thema.Props.C143_mux_cue_partial`, `Thema.Props.C143_mux_go_partial`, `Thema.Props.C143_lens_missing`, `Thema.Props.C143_refuted`.
* **C144** Everything valid in a lineage satisfies its joinSchema.  Proved except that schemas as written must be instances of the joinSchema (C144_refuted), and for instances obtained by translation under the conditions of C38.
  Theorems: `Thema.Props.C144_valid_satisfies_join`, `Thema.Props.C144_obtainable_satisfies_join_partial`, `Thema.Props.C144_join_kept`, `Thema.Props.C144_written_out`, `Thema.Props.C144_refuted`.
* **C145** A version that is left out means 0.0.  What a missing version means is proved; that it is rejected is refuted by a witness.
  Theorems: `Thema.Props.C145_omitted_is_zero`, `Thema.Props.C145_only_first`, `Thema.Props.C145_omitted_breaks`, `Thema.Props.C145_omitted_unreachable`, `Thema.Props.C145_refuted`.
* **C146** Errors about schemas point at the first misfit, and their advice works.  Reports are exact and the advice works up to the schema in question; that it preserves gapless versions is refuted by a witness.
  Theorems: `Thema.Props.C146_report_exact`, `Thema.Props.C146_advice_works`, `Thema.Props.C146_refuted`.
* **C147** Hydrating and dehydrating keep the meaning of data.  Refuted where the schema has an optional field with a default: dehydration removes it, hydration does not restore it. Proved for the functions run against a schema (instance.go hands them the #SchemaDef, see C66 and C67), with concrete data, where elements of lists are not disjunctions (C147_list_elements covers one level of those) and CUE makes lists and field iterators without errors; the round trip is for scalar fields.
  Theorems: `Thema.Props.C147_hydrated_partial`, `Thema.Props.C147_dehydrated_partial`, `Thema.Props.C147_removed_fields`, `Thema.Props.C147_round_trip_partial`, `Thema.Props.C147_list_elements`, `Thema.Props.C147_refuted`.
* **C148** The text of AssignableTo's error lists every discrepancy once, and always the same way.  Refuted: with discrepancies at two paths, calls of Error() may give different texts; and the message for a field is lost, and replaced by a false one, if a nested Go field that the schema lacks has the same name, as excess fields are recorded under their bare names. Proved: one line per recorded path, the last message recorded for it, whatever the order; the same text always if there is one path. Paths stand for their strings, messages contain no line feeds.
  Theorems: `Thema.Props.C148_lines_partial`, `Thema.Props.C148_single_stable`, `Thema.Props.C148_order_varies`, `Thema.Props.C148_hidden`.
* **C149** An instance that a program has never changes.  Refuted for instances handed to Go lenses: translateGo hands one object to all lenses of a call and overwrites it after each step, so that what a lens kept ends up as the result, an instance of another version (C149_given_changes, for all lenses, and a witness). Proved for every instance that exists when a call begins, through any sequence of calls and all outcomes; which object is returned; and that the functions over memory agree with those over values that the other properties are about. Calls do not overlap in time; lenses do not themselves assign to instances.
  Theorems: `Thema.Props.C149_unchanged_partial`, `Thema.Props.C149_translate_keeps`, `Thema.Props.C149_result`, `Thema.Props.C149_values`, `Thema.Props.C149_values_steps`, `Thema.Props.C149_hydrate`, `Thema.Props.C149_given_changes`, `Thema.Props.C149_given_changes_witness`.
* **C150** A new lineage has all that its schema needs.  Refuted: ToExpr removes the import declarations of the schema and NewLineage imports only thema, so that a schema that uses an imported package (strings.MinRunes for minLength, list, math, time, as CUE's converters from JSON Schema and OpenAPI produce) gives a lineage that cannot be loaded; exact condition in C150_complete_iff. Proved for schemas without imports; the schema itself is kept in all cases. Syntax trees have identifiers, operators and structs.
  Theorems: `Thema.Props.C150_complete_partial`, `Thema.Props.C150_imports_lost`, `Thema.Props.C150_complete_iff`, `Thema.Props.C150_schema`, `Thema.Props.C150_witness`.
* **C151** lineage fix changes the lineage where it is written, and only there.  Refuted: findSeqsVal does not check that the literal has a field seqs of its own, as its comment says. If the sequences come from an embedded value, the command succeeds and the lineage is not rewritten, but references in its lenses are renamed where they stand (general, and witness). If the literal is in another package (a path through a reference), or CUE has no single source for the package, it panics with "should be unreachable" (general). Proved: what is changed lies at the literal or at lens bodies; one literal with one field seqs is rewritten as in C115; at most one file is written.
  Theorems: `Thema.Props.C151_replaced_partial`, `Thema.Props.C151_elsewhere`, `Thema.Props.C151_one_file`, `Thema.Props.C151_reported`, `Thema.Props.C151_not_replaced`, `Thema.Props.C151_not_replaced_witness`, `Thema.Props.C151_other_package`, `Thema.Props.C151_no_source`.
* **C189** The usage lines of the commands are right.  False: gen gobindings refuses --bindversion; the commands of gen, fix and bump run without -l, on the current directory, since MarkFlagRequired is called for a set of flags that does not have it; validate runs without -v; translate does not run without --to. Proved: all other flags shown are accepted, and the data commands do not run without -l.
  Theorems: `Thema.Props.C189_violated`, `Thema.Props.C189_usage_partial`.
* **C209** Errors of BindLineage about what is written in a lineage say what is wrong and where.  checkSchemasOrder is called (bind.go:91) before the schema's CUE value is kept (bind.go:95), so that its error has no position, and the error for lenses out of order is made without one (C209_order_nowhere). bind.go:360 gives a text that is formatted already as a format, so that percent signs in a lens change the message (C209_lens_garbled). Which report is made is proved exactly (C209_report_iff); what CUE answers for positions and texts is a parameter.
  Theorems: `Thema.Props.C209_schemas_iff`, `Thema.Props.C209_lenses_iff`, `Thema.Props.C209_agrees`, `Thema.Props.C209_report_iff`, `Thema.Props.C209_where_partial`, `Thema.Props.C209_order_nowhere`, `Thema.Props.C209_schema_texts`, `Thema.Props.C209_lens_order_text`, `Thema.Props.C209_lens_shown_partial`, `Thema.Props.C209_lens_garbled`, `Thema.Props.C209_lens_printed`.
* **C210** The error for a Subpath that is not in the schema names what is absent and a place that the user wrote.  Each selector is looked up in the schema itself, so that a nested path that is there is named as absent (C210_named_present, as for C98). PoslistWithoutThema drops all positions in files whose names contain github.com/grafana/thema, also those of modules such as github.com/grafana/thema-kinds (C210_nowhere, C210_other_module). The report is described exactly (C210_report_iff, C210_agrees).
  Theorems: `Thema.Props.C210_report_iff`, `Thema.Props.C210_agrees`, `Thema.Props.C210_text`, `Thema.Props.C210_text_tells`, `Thema.Props.C210_named_partial`, `Thema.Props.C210_named_present`, `Thema.Props.C210_where_partial`, `Thema.Props.C210_nowhere`, `Thema.Props.C210_other_module`.
* **C213** #CRD turns a lineage into a Kubernetes custom resource definition.  False for every lineage: #CRD reads the field seqs, which #Lineage does not have (general). Nor would it work for lineages with sequences: all schemas of a sequence give fields of one struct, with names in conflict (general), and served and storage refer to the fields that they are the values of (general). Proved: without this mistake, sequences with one schema each would give what is wanted.
  Theorems: `Thema.Props.C213_no_lineage`, `Thema.Props.C213_minor_versions_conflict`, `Thema.Props.C213_only_without_schemas`, `Thema.Props.C213_single_partial`.

{"id": "C01", "title": "Version order is a strict total order, and Go and CUE agree on it", "statement": "SyntacticVersion.Less is irreflexive, transitive and total, orders versions numerically by major then minor, and the comparison the CUE runtime uses when translating always produces exactly one of -1/0/1, namely -1 iff Less(l,r), 1 iff Less(r,l), 0 iff l==r.", "quantifier": "all pairs / triples of versions, components unbounded", "why_tests_cant": "The property ranges over all pairs and triples of 64-bit pairs; a test fixes finitely many.", "anchors": ["surface.go: SyntacticVersion.Less", "lineage.cue: _cmpSV"]}
{"id": "C02", "title": "Version strings round-trip", "statement": "ParseSyntacticVersion(v.String()) returns v for every version, and String is injective.", "quantifier": "every version whose components fit the parser's range; the excluded range is characterised exactly", "why_tests_cant": "2^128 versions; the failure zone starts at 2^32 where no test goes.", "anchors": ["surface.go: SyntacticVersion.String, ParseSyntacticVersion"]}
{"id": "C03", "title": "Version parser accepts exactly digits.digits below 2^32", "statement": "ParseSyntacticVersion succeeds exactly on strings consisting of two non-empty runs of ASCII digits separated by one '.', each denoting a number below 2^32, and then returns the denoted numbers; on every other string it returns an error that is ErrMalformedSyntacticVersion and never panics.", "quantifier": "all strings", "why_tests_cant": "The domain is all strings.", "anchors": ["surface.go: ParseSyntacticVersion"]}
{"id": "C04", "title": "Schema lookup by version finds exactly the declared versions", "statement": "For every bound lineage and version v, Lineage.Schema(v) returns a schema whose Version() is v if v is declared, and otherwise an error that is ErrVersionNotExist; it never panics.  SchemaP panics exactly when Schema errors.", "quantifier": "all bound lineages of any length, all versions", "why_tests_cant": "Binary search over lists of arbitrary length; off-by-one mistakes only show on particular lengths and positions.", "anchors": ["lineage.go: Schema, schema, searchSynv, synvExists", "surface.go: SchemaP"]}
{"id": "C05", "title": "First/Latest/All agree with the declared order", "statement": "For every bound lineage, All() lists the schemas in declared order with non-decreasing versions, First() is its first and Latest() its last element, First().Version() <= every version <= Latest().Version(), and LatestVersion agrees with Latest.", "quantifier": "all bound lineages", "why_tests_cant": "Any number of schemas.", "anchors": ["lineage.go: Latest, First, All", "surface.go: LatestVersion"]}
{"id": "C06", "title": "Successor and Predecessor walk the lineage one schema at a time", "statement": "In every bound lineage whose versions are distinct and start at 0.0, Successor of the i-th schema is the (i+1)-th or nil at the end, Predecessor is the (i-1)-th or nil at the beginning, they are mutually inverse, there is no version strictly between a schema and its successor, and iterating Successor from First visits each schema exactly once and stops.", "quantifier": "all such lineages, every position", "why_tests_cant": "Induction over arbitrary lineage length.", "anchors": ["schema.go: successor, predecessor, Successor, Predecessor"]}
{"id": "C07", "title": "Predecessor never panics", "statement": "Predecessor returns nil for the first schema of every bound lineage and never panics.", "quantifier": "all bound lineages, every schema", "why_tests_cant": "Depends on which first versions BindLineage lets through.", "anchors": ["schema.go: predecessor", "bind.go: checkGoValidity, checkSchemasOrder"]}
{"id": "C08", "title": "LatestInMajor returns the newest schema in the receiver's major version", "statement": "For every schema, LatestInMajor() returns the schema with the greatest minor version among those with the receiver's major version (itself when it is the latest), and LatestVersionInSequence(lin, m) returns that version for every existing major m.", "quantifier": "all bound lineages, every schema", "why_tests_cant": "Only universally quantified reasoning separates an index that is one too large from the right one on every lineage.", "anchors": ["schema.go: LatestInMajor", "surface.go: LatestVersionInSequence"]}
{"id": "C09", "title": "Bound lineages have strictly increasing versions", "statement": "If BindLineage succeeds then no version occurs twice and versions are listed in increasing order; a list that is out of order is rejected with ErrInvalidSchemasOrder.", "quantifier": "all inputs to BindLineage", "why_tests_cant": "All finite lists of versions.", "anchors": ["bind.go: checkSchemasOrder, checkGoValidity"]}
{"id": "C10", "title": "Bound lineages start at 0.0 and have no version gaps", "statement": "If BindLineage succeeds, the first version is 0.0 and every following version is either the next minor of the same major or the .0 of the next major.", "quantifier": "all inputs to BindLineage", "why_tests_cant": "All finite lists of versions.", "anchors": ["bind.go: checkGoValidity", "lineage.cue: #SchemaDef.version, #Lineage.schemas"]}
{"id": "C11", "title": "BindLineage enforces backward compatibility exactly", "statement": "Without SkipBuggyChecks, BindLineage succeeds only if every schema with a non-zero minor version subsumes its immediate predecessor and every schema with minor version zero does not subsume its immediate predecessor; conversely a lineage meeting all checks is accepted.  A violation yields an error that is ErrInvalidLineage.", "quantifier": "all inputs to BindLineage, all subsumption relations", "why_tests_cant": "Every list of schemas and every subsumption relation between them.", "anchors": ["bind.go: checkGoValidity", "internal/compat/compat.go: ThemaCompatible"]}
{"id": "C12", "title": "Data valid at a version stays valid at every later minor version of the same major", "statement": "For every lineage bound without SkipBuggyChecks and whose versions are distinct, if data validates against schema a.b then it validates against every schema a.c with c >= b.", "quantifier": "all such lineages, all pairs of versions in a major, all data", "why_tests_cant": "Transitive closure over arbitrarily long runs of minor versions and all data.", "anchors": ["bind.go: checkGoValidity", "schema.go: Validate"]}
{"id": "C13", "title": "Go lens sets must be exactly the required set", "statement": "When Go lenses are supplied for a lineage with distinct versions starting at 0.0, BindLineage accepts them iff no (from,to) pair is repeated, no mapper is nil, and the set of pairs is exactly {v_i -> v_(i-1)} for every i>0 together with {v_(i-1) -> v_i} wherever the major changes.  If any required pair is absent the error is ErrMissingLenses (even if others are superfluous); otherwise if a pair is superfluous it is ErrErroneousLenses; bind never panics while composing the report.", "quantifier": "all lineages and all finite lists of Go lenses", "why_tests_cant": "All subsets and multisets of version pairs.", "anchors": ["bind.go: checkGoLensCompleteness", "surface.go: ImperativeLenses"]}
{"id": "C14", "title": "CUE lens order check", "statement": "For CUE lenses, BindLineage accepts the lens list's order iff it is sorted by to, then from (non-strictly); otherwise it fails with ErrInvalidLensesOrder.", "quantifier": "all finite lens lists", "why_tests_cant": "The check compares neighbours only; that this suffices for global sortedness is an induction.", "anchors": ["bind.go: checkLensesOrder, doCheck, newLensVersionDef"]}
{"id": "C15", "title": "CUE lens sets must be exactly the required set", "statement": "A bound lineage with CUE lenses defines exactly the explicit lenses its versions require: a backward lens across every change and a forward lens across every major change, nothing else.", "quantifier": "all inputs to BindLineage", "why_tests_cant": "All subsets of version pairs.", "anchors": ["bind.go: checkLensesOrder", "lineage.cue: #Lineage.lenses"]}
{"id": "C16", "title": "BindLineage's checks run in order and classify failures", "statement": "BindLineage returns a lineage iff all of existence, shape, native validity, version/compatibility and lens checks pass; otherwise it returns no lineage and the error of the first failing check: ErrValueNotExist, ErrValueNotALineage, ErrInvalidLineage, ErrInvalidSchemasOrder, ErrInvalidLensesOrder, ErrMissingLenses or ErrErroneousLenses.  With a non-empty schema list it never panics.", "quantifier": "all inputs to BindLineage and all bind options", "why_tests_cant": "Combination of all check outcomes with lists of any length.", "anchors": ["lineage.go: BindLineage", "bind.go"]}
{"id": "C17", "title": "The lineage value is unified with #Lineage exactly once", "statement": "Whatever mix of conjuncts the input has, the value stored in the lineage is unified exactly once with thema.#Lineage and retains every other conjunct.", "quantifier": "all inputs, seen as non-empty lists of conjuncts some of which are #Lineage", "why_tests_cant": "All conjunct lists.", "anchors": ["lineage.go: BindLineage (69-108)", "internal/cuetil/split.go: AppendSplit"]}
{"id": "C18", "title": "A lens declared both in CUE and in Go is rejected", "statement": "If a lens is declared in CUE and the same lens is also supplied as a Go function, BindLineage fails with ErrDuplicateLenses.", "quantifier": "all inputs to BindLineage", "why_tests_cant": "All combinations of CUE and Go lens sets.", "anchors": ["errors/errors.go: ErrDuplicateLenses", "bind.go: checkLensesOrder"]}
{"id": "C19", "title": "Validate is exact and preserves the data", "statement": "Schema.Validate(d) returns an instance iff the schema body unified with d is valid and concrete; the instance then carries exactly d and that schema; otherwise the instance is nil and the error is non-nil and is ErrInvalidData (for errors raised by CUE).", "quantifier": "all schemas, all data, all CUE evaluation outcomes", "why_tests_cant": "All data and all error shapes, including errors of unrecognised form.", "anchors": ["schema.go: Validate", "validate.go: mungeValidateErr"]}
{"id": "C20", "title": "ValidateAny returns the oldest validating schema", "statement": "Lineage.ValidateAny(d) terminates for every lineage, returns nil iff no schema validates d, and otherwise an instance of the oldest (smallest) schema that validates d.", "quantifier": "all bound lineages, all data", "why_tests_cant": "Loop termination and minimality over arbitrary length.", "anchors": ["lineage.go: ValidateAny", "schema.go: successor"]}
{"id": "C21", "title": "Validation errors are classified faithfully", "statement": "Each reported sub-error carries the class determined by its shape: one string operand and 'incomplete' -> MissingField, 'not allowed' -> ExcessField; two string operands -> OutOfBounds; two strings and two kinds -> OutOfBounds if the kinds overlap, KindConflict otherwise; schema and data operands are attributed by whether the first position is in a .cue file; sub-errors are reported in order, none twice.", "quantifier": "all lists of CUE errors", "why_tests_cant": "All lists and all shapes.", "anchors": ["validate.go: mungeValidateErr"]}
{"id": "C22", "title": "Reporting a validation failure never panics", "statement": "Turning a CUE validation error into Thema's error never panics.", "quantifier": "all CUE errors, i.e. all error paths", "why_tests_cant": "Slice bounds depend on path length and on where (or whether) an element named 'schemas' occurs.", "anchors": ["validate.go: mungeValidateErr, trimThemaPath"]}
{"id": "C23", "title": "Positions are partitioned between schema and data", "statement": "Every position of a CUE error is attributed to exactly one of schema or data, in order, and to the schema iff its file name ends in .cue.", "quantifier": "all position lists", "why_tests_cant": "All lists.", "anchors": ["validate.go: splitTokens"]}
{"id": "C24", "title": "A successful CUE-lens translation yields a valid instance of the target", "statement": "If Instance.Translate(to) on a lineage with CUE lenses returns without error, the result is an instance of the schema with version 'to' in the same lineage, and its data validates against that schema.", "quantifier": "all lineages, lens behaviours, instances and targets", "why_tests_cant": "All lenses are arbitrary functions.", "anchors": ["instance.go: Translate", "translate.cue: #Translate"]}
{"id": "C25", "title": "CUE translation applies exactly the lenses between source and target, in order", "statement": "For a lineage with its exact, ordered lens set, Translate(to) applies to the instance exactly the chain of lenses between the source and target versions: each backward lens when going down; when going up, unification for minor steps and the forward lens for major steps; nothing when to == from.", "quantifier": "all contiguous lineages with complete sorted lenses, all pairs of versions, all lens functions", "why_tests_cant": "Index arithmetic over arbitrary numbers of majors and minors; errors appear only from the fourth major on.", "anchors": ["translate.cue: #Translate", "lineage.cue: _forwardLenses, _backwardLenses, _counts, _basis, _flatidx"]}
{"id": "C26", "title": "Version-to-position index is right", "statement": "For a contiguous lineage, the position CUE computes for version M.m is the position of that version in the schema list.", "quantifier": "all contiguous lineages, all their versions", "why_tests_cant": "Wrong only for lineages with four or more majors, and by an amount depending on earlier majors.", "anchors": ["lineage.cue: _counts, _basis, _flatidx"]}
{"id": "C27", "title": "Every contiguous lineage can be bound", "statement": "The internal per-major schema counts that #Lineage derives are the true counts, so a lineage with valid, contiguous versions is never rejected because of them.", "quantifier": "all contiguous lineages", "why_tests_cant": "Arithmetic over arbitrary numbers of majors.", "anchors": ["lineage.cue: _counts", "bind.go: checkNativeValidity"]}
{"id": "C28", "title": "No lens is ever applied between the wrong versions", "statement": "In any successful CUE translation, for any lineage and any (even incomplete or misordered) lens list, each explicit lens applied has from equal to the version produced by the previous step (initially the instance's version) and to equal to the version of the schema it is unified with.", "quantifier": "all lineages, lens lists, instances, targets", "why_tests_cant": "All lens lists, including malformed ones.", "anchors": ["translate.cue: #Translate guards (61-69, 104-112)"]}
{"id": "C29", "title": "Lacunas emitted by applied lenses are returned", "statement": "Translate returns every lacuna whose condition holds in the lenses it applied.", "quantifier": "all lineages, lenses with lacunas, instances", "why_tests_cant": "All lens/lacuna combinations.", "anchors": ["instance.go: Translate (235-236)", "translate.cue: out.steps[].lacunas", "docs/authoring.md"]}
{"id": "C30", "title": "All Translate errors are ErrInvalidLens", "statement": "Every error returned by Translate is (errors.Is) ErrInvalidLens.", "quantifier": "all lineages, lenses, instances, targets", "why_tests_cant": "All lens behaviours.", "anchors": ["instance.go: Translate, translateGo", "errors/errors.go: ErrInvalidLens"]}
{"id": "C31", "title": "Translating to the instance's own version is the identity", "statement": "Translate(own version) returns an instance of the same schema with the same data, without calling any lens.", "quantifier": "all lineages and instances", "why_tests_cant": "All data.", "anchors": ["instance.go: Translate, translateGo", "translate.cue: cmp == 0"]}
{"id": "C32", "title": "Translating to an unknown version is reported as an error", "statement": "Translate(v) for a version that the lineage does not contain returns an error; it does not panic or loop.", "quantifier": "all lineages, all absent versions", "why_tests_cant": "All versions.", "anchors": ["instance.go: Translate, translateGo"]}
{"id": "C33", "title": "Go-lens translation terminates and reaches the target through adjacent mappers", "statement": "For every lineage with its exact Go lens set, every existing target, and mappers that return (instances of schemas of that lineage, nil or errors), translation terminates; it calls exactly the mappers between source and target in order, each with the schema it must produce; forward minor steps call no mapper; on success the result's version is the target.", "quantifier": "all lineages, mapper functions, version pairs", "why_tests_cant": "Loop over arbitrary length with arbitrary mapper functions.", "anchors": ["instance.go: translateGo"]}
{"id": "C34", "title": "Go-lens translation yields a valid instance of the target schema of the same lineage", "statement": "If Go-lens translation succeeds then the result is an instance of the target schema of the same lineage and its data validates against it.", "quantifier": "all lineages, mapper functions, version pairs", "why_tests_cant": "All mapper functions.", "anchors": ["instance.go: translateGo (284-292)"]}
{"id": "C35", "title": "Go-lens translation composes", "statement": "With mappers that return instances of the lineage, going from a to c directly gives the same result as going from a to b and then from b to c whenever b lies between a and c.", "quantifier": "all lineages, mappers, triples of versions", "why_tests_cant": "All paths.", "anchors": ["instance.go: translateGo"]}
{"id": "C36", "title": "Forward translation within a major never fails and never changes the data", "statement": "Translating forward within one major version always succeeds, and with Go lenses the data is unchanged; AsSuccessor across a minor step returns the same data under the successor schema.", "quantifier": "all lineages, data, minor steps", "why_tests_cant": "All data.", "anchors": ["instance.go: AsSuccessor, translateGo", "translate.cue: 93-100"]}
{"id": "C37", "title": "AsSuccessor/AsPredecessor are safe at the ends", "statement": "AsSuccessor on an instance of the latest schema and AsPredecessor on an instance of the first schema do not panic.", "quantifier": "all lineages and instances", "why_tests_cant": "All lineages.", "anchors": ["instance.go: AsSuccessor, AsPredecessor"]}
{"id": "C38", "title": "Every Instance reachable through the API satisfies its schema", "statement": "Whatever sequence of API calls produced it, an Instance's data validates against the Instance's schema.", "quantifier": "all finite histories of API calls", "why_tests_cant": "All call histories.", "anchors": ["instance.go", "schema.go: Examples, Validate"]}
{"id": "C39", "title": "The version multiplexer picks the given schema first, then the newest that validates", "statement": "An UntypedMux returns the input as an instance of its schema if it validates there; otherwise it translates from the newest other schema that validates it; and it returns an error iff decoding fails, no schema validates, or that translation fails.  The result's version is always the mux's.", "quantifier": "all lineages with distinct versions starting at 0.0, all schemas and inputs on which Validate does not panic (C22), Go lenses that return instances of the lineage", "why_tests_cant": "All lineages and data.", "anchors": ["vmux/untyped.go: NewUntypedMux"]}
{"id": "C40", "title": "TypedMux never hits its 'unreachable' panic", "statement": "A TypedMux call never panics, and its result is bound to the mux's typed schema.", "quantifier": "all lineages, lenses and inputs", "why_tests_cant": "Needs an invariant about which schema pointers translation may return.", "anchors": ["vmux/typed.go: NewTypedMux", "instance.go: BindInstanceType", "schema.go: schemaIs"]}
{"id": "C41", "title": "ByteMux and ValueMux agree with UntypedMux and TypedMux", "statement": "ByteMux returns an error exactly when UntypedMux does or encoding fails, and otherwise the encoding of the same instance with the same lacunas; ValueMux likewise with TypedMux and decoding into T.", "quantifier": "all inputs and codecs", "why_tests_cant": "All codecs and inputs.", "anchors": ["vmux/byte.go: NewByteMux", "vmux/value.go: NewValueMux"]}
{"id": "C42", "title": "IsAppendOnly accepts exactly lineages that keep every old schema", "statement": "IsAppendOnly(old,new) returns nil iff new has at least as many schemas and each old schema is equal (mutual subsumption) to the one at the same position in new.", "quantifier": "all pairs of lineages", "why_tests_cant": "All lists and relations.", "anchors": ["lineage.go: IsAppendOnly", "internal/cuetil/equal.go: Equal"]}
{"id": "C43", "title": "IsAppendOnly is reflexive and transitive", "statement": "Every lineage is append-only relative to itself, and if b is append-only relative to a and c relative to b then c is append-only relative to a. Two lineages are append-only relative to each other exactly if they have equal schemas in equal number. Of two lineages that a third one is append-only relative to, the one with more schemas is append-only relative to the other: diverging branches can never be joined again.", "quantifier": "all lineages", "why_tests_cant": "All triples.", "anchors": ["lineage.go: IsAppendOnly"]}
{"id": "C44", "title": "IsAppendOnly guarantees that old versions keep resolving to the same schema", "statement": "If two lineages are bound with compatibility checks in force, number their schemas without gaps and join the same value to them, and IsAppendOnly(old,new) returns nil, then every version of old exists in new and Schema(v) in new is equal to Schema(v) in old.", "quantifier": "all such pairs of bound lineages", "why_tests_cant": "IsAppendOnly looks at no version; that versions agree depends on the compatibility rule over all lineages.", "anchors": ["lineage.go: IsAppendOnly"]}
{"id": "C45", "title": "Runtime locking: writers exclusive, no deadlock", "statement": "Under every interleaving of any number of goroutines calling BindLineage, Validate, NewT, AssignableTo and Translate on one Runtime: no goroutine is inside a writer section while another is inside any section; and whenever some goroutine has not finished, some goroutine can take a step, even with Go's writer-preference rule that blocks new readers.", "quantifier": "all numbers of goroutines, all programs made of these calls, all schedules", "why_tests_cant": "Schedules are unbounded.", "anchors": ["runtime.go: rl, ru, l, u, cueArgs.make, cueArgs.call", "lineage.go: BindLineage", "schema.go: Validate, BindType", "assignable.go: AssignableTo"]}
{"id": "C46", "title": "CUE evaluation is never concurrent with a bind", "statement": "While BindLineage (or the argument filling of Translate) holds the runtime exclusively, no other goroutine evaluates CUE values of that runtime.", "quantifier": "all schedules", "why_tests_cant": "Schedules are unbounded.", "anchors": ["instance.go: Translate (231-243), Hydrate, Dehydrate", "schema.go: Examples", "runtime.go"]}
{"id": "C47", "title": "CUE function arguments can be filled in any order", "statement": "The value obtained by passing arguments to a CUE function does not depend on Go's random map iteration order.", "quantifier": "all argument maps, all iteration orders", "why_tests_cant": "All permutations.", "anchors": ["runtime.go: cueArgs.make"]}
{"id": "C48", "title": "Legacy lineage rewrite produces contiguous versions, one per schema", "statement": "Rewriting a legacy lineage whose sequences are all non-empty keeps all schemas in order and assigns them the versions seq.index, so the output's versions are contiguous, start at 0.0 and are strictly increasing.", "quantifier": "all legacy lineages", "why_tests_cant": "All shapes.", "anchors": ["encoding/cue/rewrite.go: extractParts"]}
{"id": "C49", "title": "Legacy lineage rewrite produces exactly the required lenses in bindable order", "statement": "For non-empty sequences, the emitted lens list has exactly the pairs that the output versions require, without repeats, and in an order that BindLineage's lens order check accepts; cross-sequence lenses carry the legacy forward/reverse bodies of the right sequence.", "quantifier": "all legacy lineages with non-empty sequences", "why_tests_cant": "All shapes.", "anchors": ["encoding/cue/rewrite.go: extractParts", "bind.go: checkLensesOrder"]}
{"id": "C50", "title": "Path prefix helpers", "statement": "PathHasPrefix(p,q) holds iff q is a prefix of p up to optionality; ReplacePathPrefix replaces a proper prefix and otherwise returns p; TrimPathPrefix removes the prefix if it exists and otherwise returns the path unchanged.", "quantifier": "all paths", "why_tests_cant": "All lists of selectors.", "anchors": ["internal/cuetil/path.go"]}
{"id": "C51", "title": "Label sanitisation", "statement": "SanitizeLabelString returns exactly the ASCII letters, digits and underscores of its input in order; it is idempotent and a no-op on strings consisting of such characters.", "quantifier": "all strings", "why_tests_cant": "All strings.", "anchors": ["internal/util/util.go: SanitizeLabelString"]}
{"id": "C52", "title": "Conjunct splitting is lossless", "statement": "AppendSplit of a value returns, in order, all leaves of its nested unifications, dropping only conjuncts equal (mutual subsumption) to an earlier sibling; with no duplicates nothing is dropped.", "quantifier": "all nested unification expressions", "why_tests_cant": "All trees.", "anchors": ["internal/cuetil/split.go: AppendSplit"]}
{"id": "C53", "title": "Every validation problem is reported", "statement": "When Validate fails with a CUE error, the returned error reports every sub-error of the CUE error; in particular it is never an error that reports nothing.", "quantifier": "all lists of CUE errors", "why_tests_cant": "Depends on the shapes of messages CUE produces now and in future versions.", "anchors": ["validate.go: mungeValidateErr, validationFailure.Error"]}
{"id": "C54", "title": "Validation errors match the sentinel of their class", "statement": "An error returned by Validate is (errors.Is) ErrInvalidMissingField, ErrInvalidExcessField, ErrInvalidKindConflict or ErrInvalidOutOfBounds when one of the problems it reports is of that class.", "quantifier": "all schemas, all data, all CUE evaluation outcomes", "why_tests_cant": "All outcomes.", "anchors": ["errors/errors.go: ErrInvalidExcessField, ErrInvalidMissingField, ErrInvalidKindConflict, ErrInvalidOutOfBounds", "validate.go: Unwrap methods"]}
{"id": "C55", "title": "Translate does not panic on valid instances", "statement": "Translate of a valid Instance to a version of its lineage returns a result or an error, whatever the instance's data is.", "quantifier": "all lineages, all instances, all targets", "why_tests_cant": "All data and all lenses.", "anchors": ["instance.go: Translate (220-229)", "translate.cue: I=inst: {...}", "runtime.go: cueArgs.make"]}
{"id": "C56", "title": "A multiplexer can be made for every bound lineage", "statement": "NewUntypedMux, NewTypedMux, NewByteMux and NewValueMux return for every schema of every lineage that BindLineage accepted.", "quantifier": "all bound lineages and schemas", "why_tests_cant": "Depends on the shapes of the version lists that BindLineage lets through.", "anchors": ["vmux/mux.go:14-20", "vmux/untyped.go:23-27", "vmux/typed.go:23-27"]}
{"id": "C57", "title": "IsAppendOnly protects users of published versions", "statement": "If IsAppendOnly(old,new) returns nil for two bound lineages, every version of old exists in new and accepts the same data, however the lineages were bound and whatever else changed.", "quantifier": "all pairs of bound lineages", "why_tests_cant": "All pairs of lineages, including those that differ in versions or in joinSchema only.", "anchors": ["lineage.go: IsAppendOnly (302-315)"]}
{"id": "C58", "title": "OpenAPI names are relative to the schema", "statement": "In deriving component names, the OpenAPI encoder turns a path below a schema into the path relative to its body, whichever of the fields schema, _#schema, _join, joinSchema holds it, and leaves other paths alone.", "quantifier": "all paths, all base paths", "why_tests_cant": "All paths.", "anchors": ["encoding/openapi/oapi.go: trimThemaPathPrefix"]}
{"id": "C59", "title": "Legacy lens bodies are rewritten to the new field names", "statement": "In the bodies of lenses and lacunas, RewriteLegacyLineage replaces every reference to from by input and every reference to to by result.", "quantifier": "all CUE expressions", "why_tests_cant": "All expression shapes.", "anchors": ["encoding/cue/rewrite.go: rewriteFromTo (161-179)"]}
{"id": "C60", "title": "A panic inside CUE does not leave the runtime locked", "statement": "If CUE panics during any call on a Runtime and the program recovers, the other goroutines using the Runtime can still finish their calls.", "quantifier": "all schedules with panics at any evaluation", "why_tests_cant": "All schedules, and panics of a dependency.", "anchors": ["schema.go: NewT (213-218)", "runtime.go: cueArgs.call (179-181)", "runtime.go: rl, ru, l, u"]}
{"id": "C61", "title": "AssignableTo decides the documented assignability rules", "statement": "AssignableTo(sch, T) returns nil exactly when T is a struct or a pointer to one and the rules of docs/invariants.md hold between T and the schema: same fields in structs, slices for open lists, arrays for closed lists, one element type, basic types wide enough, any for everything.", "quantifier": "all schemas, all Go types, any nesting", "why_tests_cant": "All pairs of a schema and a Go type, of any depth.", "anchors": ["assignable.go: AssignableTo, assignable (28-284)", "docs/invariants.md: Go Assignability"]}
{"id": "C62", "title": "Instances of an assignable schema fit the Go type", "statement": "If AssignableTo(sch, T) returns nil and the structs of the schema are closed, every instance valid against the schema can be represented in T: each field has a place, each list fits, each basic value is in range.", "quantifier": "all schemas, all Go types, all instances", "why_tests_cant": "Quantifies over all instances of all schemas.", "anchors": ["assignable.go: AssignableTo, assignable (28-284)", "docs/invariants.md: Go Assignability"]}
{"id": "C63", "title": "AssignableTo reports exactly the discrepancies, at their paths", "statement": "When AssignableTo fails, its error lists every place at which the Go type and the schema disagree, each under its path, and nothing else.", "quantifier": "all schemas, all Go types", "why_tests_cant": "All combinations of discrepancies at all depths.", "anchors": ["assignable.go: check, checkstruct, checklist, checkscalar (89-275)", "assignable.go: assignErrs"]}
{"id": "C64", "title": "AssignableTo returns", "statement": "For every schema and every non-recursive Go type that CUE can encode, AssignableTo terminates without panic, and its verdict is determined by the schema and the type.", "quantifier": "all schemas, all Go types", "why_tests_cant": "Unbounded recursion over types.", "anchors": ["assignable.go: assignable (45-284)", "assignable.go: structToMap, structToSlice"]}
{"id": "C65", "title": "AssignableTo accepts a struct or one pointer to a struct", "statement": "AssignableTo returns ErrPointerDepth iff its argument has two or more pointers, an error about the kind iff otherwise it is not a struct, and treats a pointer to a struct like the struct.", "quantifier": "all Go values, all schemas", "why_tests_cant": "Pointer depth is unbounded.", "anchors": ["assignable.go: assignable (46-57)"]}
{"id": "C66", "title": "Hydrate includes all defaults of the schema", "statement": "Instance.Hydrate returns an instance of the same schema whose data has every field the input had, plus every default that the schema specifies for fields the input lacks, and nothing else.", "quantifier": "all instances of all schemas", "why_tests_cant": "All data and all schemas.", "anchors": ["instance.go: Hydrate (59-75)", "hydrate.go: doHydrate (12-71)"]}
{"id": "C67", "title": "Dehydrate removes all defaults of the schema", "statement": "Instance.Dehydrate returns an instance of the same schema without the fields whose values equal the schema's defaults; all other fields are kept.", "quantifier": "all instances of all schemas", "why_tests_cant": "All data and all schemas.", "anchors": ["instance.go: Dehydrate (82-95)", "hydrate.go: doDehydrate (169-246)"]}
{"id": "C68", "title": "Hydrated and dehydrated instances are valid", "statement": "The instances returned by Hydrate and Dehydrate are valid against the schema they report.", "quantifier": "all instances of all schemas", "why_tests_cant": "All data and all schemas.", "anchors": ["instance.go: Hydrate, Dehydrate (59-95)", "schema.go: Underlying (143-152)"]}
{"id": "C69", "title": "The generated JSON Schema accepts the same data as the OpenAPI schema", "statement": "For every schema, the document returned by jsonschema.GenerateSchema accepts, as a JSON Schema (Draft 4), exactly the data that the OpenAPI 3.0.0 document made from the schema accepts.", "quantifier": "all OpenAPI schemas, all data, any nesting and any (recursive) references", "why_tests_cant": "Quantifies over all data and all schemas of any depth; the tests only check that the output is some well-formed JSON Schema.", "anchors": ["encoding/jsonschema/jschema.go: GenerateSchema, scan, newSchemaNode, process (17-284)", "encoding/openapi/oapi.go: GenerateSchema (88-102)"]}
{"id": "C70", "title": "Generating a JSON Schema changes only what is specific to OpenAPI", "statement": "A schema that uses none of OpenAPI's own keywords is unchanged except for the added $schema. At every typed schema that is rewritten, OpenAPI's own keywords are gone and all other keywords (except type and those holding the schemas of its parts) are kept as they were.", "quantifier": "all schema trees of any depth", "why_tests_cant": "All trees of any depth.", "anchors": ["encoding/jsonschema/jschema.go: newSchemaNode, process (142-257)"]}
{"id": "C71", "title": "Generating a JSON Schema succeeds", "statement": "For every OpenAPI document whose types are those of OpenAPI, the translation to JSON Schema succeeds without panic; errors of the OpenAPI generator are passed on.", "quantifier": "all documents of any depth", "why_tests_cant": "All trees of any depth.", "anchors": ["encoding/jsonschema/jschema.go: newSchemaNode, process, scan (142-284)"]}
{"id": "C72", "title": "$schema is declared at the roots only", "statement": "In the generated JSON Schema, each component declares $schema exactly once, at its root, and nothing inside of a component does.", "quantifier": "all components of any depth", "why_tests_cant": "All trees of any depth.", "anchors": ["encoding/jsonschema/jschema.go: process (250-256)", "encoding/jsonschema/jschema.go: newSchemaNode (147-150)"]}
{"id": "C73", "title": "Data commands read the named file, or else standard input", "statement": "thema data validate, validate-any, hydrate, dehydrate and translate work on the data in the file named by the argument; without an argument they work on what is on standard input, from wherever it is redirected. With an argument, standard input is ignored.", "quantifier": "all inputs, files, flags and lineages", "why_tests_cant": "Input may come from any source and be any byte string; the tests run no command.", "anchors": ["cmd/thema/data.go: pathOrStdin (305-347)", "cmd/thema/data.go: validateDataInput (349-434)"]}
{"id": "C74", "title": "The requested input format decides how data is read", "statement": "With -e json or -e yaml the data commands decode the input in that format and no other; without it the input is decoded as JSON or else as YAML.", "quantifier": "all inputs, flags and decoders", "why_tests_cant": "All byte strings, all names of files and all decoders.", "anchors": ["cmd/thema/data.go: validateDataInput (349-434)"]}
{"id": "C75", "title": "thema data validate succeeds exactly on valid data", "statement": "thema data validate exits with status 0, printing nothing, exactly if the selected schema admits the data, and otherwise fails reporting that schema's problem; with --quiet it reports nothing.", "quantifier": "all lineages, schemas, data and flags", "why_tests_cant": "All schemas and all data.", "anchors": ["cmd/thema/data.go: runValidate (124-131)", "cmd/thema/data.go: setup (42-47)"]}
{"id": "C76", "title": "thema data validate-any finds a schema if there is one", "statement": "thema data validate-any prints the version of a schema that admits the data - the one given by --version, or else the oldest - and fails exactly if no schema does; without --version it then outputs nothing.", "quantifier": "all lineages, data and flags", "why_tests_cant": "All lineages of any length and all data.", "anchors": ["cmd/thema/data.go: runValidateAny (145-185)"]}
{"id": "C77", "title": "thema data hydrate and dehydrate select the schema as documented", "statement": "With --version, hydrate and dehydrate check the data against that schema only; without it, against all schemas, and work on the instance found.", "quantifier": "all lineages, data and flags", "why_tests_cant": "All lineages of any length and all data.", "anchors": ["cmd/thema/data.go: runHydrate, runDehydrate (214-300)"]}
{"id": "C78", "title": "thema data translate reports what it did", "statement": "If thema data translate succeeds, the result's from is the version of the oldest schema that admits the input, its to is the version asked for, and the result is admitted by the schema of that version. It fails if no schema admits the input or no version is asked for.", "quantifier": "all lineages without Go lenses, all data and flags", "why_tests_cant": "All lineages, lenses and data.", "anchors": ["cmd/thema/data.go: runTranslate (187-212)", "cmd/thema/load.go: validateVersionInput (222-231)"]}
{"id": "C79", "title": "The version flag selects the schema with that version", "statement": "For every command line, the selected schema is the latest one if --version is empty, and otherwise the one whose version the flag denotes; the command fails if there is none, and never panics.", "quantifier": "all lineages and all flag values", "why_tests_cant": "All strings.", "anchors": ["cmd/thema/load.go: dynLoad (186-201)"]}
{"id": "C80", "title": "The lineage is loaded in its CUE module", "statement": "Every command loads the lineage as part of the module of the nearest cue.mod/module.cue in the lineage's directory or one above it.", "quantifier": "all file systems, paths of any depth", "why_tests_cant": "Directory trees of any depth; the tests run no command.", "anchors": ["cmd/thema/load.go: findCueMod (240-268)", "cmd/thema/load.go: dynLoad (113-171)"]}
{"id": "C81", "title": "Generated bindings use the import path of the lineage", "statement": "The module name in the bindings generated for a lineage is the name of its CUE module followed by the path from the module's directory to the lineage's; where there is no named CUE module it is the name of the nearest Go module.", "quantifier": "all file systems, paths of any depth", "why_tests_cant": "Directory trees of any depth.", "anchors": ["cmd/thema/lineage_subgen.go: findModRoot, Modname, Modpath (384-455)", "cmd/thema/lineage_subgen.go: runGoBindings (316-338)"]}
{"id": "C82", "title": "A lineage is loaded exactly if one package holds one", "statement": "Loading from a set of CUE packages gives a lineage exactly if one and only one of them holds a value that binds as a lineage, and it is that lineage; otherwise loading fails with an error, without panic and never with a nil lineage. If no package holds a lineage, the error is that of the first one.", "quantifier": "all lists of packages, any length", "why_tests_cant": "Any number of packages in any state.", "anchors": ["cmd/thema/load.go: buildInsts, loadone (274-338)"]}
{"id": "C83", "title": "Generated documents are printed as they are", "statement": "thema lineage gen openapi and gen jsonschema write the generated document, in the format asked for, to standard output unchanged.", "quantifier": "all documents and flags", "why_tests_cant": "All texts: the failing ones contain a percent sign.", "anchors": ["cmd/thema/lineage_subgen.go: runOpenAPI (167-192), runJSONSchema (205-230)"]}
{"id": "C84", "title": "Flags of gen have the documented defaults", "statement": "For each subcommand of thema lineage gen, a flag that is not given has the default shown in its help, and a flag that is given has the value given last, whatever other flags are given.", "quantifier": "all command lines", "why_tests_cant": "All combinations of flags; the tests run no command.", "anchors": ["cmd/thema/lineage_subgen.go: setup (56-97)"]}
{"id": "C85", "title": "Failed generation is reported", "statement": "If the document cannot be generated or rendered in the format asked for, gen openapi and gen jsonschema write nothing to standard output and exit with a non-zero status.", "quantifier": "all documents, errors and flags", "why_tests_cant": "All errors and all format names.", "anchors": ["cmd/thema/lineage_subgen.go: run (102-125), runOpenAPI (167-192), runJSONSchema (205-230)"]}
{"id": "C86", "title": "Generated Go code goes where it was asked to go", "statement": "With --stdout, gen gotypes and gen gobindings write the code to standard output and no file; without it they write it to one file beside the lineage, named after it.", "quantifier": "all command lines and generated code", "why_tests_cant": "All combinations of flags.", "anchors": ["cmd/thema/lineage_subgen.go: setup (74-97), runGoTypes (249-278), runGoBindings (350-382)"]}
{"id": "C87", "title": "Generated Go bindings are self-contained", "statement": "Every package-level function or variable that the file of GenerateLineageBinding uses is declared in it, except loadInstanceFor$NAME when LoadDir is empty, as documented; the file of `thema lineage gen gobindings` in a module compiles on its own, and with --stdout it lacks what the help says that it lacks.", "quantifier": "all lineage names, binding configurations and command lines", "why_tests_cant": "Whether a name is missing depends on the combination of ten options.", "anchors": ["encoding/gocode/gen.go: BindingConfig (194-269), GenerateLineageBinding (284-341)", "encoding/gocode/binding.tmpl", "cmd/thema/lineage_subgen.go: runGoBindings (306-346)"]}
{"id": "C88", "title": "Generated bindings declare each name once and export only the factory", "statement": "No two declarations of the generated file share a name; it exports exactly the factory Lineage$SUFFIX, which is the convergent one if a type is given, and nothing with PrivateFactory.", "quantifier": "all lineage names, titles and binding configurations", "why_tests_cant": "Names are made from arbitrary strings; clashes have to be excluded for all of them.", "anchors": ["encoding/gocode/gen.go: GenerateLineageBinding (303-334)", "encoding/gocode/binding.tmpl"]}
{"id": "C89", "title": "Bindings of several lineages can share a package", "statement": "The bindings of two lineages with different names, generated with FactoryNameSuffix, declare no common name.", "quantifier": "all pairs of lineages and configurations", "why_tests_cant": "Quantifies over pairs of arbitrary names.", "anchors": ["encoding/gocode/gen.go: GenerateLineageBinding (311-322)", "encoding/gocode/binding.tmpl"]}
{"id": "C90", "title": "Generated bindings consist of valid Go names", "statement": "For every lineage that can be bound, all names and the package clause of the generated file are valid in Go.", "quantifier": "all lineage names and configurations", "why_tests_cant": "The name of a lineage is any string.", "anchors": ["encoding/gocode/gen.go: GenerateLineageBinding (289-334)", "encoding/gocode/binding.tmpl", "lineage.cue: name (16)"]}
{"id": "C91", "title": "String literals in generated bindings denote the configured values", "statement": "The literals for the CUE path, the module name and the directory in the generated file have the configured values.", "quantifier": "all configurations", "why_tests_cant": "Escaping has to be right for all strings.", "anchors": ["encoding/gocode/gen.go: GenerateLineageBinding (293-300)", "encoding/gocode/binding.tmpl"]}
{"id": "C92", "title": "The default package of generated code is the lowercase name of the lineage", "statement": "Without a configured package name, generated bindings and types are in the package with the lowercase name of the lineage; one configuration can be used for several lineages.", "quantifier": "all lists of lineage names", "why_tests_cant": "Depends on what earlier calls did to the configuration.", "anchors": ["encoding/gocode/gen.go: TypeConfigOpenAPI (36-65), GenerateTypesOpenAPI (85-99), GenerateLineageBinding (289-292)"]}
{"id": "C93", "title": "A generated convergent factory binds the type to the configured schema version", "statement": "The generated factory returns the lineage with the type bound to the schema of the configured version, or an error.", "quantifier": "all lineages and versions", "why_tests_cant": "Depends on the lineage at run time, not on the generator.", "anchors": ["encoding/gocode/binding.tmpl (30-47)", "encoding/gocode/gen.go: TargetSchemaVersion (252-256)"]}
{"id": "C94", "title": "AsModFS makes a module out of a file system and changes nothing else", "statement": "AsModFS adds a cue.mod/module.cue that names the given module and leaves all other files as they are; if a cue.mod exists it changes nothing.", "quantifier": "all file systems and module names", "why_tests_cant": "A frame condition over all paths, and escaping for all names.", "anchors": ["load/load.go: AsModFS (33-48)"]}
{"id": "C95", "title": "InstanceWithThema loads the caller's files and Thema's, and no others", "statement": "InstanceWithThema fails exactly if the file system has no module file with a non-empty name, already has Thema below cue.mod/pkg, or has an unreadable file; otherwise the loader sees each of the caller's files below the root of the module and Thema's files below cue.mod/pkg/github.com/grafana/thema, and nothing else.", "quantifier": "all file systems", "why_tests_cant": "Overlays collide only for particular paths.", "anchors": ["load/load.go: InstanceWithThema (82-147)", "internal/util/util.go: ToOverlay (13-47)"]}
{"id": "C96", "title": "InstanceWithThema selects the directory and package that it documents", "statement": "The empty string and . load the root of the module with the package of the last element of its name; another directory loads the package of its last element; a Package option overrides this.", "quantifier": "all module names and directories", "why_tests_cant": "Path handling has to be right for all names.", "anchors": ["load/load.go: InstanceWithThema (124-164), Package (191-195)"]}
{"id": "C97", "title": "The command line uses the user's files as they are on disk", "statement": "For a lineage in a module, the command line changes no file that CUE reads, it only adds Thema's files.", "quantifier": "all modules and paths", "why_tests_cant": "A frame condition over all paths.", "anchors": ["cmd/thema/load.go: dynLoad (128-169)"]}
{"id": "C98", "title": "OpenAPI generation for a subpath uses the value at that path", "statement": "With Subpath, GenerateSchema generates the value at the path, and fails exactly if the path is not in the schema.", "quantifier": "all schemas and paths", "why_tests_cant": "Needs all nestings of schemas and paths.", "anchors": ["encoding/openapi/oapi.go: genSchema (171-216), pathAllowed (248-256)"]}
{"id": "C99", "title": "OpenAPI documents are named after the lineage and have its version", "statement": "info.version is the schema version; info.title and the component for the root are named RootName or else the last element of Subpath or else the title case name of the lineage; for groups the title is the name of the lineage.", "quantifier": "all schemas and configurations", "why_tests_cant": "Combinations of options and arbitrary names.", "anchors": ["encoding/openapi/oapi.go: Config (30-34), GenerateSchema (53-101), genSchema (171-180)"]}
{"id": "C100", "title": "Definitions in a schema become components with the names asked for", "statement": "Each definition gets the component name that NameFunc gives for its path in the schema (by default the path without markers), and different definitions get different names.", "quantifier": "all schemas and NameFuncs", "why_tests_cant": "Depends on the paths of all definitions.", "anchors": ["encoding/openapi/oapi.go: nfSingle (217-240)"]}
{"id": "C101", "title": "Each field of a grouped lineage becomes one component", "statement": "With Group, each top-level field, definition or optional field has its own component, called like it.", "quantifier": "all schemas", "why_tests_cant": "Name clashes depend on the pair of fields.", "anchors": ["encoding/openapi/oapi.go: genGroup (125-156)"]}
{"id": "C102", "title": "SplitSchema merges the schema and the join schema", "statement": "With SplitSchema the components of the schema and of the join schema are generated separately and merged into one document.", "quantifier": "all schemas", "why_tests_cant": "Concerns all documents.", "anchors": ["encoding/openapi/oapi.go: Config.SplitSchema (42-45), GenerateSchema (74-79), genSingle (158-169)"]}
{"id": "C103", "title": "OpenAPI generation leaves the configuration of the caller alone", "statement": "GenerateSchema does not change the Config that it is given, so that one Config can be used for several schemas.", "quantifier": "all sequences of calls", "why_tests_cant": "Visible only in sequences of calls.", "anchors": ["encoding/openapi/oapi.go: GenerateSchema (53-72), genSchema (199-206)"]}
{"id": "C104", "title": "Redundant pointers are removed from generated Go types, and nothing else", "statement": "In the Go types that GenerateTypesOpenAPI generates, no field is a pointer to a slice or map. By default all other pointers stay; with NoOptionalPointers optional fields have no pointers. Names, order and types are otherwise the same, and valid types stay valid.", "quantifier": "all Go types", "why_tests_cant": "Types are nested arbitrarily, and validity depends on recursion between types.", "anchors": ["encoding/gocode/decorators.go: depointerizer (15-39)", "encoding/gocode/gen.go: TypeConfigOpenAPI.NoOptionalPointers (52-56), GenerateTypesOpenAPI (71-76)"]}
{"id": "C105", "title": "Type names in generated Go lose their underscores consistently", "statement": "Every generated type gets a name without underscores, every use of a type is renamed with it, and different types keep different names, so that a file that compiled before compiles afterwards.", "quantifier": "all generated files", "why_tests_cant": "Uses may occur anywhere in nested types; clashes depend on pairs of types.", "anchors": ["encoding/gocode/decorators.go: fixUnderscoreInTypeName (180-226), iterateStruct, iterateMap, iterateArray (236-271)"]}
{"id": "C106", "title": "Unions in generated Go become any, and nothing else changes", "statement": "The types that oapi-codegen generates for unions are removed with their methods, all uses of them become any, and all other declarations stay.", "quantifier": "all generated files", "why_tests_cant": "Depends on the order and nesting of all declarations.", "anchors": ["encoding/gocode/decorators.go: fixRawData (104-177), withoutRawData (228-234)"]}
{"id": "C107", "title": "Names in generated Go are exported identifiers", "statement": "Whatever the names of definitions and properties, the names of the generated types and struct fields are exported Go identifiers, so that the code compiles and encoding/json sees the fields.", "quantifier": "all names, for any classification of characters that obeys the laws of Unicode", "why_tests_cant": "There are infinitely many names; the failing ones begin with unusual characters.", "anchors": ["internal/deepmap/oapi-codegen/pkg/codegen/utils.go: ToCamelCase (140-164), typeNamePrefix (607-651), SchemaNameToTypeName (655-657)"]}
{"id": "C108", "title": "Distinct properties have distinct Go fields", "statement": "The struct generated for an object has exactly one field for every property, under a name that no other field of the struct has.", "quantifier": "all objects with any properties, additional properties and alternatives", "why_tests_cant": "Depends on every pair of names.", "anchors": ["internal/deepmap/oapi-codegen/pkg/codegen/schema.go: GenerateGoSchema (223-501), GenFieldsFromProperties (628-714), GenStructFromSchema (724-740)"]}
{"id": "C109", "title": "Every allowed value of an enumeration has one constant with that value", "statement": "For every type with a list of allowed values the generated file has exactly one constant for each of them, the constant has this value, and two runs of the generator give the same constants.", "quantifier": "all lists of values and all orders of iteration over Go maps", "why_tests_cant": "The order of iteration over maps is random and collisions are between combinations of values.", "anchors": ["internal/deepmap/oapi-codegen/pkg/codegen/utils.go: SanitizeGoIdentity (548-570), SanitizeEnumNames (574-605)", "internal/deepmap/oapi-codegen/pkg/codegen/schema.go: GetValues (127-139), GenerateGoSchema (432-493)", "internal/deepmap/oapi-codegen/pkg/codegen/templates/constants.tmpl"]}
{"id": "C110", "title": "Generated Go declares one type for every definition and every type it uses", "statement": "The generated file declares exactly one type for every definition of the lineage, every type that a declaration mentions is declared in the file (or predeclared), and no type is declared twice; so the file compiles as far as types are concerned.", "quantifier": "all OpenAPI documents, with and without NoOptionalPointers", "why_tests_cant": "Depends on the nesting of enumerations, maps, arrays and alternatives in all combinations.", "anchors": ["encoding/gocode/gen.go: GenerateTypesOpenAPI (66-131)", "internal/deepmap/oapi-codegen/pkg/codegen/schema.go: GenerateGoSchema (223-501), generateUnion (778-828)", "internal/deepmap/oapi-codegen/pkg/codegen/codegen.go: GenerateTypesForSchemas (442-474), GenerateTypes (602-630)", "encoding/gocode/decorators.go: fixRawData (104-177), fixUnderscoreInTypeName (180-226)"]}
{"id": "C111", "title": "Data survives generated Go types", "statement": "Data that is valid for the schema can be read with encoding/json into the Go type that is generated for it, and what is written again is the same data.", "quantifier": "all OpenAPI documents and all valid data", "why_tests_cant": "Needs every schema together with every datum; losses depend on combinations of optional, nullable, empty and zero values.", "anchors": ["encoding/gocode/gen.go: GenerateTypesOpenAPI (66-131), TypeConfigOpenAPI.NoOptionalPointers (52-56)", "internal/deepmap/oapi-codegen/pkg/codegen/schema.go: GenerateGoSchema (223-501), oapiSchemaToGoType (505-626), GenFieldsFromProperties (628-714)", "encoding/gocode/decorators.go: depointerizer (15-39), fixRawData (104-177)"]}
{"id": "C112", "title": "NewLineage writes a lineage with the given name, package and first schema", "statement": "The file made by NewLineage declares a lineage whose field name is the given name, whose only schema is the given one with version 0.0, and which is in the given package (none if it is empty); nothing else gets into the file.", "quantifier": "all names, package names and schemas", "why_tests_cant": "The name is an arbitrary string that is inserted into source text.", "anchors": ["encoding/cue/encode.go: NewLineage (22-50), emptyLineage (102-118)"]}
{"id": "C113", "title": "lineage init names the lineage and its package as its flags say", "statement": "All subcommands of lineage init fail without --name and with both --package-name and --no-package; what they print is in the package --package-name, which is by default the name of the lineage, and in none with --no-package.", "quantifier": "all subcommands, flags, arguments and inputs", "why_tests_cant": "The rule is for every combination of subcommand and flags.", "anchors": ["cmd/thema/lineage_init.go: setup (34-56), run (102-119), processPackageArgs (121-140), runEmpty, runJSONSchema, runOpenAPI"]}
{"id": "C114", "title": "lineage init reports bad input instead of panicking", "statement": "Whatever is given as input, lineage init prints a lineage or an error.", "quantifier": "all files, contents of standard input and flags", "why_tests_cant": "The failing inputs are malformed or of another format.", "anchors": ["cmd/thema/lineage_init.go: processInput (143-151), inputToFile (254-292), runOpenAPI (294-362)", "cmd/thema/data.go: pathOrStdin (305-347)"]}
{"id": "C115", "title": "lineage fix puts the new fields in place of the legacy field and changes nothing else", "statement": "thema lineage fix replaces the field seqs of a legacy lineage by schemas and lenses: every schema as it was, under its version, every lens that is needed, with its body, and nothing else in the file changes.", "quantifier": "all legacy lineages, all files around them", "why_tests_cant": "Files are arbitrary syntax, in which other fields may have the same name.", "anchors": ["encoding/cue/rewrite.go: RewriteLegacyLineage (24-95), rewrite (102-130), legacySchema.toAST (137-152), legacyLens.toAST (181-220)", "cmd/thema/lineage_fix.go"]}
{"id": "C116", "title": "lineage fix ends with a rewritten file or an error", "statement": "For every file with a legacy lineage, thema lineage fix ends and either rewrites it or reports an error.", "quantifier": "all legacy lineages", "why_tests_cant": "Termination and absence of panics are claims about all inputs.", "anchors": ["encoding/cue/rewrite.go: RewriteLegacyLineage (81-93), legacyLens.toAST (181-220)", "cmd/thema/lineage_fix.go: do (47-59)"]}
{"id": "C117", "title": "Generated Go comments have the documentation of the schema", "statement": "The comment of a generated Go type or field has the text of the documentation in the schema, whether or not it begins with the Go name.", "quantifier": "all names and documentation", "why_tests_cant": "All texts.", "anchors": ["encoding/gocode/decorators.go: fixTODOComments (48-66), fixTODOComment (68-73), removeGoFieldComment (75-90)"]}
{"id": "C118", "title": "TypeScript types are generated as the configuration says", "statement": "typescript.GenerateTypes generates the types of the elements of the schema and, unless Group is set, that of the root, called RootName or else the title case name of the lineage; one configuration can be used for several lineages.", "quantifier": "all lists of lineages and configurations", "why_tests_cant": "Depends on what earlier calls did to the configuration.", "anchors": ["encoding/typescript/gen.go: TypeConfig (28-57), GenerateTypes (59-101)"]}
{"id": "C119", "title": "Generated Go types of schemas composed with allOf have the properties of all parts", "statement": "The Go type that is generated for a schema with allOf reads and writes the properties of the schema and those of every schema that it refers to, at any depth; its fields come in the order of the names, one for each.", "quantifier": "all OpenAPI documents with references in allOf, and all valid data", "why_tests_cant": "Depends on which parts share a property, at which depth and under which names, in all combinations.", "anchors": ["internal/deepmap/oapi-codegen/pkg/codegen/schema.go: GenerateGoSchema (255-284), oapiSchemaToGoType (603-606), GenFieldsFromProperties (628-714)"]}
{"id": "C120", "title": "Inline members of allOf keep all properties in generated Go types", "statement": "The Go type that is generated for a schema with members of allOf that are not references has a field for each property of the schema and of its members, required exactly if one of them requires it, and data that is valid for all of them is the same after being read into the type and written again; generation does not fail for such schemas.", "quantifier": "all OpenAPI documents with inline members of allOf at any depth, and all valid data", "why_tests_cant": "Depends on how members at different depths define and require properties, in all combinations, with all data.", "anchors": ["internal/deepmap/oapi-codegen/pkg/codegen/merge_schemas.go: mergeSchemas (22-41), mergeAllOf (67-78), mergeOpenapiSchemas (82-223)", "internal/deepmap/oapi-codegen/pkg/codegen/schema.go: GenerateGoSchema (255-284)"]}
{"id": "C121", "title": "BindType accepts exactly the types a schema is assignable to", "statement": "BindType returns a typed schema if and only if T is a struct type or a pointer to one (not nil) and AssignableTo accepts the schema and the argument.", "quantifier": "all schemas, Go types and arguments", "why_tests_cant": "The result depends on a second, undocumented decoding of the schema into the argument, whose outcome depends on the shape of the Go type and on every default in the schema; tests bind two types.", "anchors": ["schema.go:166-226 BindType", "assignable.go:29-57 AssignableTo"]}
{"id": "C122", "title": "BindType does not change its argument", "statement": "BindType uses its argument for its type only: after the call the value the argument points to is as before.", "quantifier": "all schemas, Go types and arguments", "why_tests_cant": "A side effect on memory of the caller, in whichever fields the schema has a default; tests look at the values that NewT returns, not at the argument.", "anchors": ["schema.go:172-197 BindType"]}
{"id": "C123", "title": "NewT has the defaults of the schema and zero values elsewhere", "statement": "The value NewT returns has the default of the schema in each field that is required and has one, at any depth, and Go's zero value in all others, whatever the argument of BindType held.", "quantifier": "all schemas and Go types bound to each other", "why_tests_cant": "Errors of the decoder are ignored, so that nothing signals a field that was not set; tests look at two fields of one type.", "anchors": ["schema.go:199-217 newfn", "schema.go:245-247 NewT", "surface.go:287-293 NewT"]}
{"id": "C124", "title": "Value has the data of the instance and the defaults of the schema", "statement": "Value returns no error on a valid instance, and the Go value has the data of the instance with the defaults of the schema for what the data leaves out, at any depth.", "quantifier": "all schemas and Go types bound to each other, and all valid instances", "why_tests_cant": "Defaults and data are decoded one over the other, and which defaults are seen depends on optional fields and lists on the way; tests decode flat instances.", "anchors": ["instance.go:158-181 Value, ValueP", "schema.go:211-217 newfn", "vmux/value.go:21-31 NewValueMux"]}
{"id": "C125", "title": "Examples returns every example under the name given to it", "statement": "Schema.Examples returns exactly the examples that the lineage author wrote for the schema, as instances of the schema with the data of the example, under the names given to them.", "quantifier": "all schemas and all sets of examples", "why_tests_cant": "Names are arbitrary strings; tests use identifiers.", "anchors": ["schema.go: Examples (38-59)", "lineage.cue: #SchemaDef.examples (238-240)"]}
{"id": "C126", "title": "#SearchAndValidate and #ValidFor find the first schema that the data satisfy", "statement": "#SearchAndValidate returns the data with the version of the first schema of the lineage with which they do not conflict, and bottom if there is none; #ValidFor returns the same version, and both agree with ValidateAny.", "quantifier": "all lineages and all data", "why_tests_cant": "All lineages and data; the CUE functions have no tests.", "anchors": ["traverse.cue: #SearchAndValidate (3-23), #ValidFor (25-31)", "lineage.go: ValidateAny"]}
{"id": "C127", "title": "The report on superfluous Go migrations names each of them with a true reason", "statement": "If BindLineage refuses Go migrations as superfluous, its error lists exactly those that are not required, and the reason it gives for each is true.", "quantifier": "all lineages and all sets of migrations", "why_tests_cant": "All combinations of versions and migrations.", "anchors": ["bind.go: checkGoLensCompleteness (217-308)"]}
{"id": "C128", "title": "Generation of Go fails if goimports has to add imports, and only then", "statement": "Unless IgnoreDiscoveredImports is set, PostprocessGoFile fails exactly if goimports adds an import to the file that the appliers made; imports that appliers add are not discovered ones.", "quantifier": "all files, all appliers, all behaviours of the parser, printer and goimports", "why_tests_cant": "Appliers are arbitrary functions of the caller.", "anchors": ["encoding/gocode/postprocessing.go: PostprocessGoFile (31-74), GenGoFile (18-29)", "encoding/gocode/gen.go: TypeConfigOpenAPI.ApplyFuncs, IgnoreDiscoveredImports (41-50)"]}
{"id": "C129", "title": "Instances of the exemplar lineages can be translated between all versions", "statement": "All lineages in exemplars/ can be bound, by exemplars.All and by the function for each of them. For every value that is valid for one version of an exemplar, Translate to every version of the exemplar succeeds and gives an instance of that version. (False for defaultchange: the lenses refer to input.anion instead of input.aunion, so that every instance whose aunion is not the default of its version, or that leaves the field to the default, cannot be translated to the other version. False for disjunct: the lens down makes nothing, so no instance of 0.1 can be translated to 0.0. False for expand: an instance of 0.3 with withDefault: baz cannot be translated down. If a reference of #Translate to the missing field lacuna is an error, then also false for narrowing with strings other than true and false, and for all instances of defaultchange 0.0.)", "quantifier": "for all valid data of each exemplar, all pairs of versions", "why_tests_cant": "The exemplars are tested with one example per schema at most; a test cannot cover all strings and integers nor all combinations of optional fields.", "anchors": ["exemplars/defaultchange.cue:8-75", "exemplars/disjunct.cue:1-62", "exemplars/narrowing.cue:1-55", "exemplars/rename.cue:1-42", "exemplars/expand.cue:1-74", "exemplars/single.cue:1-19", "exemplars/exemplars.go:39-131", "translate.cue:32-129", "instance.go:199-253"]}
{"id": "C130", "title": "Translating instances of the exemplar lineages has the effect that their descriptions name", "statement": "Translating an instance of rename moves the value of the renamed field and keeps the other one, and translating back restores the data. Translating narrowing up keeps booleans, turns the string true to true and every other string to false, and down keeps booleans. Translating expand up keeps the data; down it keeps exactly the fields that the target version has. Translating disjunct up keeps the data. Translating defaultchange turns the default of one version to the default of the other one and reports a lacuna. (For defaultchange, expand and disjunct only where C129 holds; the lens of defaultchange back to 0.0 reports no lacuna when it changes the default, since its condition tests for foo where the default is bar.)", "quantifier": "for all valid data of each exemplar, all pairs of versions", "why_tests_cant": "Tests compare single translated examples; that no other field is changed, dropped or added for any data needs a statement about all data.", "anchors": ["exemplars/defaultchange.cue:8-75", "exemplars/disjunct.cue:1-62", "exemplars/narrowing.cue:1-55", "exemplars/rename.cue:1-42", "exemplars/expand.cue:1-74", "translate.cue:32-129"]}
{"id": "C131", "title": "Names and descriptions of a schema are data in generated Go types, not code", "statement": "Whatever the documentation of a schema says, the Go types generated for it have the same code, and the comments have the lines of the documentation (a line may end with CR LF, CR or LF; one empty line at the end is dropped), the first one after the name. Whatever the names of fields are, generated types have the fields of the schema and nothing else. (False for names: what follows a backquote in the name of a field is read as Go code, since the name is written into the tag as it is; and what follows a line break in the name of a field that is a list of unions, or in another name that is put into a comment as it is, is read as Go code.)", "quantifier": "for all descriptions, nested struct types and names of fields", "why_tests_cant": "Tests use short documentation in one line and names of letters; that no text can end a comment or a raw string needs a statement about all texts.", "anchors": ["internal/deepmap/oapi-codegen/pkg/codegen/utils.go:678-731", "internal/deepmap/oapi-codegen/pkg/codegen/schema.go:628-741", "internal/deepmap/oapi-codegen/pkg/codegen/schema.go:515-535", "internal/deepmap/oapi-codegen/pkg/codegen/templates/typedef.tmpl:1-4"]}
{"id": "C132", "title": "Go types can be generated by several goroutines at once", "statement": "Calls of GenerateTypesOpenAPI on different goroutines, for different schemas, all end, and each gives what it would give alone. (False: the generator assigns to a map of the package, so that Go may end the program with \"concurrent map writes\" or \"concurrent map iteration and map write\" whatever the schemas are. A call that does end is not disturbed, though options and specification are kept in variables that all calls write.)", "quantifier": "for all schemas, numbers of calls and interleavings of their accesses to variables of the package", "why_tests_cant": "Interleavings cannot be chosen in a test; whether a call reads the options or specification of another one depends on all of them, and the race detector sees only those that happen.", "anchors": ["internal/deepmap/oapi-codegen/pkg/codegen/codegen.go:37-43", "internal/deepmap/oapi-codegen/pkg/codegen/codegen.go:69-69", "internal/deepmap/oapi-codegen/pkg/codegen/codegen.go:99-125", "internal/deepmap/oapi-codegen/pkg/codegen/utils.go:323-349", "encoding/gocode/gen.go:101-121"]}
{"id": "C133", "title": "The message of a validation failure states each problem: where, what the schema expects, what the data contain", "statement": "The text of the error of Schema.Validate has one part for each reported problem, with the place of the field, the type that the schema expects, the value in the data and the positions of both. A type shown under its short name is the type of the schema, and a place or value shown is that of the data. (False in three ways: a string literal of the schema that has a type between bars in it is shown as another string; names with dots make places ambiguous; for a field that the schema does not have, the name of the field is shown as its value.)", "quantifier": "for all errors of CUE, lineage names, versions, paths, values and positions, and all numbers for the meaning of types", "why_tests_cant": "Tests compare the messages for a few fields; that 18 texts of constraints have the meaning of 10 types is a statement about all numbers, and the splitting of a text at bars is wrong only for texts that no test has.", "anchors": ["validate.go:22-49", "validate.go:63-75", "validate.go:99-107", "validate.go:217-251", "validate.go:286-293"]}
{"id": "C134", "title": "A legacy lineage, once rewritten, can be bound and translates as its lenses did", "statement": "The schemas and lenses that RewriteLegacyLineage writes for a legacy lineage are accepted by BindLineage, as versions 0.0, 1.0, ... with the lenses needed; and Translate then gives what the legacy lenses give from sequence to sequence. (False in three ways: a sequence with several schemas, or without a lens, gives a lineage that never binds; a lens that selects deeper, as in from.a.b, no longer depends on the data; a lens that uses the name input for something else gets the data.)", "quantifier": "for all legacy lineages, lens bodies and meanings of expressions, and all data", "why_tests_cant": "Tests compare the written text for a few lineages. That the text, once bound, translates all data as before involves all expressions and all data, and two programs that are never run together.", "anchors": ["encoding/cue/rewrite.go:97-130", "encoding/cue/rewrite.go:161-220", "encoding/cue/rewrite.go:263-317", "bind.go:175-186", "internal/legacy/lineage.cue:49-63", "lineage.cue:246-276"]}
{"id": "C135", "title": "Bind options mean the same in every order", "statement": "The result of BindLineage depends on its options only through the Go lenses they list and on whether SkipBuggyChecks is among them: splitting the lenses over several ImperativeLenses options, the place of SkipBuggyChecks and its repetition make no difference, and THEMA_FORCEVERIFY cancels SkipBuggyChecks. Listing the Go lenses in another order gives the same error or a lineage that finds versions, validates and translates in the same way. SkipBuggyChecks never changes a lineage that binds without it; a lineage that binds with it binds without it exactly if its schemas follow the compatibility rule, and otherwise the error is ErrInvalidLineage.", "quantifier": "All raw lineages, all lists of options, all orders of Go lenses, all later calls on the lineages.", "why_tests_cant": "There are infinitely many lists of options and lineages; tests use one order.", "anchors": ["surface.go:157-220", "lineage.go:53-62", "bind.go:90-115", "bind.go:217-308", "instance.go:207-305"]}
{"id": "C136", "title": "Adding versions does not change what earlier versions do", "statement": "When schemas are appended to a lineage, with lenses appended that each touch a new version, and both lineages bind: every old version is found at the same place with the same schema and neighbours (except for the successor of the last one); Validate with an old schema gives the same result; ValidateAny attributes data that an old version accepts to the same version; Translate between old versions gives the same instance, error or panic with CUE lenses (for versions without gaps, and the same instance on success in any case) and with Go lenses (if the old functions are still given and keep to old versions); IsAppendOnly accepts the new lineage. Conversely, leaving out the newest versions and their lenses leaves a lineage that binds.", "quantifier": "All lineages, all extensions, all instances of old schemas, all old target versions, all data.", "why_tests_cant": "Lineages grow in the future of any test; the index computations of the translation use the whole list of versions.", "anchors": ["lineage.go:192-272", "lineage.go:294-318", "schema.go:74-134", "instance.go:207-305", "translate.cue:32-129", "lineage.cue:79-197", "bind.go:60-310"]}
{"id": "C137", "title": "Round trips through Go lenses need only be checked between neighbouring versions", "statement": "In a lineage bound with Go lenses whose functions use only the data and the schema of the instance they get: if every translation between neighbouring versions on the way can be undone (translating the result back succeeds with the data one started from), then so can every translation between any two versions, upwards and downwards; and two instances of one version whose translations carry the same data have the same data themselves.", "quantifier": "All lineages bound with Go lenses, all pairs of versions, all instances of a class of instances that translation does not leave.", "why_tests_cant": "Authors test the lenses they write, each between two neighbours; users translate between any two versions, and the number of pairs and of data is unbounded.", "anchors": ["instance.go:207-249", "instance.go:88-135", "lineage.go:192-272", "schema.go:74-134"]}
{"id": "C138", "title": "With CUE lenses, translating through a version in between makes no difference", "statement": "In a lineage with CUE lenses, translating an instance to a version in between and the result on to the target gives the same as translating it to the target at once: the same data if either succeeds, failure if either fails.", "quantifier": "All lineages with contiguous versions and exactly the required CUE lenses, all instances, all targets and all versions in between.", "why_tests_cant": "Whether it holds depends on how lenses, schemas, defaults and the checks at the end of a translation interact; each test looks at one lineage.", "anchors": ["instance.go:251-305", "translate.cue:32-129", "schema.go:74-134"]}
{"id": "C139", "title": "What a byte multiplexer returned passes through it again unchanged", "statement": "If a ByteMux for a schema, with a codec whose encoder and decoder belong together, returns bytes, then these bytes decode to data that the schema accepts, and the same ByteMux given these bytes returns them again, byte by byte, without lacunas.", "quantifier": "All lineages with CUE lenses; all lineages with Go lenses that return genuine instances of their lineage; all schemas, codecs and inputs in any version.", "why_tests_cant": "The first pass may go through any sequence of lenses; that its output is a fixed point is a statement about all of them.", "anchors": ["vmux/byte.go:20-31", "vmux/untyped.go:23-57", "vmux/mux.go:28-101", "instance.go:207-305", "schema.go:74-134"]}
{"id": "C140", "title": "AsSuccessor and AsPredecessor do what Translate does", "statement": "AsSuccessor is Translate to the next version and AsPredecessor is Translate to the previous one: same data, same schema, same failures; calling one of them k times is Translate to the version k steps away.", "quantifier": "All lineages whose versions are distinct and start at 0.0, all instances not at the end, all numbers of steps.", "why_tests_cant": "AsSuccessor takes a short cut within major versions; whether it shows depends on the schemas and the data.", "anchors": ["instance.go:99-120", "instance.go:207-305", "translate.cue:93-100"]}
{"id": "C141", "title": "Adding versions does not change what a multiplexer for an earlier version returns", "statement": "After versions have been added at the end of a lineage, a multiplexer for one of the old versions returns for every input what it returned before: the same instance or the same error.", "quantifier": "All lineages and extensions of them that bind, with CUE lenses or with Go lenses, all old versions, all decoders and all inputs.", "why_tests_cant": "The added schemas are unknown when the program is written and tested; whether they accept data of the old ones, and what then happens, depends on every schema and every lens.", "anchors": ["vmux/untyped.go:23-57", "vmux/mux.go:28-101", "lineage.go:192-272", "instance.go:207-305"]}
{"id": "C142", "title": "A change that IsAppendOnly accepts leaves translations between existing versions as they are", "statement": "If IsAppendOnly accepts a lineage as a later state of another one, translating an instance of an old version to an old version has the same result in both.", "quantifier": "All pairs of bound lineages that IsAppendOnly accepts, all instances, all pairs of old versions.", "why_tests_cant": "A test compares two given lineages on given data; the claim is about every pair that passes the check, including those that differ where the check does not look.", "anchors": ["lineage.go:294-320", "instance.go:207-305", "lineage.go:192-272"]}
{"id": "C143", "title": "Any input valid against any schema can be translated to the schema a program expects", "statement": "In a lineage that binds, every valid instance of any version can be translated to every other version, with a valid instance of that version as the result; so that a multiplexer for any version accepts all input that is valid against some schema of the lineage. With Go lenses this holds exactly if each supplied function turns every valid instance of its version into a valid instance of its target; with CUE lenses it requires that every lens accepts all concrete data of its source and yields, with defaults filled in, data of its target.", "quantifier": "All lineages that bind, all pairs of versions, all instances; all multiplexers and inputs.", "why_tests_cant": "Lenses are written and tested one at a time; the guarantee is about every sequence of them and every input.", "anchors": ["docs/overview.md:75", "instance.go:207-305", "translate.cue:32-129", "vmux/untyped.go:23-57", "bind.go:25-130"]}
{"id": "C144", "title": "Everything valid in a lineage satisfies its joinSchema", "statement": "If a lineage declares a joinSchema, every piece of concrete data that any of its schemas validates satisfies the joinSchema as well as the schema as written for that version, and so does every instance obtained by translation; declaring a joinSchema has the same effect as writing it out in every schema; and as long as it does not change, an update that IsAppendOnly accepts keeps the complete schema of every version. The documentation also says that the schemas must be instances of the joinSchema, which nothing checks (refuted).", "quantifier": "all declared lineages, join schemas, versions, data and bind options", "why_tests_cant": "The joinSchema is never looked at in Go code: it acts through hidden fields in lineage.cue, on every version and on everything translation yields. Tests use lineages with one or two schemas and no or one joinSchema; that no version, instance or update escapes it is a statement over all of them.", "anchors": ["lineage.cue:20-31", "lineage.cue:42-47", "lineage.cue:207-241", "bind.go:65-115", "validate.go:11-61"]}
{"id": "C145", "title": "A version that is left out means 0.0", "statement": "A schema declared without a version has version 0.0: if the lineage binds, it and all schemas before it have version 0.0; if versions are distinct, only the first schema can lack one; with the compatibility checks in force a later one must break compatibility with its predecessor; and no request by version returns it. The documentation says authors must declare versions explicitly; a lineage with two schemas that lack one binds (refuted).", "quantifier": "all declared lineages, positions and bind options", "why_tests_cant": "Whether leaving out a version is noticed depends on its position, on what precedes it, and on compatibility; a test of the first schema passes although later ones become unreachable.", "anchors": ["lineage.cue:192-225", "bind.go:65-127", "lineage.go:214-231"]}
{"id": "C146", "title": "Errors about schemas point at the first misfit, and their advice works", "statement": "BindLineage's error about the versions or the compatibility of schemas is about the first schema that does not fit: all schemas before it pass, it does not, and the versions printed and the relation asserted between it and its predecessor are right. Where the error advises to introduce a breaking change or to redeclare the schema as a given version, doing either makes the schemas up to this one pass. Doing so need not yield a lineage without version gaps (refuted).", "quantifier": "all lists of schemas, versions and compatibility relations, with and without SkipBuggyChecks", "why_tests_cant": "Which error comes first depends on the whole list of schemas and on the outcome of the compatibility checks; that the advice helps in every case concerns a lineage that does not exist yet.", "anchors": ["bind.go:65-127", "internal/compat/compat.go:9-20"]}
{"id": "C147", "title": "Hydrating and dehydrating keep the meaning of data", "statement": "Run against a schema, `Hydrate` yields data that say everything the given data say, say for each field that the schema requires what the schema says, and say nothing beyond data and schema together; in a list, each element is completed by its own description (of several alternatives, the first that it satisfies). `Dehydrate` removes only what equals a default of the schema and keeps every other field; hydrating its result restores each removed field.", "quantifier": "for all schemas and data, nested structs and lists, and every evaluator in which unification is the meet", "why_tests_cant": "Tests compare a handful of hydrated documents with golden files; that nothing is invented and nothing but defaults is lost holds over all schemas and documents, and is a statement about meanings rather than about spellings.", "anchors": ["hydrate.go:12-71", "hydrate.go:73-121", "hydrate.go:123-246", "hydrate.go:248-261", "instance.go:54-95"]}
{"id": "C148", "title": "The text of AssignableTo's error lists every discrepancy once, and always the same way", "statement": "The text of the error that `AssignableTo` (or `BindType`) returns has one line for each place at which the Go type and the schema disagree, in every execution; the line for a place describes the disagreement at that place; and calling `Error()` again gives the same text.", "quantifier": "for all sets of recorded discrepancies and all orders in which Go walks over the map that holds them", "why_tests_cant": "The errors are kept in a Go map, which is walked over in a different order at each call: a test sees one of the orders, and tests with one discrepancy see no difference at all.", "anchors": ["assignable.go:343-361", "assignable.go:89-142", "assignable.go:145-317"]}
{"id": "C149", "title": "An instance that a program has never changes", "statement": "An *Instance that a program has \u2014 returned by Validate, ValidateAny, Examples, Translate, AsSuccessor, AsPredecessor, Hydrate or Dehydrate, or handed to one of its Go lenses \u2014 keeps its data, name and schema, whatever calls are made afterwards and however they end. Translate returns an object of its own.", "quantifier": "for all lineages, Go lenses that do not assign to instances themselves, instances, target versions and sequences of API calls", "why_tests_cant": "A test reads an instance where it gets it; that the object is overwritten later shows only in programs that keep the pointer, for instance in a cache, a log or another goroutine.", "anchors": ["instance.go:59-120", "instance.go:207-305", "schema.go:40-59", "schema.go:74-100", "lineage.go:242-250"]}
{"id": "C150", "title": "A new lineage has all that its schema needs", "statement": "The file that NewLineage makes, and that lineage init prints, has the given schema as version 0.0, and every name used in it has a meaning there: if the schema given is complete, so is the file.", "quantifier": "for all schemas (as files with imports or as expressions), names and packages", "why_tests_cant": "A test converts some schemas; whether the result loads depends on what the schema refers to.", "anchors": ["encoding/cue/encode.go:16-50", "encoding/cue/encode.go:102-118", "internal/astutil/get.go:174-211", "cmd/thema/lineage_init.go:204-250"]}
{"id": "C151", "title": "lineage fix changes the lineage where it is written, and only there", "statement": "lineage fix rewrites the struct literal with the legacy lineage in the file of the package where it is written, whichever operand of a unification it is, and leaves everything else in this file and all other files alone. If there is no such literal it reports an error. It writes no file unless it succeeds.", "quantifier": "for all packages of any number of files, all nestings of unifications, all places of the lineage and of its lenses, all legacy lineages", "why_tests_cant": "A test has one file with one way to write the lineage; the search goes through evaluated values and back to syntax.", "anchors": ["encoding/cue/rewrite.go:24-95", "encoding/cue/rewrite.go:222-240", "encoding/cue/rewrite.go:252-261", "cmd/thema/lineage_fix.go:39-57"]}
{"id": "C152", "title": "What the neighbours of a schema are, in every lineage that binds", "statement": "In every lineage that BindLineage accepts, with or without repeated versions and gaps: Successor is nil exactly at schemas with the latest version, and otherwise the first schema with the next version after the receiver's. Predecessor is nil at 0.0, panics exactly at schemas with the smallest version if that is not 0.0, and is otherwise the first schema with the version before. Successor never panics. So Successor visits the schemas one by one exactly if no version is repeated, and Predecessor does exactly if moreover the lineage starts at 0.0.", "quantifier": "for all lineages that bind, all schemas in them", "why_tests_cant": "Tests walk well-formed lineages; which lineages can be walked, of all that bind, is a question about all version lists.", "anchors": ["schema.go:103-137", "lineage.go:266-272"]}
{"id": "C153", "title": "What ValidateAny does, in every lineage that binds", "statement": "ValidateAny returns an instance of the oldest schema that accepts the data, if no version is repeated up to that schema. Otherwise it returns nil, unless some version is repeated and the first such version is not the latest: then it never returns.", "quantifier": "for all lineages that bind, all data, all evaluators that report paths below the schema", "why_tests_cant": "Termination on all inputs, and the exact set of lineages with which it fails, are not observable by running examples.", "anchors": ["lineage.go:242-250", "schema.go:74-98", "schema.go:103-118"]}
{"id": "C154", "title": "For which lineages multiplexers can be made", "statement": "NewUntypedMux, NewTypedMux, NewByteMux and NewValueMux return a multiplexer exactly if the lineage starts at 0.0 and the first repeated version, if there is one, is the latest. If the lineage does not start at 0.0 they panic; in the remaining case they never return.", "quantifier": "for all lineages that bind, all schemas, decoders, encoders and types", "why_tests_cant": "Construction walks the lineage in a loop without a bound; whether it ends depends on all versions.", "anchors": ["vmux/mux.go:14-30", "vmux/untyped.go:23-30", "vmux/typed.go:23-30", "vmux/byte.go:20-25", "vmux/value.go:21-26"]}
{"id": "C155", "title": "The error of a CUE translation says what went wrong", "statement": "If Translate with CUE lenses fails, its error is exactly one of ErrInvalidLens, ErrLensIncomplete and ErrLensResultIsInvalidData (then also ErrInvalidData). Between versions of majors 0 to 2 of a contiguous lineage with its exact lenses, it is the first exactly if some step from neighbour to neighbour cannot be made, the second exactly if all can and the result cannot be exported, the third exactly if it can be exported and the target schema rejects it. Translate panics exactly if the version is unknown or the data is not a struct.", "quantifier": "for all lineages that bind, all instances, versions and lenses, all evaluators whose errors are CUE errors with paths below the schema", "why_tests_cant": "Each error of Translate can come from several places; that callers can tell causes apart is a claim about all of them.", "anchors": ["instance.go:207-254", "translate.cue:26-131", "errors/errors.go:44-132"]}
{"id": "C156", "title": "Which public calls may race, leak the lock or block for ever", "statement": "Take programs of goroutines that make the public calls of a set S, in any number and order. A goroutine can evaluate CUE values of the runtime while another has the runtime exclusively exactly if S has BindLineage or Translate with CUE lenses, and also BindType, Value, Translate, or Hydrate or Dehydrate. If CUE may panic, the runtime can be left locked with nobody in it exactly if S has NewT, Value or Translate. Goroutines can then be blocked for ever exactly if S has one of these three and BindLineage or Translate.", "quantifier": "for all sets of public calls, all numbers of goroutines, all programs made of the calls, all interleavings and all places of a panic", "why_tests_cant": "Tests observe some interleavings of some calls; which sets of calls are safe together is a claim about all interleavings of all programs.", "anchors": ["runtime.go:61-106", "runtime.go:127-183", "lineage.go:56-57", "schema.go:75-76", "schema.go:173-182", "schema.go:213-218", "instance.go:59-96", "instance.go:163-170", "instance.go:220-252"]}
{"id": "C157", "title": "Which lists of versions can be bound", "statement": "Some lineage with a given list of versions binds, with whatever evaluator, options and schemas, exactly if the list is not empty, versions never go down, and each major version opens at a position not below the sum of the positions at which the earlier major versions open. So a further minor version can always be appended; a further major version exactly if there are at least as many schemas as the positions of the openings add up to; and every list that never goes down with at most three majors can be bound.", "quantifier": "for all lists of versions, all evaluators, lineage values and bind options", "why_tests_cant": "A test binds some lists; which lists can be bound at all, and that an author can be stuck without any way to open the next major version, is a claim about all lineages with the versions.", "anchors": ["lineage.cue:112-146", "bind.go:45-135"]}
{"id": "C158", "title": "Translate to the instance's own version", "statement": "With CUE lenses, Translate to the version that the instance has panics if the data is not a struct. Otherwise, independently of all lenses, it takes the data with its defaults: if that cannot be exported the error is ErrLensIncomplete; if the first schema with the version accepts it, the result is an instance of that schema with this data; if not, the error is ErrLensResultIsInvalidData and ErrInvalidData. With Go lenses, the result is the instance itself, and for a later version of the same major the same data under that version's schema.", "quantifier": "for all lineages that bind, also with repeated versions, all instances, data and lenses, all evaluators whose errors are CUE errors with paths below the schema", "why_tests_cant": "That no lens has any influence and what happens to the data is a claim about all lenses and all data.", "anchors": ["instance.go:207-305", "translate.cue:26-131", "lineage.go:256-272"]}
{"id": "C159", "title": "Translate to a version that the lineage does not have", "statement": "With CUE lenses Translate to an unknown version always panics. With Go lenses it walks, as for known versions, to the first schema if the version is before that of the instance, otherwise to the last one: if a function on this way fails or panics, so does Translate; if all succeed, Translate panics with a nil dereference. It never succeeds and never loops.", "quantifier": "for all lineages that bind (with Go lenses: with distinct versions from 0.0 on), all instances, unknown versions and supplied functions that keep to the lineage", "why_tests_cant": "A test tries some unknown versions; the outcome for all of them and for all functions is a claim about a loop that does not test for the version's existence.", "anchors": ["instance.go:207-319", "schema.go:103-140", "lineage.go:256-272"]}
{"id": "C160", "title": "What TrimPathPrefix removes", "statement": "TrimPathPrefix returns a path of one selector as it is. Of any other path it removes the longest beginning that it has in common with the prefix, up to optionality, whether or not the prefix is a prefix of the path. It leaves exactly those paths unchanged that have one selector, are empty, or do not begin with the first selector of the prefix.", "quantifier": "for all paths and prefixes", "why_tests_cant": "The helper is applied to paths of all schemas; examples do not show what it does for prefixes that match in part.", "anchors": ["internal/cuetil/path.go:10-22", "internal/cuetil/path.go:79-81"]}
{"id": "C161", "title": "AsSuccessor and AsPredecessor, exactly", "statement": "AsSuccessor of an instance of the latest version dereferences nil. Otherwise, with the schema that has the version following the first one with the instance's version: if the major version is the same, it returns the instance's data under that schema, unchecked and with no lacuna; if not, its outcome is that of Translate to that version. AsPredecessor of an instance of the first version dereferences nil; otherwise its outcome is that of Translate to the version before.", "quantifier": "for all lineages that bind, also with repeated versions, all instances of their schemas and all lenses", "why_tests_cant": "A test steps through one lineage; the outcome for all positions of all lineages, also where versions repeat, is a claim about all of them.", "anchors": ["instance.go:99-120", "schema.go:103-140", "lineage.go:256-272"]}
{"id": "C162", "title": "Go lenses in a lineage that does not start at 0.0", "statement": "If a lineage is bound with Go lenses and its first version is not 0.0, then no instance of a later version can be translated to the first version, whatever the supplied functions do. If the second version has another major, every translation of an instance of the first version to a later version dereferences nil.", "quantifier": "for all lineages that bind with Go lenses, distinct versions and a first version other than 0.0, all supplied functions, instances and targets", "why_tests_cant": "All examples start at 0.0; that no choice of functions can make a version reachable is a claim about all of them.", "anchors": ["bind.go:205-306", "instance.go:250-319"]}
{"id": "C163", "title": "Go lenses and repeated versions", "statement": "In a lineage bound with Go lenses, no instance can be translated up past a version that occurs twice, whatever the supplied functions do. If the lineage starts at 0.0 and every supplied function answers with an instance of its target, such a translation never returns, and Translate to a version of the lineage succeeds if and only if no version from the instance's own up to, but not including, the target is repeated; so it always succeeds downwards.", "quantifier": "for all lineages that bind with Go lenses, also with repeated versions, all supplied functions, instances and targets", "why_tests_cant": "A test would have to wait for ever, and shows nothing about other functions; the exact condition for success quantifies over all lineages and functions.", "anchors": ["instance.go:256-305", "schema.go:103-140", "bind.go:217-308"]}
{"id": "C164", "title": "Which lineages bind with Go lenses", "statement": "A lineage whose schemas are acceptable, whatever their versions, binds with Go lenses if and only if no function is nil, no pair of versions is served twice, the pairs served are those between neighbours in the list of versions with 0.0 in place of the first, and no version occurs three times in that list. So a lineage that binds without Go lenses binds with some if and only if it has at least two schemas and no version occurs three times, with 0.0 in place of the first.", "quantifier": "for all lineages, version lists (also with repetitions and gaps) and lists of Go lenses", "why_tests_cant": "A test binds some lineages with some lenses; that no other lists of lenses are accepted, for any version list, is a claim about all of them.", "anchors": ["bind.go:217-308", "bind.go:90-160"]}
{"id": "C165", "title": "The position that is computed for a version, exactly", "statement": "For any list of versions, the position that the CUE code computes for a version is the position at which its major opens (the major number being used as the number of the opening) plus its minor number, less the sum, over all m less than its major, of the positions at which the first m majors open; it is an error if fewer majors open. In a list of contiguous versions it falls short of the true position by exactly that sum, which is zero for the first three majors only. In lists that can be bound it is never negative.", "quantifier": "for all non-empty lists of versions, also with gaps and repetitions, and all versions", "why_tests_cant": "Tests use few majors, where the computation is right; the closed formula for any number of majors needs an induction.", "anchors": ["lineage.cue:115-146", "lineage.cue:193-197"]}
{"id": "C166", "title": "Translation with CUE lenses in all majors, exactly", "statement": "In a lineage with contiguous versions and exactly the required CUE lenses, call landing the position that is computed for a version. Translating up from one of the first three majors walks from neighbour to neighbour as far as the landing of the target and delivers the data found there. Translating up from a later major delivers the data untranslated if both versions have the same landing; otherwise, if the schema after the landing of the instance has the instance's major, the data is unified with that schema and the walk goes on from there to the landing of the target; otherwise it fails. Translating down from a later major delivers the data untranslated if both versions have the same landing, and fails otherwise; so within a major after the third nothing can be translated down.", "quantifier": "for all such lineages with any number of majors, all evaluators, instances and targets", "why_tests_cant": "Which of the many walks is performed depends on sums over all majors; a test of a few lineages cannot show what happens in the others.", "anchors": ["translate.cue:32-129", "lineage.cue:115-146", "lineage.cue:193-197", "instance.go:214-253"]}
{"id": "C167", "title": "LatestInMajor and LatestVersionInSequence, exactly", "statement": "LatestInMajor of a schema returns the first schema whose major is greater than the schema's own, not the last of its own major; it panics exactly if there is no such schema, and never returns an error. For the greatest major number the increment wraps to zero and the first schema is returned. LatestVersionInSequence of a major fails with ErrVersionNotExist exactly if there is no schema with minor version 0 in that major; otherwise it returns the version of the first schema with a greater major, and panics exactly if there is none.", "quantifier": "for all bound lineages, all schemas and all majors", "why_tests_cant": "Tests call these on a few lineages; that every call within the last major panics and every other crosses a major boundary is a statement about all lineages.", "anchors": ["schema.go:139-141", "surface.go:123-129", "lineage.go:256-285"]}
{"id": "C168", "title": "What Validate returns, exactly", "statement": "Validate returns the data as an instance of the schema exactly if CUE finds no error; it panics exactly if CUE's error has a sub-error whose path has no part below the schema; an error that is not a CUE error is returned as it is; and in all other cases it returns an error that is ErrInvalidData and no other sentinel and that lists exactly the reports of the sub-errors of a known shape, one each, in their order. The report of a sub-error (class, path, operands, positions) is determined by the sub-error alone.", "quantifier": "for all bound lineages, schemas, data, evaluators and errors that they return", "why_tests_cant": "The number and form of CUE errors is unbounded; a test sees a few that today's evaluator makes.", "anchors": ["schema.go:74-100", "validate.go:110-215", "validate.go:238-284"]}
{"id": "C169", "title": "When the data commands succeed and what they print, exactly", "statement": "For every bound lineage, with repeated versions and gaps too: data validate ends with status 0 and prints nothing exactly if the version flag selects a schema, the input can be read and decoded (the format asked for agreeing with the extension) and that schema accepts it, and with status 1 otherwise. data validate-any prints the selected version if its schema accepts the data, otherwise the version of the oldest schema that does, provided that no version up to it is repeated; it never ends exactly if the selected schema and all schemas before the first repeated version refuse the data and that version is not the latest. data hydrate and data dehydrate print the result exactly if the selected schema accepts the data and the result can be marshalled. data translate prints exactly if the flag is given, an oldest schema accepts the data with no version repeated up to it, and Translate succeeds with concrete data; it prints that schema's version, the version of the result, the data and the lacunas.", "quantifier": "for all bound lineages, flags, arguments, inputs, decoders and evaluators (an assumption on error paths, C22, keeps Validate from panicking)", "why_tests_cant": "The combinations of lineage, flags and input are unbounded and non-termination is no test outcome.", "anchors": ["cmd/thema/data.go:105-303", "cmd/thema/data.go:305-412", "cmd/thema/load.go:188-235"]}
{"id": "C170", "title": "Which module the commands work in, exactly", "statement": "The commands that load a lineage find the nearest cue.mod/module.cue from the given path upward, the file system's root excepted; they report that there is none exactly if there is none below the root, and fail exactly if the nearest one cannot be read or has no string as module name. The generators of bindings find the nearest module file that can be read, the root included and unreadable ones counting as absent, and the nearest go.mod strictly below it; they fail exactly if that module file has no string as name, or the nearest go.mod not above it cannot be read.", "quantifier": "for all file systems, paths and depths of directories", "why_tests_cant": "Directory trees are unbounded, and read errors are hard to arrange in a test.", "anchors": ["cmd/thema/load.go:237-268", "cmd/thema/lineage_subgen.go:384-455"]}
{"id": "C171", "title": "Which names generated Go code leaves undefined or declares twice, exactly", "statement": "The file of GenerateLineageBinding uses a name that it does not declare in exactly two cases: loadInstanceFor$NAME without LoadDir, and getThemaFSFor$NAME with LoadDir but without EmbedPath or without CueModName. The files of two lineages with different names declare a common name exactly if their suffixes are equal and either both or none of the factories are private or both are convergent. With one configuration for several lineages, GenerateTypesOpenAPI puts each file into the package configured or, without one, into the package with the name of the first lineage so far that has a name.", "quantifier": "for all lineage names, configurations and functions of the standard library used", "why_tests_cant": "The configurations are unbounded; tests compare generated text and compile nothing.", "anchors": ["encoding/gocode/gen.go:97-99", "encoding/gocode/gen.go:287-351", "encoding/gocode/binding.tmpl"]}
{"id": "C172", "title": "What the commands of gen print and write, exactly", "statement": "A command of thema lineage gen refuses its flags exactly if one of them is not its own or a boolean flag has a value that is neither true nor false; each flag has the value given last, else its default (JSON as format of both kinds of document). gen openapi and gen jsonschema print the rendered document (as a format string), or nothing to standard output with status 1 if it cannot be generated or rendered, or nothing with status 0 for an unknown format. gen gotypes always writes one file beside the lineage and prints nothing. gen gobindings with --stdout prints the code and writes nothing; without, it writes one file and, unless --quiet is given, prints a line naming lineage and file. Each fails with status 1 and nothing printed or written exactly if the code cannot be generated, the module search fails (gobindings without --stdout) or the file cannot be written.", "quantifier": "for all flags in any order and number, documents, code, file systems and errors", "why_tests_cant": "Flags combine without bound; the tests run no command.", "anchors": ["cmd/thema/lineage_subgen.go:56-138", "cmd/thema/lineage_subgen.go:166-273", "cmd/thema/lineage_subgen.go:306-382"]}
{"id": "C173", "title": "What Hydrate and Dehydrate return, exactly", "statement": "For data that has no fields called version, schema or examples: Hydrate returns a valid instance of the same schema whose data is the input plus the fields version and schema (and examples, if not optional) of the schema's definition, and nothing else; Dehydrate returns a valid instance of the same schema whose data has exactly the fields and values of the input.", "quantifier": "for all such instances, schemas and evaluators in which filling fields of structs behaves as documented", "why_tests_cant": "Tests call the internal functions on bodies of schemas, not the methods on instances; data and schemas are unbounded.", "anchors": ["instance.go:54-95", "hydrate.go:12-71", "hydrate.go:169-246", "schema.go:150-152"]}
{"id": "C174", "title": "What multiplexers return, exactly", "statement": "For every lineage for which a multiplexer can be made, also with repeated versions: an untyped multiplexer passes on an error of the decoder; returns the data as an instance of the given schema if that accepts it; otherwise translates it to the version of the given schema from the newest schema accepting it among the first schemas of each other version; and if there is none returns the validation error of the given schema. A typed multiplexer returns an error exactly if the untyped one does, and the same; it returns a typed instance exactly if the untyped one returns its instance and either the given schema accepted the data itself or the typed schema was made directly from the schema of the instance; it panics exactly if the untyped one panics or returns an instance for which neither holds.", "quantifier": "all lineages that bind (any versions, any lenses) for which a multiplexer can be made, decoders, bytes and typed schemas", "why_tests_cant": "Which schema is tried depends on the interplay of version search, repeated versions and acceptance over all schemas, and the claim is an equivalence for every input; tests only cover particular lineages.", "anchors": ["vmux/untyped.go:23-57", "vmux/typed.go:23-67", "vmux/mux.go:14-24", "lineage.go:219-284", "instance.go:19-30", "schema.go:229-268"]}
{"id": "C175", "title": "What thema lineage init does, exactly", "statement": "thema lineage init prints a text exactly if it is what CUE prints for the lineage written with the name, the package and the schema determined by the flags and the input: for empty, no arguments, a name, flags that do not contradict each other and a package name that is an identifier; for openapi and jsonschema, a document from the file given or from a named pipe, of which CUE finds YAML or JSON that can be read and converted at the path asked for, and the package name as it is. It panics exactly for openapi if CUE finds no data file, or finds JSON that cannot be read. In all other cases it fails with an error.", "quantifier": "all flags, arguments, files, standard inputs, and all behaviour of CUE's parsers and converters", "why_tests_cant": "The space of flags, files and kinds of standard input is unbounded, and that nothing else leads to output or a panic is a claim on all of them.", "anchors": ["cmd/thema/lineage_init.go:34-56", "cmd/thema/lineage_init.go:95-140", "cmd/thema/lineage_init.go:186-362", "cmd/thema/data.go:305-347", "encoding/cue/encode.go:22-50"]}
{"id": "C176", "title": "What GenerateSchema of encoding/openapi returns, exactly", "statement": "GenerateSchema succeeds exactly if each selector of the subpath is a field of the schema itself and of the joinSchema, and CUE can encode each root: the schema (or with SplitSchema the schema as written and the joinSchema) at the subpath, or with Group each field. The document then has the version of the schema, the configured or derived title, and in order one component for each value CUE asks a name for, with the name of the root for the root, for a definition named like the root and for the schema itself, no component for the parts of a split schema, and otherwise the name from the user's NameFunc or the path. Otherwise it returns an error; it never panics. The caller's configuration is unchanged with Group or if the subpath is rejected; in all other cases, also if encoding fails, Info and NameFunc are replaced and nothing else changes.", "quantifier": "all schemas, configurations and name functions, and all behaviour of CUE's encoder within the definition it is given", "why_tests_cant": "The list of components is claimed exactly for arbitrary nesting and arbitrary name functions; examples only show particular schemas.", "anchors": ["encoding/openapi/oapi.go:18-103", "encoding/openapi/oapi.go:125-240", "encoding/openapi/oapi.go:272-287"]}
{"id": "C177", "title": "Which files the CUE loader sees, exactly", "statement": "For every module that InstanceWithThema loads, the overlay has at a path: Thema's own embedded file if there is one for that path (in Thema's own module all embedded files, in others Thema's CUE files where CUE looks for the package), else the caller's file if there is one, and otherwise nothing. A file system without a module, given a name with AsModFS, is loaded as a module of that name if its files can be read, it has no Thema below cue.mod and the name needs no escapes. The overlay of the command line is empty in Thema's own module, has exactly Thema's CUE files in other modules, and also a module.cue where there is no module.", "quantifier": "all well-formed file systems, embedded files, directories, packages and module names", "why_tests_cant": "The claim is an equivalence for every path and every tree of files, including files of the same name; tests load particular trees.", "anchors": ["load/load.go:38-175", "internal/util/util.go:13-47", "cmd/thema/load.go:128-169"]}
{"id": "C178", "title": "What Examples returns, exactly", "statement": "Under a name Examples has exactly the example whose label CUE writes like that name (quoted if it is not an identifier), as a valid instance of the schema with the written label as its name; there are as many names as examples. An example is found under the name its author gave to it exactly if this name needs no quotation marks or is what CUE writes for the label of another example.", "quantifier": "all schemas with any number of examples under any labels", "why_tests_cant": "Labels are arbitrary strings; the claim is an equivalence for all names and all sets of examples.", "anchors": ["schema.go:38-59"]}
{"id": "C179", "title": "What #SearchAndValidate and #ValidFor yield, exactly", "statement": "#SearchAndValidate has a result exactly if there is a schema with which the data do not conflict; its version is that of the first such schema and its instance is that schema itself, not the data. #ValidFor is the version of the first such schema and fails exactly if there is none. If ValidateAny accepts the data, #ValidFor has a result and it is never a later version, also for incomplete data.", "quantifier": "all lineages and all data, and every CUE in which accepted data do not conflict with the accepting schema", "why_tests_cant": "First of all schemas for all data, and the agreement of CUE code with Go code over all lineages.", "anchors": ["traverse.cue:13-31", "lineage.go:219-250"]}
{"id": "C180", "title": "What is reported on superfluous Go migrations, exactly", "statement": "For a lineage with distinct versions, the report on superfluous migrations is made exactly if no pair of versions is given twice and no function is nil; it then has, in the order given, exactly the migrations that are not required, with the reason: a version that does not exist (the target first), a migration to itself, the predecessor for migrations backward, that minor upgrades are automatic for migrations forward to another major version, and the successor for migrations forward within a major version. In all other cases there is an error, never a panic. The reason is true exactly if the migration does not go forward within the lineage or goes forward within a major version but not to the next version.", "quantifier": "all lists of versions of a lineage and all lists of migrations", "why_tests_cant": "The set of migrations is unbounded in number and kind, and the equivalence says for each of them whether and why it is reported.", "anchors": ["bind.go:217-308"]}
{"id": "C181", "title": "What PostprocessGoFile returns, exactly", "statement": "With appliers that leave the list of imports of the file alone, PostprocessGoFile returns a text exactly if it is what goimports makes of the file that the appliers make in order, and (unless IgnoreDiscoveredImports is set) the text imports nothing that the given file does not import; in all other cases it returns an error and never panics. Post-processing its result again without appliers returns it unchanged if goimports is idempotent and its output is formatted.", "quantifier": "all files, all appliers that leave the list of imports alone, and all behaviour of the parser, printer and goimports", "why_tests_cant": "The appliers are arbitrary functions on files.", "anchors": ["encoding/gocode/postprocessing.go:18-74"]}
{"id": "C182", "title": "How lineage fix ends, exactly", "statement": "For every legacy lineage that Thema used to accept, thema lineage fix writes a result exactly if every schema is written as a struct literal, every lens of a sequence after the first has bodies and lacunas written as literals or none, and not both a schema and the lineage have a field named seqs; the result has, in place of every such field of the lineage, the schemas with version i.j for the j-th of the i-th sequence, and the lenses with the legacy bodies. It never ends exactly if all is written as needed but both a schema and the lineage have a field seqs; it panics exactly if the first lens that cannot be carried over has a body that is no field or lacunas that are no list literal; it reports an error exactly in the remaining cases.", "quantifier": "all legacy lineages and all files in which they are written", "why_tests_cant": "Four equivalences that together partition the unbounded set of lineages and sources by the outcome.", "anchors": ["encoding/cue/rewrite.go:24-130", "encoding/cue/rewrite.go:137-220", "encoding/cue/rewrite.go:263-317"]}
{"id": "C183", "title": "Which references lineage fix renames, exactly", "statement": "thema lineage fix renames all references to from and to in a lens body into input and result exactly if the body uses them only as from.x and to.x from which nothing more is selected; in every other body, and only there, a reference to from or to is left over, which the new lens does not have. Renaming twice is the same as renaming once.", "quantifier": "all expressions of lens bodies", "why_tests_cant": "Expressions nest to any depth; the equivalences classify all of them.", "anchors": ["encoding/cue/rewrite.go:161-179", "encoding/cue/rewrite.go:203", "encoding/cue/rewrite.go:210"]}
{"id": "C184", "title": "What AssignableTo returns, exactly", "statement": "AssignableTo returns nil exactly if its argument is a struct, or a pointer to one, for which the rules of assignability hold (a closed list of one element then needs an array of any). It returns ErrPointerDepth exactly for pointers to pointers, and that a struct is needed exactly for all else that is neither a struct nor a pointer to one. It returns a list of errors exactly for structs with a discrepancy; the list has a message under a path exactly if there is a discrepancy at this path or the path is the bare name of a field, at any depth, that the schema lacks; in the former case, unless it is also such a name, the message is that of the discrepancy, and no two discrepancies have the same path.", "quantifier": "all schemas, all non-recursive Go types and all arguments", "why_tests_cant": "The discrepancies are at all depths of arbitrary types, and their errors are written to one map.", "anchors": ["assignable.go:29-57", "assignable.go:89-284", "docs/invariants.md:16-60"]}
{"id": "C185", "title": "What BindType and Value return, exactly", "statement": "BindType returns a typed schema exactly if its argument is a pointer, not nil, to a struct for which the rules of assignability hold. For every instance of the schema, Value returns no error, and the Go value that holds the data of the instance written over the defaults of the schema: field by field in structs, lists as a whole; but if the decoder reuses slices and the default list is not shorter, element by element. Where neither has anything it has Go's zero value.", "quantifier": "all schemas, Go types and arguments, and all instances", "why_tests_cant": "Data and defaults are decoded one over the other at any depth; the claim says for all of them what comes out, also where this is not the documented value.", "anchors": ["schema.go:166-248", "instance.go:158-181"]}
{"id": "C186", "title": "One configuration for several lineages, exactly", "statement": "With one configuration for several lineages, GenerateTypesOpenAPI generates the types of each for the configured package, or else for the package with the first non-empty name of the lineages so far; so without a configured package all are generated for the package with their own lowercase name exactly if this is the name of the first lineage for all of them. typescript.GenerateTypes generates for each the documented file for the configured name of the root, or else for the first non-empty title of the lineages so far.", "quantifier": "all lists of lineages and all configurations", "why_tests_cant": "Depends on all earlier calls.", "anchors": ["encoding/gocode/gen.go:36-65", "encoding/gocode/gen.go:85-99", "encoding/typescript/gen.go:28-101"]}
{"id": "C187", "title": "When generated bindings consist of valid Go names, exactly", "statement": "All names in generated bindings are Go identifiers exactly if all characters of the name of the lineage, and of the suffix of the factory's name, may occur in identifiers. The package clause is valid exactly if the configured package name, or without one the lowercase name of the lineage, is an identifier other than a keyword or the blank one.", "quantifier": "all lineage names and configurations", "why_tests_cant": "The name of a lineage is any string.", "anchors": ["encoding/gocode/gen.go:289-334", "encoding/gocode/binding.tmpl"]}
{"id": "C188", "title": "What lineage fix does to a package of files, exactly", "statement": "thema lineage fix ends with status 0 exactly if the value at the path has a field seqs, a value is picked (the first one that is written as a struct literal, the operands of unifications being tried from left to right; with the empty path, and only then, the value itself if there is none), all its schemas and lenses are written as literals, it stands in a file of the package, not both a schema and what stands there have a field seqs, and the result can be printed. Exactly this file is then changed: references in the bodies and lacunas that stand in it are renamed, and in what stands at the place every field seqs is replaced by schemas and lenses. The command panics exactly if the first lens that cannot be carried over has a body that is no field or lacunas that are no list, or if all is written as needed but what is picked stands in no file of the package; it never ends exactly if all is as needed but both have a field seqs; it reports an error exactly in the remaining cases; and it changes no file unless it ends with status 0.", "quantifier": "all packages, all values built of unifications to any depth, all places of lineages and lens bodies in the files, all renamings that keep the shape of syntax", "why_tests_cant": "Packages, depth of unifications and places are unbounded; the equivalences partition all of them by outcome.", "anchors": ["encoding/cue/rewrite.go:24-95", "encoding/cue/rewrite.go:222-261", "cmd/thema/lineage_fix.go:39-57"]}
{"id": "C189", "title": "The usage lines of the commands are right", "statement": "Every flag that the usage line of a command shows is accepted by it; the command does not run without those shown without brackets, and can run without those shown in brackets.", "quantifier": "all commands and all command lines", "why_tests_cant": "There are infinitely many command lines, and what a call that marks a flag as required does depends on the set of flags it is made for.", "anchors": ["cmd/thema/main.go:35-39", "cmd/thema/data.go:37-75", "cmd/thema/data.go:94-96", "cmd/thema/lineage_subgen.go:56-103", "cmd/thema/lineage_fix.go:25-37"]}
{"id": "C190", "title": "Which command lines run, exactly", "statement": "A command line ends as follows, the first of these that applies: arguments of thema itself that name no command are refused; a flag that is not one of the command's, by name or shorthand, or a boolean flag with another value than the words for true and false, is refused; if the last --help says yes, or the command only groups others, help is shown; too many arguments are refused (the commands of gen ignore all arguments); the checks of the command are done in order up to the first that fails, and its failure is reported; the data commands without --lineage, and translate without --to, report what is missing, after all checks; else the command runs. No command line makes the registration of flags panic.", "quantifier": "all commands, all lists of flags and arguments, all outcomes of the checks", "why_tests_cant": "Command lines are unbounded and the cases overlap; the claim says which comes first.", "anchors": ["cmd/thema/main.go:14-95", "cmd/thema/data.go:31-75", "cmd/thema/lineage_init.go:33-57", "cmd/thema/lineage_bump.go:26-40", "cmd/thema/lineage_subgen.go:56-103", "cmd/thema/lineage_fix.go:25-37"]}
{"id": "C191", "title": "The Go types of plain schemas, exactly", "statement": "GenerateTypesOpenAPI, for an OpenAPI document whose schemas are references, simple values, arrays, maps and objects with properties (or, at the top, enumerations), with names that are not empty, do not end in a space and give distinct Go names: it succeeds exactly if every number has the format double, float or none and every truth value none, and then the file declares exactly one type per schema, in their order, with the comment `<Go name> defines model for <name>.`: integers have the type of their format if that is one of the ten sized ones and otherwise `int`; numbers float64 or float32; strings `[]byte`, the types of openapi_types, time.Time, json.RawMessage or string by their format; arrays slices; objects without properties `map[string]T` with T the type of the additional properties, or any; objects with properties structs with one field per property, in order, omitting empty values unless the property is required or nullable, and a pointer exactly if it is optional or nullable, the type is no slice, map or raw message, and pointers are not switched off. Otherwise there is an error, never a panic.", "quantifier": "all documents of this kind, both settings of NoOptionalPointers", "why_tests_cant": "the combinations of formats, optionality, nullability and nesting are unbounded; the tests generate a dozen files and compare text", "anchors": ["encoding/gocode/gen.go:66-131", "encoding/gocode/decorators.go:15-32", "internal/deepmap/oapi-codegen/pkg/codegen/schema.go:223-609", "internal/deepmap/oapi-codegen/pkg/codegen/codegen.go:442-474"]}
{"id": "C192", "title": "The Go name of a schema or property, exactly", "statement": "SchemaNameToTypeName, for every name: the result is the words for the signs and dollar signs that the name begins with (`-` Minus, `+` Plus, `&` And, `|` Or, `~` Tilde, `=` Equal, `#` Hash, `.` Dot, `*` Asterisk, `^` Caret, `%` Percent, nothing for `$`), or `Empty` for the empty name, `DollarSign` for `$`, or `N` where there are no such words and a digit follows; and then, in order, the cased letters and digits of the name, in upper case where a lower case letter is the first character or directly follows one of `-#@!$&=.+:;_~ (){}[]`. Everything else in the name is dropped.", "quantifier": "all names, over any classification of characters with the laws of package unicode", "why_tests_cant": "names are unbounded strings, and the function runs two passes over them; the tests have about twenty names", "anchors": ["internal/deepmap/oapi-codegen/pkg/codegen/utils.go: ToCamelCase (140-162)", "internal/deepmap/oapi-codegen/pkg/codegen/utils.go: typeNamePrefix (607-651)", "internal/deepmap/oapi-codegen/pkg/codegen/utils.go: SchemaNameToTypeName (655-661)"]}
{"id": "C193", "title": "The constants of an enumeration, exactly", "statement": "For an enumeration of distinct values: each value has a name, its Go name made an identifier (underscore for a leading digit, before keywords and predeclared names), with the number of earlier values of the same name behind it if there are any; a value whose numbered name comes again later is dropped. The constant of a value is the type's name followed by the Go name of that name with its first letter in upper case. The sets of constants that runs of the generator may give are exactly the choices of one remaining value for every constant name; every run gives every value a constant exactly if the constant names of all values are distinct, and otherwise no run does.", "quantifier": "all types and all lists of distinct values, all orders of iteration over Go maps", "why_tests_cant": "which constants are lost depends on the order in which Go iterates over two maps, which a test does not control, and on collisions between names of arbitrary values", "anchors": ["internal/deepmap/oapi-codegen/pkg/codegen/utils.go:548-605", "internal/deepmap/oapi-codegen/pkg/codegen/schema.go:127-139", "internal/deepmap/oapi-codegen/pkg/codegen/schema.go:432-493"]}
{"id": "C194", "title": "The Go types of schemas with enumerations, exactly", "statement": "GenerateTypesOpenAPI, for a document whose schemas are references, simple values, enumerations, arrays, maps and objects with properties, nested in any way, with component names that are not empty and do not end in a space: the file declares one type per component and one per enumeration of a property (or of the elements of its arrays and maps), named by the path to it, each with its basic type and constants, after the component it belongs to and in the order of the properties; except that enumerations that are the elements of a component itself stay plain values, and enumerations inside structs that are the values of a map are used by name but not declared. Where two types have the same name the first is declared if they are for the same schema, and otherwise generation fails. It fails for these reasons and for unknown formats of numbers and truth values only, and never panics.", "quantifier": "all documents of this kind, both settings of NoOptionalPointers", "why_tests_cant": "which enumerations get lost or collide depends on the nesting of arrays, maps and structs and on all pairs of paths", "anchors": ["encoding/gocode/gen.go:66-131", "internal/deepmap/oapi-codegen/pkg/codegen/schema.go:223-501", "internal/deepmap/oapi-codegen/pkg/codegen/schema.go:503-609", "internal/deepmap/oapi-codegen/pkg/codegen/codegen.go:442-474", "internal/deepmap/oapi-codegen/pkg/codegen/codegen.go:602-630", "internal/deepmap/oapi-codegen/pkg/codegen/utils.go: PathToTypeName (678-683)"]}
{"id": "C195", "title": "The Go types of schemas with additional properties, alternatives and parts, exactly", "statement": "GenerateTypesOpenAPI, for a document whose schemas have only references in allOf, with component names that are not empty and do not end in a space: the file declares one type per component; one per enumeration of a property; one, named by the path to it, per struct with additional properties and per schema with alternatives (anyOf or oneOf) that is a property, the element of an array or the value of a map; and one per alternative with a description. A reference of allOf is an embedded field at the place of its name among the properties, instead of the property of that name if there is one, with a tag only if that was required; references with an underscore in their name are dropped. It does not declare alternatives without description, nor schemas that have nothing but alternatives, for which any is written; an alternative that is both takes the declaration after it with it. What is inside the values of maps is lost except for the value itself and its additional properties, and what is inside alternatives is lost. Names are written without underscores, except within slices of maps; any is not written within slices of maps, in structs that are values of maps, and where a component is a reference. Where two types have the same name the first is declared if they are for the same schema, and otherwise generation fails. It fails for these reasons and for unknown formats of numbers and truth values only, and never panics.", "quantifier": "all documents whose allOf are of references, both settings of NoOptionalPointers", "why_tests_cant": "which declarations are lost, renamed or collide depends on the nesting of structs, arrays, maps and alternatives, on all pairs of paths, and on the order of declarations", "anchors": ["encoding/gocode/gen.go:66-131", "encoding/gocode/decorators.go:15-271", "internal/deepmap/oapi-codegen/pkg/codegen/schema.go:223-501", "internal/deepmap/oapi-codegen/pkg/codegen/schema.go:503-609", "internal/deepmap/oapi-codegen/pkg/codegen/schema.go:778-828", "internal/deepmap/oapi-codegen/pkg/codegen/codegen.go:344-474", "internal/deepmap/oapi-codegen/pkg/codegen/codegen.go:602-630"]}
{"id": "C196", "title": "The JSON Schema document, exactly", "statement": "jsonschema.GenerateSchema goes through the OpenAPI document. Structs without a literal type are only gone through. A typed schema loses OpenAPI's own keywords, gets null as a further type if it is nullable, has the schemas of its parts (properties, additionalProperties of objects; items of arrays) converted, keeps everything else, and gets $schema at the end unless it lies inside of another typed schema. A document is returned exactly if no schema of unknown type is come across; otherwise the first one decides: an error if it lies inside of no typed schema, a panic if it does.", "quantifier": "all syntax trees of any depth and width", "why_tests_cant": "All trees of any depth; what happens below each node depends on all nodes above it.", "anchors": ["encoding/jsonschema/jschema.go: GenerateSchema, newSchemaNode, process, scan (17-284)"]}
{"id": "C197", "title": "The comments of generated Go code, exactly", "statement": "Above a generated Go field stands its documentation as it is if it has more than one word and begins with the name of the field, in any case, or with anything but a lower case letter; otherwise the name of the field and then the documentation. Above a generated type stands the same, except that if TODO comes in it after a space, all before the last such TODO is left out. Generation panics exactly if the documentation begins with a space.", "quantifier": "all documentation (first lines) and Go names", "why_tests_cant": "all texts; the result depends on where spaces, cases and the word TODO come in them", "anchors": ["encoding/gocode/decorators.go:48-100"]}
{"id": "C198", "title": "What BindType does to its argument, exactly", "statement": "If BindType returns a typed schema, the schema has been written over the struct that the argument points to: a required field with a constant or a default holds it afterwards (a list default is written to new elements, or over the elements of the old slice if the decoder reuses slices and the old one is long enough), a required field of a basic type without default keeps its value, or is nil if it is a pointer; required structs are treated likewise, field by field, and are created where a pointer to one is nil; optional fields keep their values. If BindType does not return a typed schema the argument is unchanged. A second call with the same argument changes nothing more and returns the same, and the first changes nothing exactly if the argument holds all this before.", "quantifier": "all schemas with structs, open lists and basic types, all Go types with structs, slices and pointers, all values of them", "why_tests_cant": "all schemas, Go types and values, of any depth", "anchors": ["schema.go: BindType (166-226)", "assignable.go:45-284"]}
{"id": "C199", "title": "What data become that are read into generated Go types and written again, exactly", "statement": "For components whose Go types thema generates (no two property names of an object that Go takes for the same, with pointers for optional fields), data valid for a component that are read into its Go type by encoding/json and written again become exactly this: strings, booleans and integers stay; numbers are rounded to float64 (format double, and wherever anything is allowed) or float32; arrays and maps are treated element by element; of objects with properties only the properties are written that encoding/json does not hide, nullable ones that are absent or null as null, optional ones not if they are absent, null, or an empty array or map. The data cannot be read if and only if there is no such result, and survive unchanged if and only if this result is the data.", "quantifier": "all components, recursive ones and allOf of references included, and all data valid for them", "why_tests_cant": "Tests compare some documents with what some types make of them; this says for every schema and document what comes back, and that nothing else can.", "anchors": ["encoding/gocode/gen.go GenerateTypesOpenAPI (66-131)", "internal/deepmap/oapi-codegen/pkg/codegen/schema.go GenerateGoSchema (223-501)", "internal/deepmap/oapi-codegen/pkg/codegen/schema.go oapiSchemaToGoType (505-626)", "internal/deepmap/oapi-codegen/pkg/codegen/schema.go GenFieldsFromProperties (628-714)", "encoding/gocode/decorators.go depointerizer (15-39)", "encoding/gocode/decorators.go fixRawData (104-177)"]}
{"id": "C200", "title": "Data that generated Go types write are valid for the schema and stay as they are", "statement": "If no property of the components is hidden from encoding/json by another of the same name or by an underscore in the name of its part, then what the generated Go type writes of valid data is valid for the component again, no member is written twice, and reading and writing it once more gives the same. If a required property of the component is hidden, then nothing that the type writes of valid data is valid.", "quantifier": "all components and all valid data that can be read", "why_tests_cant": "A consumer that stores what it has read relies on it for every document; tests only look at a few, and seldom at a second round.", "anchors": ["encoding/gocode/gen.go GenerateTypesOpenAPI (66-131)", "internal/deepmap/oapi-codegen/pkg/codegen/schema.go GenerateGoSchema (223-501)", "internal/deepmap/oapi-codegen/pkg/codegen/schema.go GenFieldsFromProperties (628-714)", "encoding/gocode/decorators.go depointerizer (15-39)"]}
{"id": "C201", "title": "What BindLineage says about Go migrations is exactly what is wrong with them", "statement": "For a lineage whose versions strictly increase from 0.0: the error on Go migrations (ImperativeLenses) is 'duplicate Go migration a -> b' exactly if the first migration with anything wrong has the pair of an earlier one, and 'nil Go migration func for a -> b' exactly if it is new and has no function. Otherwise, if any required pair is not given, the error has a heading and one indented line for each such pair, all of them, each once, those of older versions first. Otherwise, if a pair that is not required is given, the error has a heading and a single line with all such pairs in the order given, each with its reason. Otherwise there is no error; and there is never a panic. Pairs shown alike are equal, and errors with the same text are about the same problem with the same pairs and reasons.", "quantifier": "for all strictly increasing version lists starting at 0.0 and all lists of migrations", "why_tests_cant": "The lists of versions and migrations are unbounded; tests check that an error is returned for a few lists, not that its text lists every missing pair and nothing else.", "anchors": ["bind.go:53-63", "bind.go:217-308"]}
{"id": "C202", "title": "A multiplexer that finds no schema lists all versions and its own schema's error", "statement": "For a bound lineage with distinct versions from 0.0, a function of NewUntypedMux returns 'data invalid against all versions (...), error against v: ...' exactly if the bytes can be decoded and no schema of the lineage accepts the data. In the parentheses are all versions of the lineage, in order, separated by a comma and a space; v is the version of the schema the multiplexer was made for; the rest is the text of that schema's own error, whose marks the error has. All three can be told from the text.", "quantifier": "for all bindable lineages with distinct versions from 0.0, all schemas of them, decoders and inputs", "why_tests_cant": "Whether data are refused by every schema is decided by a walk over all of them, and the list is put together by another walk; tests see a few lineages and inputs.", "anchors": ["vmux/mux.go:14-24", "vmux/untyped.go:23-57", "vmux/typed.go:64-66"]}
{"id": "C203", "title": "Exactly when generated Go still compiles after underscores are removed from type names", "statement": "Removing underscores keeps every declaration in its place and the shape of every type. It changes the names of all declared types, and within types exactly the names at these positions: those that are reached from the declared type, or from a field (with or without one pointer), through values of maps and then elements of slices, structs being entered unless they are the value of a map directly; and anywhere the type of a field, what it points to, and what chains of maps and slices lead to from a field. A file in which every type is declared once is such a file afterwards if and only if every name with an underscore is at such a position, no constant has a type with an underscore, and no two types differ only in underscores. It panics if and only if a type with an underscore has no comment.", "quantifier": "all generated files, all types of any depth, all positions in them", "why_tests_cant": "Positions are nested without bound; whether a file compiles depends on all uses and all pairs of names together.", "anchors": ["encoding/gocode/decorators.go: fixUnderscoreInTypeName, findFieldsWithUnderscores, withoutUnderscore (180-226), iterateStruct, iterateMap, iterateArray (236-271)"]}
{"id": "C204", "title": "Exactly when generated Go still compiles after types for unions are removed", "statement": "In files whose functions are all methods and in which no declaration is to be removed for two reasons, exactly the functions, the raw types (structs of only a json.RawMessage with a method after them) and the types whose comment names no model are removed. In the other types exactly the names of raw types that iterateStruct, iterateMap and iterateArray reach become any. All used types are declared afterwards if and only if in what stays every use of a raw type is at such a position and every other use, also by constants, is of a predeclared type or one that stays.", "quantifier": "all such files, all types of any depth, all positions in them", "why_tests_cant": "Positions are nested without bound; uses and removed declarations can be anywhere in the file.", "anchors": ["encoding/gocode/decorators.go: fixRawData (104-177), withoutRawData (228-234), iterateStruct, iterateMap, iterateArray (236-271)"]}
{"id": "C205", "title": "Exactly when generated types contain themselves", "statement": "With NoOptionalPointers (depointerizer on all fields) a generated type contains a value of another exactly if it had a field of it, directly or with one pointer, possibly within inner structs. No generated type contains itself, which Go forbids, if and only if there was no cycle of any length through such fields. Without the option, if and only if no type contained itself before.", "quantifier": "all generated files, cycles of any length, structs nested to any depth", "why_tests_cant": "Recursive schemas may lead back to themselves over any number of other types.", "anchors": ["encoding/gocode/decorators.go: depointerizer (15-32)", "encoding/gocode/gen.go: TypeConfigOpenAPI.NoOptionalPointers, GenerateTypesOpenAPI"]}
{"id": "C206", "title": "Exactly which validation failures have the same text", "statement": "If no name, value or position that is shown has a line feed, and names of lineages have no @, then the texts of two validation failures are the same if and only if both have the same lineage name and version and, one by one in the same order, problems of the same sort (missing field, field that is not allowed, conflict), at the same place as far as names joined by dots tell, with the same values and the same positions in schema and data. If moreover no label has a dot, the places are the same. A value with line feeds can look like further problems.", "quantifier": "all lists of reported problems of any length, all names, versions, paths, values and positions", "why_tests_cant": "It is about all pairs of lists of problems; a test compares the text of one failure with one expected text.", "anchors": ["validate.go:22-49", "validate.go:63-75", "validate.go:99-107", "validate.go:286-293"]}
{"id": "C207", "title": "The text of AssignableTo's error, exactly", "statement": "The texts that the error of AssignableTo (or BindType) may have are exactly the lists, in any order, of one line for each thing that is told. Told is each discrepancy at its place, unless it is at a top-level field k and a field j that comes later in the schema contains, at any depth, a field k that is only in the Go type; and each field k that is only in the Go type is told at place k, wherever it is, unless there is another discrepancy at the top-level field k that is not displaced in this way. Of each place one thing is told. The text is the same in all calls if and only if all that is told is told in the same words. Every discrepancy that is not a superfluous Go field is in the text if and only if none is displaced.", "quantifier": "all schemas and Go types for which AssignableTo returns discrepancies, nested to any depth, and all orders in which Go walks over the map", "why_tests_cant": "Which of two messages survives in the map depends on the order of fields in the schema and on names at any depth; the order of the lines differs from call to call.", "anchors": ["assignable.go:89-142", "assignable.go:142-173", "assignable.go:343-361"]}
{"id": "C208", "title": "Runtimes can be made on any number of goroutines, and the Thema package is loaded once", "statement": "However many goroutines call NewRuntime at once, and however they interleave: the Thema package is loaded at most once, by one of the calls; no call with a context ends before loading has ended; every call ends, without deadlock. If the embedded package is valid, every call with a context returns a runtime made from that one instance, and a call panics only for a nil context. If it is not valid, exactly one of the calls with a context panics with that, and all others return a runtime made from the invalid package; if its files cannot be put into an overlay, exactly one panics with that and all others because of a nil pointer.", "quantifier": "for all numbers of calls, with or without a context, all interleavings, and all outcomes of loading", "why_tests_cant": "A test runs a few goroutines and sees a few of the interleavings; the package is loaded once per process, so that a test binary sees one outcome of loading only.", "anchors": ["runtime.go:16-54", "runtime.go:71-88"]}
{"id": "C209", "title": "Errors of BindLineage about what is written in a lineage say what is wrong and where", "statement": "Every error that BindLineage makes itself about a field, a schema or a lens of a lineage is about the first of them that does not fit, carries the position that CUE gives for it, and tells one kind of mistake, and the versions concerned, from any other; the text of a lens that it quotes is quoted unchanged. (The code violates this twice: the errors for schemas and for lenses out of order have no position, and percent signs in a lens that is quoted change the message.)", "quantifier": "for all lineages, all options, and all positions, details and texts that CUE may give", "why_tests_cant": "A test looks at the text of an error for one lineage. That the first mistake is the one reported, that different mistakes never get the same text, and that the position is the right one is a statement on all lineages and all texts.", "anchors": ["bind.go:65-127", "bind.go:143-154", "bind.go:188-215", "bind.go:315-364", "lineage.go:177-183"]}
{"id": "C210", "title": "The error for a Subpath that is not in the schema names what is absent and a place that the user wrote", "statement": "If GenerateSchema of encoding/openapi rejects a Subpath, then its error quotes the shortest part of the path that is not in the schema, readable as a Go string whatever characters are in it, has the first position of a conjunct of the schema that is not written in Thema's own files, and the caller's configuration is unchanged; every other error is one of CUE's encoder. (The code violates this: it names nested paths that are in the schema, gives no position if the user's files are in a module whose path begins like that of Thema, and the position for the joinSchema may be in Thema's files.)", "quantifier": "for all schemas, subpaths, configurations, and all positions and decompositions of values that CUE may give", "why_tests_cant": "Quotation must be right for all labels, and the choice of the position for all ways in which a schema is unified from conjuncts in files of any name.", "anchors": ["encoding/openapi/oapi.go:159-192", "encoding/openapi/oapi.go:248-256", "internal/cuetil/split.go:16-82"]}
{"id": "C211", "title": "exemplars.All has every exemplar under its name, as its own function returns it", "statement": "exemplars.All returns exactly if every lineage of the package of exemplars can be bound, defaultchange and disjunct with SkipBuggyChecks and the others without options; otherwise it panics. The map has exactly one entry for each field of the package: the lineage that BindLineage gives for the field, whose Name is the key. Whenever All returns, NarrowingLineage, RenameLineage, DefaultChangeLineage, ExpandLineage and SingleLineage, with any options that have no Go migrations, return the same lineages that All has under their names; the converse is false. Each of these functions panics if the package has no field of its name, and otherwise is BindLineage of that field with the options given, for narrowing, rename and defaultchange with SkipBuggyChecks too. With THEMA_FORCEVERIFY set, All returns exactly if all schemas of all exemplars follow the compatibility rule, and then the same map.", "quantifier": "All packages of exemplars whose labels are the names of the lineages (as constraint.cue demands), all CUE evaluators, all options without Go migrations, THEMA_FORCEVERIFY set or not.", "why_tests_cant": "All and the functions for single exemplars keep two separate lists of names to bind without checks, and tests bind only the exemplars there are, in one environment.", "anchors": ["exemplars/exemplars.go: All (18-37), nameOpts (39-46), NarrowingLineage to SingleLineage (102-124), harnessForExemplar (133-142), lineageForExemplar (145-151)", "exemplars/constraint.cue:17-19", "surface.go: SkipBuggyChecks (189-196)"]}
{"id": "C212", "title": "The order in which fields and definitions are written does not change generated Go types", "statement": "GenerateTypesOpenAPI gives the same Go types, or the same error, for schemas whose OpenAPI documents differ only in the order of definitions and in the order of the properties of objects at any depth, and however Go iterates over the maps that hold them: the types are always those of the document whose definitions and properties come in the increasing order of their names, and nothing is lost or added by ordering them. (The values of the constants of enumerations are not part of this claim: see C109 and C193. The order of alternatives matters.)", "quantifier": "All documents, with objects nested to any depth, all ways to order definitions and properties, NoOptionalPointers or not.", "why_tests_cant": "Go iterates over maps in random order, so a test that passes shows one order; the ways to order the properties of nested objects are not bounded.", "anchors": ["internal/deepmap/oapi-codegen/pkg/codegen/utils.go: SortedSchemaKeys (166-175)", "internal/deepmap/oapi-codegen/pkg/codegen/schema.go: GenerateGoSchema (374-416)", "internal/deepmap/oapi-codegen/pkg/codegen/codegen.go: GenerateTypesForSchemas (442-474)", "encoding/gocode/gen.go: GenerateTypesOpenAPI (66-131)"]}
{"id": "C213", "title": "#CRD turns a lineage into a Kubernetes custom resource definition", "statement": "For every lineage and every choice of versions to serve and of a version to store, #CRD of the package crd, which CueFS carries, gives a custom resource definition with exactly one version for each schema, in order: named after the version of the schema, served if that is among those to be served, stored if it is the one to be stored.", "quantifier": "All lineages, of the current form and of that with sequences, all versions to be served and stored.", "why_tests_cant": "No test evaluates #CRD; one would be about one lineage. That there is no value for any lineage, and which of the three reasons applies to which, is a statement over all of them.", "anchors": ["crd/crd.cue:10-94", "lineage.cue:12-160", "embed.go:7-24"]}

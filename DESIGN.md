# Formal model of kubernetes-sigs/controller-tools in Lean 4

`properties.jsonl` lists the semantic properties.  This file says, per
property, what is modelled and how it is proved, and states the trusted base.
The model lives in `lean/Verif/<Area>/Model.lean`, independent specifications in
`lean/Verif/<Area>/Spec.lean`, helper lemmas in `lean/Verif/<Area>/Lemmas*.lean`
and the property theorems (with non-vacuity examples beside them) in
`lean/Verif/<Area>/Theorems.lean`.  `MANIFEST.json` maps property ids to theorem names.

## Modelling conventions

* **Strings.** Go strings are Lean `String` (or `List Char`) where only
  equality, order, concatenation and splitting at ASCII separators matter, and
  `List UInt8` where byte offsets matter (description truncation).  Go compares
  strings bytewise; UTF-8 preserves code point order, so `String`'s `<` is the same order.
* **Maps.** A Go map is an association list with unique keys.  `range m` visits
  the entries in an order chosen by an adversarial schedule (`Sched`): a function
  that may return any permutation of the entries at each iteration site.  All theorems
  quantify over every schedule.
* **Sorting.** `sort.Strings`/`sort.Stable` are a stable sort; `sort.Slice`/`sort.Sort`
  (not stable in Go) is "first permute arbitrarily (schedule), then stable sort", which covers
  every possible result of an unstable sort.  Where stability matters, `sort.Slice` is taken to be stable up
  to twelve elements and on sorted slices; both are proved of its algorithm in `Common/Pdq.lean`, which is written
  down from knowledge of Go's standard library (its source is not in this sandbox).
* **Errors and panics.** `error` results are values (`Except`, or a list of recorded errors when
  the code calls `AddError` and carries on).  A Go panic (nil dereference, index out of range)
  is a separate outcome, never conflated with an error.
* **nil.** nil pointers are `Option`; nil and empty slices are identified only where the code
  cannot tell them apart (noted at the definition).
* **Violations.** Where the unchanged code violates a property, the negation is proved with a concrete
  witness, and the strongest guarded positive theorem is kept under the suffix `_partial`.

## Plan per property

| id | model | proof idea |
|----|-------|-----------|
| C01 | rbac: marker splitting, `NormalizeRules` with its four merge passes, schedules | every output rule is a union of rules equal in all but one field; permission semantics distributes over that union. Guard: keys do not collide (shown necessary by counterexample) |
| C02 | same | needs that no map write overwrites another class; false in general (two counterexamples), proved under the exact guard |
| C03 | same | output = canonical function of the rule *set*; false in general, proved under the same guard |
| C04 | `GenerateRoles` namespace grouping | induction on markers |
| C05 | same | invariants of `removeDupAndSort`, sortedness of the final key list |
| C06 | `clientConfig` | case analysis against an independent spec |
| C07 | `timeoutSeconds` with 64→32 bit narrowing, `sideEffects`, v1 checks | range facts; equality is false for large integers (counterexample) |
| C08 | `Generate` loop | induction over roots, permutation facts |
| C09 | `rules`, policies | equations for all inputs |
| C10 | `Generate` loop | induction |
| C11 | byte-level `truncateString` | length arithmetic; `≤ n` is false (witness), `≤ n+3` proved; prefix property |
| C12 | schema tree + `EditSchema` | induction on trees |
| C13 | registry as op history, `splitMarker` | refinement to "last write wins" map |
| C14 | text scanner + argument parser | round trip by induction on values |
| C15 | `Definition.Parse` | case analysis |
| C16 | comment/node stream | invariant over stream |
| C17 | `extractDoc` | induction on lines with the fence state |
| C18 | collector cache state machine | invariant over request histories |
| C19–C22 | `NeedCRDFor`, CRD markers | invariants; order-independence under exact guard, counterexamples for conflicting markers |
| C23 | `Metadata.ApplyToCRD` with panics | witness of the crash; error theorem for annotations |
| C24 | `ApplyToSchema` methods | case analysis against a keyword table |
| C25 | `applyMarkers` with schedules and unstable sort | permutation argument with commuting markers |
| C26 | `TypeRefLink`, `RefParts` | string lemmas |
| C27 | flattener with cache over a finite reference graph | well-founded measure: uncached types |
| C28–C29 | `flattenAllOfInto` on a schema structure | induction on schema; semantics defined separately |
| C30–C31 | `structToSchema`, `typeToSchema` | induction on types and field lists |
| C32–C33 | `FindKubeKinds`, `Generate` | set reasoning; witness for the bogus file |
| C34 | `protoFromOptions` | induction on options |
| C35 | `Runtime.Run` | induction |
| C36 | output rules | case analysis |
| C37 | `WriteYAML` | induction |
| C38–C39 | YAML node trees, `SetNode`, `DeleteNode`, patcher | lens laws by induction on paths; crash witness |
| C40 | `NonVendorPath` | string lemmas |
| C41 | goroutine/lock state machine | invariant + progress measure |
| C42 | error lists | induction on nesting |
| C43 | type grammar, generator to a small imperative IR, heap semantics | induction on values with freshness invariant; that the generator succeeds for a grammar of supported types, by induction on it |
| C44 | `NeedImport` | invariant over histories, termination by counting |
| C45 | decision functions | case analysis |
| C46–C47 | help tables | sorting lemmas, arithmetic |
| C48 | package graph with in-place import rewriting | DFS invariant |
| C49 | byte-level `truncateString` | false for multi-byte characters (witness); proved for ASCII at the cut |
| C50–C52 | same model as C27 | the result is the unique expansion of the reference graph; expansion preserves validity; for recursive types the result is an expansion with cut references, which accepts more (greatest fixpoint as meaning); the rest is false for them (witnesses) |
| C53 | `applyMarkers`, the algorithm of `sort.Slice` (`Common/Pdq.lean`) | stability of the insertion sort used up to twelve elements; sorted slices are left alone; a run on fourteen markers that changes the order |
| C54 | `infoToSchema` with panics as outcomes | induction on type expressions; exact characterisation of the crashing types, witnesses |
| C55 | `NeedSchemaFor`, `AddPackage` | depth-first search invariant, measure: types without a schema |
| C56 | same model as C30, encoding of values (nil values included) as an inductive relation; types may be recursive | induction on the encoding; witnesses for nil slices, `[]uint8`, `,string` and `omitzero` |
| C57 | same model as C30 | case analysis; witnesses for pointer declarations and marshalers |
| C58 | `shouldBeCopied`, `writeObject` decisions, with the semantics of C43 | case analysis; false for types with their own `DeepCopy` (witness) |
| C59 | same state machine as C41 | invariant on what the importer hands out; false for imports that are not referred to (two schedules) |
| C60 | package markers from several nodes (`Collect`) | permutation; false for map order (witness) |
| C61 | `loader.EachType` on syntax trees | induction on trees |
| C62 | schema patching of several manifests | induction; witness |
| C63 | transformations of `WriteYAML` | induction on YAML trees; witness |
| C64 | `typeString` of arguments | induction on argument types; witness |
| C65 | `ArgumentFromType`, `loadFields` | induction on Go types |
| C66 | `LoadRootsWithConfig`; the Go tool and the file tree are parameters | paths refine to places (lists of names); invariant of the set of IDs |
| C67 | `refs.go`: syntax trees, imports, filters | induction on trees; invariant of the import map; composed with C41 |
| C68 | the markers of all generators as a table of Go types; registration histories for any list of generators | finite facts of the table by kernel computation, composed with C13, C14 and C65 for all histories and texts |
| C69 | `PackageMarkers` and `Get` | induction over files; permutations of maps |
| C70 | the generator of apply configurations up to the call of the library k8s.io/code-generator, which is a function | invariant of the loop over types; C69; C36 for paths |
| C71 | the computation of the header in all generators; strings.ReplaceAll | induction over the text: the pieces between occurrences, which are unique |
| C72 | cmd/helpgen except formatting and writing the file; the verb %q for all characters | round trip of quoting with the model of strconv.Unquote (C14); first line by cases; invariant of the loop over types; sorting |
| C73 | the table of options with the Go types of generators and output rules, their definitions (C65), registration in map order | the table is checked by computation once; lookup by C13, values by C14 and C15, acceptance by C34; permutations for the order |
| C74 | the check of the options, the template line by line with its actions executed, the program with its flags | lines of a joined text are the lines of its pieces; the pieces that depend on the help are comments; the code lines are computed with the kind as a variable |
| C75 | reading the directory entry by entry with the YAML libraries as parameters, then the generator of C62 on the sets found, then the writes applied to the files | what the loop collects is the fold over the manifests in order; its sets partition the manifests; with C62 and C39 for what is written; files as lists of documents |
| C76 | the main function with its flags as data, on top of the models of options, help and running; the version | cases over flags and outcomes; C34, C35 and C46 give the parts |
| C77 | the JSON decoder and encoder of Go (library, written out in full) and the hooks of the markers; `float64` as a rounding and a format with stated laws | the decoder accepts exactly the grammar of RFC 8259 (induction on derivations and on steps); what the encoder writes denotes the value (induction on values); composed with C14 |
| C78 | the model of C30, C49-C52, C55 and C28; `Breaks` (BreakSpec) says which values break a marker, about Go types, markers and values only | induction on how a value breaks a marker, showing that the schema of each type rejects it; induction on how encoding/json writes a value, showing that the schema accepts it; both composed with flattening (C51), merging (C28) and the parser (C55) |
| C79 | the model of C28, C49-C51 and C55; `Structural` (StructSpec) states the rules of the API server about schemas only | induction on the generation of schemas: every field and item has a type or a reference; induction on flattening: a type is found in the schema or its allOf; counting how often a keyword occurs at a path shows that merging takes it out of the allOf |
| C80 | the tables of known_types.go and the parser of C55; syntax and meaning of regular expressions (RegexSpec), the grammar of quantities (KnownSpec) | the pattern is read by evaluation, the language of the expression is computed piece by piece; false for empty times, which are written as null (witness) |
| C81 | Markers/Source (files of a package to marker values), Rbac/Source (loop over the roots), with the models of C13, C14, C16, C68, C69 and C01-C05 | composition: attached comments (C16), lookup (C68), texts (C14), merging (C01, C02); false for comments in the documentation of functions (witness) |
| C82 | Markers/Info (`EachType` with markers) on top of Markers/Collect, Markers/Each, Markers/Source, Markers/Shipped | composition: attached comments (C16, with their order, a sublist invariant of the walk), types (C61), lookup (C68), texts (C14) |
| C83 | Crd/FromSource (the declarations the parser works on, from files and comments) on top of Markers/Info and the schema model | composition of C82 (values of comments), a table of the validation markers, and C78 (markers are enforced); guards as in C78 |
| C84 | Webhook/Source (Generate from the files of the packages on) on top of Markers/SourceShipped and the webhook model | Markers/SourceList (the values of a package marker, comment by comment), composed with C08; guard: the comments are in the grammar of C14 |
| C85 | CrdGen/Source (what the CRD generator sees, computed from the files) on top of Markers/Info, Crd/FromSource and the CRD generator | Markers/SourceWritten and C82 for the markers, composed with C20, C22, C23, C33; guards: distinct versions, at most one resource marker that matters |
| C86 | the whole CRD generator (CrdGen/Generate) with the parser, the flattener and their caches | Crd/FlatGrow: what has been flattened stays right as the parser learns more; the run is a sequence of steps (`Steps`), so that C55, C51, C28, C78 apply to the final state; CrdGen/Printed: fixing metadata and shortening descriptions do not change what else is accepted; with C83 for comments; guards of C78, and metadata |
| C87 | `generateForPackage` and `Generate` on the values that the collector has for the comments of the files (DeepCopy/Source) | C82 for the comments on types, package_source and package_free (Markers/SourceWritten) for those of the package, C45 for the decision; corollaries for single comments; guard: pointer types with methods (C45_violated_pointer) |
| C88 | `generateForPackage` and `Generate` of applyconfiguration on the values that the collector has for the comments of the files (Apply/Source) | C82 for the comments on types, package_source, package_free and package_complete for those of the package (Markers/CommentLemmas), C70 for the decision; corollaries for single comments; violated: types in packages that are not enabled, comments that do not parse |
| C89 | `Generate` of schemapatcher from packages and manifests to files (Patch/Source), with the loop over the growing map `GroupVersions` as a relation | C75 and C39 for the files, the step lemmas of C86 for the schemas (schema_enforced), C83 for the comments; induction over the loop; violated: versions of packages that are loaded on the way, crash for a version without the kind |
| C90 | the calls of `Register` and `AddHelp` of all generators with the texts of zz_generated.markerhelp.go (Help/ShippedTable, Help/Shipped), on top of the help model of C46 | the table of entries is checked by the kernel; C46 for any history lifts this to all lists of generators; violated: the text of webhookconfiguration, arguments of XValidation, resource with applyconfiguration |
| C91 | a disk of places, the artifacts of the generators crd, rbac, webhook and object from their models, written through `Open` by `Run` (Genall/Artifacts) | the names of the files of two generators are different, those of one generator by C33 and C08, and C34 excludes a generator given twice; the directories by C36; violated: code for two packages in one directory, the option fileName of rbac |
| C92 | the text before generated code, the build flags, how go/build finds the constraint of a file, histories of edits and runs over the disk of C91 (Genall/Again); evaluating constraints and gofmt are assumed as documented | the constraint is the first line and the only one, so that files of earlier runs are never loaded (invariant over histories); the plan of the run is then the same as in a clean checkout; violated: files that are not written any more stay; other build tags |
| C93 | the operations on the disk (create, then append) in the order of a run, interrupted after any number of them, with the texts divided in any way (Genall/Crash) | all operations together are the run of C92; after any number of them some files are complete and at most one is begun; the Go files that are loaded are the same, so that the next run writes the same; violated: os.Create empties a file before it is written; an empty Go file is loaded |
| C94 | standard output in a run of several generators (Genall/Artifacts), with the reading of YAML streams of C37 | what is printed is the concatenation of the texts (induction on the steps); a concatenation of manifests is split into the documents of each (induction on the texts); violated: a header without a newline at its end joins two documents; the code of object is printed too |
| C95 | two runs of the CRD generator (CrdGen/Generate) on the same source | the schema of a declaration does not depend on the order of its maps nor on the state of the generator (induction on the type expression); so two parsers agree where both have a schema, flattening gives the same in both, and the CRD is built from the same entries up to their order (C24); violated: a package that is loaded for a field of another kind adds its version |
| C96 | a run of the CRD generator (CrdGen/Generate) and one of schemapatch (Patch/Source) on the same source | both print the flattened schema of the type in the package of the version (C86, C89), which does not depend on the run (C95); violated: a version in a package that is loaded for a kind without a manifest loses its schema |
| C97 | two runs of schemapatch (Patch/Source), the second one on the files after the writes of the first one | the written manifests are the same manifests for the second run, it makes the same schemas (C96), and patching twice is patching once (C39); violated: a version in a package that is not named on the command line can lose its schema in the second run |
| C98 | two runs of the RBAC generator from source files (Rbac/Source) over lists of packages | the rules that are read of a package are the same in all runs (Markers/SourceList), then C01, C02 and C03; violated: a package whose markers overlap those of another one makes it lose a permission |
| C99 | a joint run and separate runs of the webhook generator from source files (Webhook/Source) | the markers read of a package are the same in all runs up to their order (Markers/SourceList), the webhooks of a run are the images of its markers, C08 for success; violated for names: a package without webhooks renames the object of another one |
| C100 | two runs of the deepcopy generator from source files (DeepCopy/Source) over lists of packages; what the type checker knows of a package is part of the package | the types of a package and their markers are the same in all runs (Markers/SourcePerm, from C60); the markers that the generator looks at on packages are also defined for types, so that none of them is moved to the package in the order of a map |
| C101 | two runs of the apply configuration generator from source files (Apply/Source) over lists of packages, with one library | the types of a package and their markers are the same in all runs (Markers/SourcePerm); the marker that enables a package is also defined for types, so that it is never moved to the package in the order of a map; the marker of the output package is not, and the comments must not contradict each other |

## What is modelled, and what is not

Per file of /repo (tests, generated files and documentation are left out). A function that is not named is modelled.

| file | modelled in | not modelled, or simplified |
|------|-------------|------------------------------|
| pkg/rbac/parser.go | Rbac/ | reading and writing of the header file |
| pkg/webhook/parser.go | Webhook/ | reading of the header file; help texts |
| pkg/crd/desc_visitor.go, schema_visitor.go | Desc/, Crd/AllOf, Crd/Flat | nothing |
| pkg/crd/flatten.go | Crd/AllOf, Crd/Flat | texts of errors (errors are counted); the flattener sees the schemas of a parser that is done |
| pkg/crd/schema.go | Crd/Refs, Crd/Marks, Crd/Gen, Crd/Need | the type checker is a parameter; texts of errors |
| pkg/crd/parser.go, known_types.go | Crd/Need, CrdGen/ | nothing but texts of errors |
| pkg/crd/spec.go, gen.go, conv.go | CrdGen/ | conversion by the API machinery scheme (identity for `v1`, the only version); texts |
| pkg/crd/markers/*.go | Crd/Marks, CrdGen/Model, Markers/Shipped | `register.go` is `Markers.Registry` and Markers/Shipped, which has the lists of all markers; JSON values of markers are in Json/ (C77), elsewhere they are uninterpreted |
| pkg/deepcopy/gen.go, traverse.go | DeepCopy/ | the text of the generated code: statements of a small language stand for it, with a semantics in `DeepCopy/Go.lean`; type parameters; formatting |
| pkg/markers/parse.go | Markers/Scanner, Parse, Define, Registry | byte offsets count characters; `reflect.Value` plumbing (values are terms) |
| pkg/markers/reg.go, help.go | Markers/Registry, Help/Model | nothing |
| pkg/markers/collect.go, zip.go | Markers/Collect, Cache, Doc, Each, Package | parsing of Go (syntax trees are inputs) |
| pkg/loader/loader.go, refs.go, errors.go, paths.go, visit.go | Loader/, Markers/Each | the Go tool, the Go parser and type checker (parameters); printing of errors |
| pkg/genall/*.go | Genall/ | the file system (a map of files); YAML and JSON encoders |
| pkg/genall/help/**.go | Help/ | widths of characters; failures of writing to the terminal |
| pkg/schemapatcher/**.go | Patch/ | text of YAML (the libraries are parameters) |
| cmd/controller-gen/main.go | Genall/Options, Genall/OptionTable, Genall/Run, Genall/Main, Help/Pretty | the flag library |
| pkg/applyconfiguration/gen.go | Apply/ | the library k8s.io/code-generator; making the temporary header file |
| cmd/helpgen | godocToDetails, the header, the methods and their order (C71, C72) | flags, go/format, usage |
| pkg/typescaffold, cmd/type-scaffold | Scaffold/Model | flect and `strings.ToLower` (any functions), text/template itself (its result is written down), cobra |
| pkg/version | Genall/Main | `debug.ReadBuildInfo` (a parameter) |

<!-- violations -->
## Violations of the listed properties in the code

Each line is a theorem: the negation of (part of) a property, with a concrete witness, or for all inputs of a class. The text is the comment at the theorem.

* **C01** (Generated RBAC never grants more than the markers)
  * `Rbac.C01_violated`: without the guard: `[]` and `[""]` have the same key, so the verbs of a rule restricted to the (nonexistent) resource named "" are granted for all names.
* **C02** (Generated RBAC never loses a permission asked for by a marker)
  * `Rbac.C02_violated`: without `NoOverlap`: when groups `a` and `b` (verb get) merge to `a&b`, the rule for `a&b` (verb list) is overwritten or overwrites, so a permission is lost.
  * `Rbac.C02_violated_urls`: The same permission loss for URLs.
* **C03** (RBAC output does not depend on map iteration order)
  * `Rbac.C03_violated`: without `NoOverlap`: which rule survives depends on the map iteration order.
* **C07** (Accepted v1 webhooks respect the API server's side-effect and timeout limits)
  * `Webhook.C07_violated`: for numbers outside 32 bits: `timeoutSeconds=4294967306` is accepted and emitted as 10.
* **C11** (Description truncation respects the limit)
  * `Desc.C11_violated`: with limit 3 the description `abcdef` becomes `abc...`, six bytes.
* **C14** (Marker argument parsing inverts marker printing)
  * `Markers.C14_violated_negative`: of the code: a blank before a negative number, which is allowed before any other value, is rejected (hence the side condition in `ShowsEntries`).
  * `Markers.C14_violated_any`: of the code: where the type is recognised from the text, an unquoted string that contains something like an octal number is rejected, although it is accepted where a string is expected (hence `self` in `ShowsStr`).
* **C15** (Marker parsing is strict)
  * `Markers.C15_violated_duplicate`: of the code: an argument given twice is accepted, and the first value silently dropped.
  * `Markers.C15_violated_space`: of the code: a blank between an unquoted string and the comma makes the parser drop the string: the marker is accepted with the value `""`.
  * `Markers.C15_violated_space_words`: With several words, only the last one is dropped, and the blank is kept.
  * `Markers.C15_violated_empty`: of the code: after an empty unquoted string, the comma and the following argument become the value.
  * `Markers.C15_violated_int32`: of the code: an integer that does not fit the `int32` argument is silently truncated.
* **C16** (Markers are collected exactly once and attached to a unique node)
  * `Markers.Collect.Examples.C16_violated`: a marker in the documentation of a function has no place, even if its definition exists for packages: this `+rbac` is ignored.
* **C18** (Collector caching is transparent)
  * `Markers.Cache.C18_violated`: violated: with two calls at the same time, the files can be parsed twice. Then the cache can have the markers for the nodes of one syntax tree, while the package has the other one: no marker is found for any of its nodes, from then on.
  * `Markers.Cache.C18_violated_syntax`: violated: a package with a file that cannot be parsed has no syntax tree, and no markers: this is a success, and stays in the cache.
* **C19** (Generated CRDs have a storage version and a served version)
  * `CrdGen.C19_violated`: two storage versions are not reported (the API server rejects such a CRD).
* **C20** (CRD naming)
  * `CrdGen.C20_violated_duplicate`: when two packages of the group have the same version: a marker that skips the version of one leaves out the other as well.
  * `CrdGen.C20_violated_mixed`: when two packages have different resource markers: the CRD has the plural of one and the scope of the other.
* **C21** (CRD generation does not depend on map iteration order)
  * `CrdGen.C21_violated_resource`: with different resource markers in two packages, the name of the CRD depends on the order in which Go iterates over the packages.
  * `CrdGen.C21_violated_skip`: a type with a column whose version is skipped is an error or not, depending on the order in which Go iterates over the markers of the type.
* **C22** (Version-scoped CRD markers affect exactly their version)
  * `CrdGen.C22_violated_duplicate`: when two packages of the group have the same version: the column of the second one is added to the entry of the first one.
  * `CrdGen.C22_violated_silent`: some markers on a type whose version is missing are ignored without an error.
* **C23** (Malformed metadata markers are reported as errors)
  * `CrdGen.C23_crash_iff`: the generation crashes iff there is a metadata marker with a label without `=` (and with annotations that are all well-formed).
  * `CrdGen.C23_violated`: a label without `=` crashes the generator.
* **C25** (Marker application order)
  * `Crd.C25_violated_listType`: C25 is violated: the type and the list type have the same priority, so that it depends on the order of map iteration whether a list type marker is accepted.
  * `Crd.C25_violated_mapType`: C25 is violated: of contradictory map and struct types the one that happens to be applied last wins, without an error.
* **C26** (Type references round-trip)
  * `Crd.C26_violated`: C26 is violated: `~` is allowed in Go import paths, and is used by a public code host.
  * `Crd.C26_violated_collision`: C26 is violated: two distinct (pathological) packages with the same link.
* **C27** (Flattened schemas contain no references)
  * `Crd.C27_violated`: C27 is violated: all types are known, but a reference is left, which moreover means another type (`v1.A`) in the place where it is found.
* **C28** (Flattening allOf preserves validation semantics)
  * `Crd.C28_violated_exclusive`: C28 is violated by exclusive bounds: when two bounds are moved to allOf members, `exclusiveMaximum` is left behind, without effect. `{allOf: [{maximum: 10, exclusiveMaximum: true}, {maximum: 20}]}` rejects 10, its flattened form accepts it.
  * `Crd.C28_violated_nullable`: C28 is violated by `nullable`: `{allOf: [{type: string}, {nullable: true}]}` rejects null, its flattened form accepts it.
  * `Crd.C28_violated_additional`: C28 is violated by `properties` beside `additionalProperties`: `{allOf: [{properties: {a: {}}}, {additionalProperties: {type: string}}]}` rejects `{"a": true}`, its flattened form accepts it.
  * `Crd.C28_violated_closed`: C28 is violated by `additionalProperties: false`, which is lost when it is merged with a schema for additional properties.
* **C30** (Struct fields map to properties and required lists)
  * `Crd.C30_violated_inline`: C30 is violated: an inline field that is marked as required makes the empty name a required property, which no object of this type has.
  * `Crd.C30_violated_unnamed`: C30 is violated: encoding/json names a field after the Go field if the tag gives no name; the schema has no such property, and takes the field as embedded.
* **C31** (Go types map to JSON types soundly)
  * `Crd.C31_violated_uint8`: C31 is violated: encoding/json encodes byte slices as strings, whatever name is used for the type of the bytes, but `[]uint8` becomes a list of integers.
  * `Crd.C31_violated_aliasKey`: C31 is violated: a map whose keys are of an alias of `string` is refused, although it is the same type as a map with keys of type `string`.
* **C33** (CRD files: one per kind, predictable name, no bogus file)
  * `CrdGen.C33_violated_skip`: if the only version of a kind is to be skipped, then a file `_.yaml` with an empty CRD is written (gen.go:182 reads the CRD that was not stored).
  * `CrdGen.C33_violated_group`: a package without a `groupName` marker gives such a file as well.
  * `CrdGen.C33_violated_plural`: two kinds with the same plural are written to the same file, so that one of them is lost, with no error.
* **C34** (Command line options are interpreted completely)
  * `Genall.C34_violated_empty`: violated: an empty option (as in `controller-gen "" paths=./...`) is not an error, but makes the tool crash.
* **C36** (Output rules choose a single, predictable destination)
  * `Genall.C36_violated`: violated: a path of an artifact with `..` leads out of the directory. (The path of a CRD is made from the name of its group, which is what the marker `+groupName` says.)
  * `Genall.C36_violated_group`: (CRDs), violated: the group is what the marker `+groupName` says, with slashes if there are some, and then the file is outside of the directory.
* **C37** (YAML documents are delimited)
  * `Genall.C37_violated_header`: violated: with a header whose last line lacks the newline and is not a comment (here: spaces), the mark of the first document is part of that line.
* **C38** (YAML path edits obey get/set/delete laws)
  * `Patch.C38_violated`: C38 is violated by a mapping with a key twice, which the parser of nodes accepts: after the deletion the path is still there.
* **C39** (Schema patching only touches schemas)
  * `Patch.C39_violated_crash`: C39 is violated by a version that is not a mapping, and by one without a name: they crash the program.
  * `Patch.C39_violated_twice`: C39 is violated by a key that is there twice: each run drops one of the pairs.
  * `Patch.C39_alias_rejected`: Two versions that share their schema by an anchor and an alias: patching them is an error, although nothing is wrong with the manifest.
  * `Patch.C39_violated_alias`: C39 is violated by a reference to a schema that is replaced: it then refers to nothing, and the file cannot be read any more.
* **C40** (Vendor prefix stripping)
  * `Loader.C40_shared_slash`: A directory `vendor` directly inside a vendor directory hides the second one.
* **C42** (Errors added to a package are never lost)
  * `Loader.C42_violated`: violated: two files with an error each; one of the errors is lost.
* **C43** (Deep copies are equal and independent)
  * `DeepCopy.C43_violated_pointer`: violated: for a pointer to a named slice type, `type Names []string; type T struct { F *Names }`, the code has `*out = new([]string)` where `*out` is a `*Names`.
  * `DeepCopy.C43_violated_slice`: violated: for a slice of pointers to a type with a `DeepCopy` of its own, `type T struct { F []*Quantity }`, the code has `(*in)[i].DeepCopyInto(&(*out)[i])`, where the argument is a `**Quantity`.
  * `DeepCopy.C43_violated_struct`: violated: for a field of an unnamed struct type with references, `type T struct { F struct { G []string } }`, the code has `in.F.DeepCopyInto(&out.F)`.
  * `DeepCopy.C43_violated_unexported`: violated: for a field of a struct type that gets no methods since it is not exported, `type inner struct { G []string }; type T struct { F inner }`, the code has `in.F.DeepCopyInto(&out.F)`.
  * `DeepCopy.C43_violated_nil`: violated: no error is reported and the code compiles, but it panics for a map with a nil pointer, however many calls may be nested.
  * `DeepCopy.C43_violated_recursion`: violated: for `type Tree map[string]Tree` the generator does not end: no depth of recursion is enough.
  * `DeepCopy.C43_alias_rejected`: Maps with values of an alias, `type Name = string; type T struct { F map[string]Name }`, are rejected, although slices of them are not.
* **C44** (Generated import aliases are unambiguous)
  * `DeepCopy.C44_violated_empty`: violated: the alias of a package whose last element has digits only is empty, so types of the package are written as `.T`.
  * `DeepCopy.C44_violated_keyword`: violated: an alias may be a keyword of Go, `type`.
  * `DeepCopy.C44_violated_shadow`: violated: an alias may be the name of a parameter of the generated methods, `in` or `out` (traverse.go:238-243), which hides the package.
* **C45** (Which types get deepcopy code)
  * `DeepCopy.C45_violated_pointer`: violated: methods are written for `type P *Quantity` if `Quantity` has a method of its own. Go does not allow methods of pointer types.
  * `DeepCopy.C45_violated_interface`: violated: in a package that is enabled, each exported interface type is taken for a type to copy, and the run reports an error for it.
* **C46** (Marker help is complete and deterministic)
  * `Help.C46_violated`: **C46 is violated for markers with the same name**: in a category with more than twelve markers, the order of the type marker and the field marker of the same name depends on the run. In both runs the sort does what the algorithm of `sort.Slice` does with the order in which it finds the markers.
  * `Help.C46_violated_hidden`: **C46 is violated for markers without help**: they are registered, and not shown by the summary.
  * `Help.C46_violated_level`: **C46 is violated at level five** (`-wwwww`): nothing is shown.
* **C47** (Help tables are aligned)
  * `Help.C47_violated_unicode`: **C47 is violated for texts beyond ASCII**: the width is taken to be the number of bytes, and the second column begins in different places.
  * `Help.C47_violated_limit`: **C47 is violated for limited tables**: a cell that is too wide is followed by the next one directly.
  * `Help.C47_violated_skip`: **C47 is violated for a table that has only skipped rows**: it crashes.
* **C48** (Root packages are canonicalised in the import graph)
  * `Loader.C48_violated`: violated: root `b` imports `x`, whose import `d` is a root; it does not refer to the root. (The walk from `e` sees `x` before it comes to `b`; the walk from `b` sees the `x` that `a` imports first.)
* **C49** (Truncated descriptions remain valid text)
  * `Desc.C49_violated`: Truncation may turn valid text into bytes that are no text at all, both by cutting at the limit and by keeping only the first byte of a multi-byte sentence end.
* **C50** (Flattening is deterministic)
  * `Crd.C50_violated`: C50 is violated: for recursive types the result depends on the order of map iteration.
* **C51** (Flattening preserves the meaning of references)
  * `Crd.C51_violated`: C51 is violated for recursive types: the flattened schema of a list accepts a list that the type does not accept, whatever meaning the type is given.
* **C52** (Fields keep their documentation, or inherit that of their type)
  * `Crd.C52_violated`: C52 is violated for recursive types: after the type `R`, which refers to `A`, the field `a` of `B` has lost the documentation of its type `A`, though it has none of its own.
* **C53** (Validation rules keep their source order)
  * `Crd.C53_violated`: C53 is violated beyond twelve markers: `sort.Slice` is not stable. Of thirteen rules on a value whose type is given by a marker as well, the seventh becomes the first and the second the last. The order is the one in which Go's algorithm leaves the markers when the map is visited in the order of the text.
* **C54** (Schema generation never crashes)
  * `Crd.C54_violated_struct`: C54 is violated: a list of anonymous structs.
  * `Crd.C54_violated_any`: C54 is violated: a field of type `any`, or of an alias of a slice type.
  * `Crd.C54_violated_error`: C54 is violated: a field of type `error`.
* **C56** (Generated schemas accept what Go writes)
  * `Crd.C56_violated_nil`: C56 is violated: a field `Items []string` that is nil is encoded as `null`, which the schema does not allow.
  * `Crd.C56_violated_uint8`: C56 is violated: a field `Data []uint8`, which is encoded as a string, must be a list according to the schema.
  * `Crd.C56_violated_string`: C56 is violated: a number with the option `string`, which is encoded as a string, must be a number according to the schema.
  * `Crd.C56_violated_omitzero`: C56 is violated: a field with the option `omitzero` (Go 1.24), which is left out when it is zero, is required by the schema.
* **C57** (Markers of a declaration act once)
  * `Crd.C57_violated_pointer`: C57 is violated: the markers of a declared pointer type are applied twice, so that its rules are listed twice.
  * `Crd.C57_violated_marshaler`: C57 is violated: a valid marker on a type with a method `MarshalJSON` is reported as an error, since it is first tried on an empty schema.
* **C58** (Root objects implement runtime.Object)
  * `DeepCopy.C58_violated`: violated: a root object with a `DeepCopy` in the source gets no `DeepCopyObject`, whatever its markers are.
* **C59** (Type information does not depend on the goroutine schedule)
  * `Loader.C59_violated`: violated: whether the type checker gets complete types for an import that a package does not refer to depends on the schedule. Both runs end.
* **C60** (Package markers do not depend on map order)
  * `Markers.Collect.Examples.C60_violated`: the first value of a marker of a package depends on the order in which maps are iterated over: the group of this package is `a` in one run, and `b` in another.
* **C62** (Schema patching writes every manifest once, or none)
  * `Patch.C62_violated`: C62 is violated by two packages for one group-version: which schema is written depends on the order of a map.
* **C63** (Written objects lose only the status and the creation timestamp)
  * `Genall.C63_violated`: violated: an object without metadata makes `WriteYAML` with this transformation crash, instead of returning an error.
* **C64** (Marker help says how a marker is used)
  * `Help.C64_violated_number`: **C64 is violated for numbers**: the type is empty (as for the marker `kubebuilder:validation:Maximum`, shown as `Maximum=<>`).
  * `Help.C64_violated_map`: **C64 is violated for maps**: the type is empty, and a slice of maps is shown as `[]`.
* **C65** (A marker defined from a Go type accepts exactly what the type says)
  * `Markers.C65_violated_name`: **C65 is violated for fields that share a name**: the definition is accepted, and the first of the fields has no argument at all.
* **C66** (Exactly the packages that the roots name are loaded, once each)
  * `Loader.C66_violated_dots`: a pattern that Go does not read as a path is one for the loader if it begins with a dot. `...`, all packages of the build list, is searched in the current directory only.
  * `Loader.C66_violated_wildcard`: three dots at the end of a longer name are not a pattern for the loader: `./b...`, in Go every package below this directory whose path begins with `./b`, is a directory of this name.
  * `Loader.C66_violated_file`: the help of `controller-gen` has the example `paths=./apis/v1beta1/some_types.go`. For the path of a file, whatever the Go tool finds in directories and for the file itself, it is run *in* the file, as if this were a directory.
* **C67** (Exactly the packages that types refer to are type-checked)
  * `Loader.C67_violated_import`: an import of one file that is not found, as `import "C"` is not, makes the references of all other files disappear.
  * `Loader.C67_violated_params`: what the constraints of type parameters refer to is not looked at: `type T[P other.C] struct{}`.
  * `Loader.C67_violated_value`: every selector of a name is taken for one of a package. In the type `[unsafe.Sizeof(v.f)]byte`, where `v` is a variable of the package, an error is reported for `v`, although the file is correct.
* **C70** (Apply configurations are generated for exactly the enabled types)
  * `Apply.Example.C70_violated_single`: is violated: the marker of a type "can be used to generate applyconfiguration for a single type when the package generation is disabled" (gen.go:76), but nothing is generated.
  * `Apply.Example.C70_violated_disable`: is violated: `+kubebuilder:ac:generate=false` is to "disable generation for a single type when the package generation is enabled" (gen.go:76), but a type that has `+genclient` in its comments, for the generator of clients, stays tagged.
  * `Apply.Example.C70_violated_commented`: is violated: the code looks for the line `// +genclient`, but the library has taken the comment markers off. So this line stands for a tag that is commented out, `// // +genclient`, and then nothing is generated for the enabled type.
  * `Apply.Example.C70_violated_error`: is violated: if a marker of the package cannot be parsed, nothing is generated, and no error is returned (gen.go:169).
* **C71** (The header of generated files is the header file with the year filled in)
  * `Genall.HeaderExample.C71_violated_helpgen`: is violated by helpgen: it drops the space before the year, so that headers read `Copyright2019 The Kubernetes Authors.`
* **C72** (Generated help says what the documentation says)
  * `Helpgen.Example.C72_violated_header`: Violation of C72: `headerFile` is optional, but without it (or with an empty file) helpgen panics in the first package with the marker (main.go:158-160).
  * `Helpgen.Example.C72_violated_embedded`: Violation of C72: a type with two embedded fields (or two fields `_`) gets a map literal with one key twice, which does not compile.
* **C73** (The command line of controller-gen is understood as it is written)
  * `Genall.ToolExample.C73_violated_all`: Violation of C73: the help says that `controller-gen paths=./apis/...` runs all the generators (main.go:147-148); no generator is chosen.
  * `Genall.ToolExample.C73_violated_all_exit`: So the program fails, whatever the packages are.
* **C74** (type-scaffold prints the four types of the kind and nothing else)
  * `Scaffold.C74_violated_namespaced`: **C74 violated (scope).** The flag `--namespaced` has no effect: for every kind and resource the program prints the same text for a type of the cluster as for a type of a namespace.
  * `Scaffold.Example.C74_violated_resource`: **C74 violated (resource).** The check says nothing about the resource. One with a line break is accepted, and what follows the break becomes code.
* **C75** (Patching a directory of manifests changes the schemas of its CRDs and nothing else)
  * `Patch.DirExample.C75_violated_documents`: **C75 violated (documents).** A file with two manifests has only the first after the run, which reports success: the other CRD is lost.
  * `Patch.DirExample.C75_violated_silent`: **C75 violated (silence).** A CRD that is not understood is left out, and the run reports success.
* **C76** (controller-gen does the one thing it is asked for, and its exit status says whether it was done)
  * `Genall.C76_violated_advice`: **C76 violated (advice).** After a failure the program says that the same call with `-w` shows all available markers. If the options were the reason of the failure then that call fails too, and shows no markers, whatever the options are.
  * `Genall.C76_violated_no_generators`: **C76 violated (all markers).** Without generators that call succeeds and shows no marker at any level: the text is empty, and JSON has no categories.
* **C77** (Defaults, examples and enums in the schema are the values that were written)
  * `Json.C77_violated_number`: a whole number in `+default=` is changed: 9007199254740993 becomes 9007199254740992, since it is read as `float64`.
* **C78** (Validation markers are enforced at any depth, and nothing else is)
  * `Crd.C78_violated_repeated`: C78 is violated by markers that are given twice: the last one counts, and values that break the other are accepted.
  * `Crd.C78_violated_recursive`: C78 is violated by recursive types: where the schema is cut off, markers have no effect.
  * `Crd.C78_violated_exclusive`: C78 is violated by exclusive bounds: the schema in the CRD accepts a value that is not below the exclusive maximum of its type, if its field has a maximum as well.
  * `Crd.C78_violated_alias`: C78 is violated by markers on an alias of a declared type of the same package: they have no effect.
* **C79** (The schema in a CRD is structural)
  * `Crd.C79_violated_recursive`: C79 is violated by recursive types: nothing is said about the values where the schema is cut off.
  * `Crd.C79_violated_schemaless`: C79 is violated by schemaless fields: nothing is said about their values.
  * `Crd.C79_violated_shadowed`: C79 is violated by structs that hide a list of a struct they embed: the items of the list are specified within the allOf only.
  * `Crd.C79_violated_default`: C79 is violated by defaults for a declared type and for a field of the type: the defaults are within the allOf.
* **C80** (Fields of well-known Kubernetes types accept the values of these types and no others)
  * `Crd.C80_violated_null`: **C80 is violated for empty values**: the zero value of `metav1.Time` and an empty `runtime.RawExtension` are written as `null` (by their own methods), which their schemas reject.
* **C81** (Permissions granted are those that the comments in the source ask for)
  * `Rbac.SourceExamples.C81_violated`: of the code for a marker in the documentation of a function: it is written as it should be, no error is recorded, and nothing is generated.
  * `Rbac.SourceExamples.C81_violated_error`: fails of the code for a package with a wrong marker of another generator: the permissions of the package are not granted, although those of another package are, so a role is written that lacks them. (The run fails: an error is recorded.)
* **C84** (Webhook configurations list exactly the webhooks that the comments in the source ask for)
  * `Webhook.SourceExamples.C84_violated`: of the code for a marker in the documentation of a function: it is written as it should be, no error is recorded or returned, and nothing is generated.
* **C88** (Apply configurations are generated for the types for which comments in the source ask)
  * `Apply.SourceExamples.C88_violated_single`: The documentation says that `+kubebuilder:ac:generate=true` on a type can be used if it is not enabled for the package. Nothing is generated, and there is no error.
  * `Apply.SourceExamples.C88_violated_error`: A comment that does not parse (`+kubebuilder:ac:generate=tru`) disables the package without an error.
  * `Apply.SourceExamples.C88_violated_error_type`: So does one on a type (`+kubebuilder:ac:generate=fals`), although the package is enabled.
* **C89** (Patched manifests enforce the markers of the types)
  * `Patch.C89_violated_late`: for versions in packages that are no roots: if one of them is imported by a root, then it depends on the iteration over a map to which it is added meanwhile whether its version of the manifest gets a schema, or loses the one it had. Neither run reports an error.
  * `Patch.C89_violated_crash`: a root package that is another version of the group, and in which there are other types but not the kind, makes every run with a manifest that lists the version end in a crash.
* **C90** (The marker help of controller-gen explains every marker of the chosen generators)
  * `Help.C90_violated_webhookconfiguration`: **C90 is violated by the webhook generator**: its two markers have the same text, which is about one of them (webhook/parser.go:439).
  * `Help.C90_violated_arguments`: **C90 is violated by the rules of the crd generator**: nothing is said about the arguments of `XValidation`.
  * `Help.C90_violated_resource`: **C90 is violated when `applyconfiguration` comes after `crd`**: the text of `kubebuilder:resource` is that of `applyconfiguration`, and nothing is said about its arguments.
* **C91** (The files of a run do not overwrite each other)
  * `Genall.ArtifactsCase.C91_violated_code`: violated: code for two packages, with one directory. Only the code for the last package is there, and no error is reported.
  * `Genall.ArtifactsCase.C91_violated_name`: violated: with the option `fileName` the roles can get the file of the webhooks, which then replace them; no error is reported.
* **C92** (Running controller-gen again gives what a run in a clean checkout gives)
  * `Genall.AgainCase.C92_violated_stale`: violated: files of earlier runs stay although nothing would be written to them any more. Here the markers are removed; the file with the methods remains, which in a clean checkout is not there.
  * `Genall.AgainCase.C92_violated_tags`: violated: with other tags, `--load-build-tags=integration`, the methods of the first run are taken for methods in the source. The first run writes all methods that are missing. Then the method that was in the source is deleted, and the second run writes that method and nothing else: the methods of `Foo` are lost. In a clean checkout all are written.
* **C93** (An interrupted run leaves every file as it was or complete, and the next run repairs it)
  * `Genall.AgainCase.C93_violated_lost`: violated: `os.Create` empties the file before anything is written, so a run that is interrupted there leaves neither the methods of the earlier run nor those of this one.
  * `Genall.AgainCase.C93_violated_loaded`: violated: the empty Go file has no build constraint, so the next run loads it as one of the sources, which it does with no other file of an earlier run.
* **C94** (What is printed with output:stdout is read as the objects of all the files)
  * `Genall.StdoutCase.C94_violated_header`: without the newline at the end of the header, the `---` of the second file is part of the comment, and the objects of two files are read as one document (with two `kind`s).
  * `Genall.StdoutCase.C94_violated_code`: with `output:stdout` the Go files of `object` are printed too, and are read as a part of the last manifest.
* **C95** (The CRD of a kind depends on the packages of the kind and on nothing else)
  * `CrdGen.SameSample.C95_violated_other`: if not all packages of the kind are named: with `paths=./v1`, the CRD of `Box` has the version `v1`; with `paths=./v1;./o1` it has the version `v2` as well, since the kind `Apple` of another group has a field with a type of the package `v2`, which is loaded for it (spec.go:57-63 goes through all packages loaded so far); but not if the other kind is `Crate`, which comes after `Box`.
* **C96** (schemapatch writes the same schemas as the CRD generator)
  * `Patch.AgreeCase.C96_violated_unnamed`: for versions in packages that are not named on the command line: with `paths=./v1;./o1`, the CRD generator writes the versions `v1` and `v2` of `Box`, since it makes the schema of the kind `Apple` first, for which package `v2` is loaded. With the same command line, and the manifest of `Box` only, schemapatch does not make the schema of `Apple`: it removes the schema of `v2` from the manifest. No error is reported.
* **C97** (Running schemapatch in place again changes nothing)
  * `Patch.AgainCase.C97_violated_late`: for versions in packages that are not named on the command line: package `v1` is named, and imports package `v2`. The first run gives both versions of the manifest their schemas; the second one, over the directory that the first one wrote, removes the schema of `v2`. Nothing but the iteration over a map is different, and no error is reported.
* **C98** (Naming more packages never takes a permission away)
  * `Rbac.TogetherCase.C98_violated_overlap`: for packages whose markers overlap: the role for package `one` lets the program get pods of group `a`; the role for the packages `one` and `two` does not, although `two` only asks for more. No error is recorded.
* **C99** (Webhooks of packages named together are those of each alone)
  * `Webhook.TogetherCase.C99_violated_name`: for the names of objects: a package for which nothing is generated changes, when it is named as well, the name of the object that is generated for another one; no error is reported.
* **C101** (The apply configurations of a package are the same in every run)
  * `Apply.AloneCase.C101_violated_output`: Where the apply configurations of the same package are written differs between two runs: the comments are markers of the package, although they are above types, and are found in the order of a map of types.
<!-- end violations -->

## Trusted base

* Lean 4.33.0's kernel.  Every property theorem depends on no axioms other than `propext`,
  `Classical.choice` and `Quot.sound`; `AXIOMS.md` has the axioms of each.  There are no user axioms, no `sorry`, no `native_decide`,
  no `bv_decide`.
* The reading of the Go source into the model (each definition cites file and lines).
* External code is not modelled beyond the behaviour stated in each file: the Go
  parser and type checker, `text/scanner`'s handling of characters outside the modelled lexical classes,
  `flect` pluralisation (an arbitrary function parameter), JSON/YAML encoders, `gofmt`, the file system, the Go tool.
* The specifications (`Spec` namespaces and `*Spec.lean`): that they say what the English properties say.

## Tests against wrong programs

`seeded/LOG.jsonl` has one line for each edit of the model, with the theorems that failed. Edits after which a claim was false and all theorems still proved led to stronger theorems
(`tightened`).

{"id": "C01", "title": "Generated RBAC never grants more than the markers", "statement": "For every namespace, every API request (group/resource/name/verb or URL/verb) that Kubernetes RBAC would allow under the rules of the ClusterRole/Role generated for that namespace is allowed by at least one +kubebuilder:rbac marker declared for that namespace.", "quantifier": "all lists of rbac markers over all root packages (any strings, any list lengths), all requests, all orders in which Go may iterate the intermediate maps", "why_tests_cant": "The four merge passes interact through string keys and map iteration order; tests only see a handful of marker sets and whichever map order the runtime picked.", "anchors": ["pkg/rbac/parser.go:GenerateRoles", "pkg/rbac/parser.go:NormalizeRules", "pkg/rbac/parser.go:Rule.key", "pkg/rbac/parser.go:Rule.normalize"]}
{"id": "C02", "title": "Generated RBAC never loses a permission asked for by a marker", "statement": "For every namespace, every API request allowed by some +kubebuilder:rbac marker for that namespace is allowed by the rules of the ClusterRole/Role generated for that namespace.", "quantifier": "all lists of rbac markers, all requests, all map iteration orders", "why_tests_cant": "A lost permission needs two merged rules that collapse onto the same key; it depends on the combination of all markers and on map iteration order.", "anchors": ["pkg/rbac/parser.go:GenerateRoles", "pkg/rbac/parser.go:NormalizeRules"]}
{"id": "C03", "title": "RBAC output does not depend on map iteration order", "statement": "Running the rbac generator on the same markers always produces exactly the same list of objects with the same rules in the same order, whatever order Go iterates its maps in.", "quantifier": "all lists of rbac markers, all pairs of map iteration orders", "why_tests_cant": "Go randomises map iteration; a test run samples a few orders out of factorially many.", "anchors": ["pkg/rbac/parser.go:NormalizeRules", "pkg/rbac/parser.go:removeDupAndSort"]}
{"id": "C04", "title": "RBAC objects are partitioned by namespace", "statement": "The generator emits at most one object per namespace, in strictly increasing namespace order, a ClusterRole exactly for the empty namespace and a namespaced Role otherwise; an object exists for a namespace iff some marker names that namespace, and rules of one namespace are computed from that namespace's markers only.", "quantifier": "all lists of rbac markers, all map iteration orders", "why_tests_cant": "Quantifies over unboundedly many namespaces and markers.", "anchors": ["pkg/rbac/parser.go:GenerateRoles"]}
{"id": "C05", "title": "RBAC rules are in normal form", "statement": "In every generated rule each list is strictly increasing (sorted, duplicate free), the group alias \"core\" never appears, verbs are exactly [\"*\"] whenever any merged verb is \"*\", and the rules of one object are sorted by their printed key with pairwise distinct keys.", "quantifier": "all lists of rbac markers, all map iteration orders", "why_tests_cant": "Sortedness and absence of duplicates must hold for all marker multisets.", "anchors": ["pkg/rbac/parser.go:Rule.normalize", "pkg/rbac/parser.go:removeDupAndSort", "pkg/rbac/parser.go:ruleKeys.Less", "pkg/rbac/parser.go:Rule.addVerbs"]}
{"id": "C06", "title": "Webhook client configuration is exactly one of URL or service", "statement": "A webhook marker is accepted only if exactly one of path and url is given; the emitted clientConfig then has exactly the url, or exactly a service reference with the given path and the given or default service name/namespace (webhook-service/system), never both and never neither.", "quantifier": "all webhook markers (any combination of present/absent path, url, service name, namespace and port)", "why_tests_cant": "Case analysis over all optional-field combinations and arbitrary strings.", "anchors": ["pkg/webhook/parser.go:Config.clientConfig"]}
{"id": "C07", "title": "Accepted v1 webhooks respect the API server's side-effect and timeout limits", "statement": "Whenever the generator accepts a webhook marker for v1, the emitted sideEffects is None or NoneOnDryRun and the emitted timeoutSeconds is absent or between 1 and 30, and it equals the number written in the marker.", "quantifier": "all webhook markers, all integers as timeoutSeconds", "why_tests_cant": "The marker integer is 64-bit and narrowed to 32 bits before the range check; only an argument over all integers shows where that is unsound.", "anchors": ["pkg/webhook/parser.go:checkTimeoutSeconds", "pkg/webhook/parser.go:Config.timeoutSeconds", "pkg/webhook/parser.go:checkSideEffectsForV1", "pkg/webhook/parser.go:Config.sideEffects"]}
{"id": "C08", "title": "Every webhook marker is emitted exactly once in the right configuration", "statement": "On success the mutating configuration contains one webhook per marker with mutating=true and the validating configuration one per marker with mutating=false (as multisets), within each root package ordered by webhook name; the mutating object precedes the validating one; an object is emitted iff it has at least one webhook.", "quantifier": "all root package lists, all webhook markers", "why_tests_cant": "Unbounded numbers of packages and markers; grouping and ordering interact.", "anchors": ["pkg/webhook/parser.go:Generator.Generate"]}
{"id": "C09", "title": "Webhook rules translate verbs, groups and policies faithfully", "statement": "Emitted operations are the markers' verbs in order, mapped to the API constants case-insensitively where the code knows them and passed through otherwise; the group \"core\" becomes the empty group; failurePolicy, matchPolicy, sideEffects and reinvocationPolicy are mapped case-insensitively, and an unknown matchPolicy is an error.", "quantifier": "all webhook markers", "why_tests_cant": "Holds for arbitrary strings in every position.", "anchors": ["pkg/webhook/parser.go:verbToAPIVariant", "pkg/webhook/parser.go:Config.rules", "pkg/webhook/parser.go:Config.failurePolicy", "pkg/webhook/parser.go:Config.matchPolicy", "pkg/webhook/parser.go:Config.reinvocationPolicy"]}
{"id": "C10", "title": "Webhook configuration markers: duplicates and names", "statement": "Two +kubebuilder:webhookconfiguration markers of the same kind in one package are rejected; otherwise each emitted object is named by the (last package's) configuration marker for its kind or by the default name.", "quantifier": "all root package lists and configuration markers", "why_tests_cant": "Depends on the whole history of packages processed.", "anchors": ["pkg/webhook/parser.go:Generator.Generate"]}
{"id": "C11", "title": "Description truncation respects the limit", "statement": "With maxDescLen=n every description in the output schema has at most n characters; negative n changes nothing, 0 removes all descriptions, descriptions within the limit are unchanged, and a truncated one is a prefix of the original, optionally followed by an ellipsis.", "quantifier": "all schemas (any depth), all descriptions (any bytes), all integers n", "why_tests_cant": "Length bounds must hold for every byte string including multi-byte runes and strings without spaces.", "anchors": ["pkg/crd/desc_visitor.go:TruncateDescription", "pkg/crd/desc_visitor.go:truncateString", "pkg/crd/gen.go:Generator.MaxDescLen"]}
{"id": "C12", "title": "Description truncation touches every description and nothing else", "statement": "Truncation reaches the description of every nested schema (items, allOf, oneOf, anyOf, not, properties, additionalProperties, patternProperties, dependencies, additionalItems, definitions) and leaves every other field of every schema unchanged.", "quantifier": "all schemas of any depth and shape", "why_tests_cant": "Structural property over all finite schema trees.", "anchors": ["pkg/crd/desc_visitor.go:descVisitor.Visit", "pkg/crd/schema_visitor.go:EditSchema", "pkg/crd/schema_visitor.go:schemaWalker.walkSchema"]}
{"id": "C13", "title": "Marker name splitting and lookup", "statement": "For +name, +name=value and +a:b:c=value markers, the registry finds the definition of the full (anonymous) name in preference to the shorter name, returns a definition only if it was registered for that name and target, and the last registration for a (name,target) wins.", "quantifier": "all registries (any registration history), all marker strings, all targets", "why_tests_cant": "Quantifies over registration histories and arbitrary marker text.", "anchors": ["pkg/markers/reg.go:Registry.Register", "pkg/markers/reg.go:Registry.Lookup", "pkg/markers/parse.go:splitMarker"]}
{"id": "C14", "title": "Marker argument parsing inverts marker printing", "statement": "Printing a well-formed argument list (integers, booleans, strings, lists, maps) in the documented marker syntax and parsing it with the matching definition succeeds and returns the original values.", "quantifier": "all values of all argument types of unbounded size and nesting", "why_tests_cant": "Round-trip over an infinite recursive value domain; the scanner has many lexical corner cases.", "anchors": ["pkg/markers/parse.go:Definition.Parse", "pkg/markers/parse.go:Argument.parse", "pkg/markers/parse.go:parseString", "pkg/markers/parse.go:parseSlice"]}
{"id": "C15", "title": "Marker parsing is strict", "statement": "A strict definition accepts a marker only if every required argument is present, every supplied argument name is declared and nothing is left over; each error is reported instead of a value being silently dropped.", "quantifier": "all definitions, all marker texts", "why_tests_cant": "Universal over input text.", "anchors": ["pkg/markers/parse.go:Definition.Parse"]}
{"id": "C16", "title": "Markers are collected exactly once and attached to a unique node", "statement": "Every marker comment in a file whose definition is known is attached to exactly one node (or the package), markers separated from a declaration are never attached to a type when the definition only exists for packages, and unknown markers are ignored.", "quantifier": "all files (any number and placement of comments and declarations), all registries", "why_tests_cant": "Depends on every possible interleaving of comments and declarations.", "anchors": ["pkg/markers/collect.go:Collector.associateFileMarkers", "pkg/markers/collect.go:markerSubVisitor.Visit", "pkg/markers/collect.go:Collector.parseMarkersInPackage"]}
{"id": "C17", "title": "Documentation never contains marker lines", "statement": "The extracted description contains no marker comment line, no line starting with TODO and nothing at or after a line \"---\" (unless inside a fenced code block), and preserves all other lines in order.", "quantifier": "all comment groups (any number of lines, any text)", "why_tests_cant": "Universal over comment text; fence state is a history property.", "anchors": ["pkg/markers/zip.go:extractDoc"]}
{"id": "C18", "title": "Collector caching is transparent", "statement": "Collecting markers for a package any number of times, in any order with other packages, returns the same result as collecting it once; a failed collection is never cached as a success.", "quantifier": "all sequences of collection requests", "why_tests_cant": "History property over call sequences.", "anchors": ["pkg/markers/collect.go:Collector.MarkersInPackage"]}
{"id": "C19", "title": "Generated CRDs have a storage version and a served version", "statement": "If a CRD is generated without a reported error then it has at least one version, at least one served version and exactly one storage version; a single version is always the storage version.", "quantifier": "all sets of package versions and marker sets on the types", "why_tests_cant": "Unbounded number of versions and marker combinations.", "anchors": ["pkg/crd/spec.go:Parser.NeedCRDFor"]}
{"id": "C20", "title": "CRD naming", "statement": "Every generated CRD is named <plural>.<group>, with plural/singular/listKind/scope defaulted from the kind unless overridden by a resource marker, versions are sorted by name and there is one version per package that defines the kind in that group and is not skipped.", "quantifier": "all groups, kinds, versions and markers", "why_tests_cant": "Universal over inputs.", "anchors": ["pkg/crd/spec.go:Parser.NeedCRDFor", "pkg/crd/markers/crd.go:Resource.ApplyToCRD"]}
{"id": "C21", "title": "CRD generation does not depend on map iteration order", "statement": "For the same packages and markers the generated CRD and the set of reported errors are the same for every order in which Go iterates GroupVersions and the marker map.", "quantifier": "all packages, markers, pairs of iteration orders", "why_tests_cant": "Go map order is random; tests sample few orders.", "anchors": ["pkg/crd/spec.go:Parser.NeedCRDFor"]}
{"id": "C22", "title": "Version-scoped CRD markers affect exactly their version", "statement": "printcolumn, subresource, storageversion, unservedversion, deprecatedversion, selectablefield and skipversion markers on the type in one version change only that version's entry of the CRD, and error when the version is missing.", "quantifier": "all CRDs, versions, marker values", "why_tests_cant": "Frame property over all CRDs.", "anchors": ["pkg/crd/markers/crd.go:SubresourceStatus.ApplyToCRD", "pkg/crd/markers/crd.go:PrintColumn.ApplyToCRD", "pkg/crd/markers/crd.go:SkipVersion.ApplyToCRD"]}
{"id": "C23", "title": "Malformed metadata markers are reported as errors", "statement": "A +kubebuilder:metadata marker whose annotation or label is not of the form key=value makes generation report an error (it never crashes), and well-formed ones are all present in the CRD's metadata.", "quantifier": "all metadata markers", "why_tests_cant": "Crash-freedom for every string.", "anchors": ["pkg/crd/markers/crd.go:Metadata.ApplyToCRD"]}
{"id": "C24", "title": "Validation markers are only applied to compatible schema types", "statement": "A numeric bound marker changes a schema only if its type is integer or number (and an integral value for integer), string markers only if type is string or int-or-string, array markers only arrays, object markers only objects; otherwise an error is returned and the schema is unchanged; on success exactly the corresponding keyword is set.", "quantifier": "all schemas, all marker values", "why_tests_cant": "Universal over schemas and values.", "anchors": ["pkg/crd/markers/validation.go:Maximum.ApplyToSchema", "pkg/crd/markers/validation.go:MaxLength.ApplyToSchema", "pkg/crd/markers/validation.go:MaxItems.ApplyToSchema", "pkg/crd/markers/validation.go:MaxProperties.ApplyToSchema"]}
{"id": "C25", "title": "Marker application order", "statement": "Schema markers are applied in non-decreasing priority, so type-setting markers take effect before bounds and defaults; for markers touching distinct keywords the resulting schema is the same for every map iteration order, and items: markers are applied to the array's element schema only.", "quantifier": "all marker sets, all iteration orders", "why_tests_cant": "Order independence over factorially many permutations.", "anchors": ["pkg/crd/schema.go:applyMarkers", "pkg/crd/markers/priority.go:ApplyPriority", "pkg/crd/markers/topology.go:ListType.ApplyPriority"]}
{"id": "C26", "title": "Type references round-trip", "statement": "The $ref link generated for a (package, type) pair is resolved back to exactly that pair, and distinct pairs get distinct links.", "quantifier": "all package paths and Go type names", "why_tests_cant": "Injectivity over all strings; escape sequences interact.", "anchors": ["pkg/crd/schema.go:TypeRefLink", "pkg/crd/schema.go:qualifiedName", "pkg/crd/flatten.go:RefParts"]}
{"id": "C27", "title": "Flattened schemas contain no references", "statement": "The flattened schema of a type whose referenced types are all known contains no $ref at any depth, and flattening terminates for every reference graph, including recursive types.", "quantifier": "all finite type graphs, including cyclic ones", "why_tests_cant": "Termination and completeness over arbitrary graphs.", "anchors": ["pkg/crd/flatten.go:Flattener.FlattenType", "pkg/crd/flatten.go:Flattener.FlattenSchema"]}
{"id": "C28", "title": "Flattening allOf preserves validation semantics", "statement": "An instance is valid against the schema after allOf flattening iff it was valid against the schema before, whenever no error is reported (Kubernetes structural restrictions stated as guard).", "quantifier": "all schemas of any depth and all instances", "why_tests_cant": "Semantic equivalence over infinitely many schemas and instances.", "anchors": ["pkg/crd/flatten.go:flattenAllOfInto", "pkg/crd/flatten.go:allOfVisitor.Visit", "pkg/crd/flatten.go:FlattenEmbedded"]}
{"id": "C29", "title": "After flattening no allOf with type-bearing members is left where avoidable, required lists are normalised", "statement": "After flattening, every required list that was merged is sorted and duplicate free and contains exactly the union of the merged lists; properties are the union of the merged property names.", "quantifier": "all schemas", "why_tests_cant": "Universal over schemas.", "anchors": ["pkg/crd/flatten.go:flattenAllOfInto"]}
{"id": "C30", "title": "Struct fields map to properties and required lists", "statement": "A field appears as property exactly under its JSON name iff it has a json tag other than \"-\" and is not inlined (and is exported when unexported fields are ignored); it is listed as required iff an explicit marker says so, or no marker says otherwise and the package default is required and the tag has neither omitempty nor inline; fields without json tag are reported.", "quantifier": "all structs (any number of fields, tags and markers)", "why_tests_cant": "Universal over field lists.", "anchors": ["pkg/crd/schema.go:structToSchema"]}
{"id": "C31", "title": "Go types map to JSON types soundly", "statement": "Every generated schema node for a builtin type carries the JSON type that Go's encoding/json uses for it; floats are rejected unless dangerous types are allowed; maps with non-string keys are rejected; []byte is a byte-format string; arrays/maps/pointers are translated compositionally.", "quantifier": "all Go type expressions of any nesting", "why_tests_cant": "Structural induction over types.", "anchors": ["pkg/crd/schema.go:typeToSchema", "pkg/crd/schema.go:builtinToType", "pkg/crd/schema.go:mapToSchema", "pkg/crd/schema.go:arrayToSchema"]}
{"id": "C32", "title": "Only real API kinds become CRDs", "statement": "A kind is generated iff some root package (not marked to be skipped) declares a struct type of that name that embeds both TypeMeta and ObjectMeta of the meta/v1 package; the list of kinds is duplicate free and sorted, and independent of the order of map iteration.", "quantifier": "all sets of packages and types, all iteration orders", "why_tests_cant": "Universal over package contents.", "anchors": ["pkg/crd/gen.go:FindKubeKinds"]}
{"id": "C33", "title": "CRD files: one per kind, predictable name, no bogus file", "statement": "For each kind that yields a CRD exactly one file <group>_<plural>.yaml per CRD version is written, and nothing is written for a kind whose versions are all skipped.", "quantifier": "all sets of kinds and CRDs", "why_tests_cant": "Universal over inputs; the all-skipped case is a corner.", "anchors": ["pkg/crd/gen.go:Generator.Generate"]}
{"id": "C34", "title": "Command line options are interpreted completely", "statement": "Every option is either a known generator, output rule or paths option, or an error is returned; a generator may appear once; an output rule for a generator that is not run is an error; the last default output rule wins; paths are concatenated in order; no option is silently ignored.", "quantifier": "all option lists", "why_tests_cant": "Universal over option sequences.", "anchors": ["pkg/genall/options.go:protoFromOptions", "pkg/genall/options.go:FromOptionsWithConfig", "pkg/genall/options.go:splitOutputRuleOption"]}
{"id": "C35", "title": "A failing generator does not stop the others and failure is reported", "statement": "Running the runtime invokes every generator exactly once in order regardless of earlier errors, and reports failure iff some generator returned an error or some loaded package carries a non-type error, or there was nothing to run.", "quantifier": "all generator lists, all error patterns, all package graphs", "why_tests_cant": "Fault patterns are unbounded.", "anchors": ["pkg/genall/genall.go:Runtime.Run", "pkg/loader/loader.go:PrintErrors"]}
{"id": "C36", "title": "Output rules choose a single, predictable destination", "statement": "For every generator the output rule used is its own rule if present and otherwise the default; artifacts go to the package directory when associated with a package (code) and to the config directory otherwise; nothing escapes the configured directory names.", "quantifier": "all output rule tables, all items", "why_tests_cant": "Universal.", "anchors": ["pkg/genall/output.go:OutputRules.ForGenerator", "pkg/genall/output.go:OutputArtifacts.Open", "pkg/genall/output.go:DirectoryPerGenerator"]}
{"id": "C37", "title": "YAML documents are delimited", "statement": "WriteYAML emits the header followed by each object as its own document introduced by ---, in order, so that n objects always yield n documents.", "quantifier": "all object lists and headers", "why_tests_cant": "Universal over list length.", "anchors": ["pkg/genall/genall.go:GenerationContext.WriteYAML"]}
{"id": "C38", "title": "YAML path edits obey get/set/delete laws", "statement": "After setting a path, getting it returns the new node and getting any unrelated path returns what it did before, with key order preserved; deleting a path makes it absent and leaves the others; deleting an absent path changes nothing.", "quantifier": "all YAML trees, all paths", "why_tests_cant": "Lens laws over infinitely many trees.", "anchors": ["pkg/schemapatcher/internal/yaml/set.go:SetNode", "pkg/schemapatcher/internal/yaml/set.go:DeleteNode", "pkg/schemapatcher/internal/yaml/nested.go:GetNode", "pkg/schemapatcher/internal/yaml/nested.go:asCloseAsPossible"]}
{"id": "C39", "title": "Schema patching only touches schemas", "statement": "Patching a CRD manifest changes only spec.validation and the schema entries of spec.versions; versions with a generated schema get exactly it, other versions lose theirs, everything else including ordering is preserved; patching twice equals patching once; malformed versions are errors, not crashes.", "quantifier": "all CRD YAML documents, all generated schema maps", "why_tests_cant": "Frame property over arbitrary documents.", "anchors": ["pkg/schemapatcher/gen.go:partialCRD.setVersionedSchemata", "pkg/schemapatcher/gen.go:Generator.Generate"]}
{"id": "C40", "title": "Vendor prefix stripping", "statement": "Stripping the vendor prefix returns the part after the last /vendor/, contains no further /vendor/ segment, and is idempotent.", "quantifier": "all import paths", "why_tests_cant": "Universal over strings.", "anchors": ["pkg/loader/paths.go:NonVendorPath", "pkg/deepcopy/traverse.go:importsList.NeedImport"]}
{"id": "C41", "title": "Parallel type checking is complete, ordered and deadlock free", "statement": "For every acyclic import graph and every goroutine schedule, checking a root terminates, type-checks every package reachable through interesting references, each exactly once and only after the packages it references, and no schedule deadlocks.", "quantifier": "all finite acyclic import graphs, all goroutine interleavings", "why_tests_cant": "Interleavings are unbounded; locks are held while waiting for children.", "anchors": ["pkg/loader/refs.go:TypeChecker.check", "pkg/loader/refs.go:TypeChecker.Check", "pkg/loader/loader.go:Package.NeedTypesInfo"]}
{"id": "C42", "title": "Errors added to a package are never lost", "statement": "Adding any (possibly nested) error list to a package appends every leaf error, in order, with kinds assigned by error class, and printing reports failure iff some error of a non-filtered kind exists in a reachable package.", "quantifier": "all nested error lists, all package graphs", "why_tests_cant": "Universal over nesting and graphs.", "anchors": ["pkg/loader/loader.go:Package.AddError", "pkg/loader/loader.go:PrintErrors", "pkg/loader/errors.go:ErrFromNode"]}
{"id": "C43", "title": "Deep copies are equal and independent", "statement": "For every supported type the generated DeepCopy returns a value structurally equal to the original that shares no mutable memory with it, for every value of the type.", "quantifier": "all type definitions in the supported grammar (including recursive named types), all heaps and values", "why_tests_cant": "Correctness of generated code for all types and all values.", "anchors": ["pkg/deepcopy/traverse.go:copyMethodMaker.genDeepCopyIntoBlock", "pkg/deepcopy/traverse.go:fineToShallowCopy", "pkg/deepcopy/traverse.go:genStructDeepCopy"]}
{"id": "C44", "title": "Generated import aliases are unambiguous", "statement": "The import aliases in generated code are pairwise distinct, differ from the package's own name, are stable for the same path, and computing them terminates.", "quantifier": "all sequences of import requests", "why_tests_cant": "Histories of unbounded length; loop termination.", "anchors": ["pkg/deepcopy/traverse.go:importsList.NeedImport"]}
{"id": "C45", "title": "Which types get deepcopy code", "statement": "A type gets methods iff it is exported, copyable by the documented rules and enabled by its own marker, else its legacy marker, else the package marker or object marker, with explicit type markers always overriding.", "quantifier": "all marker combinations and types", "why_tests_cant": "Decision table with unbounded marker lists.", "anchors": ["pkg/deepcopy/gen.go:enabledOnType", "pkg/deepcopy/gen.go:enabledOnPackage", "pkg/deepcopy/gen.go:genObjectInterface", "pkg/deepcopy/traverse.go:shouldBeCopied"]}
{"id": "C46", "title": "Marker help is complete and deterministic", "statement": "The help output lists every registered definition exactly once, under its group, with groups sorted and markers within a group ordered, and fields sorted by name, whatever the map iteration order.", "quantifier": "all registries, all iteration orders", "why_tests_cant": "Order independence.", "anchors": ["pkg/genall/help/types.go:ByCategory", "pkg/genall/help/types.go:ForDefinition", "pkg/genall/help/sort.go:optionsSort.Less"]}
{"id": "C47", "title": "Help tables are aligned", "statement": "Every cell of a help table column is padded to the same width, at least the width of its widest cell plus padding, and padding of any requested amount is written exactly.", "quantifier": "all tables", "why_tests_cant": "Universal over sizes (padding buffers have a fixed size and are written in chunks).", "anchors": ["pkg/genall/help/pretty/table.go:TableCalculator.ColumnWidths", "pkg/genall/help/pretty/print.go:writePadding", "pkg/genall/help/pretty/print.go:Table.WriteTo"]}
{"id": "C48", "title": "Root packages are canonicalised in the import graph", "statement": "After loading roots, every import edge reachable from a root that names a root package refers to the root's own package object.", "quantifier": "all package graphs loaded in several batches", "why_tests_cant": "Graph traversal with a visited set and in-place updates over arbitrary graphs.", "anchors": ["pkg/loader/loader.go:visitImports", "pkg/loader/loader.go:LoadRootsWithConfig"]}
{"id": "C49", "title": "Truncated descriptions remain valid text", "statement": "Truncating a description that is valid UTF-8 yields valid UTF-8.", "quantifier": "all descriptions, all limits, all Unicode tables", "why_tests_cant": "depends on where a multi-byte character falls relative to the limit and on which of its bytes are kept; a test tries a few ASCII sentences", "anchors": ["pkg/crd/desc_visitor.go: truncateString"]}
{"id": "C50", "title": "Flattening is deterministic", "statement": "The flattened schema of a type is the same for every map iteration order and whatever types were flattened before it.", "quantifier": "all graphs of types across packages, all iteration orders, all histories of earlier requests", "why_tests_cant": "Go randomises map iteration and the flattener caches intermediate results, so the result could depend on either; a test sees a few orders", "anchors": ["pkg/crd/flatten.go:Flattener.FlattenType", "pkg/crd/flatten.go:Flattener.FlattenSchema", "pkg/crd/flatten.go:Flattener.cacheType"]}
{"id": "C51", "title": "Flattening preserves the meaning of references", "statement": "The flattened schema of a type accepts exactly the JSON values that satisfy the schema of the type where each reference requires the type referred to to accept the value, together with the keywords beside the reference.", "quantifier": "all graphs of types across packages, all JSON values, all iteration orders and histories", "why_tests_cant": "ranges over all graphs and all values; tests compare printed schemas for a few types", "anchors": ["pkg/crd/flatten.go:Flattener.FlattenSchema", "pkg/crd/flatten.go:preserveFields"]}
{"id": "C52", "title": "Fields keep their documentation, or inherit that of their type", "statement": "In the flattened schema of a type, every field has its own description, title, external documentation and example or, where it has none, those of the type it refers to.", "quantifier": "all graphs of non-recursive types, all fields at any depth, all iteration orders and histories", "why_tests_cant": "ranges over chains of references of any length and over cached intermediate results", "anchors": ["pkg/crd/flatten.go:preserveFields", "pkg/crd/flatten.go:Flattener.FlattenSchema"]}
{"id": "C53", "title": "Validation rules keep their source order", "statement": "The CEL validation rules of a generated schema appear in the order in which their XValidation markers are written in the source, and a rule with an unknown reason is reported and left out.", "quantifier": "all marker sets, all schemas they are applied to and all map iteration orders", "why_tests_cant": "The order of map iteration and an unstable sort decide; a test observes one outcome.", "anchors": ["pkg/crd/schema.go:applyMarkers", "pkg/crd/markers/validation.go:XValidation.ApplyToSchema"]}
{"id": "C54", "title": "Schema generation never crashes", "statement": "Generating the schema of any declared type ends with a schema and a list of reported errors; it never crashes, whatever the Go types of its fields.", "quantifier": "all declarations, all types of fields at any depth, all marker sets and map iteration orders", "why_tests_cant": "ranges over all type expressions; a crash needs a particular combination of types", "anchors": ["pkg/crd/schema.go:infoToSchema", "pkg/crd/schema.go:localNamedToSchema", "pkg/crd/schema.go:namedToSchema"]}
{"id": "C55", "title": "Asking for a schema generates all schemas it needs, once", "statement": "Asking for the schema of a type ends; afterwards every type that can be reached from it by references has the schema that is generated from its declaration, no schema made before is changed and none is generated twice.", "quantifier": "all programs with finitely many types (also recursive ones), all starting states, all map iteration orders", "why_tests_cant": "ranges over all reference graphs including cycles", "anchors": ["pkg/crd/parser.go:Parser.NeedSchemaFor", "pkg/crd/parser.go:Parser.AddPackage", "pkg/crd/schema.go:schemaContext.requestSchema"]}
{"id": "C56", "title": "Generated schemas accept what Go writes", "statement": "Every JSON value that encoding/json writes for a value of a type is accepted by the schema generated for the type, by its flattened schema and by the schema in the CRD.", "quantifier": "all programs without validation markers, all types, all values of any size", "why_tests_cant": "ranges over all types and all their values", "anchors": ["pkg/crd/schema.go:infoToSchema", "pkg/crd/schema.go:structToSchema", "pkg/crd/flatten.go:Flattener.FlattenType"]}
{"id": "C57", "title": "Markers of a declaration act once", "statement": "The markers of a type declaration act exactly once on the schema generated from its type expression.", "quantifier": "all declarations, all marker sets and map iteration orders", "why_tests_cant": "ranges over all type expressions and marker sets", "anchors": ["pkg/crd/schema.go:infoToSchema", "pkg/crd/schema.go:typeToSchema", "pkg/crd/schema.go:applyMarkers"]}
{"id": "C58", "title": "Root objects implement runtime.Object", "statement": "Generated code gives every type that is marked as a root object (and gets methods) a DeepCopyObject method, and gives one to no other type.", "quantifier": "all type declarations, marker lists and methods present in the source", "why_tests_cant": "Depends on unbounded marker lists combined with which methods already exist.", "anchors": ["pkg/deepcopy/traverse.go:GenerateMethodsFor", "pkg/deepcopy/gen.go:genObjectInterface"]}
{"id": "C59", "title": "Type information does not depend on the goroutine schedule", "statement": "When the checker type-checks packages with one goroutine per package, the types that a package sees for each of its imports are the complete, already checked types of that import, whatever order the goroutines run in; two runs over the same packages give the same type information.", "quantifier": "all import graphs, all choices of references per package, all interleavings of the goroutines", "why_tests_cant": "a test runs one schedule; the schedules in which an import is checked too late need not occur in any test run", "anchors": ["pkg/loader/refs.go: TypeChecker.check, TypeChecker.Check, allReferencedPackages", "pkg/loader/loader.go: Package.NeedTypesInfo, typeCheck"]}
{"id": "C60", "title": "Package markers do not depend on map order", "statement": "The values of each marker of a package (and the first of them, which generators use) are the same in every run on the same files.", "quantifier": "all files, all registries, all orders of iteration over maps", "why_tests_cant": "Go chooses the order of iteration at random; a test sees some of the orders.", "anchors": ["pkg/markers/collect.go:Collector.associateFileMarkers", "pkg/markers/collect.go:MarkerValues.Get", "pkg/markers/zip.go:PackageMarkers"]}
{"id": "C61", "title": "Every top-level type is reported once, with its declaration", "statement": "Iterating over the types of a package reports every type declared at the top level exactly once, in source order, together with the declaration it is part of, and no type declared inside of a function or another type.", "quantifier": "all packages (any number of files, declarations and types)", "why_tests_cant": "Universal over syntax trees; the declaration is kept in mutable state of the visitor.", "anchors": ["pkg/loader/visit.go:EachType", "pkg/loader/visit.go:typeVisitor.Visit", "pkg/markers/zip.go:EachType"]}
{"id": "C62", "title": "Schema patching writes every manifest once, or none", "statement": "A schema patching run that succeeds writes every manifest it read exactly once under its own name: unchanged if no Go package has the kind's group and one of its versions, else patched with the schemas of those packages. A run that fails writes nothing. What is written does not depend on the order of map iteration.", "quantifier": "all sets of manifests, all package sets, all map iteration orders", "why_tests_cant": "All-or-nothing and order independence range over every set of manifests, every failing subset and every iteration order.", "anchors": ["pkg/schemapatcher/gen.go:Generator.Generate", "pkg/schemapatcher/gen.go:partialCRDSet.setVersionedSchemata"]}
{"id": "C63", "title": "Written objects lose only the status and the creation timestamp", "statement": "The documents written for a CRD, a role or a webhook configuration are the object without metadata.creationTimestamp (and, for a CRD, without status, and with spec.preserveUnknownFields as asked for); every other field is written as it is. No object makes writing crash.", "quantifier": "all objects, all settings", "why_tests_cant": "Frame property over arbitrary objects.", "anchors": ["pkg/genall/genall.go:TransformRemoveCreationTimestamp", "pkg/genall/genall.go:yamlJSONToYAMLWithFilter", "pkg/crd/gen.go:transformRemoveCRDStatus", "pkg/crd/gen.go:transformPreserveUnknownFields"]}
{"id": "C64", "title": "Marker help says how a marker is used", "statement": "The help of a marker shows its name and every argument it accepts, in the order of names, each with its name, its type as a user would write it, and whether it may be left out; no argument type makes help crash.", "quantifier": "all marker definitions, all argument types of any nesting", "why_tests_cant": "Universal over definitions and nested argument types.", "anchors": ["pkg/genall/help/types.go:ForDefinition", "pkg/genall/help/types.go:Argument.TypeString", "pkg/genall/help/pretty/help.go:MarkerSyntaxHelp", "pkg/genall/help/pretty/help.go:FieldSyntaxHelp"]}
{"id": "C65", "title": "A marker defined from a Go type accepts exactly what the type says", "statement": "Defining a marker from a Go type succeeds exactly if the type, or every exported field of the struct, is one of the supported types; the marker then has one argument for every exported field, named by its tag or by its lower camel case name, with the type of the field, optional exactly if the type is a pointer or the tag says so; a type that is not a struct gives one argument without a name.", "quantifier": "all names, targets, Go types of any nesting, all structs and tags", "why_tests_cant": "Universal over type shapes and tags.", "anchors": ["pkg/markers/parse.go:ArgumentFromType", "pkg/markers/parse.go:argumentInfo", "pkg/markers/parse.go:Definition.loadFields", "pkg/markers/parse.go:MakeDefinition"]}
{"id": "C66", "title": "Exactly the packages that the roots name are loaded, once each", "statement": "The packages that paths= loads are exactly those the roots ask for, with one package for each ID: without roots the package of the base directory, all roots that are not paths together as patterns of the Go tool, for a path the package of this directory, and for a path that ends with /... the packages below this directory and those of every module nested in it; relative paths are relative to the configured directory, or else to the working directory. Loading fails exactly if the Go tool fails for one of these or a directory cannot be searched.", "quantifier": "all lists of roots, working and configured directories, all file trees and results of the Go tool", "why_tests_cant": "Universal over combinations of roots, overlapping trees and nested modules.", "anchors": ["pkg/loader/loader.go:LoadRootsWithConfig", "pkg/loader/loader.go:LoadRoots"]}
{"id": "C67", "title": "Exactly the packages that types refer to are type-checked", "statement": "Checking a package gives types to exactly the packages that its types need: those imported with a dot, and those whose name is mentioned in a type in a part of interest (for CRDs: not in interfaces and not in fields without a json tag; for DeepCopy: not in interfaces), and those these need in turn; the errors that are reported are about exactly the names of packages that the file does not import and the imports that do not exist.", "quantifier": "all packages, files, imports, syntax trees, sets of filters, all orders of iterations over maps and schedules of goroutines", "why_tests_cant": "Universal over import graphs, syntax trees and schedules.", "anchors": ["pkg/loader/refs.go:mapImports", "pkg/loader/refs.go:allReferencedPackages", "pkg/loader/refs.go:referenceCollector.Visit", "pkg/loader/refs.go:TypeChecker.isNodeInteresting", "pkg/crd/gen.go:filterTypesForCRDs", "pkg/deepcopy/gen.go:Generator.CheckFilter"]}
{"id": "C68", "title": "Every marker of controller-gen is recognised in each of its forms", "statement": "Whichever generators are chosen, in whichever order, start-up succeeds and every marker of a chosen generator is recognised on its target by its name alone, by +name=value and by +name:argument=value for each of its arguments, whatever the values: no marker of another generator and no other marker of the same one hides it. Written with texts that denote values for its arguments, parsing it yields these values; and nothing but a marker of a chosen generator is recognised.", "quantifier": "all lists of generators, all their markers and arguments, all texts of values", "why_tests_cant": "tests use a few markers with one generator at a time and a few values; whether any of the names and arguments of all generators collide, for every order of registration and every value text, is not tested", "anchors": ["pkg/crd/markers/*.go (AllDefinitions, Register, mustMakeAllWithPrefix, mustOptional)", "pkg/rbac/parser.go RegisterMarkers", "pkg/webhook/parser.go RegisterMarkers", "pkg/deepcopy/gen.go RegisterMarkers", "pkg/applyconfiguration/gen.go RegisterMarkers", "pkg/markers/parse.go MakeDefinition, MakeAnyTypeDefinition", "pkg/markers/regutil.go Must"]}
{"id": "C69", "title": "The markers of a package are those of its files, in order", "statement": "The values of a package-level marker are the values on the files of the package, in the order of the files, whichever order maps are visited in; where one value counts it is the first one on the first file that carries the marker, and there is none exactly if no file carries it.", "quantifier": "all packages, all assignments of marker values to files, all orders of map iteration", "why_tests_cant": "tests have one or two files; the merge iterates over maps, and the claim is for every order and any number of files", "anchors": ["pkg/markers/zip.go PackageMarkers", "pkg/markers/collect.go MarkerValues.Get"]}
{"id": "C70", "title": "Apply configurations are generated for exactly the enabled types", "statement": "For every package, apply configurations are requested for exactly the types that +kubebuilder:ac:generate enables, or that have +kubebuilder:resource and are not disabled, in the directory that +kubebuilder:ac:output:package names as seen from the directory of the package; a type may be enabled in a disabled package and disabled in an enabled one; every root is treated, and the generator fails exactly if something went wrong for one of them; it never panics.", "quantifier": "all lists of root packages, all marker values on files and types, all comments of types, all orders of map iteration, all behaviours of the code generation library", "why_tests_cant": "one golden file for one package; combinations of markers, comments, failing packages and orders are not covered", "anchors": ["pkg/applyconfiguration/gen.go Generate, generateForPackage, enabledOnPackage, enabledOnType, outputPkg, isCRD"]}
{"id": "C71", "title": "The header of generated files is the header file with the year filled in", "statement": "Every generator that takes headerFile and year puts the text of the header file in front, with ' YEAR' replaced, wherever it occurs, by a space and the year and nothing else changed; without a header file the header is empty, and generation fails exactly if the file cannot be read.", "quantifier": "all header texts, all years, all behaviours of the file system", "why_tests_cant": "texts are unbounded; tests use one header without a year", "anchors": ["pkg/crd/gen.go Generate", "pkg/rbac/parser.go Generate", "pkg/webhook/parser.go Generate", "pkg/deepcopy/gen.go Generate", "cmd/helpgen/main.go Generate"]}
{"id": "C72", "title": "Generated help says what the documentation says", "statement": "helpgen writes, for each package with marked types, one method Help per marked type and for no other type, in the order of the names; its literals denote exactly the category of the marker, the first line of the type's documentation without the leading name as summary, the other lines as details, and the same for every field; the output does not depend on the order of map iteration, and helpgen does not panic and its output compiles.", "quantifier": "all packages, all types with any fields and any documentation text (any characters), all headers, all orders of map iteration", "why_tests_cant": "there are no tests of helpgen; escaping has to be right for every character", "anchors": ["cmd/helpgen/main.go godocToDetails, Generate", "pkg/markers/zip.go EachType"]}
{"id": "C73", "title": "The command line of controller-gen is understood as it is written", "statement": "Registering the options never panics and its map orders do not matter; every generator, output rule and paths option is accepted as its bare name when it requires no argument, as name=value and as name:arg=value,… with exactly the values that the texts denote for the fields of its Go type; nothing else is accepted, in particular no misspelt argument, and no required argument may be missing; reading the options never panics; the examples in the help do what the help says.", "quantifier": "all command lines, all values and texts that denote them, all orders of map iteration at start-up and afterwards", "why_tests_cant": "tests run a handful of command lines; texts of values are unbounded and the orders of map iteration vary between runs", "anchors": ["cmd/controller-gen/main.go init, main", "pkg/genall/options.go protoFromOptions", "pkg/markers/parse.go MakeDefinition, Definition.Parse"]}
{"id": "C74", "title": "type-scaffold prints the four types of the kind and nothing else", "statement": "type-scaffold prints exactly when the kind is given, not empty and in the form the inflection library makes of it; what it prints declares the spec, the status, the root and the list type of that kind and nothing else, whatever the resource, the scope and the additional help; every line of the help is shown as a comment in the spec and the status; the markers above the root and the list make them runtime.Objects and say whether there is a client and whether it is of the cluster; the flag for the scope is respected.", "quantifier": "all kinds, resources, helps and flags, and all inflection libraries", "why_tests_cant": "names and helps are unbounded texts; a test compares the output for one kind", "anchors": ["pkg/typescaffold/resource.go Validate", "pkg/typescaffold/scaffold.go typesTemplateRaw, Scaffold", "cmd/type-scaffold/main.go main"]}
{"id": "C75", "title": "Patching a directory of manifests changes the schemas of its CRDs and nothing else", "statement": "A run of the schema patcher over a directory fails exactly if the directory or one of its YAML files cannot be read or a manifest is a CRD of another version than v1, or a manifest cannot be patched, and then nothing is written; a run that succeeds writes each CRD manifest of the directory once, under its own name, and no other file; a manifest for whose group and kind types and manifests provide no schema is written as it was, and another differs only in the schemas, each of which types provide for a version that a manifest of that kind lists; done in place, every file that is no manifest, and every other document, is as before.", "quantifier": "all directories, contents of files, behaviours of the YAML libraries, types and orders of maps", "why_tests_cant": "directories, numbers of manifests per kind, and map orders are unbounded; tests run over one fixture", "anchors": ["pkg/schemapatcher/gen.go crdsFromDirectory, Generate, isSupportedAPIExtGroupVer, crdIsh, partialCRDSet"]}
{"id": "C76", "title": "controller-gen does the one thing it is asked for, and its exit status says whether it was done", "statement": "A call of controller-gen asks for exactly one thing: the version, help, the markers, or running generators, in this order of precedence. Asking for the version or for help always succeeds, whatever the options are, and runs nothing; asking for markers runs nothing, succeeds exactly if the options are understood, and shows the markers of the generators named; otherwise the generators are run exactly if the options are understood, name a generator, and the packages can be loaded with the build tags given, and the call succeeds exactly if moreover the run does not fail. A call that fails has status 1, shows the summary of the options exactly if no generator was run, and ends with advice that works.", "quantifier": "all flags, options, generators, packages and map orders", "why_tests_cant": "flags and options combine without bound, and generators are arbitrary; the program's main function has no tests", "anchors": ["cmd/controller-gen/main.go main, printMarkerDocs, helpForLevels", "pkg/genall/options.go RegistryFromOptions", "pkg/genall/genall.go RegisterMarkers, ForRootsWithConfig", "pkg/version/version.go Version, Print"]}
{"id": "C77", "title": "Defaults, examples and enums in the schema are the values that were written", "statement": "If the text after `+default=` is JSON other than null, the default in the schema is a JSON text for the same value; null and references set no default; any other text is reported as an error. The value after `+kubebuilder:default=`, `+kubebuilder:example=` and each value of `+kubebuilder:validation:Enum=` appears in the schema as a JSON text for that value, except that `{}` is the empty list for a schema of type array.", "quantifier": "all texts, all JSON values of any depth, all marker arguments, all schemas", "why_tests_cant": "values nest without bound, and texts have many forms: escapes, white space, exponents, members in any order", "anchors": ["pkg/crd/markers/validation.go Default.ApplyToSchema, KubernetesDefault.ParseMarker, KubernetesDefault.ApplyToSchema, Example.ApplyToSchema, Enum.ApplyToSchema", "pkg/markers/parse.go Definition.Parse"]}
{"id": "C78", "title": "Validation markers are enforced at any depth, and nothing else is", "statement": "A JSON value that breaks a validation marker of a type or of a field, breaks a marker for the items of a list, or lacks a required field, anywhere in the value as the Go types describe it, is rejected by the schema generated for the type, by its flattened schema and by the schema in the CRD. A value that encoding/json writes for a value of the type and that breaks no marker and lacks no required field is accepted.", "quantifier": "all programs, all markers and sets of markers, all types, all JSON values of any depth, all orders in which schemas are generated and flattened", "why_tests_cant": "ranges over all combinations of types and markers, and over values of any depth; references, allOf merging and the order of markers interact", "anchors": ["pkg/crd/schema.go:applyMarkers", "pkg/crd/schema.go:structToSchema", "pkg/crd/schema.go:infoToSchema", "pkg/crd/markers/validation.go:ApplyToSchema", "pkg/crd/flatten.go:Flattener.FlattenType", "pkg/crd/flatten.go:FlattenEmbedded"]}
{"id": "C79", "title": "The schema in a CRD is structural", "statement": "The schema generated for a type, flattened and merged as it is written into the CRD, satisfies the rules of the API server for structural schemas: a type (or x-kubernetes-int-or-string or x-kubernetes-preserve-unknown-fields) is given for the root, for every field, for every item and for every value of a map; every field and item that is mentioned within a logical junctor is specified outside of it as well; and within a logical junctor no description, type, default, additionalProperties, nullable, title or x-kubernetes- keyword is used, except for the pattern for integers or strings.", "quantifier": "all programs, all types and markers of any nesting, all schedules of the parser and the flattener", "why_tests_cant": "ranges over all programs: whether a keyword ends up within an allOf depends on what references, embedded structs and markers meet at the same place", "anchors": ["pkg/crd/flatten.go:FlattenEmbedded", "pkg/crd/flatten.go:flattenAllOfInto", "pkg/crd/flatten.go:preserveFields", "pkg/crd/schema.go:infoToSchema", "pkg/crd/schema.go:structToSchema", "pkg/crd/known_types.go:KnownPackages"]}
{"id": "C80", "title": "Fields of well-known Kubernetes types accept the values of these types and no others", "statement": "For a type of the Kubernetes libraries with its own JSON form (ObjectMeta, Time, MicroTime, Duration, Fields, Quantity, RawExtension, Unstructured, IntOrString, JSON) the schema is fixed, however the package is vendored and whatever else has been generated before, and it accepts exactly the JSON values of the type: quantities are integers or texts of the documented grammar (signed number and suffix), times are strings in the format date-time, and so on; embedded metadata is checked member by member if this is asked for.", "quantifier": "all programs, all orders of requests to the parser, all JSON values, both settings of the option for embedded metadata", "why_tests_cant": "ranges over all texts: that the regular expression for quantities is equivalent to their grammar is a statement about infinitely many strings", "anchors": ["pkg/crd/known_types.go:KnownPackages", "pkg/crd/known_types.go:ObjectMetaPackages", "pkg/crd/known_types.go:AddKnownTypes", "pkg/crd/parser.go:NeedPackage", "pkg/crd/parser.go:NeedSchemaFor"]}
{"id": "C81", "title": "Permissions granted are those that the comments in the source ask for", "statement": "From the parsed files of the root packages to the generated roles: a request is granted in a namespace only if some comment `+kubebuilder:rbac:...` in these files asks for it, for this namespace; and every request that such a comment asks for is granted, if the comment is at a place where package markers are looked for and no marker of the package is wrong. This holds whichever other generators are enabled, in whichever order maps are iterated over, and whichever notation is used for lists. A package with a wrong marker gets an error and contributes nothing.", "quantifier": "all lists of packages and files, all placements and texts of comments, all sets and orders of enabled generators, all map orders, all requests", "why_tests_cant": "ranges over all syntax trees and comment texts, all combinations of registered markers and all requests; it composes collecting, lookup, parsing and merging", "anchors": ["pkg/rbac/parser.go:GenerateRoles", "pkg/markers/zip.go:PackageMarkers", "pkg/markers/collect.go:MarkersInPackage", "pkg/markers/collect.go:associatePkgMarkers", "pkg/markers/parse.go:Parse", "pkg/markers/reg.go:Lookup"]}
{"id": "C82", "title": "Types and fields are reported with the markers written on them", "statement": "For every parsed package, the types reported to the generators are those declared at the top level of its files, in order, each with its fields in order, one per name of a field and one without a name per embedded field. The marker values of a type or field are those of the marker comments in its documentation or in the closest comment group above it, with the arguments written there, and no others; values of the same marker come in the order in which the comments are written. This holds whichever generators are enabled, in whichever order maps are iterated over. Reading the types fails exactly if some attached marker does not parse.", "quantifier": "all packages, files, placements and texts of comments, all sets and orders of enabled generators, all map orders, all markers of controller-gen", "why_tests_cant": "ranges over all syntax trees and comment texts and all combinations of registered markers; it composes the walk over the files, lookup and parsing", "anchors": ["pkg/markers/zip.go:EachType", "pkg/markers/collect.go:MarkersInPackage", "pkg/markers/collect.go:markerVisitor.Visit", "pkg/markers/parse.go:Parse", "pkg/markers/reg.go:Lookup", "pkg/loader/visit.go:EachType"]}
{"id": "C83", "title": "Validation comments in the source are enforced by the CRD", "statement": "If a validation comment (+kubebuilder:validation:... for bounds, lengths, patterns, formats, enumerations, types, CEL rules, or their items: forms, and +required / +kubebuilder:validation:Required) is written in the documentation of a type or field of a parsed package, or directly above it, then the schema that is generated for any type in whose values such a type or field occurs, at any depth and in any imported package, rejects every value that violates the comment, whichever other generators are enabled and in whichever order maps are iterated over.", "quantifier": "all packages, files, texts and placements of comments, all types that reach each other through fields, lists, maps, pointers and embedding, all JSON values, all combinations of generators and map orders", "why_tests_cant": "ranges over all source files and all JSON values; it composes the reading of comments, the parsing of markers, the schemas of all types, flattening and merging", "anchors": ["pkg/markers/collect.go:MarkersInPackage", "pkg/markers/zip.go:EachType", "pkg/markers/parse.go:Parse", "pkg/crd/markers/validation.go:ApplyToSchema", "pkg/crd/schema.go:infoToSchema", "pkg/crd/schema.go:structToSchema", "pkg/crd/flatten.go:FlattenType", "pkg/crd/flatten.go:FlattenEmbedded"]}
{"id": "C84", "title": "Webhook configurations list exactly the webhooks that the comments in the source ask for", "statement": "From the parsed files of the root packages to the generated file: if the webhook generator succeeds, then its output is one file with at most one MutatingWebhookConfiguration and at most one ValidatingWebhookConfiguration that list the webhooks asked for by the comments `+kubebuilder:webhook:...`, each comment once, package by package and sorted by name within a package, with all the values written in the comment; each object has the name that the last comment `+kubebuilder:webhookconfiguration:...` of its kind gives. Every placed comment of a package without wrong markers counts. The generator succeeds if all webhooks asked for are acceptable to the v1 API and no package names the object of a kind twice. This holds whichever other generators are enabled and in whichever order maps are iterated over.", "quantifier": "all lists of packages and files, all placements and texts of comments, all sets and orders of enabled generators, all map orders", "why_tests_cant": "ranges over all syntax trees and comment texts and all combinations of registered markers; it composes collecting, lookup, parsing, checking and sorting", "anchors": ["pkg/webhook/parser.go:Generate", "pkg/webhook/parser.go:RegisterMarkers", "pkg/markers/zip.go:PackageMarkers", "pkg/markers/collect.go:MarkersInPackage", "pkg/markers/parse.go:Parse", "pkg/markers/reg.go:Lookup"]}
{"id": "C85", "title": "A CRD has the attributes that the comments in the source ask for", "statement": "From the parsed files of the packages to the generated CRDs: if the CRD generator succeeds, then the CRD of a kind has one version for each loaded package whose comments give it the group (`+groupName=...`) and that declares the kind, named by `+versionName=...` or by the package; and this version has what the comments on the type ask for: the status and scale subresources, the printer columns in the order of the file, the selectable fields, the storage, served and deprecated flags; `+kubebuilder:skipversion` leaves it out. The names and the scope of the CRD are those of `+kubebuilder:resource:...`, its annotations and labels those of `+kubebuilder:metadata:...`. A comment in the documentation of the type or directly above it always counts, and a marker is never there without a comment for it. This holds whichever other generators are enabled and in whichever order maps are iterated over.", "quantifier": "all programs, placements and texts of comments, all sets and orders of enabled generators, all map orders, all lists of root packages", "why_tests_cant": "ranges over all syntax trees and comment texts and all combinations of registered markers; it composes collecting, lookup, parsing, indexing of types, loading of packages and the application of markers", "anchors": ["pkg/crd/gen.go:Generate", "pkg/crd/spec.go:NeedCRDFor", "pkg/crd/parser.go:indexTypes", "pkg/crd/markers/crd.go:ApplyToCRD", "pkg/crd/markers/package.go", "pkg/markers/zip.go:EachType", "pkg/markers/collect.go:MarkersInPackage", "pkg/markers/parse.go:Parse"]}
{"id": "C86", "title": "The CRDs in the files reject objects that violate a validation marker, and accept the others", "statement": "If the CRD generator succeeds and reports no error, then each version of each CRD in its output is one of a kind in a package, and the schema written there rejects every object that violates a validation marker (or a validation comment in the source) or lacks a required field, on the kind or on anything the object has in it, and accepts every object that encoding/json writes for a value of the kind that violates none. This holds whatever types were parsed and flattened before by the same parser and its caches, in whichever order maps are iterated over and kinds are visited, and for all limits on the length of descriptions; the only place where the schema says less than the type is metadata, where it accepts any object.", "quantifier": "all programs, all lists of root packages, all map orders, all JSON objects, all options", "why_tests_cant": "ranges over all programs, JSON objects and interleavings of package loading, schema generation and flattening with shared caches", "anchors": ["pkg/crd/gen.go:Generate", "pkg/crd/gen.go:FixTopLevelMetadata", "pkg/crd/gen.go:removeDescriptionFromMetadata", "pkg/crd/spec.go:NeedCRDFor", "pkg/crd/parser.go:NeedFlattenedSchemaFor", "pkg/crd/flatten.go:FlattenType", "pkg/crd/flatten.go:FlattenEmbedded", "pkg/crd/schema.go:infoToSchema", "pkg/crd/desc_visitor.go:TruncateDescription"]}
{"id": "C87", "title": "Deepcopy methods are generated for the types for which comments in the source ask", "statement": "For every parsed package and whichever other generators are enabled, the deepcopy file of the package has exactly those of DeepCopyInto, DeepCopy and DeepCopyObject that the source lacks, of the exported, copyable types for which comments ask: a type with +kubebuilder:object:generate=false in its documentation or directly above it gets none; one with =true gets DeepCopyInto and DeepCopy; one with +kubebuilder:object:root=true and no comment about generation gets all three; in a package with +kubebuilder:object:generate=true, in a comment that is not on a type or field, all others get DeepCopyInto and DeepCopy; a type without comments gets none in a package without. There is no file for a package without methods, and for one with a marker that does not parse.", "quantifier": "all packages, files, placements and texts of comments, all type declarations and methods in the source, all sets of enabled generators, all map orders", "why_tests_cant": "ranges over all syntax trees, comment texts and types; composes the walk over the files, lookup, parsing and the decision", "anchors": ["pkg/deepcopy/gen.go:generateForPackage", "pkg/deepcopy/gen.go:enabledOnPackage", "pkg/deepcopy/gen.go:enabledOnType", "pkg/deepcopy/gen.go:genObjectInterface", "pkg/deepcopy/gen.go:Generate", "pkg/markers/zip.go:EachType", "pkg/markers/zip.go:PackageMarkers", "pkg/markers/collect.go:MarkersInPackage"]}
{"id": "C88", "title": "Apply configurations are generated for the types for which comments in the source ask", "statement": "For every parsed package and whichever other generators are enabled: apply configurations are generated for a package exactly if comments that are not on a type or a field enable it with +kubebuilder:ac:generate=true; then for the types with +kubebuilder:ac:generate=true in their documentation or directly above them, for those with +kubebuilder:resource and no comment about generation, and for those tagged +genclient, and for no others; they go to the directory that +kubebuilder:ac:output:package names, or applyconfiguration, below that of the package. Every package is treated whether or not others fail. A type may be enabled by its comment in a package that is not, and a comment that does not parse is an error.", "quantifier": "all packages, files, placements and texts of comments, all type declarations, all sets of enabled generators, all behaviours of the code generation library, all map orders", "why_tests_cant": "ranges over all syntax trees and comment texts; composes the walk over the files, lookup, parsing and the decision", "anchors": ["pkg/applyconfiguration/gen.go:generateForPackage", "pkg/applyconfiguration/gen.go:enabledOnPackage", "pkg/applyconfiguration/gen.go:enabledOnType", "pkg/applyconfiguration/gen.go:outputPkg", "pkg/applyconfiguration/gen.go:Generate", "pkg/markers/zip.go:EachType", "pkg/markers/zip.go:PackageMarkers"]}
{"id": "C89", "title": "Patched manifests enforce the markers of the types", "statement": "schemapatch, for every program and every directory of manifests: a file that is written is one of the manifests, changed only in the schemas of its versions. For every version with a package among the inputs that declares the kind, the schema written is the one generated from that package, with plain metadata; it rejects every object that violates a validation marker in a comment of the type or of the types it is made of, and accepts the encodings of the type that violate none. No input makes the run crash, and the result does not depend on the order of maps.", "quantifier": "all programs and comments, all directories and manifests, all objects, all iteration orders of maps, including the one that grows while it is iterated over", "why_tests_cant": "ranges over all programs, manifests and objects; which packages are visited while the map grows is up to the runtime", "anchors": ["pkg/schemapatcher/gen.go:Generate", "pkg/schemapatcher/gen.go:crdsFromDirectory", "pkg/schemapatcher/gen.go:setVersionedSchemata", "pkg/crd/parser.go:NeedFlattenedSchemaFor", "pkg/crd/gen.go:FindKubeKinds"]}
{"id": "C90", "title": "The marker help of controller-gen explains every marker of the chosen generators", "statement": "For every choice and order of generators, controller-gen -w lists exactly the markers that they accept, each with its syntax, its target and a summary, under a named category, and with -wwww in JSON; every argument of a marker is listed, and described by a text that is about that marker; a marker that is deprecated names a listed marker to use in its place.", "quantifier": "all lists of generators, all markers of the generators, all iteration orders of maps", "why_tests_cant": "ranges over all lists of generators (markers that several generators register replace one another) and all orders of maps", "anchors": ["cmd/controller-gen/main.go:printMarkerDocs", "cmd/controller-gen/main.go:helpForLevels", "pkg/crd/markers/register.go:Register", "pkg/crd/markers/validation.go:init", "pkg/crd/markers/zz_generated.markerhelp.go", "pkg/webhook/parser.go:RegisterMarkers", "pkg/deepcopy/gen.go:RegisterMarkers", "pkg/applyconfiguration/gen.go:RegisterMarkers", "pkg/rbac/parser.go:RegisterMarkers"]}
{"id": "C91", "title": "The files of a run do not overwrite each other", "statement": "When controller-gen ends, every artifact that one of its generators wrote to a file is there with exactly the text that was written: no other generator, kind or package of the same run has replaced it, whatever the output rules are; and no other file has been touched.", "quantifier": "all command lines (generators and output rules), all outputs of the generators, all working directories and paths", "why_tests_cant": "ranges over all combinations of generators, directories and names of files; two paths can mean the same file", "anchors": ["pkg/genall/output.go:OutputArtifacts.Open", "pkg/genall/output.go:OutputToDirectory.Open", "pkg/genall/genall.go:Runtime.Run", "pkg/genall/options.go:protoFromOptions", "pkg/crd/gen.go:Generator.Generate", "pkg/rbac/parser.go:Generator.Generate", "pkg/webhook/parser.go:Generator.Generate", "pkg/deepcopy/gen.go:writeOut"]}
{"id": "C92", "title": "Running controller-gen again gives what a run in a clean checkout gives", "statement": "Whatever was generated before, a run of controller-gen leaves on the disk what the same run leaves in a checkout of the same sources without any generated file: what it writes does not depend on the files of earlier runs, in particular a second run changes nothing, and no file is left over.", "quantifier": "all histories of edits of the sources and runs of controller-gen, complete or interrupted, with any options; all sources, headers and build tags", "why_tests_cant": "ranges over all histories; generated Go code becomes part of the package that the next run loads, and only a build tag keeps it out", "anchors": ["pkg/deepcopy/gen.go:writeHeader", "pkg/deepcopy/gen.go:Generator.Generate", "pkg/deepcopy/traverse.go:copyMethodMaker.GenerateMethodsFor", "pkg/loader/loader.go:LoadRootsWithConfig", "cmd/controller-gen/main.go:main", "pkg/genall/output.go:OutputArtifacts.Open"]}
{"id": "C93", "title": "An interrupted run leaves every file as it was or complete, and the next run repairs it", "statement": "Wherever a run of controller-gen is interrupted (killed, crash of the machine, full disk), every file is either as it was before the run or has all of what the run was to write to it; files that the run was not to write are as they were; and when the same command runs again, the result is that of a run that was not interrupted.", "quantifier": "all commands of the generators crd, rbac, webhook and object, all disks, all points of interruption, all ways in which the texts are divided into writes", "why_tests_cant": "ranges over all crash points; tests run to the end", "anchors": ["pkg/genall/output.go:OutputToDirectory.Open", "pkg/genall/output.go:OutputArtifacts.Open", "pkg/genall/genall.go:GenerationContext.WriteYAML", "pkg/genall/genall.go:Runtime.Run", "pkg/deepcopy/gen.go:writeOut"]}
{"id": "C94", "title": "What is printed with output:stdout is read as the objects of all the files", "statement": "With the output rule stdout, a run prints the texts of all the artifacts of the generators to which the rule applies, in the order of the generators, and nothing else; and what is printed is read, as a stream of YAML (for example by kubectl apply -f -), as the objects of all these manifests, one document for each, in order.", "quantifier": "all commands (generators, output rules), all artifacts, headers and documents", "why_tests_cant": "ranges over all combinations of generators, rules, headers and files; tests look at single files", "anchors": ["pkg/genall/output.go:OutputToStdout.Open", "pkg/genall/genall.go:GenerationContext.WriteYAML", "pkg/genall/genall.go:Runtime.Run", "pkg/crd/gen.go:Generator.Generate", "pkg/rbac/parser.go:Generator.Generate", "pkg/webhook/parser.go:Generator.Generate"]}
{"id": "C95", "title": "The CRD of a kind depends on the packages of the kind and on nothing else", "statement": "The CRD that is written for a kind is determined by the source code and the group and kind: two runs of the CRD generator over the same source give the same CRD for it, with the same versions and the same schemas, whatever other packages are named on the command line, in which order, whatever other kinds there are, and whatever the order of Go maps; and two runs over the same packages write the same files, in the same order, in whichever order the command line names the packages.", "quantifier": "all programs, all lists of root packages, all kinds, all pairs of schedules of map iteration", "why_tests_cant": "compares pairs of runs over all programs, command lines and map orders; tests run one command line in the map order of the day", "anchors": ["pkg/crd/gen.go:Generator.Generate", "pkg/crd/gen.go:FindKubeKinds", "pkg/crd/spec.go:Parser.NeedCRDFor", "pkg/crd/parser.go:Parser.NeedSchemaFor", "pkg/crd/parser.go:Parser.NeedPackage", "pkg/crd/schema.go:infoToSchema", "pkg/crd/flatten.go:Flattener.FlattenType"]}
{"id": "C96", "title": "schemapatch writes the same schemas as the CRD generator", "statement": "For the same source and the same options, the schema that the schemapatch generator writes for a version into a hand-written manifest of a kind is the schema that the CRD generator writes for that version of the kind; every version of the CRD that the manifest lists gets one.", "quantifier": "all programs, all directories of manifests, all pairs of lists of root packages, all pairs of runs (orders of maps, and entries that Go visits or not when a map grows during iteration)", "why_tests_cant": "compares two generators over all programs and map orders; the tests of either compare it with its own golden files", "anchors": ["pkg/schemapatcher/gen.go:Generator.Generate", "pkg/schemapatcher/gen.go:partialCRD.setVersionedSchemata", "pkg/crd/gen.go:Generator.Generate", "pkg/crd/gen.go:FixTopLevelMetadata", "pkg/crd/spec.go:Parser.NeedCRDFor"]}
{"id": "C97", "title": "Running schemapatch in place again changes nothing", "statement": "When schemapatch writes its output into the directory it reads the manifests from, a second run over the same source leaves every file of the directory as the first run left it.", "quantifier": "all programs, all directories of manifests, all lists of root packages, all pairs of runs (orders of maps, and entries that Go visits or not when a map grows during iteration)", "why_tests_cant": "ranges over all programs, manifests and pairs of map orders; the tests run the generator once on one directory", "anchors": ["pkg/schemapatcher/gen.go:Generator.Generate", "pkg/schemapatcher/gen.go:crdsFromDirectory", "pkg/schemapatcher/gen.go:partialCRD.setVersionedSchemata", "pkg/schemapatcher/internal/yaml/set.go:SetNode", "pkg/genall/output.go:OutputToDirectory"]}
{"id": "C98", "title": "Naming more packages never takes a permission away", "statement": "The RBAC role generated for several packages grants exactly the requests that the roles generated for each of them alone grant: naming a further package never takes a permission away, and the order in which packages are named, or naming one twice, does not change the role.", "quantifier": "all source files, all pairs of lists of packages of which one contains the other, all requests and namespaces, all map iteration orders of both runs", "why_tests_cant": "compares runs over all lists of packages and map orders; a test runs the generator once for a fixed list", "anchors": ["pkg/rbac/parser.go:GenerateRoles", "pkg/rbac/parser.go:NormalizeRules", "pkg/markers/zip.go:PackageMarkers"]}
{"id": "C99", "title": "Webhooks of packages named together are those of each alone", "statement": "The webhook configurations generated for several packages list exactly the webhooks that are listed for each package alone: none is lost, listed twice or changed. The run succeeds exactly if it does for each package alone. An object has the name that it has for a package alone.", "quantifier": "all source files, all lists of packages, all map iteration orders of the joint run and of each separate run", "why_tests_cant": "compares runs over all lists of packages and map orders; a test runs the generator once for a fixed list", "anchors": ["pkg/webhook/parser.go:Generate", "pkg/webhook/parser.go:ToMutatingWebhook", "pkg/webhook/parser.go:ToMutatingWebhookConfiguration", "pkg/markers/zip.go:PackageMarkers"]}
{"id": "C100", "title": "The deepcopy methods of a package are the same in every run", "statement": "Which types of a package get which deepcopy methods, whether its file is written and whether an error is reported for it depend on the package only: not on the other packages that are named, their order or their comments, nor on the iteration order of maps, even if the comments of the package contradict each other.", "quantifier": "all source files, all pairs of lists of packages that share a package, all map iteration orders of both runs, all choices of generators that include this one", "why_tests_cant": "compares runs over all lists of packages and map orders; a test runs the generator once for a fixed package", "anchors": ["pkg/deepcopy/gen.go:Generate", "pkg/deepcopy/gen.go:generateForPackage", "pkg/deepcopy/gen.go:enabledOnPackage", "pkg/markers/collect.go:associateFileMarkers", "pkg/markers/zip.go:EachType"]}
{"id": "C101", "title": "The apply configurations of a package are the same in every run", "statement": "Whether apply configurations are generated for a package, for which of its types, into which directory and package, and whether an error is reported for it depend on the package only: not on the other packages that are named, nor on the iteration order of maps. A run that names more packages asks for all that a run with fewer packages asks for, and does not hide an error.", "quantifier": "all source files, all pairs of lists of packages of which one includes the other, all map iteration orders of both runs, all choices of generators that include this one", "why_tests_cant": "compares runs over all lists of packages and map orders; a test runs the generator once for a fixed package", "anchors": ["pkg/applyconfiguration/gen.go:Generate", "pkg/applyconfiguration/gen.go:generateForPackage", "pkg/applyconfiguration/gen.go:enabledOnPackage", "pkg/applyconfiguration/gen.go:outputPkg", "pkg/markers/collect.go:associateFileMarkers", "pkg/markers/zip.go:EachType"]}

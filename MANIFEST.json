{
 "claims": [
  {
   "property": "C01",
   "status": "partial",
   "theorems": [
    "Verif.Rbac.C01_sound_partial",
    "Verif.Rbac.C01_violated"
   ],
   "note": "Proved for markers without separator characters/empty strings and of a shape the Kubernetes API accepts; C01_violated proves the code breaks the property without that guard (resourceNames \"\" broadens to all names)."
  },
  {
   "property": "C02",
   "status": "partial",
   "theorems": [
    "Verif.Rbac.C02_complete_partial",
    "Verif.Rbac.C02_violated",
    "Verif.Rbac.C02_violated_urls"
   ],
   "note": "Proved when markers do not overlap partially; C02_violated(_urls) prove the code loses permissions otherwise."
  },
  {
   "property": "C03",
   "status": "partial",
   "theorems": [
    "Verif.Rbac.C03_deterministic_partial",
    "Verif.Rbac.C03_violated"
   ],
   "note": "Proved (also for reordered/duplicated markers) under the C02 guard; C03_violated proves nondeterministic output otherwise."
  },
  {
   "property": "C04",
   "status": "proved",
   "theorems": [
    "Verif.Rbac.C04_partition",
    "Verif.Rbac.C04_independent"
   ],
   "note": "For all markers and schedules."
  },
  {
   "property": "C05",
   "status": "proved",
   "theorems": [
    "Verif.Rbac.C05_normal_form"
   ],
   "note": "For all markers and schedules."
  },
  {
   "property": "C06",
   "status": "proved",
   "theorems": [
    "Verif.Webhook.C06_client_config",
    "Verif.Webhook.C06_rejects"
   ],
   "note": "For every input and map iteration order."
  },
  {
   "property": "C07",
   "status": "partial",
   "theorems": [
    "Verif.Webhook.C07_limits_partial",
    "Verif.Webhook.C07_violated"
   ],
   "note": "False for timeouts outside 32 bits (C07_violated: 4294967306 is emitted as 10). The guarded theorem adds FitsInt32 only to the equality of the number; the range and the side-effect limits hold unguarded."
  },
  {
   "property": "C08",
   "status": "proved",
   "theorems": [
    "Verif.Webhook.C08_every_marker_once",
    "Verif.Webhook.C08_accepts_iff",
    "Verif.Webhook.C08_deterministic"
   ],
   "note": "The whole output is characterised, plus an exact acceptance criterion."
  },
  {
   "property": "C09",
   "status": "proved",
   "theorems": [
    "Verif.Webhook.C09_rules_and_policies",
    "Verif.Webhook.C09_rejects_matchPolicy"
   ],
   "note": ""
  },
  {
   "property": "C10",
   "status": "proved",
   "theorems": [
    "Verif.Webhook.C10_duplicates_rejected",
    "Verif.Webhook.C10_names"
   ],
   "note": ""
  },
  {
   "property": "C11",
   "status": "partial",
   "theorems": [
    "Verif.Desc.C11_truncate_partial",
    "Verif.Desc.C11_ascii_exact",
    "Verif.Desc.C11_violated"
   ],
   "note": "The bound maxLen is false (the ellipsis is added after cutting at maxLen); maxLen+3 is proved, with the exact result for ASCII text."
  },
  {
   "property": "C12",
   "status": "proved",
   "theorems": [
    "Verif.Desc.C12_every_description"
   ],
   "note": ""
  },
  {
   "property": "C13",
   "status": "proved",
   "theorems": [
    "Verif.Markers.C13_lookup_plain",
    "Verif.Markers.C13_lookup_value",
    "Verif.Markers.C13_lookup_field",
    "Verif.Markers.C13_split",
    "Verif.Markers.C13_forms"
   ],
   "note": "For every history of registrations; the three marker forms are exhaustive."
  },
  {
   "property": "C14",
   "status": "partial",
   "theorems": [
    "Verif.Markers.C14_value",
    "Verif.Markers.C14_legacy",
    "Verif.Markers.C14_anonymous",
    "Verif.Markers.C14_named",
    "Verif.Markers.C14_violated_negative",
    "Verif.Markers.C14_violated_any",
    "Verif.Markers.C14_legacy_any",
    "Verif.Markers.C14_raw"
   ],
   "note": "Proved for every text in the grammar of ParseSpec.lean (documented syntax with free white space, quoting styles, nesting), unbounded. The code rejects a blank before a negative map value and some unquoted strings where the type is guessed; those are excluded from the grammar and exhibited by the _violated_ theorems. Legacy lists (a;b without braces) are also covered inside named arguments. C14_raw covers raw arguments without quotes and digits (their text is the value)."
  },
  {
   "property": "C15",
   "status": "partial",
   "theorems": [
    "Verif.Markers.C15_accepted_partial",
    "Verif.Markers.C15_accepted_anonymous",
    "Verif.Markers.C15_accepted_empty",
    "Verif.Markers.C15_missing",
    "Verif.Markers.C15_unknown",
    "Verif.Markers.C15_leftover",
    "Verif.Markers.C15_violated_duplicate",
    "Verif.Markers.C15_violated_space",
    "Verif.Markers.C15_violated_space_words",
    "Verif.Markers.C15_violated_empty",
    "Verif.Markers.C15_violated_int32"
   ],
   "note": "Required/declared/covered text proved for every accepted marker. 'No value silently dropped' is false of the code: duplicates, blank before a separator, empty bare value and int32 truncation (exhibited)."
  },
  {
   "property": "C16",
   "status": "partial",
   "theorems": [
    "Verif.Markers.Collect.C16_no_panic",
    "Verif.Markers.Collect.C16_count",
    "Verif.Markers.Collect.C16_once",
    "Verif.Markers.Collect.C16_only",
    "Verif.Markers.Collect.C16_all_partial",
    "Verif.Markers.Collect.C16_sound",
    "Verif.Markers.Collect.C16_claimed",
    "Verif.Markers.Collect.C16_package_only",
    "Verif.Markers.Collect.C16_package",
    "Verif.Markers.Collect.C16_package_doc",
    "Verif.Markers.Collect.C16_values",
    "Verif.Markers.Collect.C16_unknown",
    "Verif.Markers.Collect.Examples.C16_violated",
    "Verif.Markers.Collect.C16_order"
   ],
   "note": "At most one node, soundness, package-only markers, unknown markers and values are proved for every file, registry and map order. 'Every known marker is attached' is false: the code drops markers in the documentation of functions and of grouped declarations, at the end of lines, and inside of declarations away from fields (C16_violated). Proved instead: all others at the top level are attached (C16_all_partial), and all in documentation of types and fields and in the closest comment above them (C16_claimed). FileWF states what go/parser guarantees about positions. The markers of a type or field are in the order of the file (C16_order)."
  },
  {
   "property": "C17",
   "status": "proved",
   "theorems": [
    "Verif.Markers.Doc.C17_lines",
    "Verif.Markers.Doc.C17_no_marker",
    "Verif.Markers.Doc.C17_markers_ignored",
    "Verif.Markers.Doc.C17_line_comments",
    "Verif.Markers.Doc.C17_decl",
    "Verif.Markers.Doc.C17_comment"
   ],
   "note": "extractDoc with go/ast's CommentGroup.Text; the texts of comments are arbitrary. Lines of a block comment that look like markers are documentation (the property is about marker comments, which are line comments)."
  },
  {
   "property": "C18",
   "status": "partial",
   "theorems": [
    "Verif.Markers.Cache.C18_values",
    "Verif.Markers.Cache.C18_cache",
    "Verif.Markers.Cache.C18_serial_partial",
    "Verif.Markers.Cache.C18_violated",
    "Verif.Markers.Cache.C18_violated_syntax"
   ],
   "note": "Values: for all requests and all interleavings. The very same result (nodes of the syntax tree as keys) for calls one after the other; with concurrent calls a package can be parsed twice and the cache be about the wrong tree (C18_violated). A package that does not parse is cached as a success without markers (C18_violated_syntax)."
  },
  {
   "property": "C19",
   "status": "partial",
   "theorems": [
    "Verif.CrdGen.C19_storage_served",
    "Verif.CrdGen.C19_single",
    "Verif.CrdGen.C19_exactly_one_partial",
    "Verif.CrdGen.C19_violated"
   ],
   "note": "At least one version, served version and storage version: proved for all inputs. 'Exactly one storage version' is false of the code (C19_violated: two storageversion markers give two, with no error); proved when at most one type is marked."
  },
  {
   "property": "C20",
   "status": "partial",
   "theorems": [
    "Verif.CrdGen.C20_name",
    "Verif.CrdGen.C20_sorted",
    "Verif.CrdGen.C20_exists_partial",
    "Verif.CrdGen.C20_names_partial",
    "Verif.CrdGen.C22_versions_partial",
    "Verif.CrdGen.C20_violated_duplicate",
    "Verif.CrdGen.C20_violated_mixed"
   ],
   "note": "Name and kinds for all inputs. Names and scope when resource markers of different versions agree, otherwise violated (the plural of one, the scope of the other); one version per package not skipped when packages have distinct version names, otherwise violated."
  },
  {
   "property": "C21",
   "status": "partial",
   "theorems": [
    "Verif.CrdGen.C21_order_partial",
    "Verif.CrdGen.C21_violated_resource",
    "Verif.CrdGen.C21_violated_skip"
   ],
   "note": "False of the code when resource or metadata markers of two versions disagree, or a skipped version has other markers; proved otherwise, for all schedules."
  },
  {
   "property": "C22",
   "status": "partial",
   "theorems": [
    "Verif.CrdGen.C22_versions_partial",
    "Verif.CrdGen.C22_frame",
    "Verif.CrdGen.C22_violated_duplicate",
    "Verif.CrdGen.C22_violated_silent"
   ],
   "note": "C22_frame: a marker changes no other version and errors when the version is missing (for the markers of which the code reports it). Violations: two packages with one version name; markers that do nothing silently."
  },
  {
   "property": "C23",
   "status": "partial",
   "theorems": [
    "Verif.CrdGen.C23_crash_iff",
    "Verif.CrdGen.C23_reported",
    "Verif.CrdGen.C23_present",
    "Verif.CrdGen.C23_violated"
   ],
   "note": "Crashes exactly for a label without '=' (C23_violated: 'never crashes' is false of the code); otherwise malformed annotations are reported and well-formed pairs are present."
  },
  {
   "property": "C24",
   "status": "proved",
   "theorems": [
    "Verif.Crd.C24_rejected",
    "Verif.Crd.C24_applied",
    "Verif.Crd.C24_meaning"
   ],
   "note": "For every marker value and every schema: a marker that does not fit the type is an error and changes nothing; a fitting one sets exactly its keyword; and the values accepted afterwards are those accepted before that also meet the marker's constraint."
  },
  {
   "property": "C25",
   "status": "partial",
   "theorems": [
    "Verif.Crd.C25_deterministic_partial",
    "Verif.Crd.C25_items_partial",
    "Verif.Crd.C25_type_first",
    "Verif.Crd.C25_default_wins",
    "Verif.Crd.C25_violated_listType",
    "Verif.Crd.C25_violated_mapType"
   ],
   "note": "Violated: the type and list type markers share a priority, and contradictory mapType/structType markers overwrite each other in map order. Proved without these and with at most twelve markers, or none that goes before others, or no repeated ones."
  },
  {
   "property": "C26",
   "status": "partial",
   "theorems": [
    "Verif.Crd.C26_round_trip_partial",
    "Verif.Crd.C26_exact",
    "Verif.Crd.C26_injective_partial",
    "Verif.Crd.C26_rejects",
    "Verif.Crd.C26_violated",
    "Verif.Crd.C26_violated_collision"
   ],
   "note": "Round trip proved exactly for package paths without a tilde; false otherwise (C26_violated: a sourcehut-style path), and two different types can get the same link (C26_violated_collision)."
  },
  {
   "property": "C27",
   "status": "partial",
   "theorems": [
    "Verif.Crd.C27_terminates",
    "Verif.Crd.C27_no_references_partial",
    "Verif.Crd.C27_no_panic",
    "Verif.Crd.C27_violated"
   ],
   "note": "Termination and absence of panics for all graphs. Absence of references for all graphs (recursive ones included) in which no chain of alias references repeats a link text; false otherwise (C27_violated)."
  },
  {
   "property": "C28",
   "status": "partial",
   "theorems": [
    "Verif.Crd.C28_flatten_preserves_partial",
    "Verif.Crd.C28_violated_exclusive",
    "Verif.Crd.C28_violated_nullable",
    "Verif.Crd.C28_violated_additional",
    "Verif.Crd.C28_violated_closed"
   ],
   "note": "Equivalence proved for all schemas and values under Guard: at the places where two schemas are really merged there are no nullable, exclusive bounds, closed or clashing additionalProperties, patternProperties or additionalItems; everywhere else these keywords are allowed. The excluded keywords are shown to break the equivalence."
  },
  {
   "property": "C29",
   "status": "proved",
   "theorems": [
    "Verif.Crd.C29_depth",
    "Verif.Crd.C29_members",
    "Verif.Crd.C29_required",
    "Verif.Crd.C29_properties",
    "Verif.Crd.C29_additional",
    "Verif.Crd.C29_sorted",
    "Verif.Crd.C29_sorted_below",
    "Verif.Crd.C29_lookup"
   ],
   "note": "For all schemas."
  },
  {
   "property": "C30",
   "status": "partial",
   "theorems": [
    "Verif.Crd.C30_property",
    "Verif.Crd.C30_properties_complete",
    "Verif.Crd.C30_required",
    "Verif.Crd.C30_embedded",
    "Verif.Crd.C30_untagged_reported",
    "Verif.Crd.C30_documented",
    "Verif.Crd.C30_required_are_properties_partial",
    "Verif.Crd.C30_required_once",
    "Verif.Crd.C30_violated_inline",
    "Verif.Crd.C30_violated_unnamed"
   ],
   "note": "All clauses proved; the clause that required names are properties only without an inlined required field (violated otherwise); a tag without a name inlines the field although encoding/json does not (violated)."
  },
  {
   "property": "C31",
   "status": "partial",
   "theorems": [
    "Verif.Crd.C31_types",
    "Verif.Crd.C31_floats_rejected",
    "Verif.Crd.C31_unencodable_rejected",
    "Verif.Crd.C31_map_keys",
    "Verif.Crd.C31_violated_uint8",
    "Verif.Crd.C31_violated_aliasKey"
   ],
   "note": "Exact characterisation of the schemas generated for type expressions; []uint8 and map keys of alias types violate the English statement."
  },
  {
   "property": "C32",
   "status": "proved",
   "theorems": [
    "Verif.CrdGen.C32_kinds",
    "Verif.CrdGen.C32_order"
   ],
   "note": "For all programs, root packages and schedules; order independence uses that Go type names have no dots."
  },
  {
   "property": "C33",
   "status": "partial",
   "theorems": [
    "Verif.CrdGen.C33_files_partial",
    "Verif.CrdGen.C33_crds",
    "Verif.CrdGen.C33_once_partial",
    "Verif.CrdGen.C33_violated_skip",
    "Verif.CrdGen.C33_violated_group",
    "Verif.CrdGen.C33_violated_plural",
    "Verif.CrdGen.C33_versions"
   ],
   "note": "Exact files are proved when every kind has a CRD; 'nothing for a skipped kind' is false of the code (a file _.yaml with an empty CRD is written), and two kinds with one plural overwrite each other's file."
  },
  {
   "property": "C34",
   "status": "partial",
   "theorems": [
    "Verif.Genall.C34_accepted",
    "Verif.Genall.C34_result",
    "Verif.Genall.C34_error",
    "Verif.Genall.C34_no_crash_partial",
    "Verif.Genall.C34_known",
    "Verif.Genall.C34_found",
    "Verif.Genall.C34_addressed",
    "Verif.Genall.C34_tool_no_crash_partial",
    "Verif.Genall.C34_violated_empty"
   ],
   "note": "For every registry of options, every option list and every map order: accepted iff every option means something and the options fit together; the result is determined by the options (last rule wins, paths concatenated, generators in order); the error tells the truth; the option names of controller-gen. Violated: the empty option panics (C34_violated_empty), hence no crash is proved for non-empty options only. The text of an option is parsed by an arbitrary function per definition (the parser itself is C13-C15)."
  },
  {
   "property": "C35",
   "status": "proved",
   "theorems": [
    "Verif.Genall.C35_run",
    "Verif.Genall.C35_reported",
    "Verif.Genall.C35_nothing",
    "Verif.Genall.C35_filters",
    "Verif.Genall.C35_exit"
   ],
   "note": "Generators are arbitrary functions of context and world which may return errors; a panic in a generator is outside. Failure is reported iff nothing to run, some generator error, or some reachable package with a non-type error; exit status of the command."
  },
  {
   "property": "C36",
   "status": "partial",
   "theorems": [
    "Verif.Genall.C36_rule",
    "Verif.Genall.C36_config",
    "Verif.Genall.C36_code",
    "Verif.Genall.C36_no_file",
    "Verif.Genall.C36_inside_partial",
    "Verif.Genall.C36_direct",
    "Verif.Genall.C36_default",
    "Verif.Genall.C36_made",
    "Verif.Genall.C36_crd_file_partial",
    "Verif.Genall.C36_violated",
    "Verif.Genall.C36_violated_group"
   ],
   "note": "The rule of each generator and the place each artifact goes to, with filepath.Join/Clean/Dir modelled and shown to mean the expected place. Violated: item paths with .. leave the directory, and a group name with slashes makes such a path; inside is proved for paths without .., and for groups without a slash."
  },
  {
   "property": "C37",
   "status": "partial",
   "theorems": [
    "Verif.Genall.C37_written",
    "Verif.Genall.C37_prefix",
    "Verif.Genall.C37_success",
    "Verif.Genall.C37_documents",
    "Verif.Genall.C37_count",
    "Verif.Genall.C37_violated_header"
   ],
   "note": "All object lists, headers, write failures. Reading back is proved for headers of comments (even without final newline) and documents as the YAML library writes maps (a hypothesis about the library); violated for a header whose unterminated last line is not a comment."
  },
  {
   "property": "C38",
   "status": "partial",
   "theorems": [
    "Verif.Patch.C38_set",
    "Verif.Patch.C38_set_other",
    "Verif.Patch.C38_set_order",
    "Verif.Patch.C38_set_error",
    "Verif.Patch.C38_delete_partial",
    "Verif.Patch.C38_delete_other",
    "Verif.Patch.C38_delete_order",
    "Verif.Patch.C38_delete_absent",
    "Verif.Patch.C38_delete_error",
    "Verif.Patch.C38_violated"
   ],
   "note": "All laws for all trees; 'deleted is absent' only for trees without duplicate keys, since C38_violated shows it false otherwise. Setting assumes mappings made of pairs and a value that is not a document node."
  },
  {
   "property": "C39",
   "status": "partial",
   "theorems": [
    "Verif.Patch.C39_frame",
    "Verif.Patch.C39_twice_partial",
    "Verif.Patch.C39_no_crash_partial",
    "Verif.Patch.C39_no_versions",
    "Verif.Patch.C39_bad_name",
    "Verif.Patch.C39_violated_crash",
    "Verif.Patch.C39_violated_twice",
    "Verif.Patch.C39_alias_rejected",
    "Verif.Patch.C39_violated_alias"
   ],
   "note": "Frame and exact schemas proved for every parsed document; idempotence without duplicate keys (C39_violated_twice); crashes for versions that are not mappings or have no name (C39_violated_crash)."
  },
  {
   "property": "C40",
   "status": "proved",
   "theorems": [
    "Verif.Loader.C40_suffix",
    "Verif.Loader.C40_clean",
    "Verif.Loader.C40_fixed",
    "Verif.Loader.C40_idempotent",
    "Verif.Loader.C40_last",
    "Verif.Loader.C40_shared_slash"
   ],
   "note": "strings.Split modelled. C40_last: what remains follows the last /vendor/, except when two occurrences share a slash (C40_shared_slash shows that corner)."
  },
  {
   "property": "C41",
   "status": "proved",
   "theorems": [
    "Verif.Loader.C41_ends",
    "Verif.Loader.C41_no_deadlock",
    "Verif.Loader.C41_can_end",
    "Verif.Loader.C41_ordered",
    "Verif.Loader.C41_complete"
   ],
   "note": "For every acyclic import graph and every interleaving of the goroutines."
  },
  {
   "property": "C42",
   "status": "partial",
   "theorems": [
    "Verif.Loader.C42_added",
    "Verif.Loader.C42_printed",
    "Verif.Loader.C42_positions",
    "Verif.Loader.C42_parse_partial",
    "Verif.Loader.C42_violated",
    "Verif.Loader.C42_lists"
   ],
   "note": "Adding and printing proved. Errors that goroutines of NeedSyntax add at the same time can be lost (violated); at least one stays (partial). packages.Visit (library) is taken to visit the reachable packages."
  },
  {
   "property": "C43",
   "status": "partial",
   "theorems": [
    "Verif.DeepCopy.C43_deepCopyInto_partial",
    "Verif.DeepCopy.C43_deepCopy_partial",
    "Verif.DeepCopy.C43_independent",
    "Verif.DeepCopy.C43_violated_pointer",
    "Verif.DeepCopy.C43_violated_slice",
    "Verif.DeepCopy.C43_violated_struct",
    "Verif.DeepCopy.C43_violated_unexported",
    "Verif.DeepCopy.C43_violated_nil",
    "Verif.DeepCopy.C43_violated_recursion",
    "Verif.DeepCopy.C43_alias_rejected",
    "Verif.DeepCopy.C43_names",
    "Verif.DeepCopy.C43_supported",
    "Verif.DeepCopy.C43_clean",
    "Verif.DeepCopy.C43_deepCopy_supported"
   ],
   "note": "Generator of DeepCopyInto/DeepCopy bodies and a small-step memory model of the generated code. Proved for every program whose generated code compiles: every acyclic value is copied into new memory. Counterexamples: code that does not compile for some field types, a panic for nil map values, and a generator that does not end. C43_supported: for the field types of SupportedSpec.lean (a grammar of Go types, not the outcome of the generator) no error is reported and the code compiles, so the hypotheses of C43_deepCopyInto_partial hold; C43_names: what other types are rejected."
  },
  {
   "property": "C44",
   "status": "partial",
   "theorems": [
    "Verif.DeepCopy.C44_ends",
    "Verif.DeepCopy.C44_runs",
    "Verif.DeepCopy.C44_distinct",
    "Verif.DeepCopy.C44_specs",
    "Verif.DeepCopy.C44_identifier_partial",
    "Verif.DeepCopy.C44_violated_empty",
    "Verif.DeepCopy.C44_violated_keyword",
    "Verif.DeepCopy.C44_violated_shadow"
   ],
   "note": "Termination, distinctness, stability and the list of imports are proved in full for all request sequences. Aliases need not be usable identifiers: empty, keyword and shadowed aliases are proved to occur."
  },
  {
   "property": "C45",
   "status": "partial",
   "theorems": [
    "Verif.DeepCopy.C45_methods_partial",
    "Verif.DeepCopy.C45_disabled",
    "Verif.DeepCopy.C45_file",
    "Verif.DeepCopy.C45_violated_pointer",
    "Verif.DeepCopy.C45_violated_interface"
   ],
   "note": "Full decision table for all marker lists; pointer types whose target has methods are the exact exception, proved as a violation."
  },
  {
   "property": "C46",
   "status": "partial",
   "theorems": [
    "Verif.Help.C46_lists",
    "Verif.Help.C46_deterministic_partial",
    "Verif.Help.C46_options",
    "Verif.Help.C46_summary",
    "Verif.Help.C46_shown",
    "Verif.Help.C46_details",
    "Verif.Help.C46_json",
    "Verif.Help.C46_violated",
    "Verif.Help.C46_violated_hidden",
    "Verif.Help.C46_violated_level"
   ],
   "note": "Completeness, grouping and order for all registries, histories and iteration orders; equality of two runs except for groups of more than twelve markers with equal places (C46_violated shows it is then false); the written summary, details and JSON. Markers without help, and level five, are not shown."
  },
  {
   "property": "C47",
   "status": "partial",
   "theorems": [
    "Verif.Help.C47_padding",
    "Verif.Help.C47_table",
    "Verif.Help.C47_limit",
    "Verif.Help.C47_indent",
    "Verif.Help.C47_violated_unicode",
    "Verif.Help.C47_violated_limit",
    "Verif.Help.C47_violated_skip",
    "Verif.Help.C47_mixed"
   ],
   "note": "All tables of rows of cells, all amounts of padding, all indented texts. False for text beyond ASCII (width is bytes), for limited tables with a cell that is too wide, and for a table with only skipped rows (a crash)."
  },
  {
   "property": "C48",
   "status": "partial",
   "theorems": [
    "Verif.Loader.C48_only",
    "Verif.Loader.C48_roots",
    "Verif.Loader.C48_partial",
    "Verif.Loader.C48_ends",
    "Verif.Loader.C48_violated"
   ],
   "note": "Violated when a package that is not a root was loaded twice: the set of seen packages is by import path. Proved if every path that is not a root stands for one package, and always for the imports of the roots themselves."
  },
  {
   "property": "C49",
   "status": "partial",
   "theorems": [
    "Verif.Desc.C49_ascii_partial",
    "Verif.Desc.C49_violated"
   ],
   "note": "False for multi-byte characters; proved for ASCII."
  },
  {
   "property": "C50",
   "status": "partial",
   "theorems": [
    "Verif.Crd.C50_deterministic_partial",
    "Verif.Crd.C50_violated"
   ],
   "note": "Proved for types that lead to no recursive type; false for mutually recursive types (C50_violated)."
  },
  {
   "property": "C51",
   "status": "partial",
   "theorems": [
    "Verif.Crd.C51_meaning_partial",
    "Verif.Crd.C51_recursive_partial",
    "Verif.Crd.C51_meaning_exists",
    "Verif.Crd.C51_meaning_exists_recursive",
    "Verif.Crd.C51_links",
    "Verif.Crd.C51_violated"
   ],
   "note": "Both directions are proved for types that lead to no recursive type. For recursive types what the type accepts is accepted by the flattened schema (C51_recursive_partial); the other direction is false (C51_violated). The meaning of references is given by any relation that satisfies the spec RefMeaning, which exists (C51_meaning_exists, C51_meaning_exists_recursive). C51_links: links are read as the types they were made for."
  },
  {
   "property": "C52",
   "status": "partial",
   "theorems": [
    "Verif.Crd.C52_documentation_partial",
    "Verif.Crd.C52_own_partial",
    "Verif.Crd.C52_violated"
   ],
   "note": "Proved for types that lead to no recursive type. For recursive types each field keeps its own documentation (C52_own_partial); what it inherits from its type can be lost (C52_violated)."
  },
  {
   "property": "C53",
   "status": "partial",
   "theorems": [
    "Verif.Crd.C53_rules_in_order_partial",
    "Verif.Crd.C53_reported",
    "Verif.Crd.C53_violated"
   ],
   "note": "Proved for at most twelve markers, or any number none of which goes before others (sort.Slice leaves sorted slices alone). Beyond that violated: Go's sort.Slice is not stable, and thirteen rules beside a type marker are written in another order."
  },
  {
   "property": "C54",
   "status": "partial",
   "theorems": [
    "Verif.Crd.C54_exact",
    "Verif.Crd.C54_no_crash_partial",
    "Verif.Crd.C54_marshalers",
    "Verif.Crd.C54_violated_struct",
    "Verif.Crd.C54_violated_any",
    "Verif.Crd.C54_violated_error"
   ],
   "note": "The declarations that crash the generator are characterised exactly; all others end with a schema. Violated for anonymous structs, any and error."
  },
  {
   "property": "C55",
   "status": "proved",
   "theorems": [
    "Verif.Crd.C55_terminates",
    "Verif.Crd.C55_complete",
    "Verif.Crd.C55_closed",
    "Verif.Crd.C55_stable",
    "Verif.Crd.C55_once",
    "Verif.Crd.C55_no_crash_partial"
   ],
   "note": "For all reference graphs, starting states and map orders. C55_no_crash_partial is additional: it excludes the declarations on which generation crashes (C54)."
  },
  {
   "property": "C56",
   "status": "partial",
   "theorems": [
    "Verif.Crd.C56_sound_partial",
    "Verif.Crd.C56_flattened_partial",
    "Verif.Crd.C56_crd_partial",
    "Verif.Crd.C56_end_to_end_partial",
    "Verif.Crd.C56_violated_nil",
    "Verif.Crd.C56_violated_uint8",
    "Verif.Crd.C56_violated_string",
    "Verif.Crd.C56_violated_omitzero"
   ],
   "note": "Proved for programs without validation markers and without the violating features (nil slices, maps and pointers that are encoded as null, []uint8, option string, omitzero, uint32/uint64 formats); types may be recursive. C56_end_to_end_partial composes asking for schemas (C55), flattening (C27, C51) and merging (C28)."
  },
  {
   "property": "C57",
   "status": "partial",
   "theorems": [
    "Verif.Crd.C57_markers_once_partial",
    "Verif.Crd.C57_violated_pointer",
    "Verif.Crd.C57_violated_marshaler"
   ],
   "note": "Proved unless the declaration is a pointer type (markers act twice) or a JSON marshaler (spurious error); both violations proved."
  },
  {
   "property": "C58",
   "status": "partial",
   "theorems": [
    "Verif.DeepCopy.C58_object_partial",
    "Verif.DeepCopy.C58_violated"
   ],
   "note": "DeepCopyObject iff DeepCopy is generated and the type is a root object; a root object with its own DeepCopy gets none."
  },
  {
   "property": "C59",
   "status": "partial",
   "theorems": [
    "Verif.Loader.C59_refs_partial",
    "Verif.Loader.C59_violated"
   ],
   "note": "Violated for imports that are not referenced through the nodes the checker looks at: they are checked at any time, or seen as incomplete. Proved for the imports that are referenced."
  },
  {
   "property": "C60",
   "status": "partial",
   "theorems": [
    "Verif.Markers.Collect.C60_partial",
    "Verif.Markers.Collect.Examples.C60_violated"
   ],
   "note": "The order of package markers that were above types depends on the order of a map, so the first value (Get) does as well. All else does not."
  },
  {
   "property": "C61",
   "status": "proved",
   "theorems": [
    "Verif.Markers.Each.C61_types"
   ],
   "note": "ast.Walk with the visitor of loader/visit.go, for all syntax trees in which files have declarations and declarations have types."
  },
  {
   "property": "C62",
   "status": "partial",
   "theorems": [
    "Verif.Patch.C62_written",
    "Verif.Patch.C62_names",
    "Verif.Patch.C62_nothing",
    "Verif.Patch.C62_order_partial",
    "Verif.Patch.C62_violated"
   ],
   "note": "Independence of map order when no two packages have the same group and version; false otherwise (C62_violated)."
  },
  {
   "property": "C63",
   "status": "partial",
   "theorems": [
    "Verif.Genall.C63_objects",
    "Verif.Genall.C63_crd",
    "Verif.Genall.C63_violated"
   ],
   "note": "Frame theorems for all objects that have metadata (and spec, for CRDs), which all generated objects have; an object without metadata makes the transformation panic (C63_violated)."
  },
  {
   "property": "C64",
   "status": "partial",
   "theorems": [
    "Verif.Help.C64_type_partial",
    "Verif.Help.C64_no_crash",
    "Verif.Help.C64_syntax",
    "Verif.Help.C64_violated_number",
    "Verif.Help.C64_violated_map"
   ],
   "note": "Types without floats and maps; help shows an empty type for those (C64_violated_number, C64_violated_map)."
  },
  {
   "property": "C65",
   "status": "partial",
   "theorems": [
    "Verif.Markers.C65_supported",
    "Verif.Markers.C65_type",
    "Verif.Markers.C65_fields",
    "Verif.Markers.C65_defined",
    "Verif.Markers.C65_plain",
    "Verif.Markers.C65_violated_name"
   ],
   "note": "All types and structs; where two fields share a name the last one counts, and the first has no argument (C65_violated_name). reflect is replaced by a description of the type."
  },
  {
   "property": "C66",
   "status": "partial",
   "theorems": [
    "Verif.Loader.C66_loaded",
    "Verif.Loader.C66_fails",
    "Verif.Loader.C66_paths_partial",
    "Verif.Loader.C66_violated_dots",
    "Verif.Loader.C66_violated_wildcard",
    "Verif.Loader.C66_violated_file"
   ],
   "note": "Proved for every world, working directory and list of roots, with the loader's own reading of a root (a path begins with a slash or a dot, a tree ends with the element '...'). Partial because this reading differs from Go's: '...' and '.x' are taken for paths, './b...' for a directory, and the path of a file (an example in the help) always fails; the three are proved. packages.Load and filepath.WalkDir are parameters."
  },
  {
   "property": "C67",
   "status": "partial",
   "theorems": [
    "Verif.Loader.C67_refs_partial",
    "Verif.Loader.C67_errors_partial",
    "Verif.Loader.C67_missing",
    "Verif.Loader.C67_filters",
    "Verif.Loader.C67_crd",
    "Verif.Loader.C67_object",
    "Verif.Loader.C67_checked_partial",
    "Verif.Loader.C67_violated_import",
    "Verif.Loader.C67_violated_params",
    "Verif.Loader.C67_violated_value"
   ],
   "note": "Proved if all imports exist (then with C41 for every schedule). Violated otherwise: one import that is not found (such as \"C\") hides the references of all files; constraints of type parameters are not looked at; a selector of a variable in an array length is reported as an unimported package."
  },
  {
   "property": "C68",
   "status": "proved",
   "theorems": [
    "Verif.Markers.C68_defined",
    "Verif.Markers.C68_recognised",
    "Verif.Markers.C68_only",
    "Verif.Markers.C68_values",
    "Verif.Markers.C68_value",
    "Verif.Markers.C68_fields",
    "Verif.Markers.C68_anonymous",
    "Verif.Markers.C68_manual",
    "Verif.Markers.C68_default"
   ],
   "note": "The table of markers is transcribed from the Go types of all six generators; for texts of values see C14. The marker `default` has its own ParseMarker (JSON, or a reference); C68_default says what it accepts, the other theorems exclude it."
  },
  {
   "property": "C69",
   "status": "proved",
   "theorems": [
    "Verif.Markers.C69_values",
    "Verif.Markers.C69_first"
   ],
   "note": "Maps have each key once (hypothesis WF). The order of values within one file is that of C16."
  },
  {
   "property": "C70",
   "status": "partial",
   "theorems": [
    "Verif.Apply.C70_disabled",
    "Verif.Apply.C70_types_partial",
    "Verif.Apply.C70_where",
    "Verif.Apply.C70_no_panic",
    "Verif.Apply.C70_all",
    "Verif.Apply.Example.C70_violated_single",
    "Verif.Apply.Example.C70_violated_disable",
    "Verif.Apply.Example.C70_violated_commented",
    "Verif.Apply.Example.C70_violated_error"
   ],
   "note": "Violated: a type cannot be enabled in a disabled package, a type with +genclient cannot be disabled, a commented out +genclient suppresses an enabled type, and errors of markers are dropped with exit status 0. Proved: the types that are requested under the guard that no comment has the line '// +genclient', the place, that all roots are treated. The files are written by a library that takes no account of the output rules; it is a function here."
  },
  {
   "property": "C71",
   "status": "partial",
   "theorems": [
    "Verif.Genall.C71_header",
    "Verif.Genall.pieces_unique",
    "Verif.Genall.HeaderExample.C71_violated_helpgen"
   ],
   "note": "Proved for crd, rbac, webhook and object. Violated by helpgen, which drops the space before the year: the files zz_generated.markerhelp.go in the repository read 'Copyright2019'."
  },
  {
   "property": "C72",
   "status": "partial",
   "theorems": [
    "Verif.Helpgen.C72_quote",
    "Verif.Helpgen.C72_summary",
    "Verif.Helpgen.C72_details",
    "Verif.Helpgen.C72_nothing",
    "Verif.Helpgen.C72_file_partial",
    "Verif.Helpgen.C72_order",
    "Verif.Helpgen.C72_keys_partial",
    "Verif.Helpgen.Example.C72_violated_header",
    "Verif.Helpgen.Example.C72_violated_embedded"
   ],
   "note": "Violated: without a header helpgen panics although headerFile is optional, and a type with two embedded fields gets a map literal with one key twice, which does not compile. Proved under the guards that the header is not empty and for distinct names of fields; names of types are distinct and names have no spaces, as in every Go package."
  },
  {
   "property": "C73",
   "status": "partial",
   "theorems": [
    "Verif.Genall.C73_init",
    "Verif.Genall.C73_order",
    "Verif.Genall.C73_bare",
    "Verif.Genall.C73_named",
    "Verif.Genall.C73_value",
    "Verif.Genall.C73_paths",
    "Verif.Genall.C73_only",
    "Verif.Genall.C73_no_crash_partial",
    "Verif.Genall.ToolExample.C73_violated_all",
    "Verif.Genall.ToolExample.C73_violated_all_exit",
    "Verif.Genall.C73_manual",
    "Verif.Genall.C73_kinds",
    "Verif.Genall.C73_rules"
   ],
   "note": "Violated: the help says that 'controller-gen paths=./apis/...' runs all the generators, but it fails with 'no generators specified'; an empty option panics (C34_violated_empty), hence the guard of C73_no_crash_partial. Which texts denote a value is the relation of C14."
  },
  {
   "property": "C74",
   "status": "partial",
   "theorems": [
    "Verif.Scaffold.C74_code",
    "Verif.Scaffold.C74_help_inert",
    "Verif.Scaffold.C74_help_shown",
    "Verif.Scaffold.C74_root",
    "Verif.Scaffold.C74_list",
    "Verif.Scaffold.C74_valid",
    "Verif.Scaffold.C74_default",
    "Verif.Scaffold.C74_main",
    "Verif.Scaffold.C74_main_code_partial",
    "Verif.Scaffold.C74_violated_namespaced",
    "Verif.Scaffold.Example.C74_violated_resource"
   ],
   "note": "For kinds and resources of one line the text declares the four types and nothing else, and help never adds code. Violated: nothing checks the resource for line breaks, so that code can come in with --resource; --namespaced has no effect at all, as the program never asks for clients (proved for all inputs)."
  },
  {
   "property": "C75",
   "status": "partial",
   "theorems": [
    "Verif.Patch.C75_reported",
    "Verif.Patch.C75_nothing",
    "Verif.Patch.C75_written",
    "Verif.Patch.C75_once",
    "Verif.Patch.C75_untouched",
    "Verif.Patch.C75_in_place_partial",
    "Verif.Patch.DirExample.C75_violated_documents",
    "Verif.Patch.DirExample.C75_violated_silent"
   ],
   "note": "Everything but the last clause holds as stated; that clause needs manifests that are alone in their files. Violated: of a file with several documents only the first is read and written, so that in place the others are lost while the run reports success; and a CRD that cannot be read into group, kind and versions is left out silently (proved for all libraries)."
  },
  {
   "property": "C76",
   "status": "partial",
   "theorems": [
    "Verif.Genall.C76_one",
    "Verif.Genall.C76_version",
    "Verif.Genall.C76_help",
    "Verif.Genall.C76_markers",
    "Verif.Genall.C76_run",
    "Verif.Genall.C76_failure",
    "Verif.Genall.C76_no_crash",
    "Verif.Genall.C76_violated_advice",
    "Verif.Genall.C76_violated_no_generators"
   ],
   "note": "All clauses but the last are proved for all flags and options (given that reading the options does not crash, see C34). Violated: the advice after a failure, to call the program again with -w to see all available markers, fails in the same way if the options were wrong, and shows nothing if no generator was named (proved for all such calls)."
  },
  {
   "property": "C77",
   "status": "partial",
   "theorems": [
    "Verif.Json.C77_default_partial",
    "Verif.Json.C77_default_rounded",
    "Verif.Json.C77_default_error",
    "Verif.Json.C77_default_nothing",
    "Verif.Json.C77_kubebuilder",
    "Verif.Json.C77_example",
    "Verif.Json.C77_enum",
    "Verif.Json.C77_violated_number"
   ],
   "note": "Proved for +kubebuilder:default, example and enum (fractions up to their float64), for +default with whole numbers up to 2^53 exactly, for all numbers up to their float64, and for errors, null and references. Violated: +default=9007199254740993 becomes 9007199254740992, since the text is read into float64. The laws assumed of float64 are in the structure Lawful, an instance is given; the limit of 10000 nested values of the decoder, the sign of zero and invalid UTF-8 are not modelled."
  },
  {
   "property": "C78",
   "status": "partial",
   "theorems": [
    "Verif.Crd.C78_enforced_partial",
    "Verif.Crd.C78_exact_partial",
    "Verif.Crd.C78_enforced_crd_partial",
    "Verif.Crd.C78_accepted_crd_partial",
    "Verif.Crd.C78_end_to_end_partial",
    "Verif.Crd.C78_violated_repeated",
    "Verif.Crd.C78_violated_recursive",
    "Verif.Crd.C78_violated_exclusive",
    "Verif.Crd.C78_violated_alias"
   ],
   "note": "Proved for the raw schemas of all programs, and from the source to the CRD under guards. Violated: of two markers of the same kind on one type or field only the last is enforced; where the schema of a recursive type is cut off, markers have no effect; an exclusive maximum of a type is lost when its field has a maximum as well. Markers on an alias of a declared type have no effect (C78_violated_alias); other aliases are covered. The guards of C56 apply to the second half."
  },
  {
   "property": "C79",
   "status": "partial",
   "theorems": [
    "Verif.Crd.C79_merge_partial",
    "Verif.Crd.C79_structural_partial",
    "Verif.Crd.C79_violated_recursive",
    "Verif.Crd.C79_violated_schemaless",
    "Verif.Crd.C79_violated_shadowed",
    "Verif.Crd.C79_violated_default"
   ],
   "note": "Proved from the source to the CRD for types that are not recursive, if schemaless fields have a type marker and no default, list type, list map keys, items or int-or-string type is given twice for the same values. Each guard is needed: recursive types leave an untyped field where they are cut off; schemaless fields are untyped; a struct that hides a list of an embedded struct gets items within allOf only; defaults for a declared type and for a field of the type stay within allOf."
  },
  {
   "property": "C80",
   "status": "partial",
   "theorems": [
    "Verif.Crd.C80_known",
    "Verif.Crd.C80_fields",
    "Verif.Crd.C80_violated_null"
   ],
   "note": "Exact acceptance proved for all known types, including the equivalence of the pattern of quantities with the documented grammar (and n, u). Empty values of Time and RawExtension are written as null, which is rejected (violated)."
  },
  {
   "property": "C81",
   "status": "partial",
   "theorems": [
    "Verif.Rbac.C81_total",
    "Verif.Rbac.C81_sound_partial",
    "Verif.Rbac.C81_complete_partial",
    "Verif.Rbac.C81_errors",
    "Verif.Rbac.SourceExamples.C81_violated",
    "Verif.Rbac.SourceExamples.C81_violated_error"
   ],
   "note": "End to end from comments to granted requests, under the guards of C01 and C02. Markers in the documentation of functions, types and fields are silently ignored (violated); a wrong marker of any generator drops the RBAC markers of the whole package, and the role is still written (violated; the run fails)."
  },
  {
   "property": "C82",
   "status": "proved",
   "theorems": [
    "Verif.Markers.Source.C82_fails",
    "Verif.Markers.Source.C82_types",
    "Verif.Markers.Source.C82_values"
   ],
   "note": "Faithful (InfoSpec) says what the values of a node are: sound (each comes from a comment of the node, with the arguments written there) and complete (comments in the order of the file have their values in this order). Above is exact: the closest comment above the node that is not documentation, after all that is before the node; comments inside of what comes before it, or at the end of its line, are not attached (C16_sound, C16_claimed). Documentation strings and tags are not part of the model of EachType (see C17, C61)."
  },
  {
   "property": "C83",
   "status": "partial",
   "theorems": [
    "Verif.Crd.C83_enforced_partial",
    "Verif.Crd.C83_program",
    "Verif.Crd.packageFrom_of"
   ],
   "note": "From the text of comments to the values that the flattened schema, and the one in the CRD, reject, including values that lack a field that is required because no comment says otherwise. Missing: the guards of C78 (a marker given twice on one type or field, recursive types, fields merged by embedding). The documentation, tags and type expressions of declarations come from Go's parser and are taken as given (Shape). For violations see C78."
  },
  {
   "property": "C84",
   "status": "partial",
   "theorems": [
    "Verif.Webhook.C84_total",
    "Verif.Webhook.C84_exact_partial",
    "Verif.Webhook.C84_sound_partial",
    "Verif.Webhook.C84_complete_partial",
    "Verif.Webhook.C84_accepts_partial",
    "Verif.Webhook.C84_errors",
    "Verif.Webhook.SourceExamples.C84_violated"
   ],
   "note": "From the text of comments to the objects. Missing: comments whose text is outside the grammar of C14 (guard WellWritten), and comments that are not placed, such as those in the documentation of a function, which the code ignores without an error (C84_violated). Syntax trees and the positions of comments come from Go's parser and are taken as given."
  },
  {
   "property": "C85",
   "status": "partial",
   "theorems": [
    "Verif.CrdGen.C85_says",
    "Verif.CrdGen.C85_shown",
    "Verif.CrdGen.C85_crd_partial",
    "Verif.CrdGen.SourceSample.column_shown"
   ],
   "note": "From the text of comments to the CRD. Missing: comments whose text is outside the grammar of C14; kinds whose entries have the same version name twice (guard DistinctVersions, see C22); several resource markers that disagree (guard Resources, see C20); which of several groupName comments counts (C60). Syntax trees and the positions of comments come from Go's parser and are taken as given. SourceSample.column_shown is a case that meets all hypotheses."
  },
  {
   "property": "C86",
   "status": "partial",
   "theorems": [
    "Verif.CrdGen.C86_enforced_partial",
    "Verif.CrdGen.C86_comments_partial"
   ],
   "note": "From the program (or the text of comments) to the schemas in the files. Missing, as in C78 and C83: markers given twice, recursive types (rejection only), types whose embedded parts cannot be merged without loss (CanMerge, see C28), the guards of C56 on encoding (acceptance only), comments outside the grammar of C14; and what the type says of metadata (MetadataFits, MetadataObject). EnforcedExamples has a program for which all hypotheses hold."
  },
  {
   "property": "C87",
   "status": "partial",
   "theorems": [
    "Verif.DeepCopy.C87_total",
    "Verif.DeepCopy.C87_files",
    "Verif.DeepCopy.C87_methods_partial",
    "Verif.DeepCopy.C87_disabled",
    "Verif.DeepCopy.C87_enabled",
    "Verif.DeepCopy.C87_root",
    "Verif.DeepCopy.C87_package",
    "Verif.DeepCopy.C87_nothing"
   ],
   "note": "From the text of the files to the methods in zz_generated.deepcopy.go. Missing: exported pointer types with methods (C45_violated_pointer), and markers of the package inside of declarations, at the end of lines or in the documentation of functions and groups of declarations, of which nothing is said (FreeStanding; see C16_violated). What is copied by the methods is C40-C44. If comments of the package contradict each other, the theorems do not say which one counts; by C100 it is the same one in every run."
  },
  {
   "property": "C88",
   "status": "partial",
   "theorems": [
    "Verif.Apply.C88_total",
    "Verif.Apply.C88_disabled_package",
    "Verif.Apply.C88_asked",
    "Verif.Apply.C88_types_partial",
    "Verif.Apply.C88_enabled",
    "Verif.Apply.C88_disabled",
    "Verif.Apply.C88_resource",
    "Verif.Apply.C88_nothing",
    "Verif.Apply.C88_where",
    "Verif.Apply.C88_all",
    "Verif.Apply.SourceExamples.C88_violated_single",
    "Verif.Apply.SourceExamples.C88_violated_error",
    "Verif.Apply.SourceExamples.C88_violated_error_type"
   ],
   "note": "From the text of the files to what the library k8s.io/code-generator is asked for. Violated: a comment on a type in a package that is not enabled has no effect (C88_violated_single), and comments that do not parse disable the package without an error (C88_violated_error, C88_violated_error_type). Guard: no comment of a type has the line '// +genclient' (C70_violated_commented). Of markers of the package inside of declarations, at the end of lines or in the documentation of functions nothing is said (FreeStanding; see C16_violated). What the library writes is not modelled."
  },
  {
   "property": "C89",
   "status": "partial",
   "theorems": [
    "Verif.Patch.C89_enforced_partial",
    "Verif.Patch.C89_comments_partial",
    "Verif.Patch.C89_crashes",
    "Verif.Patch.C89_violated_late",
    "Verif.Patch.C89_violated_crash"
   ],
   "note": "End to end: from comments and manifests to the schemas in the files that are written. Violated: the loop ranges over a map to which packages are added meanwhile, so the schema of a version in a package that is only imported is written or deleted at random (C89_violated_late); a root package of the group and version without the kind crashes the run (C89_crashes, C89_violated_crash). Guards: the run ends without a crash and without errors about schemas, CanMerge (C28), those of C83 and C86 for the markers; completeness only for packages among the roots. Schemas as YAML nodes are an input (toYaml); where files go is C36."
  },
  {
   "property": "C90",
   "status": "partial",
   "theorems": [
    "Verif.Help.C90_listed",
    "Verif.Help.C90_only",
    "Verif.Help.C90_deprecated",
    "Verif.Help.C90_arguments_partial",
    "Verif.Help.C90_violated_webhookconfiguration",
    "Verif.Help.C90_violated_arguments",
    "Verif.Help.C90_violated_resource"
   ],
   "note": "Violated: kubebuilder:webhookconfiguration is explained with the text of kubebuilder:webhook (C90_violated_webhookconfiguration); the arguments of XValidation have no description (C90_violated_arguments); with crd and then applyconfiguration, the text of kubebuilder:resource is that of the latter, and its arguments are not described (C90_violated_resource). C90_arguments_partial: all other arguments but that of default are described. The order of lines is C46; which generators are chosen is C73."
  },
  {
   "property": "C91",
   "status": "partial",
   "theorems": [
    "Verif.Genall.C91_kept_partial",
    "Verif.Genall.C91_once_partial",
    "Verif.Genall.C91_command_partial",
    "Verif.Genall.C91_only",
    "Verif.Genall.ArtifactsCase.C91_violated_code",
    "Verif.Genall.ArtifactsCase.C91_violated_name"
   ],
   "note": "Violated: with output:dir (or artifacts with code) the code for several packages goes to one file zz_generated.deepcopy.go, and only that of the last package remains (C91_violated_code); rbac:fileName can be the name of the file of the webhooks (C91_violated_name); no error is reported. Guards of the partial theorems: those; two kinds of a group with one plural, names of groups with _ or /, kinds without a CRD (C33); packages in one directory. Not covered: applyconfiguration and schemapatch, errors of the file system (C37), symbolic links."
  },
  {
   "property": "C92",
   "status": "partial",
   "theorems": [
    "Verif.Genall.C92_clean_partial",
    "Verif.Genall.C92_again_partial",
    "Verif.Genall.AgainCase.C92_violated_stale",
    "Verif.Genall.AgainCase.C92_violated_tags"
   ],
   "note": "Violated: files of earlier runs that are not written any more stay (C92_violated_stale: the last marker is removed, the methods remain); with --load-build-tags without ignore_autogenerated, the methods of the first run are taken for methods in the source, and the next run overwrites the file with the others only (C92_violated_tags). Guards of the partial theorems: that tag, headers without //go:build, runs do not write to files that they read. Library facts assumed: gofmt keeps the constraint; !ignore_autogenerated is true unless the tag is given. Not covered: schemapatch (which reads what it writes, see C39 and C75 for idempotence) and applyconfiguration."
  },
  {
   "property": "C93",
   "status": "partial",
   "theorems": [
    "Verif.Genall.C93_one_partial",
    "Verif.Genall.C93_other",
    "Verif.Genall.C93_whole",
    "Verif.Genall.C93_repair_partial",
    "Verif.Genall.C93_repair_manifests",
    "Verif.Genall.C93_repair_code_partial",
    "Verif.Genall.AgainCase.C93_violated_lost",
    "Verif.Genall.AgainCase.C93_violated_loaded"
   ],
   "note": "Violated: os.Create empties a file before anything is written, so that one file may have lost its old text without having the new one (C93_violated_lost); an empty zz_generated.deepcopy.go has no build constraint and is loaded by the next run as a source (C93_violated_loaded). Proved: at most one file is damaged, and it has a beginning of its text; other files are old or complete; the next run repairs it if the begun file is not a Go file or has its build constraint: always without the generator object (C93_repair_manifests), otherwise if at least the first line has been written (C93_repair_code_partial). Guards as in C91 and C92. Not modelled: writes that reach the disk in another order than they are made (no fsync)."
  },
  {
   "property": "C94",
   "status": "partial",
   "theorems": [
    "Verif.Genall.C94_printed",
    "Verif.Genall.C94_read_partial",
    "Verif.Genall.StdoutCase.reads",
    "Verif.Genall.StdoutCase.three",
    "Verif.Genall.StdoutCase.C94_violated_header",
    "Verif.Genall.StdoutCase.C94_violated_code"
   ],
   "note": "Proved: exactly the texts of the artifacts of the generators with the rule stdout are printed, in order, whatever fails (C94_printed); if they are manifests whose header is empty or ends with a newline, they are read as the documents of all of them, in order (C94_read_partial). Violated: with a header that does not end with a newline, the --- of the second file is part of a comment and objects of two files are read as one document (C94_violated_header); the Go code of object is printed as well and is read as part of a manifest (C94_violated_code). YAML is read as in C37: by lines, not by a full parser."
  },
  {
   "property": "C95",
   "status": "partial",
   "theorems": [
    "Verif.CrdGen.C95_kind_partial",
    "Verif.CrdGen.C95_files_partial",
    "Verif.CrdGen.SameSample.C95_violated_other"
   ],
   "note": "Proved, if both runs succeed, no type is recursive, the markers on the types and fields do not contradict each other (C20-C25) and the overrides are the standard ones: two runs over the same packages, named in any order, write the same files in the same order, whatever the order of maps (C95_files_partial); two runs over different packages give the same CRD for a kind, or both none, if both command lines name all packages of the group that declare the kind (C95_kind_partial). Violated without that: NeedCRDFor goes through all packages that have been loaded so far, so a version in a package that is not named is added if another kind, sorted before, has a field with a type of that package (C95_violated_other). Annotations and labels are compared as maps."
  },
  {
   "property": "C96",
   "status": "partial",
   "theorems": [
    "Verif.Patch.C96_agree_partial",
    "Verif.Patch.AgreeCase.C96_violated_unnamed"
   ],
   "note": "Proved: if both runs succeed, no type is recursive, the validation markers of a declaration do not depend on the order of maps (C25), the overrides are the standard ones and each version of the group is one package, then each file of schemapatch is a manifest of the directory, changed in the schemas of versions only, and these are the schemas in the file of the CRD generator for the kind; each version of the CRD that the manifest lists and whose package is a root has one. The root packages and the orders of maps of the two runs may differ. Violated for packages that are not named: C96_violated_unnamed (schemapatch removes the schema of a version that the CRD generator writes). Missing: recursive types; the options that only the CRD generator has (allowDangerousTypes, ignoreUnexportedFields) are part of the program here, so they are taken to be off."
  },
  {
   "property": "C97",
   "status": "partial",
   "theorems": [
    "Verif.Patch.C97_again_partial",
    "Verif.Patch.AgainCase.C97_violated_late"
   ],
   "note": "Proved: if both runs succeed, no type is recursive, the validation markers of a declaration do not depend on the order of maps (C25), the overrides are the standard ones, each version of the group is one package and all packages of the group are named on the command line, and the manifests have no key twice, then every file is after the second run as after the first. Assumed of the libraries: group, kind and the names of versions are not read from schemas (SchemaBlind; proved for the library of the cases), and a file that is written is read back as the document that was written. Violated for packages that are not named: C97_violated_late (the second run removes a schema that the first one wrote). Missing: recursive types, keys twice (C39)."
  },
  {
   "property": "C98",
   "status": "partial",
   "theorems": [
    "Verif.Rbac.C98_monotone_partial",
    "Verif.Rbac.C98_split_partial",
    "Verif.Rbac.C98_order_partial",
    "Verif.Rbac.C98_errors",
    "Verif.Rbac.TogetherCase.C98_violated_overlap"
   ],
   "note": "Proved from source files under the guards of C02: what some packages are granted is granted when further ones are named, what packages are granted together is granted to one of them alone, and the objects depend on the set of packages only. Without guards: whether an error is recorded for a package does not depend on the others. Violated when markers of two packages overlap partially: C98_violated_overlap."
  },
  {
   "property": "C99",
   "status": "partial",
   "theorems": [
    "Verif.Webhook.C99_together",
    "Verif.Webhook.C99_succeeds",
    "Verif.Webhook.C99_name_partial",
    "Verif.Webhook.TogetherCase.C99_violated_name"
   ],
   "note": "Proved from source files without further guards: the webhooks of each kind of a joint run are, up to their order, those of the separate runs, and the joint run succeeds exactly if each separate one does. The name of an object is that of the run for one package if no other package has a comment that names it (for well-written comments). Violated otherwise: C99_violated_name, a package for which nothing is generated renames the object of another one without an error."
  },
  {
   "property": "C100",
   "status": "proved",
   "theorems": [
    "Verif.DeepCopy.C100_package",
    "Verif.DeepCopy.C100_files"
   ],
   "note": "Proved from source files as the Go parser gives them (well-formed trees, fields of structs in the same file), with root paths that are different. What the type checker knows of the package (prog, kind) is taken as part of the package; the text of methods is not part of the file in this model (see C43)."
  },
  {
   "property": "C101",
   "status": "partial",
   "theorems": [
    "Verif.Apply.C101_package_partial",
    "Verif.Apply.C101_types",
    "Verif.Apply.C101_more_partial",
    "Verif.Apply.AloneCase.C101_violated_output"
   ],
   "note": "Guard: the comments of the package name one output package at most. Without it the property is false of the code: C101_violated_output (two +kubebuilder:ac:output:package comments above two types; the directory depends on the order of a map). C101_types needs no guard: the types that are asked for do not depend on the order. Proved from source files as the Go parser gives them (well-formed trees, fields of structs in the same file). The code-generation library is a parameter that is the same in both runs."
  }
 ]
}

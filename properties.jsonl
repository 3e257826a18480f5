{"id": "C01", "title": "Extends resolution always terminates and classifies every group", "statement": "Resolving `extends`/`include_groups` clauses finishes for every set of groups, including cyclic and self-referencing ones. When group ids are unique and no dependency has a group with the id of a local group that still waits for its parent: it succeeds exactly when every group reaches its roots by a well-founded chain of available parents, and each group is then resolved after its parents; when it gets stuck, the errors are about exactly the groups that have no such chain.", "quantifier": "every finite registry of groups and every extends/include graph over it (cyclic, dangling); for the second sentence, with unique and unshadowed ids", "why_tests_cant": "a test runs a handful of registries; termination and exactness of the error set concern every graph shape, including cycles of any length", "anchors": ["crates/weaver_resolver/src/registry.rs::resolve_extends_references", "crates/weaver_resolver/src/registry.rs::resolve_attribute_references"]}
{"id": "C02", "title": "Attribute inheritance precedence", "statement": "For a group that extends a parent and includes attribute groups, the resolved set of attribute ids is exactly the union of the parent's, the included groups' and its own ids, each once; for each id, the group's own definition wins entirely, otherwise each field takes the group's own override if given, else the value from the last included group that carries the id, else the parent's value; a definition never has the `prefix` flag.", "quantifier": "every parent attribute list, every list of included attribute lists, every own attribute list, every combination of present/absent override fields", "why_tests_cant": "the number of combinations of set/unset fields over three layers is unbounded in the number of attributes and include groups", "anchors": ["crates/weaver_resolver/src/registry.rs::resolve_inheritance_attrs_unified", "crates/weaver_resolver/src/registry.rs::resolve_inheritance_attr"]}
{"id": "C03", "title": "No dangling attribute reference after resolution", "statement": "After the final clean-up step, every attribute index stored in every published group points into the catalog and denotes the same attribute content it denoted before the clean-up; the catalog contains exactly the attributes that some group of the registry (published or internal) uses, in sorted order without duplicates.", "quantifier": "every catalog and every list of groups with in-range references", "why_tests_cant": "index renumbering errors only show for particular catalogs/reference patterns; the property must hold for all", "anchors": ["crates/weaver_resolver/src/attribute.rs::gc_unreferenced_attribute_refs_and_sort", "crates/weaver_resolver/src/registry.rs::cleanup_and_stabilize_catalog_and_registry"]}
{"id": "C04", "title": "Resolved registry does not depend on file order", "statement": "Reordering the semantic convention files (which are loaded in parallel in no fixed order) changes neither whether resolution succeeds nor the published attributes, groups and association origins.", "quantifier": "every permutation of the loaded groups and import blocks", "why_tests_cant": "loading order is a scheduling artefact; a test sees one order per run", "anchors": ["crates/weaver_resolver/src/attribute.rs::AttributeCatalog::resolve_conflict", "crates/weaver_resolver/src/attribute.rs::AttributeCatalog::resolve", "crates/weaver_resolver/src/loader.rs::load_definition_repository", "crates/weaver_resolver/src/registry.rs::resolve_registry_with_dependencies"]}
{"id": "C05", "title": "Dependency version conflict strategy", "statement": "When the same dependency is required at two versions, the chosen schema URL is one of the two and has the greatest version; an error is returned exactly when names differ, a version is not semver, or majors differ; and neither success nor the chosen version depends on the order in which they are met. The same holds for the choice the loader makes over a whole list of dependencies.", "quantifier": "every pair (and every list) of schema URLs", "why_tests_cant": "semver ordering with pre-release tags over all version pairs cannot be enumerated", "anchors": ["crates/weaver_resolver/src/conflict_strategy.rs::UseLatestMajorVersion::resolve_conflict"]}
{"id": "C06", "title": "Private and excluded definitions never leak", "statement": "A group or attribute that a dependency excludes is never used to resolve an `extends`, an `include_groups` or a reference of the importing registry and never appears among the imported groups (naming it is an error); an excluded group or attribute of the registry itself is used only by excluded groups; and a dependency's excluded attribute is passed over as soon as another dependency has one that is not excluded.", "quantifier": "every registry (for `extends`: with unique, unshadowed ids), every set of dependencies and every exclusion list", "why_tests_cant": "leaks depend on the interaction of exclusion, import and conflict order", "anchors": ["crates/weaver_resolver/src/dependency_resolution.rs::is_excluded", "crates/weaver_resolver/src/dependency_resolution.rs::is_group_excluded", "crates/weaver_resolver/src/attribute.rs::AttributeCatalog::resolve_conflict", "crates/weaver_resolver/src/imports.rs"]}
{"id": "C07", "title": "Dependency loading terminates and detects cycles", "statement": "Loading a registry with its dependencies terminates for every manifest graph. A dependency cycle, a chain deeper than the allowed depth, and two incompatible versions of one registry are always errors; every error has the reason it announces; and a cycle is reported as a circular dependency when nothing else is wrong and no chain reaches the depth limit.", "quantifier": "every (possibly infinite or cyclic) graph of manifests", "why_tests_cant": "a test covers a few fixed graphs", "anchors": ["crates/weaver_resolver/src/loader.rs::load_semconv_repository_recursive", "crates/weaver_resolver/src/loader.rs::check_version_compatibility"]}
{"id": "C08", "title": "Imports bring in exactly what is named, once, and report every pattern that named nothing", "statement": "From each dependency, imports bring in exactly the groups that a pattern of the matching field names and that the dependency does not exclude (or their newer version chosen by conflict resolution); naming an excluded group is an error that lists every such group; of several copies of one definition only the first is kept; and an `unmatched import` error is reported for a pattern the author wrote if and only if no imported group answers to a name it matches.", "quantifier": "every list of import blocks, every glob semantics and every list of v1 and v2 dependencies", "why_tests_cant": "wildcards over arbitrary names and dependency graphs", "anchors": ["crates/weaver_resolver/src/imports.rs::unmatched_import_errors", "crates/weaver_resolver/src/imports.rs::import_match_keys", "crates/weaver_resolver/src/imports.rs::ImportMatchers", "crates/weaver_resolver/src/imports.rs::ImportableDependency", "crates/weaver_resolver/src/registry.rs::resolve_dependency_imports"]}
{"id": "C09", "title": "Entity associations mean the same whatever the dependency order", "statement": "An entity association resolves to the entity an imported signal brought along, else to the entity of this registry, else to the one registry among the dependencies that offers the name; it is an error exactly when the entity is private, unknown, or offered by two registries; every faulty association is reported; and none of this depends on the order (or repetition) of the dependencies.", "quantifier": "every registry, every list of v1 and v2 dependencies, every permutation of it", "why_tests_cant": "order of dependencies in the manifest is arbitrary", "anchors": ["crates/weaver_resolver/src/dependency.rs::resolve_entity", "crates/weaver_resolver/src/registry.rs::resolve_entity_associations", "crates/weaver_resolver/src/imports.rs::v1_association_origins"]}
{"id": "C10", "title": "Annotation merge laws", "statement": "Merging annotations keeps every key of both sides; at every path the overriding side's scalar wins and maps are merged recursively; merging with nothing is neutral and merging twice changes nothing.", "quantifier": "every pair of nested YAML mappings", "why_tests_cant": "nesting depth and key sets are unbounded", "anchors": ["crates/weaver_resolver/src/merge.rs::merge_annotations", "crates/weaver_resolver/src/merge.rs::merge_yaml_values"]}
{"id": "C11", "title": "Lineage is faithful", "statement": "For an attribute that one base provides: if the group refers to it, the lineage lists a field as locally overridden iff the group's reference sets it and as inherited iff the reference leaves it open and the base sets it (never both); if the group does not mention it, nothing is listed as overridden and exactly the fields the base sets, except role and annotations, as inherited.", "quantifier": "every attribute, reference and field (except the prefix flag of a reference to a definition)", "why_tests_cant": "field by option by order of calls", "anchors": ["crates/weaver_resolved_schema/src/lineage.rs::AttributeLineage"]}
{"id": "C12", "title": "Duplicate ids are always reported", "statement": "If two published groups have the same id, or two published metrics, events or v2 signals the same name, a duplicate error naming them is reported; if there are none, no such error is reported.", "quantifier": "every list of groups", "why_tests_cant": "duplicates may sit anywhere in lists of any length", "anchors": ["crates/weaver_resolver/src/registry.rs::check_uniqueness", "crates/weaver_resolver/src/registry.rs::check_root_attribute_id_duplicates", "crates/weaver_resolver/src/registry.rs::check_v2_signal_id_collisions"]}
{"id": "C13", "title": "V1 to V2 conversion preserves signals", "statement": "Converting a resolved V1 schema to V2 yields each metric/span/event/entity definition exactly once in the registry section and once in the refinement section, each refinement only in the refinement section, never invents signals, and an entity's attributes are partitioned into identifying and descriptive ones.", "quantifier": "every resolved V1 schema", "why_tests_cant": "the set of shapes of a registry is unbounded", "anchors": ["crates/weaver_resolved_schema/src/v2/mod.rs::convert_v1_to_v2", "crates/weaver_resolved_schema/src/v2/mod.rs::is_refinement_of", "crates/weaver_resolved_schema/src/v2/mod.rs::v2_namespace_id"]}
{"id": "C14", "title": "Entity association conversion preserves structure", "statement": "Converting entity association expressions replaces every leaf by its resolved entity id, keeps the one_of/all_of tree shape, and fails iff some leaf is unknown.", "quantifier": "every association tree", "why_tests_cant": "trees of unbounded depth", "anchors": ["crates/weaver_resolved_schema/src/v2/mod.rs::convert_entity_associations"]}
{"id": "C15", "title": "Schema diff is sound and complete", "statement": "In a diff of two registries, an item is reported added iff it is only in the head, removed iff only in the baseline, and renamed/obsoleted/uncategorized iff it is in both and the head deprecates it differently from the baseline; every item is reported at most once, and a registry diffed against itself is empty.", "quantifier": "every pair of registries", "why_tests_cant": "requires all pairs of name sets and deprecation states", "anchors": ["crates/weaver_resolved_schema/src/v2/mod.rs::diff_signals", "crates/weaver_resolved_schema/src/v2/mod.rs::diff_signals_by_hash", "crates/weaver_resolved_schema/src/lib.rs::diff_attributes", "crates/weaver_resolved_schema/src/lib.rs::diff_signals"]}
{"id": "C16", "title": "Version change aggregation picks the most recent rename", "statement": "`version_changes_for` reports for each name the rename of the most recent version at or below the requested one, reports every name renamed in such a version, and nothing else.", "quantifier": "every version history and every requested version", "why_tests_cant": "histories have unbounded length", "anchors": ["crates/weaver_version/src/lib.rs::Versions::version_changes_for"]}
{"id": "C17", "title": "Local version history overrides the parent's", "statement": "Extending a version history by a parent's keeps every local entry, adds every parent version not present locally, and for versions present in both keeps every local rename and adds the parent's renames of resource, log and span attributes and of metrics for names the local one does not mention (the last one, if the parent renames a name in several changes).", "quantifier": "every pair of version histories", "why_tests_cant": "pairs of histories are unbounded", "anchors": ["crates/weaver_version/src/lib.rs::Versions::extend", "crates/weaver_version/src/lib.rs::VersionSpec::extend"]}
{"id": "C18", "title": "JSON canonicalisation is a normal form", "statement": "Canonicalising JSON is idempotent, only reorders elements of arrays, leaves every array at every depth in ascending order, and gives values that differ only in the order of elements of arrays the same result up to numbers of the same float value. Comparison of values is a total preorder by type, then size, then content, in which exactly values that are the same up to such numbers are equal.", "quantifier": "every JSON value", "why_tests_cant": "JSON values are unbounded trees", "anchors": ["crates/weaver_diff/src/lib.rs::canonicalize_json", "crates/weaver_diff/src/lib.rs::compare_values"]}
{"id": "C19", "title": "No error is lost in result combinators", "statement": "Every non-fatal error handed to a weaver result is still reported by it, with order preserved, through map/extend/capture operations; warnings captured are exactly those with warning severity; converting with `failing on non fatal` succeeds iff no error was recorded.", "quantifier": "every sequence of operations on a result", "why_tests_cant": "sequences of operations are unbounded", "anchors": ["crates/weaver_common/src/result.rs::WResult"]}
{"id": "C20", "title": "Total order on floats consistent with equality and hash", "statement": "The ordered float wrapper is reflexively equal (NaN included), its comparison is a total order agreeing with equality, and equal values have equal hashes.", "quantifier": "every pair and triple of IEEE doubles", "why_tests_cant": "2^64 values", "anchors": ["crates/weaver_common/src/ordered_float.rs::OrderedF64"]}
{"id": "C21", "title": "Live-check statistics are those of the report", "statement": "After any run with statistics, the counts are those one gets by counting in the report: entries altogether and by kind, findings altogether, by level, by id and by message, entries by their highest level, and entries without findings. So the counts by level, by id and by message each sum to the number of findings, and the counts by highest level and of entries without findings to the number of entries.", "quantifier": "every sequence of samples, every registry, all advisors, every set of rules", "why_tests_cant": "invariant over unbounded histories", "anchors": ["crates/weaver_live_check/src/stats.rs::CumulativeStatistics", "crates/weaver_live_check/src/lib.rs::LiveCheckResult"]}
{"id": "C22", "title": "Exit decision equals existence of a severe finding", "statement": "A live check with statistics exits with failure under a fail-on setting iff at least one finding in the report is severe enough for it; with the setting none, or with statistics disabled, it never fails.", "quantifier": "every run and every setting", "why_tests_cant": "histories are unbounded", "anchors": ["crates/weaver_live_check/src/stats.rs::LiveCheckStatistics::should_fail", "crates/weaver_config/src/live_check.rs::FailOnLevel", "src/registry/live_check.rs"]}
{"id": "C23", "title": "Finding filters and overrides", "statement": "A finding gets the level of the first override that applies to it. With that level it is dropped iff a filter whose scope covers it names its id, has a higher minimum level, or excludes the name of the sample; otherwise it is reported with nothing else changed. Rules are rejected iff they hold a malformed pattern.", "quantifier": "every finding, sample and configuration", "why_tests_cant": "unbounded configuration lists", "anchors": ["crates/weaver_live_check/src/finding_modifier.rs"]}
{"id": "C24", "title": "Entity association evaluation is boolean evaluation", "statement": "The associations of a metric or event lead to a violation iff there are some and none of them holds for the resource that came last, where a name holds if the entity has no required attribute missing in the resource (or is unknown), one_of means at least one and all_of means all. Findings are those about the parts that hold and about all_of parts, or one that names every entity of a failed alternative once.", "quantifier": "every association tree and every set of resource attributes", "why_tests_cant": "trees are unbounded", "anchors": ["crates/weaver_live_check/src/advice/type_advisor.rs::evaluate_association", "src/registry/live_check.rs"]}
{"id": "C25", "title": "Missing attributes are reported exactly", "statement": "In the report of a run, the entry of a number or histogram data point of a known metric, and that of a log record of a known event, has exactly one finding for each attribute of the metric or event that is not present in it, in the order of the definition and with id and level by its requirement level. A template is present if a name starts with its name.", "quantifier": "every run, sample attribute list and signal definition", "why_tests_cant": "unbounded lists, template prefixes", "anchors": ["crates/weaver_live_check/src/advice/type_advisor.rs::check_attributes", "crates/weaver_live_check/src/sample_metric.rs", "crates/weaver_live_check/src/sample_log.rs"]}
{"id": "C26", "title": "An attribute is compared to its definition or the longest template", "statement": "A sampled attribute is compared to the last definition of its name in the registry; without one, to a template whose name is a prefix of it and which no other matching template exceeds; and to nothing iff no template is a prefix.", "quantifier": "every registry and name", "why_tests_cant": "unbounded", "anchors": ["crates/weaver_live_check/src/live_checker.rs::LiveChecker::find_template", "crates/weaver_live_check/src/live_checker.rs::LiveChecker::find_attribute", "crates/weaver_live_check/src/sample_attribute.rs"]}
{"id": "C27", "title": "Search pagination", "statement": "Concatenating consecutive pages of a search (of the documented size, 1 to 1000) gives exactly the full ranked list: nothing is lost, repeated or reordered; the total is independent of limit and offset; every hit satisfies type, stability and deprecation filters; results are ranked by non-increasing score; an exact name match outranks any other non deprecated match.", "quantifier": "every registry, query, limit and offset", "why_tests_cant": "unbounded page sizes and registries", "anchors": ["crates/weaver_search/src/lib.rs::SearchContext::search", "crates/weaver_search/src/lib.rs::score_fields"]}
{"id": "C28", "title": "Namespace browsing is a partition", "statement": "Browsing a namespace counts every attribute under it once: each is either listed directly or lies below exactly one listed sub-namespace, and every listed sub-namespace is non-empty.", "quantifier": "every set of attribute keys and every prefix", "why_tests_cant": "unbounded key sets", "anchors": ["crates/weaver_search/src/lib.rs::SearchContext::browse_namespace"]}
{"id": "C29", "title": "Inferred registry is closed, sorted and complete", "statement": "For every stream of telemetry samples and every iteration order of hash maps, the inferred registry lists exactly the spans, metrics, events and attributes sampled before the stop signal, strictly sorted, each with exactly the attributes sampled for it; it defines every attribute it references exactly once, by the first samples of one place it was seen in, with at most five distinct examples; which signals and attributes are listed does not depend on the order of samples, and a file is written exactly if something was sampled.", "quantifier": "every finite sequence of requests", "why_tests_cant": "streams are unbounded, order is arbitrary", "anchors": ["crates/weaver_infer/src/lib.rs::AccumulatedSamples", "src/registry/infer.rs::command"]}
{"id": "C30", "title": "Markdown update touches only snippet bodies and is idempotent", "statement": "A markdown document is read in exactly one way as text lines and snippets (directive, body, end marker). Updating it keeps every line outside of snippet bodies unchanged and in order, replaces each body by the generated text, and fails only with the error of a directive. If no generated text contains the end marker of its own snippet or carriage returns, updating the result again changes nothing and a dry run after an update succeeds.", "quantifier": "every markdown document and every snippet generator", "why_tests_cant": "documents are unbounded", "anchors": ["crates/weaver_semconv_gen/src/lib.rs::MarkdownSnippetGenerator::update_markdown_contents", "crates/weaver_semconv_gen/src/parser.rs"]}
{"id": "C31", "title": "Credential selection", "statement": "The token sent for a URL is always the one of the longest configured URL prefix that matches it; no token is sent when no prefix matches; over any history of lookups a command-issued token that is served is never older than the cache lifetime and a failed command is never cached.", "quantifier": "every rule list, URL and history of lookups with times", "why_tests_cant": "histories and prefixes are unbounded", "anchors": ["crates/weaver_common/src/http_auth.rs::HttpAuthResolver"]}
{"id": "C32", "title": "Registry path syntax", "statement": "A registry path is an optional part before the first @, which is the reference, and after the first [ of what follows and up to the first ] after it, the sub folder. What is before these is a web archive, a git repository, a local archive or a local folder by its scheme and ending. Every path whose parts contain none of these separators is read back from its printed form unchanged, and mapping the sub folder changes nothing else.", "quantifier": "every path text", "why_tests_cant": "strings are unbounded", "anchors": ["crates/weaver_common/src/vdir.rs::VirtualDirectoryPath::from_str", "crates/weaver_common/src/vdir.rs::VirtualDirectoryPath::map_sub_folder", "crates/weaver_common/src/vdir.rs::Display"]}
{"id": "C33", "title": "Layered forge configuration", "statement": "The configuration used for a target is the built-in one, overridden by the file of the home directory, then by those of the directories above the target from the outermost to the innermost. Every setting (comment formats, text maps, acronyms, templates, each as a whole) has the value of the most specific file that gives it; parameters are merged one by one and an explicit null removes. Resolution fails exactly if one of the files is invalid.", "quantifier": "every list of configurations and every directory layout", "why_tests_cant": "unbounded lists of layers", "anchors": ["crates/weaver_forge/src/config.rs::WeaverConfig::override_with", "crates/weaver_forge/src/config.rs::WeaverConfig::resolve_from"]}
{"id": "C34", "title": "Command configuration precedence", "statement": "Every setting of a command (of the registry, the policies, the diagnostics and the command itself) has the value of the command line if given there, else of the configuration file, else the default; lists given on the command line replace those of the file; the override in effect for a schema URL is the last readable one.", "quantifier": "every combination of command line and file contents, over every table of settings", "why_tests_cant": "combinatorial over settings", "anchors": ["crates/weaver_config/src/effective.rs", "crates/weaver_config/src/overrides.rs", "crates/weaver_config/src/lib.rs"]}
{"id": "C35", "title": "Requirement and stability filters partition attributes", "statement": "The template filters `required`/`not_required` split every list of attributes into those whose requirement level is the text required and the others, each in original order, and fail on the same inputs: those that cannot be iterated and lists with an undefined element. Every value passes exactly one of the tests stable and experimental, and passes stable exactly if its stability is the text stable.", "quantifier": "every template value", "why_tests_cant": "unbounded lists and values", "anchors": ["crates/weaver_forge/src/extensions/otel.rs::required", "crates/weaver_forge/src/extensions/otel.rs::not_required", "crates/weaver_forge/src/extensions/otel.rs::is_stable", "crates/weaver_forge/src/extensions/otel.rs::is_experimental"]}
{"id": "C36", "title": "attribute_sort is a sorted permutation", "statement": "Sorting attributes returns a permutation of the input ordered by level (required, conditionally required, recommended, opt-in), then by name or key; attributes with equal level and name keep their order, so the result does not depend on the input order if names are distinct; it fails exactly on values that cannot be iterated and on two or more values one of which has no known level.", "quantifier": "every list of template values", "why_tests_cant": "unbounded", "anchors": ["crates/weaver_forge/src/extensions/otel.rs::attribute_sort", "crates/weaver_forge/src/extensions/otel.rs::compare_requirement_level"]}
{"id": "C37", "title": "Numeric key sort", "statement": "`numsort` returns a permutation with numeric keys first in ascending order followed by the other keys in string order.", "quantifier": "every map", "why_tests_cant": "unbounded", "anchors": ["crates/weaver_forge/src/extensions/util.rs::numsort"]}
{"id": "C38", "title": "Prometheus names are valid", "statement": "For metric names in ASCII and the strategies that escape, every generated Prometheus metric name consists of legal characters and starts with a legal one; names that are legal already are kept; the suffixes added are exactly those of the unit and the instrument; the name chosen for a strategy is one of the listed names, the listed names are those of all the strategies asked for, histograms expanded into their series, and none is listed twice.", "quantifier": "every metric name, unit and instrument", "why_tests_cant": "strings are unbounded", "anchors": ["crates/weaver_forge/src/extensions/prom.rs::sanitize_name", "crates/weaver_forge/src/extensions/prom.rs::get_names", "crates/weaver_forge/src/extensions/prom.rs::get_name"]}
{"id": "C39", "title": "Comment rendering", "statement": "A rendered comment is the header, the lines of the rendered text each with indentation and prefix and in order, and the footer; white space at line ends is removed exactly if the format trims; no line of text is lost; each setting is the one of the arguments if given and of the format otherwise.", "quantifier": "every text, comment format and set of arguments; the conversion of markdown is a parameter", "why_tests_cant": "strings are unbounded", "anchors": ["crates/weaver_forge/src/extensions/code.rs::comment_with_prefix", "crates/weaver_forge/src/extensions/code.rs::comment"]}
{"id": "C40", "title": "Template file access is confined", "statement": "A requested template is opened exactly if it names, after symbolic links are followed, something inside the canonical template directory; so no file outside of it is ever opened. Built-in templates are opened exactly by the names they were embedded with.", "quantifier": "every requested path and every symlink layout", "why_tests_cant": "paths are adversarial", "anchors": ["crates/weaver_forge/src/file_loader.rs::safe_join"]}
{"id": "C41", "title": "Group validation reports exactly the violated rules", "statement": "Validating a group reports each of the documented rules exactly if the group violates it (missing stability, span kind misuse, metric fields, event name, repeated references once per repetition, values within maps of a body, faults of entity associations...), and reports no error exactly if the group is acceptable.", "quantifier": "every group", "why_tests_cant": "combinatorial over fields and unbounded nesting", "anchors": ["crates/weaver_semconv/src/group.rs::GroupSpec::validate"]}
{"id": "C42", "title": "Examples conform to the attribute type", "statement": "Example validation accepts exactly the examples that fit the declared attribute type: for a scalar type one scalar of the type or a list of them, for an array type a list of arrays, numbers that are all integers (and empty lists) counting as integers; a single array for an array type is tolerated with a warning, anything else readable is an error, and examples that are neither scalars, lists of scalars nor lists of lists make the file invalid.", "quantifier": "every attribute type and every examples value", "why_tests_cant": "combinatorial over types, unbounded lists", "anchors": ["crates/weaver_semconv/src/attribute.rs::Examples::validate", "crates/weaver_semconv/src/attribute.rs::Examples"]}
{"id": "C43", "title": "Schema URLs", "statement": "The name and the version of a schema URL are the host and path without the last segment, and the last segment; trailing slashes do not matter; the URL made of a name (or a base URL, with or without trailing slashes) and a version has this name and this version; blank names and versions are rejected.", "quantifier": "every schema URL of http and https with a plain host and plain segments, every name and version", "why_tests_cant": "strings are unbounded", "anchors": ["crates/weaver_semconv/src/schema_url.rs::SchemaUrl::new", "crates/weaver_semconv/src/schema_url.rs::SchemaUrl::try_from_name_version"]}
{"id": "C44", "title": "Deprecation round trip", "statement": "Every deprecation written into a resolved schema or a v2 definition is read back showing the same reason, new name and explanation, and is written the same way again; different written forms mean different deprecations.", "quantifier": "every deprecation value", "why_tests_cant": "strings are unbounded", "anchors": ["crates/weaver_semconv/src/deprecated.rs"]}
{"id": "C45", "title": "V2 definition files translate to V1 groups without losing anything", "statement": "Every definition of a version 2 file becomes exactly one group (all attribute definitions together one group), of the right type, with its name, texts, stability, deprecation, annotations and requirement level; every attribute and group reference is kept exactly once, in order; identifying and descriptive attributes keep their roles; a refinement extends the group of the signal it refines. Two files with the same translation say the same, up to the interleaving of attribute and group references and empty against absent texts.", "quantifier": "every V2 definition file", "why_tests_cant": "files are unbounded", "anchors": ["crates/weaver_semconv/src/v2/mod.rs::SemConvSpecV2::into_v1_specification", "crates/weaver_semconv/src/v2/attribute.rs::split_attributes_and_groups", "crates/weaver_semconv/src/v2/span.rs::split_span_attributes_and_groups", "crates/weaver_semconv/src/v2/entity.rs::Entity::into_v1_group", "crates/weaver_semconv/src/v2/event.rs", "crates/weaver_semconv/src/v2/metric.rs", "crates/weaver_semconv/src/v2/attribute_group.rs"]}
{"id": "C46", "title": "Mistyped values", "statement": "A sampled value is reported as mistyped exactly if it has a type and the declared type does not allow values of it (integers are allowed for doubles, arrays of integers for arrays of doubles, strings and integers for enums), and a value that `registry emit` produces for an attribute that is no enum is never reported.", "quantifier": "every value and every attribute type", "why_tests_cant": "composition of components over all types, arrays are unbounded", "anchors": ["crates/weaver_semconv/src/attribute.rs::PrimitiveOrArrayTypeSpec::is_compatible", "crates/weaver_live_check/src/sample_attribute.rs::SampleAttribute::infer_type", "crates/weaver_emit/src/attributes.rs"]}
{"id": "C47", "title": "Policy data documents are addressed by their path", "statement": "A JSON or YAML file at relative path a/b/c.json below the directory (or below the fixed part of the glob) is visible to policies exactly at data.a.b.c, hidden entries and files of other kinds are not, and nothing else is there; loading succeeds exactly if every selected document can be read and no two contradict each other, and the result does not depend on the order of the directory.", "quantifier": "every directory tree, every pattern, every order of directory entries, every pair of parsers", "why_tests_cant": "unbounded trees and patterns, every order", "anchors": ["crates/weaver_checker/src/lib.rs::Engine::add_data_from_file_or_dir", "crates/weaver_checker/src/lib.rs::Engine::add_data_file_from_dir", "crates/weaver_checker/src/lib.rs::split_glob"]}
{"id": "C48", "title": "Namespace helpers", "statement": "Splitting an attribute name gives the part before the first dot and the rest, or the namespace other and the name itself if it has no dot; joining the two parts of a dotted name with a dot gives the name back; it fails exactly for empty names, names that start with a dot and names whose only dot is the last character. A second-level namespace is found exactly if the first part is the one asked for.", "quantifier": "every name", "why_tests_cant": "strings are unbounded", "anchors": ["crates/weaver_forge/src/extensions/otel.rs::attribute_namespace", "crates/weaver_forge/src/extensions/otel.rs::attribute_id"]}
{"id": "C49", "title": "Body field traversal", "statement": "The body_fields filter lists every field of a complex body exactly once in pre-order with its full dotted path and its depth.", "quantifier": "every body tree", "why_tests_cant": "trees are unbounded", "anchors": ["crates/weaver_forge/src/extensions/otel.rs::body_fields"]}
{"id": "C50", "title": "Enum type inference", "statement": "enum_type gives int, double or string if all members have that type, string for members of different types, fails for enums without members or with members of other types, and does not depend on the order of members.", "quantifier": "every value and member list", "why_tests_cant": "unbounded", "anchors": ["crates/weaver_forge/src/extensions/otel.rs::enum_type"]}
{"id": "C51", "title": "Exit status reflects the reported diagnostics", "statement": "A command fails iff at least one reported diagnostic is an error; when future validation rules are switched on, every reported diagnostic (warnings included) makes it fail.", "quantifier": "every list of diagnostics", "why_tests_cant": "lists are unbounded", "anchors": ["crates/weaver_common/src/diagnostic.rs::DiagnosticMessages", "crates/weaver_common/src/result.rs::WResult"]}
{"id": "C52", "title": "A refinement keeps what makes the refined signal what it is", "statement": "After a successful resolution a refinement of a signal has the metric name, instrument, unit, span kind and requirement level of the refined signal whatever it says itself; brief, note, stability, deprecation and span name are its own when given and else inherited; annotations are merged; an entity refinement never changes which attributes identify the entity.", "quantifier": "every registry, chain of refinements and file order", "why_tests_cant": "registries and refinement chains are unbounded", "anchors": ["crates/weaver_resolver/src/registry.rs::inherit_v2_refinement_fields", "crates/weaver_resolver/src/registry.rs::entity_identity_refinement_errors"]}
{"id": "C53", "title": "Ordering of attributes is a total order consistent with equality", "statement": "The order used to sort resolved attributes (which fixes their published positions) is total and antisymmetric: two attributes compare as equal only if they are equal, and never each as less than the other, whatever YAML values their annotations hold.", "quantifier": "every pair and triple of attributes and annotation values", "why_tests_cant": "values are unbounded trees; a few samples cannot show transitivity or antisymmetry", "anchors": ["crates/weaver_semconv/src/lib.rs::YamlValue::cmp", "crates/weaver_resolver/src/attribute.rs::AttributeCatalog::gc_unreferenced_attribute_refs_and_sort"]}
{"id": "C54", "title": "What an attribute reference resolves to", "statement": "Attribute resolution terminates on every registry. When it succeeds, every group has exactly one attribute for each of its definitions and references; a definition gives what it says; a reference gives the fields it sets over those of an attribute of that name that the group may use: a definition of the registry, what a `prefix: true` reference of the registry makes of such an attribute, or the attribute of the dependencies in the newest version chosen for the whole graph. A name that none of these has makes resolution fail; two dependencies of different registries that both have it are an error, never a silent choice.", "quantifier": "every registry, set of dependencies and file order", "why_tests_cant": "registries, groups and dependency graphs are unbounded", "anchors": ["crates/weaver_resolver/src/attribute.rs::AttributeCatalog::resolve", "crates/weaver_resolver/src/attribute.rs::resolve_conflict", "crates/weaver_resolver/src/attribute.rs::AttributeCatalog::upgrade_attribute_with_source", "crates/weaver_resolver/src/registry.rs::resolve_attribute_references"]}
{"id": "C55", "title": "A pattern that names an available group is not reported, and no named definition is lost", "statement": "If a dependency offers a visible group that an import pattern names, that group (or its newer version) is imported and the pattern is not reported as unmatched; an excluded definition is never imported; an imported signal keeps the entity associations it had.", "quantifier": "every list of import blocks and dependencies", "why_tests_cant": "the duplicate filter, the version upgrade and the matching interact", "anchors": ["crates/weaver_resolver/src/imports.rs::is_same_imported_group", "crates/weaver_resolver/src/imports.rs::upgrade_imported_group", "crates/weaver_resolver/src/imports.rs::unmatched_import_errors"]}
{"id": "C56", "title": "Deprecations in source files round trip", "statement": "A deprecation written out can be read back by the reader used for source files and enum members, as the same deprecation.", "quantifier": "every deprecation value", "why_tests_cant": "two different readers accept one written form", "anchors": ["crates/weaver_semconv/src/deprecated.rs"]}
{"id": "C57", "title": "A diff reports exactly the visible changes of deprecation", "statement": "An item whose deprecation is shown differently in the head and in the baseline, including one that is no longer deprecated, is reported; one that is shown the same is not.", "quantifier": "every pair of registries", "why_tests_cant": "all pairs of deprecation states", "anchors": ["crates/weaver_resolved_schema/src/v2/mod.rs::diff_signals_by_hash", "crates/weaver_resolved_schema/src/lib.rs::diff_signals", "crates/weaver_semconv/src/deprecated.rs"]}
{"id": "C58", "title": "The v1 diff and the v2 diff agree", "statement": "Diffing two resolved v1 schemas and diffing what they convert to reports the same changes of metrics and events.", "quantifier": "every pair of convertible schemas", "why_tests_cant": "two implementations over all pairs of registries", "anchors": ["crates/weaver_resolved_schema/src/v2/mod.rs::diff", "crates/weaver_resolved_schema/src/lib.rs::diff", "crates/weaver_resolved_schema/src/lib.rs::groups_by_name"]}
{"id": "C59", "title": "A parent version history is inherited completely", "statement": "Every rename the parent history reports for a version and the local history does not contradict is reported by the extended history, for all five kinds of names and the section that applies to all of them.", "quantifier": "every pair of version histories", "why_tests_cant": "pairs of histories are unbounded", "anchors": ["crates/weaver_version/src/lib.rs::VersionSpec::extend"]}
{"id": "C60", "title": "Renames are followed to the present name", "statement": "The new name reported for a name is not itself renamed in the versions considered.", "quantifier": "every version history and requested version", "why_tests_cant": "chains of renames have unbounded length", "anchors": ["crates/weaver_version/src/lib.rs::Versions::version_changes_for"]}
{"id": "C61", "title": "Canonical forms are equal exactly for reordered values", "statement": "Two JSON values have the same canonical form exactly if they differ at most in the order of elements of arrays.", "quantifier": "every pair of JSON values", "why_tests_cant": "JSON values are unbounded trees", "anchors": ["crates/weaver_diff/src/lib.rs::canonicalize_json"]}
{"id": "C62", "title": "Template attributes of an entity are found in a resource", "statement": "A resource that has an attribute below a template that an entity requires satisfies that requirement.", "quantifier": "every entity and resource", "why_tests_cant": "unbounded sets of attributes", "anchors": ["crates/weaver_live_check/src/advice/type_advisor.rs::check_entity_resource_attributes"]}
{"id": "C63", "title": "Required attributes are looked for in all signals", "statement": "A required attribute that is missing is reported for every kind of data point, and for spans and span events.", "quantifier": "every run and signal definition", "why_tests_cant": "all kinds of samples and definitions", "anchors": ["crates/weaver_live_check/src/advice/type_advisor.rs::TypeAdvisor", "crates/weaver_live_check/src/sample_metric.rs", "crates/weaver_live_check/src/sample_span.rs"]}
{"id": "C64", "title": "Exported findings are those of the report", "statement": "The findings handed to the OTLP exporter are the findings of the report.", "quantifier": "every run and set of rules", "why_tests_cant": "unbounded runs and rules", "anchors": ["crates/weaver_live_check/src/advice/mod.rs::emit_findings", "crates/weaver_live_check/src/lib.rs::LiveCheckResult::add_advice"]}
{"id": "C65", "title": "Registry coverage counts what was seen", "statement": "After a run, each attribute, metric and event of the registry that is not deprecated has as count the number of entries about it, all other names are counted apart, and the coverage is the number of registry names with a positive count over the number of registry names.", "quantifier": "every run", "why_tests_cant": "unbounded runs", "anchors": ["crates/weaver_live_check/src/stats.rs::CumulativeStatistics::finalize", "crates/weaver_live_check/src/sample_attribute.rs::update_stats"]}
{"id": "C66", "title": "Attributes are compared to the right definition", "statement": "An attribute of a metric or event is compared to the definition of the metric or event, and a name is taken for an instance of a template only if it is below the template.", "quantifier": "every registry and run", "why_tests_cant": "unbounded registries", "anchors": ["crates/weaver_live_check/src/sample_attribute.rs", "crates/weaver_live_check/src/live_checker.rs"]}
{"id": "C67", "title": "Coverage does not depend on finding filters", "statement": "The registry coverage of a run is the same whatever finding filters are configured.", "quantifier": "every run and set of rules", "why_tests_cant": "unbounded runs and rules", "anchors": ["crates/weaver_live_check/src/sample_attribute.rs::update_stats", "crates/weaver_live_check/src/finding_modifier.rs"]}
{"id": "C68", "title": "Lookups by name", "statement": "Looking up an attribute, template, metric, span, event or entity by name gives the last item of that kind and name in the registry, and nothing only if there is none; the template found for an attribute name is one whose name the attribute name starts with, and no template with a longer name does.", "quantifier": "every registry and name", "why_tests_cant": "unbounded registries", "anchors": ["crates/weaver_search/src/lib.rs::SearchContext::get_attribute", "crates/weaver_search/src/lib.rs::SearchContext::find_template", "crates/weaver_search/src/lib.rs::SearchContext::from_registry_with_separator"]}
{"id": "C69", "title": "Search hits can be fetched", "statement": "An item found by a search can be fetched by its kind and name, through the HTTP API and through the MCP tools.", "quantifier": "every registry and search", "why_tests_cant": "unbounded registries", "anchors": ["src/serve/handlers.rs", "crates/weaver_mcp/src/service.rs", "crates/weaver_search/src/lib.rs::SearchContext::search"]}
{"id": "C70", "title": "The compact live check answer lists every finding", "statement": "The compact answer of the MCP live check has an entry for each finding of the full answer, and no other.", "quantifier": "every run", "why_tests_cant": "unbounded samples", "anchors": ["crates/weaver_mcp/src/service.rs::live_check"]}
{"id": "C71", "title": "Namespace totals add up", "statement": "The total of a namespace is the number of attributes it lists directly plus the totals of the sub-namespaces it lists.", "quantifier": "every set of attribute keys and every prefix", "why_tests_cant": "unbounded key sets", "anchors": ["crates/weaver_search/src/lib.rs::SearchContext::browse_namespace"]}
{"id": "C72", "title": "Dry runs and failures leave markdown files alone", "statement": "A dry run of update-markdown changes no file; an update that fails leaves the file as it was; the files of a directory are treated independently, and the command succeeds exactly if it succeeds on each. Line ends of the file do not matter for what is read.", "quantifier": "every file content, directory and generator", "why_tests_cant": "unbounded documents", "anchors": ["crates/weaver_semconv_gen/src/lib.rs::MarkdownSnippetGenerator::update_markdown", "src/registry/update_markdown.rs::command"]}
{"id": "C73", "title": "A dry run tells whether an update would change the file", "statement": "A dry run of update-markdown succeeds on a file exactly if an update would succeed and leave the file as it is.", "quantifier": "every file content and generator", "why_tests_cant": "unbounded documents", "anchors": ["crates/weaver_semconv_gen/src/lib.rs::MarkdownSnippetGenerator::update_markdown"]}
{"id": "C74", "title": "No text is lost when a snippet is not closed", "statement": "Updating a markdown file never deletes text that does not stand between a directive and its end marker.", "quantifier": "every markdown document", "why_tests_cant": "unbounded documents", "anchors": ["crates/weaver_semconv_gen/src/lib.rs::MarkdownSnippetGenerator::update_markdown_contents"]}
{"id": "C75", "title": "Markdown updates are idempotent for all generated texts", "statement": "Updating the result of an update changes nothing, whatever texts the templates produce.", "quantifier": "every markdown document and generator", "why_tests_cant": "unbounded documents", "anchors": ["crates/weaver_semconv_gen/src/lib.rs::MarkdownSnippetGenerator::update_markdown_contents"]}
{"id": "C76", "title": "Which comments are directives", "statement": "A comment is taken for a snippet directive only if its first word is semconv or weaver; the documented forms are recognised with exactly their id, parameters, template and query.", "quantifier": "every line", "why_tests_cant": "unbounded lines", "anchors": ["crates/weaver_semconv_gen/src/parser.rs::parse_markdown_snippet_directive", "crates/weaver_semconv_gen/src/parser.rs::parse_weaver_snippet_directive"]}
{"id": "C77", "title": "All tags of a directive are filters", "statement": "The tag filters of a snippet directive are the tags written in it.", "quantifier": "every directive", "why_tests_cant": "unbounded parameter lists", "anchors": ["crates/weaver_semconv_gen/src/parser.rs::GenerateMarkdownArgs::tag_filters"]}
{"id": "C78", "title": "Ids of v2 snippets", "statement": "An id of a v2 snippet is accepted exactly if it is written section.kind.id for one of the ten lists of the schema, and then names that list and item.", "quantifier": "every id", "why_tests_cant": "unbounded ids", "anchors": ["crates/weaver_semconv_gen/src/parser.rs::parse_id_lookup_v2"]}
{"id": "C79", "title": "Inferring twice gives the same registry", "statement": "Inferring a registry twice from the same samples, in the same order, gives the same registry.", "quantifier": "every sequence of samples and every hash order", "why_tests_cant": "hash orders vary between runs", "anchors": ["crates/weaver_infer/src/lib.rs::AccumulatedSamples::to_semconv_spec"]}
{"id": "C80", "title": "Inferred examples conform to inferred types", "statement": "The examples of every inferred attribute are valid for its inferred type.", "quantifier": "every sequence of samples", "why_tests_cant": "unbounded streams", "anchors": ["crates/weaver_infer/src/lib.rs::add_example", "crates/weaver_semconv/src/attribute.rs::Examples::validate"]}
{"id": "C81", "title": "Every value of a wrong type is reported", "statement": "A sampled value is reported as mistyped whenever the declared type does not allow it.", "quantifier": "every value and every declared type", "why_tests_cant": "unbounded values", "anchors": ["crates/weaver_live_check/src/advice/type_advisor.rs::TypeAdvisor", "crates/weaver_live_check/src/sample_attribute.rs::SampleAttribute::infer_type"]}
{"id": "C82", "title": "Emitted enum values are accepted", "statement": "The value that `registry emit` produces for an enum exists and is not reported as mistyped.", "quantifier": "every enum", "why_tests_cant": "unbounded member lists", "anchors": ["crates/weaver_emit/src/attributes.rs"]}
{"id": "C83", "title": "Natural examples are accepted", "statement": "An empty list of examples is accepted for every scalar type, and integers are accepted as examples of doubles.", "quantifier": "every examples value", "why_tests_cant": "unbounded lists", "anchors": ["crates/weaver_semconv/src/attribute.rs::Examples::validate"]}
{"id": "C84", "title": "Every value of an event body is validated", "statement": "A value anywhere inside the body of an event is reported if it has no stability.", "quantifier": "every event group and every nesting of its body", "why_tests_cant": "unbounded nesting", "anchors": ["crates/weaver_semconv/src/group.rs::validate_any_value", "crates/weaver_semconv/src/group.rs::validate_any_value_examples"]}
{"id": "C85", "title": "Definition files are read by their declared format", "statement": "A file is read as format 2 exactly if file_format or version says so, as format 1 exactly if one of them says so and none says format 2 or if neither is given, and is rejected otherwise; the problems reported are exactly those of the format plus the warnings about the deprecated version field and the unstable format; a format 2 file is accepted exactly if every entity has identifying attributes and none lists an attribute as identifying and descriptive.", "quantifier": "every document", "why_tests_cant": "unbounded documents", "anchors": ["crates/weaver_semconv/src/semconv.rs::FileFormat::detect", "crates/weaver_semconv/src/semconv.rs::Versioned", "crates/weaver_semconv/src/v2/mod.rs::SemConvSpecV2::validate"]}
{"id": "C86", "title": "A declared format is honoured", "statement": "A version that is not a known text is rejected, and so are contradicting version and file_format fields.", "quantifier": "every pair of version and file_format fields", "why_tests_cant": "all combinations of values", "anchors": ["crates/weaver_semconv/src/semconv.rs::FileFormat::detect"]}
{"id": "C87", "title": "attribute_sort accepts valid attributes", "statement": "Sorting attributes never fails if every requirement level is one the schema allows.", "quantifier": "every list of attributes with valid levels", "why_tests_cant": "unbounded", "anchors": ["crates/weaver_forge/src/extensions/otel.rs::compare_requirement_level"]}
{"id": "C88", "title": "Namespace and id identify an attribute", "statement": "Two names with the same namespace and id are equal.", "quantifier": "every pair of names", "why_tests_cant": "strings are unbounded", "anchors": ["crates/weaver_forge/src/extensions/otel.rs::attribute_namespace"]}
{"id": "C89", "title": "The inferred type of an enum is the type of its members", "statement": "If all the members of an enum are strings, integers, doubles or booleans then enum_type gives that type.", "quantifier": "every non-empty list of members of one type", "why_tests_cant": "unbounded", "anchors": ["crates/weaver_forge/src/extensions/otel.rs::enum_type"]}
{"id": "C90", "title": "Every attribute type can be instantiated", "statement": "instantiated_type gives the type itself for simple types, the inner type for templates and the member type for enums, and fails for no attribute type.", "quantifier": "every attribute type", "why_tests_cant": "all types and member lists", "anchors": ["crates/weaver_forge/src/extensions/otel.rs::instantiated_type"]}
{"id": "C91", "title": "Every escaped Prometheus name is legal", "statement": "Prometheus names are legal for every metric name.", "quantifier": "every metric name", "why_tests_cant": "strings are unbounded", "anchors": ["crates/weaver_forge/src/extensions/prom.rs::sanitize_name"]}
{"id": "C92", "title": "Every rate of known units is translated", "statement": "A unit a/b, for known units a and b, gets the suffix of a followed by _per_ and the name of b.", "quantifier": "every pair of known units", "why_tests_cant": "strings are unbounded", "anchors": ["crates/weaver_forge/src/extensions/prom.rs::get_names"]}
{"id": "C93", "title": "Blank lines are kept in comments", "statement": "Every line of the text, blank or not, is a line of the comment.", "quantifier": "every text", "why_tests_cant": "strings are unbounded", "anchors": ["crates/weaver_forge/src/extensions/code.rs::comment_with_prefix"]}
{"id": "C94", "title": "Comments never fail for lack of room", "statement": "Rendering a comment gives a result for every line length.", "quantifier": "every text, format and set of arguments", "why_tests_cant": "unbounded", "anchors": ["crates/weaver_forge/src/extensions/code.rs::comment"]}
{"id": "C95", "title": "List helpers", "statement": "concat_if joins the texts of its arguments, and is undefined exactly if one of them is; flatten concatenates the inner lists in order; split_id cuts at every dot and joining with dots gives the text back.", "quantifier": "every argument list, list of lists and text", "why_tests_cant": "unbounded", "anchors": ["crates/weaver_forge/src/extensions/util.rs::concat_if"]}
{"id": "C96", "title": "Acronyms", "statement": "The acronym filter cuts the text into its maximal runs of white space, word characters and others, replaces each run that equals an acronym up to case by the last such acronym, and changes nothing else; applying it twice is the same as once.", "quantifier": "every text and list of acronyms", "why_tests_cant": "strings are unbounded", "anchors": ["crates/weaver_forge/src/extensions/util.rs::acronym"]}
{"id": "C97", "title": "YAML output has no markup characters", "statement": "The output of toyaml contains none of < > & and single quotes.", "quantifier": "every value", "why_tests_cant": "strings are unbounded", "anchors": ["crates/weaver_forge/src/extensions/util.rs::to_yaml"]}
{"id": "C98", "title": "YAML output is lossless", "statement": "Different YAML texts give different outputs of toyaml.", "quantifier": "every pair of YAML texts", "why_tests_cant": "strings are unbounded", "anchors": ["crates/weaver_forge/src/extensions/util.rs::to_yaml"]}
{"id": "C99", "title": "Type and text mappings", "statement": "type_mapping gives the type configured for the attribute type, and the value itself otherwise; map_text gives the configured text, else the default, else the value.", "quantifier": "every configuration and value", "why_tests_cant": "unbounded", "anchors": ["crates/weaver_forge/src/extensions/code.rs::type_mapping"]}
{"id": "C100", "title": "Listed templates can be loaded", "statement": "Every file listed by the template loader can be loaded by that name.", "quantifier": "every directory tree", "why_tests_cant": "unbounded trees with links", "anchors": ["crates/weaver_forge/src/file_loader.rs::FileSystemFileLoader::all_files"]}
{"id": "C101", "title": "Generated files stay in the output directory", "statement": "The engine writes no file outside of the output directory.", "quantifier": "every file name a template computes", "why_tests_cant": "names are computed by templates from the registry", "anchors": ["crates/weaver_forge/src/lib.rs::TemplateEngine::save_generated_code"]}
{"id": "C102", "title": "Listed built-in templates can be loaded", "statement": "Every built-in template listed by the loader can be loaded by that name.", "quantifier": "every embedded directory", "why_tests_cant": "unbounded trees", "anchors": ["crates/weaver_forge/src/file_loader.rs::EmbeddedFileLoader::all_files"]}
{"id": "C103", "title": "Built-in templates are the default", "statement": "If no templates directory is given locally, the built-in templates of the target are used.", "quantifier": "every working directory", "why_tests_cant": "all file systems", "anchors": ["crates/weaver_forge/src/file_loader.rs::EmbeddedFileLoader::try_new"]}
{"id": "C104", "title": "Confinement holds while files change", "statement": "No template outside the template directory is read even if the file system changes between the check and the read.", "quantifier": "every pair of file systems", "why_tests_cant": "race with another process", "anchors": ["crates/weaver_forge/src/file_loader.rs::FileSystemFileLoader::load_file"]}
{"id": "C105", "title": "Configuration of all parent directories", "statement": "The weaver.yaml of every directory above the templates is read, however the path of the templates is written.", "quantifier": "every directory layout and path", "why_tests_cant": "paths are unbounded", "anchors": ["crates/weaver_forge/src/config.rs::WeaverConfig::collect_from_path"]}
{"id": "C106", "title": "Project acronyms win", "statement": "An acronym of the project configuration decides the spelling of the word it matches; the others are spelled as in the template package.", "quantifier": "all lists of acronyms and all words", "why_tests_cant": "unbounded", "anchors": ["crates/weaver_forge/src/config.rs::WeaverConfig::merge_acronyms"]}
{"id": "C107", "title": "Null removes a parameter", "statement": "A parameter set to null at a more specific level is not defined for templates.", "quantifier": "every list of levels", "why_tests_cant": "unbounded", "anchors": ["crates/weaver_forge/src/config.rs::WeaverConfig::override_with", "crates/weaver_forge/src/lib.rs::TemplateEngine::init_params"]}
{"id": "C108", "title": "Parameter precedence", "statement": "A template sees, for each parameter, the last value of the command line, else the value of the parameters file, else the one of the template, else the one of the configuration; all of them together under the reserved name params. A project text map replaces the package's map of the same name and leaves the others.", "quantifier": "all parameter maps", "why_tests_cant": "unbounded", "anchors": ["crates/weaver_forge/src/lib.rs::TemplateEngine::init_params", "src/registry/generate.rs::generate_params", "crates/weaver_forge/src/config.rs::WeaverConfig::merge_text_maps"]}
{"id": "C109", "title": "What is generated", "statement": "A template is evaluated with a context exactly if its pattern matches a template file, its condition is absent or gives the single boolean true, and its filter asks for the context: each element or output in mode each, the whole unless null or empty in mode single. A condition that gives anything but one boolean is an error, and so is a pattern that matches no file.", "quantifier": "every configuration, registry and set of files", "why_tests_cant": "unbounded configurations; jq results are arbitrary", "anchors": ["crates/weaver_forge/src/lib.rs::TemplateEngine::process_template", "crates/weaver_forge/src/lib.rs::TemplateEngine::evaluate_when", "crates/weaver_forge/src/jq.rs::execute_jq"]}
{"id": "C110", "title": "Generation does not depend on the schedule", "statement": "The generated files and the result of the generation do not depend on the order in which the parallel jobs run.", "quantifier": "every schedule", "why_tests_cant": "all interleavings", "anchors": ["crates/weaver_forge/src/lib.rs::TemplateEngine::generate"]}
{"id": "C111", "title": "Texts on standard output", "statement": "With standard output as target every rendered text is printed exactly once, with a line break, and no file is changed.", "quantifier": "every schedule", "why_tests_cant": "all interleavings", "anchors": ["crates/weaver_forge/src/lib.rs::TemplateEngine::evaluate_template"]}
{"id": "C112", "title": "Generation into a text", "statement": "generate_to_string fails exactly if a template cannot be evaluated, and is otherwise the concatenation, in the order of files and templates, of the texts generate would write.", "quantifier": "every configuration and registry", "why_tests_cant": "unbounded", "anchors": ["crates/weaver_forge/src/lib.rs::TemplateEngine::generate_to_string"]}
{"id": "C113", "title": "Default file names are distinct", "statement": "Different template files have different default output files.", "quantifier": "every pair of template files", "why_tests_cant": "unbounded names", "anchors": ["crates/weaver_forge/src/lib.rs::TemplateEngine::render_template"]}
{"id": "C114", "title": "Failures do not affect other files", "statement": "A file no other job writes at, above or below has the rendered text in the end, whatever happens to the other jobs; files no job names are not changed; the result is success exactly if every template could be evaluated.", "quantifier": "every schedule and every set of failing jobs", "why_tests_cant": "all interleavings and failures", "anchors": ["crates/weaver_forge/src/lib.rs::TemplateEngine::generate"]}
{"id": "C115", "title": "Choice of the output format", "statement": "Output is muted exactly if the target or format says so; templates are used exactly if a template directory has the name of the format or the format is not built in; otherwise the built-in format of that name, in any case, is used. The content type tells the format.", "quantifier": "every format name and set of template directories", "why_tests_cant": "unbounded", "anchors": ["crates/weaver_forge/src/output_processor.rs::OutputProcessor::new"]}
{"id": "C116", "title": "Histories of output calls", "statement": "After any number of calls the output file has exactly what the successful calls wrote, in order, and JSONL files have one line per successful call; standard output gets each text with a line break.", "quantifier": "every sequence of calls, some failing", "why_tests_cant": "unbounded histories", "anchors": ["crates/weaver_forge/src/output_processor.rs::OutputProcessor::generate"]}
{"id": "C117", "title": "Where output goes", "statement": "File output writes nothing to the standard streams, other output changes no file, and muted output does nothing.", "quantifier": "every kind of output, data and schedule", "why_tests_cant": "unbounded", "anchors": ["crates/weaver_forge/src/output_processor.rs::OutputProcessor::generate", "crates/weaver_forge/src/output_processor.rs::OutputProcessor::is_file_output"]}
{"id": "C118", "title": "Order on standard output", "statement": "The order of the texts on standard output is the same in every run.", "quantifier": "every schedule", "why_tests_cant": "all interleavings", "anchors": ["crates/weaver_forge/src/lib.rs::TemplateEngine::evaluate_template"]}
{"id": "C119", "title": "Generation is all or nothing", "statement": "If generation fails then no file was changed.", "quantifier": "every configuration and schedule", "why_tests_cant": "all failures", "anchors": ["crates/weaver_forge/src/lib.rs::TemplateEngine::generate"]}
{"id": "C120", "title": "Output files are documents", "statement": "After any number of calls with JSON or YAML the output file is the document of the last call.", "quantifier": "every sequence of calls", "why_tests_cant": "unbounded histories", "anchors": ["crates/weaver_forge/src/output_processor.rs::write_content"]}
{"id": "C121", "title": "Failing output keeps the file", "statement": "A call that fails to serialize its value leaves an existing file as it was.", "quantifier": "every history", "why_tests_cant": "all failures", "anchors": ["crates/weaver_forge/src/output_processor.rs::OutputProcessor::generate"]}
{"id": "C122", "title": "No part of a registry path is dropped", "statement": "Reading a registry path keeps every character the user wrote: the text can be rebuilt from the parsed parts.", "quantifier": "every path text", "why_tests_cant": "strings are unbounded", "anchors": ["crates/weaver_common/src/vdir.rs::VirtualDirectoryPath::from_str"]}
{"id": "C123", "title": "Printed registry paths are stable", "statement": "Printing a parsed registry path and parsing it again gives the same path, for every path that was read.", "quantifier": "every path text", "why_tests_cant": "strings are unbounded", "anchors": ["crates/weaver_common/src/vdir.rs::VirtualDirectoryPath::from_str", "crates/weaver_common/src/vdir.rs::Display"]}
{"id": "C124", "title": "The nearest configuration file is used", "statement": "Without an explicit file the configuration file is the one in the nearest directory at or above the working directory that has one; with an explicit file it is that file, whatever else exists; a file that cannot be read is an error and no other is tried; without any file the defaults are used.", "quantifier": "every directory layout and starting directory", "why_tests_cant": "directory trees are unbounded", "anchors": ["crates/weaver_config/src/lib.rs::discover"]}
{"id": "C125", "title": "What the configuration file says is used or reported", "statement": "Every setting of the configuration file for the command that runs takes effect unless the command line gives it, or an error is reported.", "quantifier": "every configuration file", "why_tests_cant": "unbounded files", "anchors": ["crates/weaver_config/src/lib.rs", "crates/weaver_config/src/effective.rs"]}
{"id": "C126", "title": "Which registry manifests are accepted", "statement": "A manifest is accepted exactly if it is a publication (with a schema URL and a resolved registry), a definition with a schema URL, or an old definition with a base URL and a version; dependencies given by name are accepted only in the last, need a path and may have nothing else; every field of the result comes from the field of the file.", "quantifier": "every manifest", "why_tests_cant": "combinatorial over fields, unbounded lists of dependencies", "anchors": ["crates/weaver_semconv/src/manifest.rs::RawManifestFields::into_manifest", "crates/weaver_semconv/src/manifest.rs::parse_dependency"]}
{"id": "C127", "title": "Published manifests", "statement": "A manifest can be published exactly if every dependency has a version; the published manifest keeps schema URL, description, stability and dependencies, tells no local paths, and is read back unchanged and without warnings.", "quantifier": "every accepted manifest", "why_tests_cant": "unbounded lists of dependencies and texts", "anchors": ["crates/weaver_semconv/src/manifest.rs::PublicationRegistryManifest::try_from_registry_manifest"]}
{"id": "C128", "title": "Deprecated manifest syntax is reported", "statement": "Every use of deprecated syntax in a manifest gives exactly one warning: the old file name, the version and base URL, the old name of the resolved registry.", "quantifier": "every manifest", "why_tests_cant": "combinatorial over fields", "anchors": ["crates/weaver_semconv/src/manifest.rs::RawManifestFields::into_manifest", "crates/weaver_semconv/src/manifest.rs::RegistryManifest::try_from_file"]}
{"id": "C129", "title": "Name and version identify a registry", "statement": "Two schema URLs with the same name and the same version are the same URL.", "quantifier": "every pair of schema URLs", "why_tests_cant": "strings are unbounded", "anchors": ["crates/weaver_semconv/src/schema_url.rs::SchemaUrl::name", "crates/weaver_semconv/src/schema_url.rs::SchemaUrl::version"]}
{"id": "C130", "title": "Blanks around a schema URL do not change its name", "statement": "A schema URL accepted with a blank before it has the same name as without.", "quantifier": "every schema URL", "why_tests_cant": "strings are unbounded", "anchors": ["crates/weaver_semconv/src/schema_url.rs::SchemaUrl::new"]}
{"id": "C131", "title": "Distinct definitions get distinct group ids", "statement": "Definitions of a version 2 file with distinct names within their kind become groups with distinct ids.", "quantifier": "every V2 definition file", "why_tests_cant": "files are unbounded", "anchors": ["crates/weaver_semconv/src/v2/mod.rs::SemConvSpecV2::into_v1_specification"]}
{"id": "C132", "title": "Signals of different kinds may share a name", "statement": "Signals of different kinds with the same name are not reported as duplicates.", "quantifier": "every V2 definition file", "why_tests_cant": "files are unbounded", "anchors": ["crates/weaver_semconv/src/v2/mod.rs::SemConvSpecV2::into_v1_specification", "crates/weaver_resolver/src/registry.rs::check_group_any_duplicates"]}
{"id": "C133", "title": "Different files get different names", "statement": "The groups of attribute definitions of different definition files have different ids.", "quantifier": "every pair of paths", "why_tests_cant": "paths are unbounded", "anchors": ["crates/weaver_semconv/src/semconv.rs::provenance_path_to_name"]}
{"id": "C134", "title": "What a resolved registry says", "statement": "Whenever resolving a registry succeeds: every group that is not internal is published, as it is after inheritance, with the attributes that its definitions and references give; every imported group is published with its attributes (in the chosen version) and its origin; nothing else is published, and ids come in order. The published attributes are exactly those of these groups, each once, sorted. An association leads where the imported group brought it from, or to the one dependency that offers the entity unless the registry has it. The warnings are exactly the deprecated option, the patterns that named nothing and the clashes among published groups.", "quantifier": "every registry with unique, unshadowed group ids, every set of dependencies and import blocks", "why_tests_cant": "the phases interact: a group dropped, duplicated or resolved against the wrong catalog shows only in combinations", "anchors": ["crates/weaver_resolver/src/registry.rs::resolve_registry_with_dependencies", "crates/weaver_resolver/src/registry.rs::resolve_prefix_on_attributes", "crates/weaver_resolver/src/registry.rs::resolve_dependency_imports", "crates/weaver_resolver/src/attribute.rs::AttributeCatalog::attribute_ref_with_provenance"]}
{"id": "C135", "title": "A refinement has the type of what it refines", "statement": "A v2 refinement whose parent is a signal of another type is rejected.", "quantifier": "every pair of groups", "why_tests_cant": "all combinations", "anchors": ["crates/weaver_resolver/src/registry.rs::resolve_group_extends"]}
{"id": "C136", "title": "The prefix flag of a reference is honoured", "statement": "A `prefix: true` reference to an inherited attribute keeps its flag through inheritance.", "quantifier": "every group and parent", "why_tests_cant": "all combinations of layers", "anchors": ["crates/weaver_resolver/src/registry.rs::resolve_inheritance_attr"]}
{"id": "C137", "title": "Only attributes of published groups are published", "statement": "Every attribute of the published catalog is used by a published group.", "quantifier": "every registry", "why_tests_cant": "internal groups may be anywhere", "anchors": ["crates/weaver_resolver/src/registry.rs::cleanup_and_stabilize_catalog_and_registry"]}
{"id": "C138", "title": "The chosen dependency URL does not depend on order", "statement": "The schema URL chosen among the versions of a dependency is the same in whatever order they are met, while loading and while resolving.", "quantifier": "every list of schema URLs and every permutation", "why_tests_cant": "all permutations", "anchors": ["crates/weaver_resolver/src/conflict_strategy.rs::UseLatestMajorVersion::resolve_conflict", "crates/weaver_resolver/src/lib.rs::collect_chosen_versions"]}
{"id": "C139", "title": "Merging annotations is associative", "statement": "Merging three annotations gives the same result whichever pair is merged first.", "quantifier": "every triple of nested YAML mappings", "why_tests_cant": "nesting is unbounded", "anchors": ["crates/weaver_resolver/src/merge.rs"]}
{"id": "C140", "title": "Lineage with several bases is faithful", "statement": "When several parents or included groups provide an attribute, the lineage lists a field as overridden iff the group itself sets it, as inherited iff it came from a base, and never as both.", "quantifier": "every list of bases", "why_tests_cant": "all combinations", "anchors": ["crates/weaver_resolver/src/registry.rs::resolve_inheritance_attr"]}
{"id": "C141", "title": "Duplicates among internal groups are reported", "statement": "Two groups with the same id are reported even if they are internal.", "quantifier": "every list of groups", "why_tests_cant": "every list", "anchors": ["crates/weaver_resolver/src/registry.rs::check_uniqueness", "crates/weaver_resolver/src/registry.rs::cleanup_and_stabilize_catalog_and_registry"]}
{"id": "C142", "title": "Every dependency cycle is reported as a cycle", "statement": "A dependency cycle of any length is reported as a circular dependency.", "quantifier": "every cyclic graph of manifests", "why_tests_cant": "cycles of every length", "anchors": ["crates/weaver_resolver/src/loader.rs::load_semconv_repository_recursive"]}
{"id": "C143", "title": "Exactly the named policies are in force", "statement": "The engine of a command has the built-in policies, those of the registry directory and those named with --policy, each once and no other; a directory stands for every file below it that ends with .rego and is not hidden; loading fails if and only if one of them is not a policy.", "quantifier": "every directory tree, every list of paths", "why_tests_cant": "unbounded trees", "anchors": ["crates/weaver_checker/src/lib.rs::Engine::add_policies", "crates/weaver_checker/src/lib.rs::Engine::add_policy_from_file_or_dir", "src/weaver.rs::init_policy_engine"]}
{"id": "C144", "title": "A finding is read as the policy wrote it", "statement": "An object that a policy returns is read as a finding exactly if its known keys have the right types and the keys its form needs are there; id, message, level, context and signal are then those of the object, in the current, the advice and the deprecated form.", "quantifier": "every JSON object", "why_tests_cant": "unbounded objects, every set of keys", "anchors": ["crates/weaver_checker/src/finding.rs::PolicyFinding"]}
{"id": "C145", "title": "Findings for files do not depend on the schedule", "statement": "Checking definition files in parallel gives, whatever the order in which they are finished, all findings of every file, with the name of the file, in the order of the files.", "quantifier": "every schedule, every list of files", "why_tests_cant": "schedules", "anchors": ["src/weaver.rs::check_policy", "src/weaver.rs::check_policy_stage", "crates/weaver_checker/src/lib.rs::Engine::check"]}
{"id": "C146", "title": "What registry check reports and its exit code", "statement": "A run either cannot be completed and gives exactly one error, or gives exactly the messages of fetching, loading, resolving and of the policies of each stage; the exit code is 0 exactly if the run is complete and there is no message, or all are warnings or advices, can be shown, and the future mode is off.", "quantifier": "every registry, every baseline, every engine, every option", "why_tests_cant": "every combination of outcomes and schedules", "anchors": ["src/registry/check.rs::command", "src/weaver.rs::WeaverEngine::load_and_resolve_main", "src/main.rs::process_diagnostics"]}
{"id": "C147", "title": "Every finding makes registry check fail", "statement": "A finding of a policy for a definition file, for the resolved registry, or for the registry and its baseline makes the command exit with code 1, whatever else happens.", "quantifier": "every registry, baseline, policy, schedule", "why_tests_cant": "every combination of outcomes", "anchors": ["src/registry/check.rs::command", "src/weaver.rs::Resolved::check_after_resolution_policy", "src/weaver.rs::Resolved::check_comparison_after_resolution"]}
{"id": "C148", "title": "Every finding for a definition file is reported", "statement": "A finding for a definition file is among the messages of the command.", "quantifier": "every run", "why_tests_cant": "runs that fail later", "anchors": ["src/weaver.rs::PolicyVisitor", "src/registry/check.rs::command"]}
{"id": "C149", "title": "Only violations fail the check", "statement": "Findings of level information or improvement do not make registry check fail.", "quantifier": "every set of findings", "why_tests_cant": "every set of findings", "anchors": ["src/registry/check.rs::command", "crates/weaver_checker/src/finding.rs::FindingLevel"]}
{"id": "C150", "title": "Skipped policies are announced", "statement": "If policies for definition files exist but are not applied then there is a message.", "quantifier": "every registry and option", "why_tests_cant": "every combination", "anchors": ["src/weaver.rs::WeaverEngine::load_and_resolve_repo"]}
{"id": "C151", "title": "A missing policy directory is an error", "statement": "A directory of policies that does not exist is reported.", "quantifier": "every path", "why_tests_cant": "every path", "anchors": ["crates/weaver_checker/src/lib.rs::Engine::add_policies", "crates/weaver_live_check/src/advice/rego_advisor.rs::RegoAdvisor::new"]}
{"id": "C152", "title": "Only files are taken for policies", "statement": "Loading a directory succeeds if all files below it that end with .rego are policies.", "quantifier": "every directory tree", "why_tests_cant": "every tree", "anchors": ["crates/weaver_checker/src/lib.rs::Engine::add_policies"]}
{"id": "C153", "title": "A malformed finding does not hide others", "statement": "A finding that can be read is reported even if another one of the same rule cannot be read.", "quantifier": "every list of findings", "why_tests_cant": "every list", "anchors": ["crates/weaver_checker/src/lib.rs::Engine::check"]}
{"id": "C154", "title": "A data file is loaded by its own path", "statement": "A JSON or YAML file that exists is loaded if its path is given.", "quantifier": "every path", "why_tests_cant": "names with every character", "anchors": ["crates/weaver_checker/src/lib.rs::split_glob", "crates/weaver_checker/src/lib.rs::Engine::add_data_from_file_or_dir"]}
{"id": "C155", "title": "Files of other kinds do not matter for policy data", "statement": "A file that is neither JSON nor YAML does not change the outcome of loading data.", "quantifier": "every directory tree", "why_tests_cant": "every content", "anchors": ["crates/weaver_checker/src/lib.rs::Engine::add_data_file_from_dir"]}
{"id": "C156", "title": "The order of parallel reading does not matter", "statement": "Definition files are read in parallel. If loading a registry succeeds with one order of arrival, it succeeds with every other, and gives the same definitions, imports and messages up to their order.", "quantifier": "every file tree, registry path, parser and schedule of the readers", "why_tests_cant": "schedules are unbounded and cannot be forced in a test", "anchors": ["crates/weaver_resolver/src/loader.rs::load_definition_repository"]}
{"id": "C157", "title": "All definition files of a registry are loaded", "statement": "Loading a registry directory that succeeds gives one definition for each YAML file below the directory that is not hidden, not in a hidden directory and not a manifest, and nothing else; all messages about these files are kept; it fails only with an error of one of these files.", "quantifier": "every file tree with links, registry path, parser and schedule", "why_tests_cant": "directory trees are unbounded", "anchors": ["crates/weaver_resolver/src/loader.rs::load_definition_repository", "crates/weaver_semconv/src/semconv.rs::SemConvSpecWithProvenance::from_file_with_mapped_path"]}
{"id": "C158", "title": "Definition files are shown with their registry path", "statement": "The path recorded for a definition file is the registry path the user gave, followed by the path of the file in the registry; so different files have different paths.", "quantifier": "every registry path and every file", "why_tests_cant": "strings are unbounded", "anchors": ["crates/weaver_resolver/src/loader.rs::load_definition_repository", "crates/weaver_common/src/vdir.rs::VirtualDirectory"]}
{"id": "C159", "title": "Loading a registry never crashes", "statement": "Loading definitions from any registry path ends with a result or an error, not with a panic; a registry named by its manifest file is the registry in the directory of the manifest.", "quantifier": "every file tree, registry path and schedule", "why_tests_cant": "every tree", "anchors": ["crates/weaver_resolver/src/loader.rs::load_definition_repository", "crates/weaver_semconv/src/registry_repo.rs::find_manifest_path"]}
{"id": "C160", "title": "Unpacking a zip archive is confined", "statement": "Whatever names are in a zip archive, unpacking it writes only below the temporary directory.", "quantifier": "every archive, sub folder and target", "why_tests_cant": "names are unbounded and hostile", "anchors": ["crates/weaver_common/src/vdir.rs::VirtualDirectory::unpack_zip", "crates/weaver_common/src/vdir.rs::VirtualDirectory::path_to_unpack"]}
{"id": "C161", "title": "Unpacking any archive is confined", "statement": "Whatever names are in an archive, zip or tar, unpacking it writes only below the temporary directory.", "quantifier": "every archive, sub folder and target", "why_tests_cant": "names are unbounded and hostile", "anchors": ["crates/weaver_common/src/vdir.rs::VirtualDirectory::unpack_tar_gz", "crates/weaver_common/src/vdir.rs::VirtualDirectory::path_to_unpack"]}
{"id": "C162", "title": "An archive is unpacked completely", "statement": "If an archive holds a directory below one top directory, then after unpacking, the files below the temporary directory are exactly the files of this directory, with their contents.", "quantifier": "every directory, both kinds of archives", "why_tests_cant": "directory trees are unbounded", "anchors": ["crates/weaver_common/src/vdir.rs::VirtualDirectory::path_to_unpack"]}
{"id": "C163", "title": "The sub folder of an archive is selected", "statement": "With a sub folder, the files after unpacking are exactly the files in this folder, with their contents.", "quantifier": "every directory, sub folder and both kinds of archives", "why_tests_cant": "directory trees are unbounded", "anchors": ["crates/weaver_common/src/vdir.rs::VirtualDirectory::path_to_unpack"]}
{"id": "C164", "title": "A clone is not left", "statement": "The directory used for a git registry is the clone or a directory in it.", "quantifier": "every registry path", "why_tests_cant": "strings are unbounded", "anchors": ["crates/weaver_common/src/vdir.rs::VirtualDirectory::try_from_git_url"]}
{"id": "C165", "title": "The schema cache is bounded and answers with the latest value", "statement": "After any sequence of lookups and stores, the cache holds at most its capacity of entries, one per URL; what it answers for a URL is the value last stored for it; a URL is answered as long as fewer other URLs than the capacity were used since its last use, and is forgotten after as many were stored as the capacity.", "quantifier": "every capacity and every sequence of cache operations", "why_tests_cant": "histories are unbounded", "anchors": ["crates/weaver_resolver/src/lib.rs::WeaverResolver", "crates/weaver_resolver/src/lib.rs::WeaverResolver::cache_schema"]}
{"id": "C166", "title": "A requested registry has the requested URL, and is remembered", "statement": "In every history of an engine (loads, requests, views), the cache is bounded; a request that succeeds gives a schema with exactly the requested URL; asking again gives the same schema without messages and without access to anything, and so does asking for what was just loaded.", "quantifier": "every history, host and URL", "why_tests_cant": "histories are unbounded", "anchors": ["crates/weaver_resolver/src/lib.rs::WeaverResolver::resolve_schema", "crates/weaver_resolver/src/lib.rs::WeaverResolver::load_and_resolve_schema"]}
{"id": "C167", "title": "Resolution gives a schema of the URL it resolves", "statement": "What a dependency is resolved to has the URL of the dependency, and what a registry is resolved to has the URL in its manifest.", "quantifier": "every history, registry and redirection", "why_tests_cant": "histories and registries are unbounded", "anchors": ["crates/weaver_resolver/src/lib.rs::WeaverResolver::resolve_dependency", "crates/weaver_resolver/src/lib.rs::WeaverResolver::load_and_resolve_schema"]}
{"id": "C168", "title": "All dependencies are listed", "statement": "A resolved registry lists all registries it depends on, directly or not, and no others: those its manifests declare.", "quantifier": "every history, registry and dependency graph", "why_tests_cant": "dependency graphs and histories are unbounded", "anchors": ["crates/weaver_resolver/src/lib.rs::WeaverResolver::resolve_registry_internal", "crates/weaver_resolver/src/lib.rs::WeaverResolver::resolve_dependency"]}
{"id": "C169", "title": "No message is lost", "statement": "What the resolution of a dependency reports is reported for the registry that depends on it.", "quantifier": "every registry", "why_tests_cant": "dependency graphs are unbounded", "anchors": ["crates/weaver_resolver/src/lib.rs::WeaverResolver::resolve_dependency", "crates/weaver_resolver/src/lib.rs::WeaverResolver::resolve_registry_internal"]}
{"id": "C170", "title": "Resolving a registry ends", "statement": "Loading and resolving a registry, or requesting it, ends, whatever registries it depends on and whatever URLs are redirected.", "quantifier": "every host, history and registry", "why_tests_cant": "non-termination cannot be tested", "anchors": ["crates/weaver_resolver/src/lib.rs::WeaverResolver::resolve_dependency", "crates/weaver_resolver/src/lib.rs::WeaverResolver::load_and_resolve_schema"]}
{"id": "C171", "title": "Redirecting a URL replaces the registry", "statement": "If the URL of a dependency is redirected to another place, the registry at that place is used instead of the original one, which need not be available.", "quantifier": "every host and registry", "why_tests_cant": "registries are unbounded", "anchors": ["crates/weaver_resolver/src/lib.rs::WeaverResolver::add_schema_url_override", "crates/weaver_resolver/src/lib.rs::WeaverResolver::resolve_dependency", "crates/weaver_resolver/src/loader.rs::load_semconv_repository"]}
{"id": "C172", "title": "What was resolved can be shown", "statement": "A registry that was resolved can be shown with its dependencies, each with the content it was resolved with.", "quantifier": "every registry, history and number of dependencies", "why_tests_cant": "dependency graphs are unbounded", "anchors": ["crates/weaver_resolver/src/lib.rs::WeaverResolver::resolve_schema", "crates/weaver_forge/src/v2/registry.rs::ForgeResolvedRegistry"]}
{"id": "C173", "title": "Answers do not depend on history", "statement": "What an engine answers for a registry or a URL does not depend on what it was asked before.", "quantifier": "every history", "why_tests_cant": "histories are unbounded", "anchors": ["crates/weaver_resolver/src/lib.rs::WeaverResolver::load_and_resolve_schema", "crates/weaver_resolver/src/lib.rs::WeaverResolver::resolve_schema", "crates/weaver_resolver/src/loader.rs::load_semconv_repository"]}
{"id": "C174", "title": "A registry at its URL can be requested", "statement": "A registry that can be fetched from its URL, or from where its URL is redirected to, and that can be resolved, can be requested by this URL; the request gives what loading and resolving it gives.", "quantifier": "every host, history and URL", "why_tests_cant": "histories are unbounded", "anchors": ["crates/weaver_resolver/src/lib.rs::WeaverResolver::resolve_schema"]}
{"id": "C175", "title": "An archive without a named top directory is unpacked completely", "statement": "If the names in an archive of a directory start with `./` or `/`, then after unpacking, the files below the temporary directory are exactly the files of the directory, with their contents.", "quantifier": "every directory, both kinds of archives", "why_tests_cant": "directory trees are unbounded", "anchors": ["crates/weaver_common/src/vdir.rs::VirtualDirectory::path_to_unpack"]}
{"id": "C176", "title": "An attribute of a chain of registries is the one its declaring registry offers", "statement": "In a chain of registries that depend on each other, an attribute that a registry offers to its dependents is the attribute that a registry below offers which declares it: registries in between that only refer to it do not change it.", "quantifier": "every chain of registries, files and published schemas, of any depth and width", "why_tests_cant": "chains of registries and their content are unbounded", "anchors": ["crates/weaver_resolver/src/attribute.rs::AttributeCatalog", "crates/weaver_resolver/src/dependency.rs::ResolvedDependency", "crates/weaver_resolver/src/registry.rs::resolve_registry_with_dependencies"]}
{"id": "C177", "title": "The provenance of an attribute is the registry that declares it", "statement": "In a chain of registries, the URL an attribute is offered under is the URL of the registry that declares it, and that registry offers the same attribute.", "quantifier": "every chain of registries of any depth and width", "why_tests_cant": "chains of registries and their content are unbounded", "anchors": ["crates/weaver_resolver/src/attribute.rs::AttributeLookup", "crates/weaver_resolver/src/dependency.rs::ResolvedDependency"]}
{"id": "C178", "title": "A registry offers its own definitions", "statement": "An attribute that a registry defines is offered to its dependents as written, under the URL of the registry, whatever its dependencies offer under that name.", "quantifier": "every registry, over every chain of dependencies", "why_tests_cant": "registries and their dependencies are unbounded", "anchors": ["crates/weaver_resolver/src/attribute.rs::AttributeCatalog::resolve", "crates/weaver_resolver/src/attribute.rs::AttributeLookup"]}
{"id": "C179", "title": "A registry offers what its files mention", "statement": "A registry that imports nothing, and in which no group has both `extends` and `include_groups`, offers to its dependents only attributes its files define or refer to, and every attribute that a group without `extends` and `include_groups` refers to.", "quantifier": "every registry, over every chain of dependencies", "why_tests_cant": "registries and their dependencies are unbounded", "anchors": ["crates/weaver_resolver/src/attribute.rs::AttributeLookup", "crates/weaver_resolver/src/registry.rs::resolve_registry_with_dependencies"]}
{"id": "C180", "title": "Refining a signal of a dependency", "statement": "A group that extends a group or published signal of a dependency has the attributes of that group, each with the fields its own reference gives and the inherited fields otherwise, and its own further attributes; it inherits what a refinement inherits (name, instrument, unit, kind, level, texts it leaves empty); the published group says what it refines. The first dependency in which a group or signal goes by that id counts; in it only one does.", "quantifier": "every registry over every list of dependencies, files and published schemas", "why_tests_cant": "registries and their dependencies are unbounded", "anchors": ["crates/weaver_resolver/src/registry.rs::resolve_extends_references", "crates/weaver_resolver/src/dependency.rs::UnresolvedGroup", "crates/weaver_resolver/src/attribute.rs::AttributeCatalog"]}
{"id": "C181", "title": "Imported signals are what their declaring registry says", "statement": "In a chain of registries of which one version each is around, a group a registry publishes as imported says what a registry below says that declares it (a registry of files in one of its groups, a published schema in one of its signals, apart from its requirement level), with the attributes it has there and under the URL of the registry that declares it, through any number of registries that import it again.", "quantifier": "every chain of registries, files and published schemas, of any depth and width", "why_tests_cant": "chains of registries and their content are unbounded", "anchors": ["crates/weaver_resolver/src/imports.rs::resolve_imports", "crates/weaver_resolver/src/registry.rs::resolve_registry_with_dependencies", "crates/weaver_resolver/src/dependency.rs::ResolvedDependency"]}
{"id": "C182", "title": "Imports bring in what they name, and only that", "statement": "A group a dependency publishes that a pattern names and that is not excluded, and a signal of a published schema whose id matches a pattern for its type and that is not excluded, is imported: the resolved registry has a group for it. A group it has as imported is for one of these.", "quantifier": "every registry over every list of dependencies, every list of patterns", "why_tests_cant": "registries, dependencies and patterns are unbounded", "anchors": ["crates/weaver_resolver/src/imports.rs::resolve_imports", "crates/weaver_resolver/src/registry.rs::resolve_registry_with_dependencies"]}
{"id": "C183", "title": "Imported signals keep what they say about their attributes", "statement": "A signal that is imported has the attributes it has in the registry that declares it, with the notes and requirement levels given there, even if a newer version of the registry that declares an attribute is around.", "quantifier": "every chain of registries", "why_tests_cant": "chains of registries and their content are unbounded", "anchors": ["crates/weaver_resolver/src/registry.rs::resolve_registry_with_dependencies", "crates/weaver_resolver/src/attribute.rs::AttributeCatalog"]}
{"id": "C184", "title": "Imported signals keep their requirement level", "statement": "A signal that is imported has the requirement level it has in the registry that declares it.", "quantifier": "every chain of registries", "why_tests_cant": "chains of registries and their content are unbounded", "anchors": ["crates/weaver_resolver/src/imports.rs::resolve_imports"]}
{"id": "C185", "title": "A refinement of a metric refines the metric", "statement": "A group that extends `metric.` and the name of a metric of a published schema refines this metric, whatever other signals the schema has.", "quantifier": "every published schema", "why_tests_cant": "schemas are unbounded", "anchors": ["crates/weaver_resolver/src/dependency.rs::ResolvedDependency"]}
{"id": "C186", "title": "The receiver checks what came before the stop, in order", "statement": "When live-check stops receiving, it has checked exactly the requests that were put before the first stop signal (CTRL+C, /stop, inactivity) or failure of the receiver, in the order in which they came in; a sender is told that a request was received if and only if it is queued.", "quantifier": "every schedule of senders, signals, /stop requests, timers and the command, every size of the queue", "why_tests_cant": "schedules are unbounded", "anchors": ["src/registry/otlp/mod.rs::listen_otlp_requests", "src/registry/otlp/otlp_ingester.rs::OtlpIterator", "src/registry/live_check.rs::command"]}
{"id": "C187", "title": "Confirmed telemetry is checked", "statement": "Telemetry of which the sender was told that it was received is checked before the report is made.", "quantifier": "every schedule", "why_tests_cant": "schedules are unbounded", "anchors": ["src/registry/otlp/mod.rs::listen_otlp_requests", "src/registry/otlp/otlp_ingester.rs::OtlpIterator"]}
{"id": "C188", "title": "The report is delivered, once", "statement": "When live-check ends, its report was printed or handed to a /stop request that receives it, never both and never to two.", "quantifier": "every schedule", "why_tests_cant": "schedules are unbounded", "anchors": ["src/registry/otlp/mod.rs::AdminReportSender", "src/registry/otlp/mod.rs::stop_handler", "src/registry/live_check.rs::command"]}
{"id": "C189", "title": "A stopped live-check ends", "statement": "After CTRL+C, a /stop request, the inactivity timeout or a failure, live-check ends by itself after a bounded number of steps, in whatever order they are made.", "quantifier": "every schedule", "why_tests_cant": "schedules are unbounded", "anchors": ["src/registry/otlp/mod.rs::AdminReportSender", "src/registry/otlp/mod.rs::stop_handler"]}
{"id": "C190", "title": "A /stop request is answered with the report", "statement": "With `--output http`, a /stop request is answered with the report, unless making it takes too long; without it, it is answered at once and without a report.", "quantifier": "every schedule", "why_tests_cant": "schedules are unbounded", "anchors": ["src/registry/otlp/mod.rs::stop_handler", "src/registry/live_check.rs::command"]}
{"id": "C191", "title": "A failing receiver loses nothing it received", "statement": "If the receiver fails, what it received before is checked and reported as if it had been stopped by CTRL+C there.", "quantifier": "every schedule with any number of failures", "why_tests_cant": "schedules are unbounded", "anchors": ["src/registry/otlp/mod.rs::listen_otlp_requests", "src/registry/otlp/otlp_ingester.rs::OtlpIterator"]}
{"id": "C192", "title": "A failure of the receiver can be told from a stop", "statement": "If the receiver fails, for example because a port is taken, the command says so or fails.", "quantifier": "every schedule", "why_tests_cant": "schedules are unbounded", "anchors": ["src/registry/otlp/otlp_ingester.rs::OtlpIterator", "src/registry/otlp/mod.rs::listen_otlp_requests"]}
{"id": "C193", "title": "The inactivity timeout", "statement": "The receiver is not stopped for inactivity at a time before which, within the timeout, a request came in; if requests stop coming in it is stopped, less than twice the timeout after the last one plus what the monitor is late.", "quantifier": "every history of requests, every timeout and delay of the timer", "why_tests_cant": "histories are unbounded", "anchors": ["src/registry/otlp/mod.rs::spawn_inactivity_monitor"]}
{"id": "C194", "title": "The inactivity timeout is exact", "statement": "If the timer is on time, the receiver is stopped when the timeout has passed since the last request.", "quantifier": "every history of requests and every timeout", "why_tests_cant": "histories are unbounded", "anchors": ["src/registry/otlp/mod.rs::spawn_inactivity_monitor"]}
{"id": "C195", "title": "Everything in a request is checked", "statement": "Every metric, log record, span and profile of every request is checked, once and in the order in which they were sent, and nothing else is; each with the name, unit, instrument, data points, exemplars, events, links and attributes that were sent.", "quantifier": "every list of requests of any size", "why_tests_cant": "requests are unbounded", "anchors": ["src/registry/otlp/otlp_ingester.rs::OtlpIterator::fill_buffer_from_request", "src/registry/otlp/conversion.rs"]}
{"id": "C196", "title": "Signals are checked with their own resource", "statement": "A signal is checked together with the resource it was sent with.", "quantifier": "every list of requests of any size", "why_tests_cant": "requests are unbounded", "anchors": ["src/registry/otlp/otlp_ingester.rs::OtlpIterator::fill_buffer_from_request", "src/registry/live_check.rs::command"]}
{"id": "C197", "title": "Values that were sent are checked with their type", "statement": "The type an attribute is checked with is that of the value that was sent, and a value that does not have the declared type is reported.", "quantifier": "every value and every declared type", "why_tests_cant": "values are nested and unbounded", "anchors": ["src/registry/otlp/conversion.rs::maybe_to_json", "src/registry/otlp/conversion.rs::sample_attribute_from_key_value", "crates/weaver_live_check/src/advice/type_advisor.rs"]}
{"id": "C198", "title": "The attributes of profiles are checked", "statement": "Every attribute of a profile is checked, under the name and with the value its index stands for.", "quantifier": "every dictionary and profile", "why_tests_cant": "tables are unbounded", "anchors": ["src/registry/otlp/conversion.rs::otlp_profile_to_sample", "src/registry/otlp/conversion.rs::sample_attribute_from_key_value_and_unit"]}
{"id": "C199", "title": "Comments rendered as HTML keep their text", "statement": "A comment rendered as HTML has all the text of the comment and the tags of its structure, in order, and white space wherever there was some.", "quantifier": "every Markdown tree, line length and style", "why_tests_cant": "trees and texts are unbounded", "anchors": ["crates/weaver_forge/src/formats/html.rs::HtmlRenderer::write_html_to", "crates/weaver_forge/src/formats/mod.rs::WordWrapContext"]}
{"id": "C200", "title": "Wrapping does not split words", "statement": "Word wrapping changes only white space where there is some: words that are not separated in a comment are not separated in its rendering.", "quantifier": "every comment and line length", "why_tests_cant": "texts are unbounded", "anchors": ["crates/weaver_forge/src/formats/mod.rs::WordWrapContext::write_words", "crates/weaver_forge/src/formats/mod.rs::WordWrapContext::write_unbroken"]}
{"id": "C201", "title": "Lines do not exceed the limit", "statement": "With a line length configured, no line of a rendered comment is longer, unless something that cannot be split is.", "quantifier": "every Markdown tree and line length", "why_tests_cant": "trees and texts are unbounded", "anchors": ["crates/weaver_forge/src/formats/mod.rs::WordWrapConfig", "crates/weaver_forge/src/formats/mod.rs::WordWrapContext", "crates/weaver_forge/src/formats/html.rs::HtmlRenderer::write_html_to"]}
{"id": "C202", "title": "Comments rendered as HTML are well-formed", "statement": "Every tag that is opened in the HTML of a comment is closed, and tags are nested.", "quantifier": "every Markdown tree", "why_tests_cant": "trees are unbounded in depth", "anchors": ["crates/weaver_forge/src/formats/html.rs::HtmlRenderer::write_html_to"]}
{"id": "C203", "title": "Newlines in comments can be ignored", "statement": "With `ignore_newlines` and a line length, how a comment is broken into lines in its source makes no difference to the HTML rendered from it.", "quantifier": "every Markdown tree, line length and style", "why_tests_cant": "trees and texts are unbounded", "anchors": ["crates/weaver_forge/src/formats/mod.rs::WordWrapContext::write_words", "crates/weaver_forge/src/formats/html.rs::HtmlRenderer::write_html_to"]}
{"id": "C204", "title": "Comments rendered as Markdown keep their text", "statement": "A comment rendered as Markdown has all the text of the comment, the markers of its structure and the definitions of its references, in order, and white space wherever there was some.", "quantifier": "every Markdown tree, line length and style", "why_tests_cant": "trees and texts are unbounded", "anchors": ["crates/weaver_forge/src/formats/markdown.rs::MarkdownRenderer::render", "crates/weaver_forge/src/formats/markdown.rs::MarkdownRenderer::write_markdown_to"]}
{"id": "C205", "title": "Numbered lists keep their numbers", "statement": "The items of a numbered list in a comment rendered as Markdown have the numbers they have in the comment: consecutive ones from the first.", "quantifier": "every list, of any length and depth", "why_tests_cant": "lists are unbounded", "anchors": ["crates/weaver_forge/src/formats/markdown.rs::MarkdownRenderer::write_markdown_to"]}
{"id": "C206", "title": "Shortcut references have their definitions", "statement": "With `use_shortcut_references`, every link with a URL becomes a reference whose label is defined, with the URL, after the text; and there is a reference for every definition.", "quantifier": "every Markdown tree and line length", "why_tests_cant": "trees are unbounded", "anchors": ["crates/weaver_forge/src/formats/markdown.rs::MarkdownRenderer::render", "crates/weaver_forge/src/formats/markdown.rs::RenderContext::add_link"]}
{"id": "C207", "title": "Escaped texts are read as they were", "statement": "With `escape_backslashes`, a text rendered as Markdown is read as that text; with `escape_square_brackets`, no square bracket in it is left unescaped; texts without backslashes and brackets are left alone.", "quantifier": "every text", "why_tests_cant": "texts are unbounded", "anchors": ["crates/weaver_forge/src/formats/markdown.rs::MarkdownRenderer::write_markdown_to"]}
{"id": "C208", "title": "Templates see the whole registry", "statement": "The view of a resolved registry that templates get has every metric, span, event, entity, attribute group and refinement of the registry, with its fields, its attributes looked up and its provenance as URLs; each kind is ordered by name, and the order within the schema does not show.", "quantifier": "every resolved registry", "why_tests_cant": "registries are unbounded and lookups depend on positions in two tables", "anchors": ["crates/weaver_forge/src/v2/registry.rs::ForgeResolvedRegistry::try_from_resolved_schema", "crates/weaver_forge/src/v2/provenance.rs::Provenance"]}
{"id": "C209", "title": "Dangling references are reported", "statement": "Making the view fails exactly if something in the registry refers to an attribute that is not in the catalog, and then every such reference is reported with the item it is in, and nothing else.", "quantifier": "every resolved registry", "why_tests_cant": "lists of references are unbounded", "anchors": ["crates/weaver_forge/src/v2/registry.rs::ForgeResolvedRegistry::try_from_resolved_schema"]}
{"id": "C210", "title": "Templates see what the groups say", "statement": "For every registry that resolution made: the view can be made; each group that defines a signal is seen exactly once, as a signal of its kind, with the name, brief, note, stability, requirement level, attributes and associations of the group, and with the URL of the dependency that declared it; together with the groups that refine them they are seen as refinements under their ids; the attributes seen are exactly those some group defines.", "quantifier": "every resolved schema of the first format", "why_tests_cant": "two conversions with three tables of positions in between", "anchors": ["crates/weaver_forge/src/v2/registry.rs::ForgeResolvedRegistry::try_from_resolved_schema", "crates/weaver_resolved_schema/src/v2/mod.rs::convert_v1_to_v2"]}
{"id": "C211", "title": "Entities of associations can be looked up", "statement": "A template that follows an entity association of a signal finds an entity: without a source it is an entity of the registry with the associated name, and with a source it is the entity of that name in the dependency that resolution recorded.", "quantifier": "every resolved schema whose recorded origins are dependencies or its own", "why_tests_cant": "associations, refinements of entities and dependencies interact", "anchors": ["crates/weaver_forge/src/v2/registry.rs::ForgeResolvedRegistry::lookup_entity", "crates/weaver_forge/src/v2/registry.rs::ForgeResolvedRegistry::defined_entity", "crates/weaver_forge/src/v2/entity.rs::EntityReference"]}
{"id": "C212", "title": "The view holds the dependencies", "statement": "The view of a registry holds the view of every dependency listed in its schema, in that order and nothing else, and these are the views of what the resolver gives for their URLs.", "quantifier": "every resolver and registry", "why_tests_cant": "chains of dependencies are unbounded", "anchors": ["crates/weaver_forge/src/v2/registry.rs::ForgeResolvedRegistry::try_from_resolved_schema"]}
{"id": "C213", "title": "The view of the first format", "statement": "A template of the first format sees every group except refinements that were written in the second format, ordered by id, each with its attributes looked up; there is no view exactly if one of these groups refers to an attribute that is not in the catalog, and the errors are exactly those references.", "quantifier": "every registry", "why_tests_cant": "registries are unbounded", "anchors": ["crates/weaver_forge/src/registry.rs::ResolvedRegistry::try_from_resolved_registry", "crates/weaver_forge/src/registry.rs::ResolvedGroup", "crates/weaver_resolved_schema/src/registry.rs::Group::is_v2_refinement"]}
{"id": "C214", "title": "Statistics of a registry count its signals", "statement": "In the statistics of a registry of the second format, every count is the number of such signals: per kind the total, those of each stability, those deprecated and those with a note; names are exactly those that occur; instruments, units, span kinds, identity lengths and attribute types have the number of signals with that value, and these numbers add up to the total.", "quantifier": "every resolved registry", "why_tests_cant": "registries are unbounded", "anchors": ["crates/weaver_resolved_schema/src/v2/registry.rs::Registry::stats", "crates/weaver_resolved_schema/src/v2/stats.rs::RegistryStats"]}
{"id": "C215", "title": "Statistics of a registry of the first format", "statement": "The statistics have one entry for each type of group that occurs, whose numbers (groups, attributes, notes, deprecated, stabilities given, attribute counts, and for metrics and spans their names, instruments, units and kinds) are those of the groups of that type; the counts add up to the number of groups. The same holds for the catalog. Computing them panics exactly if a metric lacks its name, instrument or unit, which is never the case for a registry that can be converted to the second format.", "quantifier": "every resolved registry", "why_tests_cant": "registries are unbounded; the panic is behind an invariant kept elsewhere", "anchors": ["crates/weaver_resolved_schema/src/registry.rs::Registry::stats", "crates/weaver_resolved_schema/src/registry.rs::CommonGroupStats::update_stats", "crates/weaver_resolved_schema/src/catalog.rs::Catalog::stats", "crates/weaver_resolved_schema/src/lib.rs::ResolvedTelemetrySchema::stats"]}
{"id": "C216", "title": "Emit sends every signal once", "statement": "`registry emit` starts one span for each span of the registry, with its kind and attributes, and one around them; uses one instrument for each metric (in the first format those with an instrument) with its name and unit; and sends one log record for each event, under its name (in the first format its id if it has none); all in the order of the registry and nothing else. It fails to do so exactly if an attribute of one of these signals is an enum without members.", "quantifier": "every registry of either format, with exporters that do not fail", "why_tests_cant": "registries are unbounded; the tests have one registry of each format and only check that emit returns", "anchors": ["crates/weaver_emit/src/lib.rs::emit", "crates/weaver_emit/src/spans.rs::emit_trace_for_registry", "crates/weaver_emit/src/spans.rs::emit_trace_for_registry_v2", "crates/weaver_emit/src/metrics.rs::emit_metrics_for_registry", "crates/weaver_emit/src/metrics.rs::emit_metrics_for_registry_v2", "crates/weaver_emit/src/logs.rs::emit_logs_for_registry", "crates/weaver_emit/src/logs.rs::emit_logs_for_registry_v2"]}
{"id": "C217", "title": "Emitted values are examples", "statement": "If the examples of an attribute include one of its type, the value emitted for it is one of them.", "quantifier": "every attribute of primitive or array type", "why_tests_cant": "examples are arbitrary", "anchors": ["crates/weaver_emit/src/attributes.rs::internal_get_attribute_name_value"]}
{"id": "C218", "title": "The emit round trip is clean", "statement": "A live check against a registry, given what `registry emit` sends for that registry, finds no violation.", "quantifier": "every registry of either format", "why_tests_cant": "composes emit, the receiver and the live check over unbounded registries", "anchors": ["crates/weaver_emit/src/lib.rs::emit", "crates/weaver_live_check/README.md::Using `emit` for a round-trip test", "crates/weaver_live_check/src/live_checker.rs::LiveChecker"]}
{"id": "C219", "title": "The emit round trip covers the registry", "statement": "After a live check given what `registry emit` sends, every metric and event of the registry that is not deprecated counts as seen; and so does every attribute of a signal, if the registry says one thing under each name and there are no policies.", "quantifier": "every registry of either format whose metrics have instruments", "why_tests_cant": "composes emit, the receiver and the live check over unbounded registries", "anchors": ["crates/weaver_emit/src/lib.rs::emit", "crates/weaver_live_check/src/stats.rs::CumulativeStatistics"]}
{"id": "C220", "title": "Text input is read line by line", "statement": "A file of text is read as one attribute for each line that is not blank, in order: what is before the first `=` is the name and what follows the value (JSON if it is, else the text), both without white space around; without `=` the line is the name. Standard input is read the same way up to the first blank line; so both agree if no line is blank. A report about a text file has one entry for each line that is not blank.", "quantifier": "every text, and every JSON parser", "why_tests_cant": "texts are unbounded; the tests have a few lines", "anchors": ["crates/weaver_live_check/src/text_file_ingester.rs::TextFileIngester", "crates/weaver_live_check/src/text_stdin_ingester.rs::TextStdinIterator", "crates/weaver_live_check/src/sample_attribute.rs::TryFrom<&str>"]}
{"id": "C221", "title": "The context of a finding is kept in its log record", "statement": "The attributes that the context of a finding becomes are exactly its scalars that are not null, each under the path that leads to it, with steps separated by dots; and no two of them have the same key.", "quantifier": "every JSON context", "why_tests_cant": "contexts of policies are arbitrary JSON", "anchors": ["crates/weaver_live_check/src/otlp_logger.rs::flatten_json_recursive", "crates/weaver_live_check/src/otlp_logger.rs::json_value_to_any_value"]}
{"id": "C222", "title": "Log records say what was found", "statement": "The log record of a finding has its message as body, the severity of its level, and exactly these attributes: its id, level, the type of the sample, the name and type of its signal, the attributes of the resource and the context. Id, level, message, signal name and type can be read off it.", "quantifier": "every finding, sample and resource", "why_tests_cant": "findings of policies have any id and context", "anchors": ["crates/weaver_live_check/src/otlp_logger.rs::emit_finding", "crates/weaver_live_check/src/generated/events.rs::populate_finding_log_record", "crates/weaver_live_check/src/generated/attributes.rs::FindingId"]}
{"id": "C223", "title": "Samples survive JSON", "statement": "Samples that are written as JSON, as in reports, can be read as input, one for one, and are what was written.", "quantifier": "every list of samples whose integers fit their types", "why_tests_cant": "the kinds of data points are guessed from the fields, over all values of all fields; the tests read fixed files", "anchors": ["crates/weaver_live_check/src/sample_metric.rs::DataPoints", "crates/weaver_live_check/src/sample_metric.rs::SampleInstrument", "crates/weaver_live_check/src/sample_attribute.rs::deserialize", "crates/weaver_live_check/src/lib.rs::Sample", "crates/weaver_live_check/src/json_file_ingester.rs::JsonFileIngester"]}
{"id": "C224", "title": "Errors are shown where they are", "statement": "An error about a file that cannot be read is shown at the text of the node it is about: the span starts at the byte where the node starts and has as many bytes as the node.", "quantifier": "every YAML text, document and path", "why_tests_cant": "texts with characters of several bytes, and keys of any shape", "anchors": ["crates/weaver_semconv/src/json_schema.rs::source_span", "crates/weaver_semconv/src/json_schema.rs::xpath_to_block_position", "crates/weaver_semconv/src/json_schema.rs::parse_xpath"]}
{"id": "C225", "title": "Advice is the innermost description", "statement": "The advice of an error is the description of the innermost schema on the way to the rule that was violated, where references are followed; there is advice only along paths of the schema.", "quantifier": "every JSON schema, and every path of keys that are no numbers and have no `/` or `~`", "why_tests_cant": "the schema is generated from the Rust types and changes with them", "anchors": ["crates/weaver_semconv/src/json_schema.rs::build_description_from_xpath", "crates/weaver_semconv/src/json_schema.rs::get_ref_definition"]}
{"id": "C226", "title": "Every violation is reported", "statement": "A file that cannot be deserialized is reported by one message for each violation of the schema, in order; if there is none, by the message of the deserializer, and there is always a message. The message of a violation has everything that the variants of a choice of schemas say, however deep.", "quantifier": "every list of violations, and every nesting of them", "why_tests_cant": "violations are what the validator finds in arbitrary files", "anchors": ["crates/weaver_semconv/src/json_schema.rs::validate_yaml", "crates/weaver_semconv/src/json_schema.rs::build_error_message", "crates/weaver_semconv/src/json_schema.rs::build_variant_error_message", "crates/weaver_semconv/src/semconv.rs::better_error"]}
{"id": "C227", "title": "Snippets show what the pages show", "statement": "A snippet of the second format shows the item of its kind and name that templates of whole pages see, with all its fields and attributes, and the tag and base URL of the directive.", "quantifier": "every schema that can be shown to templates, and every id", "why_tests_cant": "two separate pieces of code make the two views", "anchors": ["crates/weaver_semconv_gen/src/v2.rs::lookup_id", "crates/weaver_semconv_gen/src/v2.rs::resolved_metric", "crates/weaver_forge/src/v2/registry.rs::try_from_resolved_schema"]}
{"id": "C228", "title": "Every item can be shown in a snippet", "statement": "For every attribute, attribute group, signal and refinement of a resolved registry there is a snippet id that shows it, and no snippet makes the program panic.", "quantifier": "every registry resolution makes, every item and every id", "why_tests_cant": "names of items and ids of snippets are arbitrary texts", "anchors": ["crates/weaver_semconv_gen/src/v2.rs::lookup_id", "crates/weaver_semconv_gen/src/parser.rs::parse_id_lookup_v2"]}
{"id": "C229", "title": "Snippets of the first format", "statement": "A snippet of the first format shows the first group of its id with the attributes it refers to, or fails, exactly if there is no such group or an attribute does not exist; with distinct ids it shows what the pages show.", "quantifier": "every registry and directive", "why_tests_cant": "refinements are left out of the pages but not of snippets", "anchors": ["crates/weaver_semconv_gen/src/v1.rs::generate_markdown_snippet", "crates/weaver_semconv_gen/src/v1.rs::find_group"]}
{"id": "C230", "title": "What update-markdown says", "statement": "The command succeeds exactly if resolution had no messages and every markdown file below the directory could be updated (or is up to date, in a dry run); it says what went wrong; each file is dealt with by itself.", "quantifier": "every directory, generator and list of messages", "why_tests_cant": "failures of single files, and of the walk", "anchors": ["src/registry/update_markdown.rs::command", "src/registry/update_markdown.rs::is_markdown"]}
{"id": "C231", "title": "Errors make a command fail", "statement": "A command about a registry that can be loaded does not exit with 0 if there is an error among the messages of fetching, loading and resolving it (and of the policies the command applies); and the exit code of each command is 0 exactly if all could be done and no message is an error.", "quantifier": "every registry, option, set of messages, output", "why_tests_cant": "every combination of outcomes", "anchors": ["src/registry/generate.rs::command", "src/registry/resolve.rs::command", "src/registry/stats.rs::command", "src/registry/emit.rs::command", "src/registry/live_check.rs::command", "src/registry/search.rs::command", "src/registry/diff.rs::command", "src/registry/mcp.rs::command", "src/serve/mod.rs::run_serve", "src/main.rs::process_diagnostics"]}
{"id": "C232", "title": "Nothing is written in spite of errors", "statement": "If there is an error about the registry then a command writes no artifacts and sends no telemetry.", "quantifier": "every registry, option, set of messages, output", "why_tests_cant": "every combination of outcomes", "anchors": ["src/registry/generate.rs::command", "src/registry/stats.rs::command", "src/registry/diff.rs::command", "src/registry/emit.rs::command"]}
{"id": "C233", "title": "Messages are shown", "statement": "If the registry can be loaded then each message about it is shown.", "quantifier": "every registry, option, set of messages, output", "why_tests_cant": "every combination of outcomes", "anchors": ["src/registry/generate.rs::command", "src/registry/stats.rs::command", "src/registry/diff.rs::command", "src/registry/emit.rs::command", "src/main.rs::process_diagnostics"]}
{"id": "C234", "title": "Policies for the resolved registry are applied", "statement": "Each command that takes policies fails if a policy finds something in the resolved registry.", "quantifier": "every registry, policy, option", "why_tests_cant": "every combination of outcomes", "anchors": ["src/registry/generate.rs::command", "src/registry/emit.rs::command", "src/serve/mod.rs::run_serve", "src/weaver.rs::Resolved::check_after_resolution_policy"]}
{"id": "C235", "title": "Packages", "statement": "`package` succeeds exactly if there is a URI, `--v2` is set, the registry has a manifest of definitions, can be loaded and has no error, each dependency has a version, and the files can be written. Then the directory has the resolved registry and the published manifest, which is read back without change, and the warnings are shown. Other files are not touched, nothing is if the registry cannot be packed, and after each run the two files belong together.", "quantifier": "every registry, manifest, directory, failure of the file system", "why_tests_cant": "failures between the two files, every combination of outcomes", "anchors": ["src/registry/package.rs::command", "src/registry/package.rs::write_yaml"]}
{"id": "C236", "title": "Searching a registry", "statement": "The results are the attributes whose name has the text in it, as often and in the order as in the catalog, one per line on the command line; in the user interface a selection is always one of the results while there are any; no key makes the program panic.", "quantifier": "every catalog, text, sequence of keys", "why_tests_cant": "unbounded sequences of keys", "anchors": ["src/registry/search.rs::run_command_line_search", "src/registry/search.rs::SearchApp::process", "src/registry/search.rs::SearchApp::move_index"]}
{"id": "C237", "title": "Badly formed names are reported", "statement": "The default policy of the live check reports an attribute, a metric or an event exactly if its name is badly formed (does not begin with a lower case letter, or has an empty part or other characters than lower case letters and digits between dots and underscores), and the report of a run has these findings.", "quantifier": "every registry, name, run of samples", "why_tests_cant": "every string, every registry", "anchors": ["defaults/policies/live_check_advice/otel.rego::deny", "defaults/policies/live_check_advice/otel.rego::name_regex", "defaults/policies/live_check_advice/otel.rego::is_template_type", "crates/weaver_live_check/src/advice/rego_advisor.rs::advise"]}
{"id": "C238", "title": "Colliding namespaces are reported", "statement": "The default policy reports an attribute with a namespace exactly if that is a namespace of its name and an attribute of the registry that is not deprecated; the message says which attribute exists; and an attribute whose name is a namespace of an attribute of the registry is reported too.", "quantifier": "every registry, name", "why_tests_cant": "every string, every registry", "anchors": ["defaults/policies/live_check_advice/otel.rego::deny", "defaults/policies/live_check_advice/otel.rego::derive_namespaces", "defaults/jq/advice.jq"]}
{"id": "C239", "title": "Extended namespaces are reported", "statement": "An attribute that is neither in the registry nor of a template is reported once, with the deepest of its namespaces that attributes of the registry have, if there is one.", "quantifier": "every registry, name", "why_tests_cant": "every string, every registry", "anchors": ["defaults/policies/live_check_advice/otel.rego::deny", "defaults/jq/advice.jq"]}
{"id": "C240", "title": "Good attributes get no findings", "statement": "The default policy says nothing about an attribute exactly if its name has a namespace, is well-formed or of a template, none of its namespaces is an attribute in use, and the registry has it, a template of it or none of its namespaces. So nothing is said about any attribute of a registry with well-formed names in namespaces that are no namespaces of each other.", "quantifier": "every registry, name", "why_tests_cant": "every string, every registry", "anchors": ["defaults/policies/live_check_advice/otel.rego::deny", "defaults/jq/advice.jq"]}
{"id": "C241", "title": "Findings name their signal", "statement": "Every finding in the report of a live check says the type and the name of the signal in which it was found, if the policies say nothing else about signals; the default policy does not.", "quantifier": "every registry, run of samples, rules for findings, policies", "why_tests_cant": "every combination of samples", "anchors": ["crates/weaver_live_check/src/advice/rego_advisor.rs::advise", "crates/weaver_live_check/src/advice/type_advisor.rs", "crates/weaver_live_check/src/advice/mod.rs"]}
{"id": "C242", "title": "Policies read the entity definitions the live check uses", "statement": "`data.entities[source][type]`, as advice.jq makes it for policies, is the definition of the entity the live check looks up for a leaf of an association.", "quantifier": "every registry, dependencies, leaf", "why_tests_cant": "every combination of registries", "anchors": ["defaults/jq/advice.jq", "crates/weaver_forge/src/v2/registry.rs::lookup_entity", "crates/weaver_forge/src/v2/registry.rs::defined_entity"]}
{"id": "C243", "title": "The filter of attributes does what its options say", "statement": "`semconv_attributes` gives exactly the attributes of the registry that the options ask for (stable ones, not of an excluded stability, where `experimental` also stands for development, alpha, beta, release candidate and none, not deprecated, not annotated as excluded, not of an excluded root namespace), each as often as the registry has it, with exactly the members of enums the same options ask for, in the order of root namespace and name; and an enum keeps at least one member.", "quantifier": "every registry of version 1 and 2, every set of options", "why_tests_cant": "combinations of options, attributes and members", "anchors": ["defaults/jq/semconv.jq::semconv_attributes", "defaults/jq/semconv.jq::stability_filter", "defaults/jq/semconv.jq::code_generation_exclude_filter", "defaults/jq/semconv.jq::deprecated_filter", "defaults/jq/semconv.jq::expand_stability"]}
{"id": "C244", "title": "Attributes are grouped by root namespace", "statement": "`semconv_grouped_attributes` has one group for each root namespace of the attributes of `semconv_attributes`, in the order of the namespaces, with exactly the attributes of that namespace, sorted by name; all groups one after the other are the attributes.", "quantifier": "every registry of version 1 and 2, every set of options", "why_tests_cant": "every list of attributes", "anchors": ["defaults/jq/semconv.jq::semconv_grouped_attributes", "defaults/jq/semconv.jq::semconv_group_attributes_by_root_namespace"]}
{"id": "C245", "title": "The filters of signals do what their options say", "statement": "`semconv_metrics`, `semconv_spans`, `semconv_events` and `semconv_entities` give exactly the signals of the kind that the options ask for, each as often as the registry has it, with exactly those of its attributes and their members the options ask for.", "quantifier": "every registry of version 1 and 2, every set of options, every kind of signal", "why_tests_cant": "combinations of options, signals, attributes and members", "anchors": ["defaults/jq/semconv.jq::semconv_signal", "defaults/jq/semconv.jq::semconv_metrics", "defaults/jq/semconv.jq::semconv_spans", "defaults/jq/semconv.jq::semconv_events", "defaults/jq/semconv.jq::semconv_entities"]}
{"id": "C246", "title": "Signals are grouped by root namespace", "statement": "The grouped functions of signals have one group for each root namespace, in the order of the namespaces, with exactly the signals of the namespace, in the order of their names (metrics, events) or types (spans, entities).", "quantifier": "every registry of version 1 and 2, every set of options, every kind of signal", "why_tests_cant": "every list of signals", "anchors": ["defaults/jq/semconv.jq::semconv_grouped_metrics", "defaults/jq/semconv.jq::semconv_grouped_spans", "defaults/jq/semconv.jq::semconv_grouped_events", "defaults/jq/semconv.jq::semconv_grouped_entities"]}
{"id": "C247", "title": "Root namespaces", "statement": "The root namespace of an attribute or signal is what stands before the first dot of its name, in both versions of the registry.", "quantifier": "every name", "why_tests_cant": "every string", "anchors": ["defaults/jq/semconv.jq::semconv_attributes", "defaults/jq/semconv.jq::semconv_signal"]}
{"id": "C248", "title": "Results of filters", "statement": "A filter fails exactly if one of its results is an error, with all errors in order; else the result is the value, or the list of all values if there is not exactly one; results that are different are not the same to the template, and what cannot be represented is an error.", "quantifier": "every list of results", "why_tests_cant": "every list of results", "anchors": ["crates/weaver_forge/src/jq.rs::execute_jq", "crates/weaver_forge/src/jq.rs::val_to_serde"]}
{"id": "C249", "title": "Errors of filters say where they are", "statement": "The line of an error in a filter is one more than the number of line breaks before it, the column one more than the number of characters after the last of them; and so for where it ends.", "quantifier": "every text and part of it", "why_tests_cant": "every string", "anchors": ["crates/weaver_forge/src/jq.rs::get_source"]}
{"id": "C250", "title": "A registry inferred from telemetry accepts that telemetry", "statement": "If a registry is inferred from OTLP requests and the same requests are live checked against it, with no objections from policies, there are no violations.", "quantifier": "every list of requests, every hash order, every registry that says what was inferred", "why_tests_cant": "two commands that no test runs one after the other; every telemetry", "anchors": ["src/registry/infer.rs::process_otlp_request", "src/registry/infer.rs::accumulate_resource", "crates/weaver_infer/src/lib.rs::to_semconv_spec", "crates/weaver_live_check/src/live_checker.rs::new"]}
{"id": "C251", "title": "What inference does not learn is a violation", "statement": "In a live check against the registry inferred from the same telemetry: an attribute that occurs only where it is not learned, a metric without an instrument, a metric with two units or instruments and an attribute with two types each give a violation; all that is learned is reported as not stable.", "quantifier": "every list of requests, every hash order, every registry that says what was inferred", "why_tests_cant": "two commands that no test runs one after the other", "anchors": ["src/registry/infer.rs::process_otlp_request", "crates/weaver_infer/src/lib.rs::add_metric", "crates/weaver_infer/src/lib.rs::accumulate_attribute"]}
{"id": "C252", "title": "Telemetry covers the registry inferred from it", "statement": "The live check of the telemetry a registry was inferred from counts every attribute, metric and event of the registry as seen.", "quantifier": "every list of requests, every hash order, every registry that says what was inferred", "why_tests_cant": "two commands that no test runs one after the other", "anchors": ["crates/weaver_live_check/src/stats.rs::add_event_name_to_coverage", "crates/weaver_infer/src/lib.rs::to_semconv_spec"]}
{"id": "C253", "title": "Tokens go only where they are for", "statement": "Each request of a process has the token for one of the URLs the process was given, and goes to this URL or, if it is the URL of an asset of a GitHub release, to the API of GitHub.", "quantifier": "every list of URLs, every resolver of tokens, every behaviour of servers", "why_tests_cant": "every answer of servers", "anchors": ["crates/weaver_common/src/vdir.rs::attach_auth", "crates/weaver_common/src/vdir.rs::download_to_file", "crates/weaver_common/src/vdir.rs::normalize_github_url_with_api_base"]}
{"id": "C254", "title": "The URL of an asset gives the asset", "statement": "A URL of an asset of a GitHub release as a browser shows it gives the content of the asset with this name; a name that is not in the release is an error; URLs are taken for ones of assets exactly if they are.", "quantifier": "every release, owner, repository, tag and name", "why_tests_cant": "every URL", "anchors": ["crates/weaver_common/src/vdir.rs::parse_github_release_url", "crates/weaver_common/src/vdir.rs::find_asset_url", "crates/weaver_common/src/vdir.rs::download_to_file"]}
{"id": "C255", "title": "The cache of releases makes no difference", "statement": "The downloads of a process give what each gives alone, and the description of a release is got at most once.", "quantifier": "every list of URLs, every resolver of tokens, every behaviour of servers", "why_tests_cant": "every sequence of downloads", "anchors": ["crates/weaver_common/src/vdir.rs::normalize_github_url_with_api_base"]}
{"id": "C256", "title": "Remote archives are unpacked in their format", "statement": "A URL that is taken for one of an archive is unpacked in the format the URL ends with.", "quantifier": "every URL", "why_tests_cant": "every URL", "anchors": ["crates/weaver_common/src/vdir.rs::try_from_remote_archive", "crates/weaver_common/src/vdir.rs::try_from_local_archive"]}
{"id": "C257", "title": "The revision that is asked for is checked out", "statement": "Without a revision the default branch is checked out, else the branch, tag or commit of this name or id.", "quantifier": "every repository and revision", "why_tests_cant": "every name", "anchors": ["crates/weaver_common/src/vdir.rs::is_commit_sha", "crates/weaver_common/src/vdir.rs::try_from_git_url", "crates/weaver_common/src/vdir.rs::checkout_sha"]}
{"id": "C258", "title": "Case conversions keep the letters", "statement": "The case filters of templates change only the case of letters and the delimiters, and write words in the case of their convention between single delimiters of their convention; `capitalize_first` changes the first character only.", "quantifier": "every text, every convention", "why_tests_cant": "every text", "anchors": ["crates/weaver_forge/src/config.rs::convert", "crates/weaver_forge/src/extensions/case.rs::case_converter", "crates/weaver_forge/src/extensions/case.rs::capitalize_first"]}
{"id": "C259", "title": "Case conversions in sequence are the last one", "statement": "A case filter after another gives what it gives alone.", "quantifier": "every text, every two conventions", "why_tests_cant": "every text", "anchors": ["crates/weaver_forge/src/config.rs::convert"]}
{"id": "C260", "title": "Case conversions keep names distinct", "statement": "Distinct names of the registry give distinct names in generated code.", "quantifier": "every two names, every convention", "why_tests_cant": "every pair of names", "anchors": ["crates/weaver_forge/src/config.rs::convert", "crates/weaver_forge/src/extensions/otel.rs::kebab_case_const", "crates/weaver_forge/src/extensions/otel.rs::pascal_case_const", "crates/weaver_forge/src/extensions/otel.rs::camel_case_const", "crates/weaver_forge/src/extensions/otel.rs::snake_case_const", "crates/weaver_forge/src/extensions/otel.rs::screaming_snake_case_const"]}
{"id": "C261", "title": "Literals of enum members have their value", "statement": "The literal `print_member_value` gives for a string is a JSON string with this value on one line, and distinct values have distinct literals.", "quantifier": "every value", "why_tests_cant": "every string", "anchors": ["crates/weaver_forge/src/extensions/otel.rs::print_member_value"]}
{"id": "C262", "title": "Every error of templates is shown", "statement": "The errors of several templates are all in the messages, and `print_dedup_errors` shows each text and how many errors are similar.", "quantifier": "every list of errors", "why_tests_cant": "every list", "anchors": ["crates/weaver_forge/src/debug.rs::print_dedup_errors", "crates/weaver_forge/src/error.rs::compound_error"]}
{"id": "C263", "title": "The default that the help shows is the default that is used", "statement": "If the help of a flag says `[default: s]`, the configuration has the value that `s` means when neither the flag nor the file sets it.", "quantifier": "every list of annotated fields", "why_tests_cant": "every struct the macro could be given; the tests check single expressions", "anchors": ["crates/weaver_macros/src/weaver_command.rs::inject_default_docs", "crates/weaver_macros/src/weaver_command.rs::field_config_default", "crates/weaver_macros/src/weaver_command.rs::classify_field", "crates/weaver_macros/src/weaver_command.rs::parse_config_annotation", "crates/weaver_macros/src/weaver_command.rs::gen_default_impl", "crates/weaver_macros/src/weaver_command.rs::gen_default_expr"]}
{"id": "C264", "title": "A command compiles exactly if its settings are optional arguments of known types", "statement": "The code generated for a setting without a path is well-typed exactly if the argument is `Option<T>` and there is no default or `T` is one of fifteen known types; the struct and its `Default` have the same fields.", "quantifier": "every type and annotation", "why_tests_cant": "every type", "anchors": ["crates/weaver_macros/src/weaver_command.rs::gen_config_struct", "crates/weaver_macros/src/weaver_command.rs::config_field_type", "crates/weaver_macros/src/weaver_command.rs::gen_default_impl", "crates/weaver_macros/src/weaver_command.rs::gen_default_expr", "crates/weaver_macros/src/weaver_command.rs::extract_option_inner", "crates/weaver_macros/src/weaver_command.rs::last_type_segment"]}
{"id": "C265", "title": "A flag writes to its own setting only", "statement": "After the overrides each setting has the value of its flag if that is given and what it had before if not, and nothing else changes.", "quantifier": "every list of fields and arguments", "why_tests_cant": "all combinations of flags", "anchors": ["crates/weaver_macros/src/weaver_command.rs::gen_cli_overrides_impl"]}
{"id": "C266", "title": "The test of the names passes exactly if settings and flags correspond", "statement": "`assert_config_cli_consistency` passes exactly if each setting that is not for the file only is written by a flag and each flag that is not excluded writes to a setting.", "quantifier": "every command, schema and command line", "why_tests_cant": "the test is itself a test; what it finds is not tested", "anchors": ["src/registry/mod.rs::assert_config_cli_consistency", "src/registry/mod.rs::schema_field_names", "crates/weaver_macros/src/weaver_command.rs::gen_excluded_args", "crates/weaver_macros/src/weaver_command.rs::gen_cli_overrides_impl"]}
{"id": "C267", "title": "Different sections get structs of different names", "statement": "`section_to_config_ident` gives different names to different sections in kebab case, such as those of the commands.", "quantifier": "every pair of sections in kebab case", "why_tests_cant": "every pair", "anchors": ["crates/weaver_macros/src/weaver_command.rs::section_to_config_ident"]}
{"id": "C268", "title": "The server answers with the definition that is asked for", "statement": "`GET /api/v1/registry/{kind}/{name}` is answered with 200 and the definition of the kind with this name, and with 404 if there is none.", "quantifier": "every registry, kind and name", "why_tests_cant": "every name; the tests ask for a few", "anchors": ["src/serve/handlers.rs::get_registry_attribute", "src/serve/handlers.rs::get_registry_metric", "src/serve/handlers.rs::get_registry_span", "src/serve/handlers.rs::get_registry_event", "src/serve/handlers.rs::get_registry_entity", "src/serve/server.rs::run_server"]}
{"id": "C269", "title": "Unknown paths are answered with 404", "statement": "A request for a path of the API that does not exist is answered with 404; the statuses of the others are known.", "quantifier": "every request", "why_tests_cant": "every path", "anchors": ["src/serve/server.rs::run_server", "src/serve/server.rs::serve_ui", "src/serve/handlers.rs::health", "src/serve/handlers.rs::get_schema", "src/serve/handlers.rs::get_registry_stats"]}
{"id": "C270", "title": "Filters and searches over HTTP", "statement": "The filter endpoint answers with the value of the filter (`.` if there is none), or with 400 and all details of its errors in order; the search endpoint says how many results it lists.", "quantifier": "every filter, error and query", "why_tests_cant": "errors of any nesting", "anchors": ["src/serve/handlers.rs::filter_registry", "src/serve/handlers.rs::search_registry"]}
{"id": "C271", "title": "Exactly the origins that are listed may read the answers", "statement": "With `--cors-origins`, pages of the listed origins, or of all for `*`, may read the answers, and no others; the server starts with any list.", "quantifier": "every list of origins and every origin", "why_tests_cant": "every pair", "anchors": ["src/serve/server.rs::run_server"]}
{"id": "C272", "title": "The compatibility check sees every property of a schema", "statement": "The paths that are collected from a JSON schema are exactly the paths of the properties it describes.", "quantifier": "every schema", "why_tests_cant": "nested and recursive schemas of any shape", "anchors": ["crates/xtask/src/schema_compat.rs::collect_paths", "crates/xtask/src/schema_compat.rs::schema_paths"]}
{"id": "C273", "title": "A schema passes the check exactly if its version allows the changes", "statement": "A schema passes exactly if properties are removed only with a higher major version and added only with a higher version.", "quantifier": "every pair of schemas and versions", "why_tests_cant": "every pair of versions", "anchors": ["crates/xtask/src/schema_compat.rs::run", "crates/xtask/src/schema_compat.rs::schema_version", "crates/xtask/src/schema_compat.rs::file_format_const"]}
{"id": "C274", "title": "A quoted value is one word of the shell", "statement": "A shell reads `shell_quote(v)` as one word, which is `v`; details in summaries have no line breaks and no bare bars.", "quantifier": "every text", "why_tests_cant": "every text", "anchors": ["crates/xtask/src/downstream.rs::shell_quote", "crates/xtask/src/downstream.rs::one_line"]}
{"id": "C275", "title": "The id of a selection selects it again", "statement": "`<url>@<ref>`, as printed, is accepted on the command line and selects the same repository and ref; scheme, `.git` and final slash can be left out.", "quantifier": "every configuration and selection", "why_tests_cant": "every ref and URL", "anchors": ["crates/xtask/src/downstream.rs::split_ref", "crates/xtask/src/downstream.rs::normalize_url", "crates/xtask/src/downstream.rs::select", "crates/xtask/src/downstream.rs::id"]}
{"id": "C276", "title": "Different repositories are checked out into different directories", "statement": "Repositories with different URLs are checked out into different directories.", "quantifier": "every pair of URLs", "why_tests_cant": "every pair", "anchors": ["crates/xtask/src/downstream.rs::dir_name", "crates/xtask/src/downstream.rs::checkout"]}
{"id": "C277", "title": "Filters for colours show the text in the style of their name", "statement": "A terminal shows the whole output of each of the 36 filters in the style that its name says, and what follows as on its own.", "quantifier": "every filter and text", "why_tests_cant": "every text", "anchors": ["crates/weaver_forge/src/extensions/ansi.rs::add_filters", "crates/weaver_forge/src/extensions/ansi.rs::black", "crates/weaver_forge/src/extensions/ansi.rs::bold", "crates/weaver_forge/src/extensions/ansi.rs::bg_bright_white"]}
{"id": "C278", "title": "Every generated file becomes a module of the single file", "statement": "The build script of the code generation test puts the text of every generated file into the module of its path, and nothing else.", "quantifier": "every set of files, in every order of the walk", "why_tests_cant": "every layout and order", "anchors": ["crates/weaver_codegen_test/build.rs::add_modules", "crates/weaver_codegen_test/build.rs::create_single_generated_rs_file", "crates/weaver_codegen_test/build.rs::generate"]}
{"id": "C279", "title": "Ids of OTLP are printed as hexadecimal digits", "statement": "Span and trace ids are printed as two lowercase hexadecimal digits per byte; different ids are printed differently.", "quantifier": "every id", "why_tests_cant": "every id", "anchors": ["src/registry/otlp/conversion.rs::span_id_hex", "src/registry/otlp/conversion.rs::trace_id_hex", "src/registry/otlp/conversion.rs::unix_nanos_to_utc", "src/registry/otlp/conversion.rs::status_from_otlp_status"]}
{"id": "C280", "title": "The statistics of a diff add up", "statement": "The numbers that are printed for a kind of item add up to the number of its changes.", "quantifier": "every list of changes", "why_tests_cant": "every list", "anchors": ["crates/weaver_version/src/schema_changes.rs::dump_stats", "crates/weaver_version/src/schema_changes.rs::count_metric_changes", "crates/weaver_version/src/schema_changes.rs::count_registry_attribute_changes"]}
{"id": "C281", "title": "Printed levels are read back", "statement": "The text that is printed for a level or stability is read as the same value.", "quantifier": "every value", "why_tests_cant": "every text", "anchors": ["crates/weaver_config/src/live_check.rs::from_str", "crates/weaver_semconv/src/stability.rs::fmt", "crates/weaver_semconv/src/attribute.rs::fmt"]}
{"id": "C282", "title": "The workspace passes exactly if its crates follow the policies", "statement": "The check of the workspace passes if and only if every crate has a name that starts with weaver_, a README, a list of external types and a Cargo.toml with the listed fields.", "quantifier": "every list of directories with every content of Cargo.toml", "why_tests_cant": "the check is excluded from coverage and has no tests", "anchors": ["crates/xtask/src/validate.rs::run", "crates/xtask/src/validate.rs::check_package", "crates/xtask/src/validate.rs::check_path_is_true", "crates/xtask/src/validate.rs::check_lints_workspace"]}
{"id": "C283", "title": "The built-in advisors say exactly what is listed", "statement": "A finding is given by a built-in advisor if and only if it is one of the listed kinds, with the condition, identifier, level, message and context of that kind.", "quantifier": "every sample, signal, definition and finding", "why_tests_cant": "tests compare single findings", "anchors": ["crates/weaver_live_check/src/advice/deprecated_advisor.rs::advise", "crates/weaver_live_check/src/advice/stability_advisor.rs::advise", "crates/weaver_live_check/src/advice/type_advisor.rs::advise", "crates/weaver_live_check/src/advice/enum_advisor.rs::advise", "crates/weaver_live_check/src/advice/type_advisor.rs::check_attributes", "crates/weaver_live_check/src/advice/type_advisor.rs::check_entity_resource_attributes"]}
{"id": "C284", "title": "The message has all details of the context", "statement": "The message of every built-in finding contains every text, value and name that its context holds.", "quantifier": "every finding", "why_tests_cant": "README.md says so of all findings, tests look at single ones", "anchors": ["crates/weaver_live_check/src/advice/mod.rs::build_and_emit", "crates/weaver_live_check/src/sample_attribute.rs::run_live_check", "crates/weaver_live_check/src/advice/type_advisor.rs::entity_association_not_satisfied"]}
{"id": "C285", "title": "Names and types of samples and signals", "statement": "The name of a sample and the type, name and resource of a signal are those of the listed kinds of samples.", "quantifier": "every sample", "why_tests_cant": "every kind of sample", "anchors": ["crates/weaver_live_check/src/lib.rs::sample_name", "crates/weaver_live_check/src/lib.rs::signal_type", "crates/weaver_live_check/src/lib.rs::signal_name", "crates/weaver_live_check/src/lib.rs::resource"]}
{"id": "C286", "title": "Every finding of a run is documented and about its signal", "statement": "Every finding in the report of a run that is not of a rego policy has an identifier of docs/finding.md, mentions its context, and carries the type and name of the signal of its sample.", "quantifier": "every registry, rego policy, modifier and list of samples", "why_tests_cant": "runs of any length", "anchors": ["src/registry/live_check.rs::command", "crates/weaver_live_check/src/lib.rs::run_live_check", "crates/weaver_live_check/src/finding_modifier.rs::apply"]}
{"id": "C287", "title": "Entities are looked up where they are defined", "statement": "A reference to an entity stands for the entity or refinement of the registry or of the first dependency with its schema URL, and a name in a v1 registry for the last entity group of that name.", "quantifier": "every registry, list of dependencies and reference", "why_tests_cant": "every combination of definitions", "anchors": ["crates/weaver_live_check/src/live_checker.rs::lookup_entity", "crates/weaver_forge/src/v2/registry.rs::lookup_entity", "crates/weaver_forge/src/v2/registry.rs::defined_entity"]}
{"id": "C288", "title": "Which group of another version is the same", "statement": "An imported group is replaced by a group of the chosen version exactly if both are of the same type and have the same metric name, or else the same name, or else ids that agree without the prefix of the type.", "quantifier": "every two groups", "why_tests_cant": "every combination of names that are there and names that are not", "anchors": ["crates/weaver_resolver/src/imports.rs::is_same_imported_group", "crates/weaver_resolver/src/imports.rs::strip_group_type_prefix"]}
{"id": "C289", "title": "Imported v2 signals carry the origins of their entities", "statement": "A group imported from a v2 schema carries, for each entity name of its associations, the registry that the last leaf of that name means.", "quantifier": "every v2 schema and list of imports", "why_tests_cant": "every mixture of references into dependencies and own entities", "anchors": ["crates/weaver_resolver/src/imports.rs::import_groups", "crates/weaver_resolver/src/imports.rs::v2_association_origins"]}
{"id": "C290", "title": "The texts in log records are those of the variants", "statement": "Ids, levels, types of samples and types of signals in log records are the names of their variants in snake case; every finding of the check itself has an id that is known; severities are in the range of their names.", "quantifier": "every finding and sample", "why_tests_cant": "all variants at once", "anchors": ["crates/weaver_live_check/src/otlp_logger.rs::finding_level_to_severity", "crates/weaver_live_check/src/lib.rs::sample_type", "crates/weaver_live_check/src/generated/attributes.rs::from"]}
{"id": "C291", "title": "What the type tests of templates accept", "statement": "The tests for simple, template, array and enum types hold of exactly the listed types, and no type is of two of the kinds simple, template and enum.", "quantifier": "every template value", "why_tests_cant": "values of any shape", "anchors": ["crates/weaver_forge/src/extensions/otel.rs::is_simple_type", "crates/weaver_forge/src/extensions/otel.rs::is_template_type", "crates/weaver_forge/src/extensions/otel.rs::is_enum_type", "crates/weaver_forge/src/extensions/otel.rs::is_enum", "crates/weaver_forge/src/extensions/otel.rs::is_array"]}
{"id": "C292", "title": "What the derive macro makes of a field", "statement": "The first attribute that says what a field is decides; of an annotation the last default and path count; the excluded names are those of shared arguments and of flags without a setting; extra names are those between commas.", "quantifier": "every list of attributes, items and fields", "why_tests_cant": "macros have tests for single structs", "anchors": ["crates/weaver_macros/src/weaver_command.rs::classify_field", "crates/weaver_macros/src/weaver_command.rs::parse_config_annotation", "crates/weaver_macros/src/weaver_command.rs::gen_excluded_args"]}
{"id": "C293", "title": "How paragraphs are separated in HTML", "statement": "Paragraphs are elements on lines of their own; in the old style a line with <p> is between them, which is empty before a paragraph that starts with @.", "quantifier": "every list of paragraphs of a text each, without a line limit", "why_tests_cant": "lists of any length", "anchors": ["crates/weaver_forge/src/formats/html.rs::write_html_to"]}
{"id": "C294", "title": "The lineage of an attribute reference", "statement": "The lineage of a resolved reference names the group or dependency of the attribute, lists as overridden exactly the fields that the reference gives, and as inherited exactly those that it does not give and that the attribute has.", "quantifier": "every reference and attribute", "why_tests_cant": "every combination of fields", "anchors": ["crates/weaver_resolver/src/attribute.rs::resolve", "crates/weaver_resolved_schema/src/lineage.rs::brief", "crates/weaver_resolved_schema/src/lineage.rs::optional_role"]}
{"id": "C295", "title": "The filters for Prometheus names agree", "statement": "prom_name gives a name exactly for a metric with a textual name, unit and instrument and one of the four strategies; this is the only name that prom_names gives with that strategy, and is among those that it gives without one; prom_unit translates the known units only.", "quantifier": "every metric value and arguments", "why_tests_cant": "every combination of arguments and types", "anchors": ["crates/weaver_forge/src/extensions/otel.rs::parse_translation_strategy", "crates/weaver_forge/src/extensions/otel.rs::prom_names", "crates/weaver_forge/src/extensions/otel.rs::prom_name", "crates/weaver_forge/src/extensions/otel.rs::prom_unit", "crates/weaver_forge/src/extensions/otel.rs::get_attr"]}
{"id": "C296", "title": "Which value a template parameter has", "statement": "A --param is a name before the first = and YAML after it; the last --param of a name decides, a name without one has its value of the file, and the command is refused exactly if some argument gives no value.", "quantifier": "every list of arguments and file", "why_tests_cant": "names and values with any number of =", "anchors": ["src/registry/generate.rs::parse_key_val", "src/registry/generate.rs::generate_params_shared"]}
{"id": "C297", "title": "The service name of the findings", "statement": "The resource of the findings is named weaver unless the environment names the service; then it has the name of the environment.", "quantifier": "every environment", "why_tests_cant": "every text of the environment variables", "anchors": ["crates/weaver_live_check/src/otlp_logger.rs::detect", "crates/weaver_live_check/src/otlp_logger.rs::build_resource"]}
{"id": "C298", "title": "When weaver exits with 0", "statement": "A configuration that cannot be loaded ends every command with 1; else the code is 0 exactly if the command does not fail, or ends with messages that can be shown and of which none is an error.", "quantifier": "every command, configuration and result", "why_tests_cant": "every combination of commands and messages", "anchors": ["src/main.rs::run_command", "src/main.rs::main", "src/registry/mod.rs::resolve_weaver_config"]}
{"id": "C299", "title": "Patching the release workflow is idempotent", "statement": "A patched workflow has the new text of each patch and none of the old texts; patching it again changes nothing; a workflow is refused exactly if it has neither the old nor the new text of some patch.", "quantifier": "every text", "why_tests_cant": "any text, with occurrences that overlap or follow each other", "anchors": ["crates/xtask/src/fix_release_permissions.rs::apply_patches"]}
{"id": "C300", "title": "Following the pages of a search gives everything once", "statement": "A client that asks again from offset + count on until a page is empty gets every match exactly once in order of rank, for every page size but 0, and each page has the same total.", "quantifier": "every registry, query, filter and page size", "why_tests_cant": "every number of pages, with sizes above the maximum", "anchors": ["src/serve/handlers.rs::search_registry", "src/serve/handlers.rs::get_schema"]}
{"id": "C301", "title": "The report of a diff shows every change", "statement": "Each change that registry diff finds has a line in the default reports, under the type of its item and in the section of its kind, as often as it was found; the summary counts these lines.", "quantifier": "every v1 and v2 diff", "why_tests_cant": "items of every type, with several kinds of changes at once", "anchors": ["src/weaver.rs::as_template_context", "defaults/diff_templates/ansi/diff.txt.j2", "defaults/diff_templates/ansi-stats/diff.txt.j2", "defaults/diff_templates/markdown/diff.md.j2"]}
{"id": "C302", "title": "The default reports of diagnostics show every message", "statement": "The reports for the terminal and for GitHub workflows show each diagnostic message: a policy violation with its id, message and provenance, another message as it is.", "quantifier": "every list of messages", "why_tests_cant": "every mixture of violations and other messages", "anchors": ["defaults/diagnostic_templates/ansi/errors.txt.j2", "defaults/diagnostic_templates/gh_workflow_command/errors.txt.j2"]}
{"id": "C303", "title": "The default live check report shows every result", "statement": "Everything that the live check looks at has one block in the report, with a line for each finding about it; the colour of a name tells its worst finding; the value of an attribute is shown.", "quantifier": "every run", "why_tests_cant": "every shape of samples", "anchors": ["defaults/live_check_templates/ansi/live_check_macros.j2"]}
{"id": "C304", "title": "diagnostic init writes the templates of the target", "statement": "Without a target all default diagnostic templates are written, with one exactly those of the directory of that name; a target that does not exist is refused.", "quantifier": "every target and set of embedded templates", "why_tests_cant": "every text as target", "anchors": ["src/diagnostic/init.rs::extract", "src/diagnostic/init.rs::command"]}
{"id": "C305", "title": "No error is lost when errors of one crate become messages of another", "statement": "An error that a command ends with becomes one diagnostic message for each single error in it, with its text and severity, whichever crates the error went through.", "quantifier": "every nesting of compound errors and errors that carry those of other crates", "why_tests_cant": "depth and mixture of nesting are unbounded", "anchors": ["crates/weaver_resolver/src/error.rs::from", "crates/weaver_semconv_gen/src/lib.rs::from", "src/weaver.rs::from", "crates/weaver_common/src/error.rs::format_errors"]}
{"id": "C306", "title": "Errors of a jq filter are all reported, with their place", "statement": "Each error that jaq finds in a filter is a detail of the error, in order; one that is about a part of the filter has the line and column of it, which can be read back from the text.", "quantifier": "every list of errors, filter and part of it", "why_tests_cant": "all texts and places", "anchors": ["crates/weaver_forge/src/jq.rs::load_errors", "crates/weaver_forge/src/jq.rs::compile_errors", "crates/weaver_forge/src/jq.rs::report_io", "crates/weaver_forge/src/jq.rs::report_lex", "crates/weaver_forge/src/jq.rs::report_parse", "crates/weaver_forge/src/jq.rs::report_compile", "crates/weaver_forge/src/error.rs::format_details"]}
{"id": "C307", "title": "Types of a schema error are all named, and causes of a template error are all told", "statement": "The message for a value of a wrong type names each supported type once, says optional just if null is one, and is empty just if there are none; the summary of a template error has each cause in order and the last one in full.", "quantifier": "every set of types and chain of causes", "why_tests_cant": "all subsets of types, chains of any length", "anchors": ["crates/weaver_semconv/src/json_schema.rs::describe_types", "crates/weaver_forge/src/debug.rs::error_summary"]}
{"id": "C308", "title": "The semantic version of a schema URL is the one that is written", "statement": "A release version is read from the version of a schema URL iff the text is that version as it is written, after any number of letters v.", "quantifier": "every text without - and +", "why_tests_cant": "all texts", "anchors": ["crates/weaver_semconv/src/schema_url.rs::semver"]}

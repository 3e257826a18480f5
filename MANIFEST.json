{
 "claims": [
  {
   "property": "C01",
   "status": "proved",
   "theorems": [
    "Verif.Resolver.extends_terminates",
    "Verif.Resolver.extends_success_iff",
    "Verif.Resolver.extends_stuck_exact",
    "Verif.Resolver.attempt_ok_iff",
    "Verif.Resolver.missing_parent_unresolvable",
    "Verif.Resolver.resolves_parents",
    "Verif.Resolver.cycle_unresolvable",
    "Verif.Resolver.extends_attributes"
   ],
   "note": "All registries for termination; unique and unshadowed ids for the rest (C04 has the witness otherwise). A type-mismatched V2 refinement is C135."
  },
  {
   "property": "C02",
   "status": "proved",
   "theorems": [
    "Verif.Resolver.inherit_ids",
    "Verif.Resolver.inherit_fields",
    "Verif.Resolver.inherit_definition",
    "Verif.Resolver.inherit_own_definition",
    "Verif.Resolver.inherit_origin"
   ],
   "note": "resolve_inheritance_attrs_unified, all inputs. That the prefix flag is lost on definitions is part of inherit_fields; C136 is the expectation that it is not."
  },
  {
   "property": "C03",
   "status": "proved",
   "theorems": [
    "Verif.Resolver.attributeRef_ok",
    "Verif.Resolver.cleanup_keeps_meaning",
    "Verif.Resolver.cleanup_catalog_exact",
    "Verif.Pipeline.resolved_attributes"
   ],
   "note": "Every catalog and group list, every hash iteration order, and the whole of registry resolution."
  },
  {
   "property": "C04",
   "status": "partial",
   "theorems": [
    "Verif.Pipeline.resolve_order_partial",
    "Verif.Pipeline.importDep_perm",
    "Verif.Resolver.extends_order_partial",
    "Verif.Resolver.extends_order_refuted",
    "Verif.Resolver.cleanup_canonical_partial",
    "Verif.Resolver.cleanup_hash_order_refuted",
    "Verif.Resolver.refs_order_partial",
    "Verif.Resolver.ref_order_refuted",
    "Verif.Resolver.ref_success_order_refuted",
    "Verif.Resolver.ref_prefix_overwrites_refuted"
   ],
   "note": "resolve_order_partial is end to end: attributes, groups and association origins, assuming both orders succeed, under hypotheses that the refuted witnesses show to be needed. Not compared: lineage of attributes, warnings."
  },
  {
   "property": "C05",
   "status": "proved",
   "theorems": [
    "Verif.Resolver.conflict_error_iff",
    "Verif.Resolver.conflict_picks_greatest",
    "Verif.Resolver.conflict_order",
    "Verif.Resolver.loader_chooses_latest",
    "Verif.Resolver.loader_accepts_iff",
    "Verif.Resolver.loader_order_independent",
    "Verif.Resolver.loader_choice_order_independent"
   ],
   "note": "Pre-release/build ordering is an abstract rank. The order dependence of the text of the URL is C138."
  },
  {
   "property": "C06",
   "status": "proved",
   "theorems": [
    "Verif.Resolver.extends_never_from_excluded",
    "Verif.Resolver.ref_resolves",
    "Verif.Resolver.depLookup_best",
    "Verif.Imports.import_v1_selects",
    "Verif.Imports.import_v1_excluded",
    "Verif.Imports.import_v2_selects",
    "Verif.Imports.import_v2_excluded"
   ],
   "note": "Extends, attribute references (all registries) and imports."
  },
  {
   "property": "C07",
   "status": "proved",
   "theorems": [
    "Verif.Loader.load_succeeds_iff",
    "Verif.Loader.cycle_fails",
    "Verif.Loader.deep_chain_fails",
    "Verif.Loader.incompatible_versions_fail",
    "Verif.Loader.load_selects_latest",
    "Verif.Loader.load_error_reason",
    "Verif.Loader.cycle_reported",
    "Verif.Loader.load_tree_faithful",
    "Verif.Loader.load_reports_all_warnings",
    "Verif.Loader.upgrade_warnings",
    "Verif.Engine.published_versions_checked"
   ],
   "note": "Every manifest graph, infinite or cyclic. File parsing and fetching are parameters. Long cycles are C142."
  },
  {
   "property": "C08",
   "status": "proved",
   "theorems": [
    "Verif.Imports.import_v1_selects",
    "Verif.Imports.import_v1_excluded",
    "Verif.Imports.import_v2_selects",
    "Verif.Imports.import_v2_excluded",
    "Verif.Imports.import_all_spec",
    "Verif.Imports.import_all_fails_iff",
    "Verif.Imports.unmatched_iff",
    "Verif.Imports.matchKeys_answers"
   ],
   "note": "All import blocks, all v1 and v2 dependencies, any glob semantics. The attributes of imported groups are in the catalog model (C03, C54)."
  },
  {
   "property": "C09",
   "status": "proved",
   "theorems": [
    "Verif.Imports.entity_found_iff",
    "Verif.Imports.entity_private_iff",
    "Verif.Imports.entity_unknown_iff",
    "Verif.Imports.entity_ambiguous_iff",
    "Verif.Imports.entity_ambiguous_lists",
    "Verif.Imports.entity_order_independent",
    "Verif.Imports.lookup_holds",
    "Verif.Imports.associations_fail_iff",
    "Verif.Imports.associations_recorded",
    "Verif.Imports.associations_order_independent",
    "Verif.Imports.v1_origins_carried",
    "Verif.Imports.imported_association_kept",
    "Verif.Imports.local_duplicate_order_refuted"
   ],
   "note": "All registries and dependency lists. local_duplicate_order_refuted shows the one dependence on group order (two local entities of one name, which the duplicate check rejects later)."
  },
  {
   "property": "C10",
   "status": "proved",
   "theorems": [
    "Verif.Resolver.merge_override_wins",
    "Verif.Resolver.merge_silent_keeps",
    "Verif.Resolver.merge_keeps_override_paths",
    "Verif.Resolver.merge_invents_nothing",
    "Verif.Resolver.merge_twice",
    "Verif.Resolver.merge_self",
    "Verif.Resolver.merge_neutral",
    "Verif.Resolver.mergeAnnots_exact",
    "Verif.Resolver.mergeAnnots_twice",
    "Verif.Resolver.mergeAnnots_neutral",
    "Verif.Resolver.mergeAnnots_exclusion",
    "Verif.Resolver.mergeAnnots_override_excludes"
   ],
   "note": "All pairs. Associativity is C139."
  },
  {
   "property": "C11",
   "status": "proved",
   "theorems": [
    "Verif.Resolver.lineage_step",
    "Verif.Resolver.lineage_exact",
    "Verif.Resolver.lineage_inherited_as_is"
   ],
   "note": "One base. Several bases are C140."
  },
  {
   "property": "C12",
   "status": "proved",
   "theorems": [
    "Verif.Checks.dup_group_id",
    "Verif.Checks.dup_metric_name",
    "Verif.Checks.dup_group_name",
    "Verif.Checks.dup_attribute_id",
    "Verif.Checks.colliding_v2_names",
    "Verif.Checks.v2_name",
    "Verif.Checks.dup_group_id_published"
   ],
   "note": "Exact for every list of published groups. Internal groups are C141."
  },
  {
   "property": "C13",
   "status": "proved",
   "theorems": [
    "Verif.Convert.metrics_kept",
    "Verif.Convert.events_kept",
    "Verif.Convert.spans_kept",
    "Verif.Convert.entities_kept",
    "Verif.Convert.attribute_groups_kept",
    "Verif.Convert.catalog_kept",
    "Verif.Convert.registry_attributes",
    "Verif.Convert.refinement_ids_distinct",
    "Verif.Convert.convert_ok_iff",
    "Verif.Convert.convert_error_reason",
    "Verif.Convert.attribute_provenance"
   ],
   "note": "All resolved v1 schemas; hash order of the catalog is a parameter. The statements are relations between input groups and output sections in order."
  },
  {
   "property": "C14",
   "status": "proved",
   "theorems": [
    "Verif.Convert.associations_kept",
    "Verif.Convert.associations_fail",
    "Verif.Convert.references_kept"
   ],
   "note": "All association trees."
  },
  {
   "property": "C15",
   "status": "proved",
   "theorems": [
    "Verif.Diff.diff_exact",
    "Verif.Diff.diff_once",
    "Verif.Diff.diff_self",
    "Verif.Diff.diff_v1",
    "Verif.Diff.diff_v1_self",
    "Verif.Diff.diff_v2",
    "Verif.Diff.diff_v2_self",
    "Verif.Diff.counts_add_up",
    "Verif.Diff.count_all"
   ],
   "note": "All pairs of v1 and of v2 schemas, any enumeration order of the hash maps. Of several items of one name the last is compared, which the statement says."
  },
  {
   "property": "C16",
   "status": "proved",
   "theorems": [
    "Verif.Versions.names_at",
    "Verif.Versions.listings"
   ],
   "note": "All version histories (sorted by version, as a BTreeMap is). Within one version the first change that mentions a name counts."
  },
  {
   "property": "C17",
   "status": "proved",
   "theorems": [
    "Verif.Versions.extend_spec",
    "Verif.Versions.extend_versions"
   ],
   "note": "All pairs of histories."
  },
  {
   "property": "C18",
   "status": "proved",
   "theorems": [
    "Verif.JsonDiff.canon_idem",
    "Verif.JsonDiff.canon_same",
    "Verif.JsonDiff.canon_ascending",
    "Verif.JsonDiff.canon_order_free",
    "Verif.JsonDiff.compare_preorder",
    "Verif.JsonDiff.compare_order"
   ],
   "note": "All JSON values; numbers are compared as floats and abstracted to the position of their float value plus an identity."
  },
  {
   "property": "C19",
   "status": "proved",
   "theorems": [
    "Verif.Common.compound_keeps_every_error",
    "Verif.Common.messages_are_all_errors",
    "Verif.Common.failing_non_fatal_exact",
    "Verif.Common.handleErrors_exact",
    "Verif.Common.no_error_lost",
    "Verif.Common.non_warnings_kept_in_order",
    "Verif.Common.fatal_is_absorbing",
    "Verif.Common.error_counts",
    "Verif.Common.capture_non_fatal_exact"
   ],
   "note": "WResult, the error containers and handle_errors, all inputs."
  },
  {
   "property": "C20",
   "status": "proved",
   "theorems": [
    "Verif.Common.F64.oeq_equivalence",
    "Verif.Common.F64.ocmp_total_order",
    "Verif.Common.F64.ohash_iff_oeq"
   ],
   "note": "f64 as 64-bit patterns."
  },
  {
   "property": "C21",
   "status": "proved",
   "theorems": [
    "Verif.LiveCheck.stats_exact",
    "Verif.LiveCheck.stats_conserved",
    "Verif.LiveCheck.run_report"
   ],
   "note": "All runs that end without an error of an advisor; the advisor of rego policies is any function. Coverage is C65."
  },
  {
   "property": "C22",
   "status": "proved",
   "theorems": [
    "Verif.LiveCheck.exit_iff",
    "Verif.LiveCheck.exit_never"
   ],
   "note": "All runs and settings."
  },
  {
   "property": "C23",
   "status": "proved",
   "theorems": [
    "Verif.LiveCheck.modifier_exact",
    "Verif.LiveCheck.rules_rejected",
    "Verif.LiveCheck.run_report",
    "Verif.LiveCheck.newLevel_unique"
   ],
   "note": "All rules, findings and samples; the glob engine is any pair of functions."
  },
  {
   "property": "C24",
   "status": "proved",
   "theorems": [
    "Verif.LiveCheck.association_violation",
    "Verif.LiveCheck.association_findings",
    "Verif.LiveCheck.association_reported",
    "Verif.LiveCheck.unsatisfied_finding",
    "Verif.LiveCheck.resource_attached"
   ],
   "note": "All association trees, registries and runs. Template attributes of entities are C62, associations of spans C63."
  },
  {
   "property": "C25",
   "status": "proved",
   "theorems": [
    "Verif.LiveCheck.missing_point",
    "Verif.LiveCheck.missing_log"
   ],
   "note": "All runs with the five advisors of the command. Exponential histograms and spans are C63."
  },
  {
   "property": "C26",
   "status": "proved",
   "theorems": [
    "Verif.LiveCheck.longest_template",
    "Verif.LiveCheck.attribute_definition"
   ],
   "note": "All v1 and v2 registries and names."
  },
  {
   "property": "C27",
   "status": "proved",
   "theorems": [
    "Verif.Search.search_pages",
    "Verif.Search.pages_concat",
    "Verif.Search.hits_pass",
    "Verif.Search.hit_iff",
    "Verif.Search.exact_first",
    "Verif.Search.deprecated_last",
    "Verif.Search.rank_order",
    "Verif.Search.score_grade",
    "Verif.Search.grade_unique",
    "Verif.Search.score_relevance"
   ],
   "note": "Scores are characterised by ten relevance grades. Lower-casing and white space are parameters. Pages of 1 to 1000, the documented maximum."
  },
  {
   "property": "C28",
   "status": "proved",
   "theorems": [
    "Verif.Search.browse_partition",
    "Verif.Search.browseIn_partition",
    "Verif.Search.browsed_entries",
    "Verif.Search.browse_order",
    "Verif.Search.levels_unique"
   ],
   "note": "For every non-empty separator; the listing does not depend on the order of the hash maps."
  },
  {
   "property": "C29",
   "status": "proved",
   "theorems": [
    "Verif.Infer.spans_listed",
    "Verif.Infer.metrics_listed",
    "Verif.Infer.events_listed",
    "Verif.Infer.attributes_listed",
    "Verif.Infer.registry_closed",
    "Verif.Infer.examples_bounded",
    "Verif.Infer.order_irrelevant",
    "Verif.Infer.mem_received",
    "Verif.Infer.written_iff"
   ],
   "note": "All streams of requests and all hash orders."
  },
  {
   "property": "C30",
   "status": "proved",
   "theorems": [
    "Verif.Markdown.reading_exists",
    "Verif.Markdown.reading_unique",
    "Verif.Markdown.update_blocks",
    "Verif.Markdown.update_fails",
    "Verif.Markdown.update_idempotent",
    "Verif.Markdown.dry_run_after_update",
    "Verif.Markdown.semconvHeader_iff",
    "Verif.Markdown.weaverHeader_iff",
    "Verif.Markdown.semconvTrailer_iff",
    "Verif.Markdown.weaverTrailer_iff",
    "Verif.Markdown.headers_disjoint"
   ],
   "note": "The generators are a parameter that pushes a line end, as v1.rs and v2.rs do."
  },
  {
   "property": "C31",
   "status": "proved",
   "theorems": [
    "Verif.Common.selectRule_longest",
    "Verif.Common.selectRule_none",
    "Verif.Common.every_token_justified",
    "Verif.Common.no_token_without_rule",
    "Verif.Common.only_issued_tokens_cached"
   ],
   "note": "Concurrent lookup histories; commands, environment and clock are inputs."
  },
  {
   "property": "C32",
   "status": "proved",
   "theorems": [
    "Verif.Common.captures_none_iff",
    "Verif.Common.captures_some",
    "Verif.Common.captures_of_parts",
    "Verif.Common.parse_parts",
    "Verif.Common.classify_kinds",
    "Verif.Common.parse_print",
    "Verif.Common.mapSub_inside",
    "Verif.Common.mapSub_id",
    "Verif.Common.mapSub_comp"
   ],
   "note": "All texts; the regular expression is modelled as leftmost, shortest-match search."
  },
  {
   "property": "C33",
   "status": "proved",
   "theorems": [
    "Verif.Gen.settings_layered",
    "Verif.Gen.params_layered",
    "Verif.Gen.resolveFrom_iff",
    "Verif.Gen.collect_order",
    "Verif.Gen.innermost_wins"
   ],
   "note": "All lists of configurations; YAML parsing of a file is a parameter."
  },
  {
   "property": "C34",
   "status": "proved",
   "theorems": [
    "Verif.Cli.registry_settings",
    "Verif.Cli.policy_settings",
    "Verif.Cli.policy_unused",
    "Verif.Cli.diagnostic_settings",
    "Verif.Cli.command_settings",
    "Verif.Cli.accepts_iff",
    "Verif.Cli.aget_applyOverrides",
    "Verif.Cli.overrides_iff"
   ],
   "note": "All commands: the settings of a command are a table of fields, and the theorem is for every table."
  },
  {
   "property": "C35",
   "status": "proved",
   "theorems": [
    "Verif.Forge.required_partition",
    "Verif.Forge.required_fails",
    "Verif.Forge.stable_or_experimental"
   ],
   "note": "All template values."
  },
  {
   "property": "C36",
   "status": "proved",
   "theorems": [
    "Verif.Forge.attributeSort_sorted",
    "Verif.Forge.attributeSort_order",
    "Verif.Forge.attributeSort_fails",
    "Verif.Forge.ordinal_iff"
   ],
   "note": "All lists. The order of names is a total preorder given as a parameter. The sort is insertion sort, stable like Rust's. Rust sorts may panic on inconsistent comparisons; the comparison is consistent."
  },
  {
   "property": "C37",
   "status": "proved",
   "theorems": [
    "Verif.Forge.numsort_sorted",
    "Verif.Forge.numsort_order",
    "Verif.Forge.parseI64_iff"
   ],
   "note": "All maps."
  },
  {
   "property": "C38",
   "status": "proved",
   "theorems": [
    "Verif.Forge.sanitize_ascii",
    "Verif.Forge.sanitize_legal",
    "Verif.Forge.sanitize_id",
    "Verif.Forge.unitSuffix_iff",
    "Verif.Forge.withSuffixes_eq",
    "Verif.Forge.promNames_legal",
    "Verif.Forge.promName_listed",
    "Verif.Forge.promNames_mem",
    "Verif.Forge.promNames_expanded",
    "Verif.Forge.promNames_nodup"
   ],
   "note": "All ASCII names. What happens for others is C91."
  },
  {
   "property": "C39",
   "status": "proved",
   "theorems": [
    "Verif.Forge.layout_iff",
    "Verif.Forge.layout_keeps",
    "Verif.Forge.all_lines_shown",
    "Verif.Forge.comment_iff",
    "Verif.Forge.commentWithPrefix_lines"
   ],
   "note": "All texts and formats; the markdown and HTML renderers are a parameter."
  },
  {
   "property": "C40",
   "status": "proved",
   "theorems": [
    "Verif.Fs.safeJoin_iff",
    "Verif.Fs.tryNew_dir",
    "Verif.Fs.load_confined",
    "Verif.Fs.load_plain",
    "Verif.Fs.load_cases",
    "Verif.Fs.canonicalize_real",
    "Verif.Fs.embedded_confined",
    "Verif.Fs.embedded_exact",
    "Verif.Fs.embedded_loaded",
    "Verif.Fs.embedded_choice"
   ],
   "note": "All file trees with links, relative to a file system that does not change between check and read (see C104)."
  },
  {
   "property": "C41",
   "status": "proved",
   "theorems": [
    "Verif.Validate.validateGroup_iff",
    "Verif.Validate.duplicates_counted",
    "Verif.Validate.acceptable_iff",
    "Verif.Validate.assocFault_eq"
   ],
   "note": "All groups. Values inside arrays of maps are covered by C84."
  },
  {
   "property": "C42",
   "status": "proved",
   "theorems": [
    "Verif.Values.accepted_iff",
    "Verif.Values.tolerated_iff",
    "Verif.Values.accepted_template_iff",
    "Verif.Values.tolerated_template_iff",
    "Verif.Values.accepted_enum_iff",
    "Verif.Values.unreadable_iff"
   ],
   "note": "Exact, for all types and all values in the file."
  },
  {
   "property": "C43",
   "status": "proved",
   "theorems": [
    "Verif.Schema.new_plain",
    "Verif.Schema.fromNameVersion_plain",
    "Verif.Schema.fromNameVersion_base",
    "Verif.Schema.fromNameVersion_blank",
    "Verif.Schema.new_slashes",
    "Verif.Schema.new_idem",
    "Verif.Schema.new_shape",
    "Verif.Schema.same_url",
    "Verif.Schema.sampleLib_faithful"
   ],
   "note": "The URL parser is a parameter; for the content of plain URLs the contract Lib.Faithful says what it does."
  },
  {
   "property": "C44",
   "status": "proved",
   "theorems": [
    "Verif.Semconv.reload_resolved",
    "Verif.Semconv.reload_resolved_same",
    "Verif.Semconv.write_complete",
    "Verif.Semconv.write_injective",
    "Verif.Semconv.readSource_ok",
    "Verif.Semconv.reload_equal_refuted"
   ],
   "note": "All deprecations. Equality as values is false (reload_equal_refuted: a rename without a note comes back with the inferred note), what is shown and written is equal."
  },
  {
   "property": "C45",
   "status": "proved",
   "theorems": [
    "Verif.V2.refs_kept",
    "Verif.V2.span_refs_kept",
    "Verif.V2.entity_roles",
    "Verif.V2.entity_refinement_roles",
    "Verif.V2.nothing_lost",
    "Verif.V2.attributes_kept",
    "Verif.V2.entity_kept",
    "Verif.V2.event_kept",
    "Verif.V2.metric_kept",
    "Verif.V2.span_kept",
    "Verif.V2.internal_kept",
    "Verif.V2.open_kept",
    "Verif.V2.entity_refinement_kept",
    "Verif.V2.event_refinement_kept",
    "Verif.V2.metric_refinement_kept",
    "Verif.V2.span_refinement_kept",
    "Verif.V2.groups_count"
   ],
   "note": "All files. Types, examples, stabilities, levels and the like are opaque values the translation copies; YAML parsing is not modelled."
  },
  {
   "property": "C46",
   "status": "proved",
   "theorems": [
    "Verif.Values.inferType_iff",
    "Verif.Values.mistyped_iff",
    "Verif.Values.mistyped_enum_iff",
    "Verif.Values.emitted_accepted"
   ],
   "note": "All values and types."
  },
  {
   "property": "C47",
   "status": "proved",
   "theorems": [
    "Verif.Policy.data_addressed",
    "Verif.Policy.data_accepted",
    "Verif.Policy.data_determined",
    "Verif.Policy.data_legal",
    "Verif.Policy.data_subdirectory",
    "Verif.Policy.splitGlob_spec",
    "Verif.Policy.merge_has",
    "Verif.Policy.mergeAll_perm"
   ],
   "note": "The glob matcher, the JSON and YAML parsers and the depth of the library's merge are parameters."
  },
  {
   "property": "C48",
   "status": "proved",
   "theorems": [
    "Verif.Forge.attributeSplit_iff",
    "Verif.Forge.name_rejoined",
    "Verif.Forge.split_fails",
    "Verif.Forge.namespaceAfter_iff"
   ],
   "note": "All names."
  },
  {
   "property": "C49",
   "status": "proved",
   "theorems": [
    "Verif.Forge.bodyFields_mem",
    "Verif.Forge.bodyFields_once",
    "Verif.Forge.bodyFields_preorder"
   ],
   "note": "All bodies."
  },
  {
   "property": "C50",
   "status": "proved",
   "theorems": [
    "Verif.Forge.enumType_iff",
    "Verif.Forge.enumType_order"
   ],
   "note": "All values."
  },
  {
   "property": "C51",
   "status": "proved",
   "theorems": [
    "Verif.Common.hasError_iff",
    "Verif.Common.future_mode_fails_on_anything",
    "Verif.Common.normal_mode_fails_on_errors",
    "Verif.Common.isWarning_iff"
   ],
   "note": "Exit decision of the diagnostic collector."
  },
  {
   "property": "C52",
   "status": "proved",
   "theorems": [
    "Verif.Resolver.refinement_fields",
    "Verif.Resolver.refinement_identity_kept"
   ],
   "note": "Local parents; all registries with unique ids."
  },
  {
   "property": "C53",
   "status": "partial",
   "theorems": [
    "Verif.Resolver.yaml_order_total_partial",
    "Verif.Resolver.yaml_order_eq_partial",
    "Verif.Resolver.yaml_order_not_antisymmetric_refuted",
    "Verif.Resolver.yaml_order_inconsistent_refuted"
   ],
   "note": "Total on untagged values and antisymmetric on scalars; false for sequences, mappings and tagged values (witnesses). Numbers are integers in the model."
  },
  {
   "property": "C54",
   "status": "proved",
   "theorems": [
    "Verif.Resolver.refs_terminate",
    "Verif.Resolver.ref_resolves",
    "Verif.Resolver.unknown_ref_fails",
    "Verif.Resolver.refs_success_complete",
    "Verif.Resolver.ref_resolves_partial",
    "Verif.Resolver.refs_complete_partial",
    "Verif.Resolver.depLookup_best",
    "Verif.Resolver.depLookup_none_iff",
    "Verif.Resolver.depLookup_ambiguous",
    "Verif.Resolver.upgrade_uses_chosen",
    "Verif.Resolver.upgrade_never_older"
   ],
   "note": "All registries; ref_resolves_partial sharpens it for registries without prefix:true. Which of several definitions is used can depend on the file order (C04)."
  },
  {
   "property": "C55",
   "status": "partial",
   "theorems": [
    "Verif.Imports.unmatched_complete_partial",
    "Verif.Imports.unmatched_spurious_refuted",
    "Verif.Imports.unmatched_missed_refuted",
    "Verif.Imports.import_drops_definition_refuted",
    "Verif.Imports.upgrade_imports_excluded_refuted",
    "Verif.Imports.association_lost_on_upgrade_refuted"
   ],
   "note": "False in general, with a witness for each way it fails; the partial theorem gives conditions under which the first clause holds for v1 dependencies."
  },
  {
   "property": "C56",
   "status": "partial",
   "theorems": [
    "Verif.Semconv.reload_source_partial",
    "Verif.Semconv.reload_source_refuted"
   ],
   "note": "False for an unstructured deprecation: it is written with reason `unspecified`, which the source reader rejects."
  },
  {
   "property": "C57",
   "status": "partial",
   "theorems": [
    "Verif.Diff.deprecation_reported_partial",
    "Verif.Diff.withdrawn_unreported_refuted",
    "Verif.Diff.spurious_rename_refuted"
   ],
   "note": "False for withdrawn deprecations and for a rename whose note is written out in only one of the two."
  },
  {
   "property": "C58",
   "status": "partial",
   "theorems": [
    "Verif.Diff.v1_v2_agree_partial",
    "Verif.Diff.v1_v2_disagree_refuted"
   ],
   "note": "Holds without metric and event refinements; false with a deprecated refinement."
  },
  {
   "property": "C59",
   "status": "partial",
   "theorems": [
    "Verif.Versions.extend_agrees_partial",
    "Verif.Versions.parent_lost_refuted",
    "Verif.Versions.parent_twice_refuted"
   ],
   "note": "False: metric attribute renames and the section all are lost, and a name renamed twice gets the parent's last rename, where version_changes_for reports the first."
  },
  {
   "property": "C60",
   "status": "partial",
   "theorems": [
    "Verif.Versions.final_name_partial",
    "Verif.Versions.chain_refuted"
   ],
   "note": "False: chains of renames are not followed."
  },
  {
   "property": "C61",
   "status": "partial",
   "theorems": [
    "Verif.JsonDiff.canonical_partial",
    "Verif.JsonDiff.canonical_refuted"
   ],
   "note": "False for different numbers with the same float value, like 1 and 1.0; proved for all values without such a pair."
  },
  {
   "property": "C62",
   "status": "partial",
   "theorems": [
    "Verif.LiveCheck.entity_template_partial",
    "Verif.LiveCheck.entity_template_refuted"
   ],
   "note": "False for templates, proved for entities without."
  },
  {
   "property": "C63",
   "status": "partial",
   "theorems": [
    "Verif.LiveCheck.missing_point",
    "Verif.LiveCheck.missing_log",
    "Verif.LiveCheck.exponential_missing_refuted",
    "Verif.LiveCheck.span_missing_refuted"
   ],
   "note": "False: exponential histogram data points, spans, span events and links are never checked; number and histogram data points and logs are."
  },
  {
   "property": "C64",
   "status": "partial",
   "theorems": [
    "Verif.LiveCheck.exported_findings_partial",
    "Verif.LiveCheck.exported_findings_modified_partial",
    "Verif.LiveCheck.exported_findings_refuted"
   ],
   "note": "False with rules: findings are exported before they apply. Without rules true."
  },
  {
   "property": "C65",
   "status": "proved",
   "theorems": [
    "Verif.LiveCheck.coverage_counts",
    "Verif.LiveCheck.coverage_ratio"
   ],
   "note": "All runs with statistics; the coverage is kept as a fraction, its rounding to a float is not modelled. The name an attribute counts as is that of C67."
  },
  {
   "property": "C66",
   "status": "partial",
   "theorems": [
    "Verif.LiveCheck.signal_definition_partial",
    "Verif.LiveCheck.signal_definition_refuted",
    "Verif.LiveCheck.template_boundary_refuted",
    "Verif.LiveCheck.attribute_definition"
   ],
   "note": "False: the registry-wide last definition is used, and any name that starts with a template's name matches it. True if all definitions of the name are the same."
  },
  {
   "property": "C67",
   "status": "partial",
   "theorems": [
    "Verif.LiveCheck.coverage_filters_partial",
    "Verif.LiveCheck.coverage_filters_refuted"
   ],
   "note": "False: a filter for findings about templates changes the coverage. True for rules that keep these findings."
  },
  {
   "property": "C68",
   "status": "proved",
   "theorems": [
    "Verif.Search.lookups",
    "Verif.Search.find_template"
   ],
   "note": "All registries and names."
  },
  {
   "property": "C69",
   "status": "partial",
   "theorems": [
    "Verif.Search.hits_fetched",
    "Verif.Search.mcp_fetched_partial",
    "Verif.Search.mcp_fetched_refuted"
   ],
   "note": "True for HTTP (names are not repeated and do not start with a slash). False for MCP: template attributes are found but cannot be fetched."
  },
  {
   "property": "C70",
   "status": "partial",
   "theorems": [
    "Verif.LiveCheck.compact_sound",
    "Verif.LiveCheck.compact_complete_partial",
    "Verif.LiveCheck.compact_output_refuted",
    "Verif.LiveCheck.compact_points_refuted",
    "Verif.LiveCheck.mcpCheck_spec"
   ],
   "note": "False: findings about logs, data points, exemplars and their attributes, among others, are left out. Nothing is invented; true for the samples named in compact_complete_partial."
  },
  {
   "property": "C71",
   "status": "partial",
   "theorems": [
    "Verif.Search.browse_down_partial",
    "Verif.Search.browse_down_refuted"
   ],
   "note": "False for keys with an empty segment such as a..b. True for all other keys."
  },
  {
   "property": "C72",
   "status": "proved",
   "theorems": [
    "Verif.Markdown.file_kept",
    "Verif.Markdown.file_updated",
    "Verif.Markdown.files_independent",
    "Verif.Markdown.crlf_lines"
   ],
   "note": "Failures of the write itself are not modelled."
  },
  {
   "property": "C73",
   "status": "partial",
   "theorems": [
    "Verif.Markdown.dry_run_verdict_partial",
    "Verif.Markdown.dry_run_verdict_refuted"
   ],
   "note": "False: line ends are normalised before the comparison. True for files without \\r\\n."
  },
  {
   "property": "C74",
   "status": "partial",
   "theorems": [
    "Verif.Markdown.unclosed_partial",
    "Verif.Markdown.unclosed_refuted"
   ],
   "note": "False: everything after a directive without its end marker is deleted, without an error. True if every snippet is closed."
  },
  {
   "property": "C75",
   "status": "partial",
   "theorems": [
    "Verif.Markdown.update_idempotent",
    "Verif.Markdown.marker_text_refuted"
   ],
   "note": "False if a generated text contains the end marker; true otherwise."
  },
  {
   "property": "C76",
   "status": "partial",
   "theorems": [
    "Verif.Markdown.semconvHeader_iff",
    "Verif.Markdown.weaverHeader_iff",
    "Verif.Markdown.semconv_word",
    "Verif.Markdown.other_words_partial",
    "Verif.Markdown.other_words_refuted"
   ],
   "note": "False: `<!-- weavers -->` is a directive too. The accepted lines are characterised exactly."
  },
  {
   "property": "C77",
   "status": "partial",
   "theorems": [
    "Verif.Markdown.tag_filters_partial",
    "Verif.Markdown.tag_filters_refuted"
   ],
   "note": "False: only the first tag is used. True for directives with at most one tag."
  },
  {
   "property": "C78",
   "status": "proved",
   "theorems": [
    "Verif.Markdown.lookup_iff"
   ],
   "note": "All ids."
  },
  {
   "property": "C79",
   "status": "partial",
   "theorems": [
    "Verif.Infer.infer_deterministic_partial",
    "Verif.Infer.infer_deterministic_refuted"
   ],
   "note": "False if two places of the same rank describe an attribute differently; true if all places agree."
  },
  {
   "property": "C80",
   "status": "partial",
   "theorems": [
    "Verif.Infer.examples_conform_partial",
    "Verif.Infer.examples_conform_refuted"
   ],
   "note": "False for an attribute sampled first with an array and later with a scalar; true if all its values have one type."
  },
  {
   "property": "C81",
   "status": "partial",
   "theorems": [
    "Verif.Values.mistyped_iff",
    "Verif.Values.mistyped_enum_iff",
    "Verif.Values.untyped_refuted"
   ],
   "note": "False for values without a type: objects, mixed or empty arrays. Exact otherwise."
  },
  {
   "property": "C82",
   "status": "partial",
   "theorems": [
    "Verif.Values.emitted_enum_partial",
    "Verif.Values.emitted_enum_refuted"
   ],
   "note": "False: emit panics for an enum without members, and members that are doubles or booleans are reported. True if the first member is a string or an integer."
  },
  {
   "property": "C83",
   "status": "partial",
   "theorems": [
    "Verif.Values.accepted_iff",
    "Verif.Values.natural_examples_refuted"
   ],
   "note": "False: an empty list is an error for strings, and an integer for doubles. What is accepted is characterised exactly."
  },
  {
   "property": "C84",
   "status": "partial",
   "theorems": [
    "Verif.Validate.values_checked_partial",
    "Verif.Validate.values_checked_refuted"
   ],
   "note": "False: the fields of arrays of maps are not visited. True for bodies without arrays of maps."
  },
  {
   "property": "C85",
   "status": "proved",
   "theorems": [
    "Verif.Validate.readFile_iff",
    "Verif.Validate.readFile_other",
    "Verif.Validate.acceptableV2_iff",
    "Verif.Validate.rejectedV2",
    "Verif.Validate.warnedV2"
   ],
   "note": "All documents; the deserializers of the two formats are parameters."
  },
  {
   "property": "C86",
   "status": "partial",
   "theorems": [
    "Verif.Validate.declared_format_partial",
    "Verif.Validate.declared_format_refuted"
   ],
   "note": "False: a numeric version is ignored, and format 2 wins over a contradicting field. True if at most one of the fields is given and it is a text."
  },
  {
   "property": "C87",
   "status": "partial",
   "theorems": [
    "Verif.Forge.attributeSort_valid_partial",
    "Verif.Forge.attributeSort_valid_refuted"
   ],
   "note": "False: opt_in with a text is valid in the schema and fails here. True for the other levels."
  },
  {
   "property": "C88",
   "status": "partial",
   "theorems": [
    "Verif.Forge.names_distinct_partial",
    "Verif.Forge.names_distinct_refuted"
   ],
   "note": "False: x and other.x. True for names with a dot."
  },
  {
   "property": "C89",
   "status": "partial",
   "theorems": [
    "Verif.Forge.enumType_declared_partial",
    "Verif.Forge.enumType_declared_refuted"
   ],
   "note": "False for booleans, and for doubles without fractional part, which give int. True for strings, integers and doubles with a fractional part."
  },
  {
   "property": "C90",
   "status": "partial",
   "theorems": [
    "Verif.Forge.instantiatedType_simple_partial",
    "Verif.Forge.instantiatedType_enum_partial",
    "Verif.Forge.instantiatedType_any_refuted"
   ],
   "note": "False for any and template[any]. True for the other simple types, their templates and enums."
  },
  {
   "property": "C91",
   "status": "partial",
   "theorems": [
    "Verif.Forge.promNames_all_legal_partial",
    "Verif.Forge.promNames_all_legal_refuted"
   ],
   "note": "False: alphanumeric characters outside ASCII are kept. Every other character is legal, and no digit comes first."
  },
  {
   "property": "C92",
   "status": "partial",
   "theorems": [
    "Verif.Forge.rates_translated_partial",
    "Verif.Forge.rates_translated_refuted"
   ],
   "note": "False: min is not a known divisor, and m is a minute as a divisor but a meter otherwise. True for divisors in the table of divisors."
  },
  {
   "property": "C93",
   "status": "partial",
   "theorems": [
    "Verif.Forge.blank_lines_kept_partial",
    "Verif.Forge.blank_lines_kept_refuted"
   ],
   "note": "False: leading empty lines are lost without header and prefix. True with a prefix."
  },
  {
   "property": "C94",
   "status": "partial",
   "theorems": [
    "Verif.Forge.comment_limit_partial",
    "Verif.Forge.comment_limit_refuted"
   ],
   "note": "False: the line length is reduced by indentation and prefix without checking that it is larger. True if it is."
  },
  {
   "property": "C95",
   "status": "proved",
   "theorems": [
    "Verif.Forge.concatIf_iff",
    "Verif.Forge.flattenVal_iff",
    "Verif.Forge.splitId_join"
   ],
   "note": "All inputs."
  },
  {
   "property": "C96",
   "status": "proved",
   "theorems": [
    "Verif.Forge.acronym_iff",
    "Verif.Forge.acronym_idem",
    "Verif.Forge.tokens_runs",
    "Verif.Forge.runs_unique"
   ],
   "note": "All texts. Word characters, white space and lower-casing are parameters."
  },
  {
   "property": "C97",
   "status": "proved",
   "theorems": [
    "Verif.Forge.escapeYaml_safe"
   ],
   "note": "All texts; the YAML writer is a parameter."
  },
  {
   "property": "C98",
   "status": "partial",
   "theorems": [
    "Verif.Forge.escapeYaml_lossless_partial",
    "Verif.Forge.escapeYaml_lossless_refuted"
   ],
   "note": "False: the text with the escape sequence written out and the one with the character give the same output. True for texts without backslash."
  },
  {
   "property": "C99",
   "status": "proved",
   "theorems": [
    "Verif.Forge.typeMapping_iff",
    "Verif.Forge.mapText_iff"
   ],
   "note": "All configurations."
  },
  {
   "property": "C100",
   "status": "partial",
   "theorems": [
    "Verif.Fs.allFiles_mem",
    "Verif.Fs.listed_loaded_partial",
    "Verif.Fs.listed_loaded_refuted"
   ],
   "note": "False in general: a link to a file outside the directory is listed and cannot be loaded. Proved for real files."
  },
  {
   "property": "C101",
   "status": "partial",
   "theorems": [
    "Verif.Fs.output_confined_partial",
    "Verif.Fs.output_confined_refuted"
   ],
   "note": "False in general: names with .. or absolute names leave the output directory. Proved for names made of plain components."
  },
  {
   "property": "C102",
   "status": "partial",
   "theorems": [
    "Verif.Fs.embeddedFiles_mem",
    "Verif.Fs.embedded_listed_partial",
    "Verif.Fs.embedded_listed_refuted"
   ],
   "note": "False in general: files in folders are listed by a name without the folder. Proved for files at the top."
  },
  {
   "property": "C103",
   "status": "partial",
   "theorems": [
    "Verif.Fs.builtin_default_partial",
    "Verif.Fs.builtin_default_refuted"
   ],
   "note": "False in general: an entry with the target's name in the working directory gives an error. Proved otherwise."
  },
  {
   "property": "C104",
   "status": "partial",
   "theorems": [
    "Verif.Fs.load_race_partial",
    "Verif.Fs.load_race_refuted"
   ],
   "note": "False in general: the check and the read are separate steps. Proved if nothing changes in between."
  },
  {
   "property": "C105",
   "status": "partial",
   "theorems": [
    "Verif.Gen.parents_read_partial",
    "Verif.Gen.parents_read_refuted"
   ],
   "note": "False for relative paths, which end at the working directory. Proved for absolute ones."
  },
  {
   "property": "C106",
   "status": "partial",
   "theorems": [
    "Verif.Gen.project_acronyms_partial",
    "Verif.Gen.project_acronyms_refuted",
    "Verif.Gen.acronym_spelling"
   ],
   "note": "False if the package spells one acronym in two ways. Proved otherwise."
  },
  {
   "property": "C107",
   "status": "partial",
   "theorems": [
    "Verif.Gen.null_removes_partial",
    "Verif.Gen.null_removes_refuted"
   ],
   "note": "False for template and command line parameters, where null stays a defined value. Proved for configuration files."
  },
  {
   "property": "C108",
   "status": "proved",
   "theorems": [
    "Verif.Gen.templateParams_get",
    "Verif.Gen.cliParams_get",
    "Verif.Gen.initParams_get",
    "Verif.Gen.snippetParams_get",
    "Verif.Gen.project_textMaps",
    "Verif.Gen.project_none"
   ],
   "note": "All parameter maps."
  },
  {
   "property": "C109",
   "status": "proved",
   "theorems": [
    "Verif.Gen.jobs_iff",
    "Verif.Gen.when_iff",
    "Verif.Gen.bundle_iff",
    "Verif.Gen.asked_iff",
    "Verif.Gen.valid_iff",
    "Verif.Gen.render_iff"
   ],
   "note": "All configurations; glob, jq and Jinja are parameters."
  },
  {
   "property": "C110",
   "status": "partial",
   "theorems": [
    "Verif.Gen.schedule_partial",
    "Verif.Gen.schedule_refuted"
   ],
   "note": "False if two jobs write to the same file. Proved if no output is at, above or below another."
  },
  {
   "property": "C111",
   "status": "proved",
   "theorems": [
    "Verif.Gen.stdout_texts"
   ],
   "note": "All schedules."
  },
  {
   "property": "C112",
   "status": "proved",
   "theorems": [
    "Verif.Gen.toString_iff",
    "Verif.Gen.toString_texts"
   ],
   "note": "All configurations."
  },
  {
   "property": "C113",
   "status": "partial",
   "theorems": [
    "Verif.Gen.default_distinct_partial",
    "Verif.Gen.default_distinct_refuted"
   ],
   "note": "False for equal names in different folders. Proved for different names that end with .j2 once."
  },
  {
   "property": "C114",
   "status": "proved",
   "theorems": [
    "Verif.Gen.others_written",
    "Verif.Gen.only_named",
    "Verif.Gen.succeeds_iff"
   ],
   "note": "All schedules."
  },
  {
   "property": "C115",
   "status": "proved",
   "theorems": [
    "Verif.Gen.mute_iff",
    "Verif.Gen.builtin_iff",
    "Verif.Gen.template_iff",
    "Verif.Gen.contentType_iff",
    "Verif.Gen.ofDir_mute_iff"
   ],
   "note": "All names and directories."
  },
  {
   "property": "C116",
   "status": "proved",
   "theorems": [
    "Verif.Gen.history_file",
    "Verif.Gen.jsonl_lines",
    "Verif.Gen.history_stdout"
   ],
   "note": "All histories; that compact JSON has no line breaks is a hypothesis on the serializer."
  },
  {
   "property": "C117",
   "status": "proved",
   "theorems": [
    "Verif.Gen.output_place",
    "Verif.Gen.mute_nothing"
   ],
   "note": "All kinds of output."
  },
  {
   "property": "C118",
   "status": "partial",
   "theorems": [
    "Verif.Gen.stdout_order_partial",
    "Verif.Gen.stdout_order_refuted"
   ],
   "note": "False for two different texts."
  },
  {
   "property": "C119",
   "status": "partial",
   "theorems": [
    "Verif.Gen.all_or_nothing_partial",
    "Verif.Gen.all_or_nothing_refuted"
   ],
   "note": "False: the other files are written. Proved if nothing can be rendered."
  },
  {
   "property": "C120",
   "status": "partial",
   "theorems": [
    "Verif.Gen.file_document_partial",
    "Verif.Gen.file_document_refuted"
   ],
   "note": "False for two calls, which are concatenated. Proved for one."
  },
  {
   "property": "C121",
   "status": "partial",
   "theorems": [
    "Verif.Gen.failure_keeps_partial",
    "Verif.Gen.failure_keeps_refuted"
   ],
   "note": "False for the first call, which empties the file before serializing. Proved for later calls and streams."
  },
  {
   "property": "C122",
   "status": "partial",
   "theorems": [
    "Verif.Common.nothing_lost_partial",
    "Verif.Common.nothing_lost_refuted"
   ],
   "note": "False for git@host:path, of which only git is kept. Proved for texts without the separators in other places."
  },
  {
   "property": "C123",
   "status": "partial",
   "theorems": [
    "Verif.Common.print_stable_partial",
    "Verif.Common.print_stable_refuted"
   ],
   "note": "False for sub folders or references that contain separators or make the text look like another kind."
  },
  {
   "property": "C124",
   "status": "proved",
   "theorems": [
    "Verif.Cli.discover_nearest",
    "Verif.Cli.discover_none",
    "Verif.Cli.resolveConfig_iff"
   ],
   "note": "All directories."
  },
  {
   "property": "C125",
   "status": "partial",
   "theorems": [
    "Verif.Cli.file_path_used_partial",
    "Verif.Cli.file_used_refuted",
    "Verif.Cli.section_used_refuted"
   ],
   "note": "False: a registry path that cannot be parsed is replaced by the default one, and one setting of the wrong type makes the whole section of the command have no effect, without an error. Proved for registry paths that can be parsed."
  },
  {
   "property": "C126",
   "status": "proved",
   "theorems": [
    "Verif.Schema.manifest_iff",
    "Verif.Schema.parseDep_iff",
    "Verif.Schema.deps_iff",
    "Verif.Schema.readPath_iff"
   ],
   "note": "All manifests. YAML parsing is not modelled."
  },
  {
   "property": "C127",
   "status": "proved",
   "theorems": [
    "Verif.Schema.publish_iff",
    "Verif.Schema.publish_roundtrip",
    "Verif.Schema.named_not_published"
   ],
   "note": "All accepted manifests."
  },
  {
   "property": "C128",
   "status": "partial",
   "theorems": [
    "Verif.Schema.fromFile_iff",
    "Verif.Schema.warnings_used_partial",
    "Verif.Schema.warnings_refuted"
   ],
   "note": "False: a version beside a schema URL is ignored silently. Proved: what is deprecated and used is reported exactly once."
  },
  {
   "property": "C129",
   "status": "partial",
   "theorems": [
    "Verif.Schema.name_version_partial",
    "Verif.Schema.name_version_refuted"
   ],
   "note": "False for http and https. Proved for plain URLs of the same scheme."
  },
  {
   "property": "C130",
   "status": "partial",
   "theorems": [
    "Verif.Schema.new_plain",
    "Verif.Schema.blank_before_refuted"
   ],
   "note": "False for URL parsers that strip the blank, as the crate url does."
  },
  {
   "property": "C131",
   "status": "partial",
   "theorems": [
    "Verif.V2.ids_eq",
    "Verif.V2.ids_distinct_partial",
    "Verif.V2.ids_distinct_refuted"
   ],
   "note": "False: the event start and the attribute group event.start get the same id. Proved for ids of groups and refinements that start with no prefix of a signal."
  },
  {
   "property": "C132",
   "status": "partial",
   "theorems": [
    "Verif.V2.share_name_refuted"
   ],
   "note": "False: a span and an entity of the same name are reported. The proved theorem is the refutation."
  },
  {
   "property": "C133",
   "status": "partial",
   "theorems": [
    "Verif.V2.fileName_plain",
    "Verif.V2.fileName_inj_partial",
    "Verif.V2.fileName_inj_refuted",
    "Verif.V2.files_clash"
   ],
   "note": "False: db/redis.yaml and db.redis.yaml get the same name. Proved for plain names with the same extension."
  },
  {
   "property": "C134",
   "status": "proved",
   "theorems": [
    "Verif.Pipeline.resolved_registry_says",
    "Verif.Pipeline.resolved_attributes",
    "Verif.Pipeline.resolved_associations",
    "Verif.Pipeline.resolved_warnings"
   ],
   "note": "The whole of resolve_registry_with_dependencies, composed of the phases."
  },
  {
   "property": "C135",
   "status": "partial",
   "theorems": [
    "Verif.Resolver.invalid_refinement_never_reported",
    "Verif.Resolver.invalid_refinement_accepted_refuted"
   ],
   "note": "False: the error exists but is never reported; a metric refinement of an event is accepted."
  },
  {
   "property": "C136",
   "status": "partial",
   "theorems": [
    "Verif.Resolver.inherit_prefix_dropped_refuted",
    "Verif.Resolver.inherit_fields"
   ],
   "note": "False: the flag is dropped when the inherited attribute is a definition. True if no layer defines it (inherit_fields)."
  },
  {
   "property": "C137",
   "status": "partial",
   "theorems": [
    "Verif.Resolver.cleanup_keeps_unused_refuted",
    "Verif.Resolver.cleanup_catalog_exact"
   ],
   "note": "False for attributes of internal groups."
  },
  {
   "property": "C138",
   "status": "partial",
   "theorems": [
    "Verif.Resolver.conflict_order",
    "Verif.Resolver.conflict_order_refuted",
    "Verif.Resolver.resolver_choice_order_refuted",
    "Verif.Resolver.resolver_choice_partial"
   ],
   "note": "False for URLs of equal version and different text, and while resolving when majors differ. True otherwise."
  },
  {
   "property": "C139",
   "status": "partial",
   "theorems": [
    "Verif.Resolver.merge_assoc_refuted",
    "Verif.Resolver.merge_assoc_partial"
   ],
   "note": "False in general. Proved when the last value does not put a map where the middle one has something else."
  },
  {
   "property": "C140",
   "status": "partial",
   "theorems": [
    "Verif.Resolver.lineage_inherited_exact_partial",
    "Verif.Resolver.lineage_never_both_refuted",
    "Verif.Resolver.lineage_override_not_local_refuted",
    "Verif.Resolver.lineage_role_not_listed_refuted"
   ],
   "note": "False for overridden; inherited is exact."
  },
  {
   "property": "C141",
   "status": "partial",
   "theorems": [
    "Verif.Checks.internal_duplicates_unreported_refuted",
    "Verif.Checks.dup_group_id_published"
   ],
   "note": "False: internal groups are dropped before the check."
  },
  {
   "property": "C142",
   "status": "partial",
   "theorems": [
    "Verif.Loader.long_cycle_reported_as_depth_refuted",
    "Verif.Loader.cycle_reported"
   ],
   "note": "False for more than ten registries; true for shorter cycles."
  },
  {
   "property": "C143",
   "status": "proved",
   "theorems": [
    "Verif.Policy.engine_loaded",
    "Verif.Policy.policies_loaded",
    "Verif.Policy.policies_accepted",
    "Verif.Policy.policy_named",
    "Verif.Policy.policy_missing"
   ],
   "note": "The rego parser is a parameter."
  },
  {
   "property": "C144",
   "status": "proved",
   "theorems": [
    "Verif.Policy.decode_iff",
    "Verif.Policy.decode_other"
   ],
   "note": ""
  },
  {
   "property": "C145",
   "status": "proved",
   "theorems": [
    "Verif.Policy.finding_reported",
    "Verif.Policy.checkPolicy_schedule",
    "Verif.Policy.checkStage_file",
    "Verif.Policy.check_findings",
    "Verif.Policy.check_absent"
   ],
   "note": "The rego evaluator is a parameter."
  },
  {
   "property": "C146",
   "status": "proved",
   "theorems": [
    "Verif.Policy.check_reports",
    "Verif.Policy.check_passes",
    "Verif.Policy.exitCode_zero"
   ],
   "note": "Loading, resolving and preparing are parameters here; they are modelled elsewhere."
  },
  {
   "property": "C147",
   "status": "proved",
   "theorems": [
    "Verif.Policy.before_fails",
    "Verif.Policy.after_fails",
    "Verif.Policy.comparison_fails"
   ],
   "note": ""
  },
  {
   "property": "C148",
   "status": "partial",
   "theorems": [
    "Verif.Policy.findings_reported_refuted",
    "Verif.Policy.findings_reported_partial"
   ],
   "note": "False: lost if a later step fails; the command still fails."
  },
  {
   "property": "C149",
   "status": "partial",
   "theorems": [
    "Verif.Policy.information_passes_refuted",
    "Verif.Policy.information_passes_partial"
   ],
   "note": "False: every finding fails the check."
  },
  {
   "property": "C150",
   "status": "partial",
   "theorems": [
    "Verif.Policy.skipped_warned_refuted",
    "Verif.Policy.skipped_warned_partial"
   ],
   "note": "False for a registry that is already resolved; true with --v2."
  },
  {
   "property": "C151",
   "status": "partial",
   "theorems": [
    "Verif.Policy.missing_rejected_refuted",
    "Verif.Policy.missing_rejected_partial"
   ],
   "note": "False for a directory of advice policies; true for --policy."
  },
  {
   "property": "C152",
   "status": "partial",
   "theorems": [
    "Verif.Policy.directories_skipped_refuted",
    "Verif.Policy.directories_skipped_partial"
   ],
   "note": "False: a directory named x.rego makes loading fail."
  },
  {
   "property": "C153",
   "status": "partial",
   "theorems": [
    "Verif.Policy.findings_kept_refuted",
    "Verif.Policy.findings_kept_partial"
   ],
   "note": "False: only an error is reported then."
  },
  {
   "property": "C154",
   "status": "partial",
   "theorems": [
    "Verif.Policy.itself_loaded_refuted",
    "Verif.Policy.itself_loaded_partial"
   ],
   "note": "False for names with wildcards."
  },
  {
   "property": "C155",
   "status": "partial",
   "theorems": [
    "Verif.Policy.others_skipped_refuted",
    "Verif.Policy.others_skipped_partial"
   ],
   "note": "False: a file that is not text makes loading fail."
  },
  {
   "property": "C156",
   "status": "proved",
   "theorems": [
    "Verif.Definition.load_schedule"
   ],
   "note": "All inputs of the model; walks do not follow links."
  },
  {
   "property": "C157",
   "status": "partial",
   "theorems": [
    "Verif.Definition.load_complete_refuted",
    "Verif.Definition.load_complete_partial",
    "Verif.Definition.load_ok_iff",
    "Verif.Definition.load_not_ok",
    "Verif.Definition.load_missing",
    "Verif.Definition.hidden_empty"
   ],
   "note": "False for `.`, `..` and hidden directories, which load as empty; true for the other directories."
  },
  {
   "property": "C158",
   "status": "partial",
   "theorems": [
    "Verif.Definition.provenance_refuted",
    "Verif.Definition.provenance_partial",
    "Verif.Definition.provenance_local"
   ],
   "note": "False if the sub folder of a clone ends with a slash."
  },
  {
   "property": "C159",
   "status": "partial",
   "theorems": [
    "Verif.Definition.no_panic_refuted",
    "Verif.Definition.no_panic_partial",
    "Verif.Definition.file_panics",
    "Verif.Definition.manifest_registry_refuted",
    "Verif.Definition.manifest_choice"
   ],
   "note": "False if the registry path is a YAML file; true for directories."
  },
  {
   "property": "C160",
   "status": "proved",
   "theorems": [
    "Verif.Archive.zip_confined",
    "Verif.Archive.zip_escape_skipped"
   ],
   "note": ""
  },
  {
   "property": "C161",
   "status": "partial",
   "theorems": [
    "Verif.Archive.archive_confined_refuted",
    "Verif.Archive.archive_confined_partial"
   ],
   "note": "False for tar archives with `..` in a name; true for zip and for tar without."
  },
  {
   "property": "C162",
   "status": "proved",
   "theorems": [
    "Verif.Archive.unpack_whole"
   ],
   "note": "Archives of regular files and directories."
  },
  {
   "property": "C163",
   "status": "partial",
   "theorems": [
    "Verif.Archive.unpack_sub_refuted",
    "Verif.Archive.unpack_sub_partial",
    "Verif.Archive.sub_nested",
    "Verif.Archive.sub_blank"
   ],
   "note": "False for sub folders with a slash in them; true for one name, and for a blank one, which selects everything."
  },
  {
   "property": "C164",
   "status": "partial",
   "theorems": [
    "Verif.Archive.clone_confined_refuted",
    "Verif.Archive.clone_confined_partial"
   ],
   "note": "False for absolute sub folders and for `..`."
  },
  {
   "property": "C165",
   "status": "proved",
   "theorems": [
    "Verif.Engine.Lru.bounded",
    "Verif.Engine.Lru.answers_latest",
    "Verif.Engine.Lru.remembered",
    "Verif.Engine.Lru.refreshed",
    "Verif.Engine.Lru.forgotten"
   ],
   "note": "Every capacity and history. The LRU library is modelled by its documented behaviour."
  },
  {
   "property": "C166",
   "status": "proved",
   "theorems": [
    "Verif.Engine.engine_bounded",
    "Verif.Engine.request_url",
    "Verif.Engine.request_again",
    "Verif.Engine.load_then_request"
   ],
   "note": "Every history; fetching, parsing and the resolution of one registry are parameters, and may change between the steps."
  },
  {
   "property": "C167",
   "status": "partial",
   "theorems": [
    "Verif.Engine.dependency_url_partial",
    "Verif.Engine.dependency_url_refuted",
    "Verif.Engine.loaded_url_partial",
    "Verif.Engine.loaded_url_refuted"
   ],
   "note": "False for redirected dependencies and for published schemas; true otherwise."
  },
  {
   "property": "C168",
   "status": "partial",
   "theorems": [
    "Verif.Engine.dependencies_listed",
    "Verif.Engine.versions_given",
    "Verif.Engine.dependency_fails",
    "Verif.Engine.dependencies_complete_partial",
    "Verif.Engine.declared_listed_partial",
    "Verif.Engine.declared_listed_refuted"
   ],
   "note": "False if the place of a declared dependency holds another registry. True, in a new engine without redirections, of what is loaded, and of each declared dependency that is at its place."
  },
  {
   "property": "C169",
   "status": "partial",
   "theorems": [
    "Verif.Engine.messages_refuted",
    "Verif.Engine.messages_partial",
    "Verif.Engine.loading_messages"
   ],
   "note": "False: the messages of resolving a dependency are dropped. Proved: the messages of loading and of its own resolution are kept."
  },
  {
   "property": "C170",
   "status": "partial",
   "theorems": [
    "Verif.Engine.ends_refuted",
    "Verif.Engine.load_ends_partial",
    "Verif.Engine.request_ends_partial",
    "Verif.Engine.ranked_none"
   ],
   "note": "False for redirections that form a cycle. Proved without redirections, and for redirections with a rank."
  },
  {
   "property": "C171",
   "status": "partial",
   "theorems": [
    "Verif.Engine.redirected",
    "Verif.Engine.redirection_enough_refuted"
   ],
   "note": "False: the original registry is still loaded and must be available. Proved: it has no effect on what is resolved."
  },
  {
   "property": "C172",
   "status": "partial",
   "theorems": [
    "Verif.Engine.shown_refuted",
    "Verif.Engine.shown_ends_refuted",
    "Verif.Engine.shown_partial"
   ],
   "note": "False for published dependencies that list registries that cannot be fetched, or themselves. Proved for registries loaded from definitions, in a new engine, if all fit in the cache."
  },
  {
   "property": "C173",
   "status": "partial",
   "theorems": [
    "Verif.Engine.history_load_refuted",
    "Verif.Engine.history_request_refuted",
    "Verif.Engine.history_conflict_refuted",
    "Verif.Engine.request_again",
    "Verif.Engine.load_then_request"
   ],
   "note": "False in three ways. Proved: an answered request is answered the same way the next time."
  },
  {
   "property": "C174",
   "status": "partial",
   "theorems": [
    "Verif.Engine.request_loads_refuted",
    "Verif.Engine.request_loads_partial"
   ],
   "note": "False for registries without a manifest at an http URL. Proved for definition registries with a manifest."
  },
  {
   "property": "C175",
   "status": "partial",
   "theorems": [
    "Verif.Archive.unpack_dot_partial",
    "Verif.Archive.unpack_dot_refuted",
    "Verif.Archive.unpack_top_refuted"
   ],
   "note": "False for zip; true for tar."
  },
  {
   "property": "C176",
   "status": "partial",
   "theorems": [
    "Verif.Chain.attribute_of_chain_partial",
    "Verif.Chain.attribute_of_chain_refuted",
    "Verif.Chain.attribute_of_mixed_refuted"
   ],
   "note": "False with imports, and for groups with both extends and include_groups. True of all other chains."
  },
  {
   "property": "C177",
   "status": "partial",
   "theorems": [
    "Verif.Chain.origin_of_chain_partial",
    "Verif.Chain.origin_of_chain_refuted"
   ],
   "note": "False if two versions of a registry are around. True of chains without imports and with one version of each registry."
  },
  {
   "property": "C178",
   "status": "partial",
   "theorems": [
    "Verif.Chain.own_definition_partial",
    "Verif.Chain.own_definition_refuted"
   ],
   "note": "False if the registry imports a signal with an attribute of that name. True without imports."
  },
  {
   "property": "C179",
   "status": "proved",
   "theorems": [
    "Verif.Chain.only_mentioned",
    "Verif.Chain.all_referred"
   ],
   "note": ""
  },
  {
   "property": "C180",
   "status": "proved",
   "theorems": [
    "Verif.Chain.refining_files",
    "Verif.Chain.refining_published"
   ],
   "note": ""
  },
  {
   "property": "C181",
   "status": "proved",
   "theorems": [
    "Verif.Chain.imported_of_chain"
   ],
   "note": "One version of each registry in the chain; without this see C183. The requirement level of published signals is C184."
  },
  {
   "property": "C182",
   "status": "proved",
   "theorems": [
    "Verif.Chain.named_group_imported",
    "Verif.Chain.named_signal_imported",
    "Verif.Chain.imported_is_named"
   ],
   "note": "Which of several groups for one signal is kept is C08."
  },
  {
   "property": "C183",
   "status": "partial",
   "theorems": [
    "Verif.Chain.imported_of_chain",
    "Verif.Chain.imported_of_chain_refuted"
   ],
   "note": "False next to a newer version of the registry that declares the attribute; true if only one version of each registry is around."
  },
  {
   "property": "C184",
   "status": "partial",
   "theorems": [
    "Verif.Chain.imported_level_partial",
    "Verif.Chain.imported_level_refuted"
   ],
   "note": "False for signals of published schemas; true of chains of files."
  },
  {
   "property": "C185",
   "status": "partial",
   "theorems": [
    "Verif.Chain.refining_published",
    "Verif.Chain.refining_published_refuted"
   ],
   "note": "False if an entity of the schema goes by the id `metric.` and the name of the metric; true if nothing else goes by that id."
  },
  {
   "property": "C186",
   "status": "proved",
   "theorems": [
    "Verif.Receiver.checked_in_order",
    "Verif.Receiver.confirmed_sent"
   ],
   "note": "About all interleavings of the tasks of the receiver, for every size of the queue."
  },
  {
   "property": "C187",
   "status": "partial",
   "theorems": [
    "Verif.Receiver.confirmed_checked_partial",
    "Verif.Receiver.confirmed_checked_refuted"
   ],
   "note": "Requests confirmed before the stop are checked. False for those confirmed between the stop and the end of the loop."
  },
  {
   "property": "C188",
   "status": "partial",
   "theorems": [
    "Verif.Receiver.report_once",
    "Verif.Receiver.report_arrives_partial",
    "Verif.Receiver.report_arrives_refuted"
   ],
   "note": "Never twice. False if the /stop request times out while the report is made: then nobody gets it. True if no /stop request times out or is given up."
  },
  {
   "property": "C189",
   "status": "partial",
   "theorems": [
    "Verif.Receiver.ends_partial",
    "Verif.Receiver.ends_refuted"
   ],
   "note": "False if the client of a /stop request goes away with `--output http`: then only another /stop request ends the command. True if they stay."
  },
  {
   "property": "C190",
   "status": "partial",
   "theorems": [
    "Verif.Receiver.stop_answers_partial",
    "Verif.Receiver.stop_answers_refuted",
    "Verif.Receiver.stop_twice_refuted"
   ],
   "note": "False for a /stop request before the command is ready for it, and for one after which another one comes."
  },
  {
   "property": "C191",
   "status": "proved",
   "theorems": [
    "Verif.Receiver.failure_as_stop"
   ],
   "note": "A failure can be replaced by a signal without a visible difference; with C186 to C189 this says what happens then."
  },
  {
   "property": "C192",
   "status": "partial",
   "theorems": [
    "Verif.Receiver.failure_seen_refuted",
    "Verif.Receiver.admin_port_taken"
   ],
   "note": "False: a failure looks like a stop; with the admin port taken an empty report is printed and the command succeeds."
  },
  {
   "property": "C193",
   "status": "proved",
   "theorems": [
    "Verif.Receiver.Timer.not_while_active",
    "Verif.Receiver.Timer.stops_soon",
    "Verif.Receiver.Timer.stops"
   ],
   "note": "Times are natural numbers; the timer wakes up late by any amount."
  },
  {
   "property": "C194",
   "status": "partial",
   "theorems": [
    "Verif.Receiver.Timer.stops_in_time_refuted",
    "Verif.Receiver.Timer.stops_soon"
   ],
   "note": "False: it may take almost twice the timeout (`stops_soon`: not more)."
  },
  {
   "property": "C195",
   "status": "proved",
   "theorems": [
    "Verif.Receiver.Ingest.signals_checked",
    "Verif.Receiver.Ingest.signals_say",
    "Verif.Receiver.Ingest.context_checked"
   ],
   "note": "Values that are neither scalars nor arrays of scalars: see C197."
  },
  {
   "property": "C196",
   "status": "partial",
   "theorems": [
    "Verif.Receiver.Ingest.own_resource_partial",
    "Verif.Receiver.Ingest.own_resource_refuted"
   ],
   "note": "False for signals without a resource: they are checked with the resource of an earlier one. True if every signal has one."
  },
  {
   "property": "C197",
   "status": "partial",
   "theorems": [
    "Verif.Receiver.Ingest.type_of_sent_partial",
    "Verif.Receiver.Ingest.type_of_sent_refuted",
    "Verif.Receiver.Ingest.wrong_type_partial",
    "Verif.Receiver.Ingest.wrong_type_refuted"
   ],
   "note": "False for arrays with byte strings or maps in them (these are left out), and byte strings, maps and mixed arrays are never reported. True for the others."
  },
  {
   "property": "C198",
   "status": "partial",
   "theorems": [
    "Verif.Receiver.Ingest.profile_attrs_partial",
    "Verif.Receiver.Ingest.profile_attrs_only",
    "Verif.Receiver.Ingest.profile_attrs_refuted"
   ],
   "note": "False if the dictionary is missing or an index is out of range: dropped silently. True if all are in the dictionary."
  },
  {
   "property": "C199",
   "status": "partial",
   "theorems": [
    "Verif.Render.Html.html_keeps_text_partial",
    "Verif.Render.Html.html_rendered",
    "Verif.Render.Html.unsupported_refuted",
    "Verif.Render.Html.hard_break_refuted",
    "Verif.Render.Html.inline_html_refuted",
    "Verif.Render.Html.tab_refuted",
    "Verif.Render.Html.item_paragraphs_refuted"
   ],
   "note": "False for hard breaks, nodes that are not supported, items with two paragraphs, and HTML or tabs when words are wrapped; true of the other trees."
  },
  {
   "property": "C200",
   "status": "partial",
   "theorems": [
    "Verif.Render.Html.dot_follows_refuted",
    "Verif.Render.Html.unwrapped_exact_partial",
    "Verif.Render.text_words_partial"
   ],
   "note": "False: lines may break between pieces that are not separated, such as code and the dot after it. True without a line length (unwrapped_exact_partial) and for each text by itself (text_words_partial)."
  },
  {
   "property": "C201",
   "status": "partial",
   "theorems": [
    "Verif.Render.Html.line_limit_partial",
    "Verif.Render.Html.line_limit_refuted",
    "Verif.Render.Html.line_limit_html_refuted"
   ],
   "note": "False: the space before a word is not counted, so a line may be one longer; HTML is not counted. True with the limit and one more, or the longest piece."
  },
  {
   "property": "C202",
   "status": "partial",
   "theorems": [
    "Verif.Render.Html.tags_partial",
    "Verif.Render.Html.tags_refuted"
   ],
   "note": "False for texts with angle brackets, which are not escaped. True without them."
  },
  {
   "property": "C203",
   "status": "proved",
   "theorems": [
    "Verif.Render.Html.newlines_ignored"
   ],
   "note": ""
  },
  {
   "property": "C204",
   "status": "partial",
   "theorems": [
    "Verif.Render.Md.md_keeps_partial",
    "Verif.Render.Md.unsupported_refuted",
    "Verif.Render.Md.hard_break_refuted",
    "Verif.Render.Md.quote_refuted",
    "Verif.Render.Md.item_paragraphs_refuted",
    "Verif.Render.Md.item_code_refuted"
   ],
   "note": "False for quotes, hard breaks, nodes that are not supported, and items in which something but a list comes after a paragraph; true of the trees without these (and without HTML blocks)."
  },
  {
   "property": "C205",
   "status": "partial",
   "theorems": [
    "Verif.Render.Md.numbers_partial",
    "Verif.Render.Md.md_keeps_partial",
    "Verif.Render.Md.start_refuted",
    "Verif.Render.Md.nested_refuted",
    "Verif.Render.Md.nested_bullets_refuted",
    "Verif.Render.Md.listIndent_nested"
   ],
   "note": "False for lists that do not start with one, and for numbered lists in lists; true of the others."
  },
  {
   "property": "C206",
   "status": "partial",
   "theorems": [
    "Verif.Render.Md.references_partial",
    "Verif.Render.Md.definitions_partial",
    "Verif.Render.Md.label_refuted"
   ],
   "note": "False for labels with emphasis if lines have a limit; true otherwise."
  },
  {
   "property": "C207",
   "status": "partial",
   "theorems": [
    "Verif.Render.Md.escape_reads",
    "Verif.Render.Md.escape_brackets",
    "Verif.Render.Md.escape_plain",
    "Verif.Render.Md.reads_back_refuted",
    "Verif.Render.Md.reads_back_default_refuted"
   ],
   "note": "The stated claims are proved. Missing: without escape_backslashes a text with a backslash is not read as it was (refuted)."
  },
  {
   "property": "C208",
   "status": "partial",
   "theorems": [
    "Verif.View.signals_shown",
    "Verif.View.order_unseen_partial",
    "Verif.View.group_order_refuted"
   ],
   "note": "Contents are proved. Missing: attribute groups are not ordered, so their order in the schema shows (refuted)."
  },
  {
   "property": "C209",
   "status": "partial",
   "theorems": [
    "Verif.View.dangling_reported_partial",
    "Verif.View.dangling_attribute_refuted"
   ],
   "note": "Proved for the references of signals, refinements and attribute groups. Missing: dangling references of the list of attributes of the registry are dropped without an error (refuted)."
  },
  {
   "property": "C210",
   "status": "proved",
   "theorems": [
    "Verif.View.resolved_shown",
    "Verif.View.groups_seen",
    "Verif.View.attributes_seen"
   ],
   "note": ""
  },
  {
   "property": "C211",
   "status": "proved",
   "theorems": [
    "Verif.View.defined_entity",
    "Verif.View.local_entities_found",
    "Verif.View.foreign_entities_found",
    "Verif.View.unknown_source"
   ],
   "note": "For a source the dependency must have been resolved from a schema of the first format."
  },
  {
   "property": "C212",
   "status": "proved",
   "theorems": [
    "Verif.View.dependencies_shown"
   ],
   "note": "The depth is bounded by fuel; the statement is about views that were made."
  },
  {
   "property": "C213",
   "status": "proved",
   "theorems": [
    "Verif.View.groups_shown"
   ],
   "note": ""
  },
  {
   "property": "C214",
   "status": "partial",
   "theorems": [
    "Verif.Stats.stats2_partial",
    "Verif.Stats.attributes_add_up",
    "Verif.Stats.groups_uncounted_refuted"
   ],
   "note": "Proved for attributes, metrics, spans, events and entities. Missing: stability, deprecation and notes of attribute groups are not counted (refuted)."
  },
  {
   "property": "C215",
   "status": "proved",
   "theorems": [
    "Verif.Stats.stats1_spec",
    "Verif.Stats.stats1_panics",
    "Verif.Stats.convertible_stats",
    "Verif.Stats.catalog_stats"
   ],
   "note": "`total_with_prefix` is not modelled."
  },
  {
   "property": "C216",
   "status": "proved",
   "theorems": [
    "Verif.Emit.emit_v1",
    "Verif.Emit.emit_v2",
    "Verif.Emit.emit_fails"
   ],
   "note": "The calls to the SDK are modelled, not the SDK."
  },
  {
   "property": "C217",
   "status": "partial",
   "theorems": [
    "Verif.Emit.examples_partial",
    "Verif.Emit.examples_refuted"
   ],
   "note": "Missing: booleans and arrays of booleans (examples are ignored) and doubles with integer examples (the value is made up); refuted there."
  },
  {
   "property": "C218",
   "status": "partial",
   "theorems": [
    "Verif.Emit.round_trip_partial",
    "Verif.Emit.root_violation",
    "Verif.Emit.round_trip_refuted"
   ],
   "note": "Missing: the attribute of the span around the others is always reported as missing unless the registry defines it (proved), so are attributes of the resource; and unnamed events of the first format are reported (refuted). Proved otherwise for registries that say one thing under each name, have nothing deprecated, policies that find no violation, and a resource that has what entities require."
  },
  {
   "property": "C219",
   "status": "proved",
   "theorems": [
    "Verif.Emit.round_trip_signals",
    "Verif.Emit.round_trip_attributes"
   ],
   "note": "The behaviour of the OpenTelemetry SDK (it sends what it is given) is trusted."
  },
  {
   "property": "C220",
   "status": "proved",
   "theorems": [
    "Verif.Samples.reads_iff",
    "Verif.Samples.text_file",
    "Verif.Samples.text_stdin",
    "Verif.Samples.text_agree",
    "Verif.Samples.text_report"
   ],
   "note": "Reading errors of standard input end it, as in the code."
  },
  {
   "property": "C221",
   "status": "partial",
   "theorems": [
    "Verif.Samples.context_kept_partial",
    "Verif.Samples.context_kept_refuted",
    "Verif.Samples.context_keys_partial",
    "Verif.Samples.context_keys_refuted",
    "Verif.Samples.any_iff"
   ],
   "note": "Missing: contexts with an empty key at the top, or that are scalars, lose them (refuted); keys with dots in them may collide (refuted)."
  },
  {
   "property": "C222",
   "status": "proved",
   "theorems": [
    "Verif.Samples.record_spec",
    "Verif.Samples.any_iff",
    "Verif.Samples.record_recovers",
    "Verif.Samples.signal_types_known",
    "Verif.Samples.texts_differ"
   ],
   "note": "Signal types that are not one of the known ones are left out of records; those of built-in checks are known."
  },
  {
   "property": "C223",
   "status": "partial",
   "theorems": [
    "Verif.Samples.json_readable",
    "Verif.Samples.json_round_trip_partial",
    "Verif.Samples.json_round_trip_refuted",
    "Verif.Samples.exponential_iff",
    "Verif.Samples.json_settles",
    "Verif.Samples.de_exponential"
   ],
   "note": "Missing: exponential histograms are read as histograms without buckets (refuted); histograms with bounds that are not finite as exponential ones; empty lists of histograms as numbers; results of attributes, null values, resource and scope are not kept. Proved: everything can be read, what is left of it, that samples without these are kept, and that from the second time on nothing changes."
  },
  {
   "property": "C224",
   "status": "partial",
   "theorems": [
    "Verif.SchemaError.span_found_partial",
    "Verif.SchemaError.span_right_partial",
    "Verif.SchemaError.span_no_panic",
    "Verif.SchemaError.span_found_refuted"
   ],
   "note": "Missing: errors about the file as a whole and below keys that are numbers have no place, and below an empty key another node may be shown (refuted); keys with `/` or `~`. Proved for plain keys; that a place that is shown is right if no key is empty or has `/` or `~`; and that nothing panics."
  },
  {
   "property": "C225",
   "status": "proved",
   "theorems": [
    "Verif.SchemaError.advice_innermost",
    "Verif.SchemaError.advice_passes",
    "Verif.SchemaError.reference"
   ],
   "note": ""
  },
  {
   "property": "C226",
   "status": "proved",
   "theorems": [
    "Verif.SchemaError.violations_reported",
    "Verif.SchemaError.always_reported",
    "Verif.SchemaError.message_complete"
   ],
   "note": "The texts for single kinds of violations are parameters."
  },
  {
   "property": "C227",
   "status": "partial",
   "theorems": [
    "Verif.Snippet.snippet_shows_page_item_partial",
    "Verif.Snippet.context_faithful",
    "Verif.Snippet.snippet_shows_page_item_refuted"
   ],
   "note": "Missing: where the item and its attributes come from (provenance) is not shown by snippets (refuted); everything else is proved equal."
  },
  {
   "property": "C228",
   "status": "partial",
   "theorems": [
    "Verif.Snippet.every_item_can_be_shown_partial",
    "Verif.Snippet.found_iff",
    "Verif.Snippet.no_panic",
    "Verif.Snippet.every_item_can_be_shown_refuted"
   ],
   "note": "Missing: items whose name does not begin with a letter or has other characters than letters, digits, dots, underscores and hyphens cannot be named (refuted)."
  },
  {
   "property": "C229",
   "status": "proved",
   "theorems": [
    "Verif.Snippet.group_shown",
    "Verif.Snippet.group_as_on_pages"
   ],
   "note": ""
  },
  {
   "property": "C230",
   "status": "partial",
   "theorems": [
    "Verif.Snippet.success_iff_partial",
    "Verif.Snippet.files_after",
    "Verif.Snippet.untouched",
    "Verif.Snippet.messages_reported_partial",
    "Verif.Snippet.command_refuted"
   ],
   "note": "Missing: a directory that does not exist or cannot be walked is not noticed; messages are lost if a file fails; a dry run says `not up to date` if a snippet cannot be generated (refuted)."
  },
  {
   "property": "C231",
   "status": "partial",
   "theorems": [
    "Verif.Commands.errors_fail_partial",
    "Verif.Commands.generate_passes",
    "Verif.Commands.resolve_passes",
    "Verif.Commands.stats_passes",
    "Verif.Commands.emit_passes",
    "Verif.Commands.live_passes",
    "Verif.Commands.search_passes",
    "Verif.Commands.diff_passes",
    "Verif.Commands.servers_pass_partial",
    "Verif.Commands.diff_errors_refuted",
    "Verif.Commands.mcp_errors_refuted",
    "Verif.Commands.serve_errors_refuted"
   ],
   "note": "false for diff (messages of fetching the registries are dropped, also in the future mode), mcp and serve (messages are dropped or only logged); the others are characterised exactly"
  },
  {
   "property": "C232",
   "status": "partial",
   "theorems": [
    "Verif.Commands.reports_clean_partial",
    "Verif.Commands.generate_writes",
    "Verif.Commands.generate_writes_refuted",
    "Verif.Commands.emit_writes_refuted"
   ],
   "note": "holds for stats and diff (package is C235); false for generate, resolve and emit, which write first and look at the errors afterwards"
  },
  {
   "property": "C233",
   "status": "partial",
   "theorems": [
    "Verif.Commands.messages_shown_partial",
    "Verif.Commands.stats_messages_refuted",
    "Verif.Commands.diff_messages_refuted",
    "Verif.Commands.generate_messages_refuted"
   ],
   "note": "holds for generate and live-check if the output can be made, and for emit always; false for stats and diff, which drop warnings, and for generate if a template fails"
  },
  {
   "property": "C234",
   "status": "partial",
   "theorems": [
    "Verif.Commands.policies_applied_partial",
    "Verif.Commands.policies_applied_refuted"
   ],
   "note": "holds for generate, resolve and live-check (check is C147, package C235); emit and serve take policies but do not apply these"
  },
  {
   "property": "C235",
   "status": "partial",
   "theorems": [
    "Verif.Commands.package_passes",
    "Verif.Commands.package_frame",
    "Verif.Commands.package_read_back",
    "Verif.Commands.loaded_v2",
    "Verif.Commands.package_whole_refuted"
   ],
   "note": "all but the last part, which is false: if the manifest cannot be written then the new resolved registry is next to the old manifest"
  },
  {
   "property": "C236",
   "status": "partial",
   "theorems": [
    "Verif.Commands.results_exact",
    "Verif.Commands.results_count",
    "Verif.Commands.output_lines",
    "Verif.Commands.selection_fits",
    "Verif.Commands.start_fits",
    "Verif.Commands.no_panic_partial",
    "Verif.Commands.no_panic_refuted"
   ],
   "note": "all but the last part, which is false: without results the second arrow key is a panic in debug builds (an overflow, and a selection out of range, in release builds); the panics are characterised exactly"
  },
  {
   "property": "C237",
   "status": "partial",
   "theorems": [
    "Verif.Advice.nameOk_iff",
    "Verif.Advice.format_reported_partial",
    "Verif.Advice.metric_format",
    "Verif.Advice.policy_reported",
    "Verif.Advice.format_refuted",
    "Verif.Advice.event_format_refuted"
   ],
   "note": "holds for metrics and for attributes that no template of the registry begins; false for names that only begin with the letters of a template without being instances of it, and for events, which are not checked"
  },
  {
   "property": "C238",
   "status": "partial",
   "theorems": [
    "Verif.Advice.attribute_findings",
    "Verif.Advice.collision_reported",
    "Verif.Advice.no_collision_iff",
    "Verif.Advice.collision_message_refuted",
    "Verif.Advice.reverse_collision_refuted"
   ],
   "note": "the first part holds; the message names the sample as the existing attribute, and the reverse collision is not reported"
  },
  {
   "property": "C239",
   "status": "partial",
   "theorems": [
    "Verif.Advice.attribute_findings",
    "Verif.Advice.extends_reported_partial",
    "Verif.Advice.extends_only",
    "Verif.Advice.extends_refuted"
   ],
   "note": "holds for the namespaces of attributes that are no templates; false for namespaces only templates have"
  },
  {
   "property": "C240",
   "status": "proved",
   "theorems": [
    "Verif.Advice.nothing_said",
    "Verif.Advice.registry_clean",
    "Verif.Advice.attribute_findings"
   ],
   "note": ""
  },
  {
   "property": "C241",
   "status": "proved",
   "theorems": [
    "Verif.Advice.findings_signed",
    "Verif.Advice.default_signed",
    "Verif.Advice.policy_reported"
   ],
   "note": ""
  },
  {
   "property": "C242",
   "status": "partial",
   "theorems": [
    "Verif.Advice.entity_data_partial",
    "Verif.Advice.entity_data_refuted",
    "Verif.Advice.entity_urls_refuted"
   ],
   "note": "holds if no two registries have the same schema URL and no refinement the id of another definition; else jq takes the last definition and the live check the first"
  },
  {
   "property": "C243",
   "status": "partial",
   "theorems": [
    "Verif.Jq.attributes_kept",
    "Verif.Jq.attributes_exact_partial",
    "Verif.Jq.attributes_wrong_version",
    "Verif.Jq.annotations_refuted",
    "Verif.Jq.members_refuted"
   ],
   "note": "false if `ignore_code_generation_annotations` is `false`, which is taken as true; and an enum can lose all members; the rest holds"
  },
  {
   "property": "C244",
   "status": "proved",
   "theorems": [
    "Verif.Jq.grouped_attributes",
    "Verif.Jq.grouped_spec",
    "Verif.Jq.group_roots_distinct"
   ],
   "note": ""
  },
  {
   "property": "C245",
   "status": "partial",
   "theorems": [
    "Verif.Jq.signals_kept",
    "Verif.Jq.signals_exact_partial",
    "Verif.Jq.nested_wanted",
    "Verif.Jq.entity_attributes_refuted"
   ],
   "note": "false for entities of version 2, whose attributes are in `identity` and `description` and are not filtered (and with `ignore_code_generation_annotations: false`, C243); the rest holds"
  },
  {
   "property": "C246",
   "status": "partial",
   "theorems": [
    "Verif.Jq.grouped_signals",
    "Verif.Jq.grouped_spec",
    "Verif.Jq.group_roots_distinct",
    "Verif.Jq.span_order_refuted"
   ],
   "note": "holds by the field `.type`, which in version 1 is the kind of group, so that spans and entities of version 1 are in no order"
  },
  {
   "property": "C247",
   "status": "partial",
   "theorems": [
    "Verif.Jq.root_v2",
    "Verif.Jq.exists_root",
    "Verif.Jq.attr_root_agrees_partial",
    "Verif.Jq.attr_root_refuted",
    "Verif.Jq.sig_root_agrees_partial",
    "Verif.Jq.sig_root_refuted"
   ],
   "note": "holds in version 2; in version 1 for attributes with a dot and for groups whose id is a kind, a dot and a name; other attributes are in `other`, and for other groups it is the second part of the id"
  },
  {
   "property": "C248",
   "status": "partial",
   "theorems": [
    "Verif.Jq.bundle_error",
    "Verif.Jq.bundle_ok",
    "Verif.Jq.unreadable_refuted",
    "Verif.Jq.one_list_refuted"
   ],
   "note": "a value that is not printed as JSON becomes null, and one list is the same as its elements; the rest holds"
  },
  {
   "property": "C249",
   "status": "proved",
   "theorems": [
    "Verif.Jq.source_place"
   ],
   "note": ""
  },
  {
   "property": "C250",
   "status": "partial",
   "theorems": [
    "Verif.Trip.accepts_partial",
    "Verif.Trip.accepts_refuted",
    "Verif.Trip.taken_same",
    "Verif.Trip.loaded_loads",
    "Verif.Trip.mem_refs"
   ],
   "note": "holds if every attribute also occurs where it is learned, has compatible types throughout, metrics have an instrument, and their units and instruments agree; attributes of scopes, links, exemplars, profiles and logs without an event name are not learned"
  },
  {
   "property": "C251",
   "status": "proved",
   "theorems": [
    "Verif.Trip.unlearned_violation",
    "Verif.Trip.unsupported_violation",
    "Verif.Trip.disagree_violation",
    "Verif.Trip.mistyped_violation",
    "Verif.Trip.unstable_reported"
   ],
   "note": ""
  },
  {
   "property": "C252",
   "status": "partial",
   "theorems": [
    "Verif.Trip.coverage_partial",
    "Verif.Trip.coverage_refuted"
   ],
   "note": "holds for attributes, metrics and events of log records; events of spans become events of the registry and are never seen"
  },
  {
   "property": "C253",
   "status": "partial",
   "theorems": [
    "Verif.Fetch.requests",
    "Verif.Fetch.tokens_partial",
    "Verif.Fetch.tokens_refuted"
   ],
   "note": "holds if the descriptions of releases say that assets are at the API of GitHub; the URL in the description is taken as it is"
  },
  {
   "property": "C254",
   "status": "partial",
   "theorems": [
    "Verif.Fetch.parse_iff",
    "Verif.Fetch.asset_partial",
    "Verif.Fetch.asset_missing",
    "Verif.Fetch.asset_refuted",
    "Verif.Fetch.file_accept"
   ],
   "note": "holds for tags without a slash; otherwise the URL is taken apart wrongly"
  },
  {
   "property": "C255",
   "status": "partial",
   "theorems": [
    "Verif.Fetch.cache_partial",
    "Verif.Fetch.cache_refuted",
    "Verif.Fetch.one_call",
    "Verif.Fetch.key_same",
    "Verif.Fetch.api_same"
   ],
   "note": "holds if servers answer about releases whatever the token; the cache is shared by URLs with different tokens. The second part holds always"
  },
  {
   "property": "C256",
   "status": "partial",
   "theorems": [
    "Verif.Fetch.format_partial",
    "Verif.Fetch.format_refuted",
    "Verif.Fetch.archive_unnamed"
   ],
   "note": "holds for URLs without query and fragment; the format is that of the end of the path, whether it is an archive that of the end of the URL"
  },
  {
   "property": "C257",
   "status": "partial",
   "theorems": [
    "Verif.Fetch.checkout_partial",
    "Verif.Fetch.checkout_refuted",
    "Verif.Fetch.branch_refuted"
   ],
   "note": "holds for full object ids and for names that are not such ids; commits by the start of their id and branches whose name is an id are not found"
  },
  {
   "property": "C258",
   "status": "proved",
   "theorems": [
    "Verif.Case.convert_keeps",
    "Verif.Case.convert_shape",
    "Verif.Case.capitalize_keeps"
   ],
   "note": "only ASCII letters have a case in the model; the library that finds the words is modelled from its documentation"
  },
  {
   "property": "C259",
   "status": "partial",
   "theorems": [
    "Verif.Case.convert_through_partial",
    "Verif.Case.convert_sequence_partial",
    "Verif.Case.convert_through_refuted",
    "Verif.Case.convert_idempotent_refuted"
   ],
   "note": "holds if the first one writes delimiters, or if all words start and end with letters and have more than one; `a.b` in Pascal case is `AB`, one word"
  },
  {
   "property": "C260",
   "status": "partial",
   "theorems": [
    "Verif.Case.names_distinct_partial",
    "Verif.Case.consts_distinct_partial",
    "Verif.Case.names_distinct_refuted"
   ],
   "note": "holds for names in lower case with dots only; the `_const` filters confuse exactly the names that differ in underscores only"
  },
  {
   "property": "C261",
   "status": "partial",
   "theorems": [
    "Verif.Show.literal_value",
    "Verif.Show.literal_line",
    "Verif.Show.literals_distinct_partial",
    "Verif.Show.literals_distinct_refuted"
   ],
   "note": "the first part holds always; the second for strings, numbers and booleans, other values give nothing"
  },
  {
   "property": "C262",
   "status": "partial",
   "theorems": [
    "Verif.Show.compound_flat",
    "Verif.Show.dedup_seen",
    "Verif.Show.dedup_total",
    "Verif.Show.printed",
    "Verif.Show.others_shown",
    "Verif.Show.dedup_shown_partial",
    "Verif.Show.dedup_shown_refuted"
   ],
   "note": "the texts of all errors are shown if errors with the same message have the same causes; the numbers are always right"
  },
  {
   "property": "C263",
   "status": "partial",
   "theorems": [
    "Verif.Macro.shown_default_is_used_partial",
    "Verif.Macro.no_default_is_none",
    "Verif.Macro.parse_last_default",
    "Verif.Macro.path_default_unused",
    "Verif.Macro.shown_default_is_used_refuted",
    "Verif.Macro.two_annotations_refuted",
    "Verif.Macro.liveCheck_defaults_shown"
   ],
   "note": "fails for a default that is no value of the type (it becomes false or 0 and compiles) and for a field with both annotations; with a path the default is that of another struct, checked for live-check"
  },
  {
   "property": "C264",
   "status": "proved",
   "theorems": [
    "Verif.Macro.compiles_iff",
    "Verif.Macro.struct_default_fields",
    "Verif.Macro.struct_fields"
   ],
   "note": "types are names with arguments; type aliases are not modelled"
  },
  {
   "property": "C265",
   "status": "partial",
   "theorems": [
    "Verif.Macro.flags_write_their_own",
    "Verif.Macro.apply_last",
    "Verif.Macro.apply_other",
    "Verif.Macro.sharedField_last",
    "Verif.Macro.liveCheck_dests",
    "Verif.Macro.flags_write_their_own_refuted"
   ],
   "note": "if different fields write to different places; otherwise the last field wins"
  },
  {
   "property": "C266",
   "status": "partial",
   "theorems": [
    "Verif.Macro.correspond_passes",
    "Verif.Macro.consistent_iff_correspond_partial",
    "Verif.Macro.generated_passes",
    "Verif.Macro.consistent_iff_correspond_refuted",
    "Verif.Macro.flat_names_refuted"
   ],
   "note": "passes wrongly if a setting without a flag has the name of a flag for another place, or is written like another with `_` for `.`; for generated structs it always passes"
  },
  {
   "property": "C267",
   "status": "proved",
   "theorems": [
    "Verif.Macro.configIdent_inj",
    "Verif.Macro.configIdent_not_inj",
    "Verif.Macro.sections_kebab"
   ],
   "note": "words begin with a small ASCII letter; with `_`, digits or empty words names can coincide"
  },
  {
   "property": "C268",
   "status": "partial",
   "theorems": [
    "Verif.Serve.definition_answered_partial",
    "Verif.Serve.httpGet_iff",
    "Verif.Serve.route_item",
    "Verif.Serve.definition_answered_refuted"
   ],
   "note": "for names that are not empty and do not begin with a slash"
  },
  {
   "property": "C269",
   "status": "partial",
   "theorems": [
    "Verif.Serve.statuses_partial",
    "Verif.Serve.route_known",
    "Verif.Serve.unknown_without_ui",
    "Verif.Serve.unknown_with_ui",
    "Verif.Serve.ui_file",
    "Verif.Serve.unknown_paths_refuted"
   ],
   "note": "holds without the user interface only; with it, every path that is no route gets a page with status 200"
  },
  {
   "property": "C270",
   "status": "proved",
   "theorems": [
    "Verif.Serve.filter_answered",
    "Verif.Serve.details_spec",
    "Verif.Serve.search_answered"
   ],
   "note": "the evaluation of the filter is a parameter"
  },
  {
   "property": "C271",
   "status": "partial",
   "theorems": [
    "Verif.Serve.origins_partial",
    "Verif.Serve.cors_panics",
    "Verif.Serve.trim_spec",
    "Verif.Serve.origins_refuted"
   ],
   "note": "the server panics for a list with `*` beside others or with blanks, and for characters that headers cannot have"
  },
  {
   "property": "C272",
   "status": "partial",
   "theorems": [
    "Verif.Tools.paths_exact_partial",
    "Verif.Tools.collect_sound",
    "Verif.Tools.collect_complete",
    "Verif.Tools.paths_exact_refuted",
    "Verif.Tools.siblings_refuted"
   ],
   "note": "exact for schemas without recursion and with nothing beside a reference; sound for all"
  },
  {
   "property": "C273",
   "status": "partial",
   "theorems": [
    "Verif.Tools.passes_iff_compatible_partial",
    "Verif.Tools.compatible_passes",
    "Verif.Tools.passes_iff",
    "Verif.Tools.version_read",
    "Verif.Tools.passes_iff_compatible_refuted"
   ],
   "note": "if the major version does not become lower; a schema whose `file_format` is removed counts as 0.0 and may remove anything"
  },
  {
   "property": "C274",
   "status": "proved",
   "theorems": [
    "Verif.Tools.shell_reads_value",
    "Verif.Tools.shell_reads_value_before",
    "Verif.Tools.shellQuote_injective",
    "Verif.Tools.oneLine_safe",
    "Verif.Tools.oneLine_backslash"
   ],
   "note": "for a placeholder outside quotes; the reader of words is written after POSIX"
  },
  {
   "property": "C275",
   "status": "partial",
   "theorems": [
    "Verif.Tools.select_id_partial",
    "Verif.Tools.splitRef_ref",
    "Verif.Tools.splitRef_scp",
    "Verif.Tools.normalizeUrl_same",
    "Verif.Tools.select_id_refuted",
    "Verif.Tools.slash_ref_in_url",
    "Verif.Tools.two_refs"
   ],
   "note": "for refs without `/` and `@` and different URLs; a branch such as `release/1.x` cannot be given"
  },
  {
   "property": "C276",
   "status": "partial",
   "theorems": [
    "Verif.Tools.dirName_injective_partial",
    "Verif.Tools.dirName_eq",
    "Verif.Tools.dirName_injective_refuted",
    "Verif.Tools.dirName_slash"
   ],
   "note": "on one host, for owners without `_`; else two repositories can share a directory, and the second is not looked at"
  },
  {
   "property": "C277",
   "status": "partial",
   "theorems": [
    "Verif.Tools.ansi_shown_partial",
    "Verif.Tools.ansi_twice_partial",
    "Verif.Tools.ansi_text",
    "Verif.Tools.ansi_ends_all",
    "Verif.Tools.codes_wanted",
    "Verif.Tools.ansi_names_distinct",
    "Verif.Tools.ansi_shown_refuted"
   ],
   "note": "for text without styles of its own, and for chains of two filters; after an inner style the outer one is gone"
  },
  {
   "property": "C278",
   "status": "partial",
   "theorems": [
    "Verif.Misc.files_in_tree_partial",
    "Verif.Misc.files_in_text_partial",
    "Verif.Misc.last_wins",
    "Verif.Misc.tree_source",
    "Verif.Misc.files_in_tree_refuted",
    "Verif.Misc.mod_and_lib"
   ],
   "note": "if no file is in the way of an earlier one; `a.rs` beside a directory `a` that was walked before loses the files of it"
  },
  {
   "property": "C279",
   "status": "partial",
   "theorems": [
    "Verif.Misc.ids_hex_partial",
    "Verif.Misc.ids_distinct_partial",
    "Verif.Misc.times_printed",
    "Verif.Misc.status_kept",
    "Verif.Misc.ids_hex_refuted"
   ],
   "note": "for ids of the right length; all others are printed as nothing"
  },
  {
   "property": "C280",
   "status": "partial",
   "theorems": [
    "Verif.Misc.stats_add_up_partial",
    "Verif.Misc.stats_off",
    "Verif.Misc.renamed_lines_equal",
    "Verif.Misc.stats_add_up_refuted"
   ],
   "note": "without renamed and uncategorized items; the exact difference is proved"
  },
  {
   "property": "C281",
   "status": "partial",
   "theorems": [
    "Verif.Misc.texts_read_back_partial",
    "Verif.Misc.requirement_read_back",
    "Verif.Misc.texts_read_back_refuted"
   ],
   "note": "`opt-in` is printed where `opt_in` is read"
  },
  {
   "property": "C282",
   "status": "partial",
   "theorems": [
    "Verif.Tools.workspace_iff_partial",
    "Verif.Tools.crateErrors_iff",
    "Verif.Tools.workspace_iff_refuted"
   ],
   "note": "for files that can be read; a Cargo.toml that is no TOML is only mentioned and the workspace passes"
  },
  {
   "property": "C283",
   "status": "proved",
   "theorems": [
    "Verif.LiveCheck.advises_iff",
    "Verif.LiveCheck.first_iff",
    "Verif.LiveCheck.entity_iff",
    "Verif.LiveCheck.isCompatible_iff",
    "Verif.LiveCheck.isMember_false_iff"
   ],
   "note": ""
  },
  {
   "property": "C284",
   "status": "proved",
   "theorems": [
    "Verif.LiveCheck.mentions",
    "Verif.LiveCheck.mentions_first",
    "Verif.LiveCheck.mentions_entity",
    "Verif.LiveCheck.mentions_unsatisfied",
    "Verif.LiveCheck.unsatisfied_message"
   ],
   "note": "the text of a value that is neither a string nor an integer is not modelled"
  },
  {
   "property": "C285",
   "status": "proved",
   "theorems": [
    "Verif.LiveCheck.sampleName_iff",
    "Verif.LiveCheck.signalType_iff",
    "Verif.LiveCheck.signalName_iff",
    "Verif.LiveCheck.resourceAttrs_spec"
   ],
   "note": ""
  },
  {
   "property": "C286",
   "status": "proved",
   "theorems": [
    "Verif.LiveCheck.run_proper",
    "Verif.LiveCheck.advises_id",
    "Verif.LiveCheck.occs_proper"
   ],
   "note": ""
  },
  {
   "property": "C287",
   "status": "proved",
   "theorems": [
    "Verif.LiveCheck.lookup_iff",
    "Verif.LiveCheck.lookup_v1",
    "Verif.LiveCheck.definedEntity_iff"
   ],
   "note": ""
  },
  {
   "property": "C288",
   "status": "proved",
   "theorems": [
    "Verif.Imports.sameImported_iff",
    "Verif.Imports.stripTypePrefix_iff"
   ],
   "note": ""
  },
  {
   "property": "C289",
   "status": "partial",
   "theorems": [
    "Verif.Imports.v2_origins_carried_partial",
    "Verif.Imports.v2_origins_carried_refuted",
    "Verif.Imports.v2Origins_iff",
    "Verif.Imports.originsTable_at",
    "Verif.Imports.attachOrigins_at"
   ],
   "note": "Missing: signals of the same id, where the origins of the last go with the first (refuted); and groups that are upgraded to another version."
  },
  {
   "property": "C290",
   "status": "proved",
   "theorems": [
    "Verif.Samples.knownIds_variants",
    "Verif.Samples.levelText_variant",
    "Verif.Samples.sampleTypeText_variant",
    "Verif.Samples.signalTypes_variants",
    "Verif.Samples.sampleTypeText_inj",
    "Verif.Samples.parse_known",
    "Verif.Samples.parse_text",
    "Verif.Samples.proper_known",
    "Verif.Samples.severity_range",
    "Verif.Samples.severity_names"
   ],
   "note": ""
  },
  {
   "property": "C291",
   "status": "proved",
   "theorems": [
    "Verif.Forge.simpleTypes_iff",
    "Verif.Forge.isSimpleType_exact",
    "Verif.Forge.isTemplateType_exact",
    "Verif.Forge.isArray_iff",
    "Verif.Forge.isEnumType_iff",
    "Verif.Forge.isEnum_iff",
    "Verif.Forge.types_disjoint"
   ],
   "note": ""
  },
  {
   "property": "C292",
   "status": "proved",
   "theorems": [
    "Verif.Macro.classify_iff",
    "Verif.Macro.sharedKind_iff",
    "Verif.Macro.parseAnnotation_iff",
    "Verif.Macro.excludedArgs_iff",
    "Verif.Macro.extraNames_iff"
   ],
   "note": ""
  },
  {
   "property": "C293",
   "status": "proved",
   "theorems": [
    "Verif.Render.Html.old_style",
    "Verif.Render.Html.new_style",
    "Verif.Render.Html.startsWithAt_iff"
   ],
   "note": "Without word wrapping, for paragraphs that are one text."
  },
  {
   "property": "C294",
   "status": "proved",
   "theorems": [
    "Verif.Resolver.useRoot_lineage",
    "Verif.Resolver.useRoot_never_both",
    "Verif.Resolver.overlayRef_lineage"
   ],
   "note": ""
  },
  {
   "property": "C295",
   "status": "proved",
   "theorems": [
    "Verif.Forge.promName_among",
    "Verif.Forge.promNameFilter_iff",
    "Verif.Forge.promNamesFilter_iff",
    "Verif.Forge.parseStrategy_iff",
    "Verif.Forge.parseStrategy_error",
    "Verif.Forge.promUnitFilter_iff"
   ],
   "note": ""
  },
  {
   "property": "C296",
   "status": "proved",
   "theorems": [
    "Verif.Gen.paramsOf_last",
    "Verif.Gen.paramsOf_file",
    "Verif.Gen.paramsOf_error",
    "Verif.Gen.parseKeyVal_iff",
    "Verif.Gen.parseKeyVal_noEquals"
   ],
   "note": ""
  },
  {
   "property": "C297",
   "status": "partial",
   "theorems": [
    "Verif.LiveCheck.Detect.service_name_partial",
    "Verif.LiveCheck.Detect.spaced_name_refuted",
    "Verif.LiveCheck.Detect.userSet_iff",
    "Verif.LiveCheck.Detect.other_attributes"
   ],
   "note": "False for a key with spaces around it, which the SDK trims and the test does not: then weaver overrides the name. The resource of the SDK is a parameter."
  },
  {
   "property": "C298",
   "status": "proved",
   "theorems": [
    "Verif.Commands.runCommand_zero",
    "Verif.Commands.bad_config",
    "Verif.Commands.resolveConfig_explicit",
    "Verif.Commands.resolveConfig_discover",
    "Verif.Commands.logLevel_iff"
   ],
   "note": "The commands are parameters here; they are modelled elsewhere."
  },
  {
   "property": "C299",
   "status": "proved",
   "theorems": [
    "Verif.Tools.releasePatch_idem",
    "Verif.Tools.releasePatch_applied",
    "Verif.Tools.releasePatch_fixed",
    "Verif.Tools.releasePatch_none",
    "Verif.Tools.applyPatches_applied"
   ],
   "note": ""
  },
  {
   "property": "C300",
   "status": "proved",
   "theorems": [
    "Verif.Serve.walk_full",
    "Verif.Serve.walk_zero",
    "Verif.Serve.schema_served"
   ],
   "note": ""
  },
  {
   "property": "C301",
   "status": "partial",
   "theorems": [
    "Verif.Diff.reportLines_count",
    "Verif.Diff.reportV1_partial",
    "Verif.Diff.reportV2_partial",
    "Verif.Diff.entity_unreported_refuted",
    "Verif.Diff.group_unreported_refuted",
    "Verif.Diff.reportCounts_lines"
   ],
   "note": "False for entities of a v1 diff, whose changes are at the key entities while the templates read resources, and for attribute groups of a v2 diff, whose key the templates do not read. Proved for all other changes."
  },
  {
   "property": "C302",
   "status": "partial",
   "theorems": [
    "Verif.Show.ansiReport_shows",
    "Verif.Show.ansiReport_order",
    "Verif.Show.ghReport_violation_partial",
    "Verif.Show.ghReport_violations_partial",
    "Verif.Show.ghReport_ignores_refuted",
    "Verif.Show.ghReport_other_refuted",
    "Verif.Show.ghReport_twice_refuted"
   ],
   "note": "False for the workflow report: its second loop is over the violations again, so no other message is shown, and what they say has no effect."
  },
  {
   "property": "C303",
   "status": "partial",
   "theorems": [
    "Verif.LiveCheck.blocks_all",
    "Verif.LiveCheck.report_shown",
    "Verif.LiveCheck.adviceLines_all",
    "Verif.LiveCheck.adviceLines_tint",
    "Verif.LiveCheck.nameTint_red",
    "Verif.LiveCheck.nameTint_yellow",
    "Verif.LiveCheck.value_shown_partial",
    "Verif.LiveCheck.value_unshown_refuted"
   ],
   "note": "The values false, 0 and \"\" are not shown. The rest is proved."
  },
  {
   "property": "C304",
   "status": "partial",
   "theorems": [
    "Verif.Commands.DiagInit.extract_everything",
    "Verif.Commands.DiagInit.extract_target_partial",
    "Verif.Commands.DiagInit.default_target",
    "Verif.Commands.DiagInit.unknown_target_refuted",
    "Verif.Commands.DiagInit.dot_target_refuted"
   ],
   "note": "A target that does not exist is not refused: nothing is written and success is reported; so with ./ansi. Files outside of directories would be written for every target; there are none."
  },
  {
   "property": "C305",
   "status": "partial",
   "theorems": [
    "Verif.Common.Wrap.resolverMsgs_partial",
    "Verif.Common.Wrap.display_all",
    "Verif.Common.Wrap.resolverMsgs_text",
    "Verif.Common.Wrap.snippetMsgs_text",
    "Verif.Common.Wrap.engineMsgs_text",
    "Verif.Common.Wrap.one_message_refuted",
    "Verif.Common.Wrap.severity_lost_refuted",
    "Verif.Common.Wrap.snippet_expands"
   ],
   "note": "False if a compound error is carried (resolver) and always for the engine, which makes one message and loses the severity. Proved: with single errors carried there is one message each, and in all cases the text of each single error is in the text of a message."
  },
  {
   "property": "C306",
   "status": "proved",
   "theorems": [
    "Verif.Jq.part_source_place",
    "Verif.Jq.show_injective",
    "Verif.Jq.show_without",
    "Verif.Jq.compileErrors_all",
    "Verif.Jq.loadErrors_length",
    "Verif.Jq.loadErrors_syntax",
    "Verif.Jq.loadErrors_io",
    "Verif.Jq.compileText_number",
    "Verif.Jq.compileText_undefined",
    "Verif.Jq.formatDetails_all"
   ],
   "note": ""
  },
  {
   "property": "C307",
   "status": "proved",
   "theorems": [
    "Verif.SchemaError.typeNames_eq",
    "Verif.SchemaError.typeNames_mem",
    "Verif.SchemaError.typeNames_only",
    "Verif.SchemaError.typeNames_optional",
    "Verif.SchemaError.describeTypes_empty",
    "Verif.SchemaError.errorSummary_shape"
   ],
   "note": ""
  },
  {
   "property": "C308",
   "status": "proved",
   "theorems": [
    "Verif.Resolver.SemVer.parse_iff",
    "Verif.Resolver.SemVer.semver_iff",
    "Verif.Resolver.SemVer.semver_prefix",
    "Verif.Resolver.SemVer.spelling_twice",
    "Verif.Resolver.SemVer.not_semver"
   ],
   "note": "Versions with a pre-release or build part are not modelled here."
  }
 ]
}

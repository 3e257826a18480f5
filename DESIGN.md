# Design of the weaver model

The code modelled is open-telemetry/weaver as found in /repo (Rust). The model is written in Lean 4
(core library, single Mathlib modules only where a file says so). Nothing is run against the Rust code: every
definition cites the file and lines it models, and that citation is the only tie between model and code.

## Layout

* `lean/Verif/<Area>/Model.lean` - executable definitions, one per Rust function, with citations.
* `lean/Verif/<Area>/Lemmas.lean` - helper lemmas (only where they are numerous).
* `lean/Verif/<Area>/Props.lean` - the small specification and the property theorems, each followed by an
  `example` showing a concrete case that meets its hypotheses.
* `properties.jsonl` - the properties in words. `MANIFEST.json` - property -> theorem names.
* `seeded/LOG.jsonl` - one line per seeded bug: what was edited, which theorems failed.

## Trusted base

1. Lean's kernel (4.33.0).
2. Axioms: at most `propext`, `Classical.choice`, `Quot.sound`. No axiom is added.
3. The reading of the Rust source by which each definition was written (citations).
4. Modelling conventions, common to all areas:
   * strings are `String` or `List Char`; `HashMap`/`HashSet` are association lists or sets given by a list, and any
     result which depends on iteration order is modelled with the order as an explicit input;
   * `BTreeMap` is a list kept sorted by key, or a function where only lookups are observed;
   * `usize` is `Nat` unless a property is about overflow;
   * panics are explicit error values;
   * I/O, YAML/JSON parsing by serde, minijinja, jaq, regorus, git, HTTP and tantivy are outside the model; where
     they matter they are parameters.

## Plan per property

| Id | Model | Proof |
|----|-------|-------|
| C01 | fixpoint loop over groups with state resolved/pending | well-founded measure on pending count; invariant + least fixpoint characterisation |
| C02 | unified attribute inheritance as a sorted map keyed by id | induction over own/included/parent lists; field-wise spec |
| C03 | catalog gc: retain, sort, renumber | bijection lemma between old and new indices |
| C04 | root attribute table with `resolve_conflict` | commutativity when definitions are unique; counterexample otherwise |
| C05 | semver compare and conflict strategy | case analysis, total order lemmas |
| C06 | exclusion predicate, conflict table, import decision | invariant over insert histories |
| C07 | recursive loader over an abstract manifest graph | induction on depth budget |
| C08 | import matching and unmatched error computation | decision logic |
| C09 | entity resolution over dependency results | permutation invariance |
| C10 | nested map merge | structural induction |
| C11 | lineage field helpers | case analysis per helper, invariant |
| C12 | uniqueness checks as grouping folds | counting lemmas |
| C13 | conversion loop over groups | fold invariant |
| C14 | tree conversion | structural induction |
| C15 | diff over name-indexed items | iff statements per change kind |
| C16, C17 | version histories as sorted lists | fold invariants |
| C18 | JSON values as nested inductive type | structural induction, sorting lemmas |
| C19 | WResult as sum type | algebraic laws over operation sequences |
| C20 | IEEE doubles by bit pattern | case analysis on class/sign |
| C21, C22 | statistics state machine | invariant over histories |
| C23 | modifier evaluation | decision logic |
| C24, C25 | association evaluation, missing attribute check | induction over trees/lists |
| C26 | longest prefix match | sorted list argument |
| C27, C28 | search context | list lemmas (skip/take/sort) |
| C29 | accumulator state machine | invariant over sample streams |
| C30 | line automaton of update_markdown_contents | simulation between first and second run |
| C31 | credential resolver with clock and command oracle | invariant over lookup histories |
| C32 | regex-free parser of the registry path syntax | round trip by list lemmas |
| C33, C34 | layered overrides | fold laws |
| C35-C39, C48-C50 | template filters | list induction |
| C40 | safe_join over file trees with symbolic links | the canonical path is link free; decision logic over it |
| C41, C42 | validation functions | decision logic, exactness |
| C43, C44 | schema URL and deprecation encode/decode | round trip |
| C45 | v2 to v1 translation | list induction |
| C46 | type inference, emit values, compatibility | case analysis over types |
| C53 | `YamlValue::cmp` | case analysis; witnesses |
| C56 | `Deprecated` writer and the hand-written source reader | case analysis; witness |
| C57, C58 | both schema diffs and the conversion | corollaries of C13 and C15; witnesses |
| C59, C60 | version histories | corollaries of C16 and C17; witnesses |
| C61 | the same JSON values | canonical forms up to float values plus injectivity; counterexample with 1 and 1.0 |
| C62, C63, C64, C66, C67 | the same model of the live check | refuted by concrete runs, proved where they hold |
| C65 | statistics state machine | invariant over runs |
| C68, C69 | indices of the search context | fold invariants; sorted list argument |
| C70 | tree of results and the extraction of the compact answer | mask over the flattened tree |
| C71 | namespace browsing | counting over the partition of C28 |
| C72-C75 | update_markdown over file contents | block reading of the document, composition lemmas for lines |
| C76-C78 | nom parser as functions on characters | equivalence with a declarative grammar |
| C79, C80 | accumulator under all hash orders | uniqueness of descriptions; counterexamples |
| C81–C83 | types of values, emit, examples | exact characterisations; counterexamples |
| C84–C86 | values of bodies; reading definition files | exact characterisations; counterexamples |
| C87-C94, C98 | limits of the template filters | counterexample and the part that holds |
| C95-C97, C99 | list, acronym, YAML and mapping filters | exact characterisation by induction |
| C100–C104 | file trees with links, template loaders | induction over trees and paths; concrete trees for the negations |
| C105–C108 | layered configuration and parameters | fold laws, lookups in merged maps |
| C109–C114, C118, C119 | template engine, schedules as orders of jobs | independence of writes at separate places, induction over schedules |
| C115–C117, C120, C121 | output processor | decision logic; induction over histories |
| C122, C123 | same parser | witness and a theorem for well-formed paths |
| C124, C125 | search upwards; readers of sections | list induction; witnesses |
| C126 – C130 | manifest reading, publication, schema URLs over an abstract URL parser | decision logic against an inductive specification, round trip, witnesses |
| C131 – C133 | ids of translated groups, names of files | list induction, injectivity of prefixes and joining, witnesses |
| C134 | `resolve_registry_with_dependencies` as the composition of the modelled phases | `Run` inversion lemma, then the phase theorems composed against an independent description |
| C135-C142 | the stronger readings of C01-C07, C10-C12 that the code does not meet | concrete witnesses, and the part that holds |
| C143 | loading policies from files and directories | the walk visits each visible entry once; induction over the fold |
| C144 | the visitor that reads a finding | induction over the keys; each form by cases |
| C145 | the parallel check as a schedule of slots | induction over the schedule |
| C146, C147 | the command registry check and the exit code | inversion of the steps; membership of messages |
| C148, C149, C150 | the same | counterexample, and what is left |
| C151, C152, C153 | loading policies, reading findings | counterexample, and what is left |
| C154, C155 | loading data documents | counterexample, and what is left |
| C156, C157 | the walk over the directory, reading of each file, the collection of results | the results in one order are a permutation of those in another; files found = files of the specification, by induction over the tree |
| C158, C159 | the text of paths, registry paths | counterexamples; equation for the other registry paths |
| C160, C161, C162, C163, C164 | names in archives, writing files | invariant of the disk; induction over the entries; counterexamples |
| C165 | the cache as a list, most recent first; invariants by induction over the operations |
| C166 | the engine as functions from cache to cache; an invariant kept by every step (every cached schema is under its own URL) over all histories |
| C167 | the same invariant; witnesses |
| C168 | a relation for the resolution of a list of dependencies; what is listed by induction over the loaded tree |
| C169 | decomposition of a successful run; witness |
| C170 | fuel is monotone; induction over the rank of redirections and the size of the loaded tree; witness that no fuel suffices |
| C171 | case analysis of one step; witness |
| C172 | induction over the loaded tree with the cached part growing; witnesses |
| C173, C174 | witnesses by evaluation; case analysis of one request |
| C175 | the parts of names with a leading `.` or `/`; the run of C162 |
| C176 | what a resolved registry offers (lookup of root attributes), registries over registries as a tree of resolutions; induction over the chain, with an invariant of inheritance (it makes no definitions) and of the attribute phase (roots) |
| C177 | the same induction, with the URL found for a root attribute |
| C178 | the first pass of the attribute phase keeps a definition of the files as root; later passes do not touch it |
| C179 | roots are made by definitions and by references only; every reference is looked up |
| C180 | extends of a dependency's group: lookup in the dependencies, then attribute resolution with inherited lineage; spec `Refines` |
| C181 | induction over the chain: each published group is said, with its attributes, by a registry below (`Has`) |
| C182 | selection of imports (C08) composed with the pipeline, both directions |
| C183 | counterexample chain with a newer version of the registry below |
| C184 | counterexample with a published metric; chains of files by C181 |
| C185 | counterexample with an entity that goes by the id of a metric |
| C186 | transition system of the receiver: queue, servers, signal handler, monitor, command; invariant of the queue by induction on runs |
| C187 | same transition system; the prefix sent before the stop; counterexample run |
| C188 | invariant of /stop requests and the report; counterexample run |
| C189 | a measure that every step of the command lowers, and that some step is possible until it is over; counterexample run with an invariant that shows that it never ends |
| C190 | same invariants; two counterexample runs |
| C191 | simulation: replacing failures by signals commutes with every step |
| C192 | same simulation gives two runs that look the same; invariant for a taken port |
| C193 | the monitor as a function of the times of requests and its delays; induction on the number of times it wakes up |
| C194 | counterexample |
| C195 | conversion of requests to samples; induction on their nested lists; a relation that says that a sample says what was sent |
| C196 | same model with the attachment of resources; counterexample with two services |
| C197 | conversion of values, with the type advisor; counterexamples |
| C198 | lookup in the dictionary; counterexample |
| C199 | the renderer as a recursive function on trees; invariant on what has been written, by mutual induction; counterexamples |
| C200 | words of a text by induction on its pieces; exact rendering without a limit; counterexample |
| C201 | invariant on the last line and on all lines, by mutual induction; counterexamples |
| C202 | what a node writes is well-formed, by mutual induction; counterexample |
| C203 | Flattening the newlines of every text of the tree to spaces commutes with splitting into words; induction over the tree. |
| C204 | A specification of the Markdown to be shown, without layout; an invariant over the output, the pending space, the buffer and the newlines left over, by induction over the tree. Refuted for quotes, hard breaks and others. |
| C205 | The numbers are part of the text of C204; besides, the exact lines of a list of any length. Refuted for lists in lists and other first numbers. |
| C206 | What is rendered is a text and definitions; every label is in the text in brackets; induction over all trees. Refuted for emphasis in labels with a line length. |
| C207 | Reading Markdown escapes is a small function; composing it with the escaping is the identity if backslashes are escaped. |
| C54 | attribute catalog state machine, two-phase loop | invariant on root table, outcome characterisation |
| C47 | loading data documents from a file, directory or glob, merging them | what a document has at an address; merge is a union of agreeing documents; induction over the walk |
| C208 | One relation per kind between item and view; sorting by name is stable, so items of one name keep their order. Refuted for attribute groups. |
| C209 | Errors of a loop are the union of the errors of its items; inductive specification of a dangling reference. |
| C210 | Composition of the theorems of C13 with C208; a list shown in order is a permutation shown item by item. |
| C211 | Each leaf of an association is traced back through view and conversion to its group; the name of an entity group is unique. |
| C212 | Induction over the list of dependencies. |
| C213 | As C208, with one kind of item. |
| C214 | A loop over map entries counts: invariant over the list so far. Refuted for attribute groups. |
| C215 | Invariant of the fold over the groups: every entry has the numbers of the groups so far of its type. |
| C216 | Traversals of the lists of signals, related to the calls element by element. |
| C217 | Cases on type and examples; refuted for booleans and for integer examples of doubles. |
| C218 | Every sample comes from a signal; what the live check looks up by its name is that signal; each advisor is then quiet. |
| C219 | From C216 every signal has a call, each call a sample, and each sample an entry of the report that coverage counts. |
| C220 | A line read is characterised by a relation; files by induction on the lines. |
| C221 | Mutual induction over JSON against a relation of paths; splitting at dots gives back the path. |
| C222 | Unfolding; a relation states the attributes. |
| C223 | serde derives as functions on JSON values; each reader applied to each writer by computation, lists by induction. |
| C224 | The pointer of a plain path is split into its steps again; offsets are sums of sizes of characters. |
| C225 | Induction along the path. |
| C226 | Cases on the number of violations; induction over nested violations. |
| C227 | Finding an item by name commutes with the stable sort of the view; the two ways to look up attributes agree where the view exists. |
| C228 | From C78 (grammar of ids), C210 (resolved schemas can be shown) and C227. |
| C229 | Cases on the lookup; C213. |
| C230 | Cases on the command. |
| C231 | Commands as functions of what loading gives (`Repo` of the policy flow) and what the output side does; exact characterisation of the exit code of each; refutations by a registry with one message. |
| C232 | What a command does to the outside is part of the result of the model. |
| C233 | The messages shown are a result of `process`; they are compared with the messages of the specification of the flow (C146). |
| C234 | From C231; refutation by a policy that finds something everywhere. |
| C235 | Directory as a function from names to contents, failures of writing as a parameter; reading back from C127. |
| C236 | State machine of the user interface with the text area as a parameter; invariant over all sequences of keys. |
| C237 | Regular expressions with derivatives, proved to match exactly the language; the expression against a specification by splitting; the findings in the report of a run from the exact reports of C41. |
| C238 | Namespaces as what stands before a dot, against slices of the parts; the sets of advice.jq against the definitions that count. |
| C239 | The namespaces of a name are ordered by prefix, the last one that is known is the deepest. |
| C240 | From the exact findings about an attribute. |
| C241 | Each advisor makes its findings with the signal; the rules change only the level; over all occurrences of a run (C41). |
| C242 | `from_entries` as a fold of insertions, against the first matching definition. |
| C243 | The library as functions over the fields it reads; the three filters one after the other are one selection, for any view of the common fields and members; permutation of the specification, and sortedness. |
| C244 | `group_by` as a stable sort and cutting where the key changes. |
| C245 | As C243, with the nested filters as one selection. |
| C246 | As C244. |
| C247 | Splitting at dots against what stands before the first one. |
| C248 | Results as a list of values and errors; printing and parsing are parameters. |
| C249 | Fold over the characters. |
| C250 | The samples of both commands from the same requests; the loaded registry related to the inferred one by what it says. |
| C251 | The conditions of C250 one by one. |
| C252 | As C250, with the statistics of the live check. |
| C253 | Requests in the order they are sent, as a log; invariant over all downloads of a process. |
| C254 | Split at slashes against the text of the URL; servers that answer as the API does. |
| C255 | As C253; keys of the cache are injective. |
| C256 | The end of the URL against the end of the path. |
| C257 | The git library is a function from names and ids to contents. |
| C258 | Characters without delimiters in lower case, before and after; the words between delimiters. |
| C259 | Words of what is written against the words of the text. |
| C260 | Names as lists of parts; unique decoding of what is written. |
| C261 | A reader of JSON strings after RFC 8259 against the writer. |
| C262 | Keys in the order they are first seen, first text and number for each key. |
| C263 | A relation between types, texts and values; the numbers of each integer type in decimal. |
| C264 | Types of the expressions that are written against the types of the fields. |
| C265 | Places as paths; a fold over the fields. |
| C266 | Correspondence by places, without the names that the macro exports. |
| C267 | Capital letters mark the words. |
| C268 | The definitions of a kind as lists; the search context of Verif/Search. |
| C269 | Routes as an equivalence, statuses as a table. |
| C270 | A relation between errors and lists of details. |
| C271 | Words between commas without blanks. |
| C272 | Paths as an inductive relation on schemas. |
| C273 | Sets of paths and pairs of numbers; what a version may do as a proposition. |
| C274 | A reader of words of the shell. |
| C275 | Selection as a function of the text; texts with a host. |
| C276 | The directory as owner, `_`, name. |
| C277 | A terminal as a reader of control sequences; styles by name. |
| C278 | Texts at paths of a tree. |
| C279 | Digits byte by byte. |
| C280 | Sums of counts. |
| C281 | Readers and printers of finite sets. |
| C282 | Equivalence of the checks with the listed policies. |
| C283 | An inductive list of what is said, by cases of the advisors. |
| C284 | Infixes of the messages of C283. |
| C285 | By cases. |
| C286 | The report of a run (C22) and C283, C284. |
| C287 | First matches in lists. |
| C288 | An inductive definition of sameness, by cases. |
| C289 | The table of origins by id, for ids that occur once. |
| C290 | The names of the variants and the rule of strum as specification. |
| C291 | By cases of values, with an inductive definition of the texts of types. |
| C292 | Splits of the list at the deciding attribute. |
| C293 | Induction over the paragraphs. |
| C294 | What the lineage says after each of the ten fields. |
| C295 | By cases of the arguments; what the names are is proved in Verif.Forge.PromProps. |
| C296 | The first occurrence of =, and the last element of the list for a name. |
| C297 | The words between commas, and what merging finds. |
| C298 | By cases of the command. |
| C299 | No occurrence of an old text can share characters with a new text or another old text, computed for the six patches. |
| C300 | Windows of the full answer of C27. |
| C301 | Membership and counts in the lines, for the lists that the templates read. |
| C302 | Membership in the lines of the report. |
| C303 | The blocks are a permutation of the things that the specification of a run (RunSpec) lists. |
| C304 | Components of the target as a prefix of the name of a directory. |
| C305 | Singles of an error, defined over its structure. |
| C306 | LineCol: the number of line breaks before and the length of what is after the last one. |
| C307 | Membership of names; the summary as a concatenation. |
| C308 | The three numbers written in decimal with dots. |

## What is modelled

Line ranges are given in the doc comment of each definition. Paths are relative to `crates/`.

| Lean area | Rust code |
|-----------|-----------|
| Common | weaver_common: result.rs, error.rs, diagnostic (exit decision), ordered_float.rs, http_auth.rs (rule selection, token cache) |
| Resolver/Merge | weaver_resolver: merge.rs, dependency_resolution.rs (exclusion) |
| Resolver/Version | weaver_resolver: conflict_strategy.rs and its callers in loader.rs and lib.rs |
| Resolver/Inherit | weaver_resolved_schema: lineage.rs (attribute lineage); weaver_resolver: registry.rs attribute inheritance |
| Resolver/Extends | weaver_resolver: registry.rs extends and include_groups fixpoint |
| Resolver/Catalog | weaver_resolver: attribute.rs catalog, gc, sort; registry.rs clean-up |
| Resolver/Refs | weaver_resolver: attribute.rs reference resolution, registry.rs reference loop, dependency attribute lookup |
| Loader | weaver_resolver: loader.rs (recursion, conflicts, cycles, depth, warnings) |
| Checks | weaver_resolver: registry.rs duplicate checks; weaver_resolved_schema: v2/mod.rs signal names |
| Imports | weaver_resolver: imports.rs, dependency.rs entity lookup, registry.rs imports and entity associations |
| Convert | weaver_resolved_schema: v2/mod.rs conversion to v2, v2/catalog.rs |
| Semconv/Assoc | weaver_semconv: entity_association.rs; weaver_resolved_schema: v2/entity.rs associations |
| Semconv/Deprecated | weaver_semconv: deprecated.rs |
| Diff | weaver_resolved_schema: lib.rs and v2/mod.rs diff; weaver_version: schema_changes.rs (without dump_stats) |
| Versions | weaver_version: lib.rs (version histories, renames, extend) |
| JsonDiff | weaver_diff: lib.rs canonicalisation and comparison of JSON |
| LiveCheck | crates/weaver_live_check: live_checker.rs (whole), finding_modifier.rs (whole; the glob engine is a parameter), stats.rs (whole, coverage as a fraction), lib.rs (results, run_advisors, sample references), sample_*.rs `run_live_check` and `update_stats`, advice/{deprecated,stability,enum,type}_advisor.rs (whole); src/registry/live_check.rs:384-421 (the loop and the exit code). Rego is a parameter. Not modelled: ingestion (OTLP, JSON, text), inference of types, the text of reports, the advice preprocessor |
| crates/weaver_search/src/lib.rs 31-574; src/serve/handlers.rs 115-255; crates/weaver_mcp/src/service.rs 390-488 | Search: index, scores, filters, pages, browsing, lookups. Lower-casing and white space tests are parameters. Not modelled: HTTP query parsing, JSON rendering. |
| crates/weaver_mcp/src/service.rs 142-221, 490-534 | LiveCheck/Mcp: the live check tool and its compact answer. |
| crates/weaver_semconv_gen/src/parser.rs, lib.rs 103-203, v1.rs 129-133, v2.rs 77-96; src/registry/update_markdown.rs 180-205 | Markdown: the directive parser (nom combinators as functions on characters), the rewriting of a document, files and dry runs. Snippet generators are a parameter; write errors are not modelled. |
| crates/weaver_semconv/src/attribute.rs 476-658; crates/weaver_live_check/src/sample_attribute.rs 97-148; crates/weaver_emit/src/attributes.rs 35-197 | Values: reading examples (untagged enums in the order of their variants), validating them, types of sampled values, emitted values. Doubles are uninterpreted bit patterns, the conversion of integers to doubles is a parameter. YAML integers below the range of 64 bits are left out. |
| crates/weaver_infer/src/lib.rs; src/registry/infer.rs 206-252 | Infer: the accumulator, the inferred registry and the loop. Hash maps are association lists, and the theorems range over all their orders. Constant fields of the output and writing YAML are left out. |
| crates/weaver_semconv/src/group.rs 175-630; semconv.rs 134-139, 171-237, 296-315, 389-413; v2/mod.rs 183-247 | Validate: validation of groups and of format 2 files, detection of the format, reading a file. Deserializers are parameters. |
| crates/weaver_forge/src/extensions/otel.rs 60-240, 302-424 (not 242-300: the wrappers that read metrics from template values) | Forge/Otel: attribute filters, sorting, namespaces, types, body fields. Template values are an inductive type; the order of values, and whether a float is a whole number, are parameters. |
| crates/weaver_forge/src/extensions/prom.rs | Forge/Prom: sanitizing, unit suffixes, names and expanded series. `char::is_alphanumeric` outside ASCII is a parameter. |
| crates/weaver_forge/src/extensions/util.rs, code.rs | Forge/Text: list helpers, numeric sort, acronyms, YAML escaping, comments, mappings. Markdown and HTML rendering, regex replacement and the YAML writer are not modelled. |
| `Fs/Model.lean` | `crates/weaver_forge/src/file_loader.rs` (safe_join, file system and embedded loaders, all_files), output path of `lib.rs` 855-880 | file trees with symbolic links, canonicalisation (limit of 40 links); permissions, case-insensitive file systems and Windows paths are not modelled |
| `Gen/Config.lean` | `crates/weaver_forge/src/config.rs` override_with, resolve_from, collect_from_path, merge_acronyms, merge_text_maps; `lib.rs` 224-246, 303-314, 644-668; `src/registry/generate.rs` 187-212 | parsing of a configuration file is a parameter |
| `Gen/Engine.lean` | `crates/weaver_forge/src/lib.rs` 249-272, 333-772, 855-880, `jq.rs` 99-141, `config.rs` 163-240 | glob, jq and Jinja are parameters; parallel runs are all orders of the jobs, writing one file is one step; permissions and disk errors are not modelled |
| `Gen/Output.lean` | `crates/weaver_forge/src/output_processor.rs` 19-413 | serializers are parameters; files do not change between two calls |
| Common/VDir | weaver_common/vdir.rs: parsing, printing and mapping of registry paths (38-240); fetching is not modelled |
| Cli | weaver_config: discovery of the file, the sections of the file, effective settings and overrides; TOML parsing is not modelled |
| Schema | weaver_semconv: schema_url.rs, manifest.rs (reading, publishing, writing). The URL parser is a parameter; theorems about plain URLs assume the contract `Lib.Faithful` (shown satisfiable by `sampleLib_faithful`); YAML parsing is not modelled |
| crates/weaver_semconv/src/v2/{mod,attribute,attribute_group,entity,event,metric,span}.rs (`into_v1_*`, splitting of references), semconv.rs:145-167 `provenance_path_to_name` | Verif/V2/Model.lean | Types, examples, levels, stabilities, deprecations, YAML values, instruments, kinds and associations are opaque; maps are lists of entries; the parsing of YAML is not modelled |
| registry resolution as a whole | `Resolver/Pipeline.lean`: `resolve_registry_with_dependencies` phase by phase (prefix expansion, references, extends, imports, entity associations, clean-up, uniqueness checks) | hash iteration orders and the sort comparison are parameters; a dependency is given by its lookups |
| `Verif.Policy.Data` | crates/weaver_checker/src/lib.rs data documents: pattern, walk, parser by extension, wrapping, merging | parameters: glob matcher, parsers, depth of the library's merge; no I/O errors during the walk |
| `Verif.Policy.Engine` | crates/weaver_checker/src/lib.rs policies and `check`, finding.rs, src/weaver.rs:620-741 | parameters: rego parser and evaluator; no coverage report |
| `Verif.Policy.Flow` | src/weaver.rs:89-447, src/registry/check.rs, src/main.rs:235-274 | parameters: outcomes of loading, resolving and preparing for templates |
| `Verif.Archive.Model` | crates/weaver_common/src/vdir.rs unpacking: `path_to_unpack`, `unpack_tar_gz`, `unpack_zip`, the local path of a registry path | regular files and directories only; places without links; `enclosed_name` of the zip library |
| `Verif.Definition.Model` | crates/weaver_resolver/src/loader.rs `load_definition_repository`, semconv.rs `from_file_with_mapped_path`, registry_repo.rs `find_manifest_path` | parameters: parser and validation of a file; `follow_symlinks` is false; no permissions |
| `Verif.Engine.Cache` | the LRU cache of resolved schemas (`lru::LruCache` as used in crates/weaver_resolver/src/lib.rs) | documented behaviour of the library |
| `Verif.Engine.Model` | crates/weaver_resolver/src/lib.rs `WeaverResolver`: overrides, `load_repository`, `resolve_dependency`, `resolve_loaded`, `resolve_schema`, `load_and_resolve_schema`, `cache_schema`; the recursion of crates/weaver_forge/src/v2/registry.rs over the dependencies | fetching, reading published files and the resolution of one registry from its dependencies are parameters; running time is fuel, and theorems about it say for which fuel it ends |
| `Verif/Chain/Model.lean` | crates/weaver_resolver/src/attribute.rs:503-531, 579-732; dependency.rs:72-112, 226-526; imports.rs:372-388, 459-473, 580-604, 655-916; lib.rs:51-76, 403-449 | what a resolved or published registry offers: attributes, groups to extend, signals to import; registries over registries |
| src/registry/otlp/mod.rs, otlp_ingester.rs, live_check.rs (receiving and stopping) | Verif/Receiver/Model.lean, Timer.lean | `OtlpRequest`, the channel (a bounded queue), the services, signal handler, inactivity monitor, `/stop` handler, `AdminReportSender`, shutdown of the admin server; each `await` is a step of its own. Not modelled: tonic and axum below their handlers, threads |
| src/registry/otlp/conversion.rs, otlp_ingester.rs `fill_buffer_from_request` | Verif/Receiver/Ingest.lean | conversion of OTLP requests to samples and their order. Not modelled: values of data points, timestamps, ids, severities, bodies, kinds and states of spans, versions of scopes |
| crates/weaver_forge/src/formats/mod.rs | Render/Wrap.lean | word wrapping; `find_words` of the crate textwrap (ASCII spaces) is written down after its documentation and the function of the same shape in the file |
| crates/weaver_forge/src/formats/html.rs | Render/Html.lean | rendering of a tree; the Markdown parser is not modelled, the templates for code are parameters |
| `crates/weaver_forge/src/formats/markdown.rs` | `Render/Md.lean`: the whole renderer, from the tree on. Not modelled: parsing Markdown, and the templates that choose the options. |
| `Verif.View.Model` | crates/weaver_forge/src/v2/registry.rs `try_from_resolved_schema`, `lookup_entity`, `defined_entity`; v2/provenance.rs; v2/entity.rs; crates/weaver_forge/src/registry.rs `try_from_resolved_registry`, `try_from_resolved` | views as data; not modelled: serialization for minijinja and jq, messages of the resolver |
| `Verif.Stats.Model` | crates/weaver_resolved_schema/src/v2/registry.rs `stats`, src/registry.rs `stats` and `update_stats`, src/catalog.rs `stats` | texts of types and requirement levels are parameters; maps by their lookups; no prefixes |
| `Verif.Emit.Model` | crates/weaver_emit/src/{lib,spans,metrics,logs}.rs | calls to the SDK; exporters that do not fail; `requests` states what the SDK is trusted to send; descriptions left out |
| `Verif.Samples.Text`, `.FindingLog`, `.Json` | weaver_live_check {text_file,text_stdin,json_file,json_stdin}_ingester.rs, otlp_logger.rs:102-262, generated/events.rs, generated/attributes.rs, and the serde derives of sample_*.rs and lib.rs `Sample` | JSON is a value, its text is up to serde_json, and so is the parser of the values of text lines; structures written as arrays and repeated keys are left out; the JSON of results is a parameter with the law that it can be read back |
| `Verif.SchemaError.Model` | crates/weaver_semconv/src/json_schema.rs, semconv.rs:275-291 `better_error`, lib.rs:489-502 | parameters: the JSON schema validator, whose paths are JSON pointers, the YAML parser that marks positions, the texts for single kinds of violations; 64 bits |
| `Verif.Snippet.Model` | crates/weaver_semconv_gen/src/v1.rs, v2.rs, src/registry/update_markdown.rs:94-222 | parameter: rendering; the walk over the directory is a list of entries |
| src/registry/{generate,resolve,stats,diff,emit,live_check,search,mcp,package}.rs `command`, src/serve/mod.rs, src/main.rs `process_diagnostics` | Verif/Commands/Model.lean | what output, emitter, live check and servers do is a parameter (modelled in Gen, Emit, LiveCheck) |
| src/registry/search.rs | Verif/Commands/SearchUi.lean | the text area is a parameter; drawing is not modelled |
| defaults/policies/live_check_advice/otel.rego, defaults/jq/advice.jq, crates/weaver_live_check/src/advice/rego_advisor.rs | Verif/Advice/Model.lean, Verif/Advice/Regex.lean | rego and jq programs written down as functions; errors of the engine are not modelled |
| defaults/jq/semconv.jq | Verif/Jq/Model.lean | jq programs written down as functions over the fields they read; options have the documented types |
| crates/weaver_forge/src/jq.rs `execute_jq` (results), `get_source` | Verif/Jq/Model.lean | the interpreter is not modelled; its results are a parameter |
| src/registry/infer.rs `process_otlp_request` on the requests of the live check | Verif/Trip/Model.lean | the kind of spans is a parameter; loading the inferred registry is assumed to resolve references to their definitions and to change nothing else |
| crates/weaver_common/src/vdir.rs downloading: `attach_auth`, `download_to_file`, `normalize_github_url`, `parse_github_release_url`, `find_asset_url`, `try_from_remote_archive`; which revision of a repository is checked out | Verif/Fetch/Model.lean | servers are a function; redirects are left to the HTTP library, fetching to the git library |
| crates/weaver_forge/src/config.rs `CaseConvention::convert`; extensions/case.rs; extensions/otel.rs `*_case_const` | Verif/Case/Model.lean | the library convert_case is modelled from its documentation, on ASCII; Verif/Case/Tests.lean checks the assertions of the tests |
| crates/weaver_forge/src/extensions/otel.rs `print_member_value`; crates/weaver_forge/src/debug.rs `print_dedup_errors`; crates/weaver_forge/src/error.rs `compound_error`, `From<Error> for DiagnosticMessages` | Verif/Show/Model.lean | how serde_json escapes strings is modelled, how numbers are written is not |
| crates/weaver_macros/src/weaver_command.rs; `assert_config_cli_consistency` of src/registry/mod.rs | Verif/Macro/Model.lean | types are the last segment with arguments; documentation, spans and tokens are left out; the schema is the list of its leaves |
| src/serve/server.rs `run_server`, `serve_ui`; src/serve/handlers.rs | Verif/Serve/Model.lean | routing of axum and the CORS layer of tower-http are trusted; segments are taken after percent-decoding |
| crates/xtask/src/schema_compat.rs `collect_paths`, `schema_paths`, `schema_version`, the comparison of `run` | Verif/Tools/Compat.lean | git and the schema writer are left out; the list of schemas to check is empty at this commit |
| crates/xtask/src/downstream.rs `shell_quote`, `one_line`, `normalize_url`, `split_ref`, `select`, `Selection` | Verif/Tools/Downstream.lean | git, Docker and processes are left out |
| crates/weaver_forge/src/extensions/ansi.rs | Verif/Tools/Ansi.lean | the text of a value is given |
| crates/weaver_codegen_test/build.rs `add_modules`, `Module::generate` | Verif/Misc/Modules.lean | the walk is a list of files, whose texts are given |
| src/registry/otlp/conversion.rs ids, times, statuses | Verif/Misc/Ids.lean | the printing of times is a parameter |
| crates/weaver_version/src/schema_changes.rs `dump_stats`, counts; texts of `FailOnLevel`, `Stability`, `BasicRequirementLevelSpec` | Verif/Misc/Stats.lean | lines as labels with numbers |
| crates/xtask/src/validate.rs | Verif/Tools/Policy.lean | directories that cannot be read and names that are not text are left out; texts of errors are left out |
| crates/weaver_live_check/README.md:90-99, docs/finding.md:93-116 as claims about findings | Verif/LiveCheck/Messages.lean | identifiers of rego policies are left out |

Not modelled: everything not listed here, in particular file and network I/O, serde, jinja, jq, rego, tantivy search
scoring, the TUI, gRPC and HTTP servers below their handlers, logging.

## Disagreements found between properties and code

Each entry is a property that is false of the code as it is; the theorem named gives a concrete witness.

* C136 `inherit_prefix_dropped_refuted`: a `prefix: true` reference laid over an inherited definition loses its flag.
* C05 `conflict_order_refuted`: two URLs of equal version but different text are chosen by position.
  `resolver_choice_order_refuted`: when majors differ the resolver keeps the first URL met, silently.
* C10 `merge_assoc_refuted`: merging is not associative when the middle layer replaces a map by a scalar.
* C11 `lineage_never_both_refuted`, `lineage_override_not_local_refuted`, `lineage_role_not_listed_refuted`:
  lineage of attributes that come through several bases is inexact.
* C01 `invalid_refinement_never_reported`, `invalid_refinement_accepted_refuted`: the error for a V2 refinement of a
  signal of another type is recorded as recoverable and lost, so such a refinement is accepted.
* C04 `extends_order_refuted`: when a dependency has a group with the id of a local group that itself has a parent, the
  group an `extends` clause means depends on the order of the files.
* C03 `cleanup_keeps_unused_refuted`: attributes that only internal groups use stay in the published catalog.
* C04 `ref_order_refuted`: a group that extends another and overrides a field of an inherited attribute, placed before it,
  changes what unrelated references to the attribute see. `ref_success_order_refuted`: file order decides between
  success and "ambiguous reference". `ref_prefix_overwrites_refuted`: a prefixed reference silently replaces a definition
  of the prefixed name. `cleanup_hash_order_refuted`: attributes that differ only in list- or map-valued annotations are
  published in hash-map iteration order.
* C53 `yaml_order_not_antisymmetric_refuted`, `yaml_order_inconsistent_refuted`: different sequences or mappings compare as
  equal, and a tagged value and any other value are each less than the other.
* C54: every refused definition is reported twice (`example` in RefsProps).
* C07 `long_cycle_reported_as_depth_refuted`: a dependency cycle of more than ten registries is reported as exceeding the
  maximum depth, not as circular.
* C12 `internal_duplicates_unreported_refuted`: internal attribute groups are removed before the uniqueness checks, so two
  of them with one id are not reported.
* C55 `unmatched_spurious_refuted`, `import_drops_definition_refuted`: a metric and its refinement share the metric name,
  and attribute groups `registry.x` and `x` share the stripped id, so importing takes each pair for one definition, drops
  the second, and may report the pattern that named it as unmatched. `unmatched_missed_refuted`: a pattern that imports
  nothing can go unreported. `upgrade_imports_excluded_refuted`: the newer definition that replaces an imported group may
  be excluded. `association_lost_on_upgrade_refuted`: a v2 signal replaced by its newer v1 definition loses what its
  entity associations meant, because the origins are looked up under the new group id.
* C09 `local_duplicate_order_refuted`: of two local entities of one name the last one decides whether it is private.
* C56 `reload_source_refuted`: a deprecation given as a plain string is written with reason `unspecified`, which the
  hand-written reader used for source files and enum members rejects. C44 `reload_equal_refuted`: a rename without a note
  comes back with one, so it compares as a different value.
* C57 `withdrawn_unreported_refuted`: an item that is no longer deprecated is not in the diff. `spurious_rename_refuted`: a
  rename without a note and the same rename with the default note are shown the same but reported as a change.
* C58 `v1_v2_disagree_refuted`: the v1 diff takes the last group of a metric name, which may be a refinement, so a
  deprecated refinement makes the metric obsolete in the v1 diff but not in the v2 diff.
* C59 `parent_lost_refuted`: extending a version drops the parent's metric attribute renames and its section `all`.
  `parent_twice_refuted`: of two renames of one name the parent reports the first and the extended history the last.
* C60 `chain_refuted`: with `a` renamed to `b` and later `b` to `c`, the name reported for `a` is `b`.
- C61: `canonicalize_json` leaves numbers with the same float value in their original order, so `[1, 1.0]` and `[1.0, 1]` (or two large integers that round to one float) have different canonical forms (`Verif.JsonDiff.canonical_refuted`).
* C62: `check_entity_resource_attributes` compares names only, so a template attribute of an entity is never found in a resource (`entity_template_refuted`).
* C63: `TypeAdvisor` has no case for exponential histogram data points, and spans are checked without a definition, so required attributes (and the entity associations of spans) are never checked for them (`exponential_missing_refuted`, `span_missing_refuted`).
* C64: findings are handed to the exporter before the finding rules apply (`exported_findings_refuted`).
* C66: an attribute of a metric is checked against the last definition of its name in the whole registry, not that of the metric (`signal_definition_refuted`); templates match any name that starts with theirs, also `http.headers` for `http.header` (`template_boundary_refuted`).
* C67: the coverage looks for the finding `template_attribute` in the result, so a filter that drops it changes the coverage (`coverage_filters_refuted`).
* C69: the MCP tool `get_attribute` looks only at the plain attributes, so a template attribute found by `search` cannot be fetched (`mcp_fetched_refuted`).
* C70: the compact answer of the MCP live check leaves out findings about logs, data points, exemplars, span links and others (`compact_output_refuted`, `compact_points_refuted`).
* C71: a key with an empty segment (`a..b`) is counted in `a`, but browsing the sub-namespace `a.` trims the separator and shows `a` again, so totals do not add up (`browse_down_refuted`).
* C73: `update_markdown` replaces `\r\n` before it compares, so a dry run passes on a file an update would rewrite, and fails for ever if a template produces `\r\n` (`dry_run_verdict_refuted`).
* C74: a directive without its end marker (or with the one of the other kind) makes the update delete the rest of the file, without an error (`unclosed_refuted`).
* C75: a generated text that contains `<!-- endsemconv -->` grows the document with each update (`marker_text_refuted`).
* C76: the parser does not require a space after `semconv` and `weaver`, so `<!-- weavers are birds -->` is a directive (`other_words_refuted`).
* C77: `tag_filters` returns the first tag only, against its comment (`tag_filters_refuted`).
* C79: `registry infer` is not deterministic. If two spans were sampled with the same attribute but different types or values, the attribute is described by the one that comes first in the iteration order of a hash map, so two runs on the same samples may differ (`infer_deterministic_refuted`). Span events with an empty name are listed, while log records with an empty event name are not.
* C80: an attribute sampled first with an array and later with a scalar gets the array type and a scalar example, which `registry check` rejects (`examples_conform_refuted`).
* C81: a sampled value without a type, such as an object or a mixed array, is never reported as mistyped (`untyped_refuted`).
* C82: `registry emit` panics on an enum without members, and emits values the live check reports for enums whose first member is a double or a boolean (`emitted_enum_refuted`).
* C83: an empty list of examples is an error for a string attribute, and an integer example is an error for a double attribute (`natural_examples_refuted`).
* C84: the fields of arrays of maps in the body of an event are never validated (`values_checked_refuted`).
* C86: `version: 2`, an integer, is treated as if no version were given, and `file_format: definition/1` with `version: "2"` is read as format 2 (`declared_format_refuted`). Format 2 files are validated before they are translated, so none of the group rules of C41 apply to them.
* C87: `opt_in` with a text, which the schema accepts, makes `attribute_sort` fail (`attributeSort_valid_refuted`).
* C88: the names `x` and `other.x` have the same namespace and id (`names_distinct_refuted`).
* C89: `enum_type` fails on enums of booleans and gives `int` for enums of doubles that are whole numbers (`enumType_declared_refuted`).
* C90: `instantiated_type` fails on `any` and `template[any]` (`instantiatedType_any_refuted`).
* C91: letters outside ASCII are kept in Prometheus names (`promNames_all_legal_refuted`).
* C92: `By/min` gets no suffix and `By/m` becomes `bytes_per_minute`, although `min` is minutes and `m` is meters on their own (`rates_translated_refuted`).
* C93: leading empty lines of a text are lost if there is neither header nor prefix (`blank_lines_kept_refuted`).
* C94: a line length below the length of indentation and prefix underflows: a panic with overflow checks, a limit near 2^64 without (`comment_limit_refuted`).
* C98: `toyaml` does not escape backslashes, so different texts give the same output (`escapeYaml_lossless_refuted`).
* C100: a symbolic link to a file outside of the template directory is listed but cannot be loaded (`listed_loaded_refuted`).
* C101: a file name with `..`, or an absolute one, makes the engine write outside the output directory (`output_confined_refuted`).
* C102: built-in templates in folders are listed without their folder (`embedded_listed_refuted`).
* C103: any entry of the working directory with the target's name hides the built-in templates and then fails (`builtin_default_refuted`).
* C104: the path is checked before it is read, and a change in between can redirect the read (`load_race_refuted`).
* C105: for a relative template path the directories above the working directory are not searched for `weaver.yaml` (`parents_read_refuted`).
* C106: if a package spells an acronym twice, the project's spelling replaces only one of the two and the other can win (`project_acronyms_refuted`).
* C107: null in the parameters of a template or of the command line does not remove the parameter (`null_removes_refuted`).
* C110: two templates that write the same file race, and the content depends on the schedule (`schedule_refuted`).
* C113: the default name of a generated file is the base name of the template without its folder, although the configuration says "same as the input file path", so templates of different folders overwrite each other (`default_distinct_refuted`).
* C118: texts on standard output come in any order (`stdout_order_refuted`).
* C119: after a failing generation the files of the templates that did not fail are there (`all_or_nothing_refuted`).
* C120: two calls with JSON or YAML output to a file concatenate the documents (`file_document_refuted`).
* C121: the first call empties the file before it serializes, so a failing call loses the old content (`failure_keeps_refuted`).
* C122: of `git@github.com:org/repo.git` only `git` is kept as a local folder and the rest becomes the reference (`nothing_lost_refuted`).
* C123: some paths are printed such that they are read back differently (`print_stable_refuted`).
* C125: a registry path of the configuration file that cannot be parsed is silently replaced by the default registry; one setting of the wrong type silently disables the whole section of the command (`file_used_refuted`, `section_used_refuted`).
* C128: `semconv_version` beside a `schema_url` of another version is ignored without a warning (`warnings_refuted`).
* C129: schema URLs with http and https have the same name and version (`name_version_refuted`).
* C130: a blank before a schema URL, which the URL parser strips, makes a part of the scheme part of the name (`blank_before_refuted`).
* C131: an event named `start` and an attribute group with id `event.start` of the same file become groups with the same id (`ids_distinct_refuted`).
* C132: a comment in registry.rs says that signals of different kinds may share a name, but the check of group names compares all groups with a name: the span `host` and the entity `host` are reported as duplicates (`share_name_refuted`).
* C133: `db/redis.yaml` and `db.redis.yaml`, and `a.yaml` and `a.yml`, get the same synthetic name, so that their groups of attribute definitions have the same id and are reported as duplicates (`fileName_inj_refuted`, `files_clash`).
* C148: findings for definition files are lost if the registry cannot be resolved, or the baseline cannot be loaded (`findings_reported_refuted`).
* C149: a finding of level information makes `registry check` fail (`information_passes_refuted`).
* C150: for a registry that is already resolved the policies for definition files are skipped without a message (`skipped_warned_refuted`).
* C151: `--advice-policies` with a directory that does not exist runs without any policy and without a message (`missing_rejected_refuted`).
* C152: a directory whose name ends with `.rego` makes loading the policies fail (`directories_skipped_refuted`).
* C153: one malformed finding hides the well-formed ones of the same rule (`findings_kept_refuted`).
* C154: a data file with `*`, `?` or `[` in its name is not loaded by its path, and there is no error (`itself_loaded_refuted`).
* C155: a file that is not text in a data directory makes loading fail even if it is neither JSON nor YAML (`others_skipped_refuted`).
* C157: the filter of hidden entries applies to the registry directory itself, so `-r .`, `-r ..` and `-r .semconv` load an empty registry without any message (`load_complete_refuted`, `hidden_empty`).
* C158: for a clone with a sub folder that ends with a slash (`url[model/]`), the first character of each path is lost (`provenance_refuted`).
* C159: a registry path that is a YAML file is taken as the manifest; loading then panics (`no_panic_refuted`), or, if the file is named manifest.yaml, gives no definitions (`manifest_registry_refuted`). The panic also occurs for C158 if the first letter is not ASCII.
* C161: names with `..` in a tar archive lead out of the temporary directory (`archive_confined_refuted`).
* C163: a sub folder of two or more names selects nothing, without an error (`unpack_sub_refuted`, `sub_nested`). Archives without a top directory lose the first directory of each path, and files can replace each other (`unpack_top_refuted`).
* C164: `url[/etc]` and `url[../x]` are directories outside of the clone (`clone_confined_refuted`).
* C167: a redirected dependency can resolve to a schema of another URL (`dependency_url_refuted`), and the schema behind a publication manifest can have another URL than the manifest (`loaded_url_refuted`). `resolve_schema` checks this, `resolve_dependency` and `load_and_resolve_schema` do not.
* C168: the URL a manifest declares for a dependency is not compared with the URL in the manifest at its place; the other URL is listed (`declared_listed_refuted`).
* C169: the messages of the resolution of a dependency are dropped (`messages_refuted`).
* C170: `a` redirected to a registry with another URL that depends on `a`: resolution recurses without end (`ends_refuted`). The loader's depth limit does not apply, because each level is loaded on its own.
* C171: the loader fetches the original of a redirected dependency first, and fails if it is not available (`redirection_enough_refuted`).
* C172: a published schema that lists itself is shown without end (`shown_ends_refuted`); one that lists a registry that cannot be fetched can be resolved but not shown (`shown_refuted`).
* C173: two registries without a manifest have the same URL `https://unknown/unknown`, and the second is answered with the first (`history_load_refuted`); a failed request stores the schema under the URL it has, and a later request for that URL is answered with it (`history_request_refuted`); incompatible versions in the dependencies are not noticed if one of the dependencies is cached (`history_conflict_refuted`).
* C174: a registry without a manifest gets an `https` URL even if it was requested with an `http` one, so that the request fails with a mismatch (`request_loads_refuted`).
* C175: a zip archive whose names start with `./` loses the first directory of each path (`unpack_dot_refuted`), because the library's `enclosed_name` drops the `.` before weaver drops the first part.
* C176: importing a signal makes its copies of attributes, with the overrides of that signal, the attributes the registry offers (`attribute_of_chain_refuted`); so does a group with both `extends` of a dependency's group and `include_groups` of a group that refers to the attribute (`attribute_of_mixed_refuted`).
* C177: with two versions of a registry below, the attribute is that of the newer one and the URL that of the first listed (`origin_of_chain_refuted`).
* C178: an imported signal replaces the definitions of the registry by its own copies for dependents (`own_definition_refuted`).
* C183: `imported_of_chain_refuted`. When a registry imports a metric, and a newer version of the registry that declares one of its attributes is around, the attribute is replaced by the definition of the newer version: the note and requirement level that the metric gives it are lost (attribute.rs `upgrade`, called for each attribute of an imported group).
* C184: `imported_level_refuted`. `imported_v2_group` (imports.rs) sets the requirement level to none, while refining the same signal inherits it (dependency.rs).
* C185: `refining_published_refuted`. Published entities are looked up first, and by their bare id too; an entity with id `metric.m` is refined by `extends: metric.m` instead of the metric `m`.
* C187: `confirmed_checked_refuted`. A request that comes in after the stop signal, while the command is busy, is confirmed and never checked.
* C188: `report_arrives_refuted`. A `/stop` request that times out (30 s) while the last samples are checked leaves its sender in the slot; the report is rendered for it, is lost, is not printed, and the command succeeds.
* C189: `ends_refuted`. With `--output http`, if the client of the `/stop` request disconnects before its answer, the handler is dropped before it triggers the shutdown; the command then waits for the admin server for ever, and CTRL+C is no longer looked at.
* C190: `stop_answers_refuted`, `stop_twice_refuted`. The admin server runs before the command says that a report is to be expected; and a second `/stop` request replaces the sender of the first, which is answered with an error.
* C192: `failure_seen_refuted`, `admin_port_taken`. otlp_ingester.rs:254 takes an error for the end of the stream.
* C194: `stops_in_time_refuted`. The monitor sleeps for the timeout between its looks at the last activity.
* C196: `own_resource_refuted`. `attach` gives a sample without a resource the last resource seen, of whichever request.
* C197: `type_of_sent_refuted`, `wrong_type_refuted`. Byte strings and maps have no JSON value and are left out of arrays; an attribute without a value or with a mixed array has no type, and then types are not compared.
* C198: `profile_attrs_refuted`. Indices that are not in the dictionary are skipped.
* C199: `unsupported_refuted`, `hard_break_refuted`, `inline_html_refuted`, `tab_refuted`. Nodes without a case are skipped (links by reference, images, hard breaks); `Node::Html` is added without the pending space; other white space at the end of a text is cut with `ignore_newlines`.
* C200: `dot_follows_refuted`. `write_unbroken` and the first word of `write_words` break the line before them even if no white space was pending.
* C201: `line_limit_refuted`, `line_limit_html_refuted`. The comparison with the limit leaves out the space; `add_html` does not count.
* C202: `tags_refuted`. html.rs escapes nothing.
* C199: an item with two paragraphs is rendered as HTML without anything between them (`Verif.Render.Html.item_paragraphs_refuted`).
* C204: in a quote the marker `> ` is written before every text of a line (`quote_refuted`), not only at the start of lines. Hard breaks and nodes without support are dropped (`hard_break_refuted`, `unsupported_refuted`). In items, a paragraph is not separated from a second one or from code (`item_paragraphs_refuted`, `item_code_refuted`).
* C205: there is one counter for all lists. A numbered list in another list goes on with the number of that list, and the outer list starts again with 1 after it (`nested_refuted`, `nested_bullets_refuted`). The first number of a list is ignored (`start_refuted`).
* C206: with a line length, the label of a link with emphasis in it is taken from the wrong place: the definition is `[[a **b**]: u` (`label_refuted`).
* C207: without `escape_backslashes`, a text with `\[` or `\*` is written as it is and read without its backslash (`reads_back_refuted`, `reads_back_default_refuted`).
* C208: attribute groups are the only kind that the view does not order, so templates see them in the order of the schema (`group_order_refuted`).
* C209: a reference in the list of attributes of a registry that leads nowhere is left out without an error, unlike those of signals (`dangling_attribute_refuted`).
* C214: the statistics of attribute groups have no stabilities, deprecated groups or notes, whatever the groups say (`groups_uncounted_refuted`).
* C217: examples of booleans and of arrays of booleans are ignored by emit, and a double with integer examples is emitted as 3.13 (`examples_refuted`).
* C218: the round trip with emit that the README of weaver_live_check describes always has a `missing_attribute` violation for `otel.weaver.registry_path`, unless the registry defines it (`root_violation`); and an event of the first format with a prefix but no name is emitted under its id, under which the live check does not know it (`round_trip_refuted`).
* C221: an empty key at the top of a context, or a context that is a scalar, is left out of the log record; keys with dots may collide with nested ones (`context_kept_refuted`, `context_keys_refuted`).
* C223: `DataPoints` is untagged and unknown fields are ignored, so exponential histograms in JSON input are always read as histograms, without buckets (`json_round_trip_refuted`); the variant for exponential histograms is only reached by histograms with a bound that is null (`exponential_iff`).
* C224: the path of an error about a whole file is empty, which `parse_xpath` rejects, so that such errors (a missing or unknown key at the top) are shown without a place; keys that are numbers are taken for positions; empty keys are skipped, so that another node may be shown (`span_found_refuted`).
* C227: snippets of the second format drop the provenance of the item and of its attributes, which pages show (`snippet_shows_page_item_refuted`).
* C228: items whose names are not of the form of snippet ids (for example a metric `5xx.count`) cannot be shown in a snippet (`every_item_can_be_shown_refuted`).
* C230: `update-markdown` with a directory that does not exist succeeds; the warnings of resolution are lost if a file fails; a dry run reports files as not up to date if a snippet could not be generated (`command_refuted`).
* `registry diff` drops the messages of fetching both registries, so that a deprecated manifest is no error in the future mode (C231); `mcp` drops all messages and `serve` only logs them, also errors.
* `registry generate`, `resolve` and `emit` write artifacts or send telemetry before they look at the errors (C232).
* `registry stats` and `diff` drop warnings; `generate` drops all messages if a template fails (C233).
* `registry emit` and `serve` take policies but never apply those for the resolved registry (C234).
* `registry package` is not atomic: a failure between its two files leaves a new resolved registry next to an old manifest (C235).
* The user interface of `registry search` panics (debug) or selects a result out of range (release) on the second arrow key if there is no result (C236).
* The default live check policy does not check the format of names that begin with the letters of a template (`http.headerX!` with the template `http.header`), nor names of events (C237).
* The message about a colliding namespace calls the sample's key the existing attribute; an attribute named like an existing namespace is not reported (C238).
* Namespaces only template attributes have do not count as existing (C239).
* advice.jq lets a refinement with the id of an entity hide that entity, and of registries with one schema URL the last one stand, unlike the lookup of the live check (C242).
* `ignore_code_generation_annotations: false` has the effect of `true`; enums can be left without members by `stable_only` (C243).
* The options of `semconv_entities` do not apply to the attributes of entities of version 2 (C245).
* In version 1 `semconv_spans` and `semconv_entities` are sorted by a field that is the same for all (C246).
* Root namespaces differ between the versions for names without a dot, and for groups whose id does not begin with their kind (C247).
* A result of a filter that is not printed as JSON (such as NaN) becomes null without an error (C248).
* A registry inferred from telemetry does not accept that telemetry: attributes of scopes, links, exemplars, profiles and logs without an event name are not learned, and summaries neither (C250).
* Events of spans become events of the inferred registry, which the live check never sees as covered (C252).
* The URL of an asset is taken from the description of the release without a check, and the token of the user is sent there (C253).
* URLs of assets of releases whose tag has a slash are taken apart wrongly (C254).
* The cache of descriptions of releases does not depend on the token they were got with (C255).
* `https://…/get?file=registry.zip` is taken for an archive and then refused; `https://…/registry.zip?raw=true` is taken for a manifest (C256).
* `pascal_case` is not idempotent: `a.b` gives `AB`, this gives `Ab` (C259).
* `a.b` and `a_b` have the same name in every case convention, `a.bc` and `a.b_c` the same constant (C260).
* Of several errors of templates with the same message but different causes `print_dedup_errors` shows the causes of the first only (C262).
* A default of a flag that is not a value of its type (`#[config(default = "yes")]` for `bool`, `"70000"` for `u16`) compiles, is shown in the help, and is `false` or `0` (C263).
* A field with `#[config_only]` before `#[config]` shows the default of the second and uses that of the first (C263).
* `assert_config_cli_consistency` accepts a setting without a flag if its name is that of a flag that writes elsewhere, as `admin_port` beside `otlp.admin_port` would (C266).
* With the user interface built in, `weaver serve` answers requests for paths of the API that do not exist, with any method, with status 200 and a page (C269).
* `--cors-origins` with `*` in a list, or with a blank beside `*`, makes the server panic (C271).
* The check of schema compatibility does not see changes below recursive references or beside `$ref`, nor removals in a schema that loses its `file_format` (C272, C273).
* `cargo xtask check-downstream` does not accept refs with a slash, though it prints them, and checks out repositories of different hosts into one directory (C275, C276).
* Text within `ansi_…` filters that has styles of its own loses the outer style after them (C277).
* In the statistics of a diff, renamed items are counted twice, as renamed to new and to existing ones, and uncategorized ones not at all (C280).
* The build script of the code generation test loses files of a directory beside a file of the same name, depending on the order of the walk (C278).
* The requirement level `opt_in` is printed as `opt-in` (C281).
* The check of the workspace passes with a Cargo.toml that is no TOML (C282).
* If a v2 schema has a metric and an event of the same id, what the event means by its entities goes with the metric (C289).
* `OTEL_RESOURCE_ATTRIBUTES="a=b, service.name=shop"`: with the space, findings are sent as of the service `weaver` (C297).
* `registry diff` of v1 registries never reports changes of entities in its default formats: the templates read `changes.resources`, the map has `entities` (C301). In v2 diffs changes of attribute groups are not reported.
* `--diagnostic-format gh_workflow_command` shows no error that is not a policy violation: the second loop of the template is over `policy_violations` (C302).
* The live check report leaves out the values `false`, `0` and `""` of attributes (C303).
* `weaver diagnostic init github` writes nothing and reports success (C304).
* An error that a command returns is one diagnostic message even if it carries many errors, and its severity is lost (C305); the resolver does the same with compound errors of definition files.
* `vv1.2.3` is the version 1.2.3 of a schema URL: every letter v in front is taken away (C308).

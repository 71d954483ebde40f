# Formal model of plainbox in Lean 4 — design

## What this is

`/verif/lean` holds a Lean 4 model of selected parts of plainbox (source in `/repo`, read as text,
never executed) and machine-checked proofs of the properties in `properties.jsonl`.
The status of each property is in `MANIFEST.json`.

## Trusted base

* The Lean 4.33.0 kernel and the core library / Mathlib modules imported one by one.
* Axioms: no axiom is added. Every property theorem depends on at most `propext`,
  `Classical.choice` and `Quot.sound` (checked with `#print axioms`; the list per theorem is in
  `lean/axioms.txt`).
  No `sorry`, `admit`, `native_decide`, `bv_decide`, `implemented_by`, `unsafe`.
* The hand translation from Python to Lean. It is made function by function; each definition cites
  file and lines. This translation is the main trusted step: nothing checks it mechanically.
* Python runtime facts used by the translation and not proved: list/dict/set semantics, stable
  `sorted`, `str.split`, POSIX rename atomicity (stated as the semantics of the file system model),
  FIFO `queue.Queue`, `base64`/`json` are modelled where a property is about them and otherwise
  treated as parameters.

## Conventions

* One Lean namespace per source file. Models are shallow: total computable functions on `List`,
  `Nat`, `Int`, `Option`, `Except` and structures. A Python exception is a value (`Except.error`).
* Python sets/dicts whose iteration order is unspecified are lists in *arbitrary* order, and the
  theorem quantifies over the list; insertion-ordered dictionaries are association lists.
* Loops that could diverge in Python are modelled with fuel and an explicit out-of-fuel result, so
  that termination is a theorem rather than an assumption.
* `Verif/Model/*.lean` holds models, `Verif/Lemmas/*.lean` helper lemmas, `Verif/Props/*.lean` the
  property theorems together with the specification predicates they are stated in and the
  `example`s showing that hypotheses are satisfiable.
* If the code violates a property: a theorem `..._violated` proves the negation on a concrete
  witness, a theorem `..._partial` proves what does hold, and the disagreement is listed below.

## Plan per property

| id | modelled | proof |
|----|----------|-------|
| C01–C03 | `DependencySolver` DFS with colours, trail, solution; `_get_job_map`; all four errors | invariant on (colours, trail, solution) by induction on fuel; completeness via fuel bound = number of white nodes |
| C04 | repair loop of `update_desired_job_list` | measure = desired + available; uses C01–C03 |
| C05 | `get_inhibitor_list`, `_recompute_job_readiness`, `can_start` | case analysis; specification in terms of results/resources only |
| C06, C09, C10 | `SessionState` operations as a transition system | invariant by induction over histories |
| C07 | run loop of an application over run list | induction over the run list using C01 |
| C08 | outcome loop of `run_job` | fold lemma, permutation invariance |
| C11 | aggregate outcome functions, stats | specification by membership; permutation |
| C12, C13 | qualifier trees, flattening, `select_jobs` with fast path | structural induction; order specification by index |
| C14, C15 | line-level RFC822 dumper and parser (characters as `Char`, lines as `List Char`) | round trip by induction over lines; violated for dotted lines |
| C16–C18 | expression syntax tree, visitor, product evaluation, program | visitor soundness violated for call arguments; partial for call-free trees; existential characterisation |
| C19, C20 | v6 document, suspend, resume, repeated cycles; the same through the JSON value with every validation | round trip; refinement of the tree model by the JSON model; violations for hollow results, repeated results and mandatory growth |
| C21, C22 | system-call level file-system model with crash points and failures | invariant over all prefixes; violation for swallowed rename failure |
| C23 | JSON value model and validator of resume | case analysis; violations listed |
| C24, C25, C27 | POD field assignment, results, history | induction over assignments; violations for repeated equal results and `unique` |
| C26 | base64 and JSON line format | round trip for all byte lists |
| C28–C30 | scanner state machine, parsers | round trip, fuel-based termination; violated for unterminated quote |
| C31, C32 | override merging and application | last-wins specification; violations |
| C33–C35 | checksum pre-image, qualification, templates | injectivity of canonical form up to hash; violation through `namespace` field |
| C36–C38 | controller scores and choice, environment delta, runner decision table | max/argmax lemma; pointwise map equality |
| C39 | config variables and reader | invariant over histories; violation for unparsable ints |
| C40 | cache with crash points | violation (error in the error handler), partial |
| C41, C42 | assistant protocol as state machine; provider selection | invariant over call sequences; violations |
| C43 | signal registry | history induction; violation for `remove_signals_listeners` |
| C44 | threads as interleaving transition system | invariant over all schedules |
| C45 | launcher lookup, NAME=VALUE encoding | round trip |
| C46 | device context add/remove with checksum list | history induction; violations |
| C47–C52 | small functions; C52 also `shlex` and `configparser` | direct; lexer run on quoted text |
| C53, C54 | `get_accessed_parameters`, `instantiate_template` of each unit class | structural; table of classes |
| C55 | environment of the trusted launcher | pointwise map equality |
| C56 | import statements of resource programs | specification of bindings |
| C57 | `extcmd` with the delegates of the runner | corollary of C44's invariant |
| C58 | data written by `Config.get_parser_obj` and read back | round trip per kind of variable |
| C59 | allowed-call sets of the assistant, with exceptions half way | invariant over call sequences |
| C60, C61 | device context: providers, id map | history induction; violations |
| C62 | option strings, `get_session_data_subset`, log encodings | specification per key; decoding with the base64 model; violation: certification status of attachments, empty durations |
| C63 | member names of the tar exporter | injectivity of names; violation: `a.stderr` |
| C64 | loading of collections as folds over sorted names; lazy collection as a transition system | permutation invariance, induction over calls; violation: failed eager load |
| C65 | content loader over classified files | induction over the file list; violations: path map, repeated load |
| C66 | classifier functions over path strings | prefix lemmas; violation: sibling directories, build directory of translations |
| C67 | validators as regular languages, definition, plug-in, search path | language characterisation; violations: unanchored patterns, environment |
| C68 | dialogue loops over streams of answers | induction over answers; violations: explicit-fail, comments lost by re-running |
| C69 | outer run loop with generated jobs, completion ratio | termination measure; ratio bounds; violation: jobs without estimate |
| C70 | os-release parser, strategies, Debian driver | decision logic; list lemmas; violation: generic units are used beside specific ones |
| C71 | the regular expression with its backtracking, `float` as a parameter; totals over rationals; time left | all ways to match = all readings, reading from the left is unique; sums by induction; violations: blank texts, zero totals, test plans |
| C72 | units with identifiers and references, the context of installed providers, the events of validation; the solver of C01-C03 | both directions by cases on the units with an identifier; with `C02_errors_truthful` for the second part; violations: cycles, an installed copy under the same name, repeated problems |
| C73 | the file system as a map from paths; `setup`, `install` command by command; loading with the model of C67 | framing lemmas for each command (what is apart from the destination does not change), destinations shown pairwise apart, then `C67_accepted` and `C67_fields`; violations: `%`, empty `bin`, simple names, `locale`, names with dots after the colon, a second installation; the text of the provider file through the round trip of C106 (`C73_text_partial`) |
| C74 | a strict UTF-8 decoder as a state machine; `copyfileobj` chunk by chunk; the transports; option strings | the decoder accepts exactly the encodings of RFC 3629 (both directions), so a chunk is printed exactly if it ends between characters; violations: buffer boundaries, names of encodings, bytes given to the transports |
| C75 | results and categories as association lists, rows as a list; `_tree`, `_write_job`, the texts of the cells, `write_attachments` | invariant of `_tree` (what a category holds after each job), one lemma for rows, numbers and totals composed over jobs and categories; exact condition for a report (`C75_complete`); violations: unknown category, identifier that is a category name, binary log, second use, crashes |
| C76 | the service as a state machine over the expectations of the assistant (model of C41), with generators, lock, waiting calls and the thread; events for started, ended, recorded | simulation with a small observer (`watch`) for all histories; no password, no job that needs it (`C76_password`); invariant for clients that use one generator at a time (`C76_own_partial`, `C76_whats_up_partial`, `C76_monitor_partial`); induction over the jobs of a session (`C76_session`); violations by witnesses and, for jobs that raise, by an invariant that nothing happens any more |
| C77 | the choosing calls over the session of C04 to C09, with containers and one-shot iterators as arguments | invariant over all histories (`Reached`, `Good`); an independent `Needed` for what must run (`C77_alternate`, `C77_filter`, `C77_hand_pick`, `C77_plan`, `C77_iterator_partial`, `C77_filter_iterator_partial`); `C77_unknown`; `C77_never_grows`, `C77_everything` (from stability of the dependency order), `C77_restore`, `C77_no_exception`, `C77_mandatory_stay`; violations in general form and by a bootstrap that makes a mandatory job |
| C78 | the repository, one process at a time with its session, its allowed calls and its listing generators; crashes and failed checkpoints at any step | every step is one of ten kinds (`step_move`); invariants `Good`, `Unfinished`, `Finished` over all histories; `C78_listing`, `C78_reopen_partial`, `C78_interrupted`, `C78_results_kept`, `C78_result_saved`, `C78_unfinished`, `C78_begun`, `C78_finished_partial`, `C78_found_partial`, `C78_old`, `C78_delete`; five violations |
| C79 | values, the tagged encoding with UTF-8 and decimal numbers, frames, reads and writes of a socket as lists of events | structural induction over values (`load_dump`); reads specified by the bytes that arrive (`read_spec`); `Wire` describes what a sender leaves on the wire; `C79_roundtrip`, `C79_prefix_free`, `C79_plain`, `C79_dumpable_partial`, `C79_dumpable_of_dump`, `C79_messages`, `C79_sent`, `C79_closed`; violations `C79_dumpable_violated`, `C79_truncated_violated` |
| C80 | the owner's counted collection, references and requests on the way, the proxies that are alive; the decision about an attribute | invariant `Good`: counted references = on the way + proxies + deletions on the way + references received while there was a proxy; `C80_usable`, `C80_alive`, `C80_distinct`, `C80_release_partial`, `C80_disconnect`, `C80_attributes`, `C80_exposed`, `C80_private`; violation `C80_release_violated` |
| C81 | calls as programs with a program counter, interleaved step by step over the queue and the lock | invariants `Inv` (one holder; handed over = tried + in flight + queue) and `Watched` (a queue that is not empty is looked at by somebody); `C81_order`, `C81_complete`, `C81_returns`, `C81_drains`; violations `C81_forgotten_violated`, `C81_blame_violated` |
| C82 | three ways to read a field over the data and raw data of a unit, the texts of a job, and a memory of what was read | lemma `normalize_rstripNL` (newlines at the end do not matter unless they decide whether there is more than one); `C82_verbatim`, `C82_field`, `C82_absent`, `C82_marked`, `C82_unmarked`, `C82_translated`, `C82_untranslated_partial`, `C82_texts_partial`; invariants `Right` and `Grows` of the memory for `C82_remembered`, `C82_stable`; violations `C82_untranslated_violated`, `C82_default_violated` |
| C83 | contexts with jobs, remembered map and test plans under a manager, over `Overrides` | invariant `Inv` over calls for `C83_current`; `history` by induction over calls for `C83_history` (values = all lists seen since the job was added); invariant `Only` for `C83_values_partial`, `C83_order_partial`; violations `C83_changed_violated`, `C83_raised_violated` |
| C84 | two ends with counters, waiting calls, stored replies, callbacks, received messages, running handlers, and channels; a record of events | counting invariant `Inv` (each request is in one place) and value invariant `Traced`, by induction over steps: `C84_own`, `C84_own_async`, `C84_asked`, `C84_once`; invariant `Late`: `C84_late`; `C84_arrives_partial`; `C84_completes` by a decreasing measure; violations `C84_never`, `C84_lost_violated`, `C84_unsent_violated`, `C84_blame_violated` |
| C85 | threads with program counters, `_sync_lock`, `_sync_event`, stored replies and arrived messages, one step per operation | invariant `Inv` over all interleavings: `C85_one_receiver`, `C85_not_forgotten`, `C85_returns`; the control flow of a call whose reply is stored (`Next`): `C85_once_more_partial`; `C85_alone` (one call at a time); violations `C85_receives_violated`, `C85_wakeup_violated` (all continuations without a message), `C85_spin_violated` |
| C86 | a repository of stored sessions, at most one process with a program counter and its session in memory, one step per checkpoint, answer or result; the process can die at any point | invariant `Inv` (memory against store), and what one step may do to the repository (`Change`), over all runs: `C86_offered`, `C86_begun`, `C86_unfinished`, `C86_kept`, `C86_once`, `C86_running`, `C86_resumed`, `C86_last`, `C86_untouched`, `C86_saved_partial`, `C86_complete_partial`; violations `C86_again_violated`, `C86_empty_violated`, `C86_export_violated` |
| C87 | units with identifiers, plans with fields as read, the qualifiers computed by recursion over nested parts with a limit | an independent relation `Part`; induction over the limit for the primitive qualifiers of the result, C12 and C13 for what they select: `C87_selected`, `C87_jobs`, `C87_mandatory`, `C87_stages`; `C87_usable_partial` (counting plans: no circle, so the recursion ends); violations `C87_circular_violated`, `C87_union_violated`, `C87_session_violated` |
| C88 | the options, the units of each provider by identifier, any order of the set of providers, expressions as in C31 | what each list of qualifiers contains, C13 and C87 for what it selects, a lemma about first positions for the order: `C88_selected`, `C88_order`, `C88_bad`, `C88_unknown`, `C88_lookup`; `C88_pattern_partial` (no alternatives at top level), `C88_listing_partial`; violations `C88_alternation_violated`, `C88_bad_violated`, `C88_unknown_violated`, `C88_provider_violated`, `C88_lookup_violated`, `C88_mandatory_violated`, `C88_bootstrap_violated`, `C88_listing_violated` |
| C89 | the details as a record, written to and read from the JSON of C22, files by what reading and decompressing them ends with, the loops as they are | reading back field by field, the same checks as in resuming, induction over the repository: `C89_saved`, `C89_resumable`, `C89_remove`; `C89_refused_partial`, `C89_run_partial`, `C89_resume_partial`, `C89_old_partial`, `C89_list_partial`; violations `C89_truncated_violated`, `C89_unreadable_violated`, `C89_resume_violated`, `C89_list_violated` |
| C90 | the session of C05–C10, one consideration as in C07, any sequence of them with the trace of what was started and with which result | what one consideration changes in result, history and tries; induction over the sequence; the list of jobs to do loses its head: `C90_tries`, `C90_limit`, `C90_started`, `C90_results`, `C90_todo`; violations `C90_result_violated`, `C90_blocked_violated`, `C90_saved_violated` |
| C91 | units with identifier, kind and plugin; the lines of the fields as matchers or errors; validation as a list of issues that an exception cuts | what each validator yields, by induction over the lines; membership in the whole: `C91_ends`, `C91_dead`, `C91_twice`, `C91_bootstrap`; `C91_selects_partial` (all identified units are jobs); violations `C91_selects_violated`, `C91_nested_violated`, `C91_twice_violated`, `C91_bad_violated`, `C91_bootstrap_violated`, `C91_words_violated` |
| C92 | the record parser of C15, `str.splitlines`, the lines that `IncludeStmtList.parse` takes, offsets added to origins | what is written on which line is read from the file directly; the paragraph of the field is found by splitting the file, the lines of the normalized value by following `dedent` and `strip`: `C92_line_partial`, `C92_issue`; violations `C92_violation_comment`, `C92_violation_dot`, `C92_violation_break`, `C92_violation_translated` |
| C93 | the validators of templates on a job made from the made up resource; the format language with conversions, `get_record_value`; jobs made from any resources as in C35 | the fields that must not vary are listed apart; the identifier is described by the text around one parameter; what the made up job mentions is related to what jobs made from any resource mention: `C93_fixed`, `C93_distinct_partial`, `C93_numbered`; violations `C93_distinct_violated`, `C93_marked_violated`, `C93_unable_violated`, `C93_filter_violated`, `C93_unknown_violated` |
| C94 | return values and exceptions of commands, what is done with them, and what the interpreter makes of `SystemExit`; ends of programs as in C38 | a command says that it did what it was asked to do by returning nothing or zero; the whole decision is compared with that, and statuses are compared with ends of programs: `C94_zero`, `C94_tool_partial`, `C94_usage`, `C94_build`, `C94_script`, `C94_develop`, `C94_launcher`, `C94_launched`, `C94_debugger_partial`; violations `C94_interrupted_violated`, `C94_pipe_violated`, `C94_pdb_violated`, `C94_i18n_violated`, `C94_script_violated`, `C94_killed_violated` |
| C95 | the early parser, the guess, the full parser as far as it finds the command; loading commands with its two kinds of failure | the lazy tool is compared with the same tool that loads everything: `C95_same_partial` (apart from the commands shown), `C95_alone`, `C95_fallback`; violations `C95_help_violated`, `C95_choice_violated`, `C95_early_violated` |
| C96 | UTF-8 both ways on bytes, the translator, `copyfileobj` with and without a length | UTF-8 is proved to be a bijection between texts and what can be decoded; the copy is compared with the text by induction on its pieces: `C96_stdout_partial` (an exact condition), `C96_short`, `C96_plain`, `C96_other`, `C96_send`, `C96_file`; violations `C96_long_violated`, `C96_name_violated` |
| C97 | the directory of links, the list of executables, namespaces, the environment as in C55 and C37, the search of a shell along `PATH` | what a name stands for is characterised by the files of providers and their order, and the search by that and the path there was before: `C97_first`, `C97_every`, `C97_path`, `C97_decision`, `C97_own_partial`, `C97_system`, `C97_only`, `C97_others`; violations `C97_own_violated`, `C97_user_violated`, `C97_colon_violated`, `C97_unset_violated` |
| C98 | trees of files, links to directories and directories; `os.walk` and the loop over it; what is logged | entries are given by an inductive relation on trees and compared with what is reported, by induction on trees: `C98_sound`, `C98_complete_partial`, `C98_once`, `C98_logged`; violations `C98_link_violated`, `C98_unreadable_violated` |
| C99 | the filter over the states of jobs, the template of the exporter `global`, the choice of the device | verdict compared with the outcomes of all jobs: `C99_map`, `C99_blockers`, `C99_word`, `C99_sound`, `C99_verdict_partial`, `C99_none`; violations `C99_spelling_violated`, `C99_crash_violated`, `C99_devices_violated` |
| C100 | the text that the template gives, with the escaping of Jinja2; counting as in C11 | a reader of XML is the specification; it is a machine that reads characters, and is run over the pieces of the text: `C100_reads_partial`, `C100_order`; violations `C100_tests_violated`, `C100_shown_violated`, `C100_character_violated`, `C100_return_violated` |
| C101 | the incremental decoder of UTF-8 with its buffer, its errors and how many bytes they concern; the removal of control characters | the reading of bytes is a relation on bytes and text, shown to be unique; the decoder follows it, by induction over its steps: `C101_reads_partial`, `C101_text`, `C101_records`, `C101_bad_byte`, `C101_cut_off`, `C101_clean`, `C101_chunks`, `C101_attachment`; violations `C101_interleaved_violated`, `C101_report_violated` |
| C102 | the template, section by section; autoescape, `jsonify`, `strip_ns`, `indent`, `sort` and `dictsort` | a reader of JSON after RFC 8259 (a machine over characters with a stack) is the specification, together with a relation that says what is under each key; every piece of the report takes the reader from one state to another whatever is around it, indentation does not change what is read, by induction over the text: `C102_reads_partial`, `C102_entities_partial`; violations `C102_entity_violated`, `C102_backslash_violated`, `C102_attachment_violated`, `C102_snap_violated`, `C102_stamp_violated`, `C102_memory_violated` |
| C103 | the pattern of ANSI sequences, replacing its matches, `comments`, `add_comment`, suspending and resuming of comments | sequences are defined as in ECMA-48; removing them is an inductive relation, shown to have one result; the pattern matches just the sequences, and no sequence begins another one: `C103_cleaned`, `C103_none`, `C103_pieces_partial`, `C103_plain`, `C103_added`, `C103_resumed_partial`, `C103_settled`; violations `C103_again_violated`, `C103_control_violated` |
| C104 | the loops of the template, the tables, the pages and the ids of all elements, `category_map`, `category_outcome_map`, the chart; reading of text by a browser and following of links | values are escaped and read back; ids are shown to be different by their first character and by where their digits end; tables of categories are a partition of the tests: `C104_shown_partial`, `C104_all_partial`, `C104_tables_partial`, `C104_chart`, `C104_chart_order`, `C104_log_partial`; violations `C104_missing_violated`, `C104_heading_violated`, `C104_package_violated`, `C104_first_line_violated` |
| C105 | `_add_job_unit`, `_add_job_siblings_unit`, the record values with their translations, `get_flag_set`, `get_direct_dependencies`; inserting of parameters given, shown for the formatter of `Varies` | words of a text by what surrounds them, removal of flags word by word, word lists of `Words`, induction over the tree of jobs: `C105_suspended_partial`, `C105_brings_partial`, `C105_brings_none`, `C105_sibling_partial`, `C105_translated_partial`, `C105_added_partial`, `C105_session_partial`, `C105_inserts`; violations `C105_flag_violated`, `C105_comment_violated`, `C105_clash_violated`, `C105_override_violated`, `C105_translation_violated`, `C105_braces_violated` |
| C106 | `PlainBoxConfigParser.write`, the reader of `configparser` line by line as set up by `Config.read` and `read_string`, line ends of files | what is read back is computed for all data by induction over lines, options and sections (`C106_kept`), values that come back exactly (`C106_value_iff`), round trip `C106_round_partial`, `C106_file_partial`, `C106_config_partial`; simulation of two readers for several files: `C106_later`, `C106_files`, `C106_faulty`; invariant for exceptions `C106_crash_partial`; violations `C106_hash_violated`, `C106_indent_violated`, `C106_end_violated`, `C106_return_violated`, `C106_bracket_violated`, `C106_name_violated`, `C106_crash_violated` |
| C107 | `Section`, `ParametricSection`, `_read_commit`, `get_parser_obj`, interpolation of the standard library with references | values by an inductive relation equivalent to the bounded expansion (`C107_value`); sections and parametric sections after reading: `C107_section`, `C107_section_partial`, `C107_param`, `C107_files`; exceptions `C107_raises`; writing `C107_write_iff`, round trip `C107_round_partial` through C58 and C106; jobs through C55: `C107_environment`; violations `C107_default_violated`, `C107_stale_violated`, `C107_unset_violated`, `C107_percent_violated`, `C107_colon_violated` |
| C108 | `_FieldCollection`, `PODMeta.__new__`, `podify`, `__eq__`, `__lt__`, `as_tuple`, methods of `total_ordering` with the protocol for reflected methods | fields of every class `C108_class`, invariant over hierarchies `C108_names`, `C108_inherits`; equality and order by place `C108_equal`, `C108_less`, laws `C108_equivalence`, `C108_order`; copies through C53 `C108_copy_iff`; violations `C108_kind_violated`, `C108_podify_violated`, `C108_none_violated`, `C108_diamond_violated`, `C108_copy_violated` |
| C109 | `dir_list`, the recursive enumeration with `os.walk`, `relpath` and `isfile`, the collection and the loader of C65 | both layouts against reachability in trees `C109_packaged`, `C109_source`, `C109_base`, `C109_once`, `C109_complete_partial`; together with C65 and C66 `C109_units`; violations `C109_unreadable_violated`, `C109_outside_violated`, `C109_link_violated` |
| C110 | the exporter for text in both forms, the metadata of outcomes and the encoding | both forms against lines in words `C110_plain`, `C110_colour`; unique reading `C110_unique_partial`, `C110_colour_unique_partial`; `C110_column`, `C110_raises`; with C96 `C110_stdout`; violations `C110_history_violated`, `C110_skip_violated`, `C110_newline_violated`, `C110_terminal_violated`, `C110_column_violated` |
| C111 | `relpath`, `abspath` and `normpath` on texts, sources, origins and issues | against a relation that follows a path step by step `C111_relpath`, `C111_origin`, `C111_distinct`; unique reading `C111_shown_partial`, `C111_issue_partial`; violations `C111_colon_violated`, `C111_kind_violated`, `C111_nowhere_violated`, `C111_nameless_violated` |
| C112 | what the code asks of the machine as data, exceptions as values | equation against an independent reading of the file `C112_linux_partial`, unique reading `C112_unique_partial`, `C112_none`, `C112_windows`, `C112_one`; violations `C112_uname_violated`, `C112_separator_violated` |
| C113 | the loops over units and short names, `re.split`, making an exporter, both commands; exceptions as values | against a relation that picks the last unit `C113_names`, `C113_strict`, `C113_made`, `C113_lenient_partial`, `C113_accepts`, `C113_commands`, `C113_unknown`, `C113_lists`; violations `C113_value_violated`, `C113_comma_violated`, `C113_none_violated` |
| C114 | the table of symbols, comparison, bodies of definitions as statements, derived types by chains of definitions | invariant of the table `C114_same`, `C114_compare`, `C114_other`; induction over the body `C114_define`, `C114_refused`; `C114_listed_partial`; induction over the chain `C114_fields_partial`, `C114_checks_partial`, `C114_types`; violations `C114_meta_violated`, `C114_twice_violated` |
| C115 | the reports as lines with what is raised, `timedelta` and its text, the programs of `requires` from `Resource` | induction over the reports `C115_order`, `C115_stopped`; `C115_sections` (with `C71_totals`), `C115_works`; the text of a duration `C115_clock`, `C115_clock_unique`, `C115_rounded`; violations `C115_validation_violated`, `C115_packages_none`, `C115_packages_silent`, `C115_packages_violated`, `C115_local_violated` |
| C116 | the translator with its tables and caches, run on sequences of calls; the specification has settings only | invariant over the calls so far (tables and caches agree with the settings and tell only of what was used) `C116_partial`; caches only grow `C116_same`; violations `C116_domain_violated`, `C116_stale_violated`, `C116_directory_violated` |
| C117 | the scores, the sort, `glob` and `fnmatch` with classes of characters, `relpath` of `Locate`, `quote` of `Restart`; the effects as events | `C117_best` by induction over the sort; `C117_where` by the components of paths; `C117_choice_partial`, `C117_build_partial`, `C117_clean`; violations `C117_bracket_violated`, `C117_star_violated` |
| C118 | the writers of formats 1–3 and 4–5, the reader of formats 1–5, the dispatch on the version, over the session of `Suspend` | `C118_formats` by cases; `C118_selection_partial`, `C118_newest`, `C118_early_partial`, `C118_middle_partial` from the invariant `Proc` of `Suspend`; `C118_early_succeeds`, `C118_middle_succeeds`; violations `C118_mandatory_violated`, `C118_history_violated` |
| C119 | `ShellProgramValidator.check` with the lexer of `shlex` in posix mode as a state machine | `C119_exact`: the language of the lexer is that of a grammar of quoting where `#` always begins a comment; `C119_partial`: it is that of the shell if `#` is only after the end of a word; `C119_accepts`, `C119_issue`, `C119_near`; violations `C119_rejects_violated`, `C119_accepts_violated`, `C119_shift_violated` |
| C120 | `autopager` and `find_exec` over an arbitrary table of what `os.access` tells | `C120_exact` by induction over names and directories; `C120_partial`: the output is seen if no directory is found; `C120_user`; violations `C120_empty_violated`, `C120_options_violated` |
| C121 | `get_object_tree` and `_show` over trees of objects | `C121_group` by induction over the three levels; `C121_tree`, `C121_systems`: the indentation can be read back, by mutual induction over trees; `C121_given_partial`; violation `C121_fails_violated` |
| C122 | `I18NCommand` as a list of events (directories made, lines printed, programs run) | `C122_commands`: the commands read and write the right files, with the relation `Leads` of C111; `C122_dirs`, `C122_dry`, `C122_domain`; `C122_found_partial` with the definition's model; violations `C122_shadowed_violated`, `C122_dry_violated`, `C122_status_violated`, `C122_hidden_violated` |
| C123 | `SourceDistributionCommand` and `TarFile.add` over trees of files | `C123_content` by induction over trees; `C123_signed_partial` with the shell words of C52; `C123_names_partial`; violations `C123_names_violated`, `C123_signed_violated`, `C123_status_violated`, `C123_locale_violated` |
| C124 | `get_warm_up_sequence` over any jobs, controllers and functions, with the choice of controllers of C36; the run command and the assistant as lists of events | `C124_sequence` by induction, `C124_linux`, `C124_quiet`, `C124_harmless` with the launcher's model, `C124_before_partial`, `C124_again`; violations `C124_pkexec_violated`, `C124_added_violated`, `C124_again_violated`, `C124_outside_violated` |
| C125 | `get_command_name`, `get_command_help`, `get_command_description`, `get_command_epilog` with `inspect.cleandoc` and `expandtabs`; `add_subcommand`; `manage_py_extension` | `C125_texts`: round trip from a grammar of written docstrings; `C125_attributes`, `C125_name_partial`, `C125_extend`; violations `C125_name_violated`, `C125_twice_violated`, `C125_install_violated` |
| C126 | `_add_service`, `_remove_service`, `cmd_query`, `cmd_register`, `cmd_unregister`, `_work` with `brine.load` and `brine.dump` | `C126_query`: refinement of a per-server reading of the history, by induction over commands; `C126_added`, `C126_wire`; `C126_removed_partial`, `C126_survives_partial` with violations `C126_removed_violated`, `C126_survives_violated` |
| C127 | `vinegar.dump`, `vinegar.load`, the cache of generic classes | `C127_roundtrip_partial`, `C127_safe` for all values of a peer, `C127_dumpable`, `C127_class_partial`; violations `C127_stop_violated`, `C127_write_violated`, `C127_class_violated` |
| C128 | `RenderingContext.para` with `textwrap.wrap`, `splitlines` and justification; `CanonicalCrashIngredient.dispatch_failed` | `C128_box_partial`, `C128_words`, `C128_crash`: invariant of the wrapping loop (nothing lost, width kept, progress); violation `C128_box_violated` |
| C129 | `NormalUI.got_program_output` and its frame, `FallbackCommandOutputPrinter.on_line`, decoding that ignores errors, on the events of model `Extcmd` | `C129_screen_partial`, `C129_text`, `C129_reading`, `C129_hidden`, `C129_numbered_partial`, `C129_stopped`: a newline is a byte of no other character, so lines can be read one by one; composed with C44; violations `C129_chunked_violated`, `C129_numbered_violated` |
| C130 | `EphemeralKey`, `SudoBroker`, `SudoProvider`, with RSA of PyCrypto on byte strings; sealing a key with a passphrase and SHA-512 are parameters with their laws as hypotheses | `C130_delivered_partial`, `C130_restored`, `C130_once`, `C130_asked`, `C130_long`: Fermat's little theorem for both primes, digits to the base 256; induction over the uses; violations `C130_empty_violated`, `C130_encoding_violated`, `C130_early_violated` |
| C131 | `execute_job_with_result` of the QML controller, the QML shell and its `pipe_handler` as processes with two bounded pipes | `C131_result`, `C131_ends_partial`, `C131_calm`, `C131_answer_partial`: an invariant over all turns, a measure that each turn decreases, progress; violations `C131_long_job_violated`, `C131_long_report_violated`, `C131_helper_violated`, `C131_locale_violated` for all such setups |
| C132 | `_hw_collection` with its regular expressions as matchers on the text, `write_systeminfo` as a list of writes to cells | `C132_devices_partial` (against lines of lspci described by their grammar), `C132_resources_partial`, `C132_titles`, `C132_packages`, `C132_fails` (when there is no report), `C132_missing`; violations `C132_vram_violated`, `C132_addon_violated`, `C132_chipset_violated`, `C132_none_violated`, `C132_processors_violated`, `C132_lost_violated` |
| C133 | Generic trees, `enumerate_entries`, `Visitor.visit` by recursion on the tree; the visitors of the fields with identifiers on top of the model of `WordList.parse` | `C133_visit_partial` (the places of the nodes that are seen are in lexicographic order and all there), `C133_raise`, `C133_written`, `C133_others`, `C133_absent`; violations `C133_nested_violated`, `C133_quote_violated` |
| C134 | The run of C07 on the session of C04-C09; the outcomes at the end are compared with each other along the dependencies, by induction on the place in the run list; `run_job_if_possible` is compared with the assistant | `C134_each`, `C134_cause`, `C134_spread`, `C134_started`, `C134_older_partial` (missing: jobs with the flag fail-on-resource); violations `C134_resource_violated`, `C134_flag_violated` |
| C135 | The lines that are printed, and a separate reader for the DOT language that gives statements back; the statements that are read are compared with the jobs | `C135_graph_partial` (missing: names with quotes, backslashes or line ends), `C135_raises`, `C135_requirements`; violations `C135_plugin_violated`, `C135_quote_violated` |
| C136 | Functions as code objects with `__wrapped__`, the frames of a call, `enforce` on the stack; specification by the function that was written, below the decorators; invariant over the objects that have expectations; the abstract `allowed` of the assistant's model (C41) is what `enforce` decides | `C136_decision_partial` and `C136_back_partial`, `C136_message_partial` (missing: functions decorated twice), `C136_assistant`, `C136_of`, `C136_documented`, `C136_reported`; violation `C136_twice_violated` |
| C137 | What is written, character by character, and a separate terminal that reads ECMA-48 control sequences; induction over what is written | `C137_call`, `C137_off`, `C137_outcome`, `C137_same_text`, `C137_header`, `C137_names`, `C137_choice`, `C137_style`, `C137_background_partial` (missing: yellow); violations `C137_yellow_violated`, `C137_windows_violated` |
| C138 | The regular expression as a function, the loop of `get_lines` as it is; a separate specification of filled lines as groups of parts, by invariant over the loop | `C138_one_line`, `C138_parts`, `C138_short_name`, `C138_long_name`, `C138_given`; violation `C138_brackets_violated` |
| C139 | The report as a list of lines over the existing model of `Config.read`; the specification is in terms of what the files say (`Says`, `inFiles`), not of the object | `C139_code_partial`, `C139_variable`, `C139_files`, `C139_source`, `C139_environment`, `C139_syntax`; violations `C139_raises_violated`, `C139_misspelt_violated` |
| C140 | What running does is given (return code, tree, contents); the loop over what was left as it is, over the model of C98; the specification of blocks and lines is separate, UTF-8 by the round trip of C96 | `C140_no_job`, `C140_no_command`, `C140_code_partial`, `C140_lines_partial`, `C140_newlines`; violations `C140_binary_violated`, `C140_forbidden_violated`, `C140_same_code_violated` |
| C141 | The cache, the loop that fills the map and both validators as they are; the invariant is that each entry of the cache is what would be computed now, by induction over the checks (the keys determine the fields); reports against a filter over all units | `C141_same_partial`, `C141_once`, `C141_retry`, `C141_unique`, `C141_clash`, `C141_field`, `C141_raises`, `C141_references`; violations `C141_stale_violated`, `C141_itself_violated`, `C141_order_violated` |
| C142 | The loops as they are, over the model of peeking of C89; the specification is a relation between an identifier and its lines; what was saved by the theorem of C89 on writing and peeking | `C142_show_partial`, `C142_stops`, `C142_details`, `C142_archive`; violations `C142_hidden_violated`, `C142_unsaved_violated`, `C142_twin_violated` |
| C143 | A function is its name, documentation and state transition; calls by induction over the list of calls; the margin by an invariant of the loop; the text as characters and lines | `C143_forwards`, `C143_error`, `C143_margin`, `C143_indent`, `C143_documented_partial`, `C143_explained`, `C143_dedented`, `C143_located`, `C143_refused`, `C143_public_partial`; violations `C143_version_violated`, `C143_where_violated` |
| C144 | The configurations as data, the functions over a state of loggers; an invariant over the list of adjustments; the specification is a table of how often a message gets to each place | `C144_where`, `C144_console_partial`, `C144_no_files`, `C144_level`, `C144_refused`, `C144_environment`; violations `C144_twice_violated`, `C144_trace_violated`, `C144_environment_violated` |
| C145 | The methods branch by branch over a clock and a list of messages to come; an invariant over what is done before and after the answer; the loop of `wait` by induction over its rounds; the specification speaks of the time that has passed since the expiry was last set, and of the time at which the answer is got to | `C145_taken`, `C145_callbacks_partial`, `C145_not_before`, `C145_forever`, `C145_wait`, `C145_kept`; violations `C145_raising_violated`, `C145_late_violated`, `C145_dropped_violated` |
| C146 | The methods over a class with names and values; induction over the lists of values; the specification speaks of the place in the list; that names tell tests apart by splitting at commas | `C146_once`, `C146_refused`, `C146_lookup_partial`, `C146_equal`, `C146_hash_partial`, `C146_reads`, `C146_named_partial`; violations `C146_bound_violated`, `C146_lookup_violated`, `C146_hash_violated`, `C146_named_violated` |
| C147 | Both loops over the list of elements that are left, by induction; sizes in closed form; restricted objects by induction over accesses, for two objects that agree on what is exposed | `C147_elements_partial`, `C147_raises_partial`, `C147_sizes`, `C147_factor`, `C147_unseen`, `C147_unchanged`, `C147_through`; violations `C147_lost_violated`, `C147_zero_violated` |
| C148 | A transition system with the steps of the threads; invariants by induction over the steps, one until the server is closed, one after | `C148_authenticated`, `C148_open`, `C148_closed_partial`; violation `C148_race_violated` |
| C149 | The things to be made as data, a file system as a map; that each has a place in a directory made before is an invariant of the loop; names by the grammar of C67 | `C149_kept`, `C149_created`, `C149_refused`, `C149_name`, `C149_domain`, `C149_domain_chars`; violations `C149_potfiles_violated`, `C149_newline_violated` |
| C150 | Data as trees, conversion and text by structural recursion; the specification looks at places in data, and has the grammar of JSON; the text can be read from the front, keys in order make data with the same places equal | `C150_json`, `C150_same`, `C150_exit_partial`; violation `C150_traceback_violated` |
| C151 | A transition system over the autostart files and the process; an invariant from resuming on, by induction over steps; with the splitting of shell words of C52 as specification of the command; counterexamples for new sessions, exceptions and missing callbacks | `C151_boots_partial`, `C151_once_partial`, `C151_new_partial`, `C151_interrupted`, `C151_others`, `C151_files`; violations `C151_new_violated`, `C151_fail_violated`, `C151_callback_violated`, `C151_snappy_violated` |

Nothing in `properties.jsonl` is out of reach of the model; no property is `not_applicable`.

## What is modelled, module by module

Each file under `lean/Verif/Model` cites file and lines at every definition and opens with its simplifications.
In short:

| module | source (under `plainbox/`) | parameters and simplifications |
|---|---|---|
| `DepMgr` | `impl/depmgr.py` | jobs abstract; dependency sets in arbitrary order; fuel for recursion |
| `Session`, `RunLoop` | `impl/session/state.py`, `impl/ctrl.py`, `impl/session/jobs.py` | everything a job is asked for is in `Sem`; siblings a flat list; signals, categories, metadata left out |
| `Stats` | `impl/session/state.py`, `impl/unit/job.py` | job states reduced to what the figures use |
| `Resource` | `impl/resource.py` | syntax tree given; compiled lambda a function |
| `RFC822` | `impl/secure/rfc822.py` | text as characters, values strings |
| `Qualifiers`, `Origin`, `Sort`, `Text` | `impl/secure/qualifiers.py`, `impl/secure/origin.py`, Python | primitive matchers total; `sorted` as insertion sort |
| `Pod`, `IOLog` | `impl/pod.py`, `impl/result.py`, `impl/session/jobs.py` | float text trusted to read back |
| `Suspend`, `ResumeJson` | `impl/session/suspend.py`, `impl/session/resume.py` | gzip, UTF-8 and the JSON parser by their outcomes (`Envelope`) |
| `Storage`, `SessionList` | `impl/session/storage.py`, `impl/session/manager.py` | system calls fail or succeed arbitrarily; two names in the directory |
| `Words`, `Pattern` | `impl/xscanners.py`, `impl/xparsers.py`, `impl/unit/unit.py`, `impl/unit/testplan.py` | regular expressions: the subset named in `Pattern`; `setMem` for classes |
| `Overrides` | `impl/unit/testplan.py`, `impl/session/state.py`, `impl/session/jobs.py` | regular expression engine `Rx` a parameter; `Agrees` ties it to `Pattern` where needed |
| `Checksum` | `impl/unit/unit.py` | SHA-256 a parameter, so collisions are outside |
| `Template` | `impl/unit/template.py`, `impl/unit/__init__.py` | jinja's parameter set a parameter |
| `Ctrl` | `impl/ctrl.py`, `impl/session/state.py`, `impl/runner.py` | platform and process environment in a record `World` |
| `Cache` | `impl/jobcache.py` | byte codec a parameter; one process |
| `Runner` | `impl/runner.py`, `impl/ctrl.py` | circumstances of a run in a record `World`; durations left out |
| `Launcher` | `impl/secure/launcher1.py`, `impl/ctrl.py` | argparse: full option names, no dash arguments |
| `Extcmd` | `vendor/extcmd/__init__.py`, `impl/ctrl.py`, `impl/runner.py` | atomic steps of four threads and a process, all schedules |
| `Signal` | `vendor/morris/__init__.py` | listeners run arbitrary programs; fuel is the recursion limit |
| `Restart` | `impl/session/restart.py`, `impl/session/assistant.py` | `shlex`, `configparser` transcribed; compared with CPython's on 1500 random strings |
| `Config` | `impl/secure/config.py` | a parser is the function its `get` computes; the text format is not modelled |
| `Assistant`, `Select` | `impl/session/assistant.py`, `impl/developer.py` | protocol only; an exception comes before or after the changes; no calls from user interfaces |
| `Device` | `impl/session/state.py` | checksum, kind, id and siblings of units are functions; overrides left out |
| `Export` | `impl/exporter/__init__.py`, `impl/exporter/tar.py` | the data structure handed to the formats, and the names in the archive; the formats themselves (JSON, HTML, XLSX, XML templates) are not modelled |
| `Plugins` | `impl/secure/plugins.py` | reading a file and wrapping its text are functions with three outcomes; load times left out |
| `Path`, `Classify` | `posixpath` functions; the classification functions of `Provider1` in `impl/secure/providers/v1.py` | the file system does not change meanwhile; `hashBang` says how reading the first two bytes of a file ends |
| `Content` | `ProviderContentPlugIn`, `UnitPlugIn`, `ProviderContentLoader`, `_ensure_loaded` of the same file | parsing, unit classes and checks are functions of the text and record with all their outcomes; walking directories is given as a list of names |
| `Rx`, `Definition` | `re.match` for the patterns used; `Provider1Definition`, its validators, `Provider1PlugIn`, `from_definition`, the search paths (`impl/secure/providers/v1.py`, `impl/providers/v1.py`) | patterns are given as trees; the parser of the text is a function; existence of directories and listings are parameters |
| `Dialogue` | `ActionUI.run`, `_run_single_job_with_ui_loop`, `_interaction_callback`, `add_comment`, `get_builder` (`impl/commands/inv_run.py`, `impl/result.py`) | printing, signals, exceptions of the runner |
| `Backtrack`, `Progress` | `run_all_selected_jobs`, `run_single_job_with_ui`, `on_job_added`, `get_completion_ratio` (`impl/commands/inv_run.py`) | selection and execution are functions; rational instead of floating point numbers; checkpoints, times |
| `Packaging` | `impl/unit/packaging.py`, `get_os_release` (`impl/device.py`), `PackagingCommand` (`provider_manager.py`) | debian/control is given by its paragraphs; units are not templates; failures to write, logging |
| `Duration` | `estimated_duration` (`impl/unit/job.py`, `testplan.py`) and its validators, `get_estimated_duration` (`impl/session/state.py`), `print_estimated_duration` and the time left (`impl/commands/inv_run.py`) | `float` and the set of digits are parameters; totals are rational numbers; rounding and the texts printed; values that are not text |
| `Validate` | `ValidateCommand.invoked_new` (`provider_manager.py`), `UniqueValueValidator`, `UnitReferenceValidator` (`impl/unit/validators.py`) as used by units with identifiers and jobs, `get_dependency_set` (`impl/ctrl.py`) | all other validators give arbitrary issues; references of test plans; order of fields; messages and printing; templates are not instantiated |
| `Install` | `setup`, `InstallCommand` (`provider_manager.py`), `name_without_colon` (`impl/secure/providers/v1.py`) | paths are what is written (no links, no `..`); no permissions; order of dictionaries as written; discovery of executables (`Content`, `Classify`) |
| `InstallText` | the text of the installed provider file and `Provider1PlugIn.__init__` on it (`provider_manager.py` 295-300, 381-387; `impl/secure/providers/v1.py` 1506-1542) | the text is written and read as in `IniText` (interpolation as in `Config.interp`); bytes that are not UTF-8 |
| `Transport` | `ByteStringStreamTranslator`, `transport.py`, `export_and_send_results`, `_save_results`, the output of `export_session`, `export_to_transport` | output streams accept every character; no full disks; `requests.post` is its outcome; signing; creation of the transports |
| `Sheet` | `XLSXSessionStateExporter`: results, totals, attachments | formats, links, columns, descriptions, system information, resource logs; writing a cell succeeds (xlsxwriter treats some texts as formulas or links); lines end with line feeds |
| `Remote` | `SessionAssistant2`, `BackgroundExecutor`, `BufferedUI` | encryption of the password, texts of interactions, descriptions of jobs; calls are served one after the other except while they wait for the lock or the thread; the run list does not change during a session |
| `Narrow` | the calls of `SessionAssistant` that choose jobs, with the parts of `SessionDeviceContext`/`SessionState` they use | the list of allowed calls (model of C41); patterns of `hand_pick_jobs` are given by the jobs that they match; one call of `select_test_plan` has one plan; categories are given by functions |
| `Life` | the calls of `SessionAssistant` that create, save, list, resume, finish and delete sessions, step by step | a checkpoint writes everything or nothing (C21) and loading gives what was saved (C19, C20); `peek` reads the flags that were saved; job results are a list of (job, outcome); two processes do not use the repository at the same time; the restart strategy (C56) |
| `Brine` | brine.py (Python 3), channel.py and `SocketStream.read/write` of the vendored rpyc | floats are 64 bits; a set is the list in which it is iterated; no recursion limit and no limit on the digits of `str(int)`; `int()` of bytes without underscores, `int()` of text and floats is a parameter; zlib is a pair of functions with decompress ∘ compress = id; one sender and one receiver |
| `Netref` | `RefCountingColl`, `_box`, `_unbox`, `_handle_del`, `_check_attr`, `_access_attr`, `BaseNetref.__init__/__del__` of the vendored rpyc | messages and proxies also carry the object that was meant, which nothing looks at; messages arrive unchanged and in order (C79) and are handled one at a time; a proxy exists from the moment its reference is received; requests are not forged; hooks `_rpyc_*` of an object are not looked into |
| `SendQueue` | `Connection._send` of the vendored rpyc | list operations and lock operations are atomic; `channel.send` sends the message or raises (its bytes are C79) |
| `Fields` | `from_rfc822_record`, `get_record_value`, `get_raw_record_value`, `get_translated_record_value`, `partial_id`, `summary`, `description` and their translations, `instance_method_lru_cache`, `cached_property` | formatter, jinja2 and `dgettext` are functions; a key whose value is `None` is absent |
| `Effects` | `SessionManager.test_plans`, `add_device_context`, `remove_device_context`, `_propagate_test_plans`; `SessionDeviceContext.set_test_plan_list`, `override_map`, `compute_shared`, `_bulk_override_update`, `_override_update`, `on_unit_added`, `on_unit_removed` | test plans are numbers with their content given; signals pass exceptions on (`morris` is not in the repository); units other than jobs, checksums, siblings (see `Device`), mandatory jobs (see `Narrow`) |
| `Replies` | `Connection.sync_request`, `_async_request`, `_send_request`, `_send_reply`, `_send_exception`, `_recv`, `_dispatch`, `_dispatch_request`, `_dispatch_reply`, `_dispatch_exception`; `AsyncResult.__call__`, `expired` | the connection is not closed; messages arrive unchanged and in order (C79, C81); whether sending and unboxing raise is a parameter; received messages are dispatched in any order; locks and events |
| `Wake` | the loop of `Connection.sync_request`, `sync_recv_and_dispatch`, `_recv` | a thread that dispatches makes no calls itself; threads that serve the connection besides (`poll`, `serve`); `_recvlock` (only taken with `_sync_lock` held); what is in the messages (C84) |
| `Again` | `RunInvocation.do_normal_sequence`, `maybe_resume_session`, `get_resume_candidates`, `handle_last_job_after_resume`, `run_all_selected_jobs`, `run_single_job_with_ui` | one process at a time; the job list of a command line is a parameter and no jobs are added during the run (C69); a checkpoint is stored whole or raises (C21), loading gives what was saved (C19, C20) or raises `SessionResumeError`; names of storages are not used twice |
| `Nest` | `TestPlanUnit.get_nested_part`, `get_bootstrap_job_ids`, `get_qualifier`, `get_mandatory_qualifier`, `get_bootstrap_qualifier`, `SessionDeviceContext.get_unit` | fields as read (C28, C30); results are not remembered; Python's recursion limit is a number |
| `Choose` | `CheckBoxInvocationMixIn._get_matching_job_list`, `SpecialInvocation._get_matching_job_list`, `RunInvocation.find_test_plan` and the lookup of `do_initial_job_selection`, `RegExpJobQualifier` | expressions are a parameter (`Overrides.Rx`); what is logged is left out |
| `Peek` | `_repr_SessionMetaData` of all formats, `MetaDataHelper1MixIn`–`3MixIn`, `SessionPeekHelper`, `SessionPeekHelper1`–`6`, `get_resume_candidates`, `get_old_sessions`, `get_resumable_sessions`, `list_sessions`, `remove_session` | files are what reading and decompressing them ends with; what is printed is the sequence of sessions |
| `Retry` | sequences of `run_job` and `use_job_result` with their trace, `get_dynamic_todo_list` and a loop over it | as `RunLoop` |
| `PlanCheck` | `NonEmptyPatternIntersectionValidator`, `NoBaseIncludeValidator`, `UnitReferenceValidator` on the fields of test plans | matchers as given by `parse_matchers`; messages and the other validators left out |
| `Where` | `IncludeStmtList.parse` (which lines are statements), origins of qualifiers and of issues | statements themselves are those of `Words`; uses the record parser of `RFC822` |
| `Varies` | `TemplateUnitValidator.check`, the variant, invariant and untranslatable validators of the fields of jobs, `get_record_value` | format fields other than plain names, jinja2 and rendering are parameters (`Lib`); the other validators of those fields are not modelled; uses `Template` |
| `Exit` | `ToolBase.main`, `dispatch_and_catch_exceptions`, the commands script, build, clean, develop and i18n, `main` of the trusted launcher | exceptions are kinds, integers fit into a machine word, the debugger returns; uses `Runner` |
| `Hints` | `LazyLoadingToolMixIn`, the early and the full parser up to the command, `LazyPlugInCollection.get_by_name`, `load` | what options words stand for is given; the parsers of commands are not modelled |
| `Stream` | `ByteStringStreamTranslator`, writing of what was exported by run, session export and the transports; UTF-8 and `copyfileobj` of the library | reads give as many bytes as are asked for, if there are; streams take all that is written |
| `Tools` | `SymLinkNest`, `configured_filesystem`, `executable_list`, `namespace`; the search of the shell | making links fails only for names that are taken; file systems do not change meanwhile; uses `Ctrl` |
| `Leftover` | `_find_leftovers`, `on_leftover_files`, `os.walk` of the library | nothing changes while it is looked at; the removal that follows is not modelled |
| `Verdict` | `get_certification_status_map`, `SessionManager.state`, template `global.txt` | Jinja2 is modelled by the text that the template gives |
| `Junit` | template `junit.xml`, `customize_environment`; uses `Stats` | Jinja2 is modelled by the text that the template gives; how it makes lower case is a parameter; the number in `time` is a text |
| `Flat` | `io_log_as_flat_text`, `io_log_as_text_attachment`; uses `IOLog`, `Stream` | the incremental decoder of the standard library, branch by branch; newer versions of Python also wait at the end of a chunk after two bytes of a surrogate, which gives the same text |
| `Submission` | the template `checkbox.json` and the filters it uses; uses `Junit.escape`, `IOLog.jsonStr`, `Where.splitLines` | the state of a job is what the template takes from it; how Jinja2 makes lower case is a parameter; `indent` is that of the versions of Jinja2 of the time |
| `Comments` | `ANSI_ESCAPE_SEQ_RE_STR`, `comments`, `add_comment`, comments in suspended sessions; uses `Rx` | replacing is modelled for patterns that match no empty text |
| `Html` | `checkbox.html`, `category_map`; uses `Junit` (escaping), `Flat`, `Stats` | the text between values, colours, scripts and style sheets left out, as are the names of the distribution and of the test plan; labels are not translated; dictionaries keep the order of insertion |
| `Sibling` | `_add_job_unit`, `_add_job_siblings_unit`, `get_flag_set`, `get_direct_dependencies`; uses `Words`, `Export` (`str.replace`), `Varies` (formatter) | jobs have a provider; reading of JSON, translation, normalisation and comparison of checksums are parameters; of the session only the jobs by id; origin, controller and offsets left out; depth of calls a number |
| `IniText` | `PlainBoxConfigParser.write`, `Config.read`, `Config.read_string` with the reader of the standard library (Python 3.12); uses `Config` | encodings, files that cannot be opened, positions in exceptions left out; sections and parametric sections of `Config` left out |
| `Sections` | `Config` with sections and parametric sections: `__get__`, `get_parser_obj`, `read_string`, `read`, `_read_commit`, `write`; `BasicInterpolation`, `items`, `add_section` and `set` of the standard library; uses `Config`, `IniText`, `Ctrl` | which exception comes out of reading is not told apart; case of option names as in `IniText`; assigning sections by hand is left out (`init` and any state are starting points) |
| `PodClass` | `impl/pod.py`: making of classes, comparison, `as_tuple`; uses `Pod` | names are identifiers; signals, hiding of fields by other attributes and converting assign filters left out; equality of values symmetric |
| `Enumerate` | `ProviderContentEnumerator`, `_get_plugin_files` with `recursive`; uses `Leftover`, `Plugins`, `Content`, `Classify` | the file system does not change; given directories do not end with a slash |
| `Report` | `TextSessionStateExporter.dump`, `OUTCOME_METADATA_MAP`, `Colorizer.custom`; uses `Stream` | messages are not translated; every job of the run list has a state |
| `Locate` | `Origin.__str__`, `Origin.relative_to`, `relative_to` and `__str__` of sources, `Issue.__str__`, `Issue.relative_to`; uses `Origin`, `Path` | messages are not translated; symbolic links are not looked at |
| `Cookie` | `LocalDevice` 58-205, `DeviceInvocation.run`; uses `Packaging` (os-release) | messages are not translated; logging is left out |
| `ByName` | `SessionManager.exporter_map`, `create_exporter`, `ExporterUnit.support`, `ExporterUnitSupport`, `-f` and `-p` of `run` and `session export`; uses `Export` (options) | the class of an exporter is the list of the options it supports; whether a unit has problems is given; the data and the template of a unit are left out |
| `Symbols` | `Symbol`, `SymbolDefNs`, `SymbolDefMeta`, `UnitType.__new__`, the order in `UnitValidator.check` | in bodies of definitions a text, a symbol or something else is assigned; a type of units is derived from one type of units; what validators do is in `Validate` |
| `Analyze` | `AnalyzeInvocation.run` and its reports, `JobDefinition.automated`, `get_resource_program` | the selected jobs and the run list are given; lines of `requires` are syntax trees; seconds are rational numbers; messages are not translated |
| `Translate` | `GettextTranslator` | catalogues do not change while the program runs and are functions; arguments are given by position; what the standard library does for other programs is left out |
| `Build` | `BuildCommand`, `CleanCommand`, the build systems | the disk is a set of functions; a range of characters that ends before it begins matches nothing; that programs cannot be started is left out |
| `Older` | writers and readers of formats 1 to 5 | metadata and file names of logs are left out, as in `Suspend` |
| `Shell` | the validator of shell programs and the lexer of `shlex` it uses | the grammar of the shell is that of quoting and comments alone; command substitutions in double quotes are text |
| `Pager` | `autopager`, `find_exec` | flushing, and what the pager does |
| `Listing` | `Explorer.get_object_tree`, `ListInvocation` | the attributes of units and `repr` are given |
| `I18n` | `I18NCommand` | what the programs do; failing to start them or to make directories |
| `Sdist` | `SourceDistributionCommand`, `TarFile.add` | links, owners, modes and times; failing to read or write |
| `WarmUp` | `get_warm_up_sequence`, `get_warm_up_for_job`, `maybe_warm_up_authentication` | how long sudo and polkit remember; two controllers of the same class in one list |
| `Help` | `CommandBase` texts, `manage_py_extension` | argparse; class names that are not ASCII |
| `Registry` | `RegistryServer` (rpyc) | sockets; ports that are not numbers; fractions of seconds; callbacks that raise |
| `Vinegar` | `vinegar.dump`, `vinegar.load` | `_get_exception_class` (a subclass with another `__str__`); names that are not texts; modules that end the process when imported |
| `Para` | `RenderingContext`, `CanonicalCrashIngredient` | where words may be broken at hyphens (any cutting of the text is covered); escape sequences of guacamole; double-width characters |
| `Live` | `NormalUI` while a command runs, `FallbackCommandOutputPrinter`, `Colorizer.__call__` | terminals that cannot show a character; translations |
| `Password` | `EphemeralKey`, `SudoBroker`, `SudoProvider`, what `RootViaSudoWithPassExecutionController` writes to sudo; PyCrypto's `encrypt` and `decrypt` | sealing of keys and SHA-512 (parameters); how keys are generated; the connection |
| `Qml` | `QmlJobExecutionController.execute_job_with_result`, `plainbox_qml_shell.qml`, `pipe_handler.py` | Qt; reading of JSON (parameter); output of the program (model `Extcmd`) |
| `Sysinfo` | `_hw_collection`, `_get_bluetooth_product_or_path`, `write_systeminfo` of the XLSX exporter | formats of cells; `\w` and `\d` beyond ASCII; `int` is a parameter |
| `Visit` | `Node.enumerate_entries`, `Visitor`, `get_direct_dependencies`, `get_after_dependencies`, the identifiers of `get_bootstrap_job_ids` and `get_nested_part` | what methods of visitors do with a node, other than going on or raising |
| `Spread` | `run_job_if_possible`; the rest is `RunLoop` and `Session` | the runner, checkpoints, the texts of comments |
| `Dot` | `_print_expression_list`, `_print_dot_graph` of `plainbox dev special` | how programs are parsed (C16-C18), the choice of jobs (C88) |
| `Usage` | `UsageExpectation.of`, `UsageExpectation.enforce`, `raises` | expectations of classes, the text of the message, attributes copied by `functools.wraps` except `__wrapped__` |
| `Color` | `ansi_on`, `ansi_off`, `get_color_for_tty`, `Colorizer`, the escape sequences of outcomes | names outside ASCII, palettes other than these two, colorama |
| `UsageText` | `LegacyHelpFormatter._format_usage` with `get_lines` | `_format_actions_usage` (standard library); negative widths |
| `SuspendJson` | the whole document of format 6 as a JSON value (`_json_repr`, `_repr_SessionState`), repeated suspending and resuming through it | JSON text, UTF-8, gzip; order of keys; which result object a result of the session model stands for is a parameter; it refines `Suspend` with the readers of `ResumeJson` |
| `CheckConfig` | `CheckConfigInvocation.run`, `Config.get`, `PlainBoxConfig` | files that cannot be read or decoded; translation; how values and messages are printed (given) |
| `ScriptCmd` | `ScriptInvocation`; the end of `_run_command` and of `temporary_cwd` | which controller runs the job; lines of a faulty file that are printed before its faulty block; translation |
| `Shared` | `UnitValidationContext`, `compute_value_map`, `UniqueValueValidator`, `UnitReferenceValidator` | texts of messages and `relative_to`; constraints that raise; values that cannot be hashed |
| `ShowCmd` | `show_session`, `resume_session`, `archive_session`, `_lookup_storage` of `SessionInvocation` | what resuming ends with (see `ResumeJson`); texts of lines; `make_archive` itself |
| `Wrappers` | `deprecated`, `public`, `_get_doc_margin`, `_textwrap_indent` | line ends other than the line feed; effects of importing; filters for warnings are a function |
| `Logs` | `LevelFilter`, `setup_logging`, `adjust_logging` and the configurations of `LoggingHelper`; `_setup_logging_from_environment` | the module `logging` itself is modelled as far as it is used; texts, formatters, rotation of files; files that cannot be opened |
| `Later` | `AsyncResult`: `__call__`, `wait`, `add_callback`, `set_expiry`, `expired`, `value`; `poll` and `serve` of the connection as `wait` uses them | `ready`, `error`, `poll_all`; several threads; connections that are closed; time passes only in waiting and handling |
| `Params` | `TestCaseParameters`, `TestCaseWithParameters` | what `TestCase.run` does; `__str__` and `__repr__`; values that are generators |
| `Helpers` | `buffiter` and `_handle_buffiter`; `restricted` | iterators that never end; factors that are no whole numbers; the connection (see `Replies`, `Netref`); access to a restricted object on its own side; deleting attributes |
| `Serve` | `Server.accept`, `_authenticate_and_serve_client`, `close`, `ThreadedServer._accept_method` | closing is one step; the listener, registering, `ThreadPoolServer`, `ForkingServer`; what is served |
| `Skel` | `inv_startprovider`, `cmd_startprovider` | texts of files other than `setup(...)` and `POTFILES.in`; permissions and failing writes; argument parsing |
| `Dump` | `ParserPlugIn`, `ParseInvocation.run` | cycles, floats, keys that are not texts; `json.dumps` is modelled; listing the parsers |
| `Boot` | restarting in `SessionAssistant` (`run_job`, `resume_session`), `XDGRestartStrategy` as a map | failing writes, the rest of the desktop file, Snappy's wrapper |

Not modelled at all: the text formats of the other exporters, the rest of the command line tools (`checkbox-cli`, `plainbox`
sub-commands), D-Bus, translations, the buildsystem helpers and the test code.

## Disagreements between code and properties

For each: the property, what the code does, and the theorem that shows it.  The properties are kept as stated;
`_partial` theorems say what does hold.

* **C04** — a requirement program that cannot be compiled makes `update_desired_job_list` raise, and leaves the
  job startable (`C04_violated`).
* **C05** — a requirement on a job that is no resource job is met by nothing yet does not inhibit once that job
  passed (`C05_violated`).
* **C14** — a dot line is doubled, a line of blanks and a dot loses the dot, a blank line splits the record, outer
  white space is lost (`C14_violated`).
* **C16** — keyword arguments and other nested nodes are never visited (`C16_violated`).
* **C19, C20** — a hollow result after a real one is lost; an integer duration makes the session unreadable; a log
  outside the session directory is renamed; the desired list gains the mandatory jobs at every cycle.
* **C21, C22** — a failing `fsync` or `rename` is swallowed by `checkpoint()`, so the previous session may be what is
  found; a failed write raises a misleading `FileNotFoundError`.
* **C23** — `null` for a result list, relative log names without a location, unreadable logs, clashing generated jobs
  and bad programs raise exceptions that are not documented; so do damaged gzip streams (`EOFError`, `zlib.error`).
* **C24, C25** — an empty `io_log` that was set counts as nothing; a result equal to the current one is not recorded.
* **C27** — the filter `unique` accepts tuples with duplicates and refuses every non-empty list.
* **C28, C29** — an open quote: `AssertionError` at the start, an endless loop later on; overflowing repetition counts
  raise `OverflowError`.
* **C30** — escaped literals select nothing; top-level alternation and an escaped trailing dollar are anchored on one
  side only; dots of the namespace match any character.
* **C31, C32** — patterns within a plan are applied in alphabetical order; category overrides of nested parts are
  dropped when the outer plan has none; `get_effective_category` takes the first match,
  `get_effective_category_map` the last.
* **C33** — a field called `namespace` collides with the provider's namespace in the checksum.
* **C35, C54** — `{a.b}`, `{a[0]}` and nested format specifications lose their parameter; `__index__` is part of
  the checksum even when not used; templates of templates get swapped arguments; four unit types cannot be
  instantiated.
* **C36** — the runner's controller list gives qml jobs that ask for root to the unprivileged controller; a process run
  by root runs jobs of other users as root.
* **C37** — `LANGUAGE` and `LC_*` of the configuration differ; unchanged variables are mentioned in the differential
  environment.
* **C38** — a `PermissionError` while starting or cleaning up is swallowed: the result says `crash` though nothing ran.
* **C39, C58** — `ValueError`, `TypeError`, `AttributeError` and interpolation errors come out of reading; `read()` does not
  catch syntax errors; colliding mangled names; percent signs cannot be written; list items fall apart; unset
  variables come back as defaults.
* **C40** — a crash before the last byte of `result.json` makes every later load raise (`logger.warrning`); a result
  without a log file poisons the cache.
* **C41, C59** — `finish_bootstrap` and `hand_pick_jobs` allow a second run without a report; `finalize_session` is ignored
  in sessions not flagged incomplete; a failed checkpoint makes the repeated `finalize_session` a no-op; calls that
  are allowed but need a test plan or a restart callback that is not there; `get_ubuntu_sso_oauth_transport` is
  never allowed.
* **C42** — after a `ValueError` the corrected call selects the plainbox providers again; no session can be started.
* **C43** — `remove_signals_listeners` skips every other connection of a method and raises with `pass_signal`.
* **C44, C57** — a delegate that raises kills the worker; `communicate` in the sudo controller takes output away;
  chunked I/O leaves logs empty.
* **C45** — names of variables that begin with a dash.
* **C46, C60, C61** — siblings and generated jobs cannot be removed; a refused job can never be added; a refused provider
  stays half added; generated units other than jobs are added again every time; units with equal fields in two
  namespaces exclude each other; units that share an id hide each other.
* **C47** — a manual job without command and estimate still yields a figure.
* **C48** — ids that differ only in replaced characters share their files.
* **C49** — a dangling link empties the listing of sessions.
* **C52** — a percent sign raises, a newline gains a tab, `;$SHELL` is glued to the last argument, the snappy strategy loses
  all arguments.
* **C62** — attachment jobs have no certification status, durations of zero are left out, the options of an exporter
  unit win over those of the caller.
* **C63** — a job called `x.stderr` takes the place of the standard error of the job `x` in the archive.
* **C64** — when an eager load raises half way, a second load does nothing and the rest is missing without a word; a lazy
  collection repeats problems and names plug-ins that cannot be loaded.
* **C65** — the map of paths lists only the unit of the file, not those stored in it; files without a plug-in get no unit;
  after an exception the next access loads the first files again, so their units are there twice.
* **C66** — files in `jobs-old` belong to `jobs`; compiled translations in `build/mo` get the base `build/bin`; `.txt.in`
  never matches because `splitext` gives `.in`; a name beginning with `//` outside the base makes the search for version
  control directories endless.
* **C67** — the patterns for names, versions and translation domains lack an anchor, so `a.b:c / more` is a name (with an
  explicit namespace) and `1 banana` a version; a definition without name and namespace raises `TypeError`, one with a
  syntax error `AttributeError`, which abort loading all providers; `SNAP` in the environment replaces the secure
  directories by any others.
* **C68** — comments entered after running are lost when the job is run again; `explicit-fail` accepts an empty comment,
  and the suggested outcome asks for none; the end of input in place of a comment raises `EOFError`; comments of the run
  itself (why it could not start) are replaced by the empty text when the user was asked first.
* **C69** — a job without an estimated duration never counts as done, so a finished run is said to be 50 % complete; with
  estimates of zero it is said to be 0 % complete; negative estimates lead above 100 %.
* **C70** — a unit for the system in `ID_LIKE` contributes beside the units for the system itself, although it is said to be
  a last resort; an `ID_LIKE` of several words, as os-release(5) allows, is compared as a whole, so that neither units nor the
  Debian driver are used; a comment in os-release makes the command fail with `ValueError`; the field `os-version` of the
  documentation is not read, so units written that way apply to all versions; a second run writes the variables twice.
* **C71** — a field of only blanks and colons is a duration of zero instead of an unknown one; `plainbox run` says that a total
  which is known to be zero cannot be determined; a text that is no duration makes the validation of a test plan end with
  `ValueError` instead of reporting it (the property is read outside of the `try` of the validator).
* **C72** — jobs that depend on each other validate, even with `--strict`; if a provider of the same name is installed, the
  one under test is left out of the context: every unit with a new identifier ends the command with `KeyError`, and references
  to units that were removed are accepted; each of `n` problems of definition files is reported `n` times.
* **C73** — `setup` accepts a simple name without a namespace and the provider installs, but the result is refused when it is
  loaded (`C73_simple_name_violated`); so is one with an empty `bin` directory in the layout unix and one without any
  directory in the layout flat (`C73_empty_bin_violated`, `C73_empty_violated`). A single `%` in any text is an exception
  that leaves an empty provider file; `%%` becomes `%` (`C73_percent_violated`, `C73_double_percent_violated`). A provider
  without a description, documented as optional, is refused (`C73_description_violated`). Installing twice fails
  (`C73_again_violated`, for every provider with one of the directories). Executables with the same name replace each other
  (`C73_same_name_violated`), translations in `locale` are used in the source tree but not installed
  (`C73_locale_violated`), an existing `share/locale` in the prefix or a source directory `provider` makes installation
  fail (`C73_shared_locale_violated`, `C73_other_provider_violated`), and names with text after an identifier can share a
  provider file (`C73_files_violated`). The text of the file loses lines of the description that begin with `#` or `;`,
  white space at the ends of lines and what follows a carriage return (`C73_text_violated`); all other texts come back
  (`C73_text_partial`).
* **C74** — standard output is written in buffers that are decoded one by one, so a report with a character across two
  buffers raises `UnicodeDecodeError`, for every buffer size (`C74_stdout_violated`); the stream transport, which reads
  everything at once, does not have this problem (`C74_stream`). An encoding with another spelling of the same name, such as
  `UTF8`, loses all characters that are not ASCII (`C74_encoding_violated`). `plainbox run` gives bytes to the transport,
  which the documentation of the registered transports allows, but both raise `AttributeError`, the one for files after it
  emptied the file (`C74_bytes_violated`).
* **C75** — one job whose category is not loaded, whose identifier is the name of a category in use, whose outcome is not a
  known one or whose log is not UTF-8 is enough that no report is made at all (`C75_unknown_category_violated`,
  `C75_clash_violated`, `C75_outcome_violated`, `C75_binary_violated`). The totals are not reset, so a second report of the
  same exporter doubles them (`C75_again_violated`). A category with a crashed job can be shown as passed, and one can be
  shown as failed because of a job that is not shown (`C75_crash_violated`, `C75_local_violated`).
* **C76** — a generator of `run_job` that is advanced while another job runs makes `finish_job` record the result for the wrong
  job (`C76_own_violated`); collecting a result twice gives it to a job that was never run (`C76_twice_violated`). If running a job
  raises, or the session is finalized while a job runs, the lock is never released and no job is run any more
  (`C76_raised_violated`, `C76_finalize_violated`). After the last job the service is idle but refuses to start a session
  (`C76_idle_violated`); the index and number of jobs of a resumed session are wrong (`C76_resumed_violated`);
  `get_session_progress` never lists completed jobs (`C76_progress_violated`); `whole_output` raises `TypeError` after any
  output (`C76_whole_violated`).
* **C77** — `filter_jobs_by_categories` looks at the category that the job declares, but `get_participating_categories`
  returns the categories of the test plan's overrides, so choosing all of them can leave nothing (`C77_categories_violated`).
  An iterator is consumed by the first test that fails (`C77_iterator_violated`; the annotation is `Iterable`). Unknown jobs are
  ignored although `KeyError` is documented, and jobs of the session that are not in the run list cannot be chosen
  (`C77_others_ignored`). Mandatory jobs made from templates in the bootstrap are listed by `get_mandatory_jobs` but never run
  (`C77_mandatory_violated`). After `hand_pick_jobs`, `remove_all_filters` removes everything and the queries about the test plan
  raise `IndexError` (`C77_no_plan_violated`).
* **C78** — `running_job_name` is not cleared when a job ends, so a job with the flag `autorestart` that ended normally and has
  a result is given another one, pass or fail, when the session is resumed before another job was started
  (`C78_result_violated`). A listing of resumable sessions that was left half-way and is continued after the session was
  finalised makes the finished session resumable (`C78_stale_violated`). A session of hand-picked jobs that was finalised but
  not exported (`C78_lost_violated`) and the storage left by a process that died inside `start_new_session`
  (`C78_empty_violated`) are in neither list. A session that was exported but not finalised is in both, so that cleaning up old
  sessions deletes one that can be resumed (`C78_both_violated`). `hand_pick_jobs` makes no checkpoint, so the choice is lost if
  the process dies before the first job.
* **C79** — `dumpable` is true for texts with surrogates and for sequences of 2³² bytes or more, but `dump` raises for them
  (`C79_dumpable_violated`): a reply that contains the name of a file that is not valid UTF-8 is never sent. `load` does not
  notice that its data end too early and gives another value (`C79_truncated_violated`); frames protect against this as long
  as both sides are well behaved (`C79_messages`).
* **C80** — `_handle_del` ignores its count, so an object whose reference is received again while its proxy is alive is never
  released before the connection is closed (`C80_release_violated`); `C80_release_partial` says exactly when it is released.
* **C81** — when sending fails for another reason than a broken connection (a message that is too long, say), the call leaves
  the loop without looking at the queue: messages that other calls handed over meanwhile stay there although these calls have
  returned (`C81_forgotten_violated`). A call may also send the message of another one; if this fails it raises in the
  wrong caller (`C81_blame_violated`).
* **C82** — `from_rfc822_record` strips the newlines at the end of raw values, and `normalize_rfc822_value` removes indentation
  and dots only if there is more than one newline. A marked text of two indented lines thus keeps the indentation of its second
  line when it is read as a translation, even if nothing is translated (`C82_untranslated_violated`). A missing summary is replaced
  by the identifier, into which `get_record_value` puts the parameters a second time: if the value of a parameter contains a brace,
  `summary` raises, while `tr_summary` does not (`C82_default_violated`).
* **C83** — overrides are never taken back: when the test plans of a session change, the jobs that were there keep the values of
  the old ones where the new ones say nothing, and the same job added afterwards has its own value (`C83_changed_violated`; the
  docstring of `set_test_plan_list` asks for one call, but `SessionManager.test_plans` calls it at each assignment). An override of
  an unknown field or with a pattern that does not compile makes adding a job it applies to raise with the job half added: it is in
  the job list, cannot be found by its id, and cannot be removed (`C83_raised_violated`).
* **C84** — an answer that cannot be unboxed (`_unbox` or `vinegar.load` raise in `_dispatch_reply`) is dropped: its call waits for
  ever (`C84_lost_violated`), and the exception ends whichever call happened to dispatch it, although the answer of that call is
  good and arrives (`C84_blame_violated`). An answer that cannot be sent (`_send_reply` is outside of the `try`; a text with
  surrogates, see C79) is not answered at all, with the same effect at the other end (`C84_unsent_violated`). Nothing ends such a
  call (`C84_never`): `sync_request_timeout` bounds each wait for a message, not the loop around it.
* **C85** — a call looks for its reply before it takes the lock, not after. If another thread stores the reply in between, the call
  receives although its reply is there, and returns only after another message or the timeout (30 s by default;
  `C85_receives_violated`). If a third thread clears the event before the call gets to wait for it, the call waits for that
  thread (`C85_wakeup_violated`). The event is set after the lock is released, so it can be set while another thread receives:
  then waiting threads run in circles instead (`C85_spin_violated`).
* **C86** — `run_single_job_with_ui` clears `running_job_name` and makes a checkpoint before the result of the job is taken over.
  If the process dies in between, or in what follows up to the next checkpoint, the user is not asked about the job and it is
  run again although it has ended (`C86_again_violated`). `do_normal_sequence` makes its first checkpoint, with the session
  marked as incomplete, before the jobs are selected, and a resumed session does not select them: if the process dies in
  between (for example at the password prompt, which comes after it but before the next checkpoint), the resumed session runs nothing and exports
  an empty report, with exit code 0 (`C86_empty_violated`). The session is marked as finished before its results are exported:
  if that fails it is never offered again, and its results are never sent (`C86_export_violated`).
* **C87** — nested parts are looked up in a throwaway session with all installed providers, not in the session: parts of providers
  that are only in the session (embedded or side-loaded ones) are left out with a warning, and parts of installed providers that
  were not selected are used (`C87_session_violated`). The exclusions and the bootstrapping jobs of a part apply to the whole
  plan, so adding a part can take jobs away (`C87_union_violated`). A plan that is nested in itself, also by way of others, ends
  in `RecursionError` (`C87_circular_violated`); no validator looks for it.
* **C88** — a pattern becomes `^pattern$` without a group, so in `-i 'foo|bar'` each alternative is anchored on one side only
  (`C88_alternation_violated`). A pattern that does not compile is only logged, also for `-x`, and the jobs that it was to exclude
  run (`C88_bad_violated`). A plan that does not exist is a debug message; nothing is chosen and the exit code is 0
  (`C88_unknown_violated`). For the selection the plan is searched in the providers of the loaded jobs only, so a plan in a provider
  without jobs chooses nothing although its categories are used and it is stored as the plan of the session
  (`C88_provider_violated`); of several plans with one identifier the selection uses all, the categories the first and the session
  the last (`C88_lookup_violated`). `mandatory_include` is ignored (`C88_mandatory_violated`) and jobs of `bootstrap_include` never
  run, not even with `-i`, as there is no bootstrapping stage (`C88_bootstrap_violated`). `plainbox dev special` without `-i` and
  without a plan ignores `-x` (`C88_listing_violated`).
* **C89** — a truncated (`EOFError`) or damaged (`zlib.error`) session file is not reported as corrupted, and one that cannot be opened
  raises `OSError`; the loops over the sessions catch neither. One such file makes `plainbox run` fail before it offers any session
  (`C89_truncated_violated`, `C89_unreadable_violated`) and hides all later sessions from the assistant (`C89_resume_violated`).
  `plainbox session list` ends with a traceback at the first corrupted or incompatible session (`C89_list_violated`).
  `plainbox session remove` of an unknown session prints a line and exits with 0.
* **C90** — in auto-retry mode a fourth consideration replaces the result of a job by "not supported" with the comment "job can be
  started", even if it had passed (`C90_result_violated`). A consideration in which the job was inhibited takes a try as well, so a job
  may be refused without ever having been started (`C90_blocked_violated`). The tries left are not saved, a resumed session has three
  again (`C90_saved_violated`). The launcher option `max_attempts` and the field `auto-retry` of jobs are never read.
* **C91** — a line of `include` that names a unit which is not a job, and a line of `nested_part` that names no test plan, are not
  reported (`C91_selects_violated`, `C91_nested_violated`). A job that `exclude` takes out of `include` is still reported as selected
  twice (`C91_twice_violated`). One unreadable line ends the validation with an exception and the rest is not looked at
  (`C91_bad_violated`), and so does a unit in `bootstrap_include` that is not a job (`C91_bootstrap_violated`). Two nested parts on one
  line are valid for `get_nested_part` but an unreadable line for the validator (`C91_words_violated`).
* **C92** — a comment line (`#` in the first column) within a field is not part of the value, so that all later statements are
  reported one line too early (`C92_violation_comment`); so does a single dot on the first line (`C92_violation_dot`). A form feed or
  another line boundary of `str.splitlines` makes later numbers too large (`C92_violation_break`). Issues about fields written with an
  underscore have the origin of the whole unit, because a test that should be about the origin passed in looks at the variable just
  assigned (`C92_violation_translated`).
* **C93** — a template with `id: {a}{b}` is found in order and makes equal identifiers from different resources
  (`C93_distinct_violated`). Whether a field varies is not looked at when it is written with an underscore, as summaries are
  (`C93_marked_violated`). When the unit of a template is unknown, or is one that templates cannot make, the error is put into the
  list of the validator but not yielded (`C93_unable_violated`). A single brace in `template-filter` ends the validation with
  `ValueError` although jobs can be made (`C93_filter_violated`). A parameter that the resource lacks is never reported for the
  identifier of a job: reading it raises `MissingParam` first (`C93_unknown_violated`).
* **C94** — a command that is interrupted, or whose output nobody reads any more, ends with zero (`C94_interrupted_violated`,
  `C94_pipe_violated`). `--pdb` has no effect for errors of the operating system (`C94_pdb_violated`). `manage.py i18n` ends with zero
  when all programs that it runs fail (`C94_i18n_violated`). `plainbox script` ends with 126 when there is no such job and when its
  command ended with 126 (`C94_script_violated`). A job whose command was killed by a signal has crashed, but has failed when it runs
  through the trusted launcher, which makes a status of the signal (`C94_killed_violated`).
* **C95** — help shows only one command when its name is on the command line as well (`C95_help_violated`), and a wrong command is said
  to be different from the only one there is, if another happens to be named later (`C95_choice_violated`). Help is not shown when there
  is a wrong option, even after it (`C95_early_violated`).
* **C96** — exporting to the standard output ends with `UnicodeDecodeError`, after only a part was written, if a character other than
  ASCII lies across a multiple of 16 KiB (`C96_long_violated`; `C96_stdout_partial` says exactly when). A stream whose encoding is
  called `utf8` gets only ASCII characters (`C96_name_violated`).
* **C97** — a program of another provider of the same namespace hides one of the same name in the provider of the job
  (`C97_own_violated`). Jobs of users other than root find no program of their provider, as the directory of links can be entered by its
  owner only (`C97_user_violated`); nor do any jobs if the directory for temporary files has a colon in its name
  (`C97_colon_violated`). Without a variable `PATH` the command searches the current directory instead of the default path
  (`C97_unset_violated`).
* **C98** — links to directories (`C98_link_violated`), and directories that cannot be read with all that is in them
  (`C98_unreadable_violated`), are not reported.
* **C99** — the template spells a status `non-bloker`, so that a session in which only jobs with the status `non-blocker`
  failed passes (`C99_spelling_violated`). So does one in which jobs crashed (`C99_crash_violated`), and only the first device counts
  (`C99_devices_violated`).
* **C100** — the total `tests` counts only jobs that passed (`C100_tests_violated`); jobs that are not implemented or undecided are
  shown like those that passed (`C100_shown_violated`); a vertical tab in the log of a job that failed makes the report
  unreadable (`C100_character_violated`), and carriage returns become line feeds (`C100_return_violated`). A job without duration has
  the time `None`.
* **C101** — records of one stream may come between the bytes of a character of the other, so that the text of the log has U+FFFD
  though both streams are text (`C101_interleaved_violated`); only jobs with `use-chunked-io` are concerned, since lines are whole
  otherwise (`C101_records`). A vertical tab stays in the text and makes the JUnit report unreadable (`C101_report_violated`).
* **C102** — the JSON report escapes texts as in HTML, not as in JSON: `R & D` becomes `R &amp; D` (`C102_entity_violated`), and a
  backslash in a summary or a newline in a resource make it unreadable (`C102_backslash_violated`). So do an empty attachment
  and one with U+2028 in a text (`C102_attachment_violated`), a snap with only a name (`C102_snap_violated`), a build stamp that is
  not two lines (`C102_stamp_violated`) and memory without swap (`C102_memory_violated`).
* **C103** — removing a sequence can make another one, which remains in the comments and is removed when the session is suspended and
  resumed, so that the comments change (`C103_again_violated`). Other control characters remain, though the documentation says that
  they are removed (`C103_control_violated`).
* **C104** — a test whose category is not among the units is not in the tables of the HTML report, even if it failed; it is in the
  chart (`C104_missing_violated`). The heading of a category also counts resource jobs and attachments of that category, which are not
  in its table (`C104_heading_violated`). The link of a resource job called `package` that is not the one of
  `com.canonical.certification` leads nowhere or to other packages (`C104_package_violated`). A log that begins with an empty line is
  shown without it (`C104_first_line_violated`).
* **C105** — the flag `also-after-suspend` is removed from the flags of the new job before `also-after-suspend-manual`, of which `-manual`
  remains as a flag (`C105_flag_violated`). If the field `depends` ends in a comment, what is appended to it is part of the comment, and
  the job is not run after suspending (`C105_comment_violated`). A sibling without an id of its own clashes with the job; the job is
  then in the session though adding it failed (`C105_clash_violated`). An override of `summary` has no effect if the job has `_summary`
  (`C105_override_violated`). A sibling is not translated where normalisation changed the text (`C105_translation_violated`).
  Parameters are inserted twice, so that a parameter with braces breaks the new job (`C105_braces_violated`).
* **C106** — lines of a value that begin with `#` or `;` are lost, so is the indentation of its lines and the white space at its ends
  (`C106_hash_violated`, `C106_indent_violated`, `C106_end_violated`); a carriage return in a value ends it when a file is read
  (`C106_return_violated`). Option names that begin with a bracket or `#`, or hold `=`, become something else (`C106_bracket_violated`,
  `C106_name_violated`). An option without a value that is followed by an indented line makes `read` and `read_string` fail with
  `AttributeError` (`C106_crash_violated`), which is not recorded in the list of problems.
* **C107** — options of `DEFAULT`, where variables like `sandbox` are written, are in every section too and so in the environment of
  every job (`C107_default_violated`). A section that is missing in a later text keeps its old value, while variables go back to their
  defaults (`C107_stale_violated`). A configuration with a section that was never set cannot be written: `AttributeError`
  (`C107_unset_violated`). A lone percent sign in a section makes `read` and `read_string` raise instead of recording a problem; a doubled
  one is not doubled again on writing, so that writing fails or the value comes back different (`C107_percent_violated`). A section named
  like a parameter of a parametric section is read as both (`C107_colon_violated`).
* **C108** — objects of different classes are equal if their values are, like a comment and an error at the same place with the same text
  (`C108_kind_violated`). Objects of classes made with `podify` are never equal to each other and cannot be ordered, and equality with
  objects of POD classes is not transitive (`C108_podify_violated`). The order is partial: `None`, the usual default, cannot be compared
  with other values (`C108_none_violated`). A class cannot have two base classes that share an ancestor with fields
  (`C108_diamond_violated`). A field that was made `UNSET` has its default in a copy (`C108_copy_violated`).
* **C109** — directories that cannot be read are passed over without a word: files in them are missing and no problem is recorded
  (`C109_unreadable_violated`). With a base directory, the directories given for units, jobs and so on are not looked at, even if
  they lie elsewhere (`C109_outside_violated`). Links to directories are followed at the top only: a directory given under two names
  has its files (and units) twice, while one linked further below is left out (`C109_link_violated`).
* **C110** — the text report without colours does not have former outcomes: they are printed to the standard output, as the text of a
  Python bytes object in hexadecimal (`C110_history_violated`). With colours, skipped and not supported jobs have the same sign
  (`C110_skip_violated`). A summary of several lines looks like further jobs (`C110_newline_violated`). Whether a report written to a
  file has escape sequences in it depends on the standard output being a terminal (`C110_terminal_violated`). Words longer than
  fifteen characters break the column (`C110_column_violated`).
* **C111** — a file whose name has a colon looks like a line of another file (`C111_colon_violated`); a file named like the job that
  generated a unit, or `???`, looks like that source (`C111_kind_violated`); an issue without an origin looks like one with an origin if
  its message has a colon (`C111_nowhere_violated`); an origin in a file without a name cannot be made relative (`C111_nameless_violated`).
* **C112** — without `dpkg` and `rpm` finding the device ends with `AttributeError`, as `arch_linux_uname` is a misspelt name
  (`C112_uname_violated`); values with `&` give the same cookie to different systems (`C112_separator_violated`).
* **C113** — in the mode that is not strict (used by `export_to_file`) an option with a value is dropped although its name is supported
  (`C113_value_violated`), and `None` for the options, which strict mode accepts, ends with `TypeError` (`C113_none_violated`); a
  definition whose options end with a comma passes validation but its exporter can never be made (`C113_comma_violated`).
* **C114** — a type derived from a type of units without its own `Meta` cannot be made (`KeyError`), although the documentation says that it
  inherits it (`C114_meta_violated`); a symbol with two names in a definition is listed twice (`C114_twice_violated`).
* **C115** — `plainbox dev analyze -v` fails with `AttributeError` whenever there is a job to run, as jobs have no method `validate`
  (`C115_validation_violated`); `-r` never tells any package (`C115_packages_none`): ids of resources have a namespace, so that nothing is
  found (`C115_packages_silent`), and without one it fails, as expressions have no attribute `resource_id` (`C115_packages_violated`); jobs
  of the kind `local` are said to be interactive (`C115_local_violated`).
* **C116** — `textdomain` and `bindtextdomain` have caches like the functions that translate: a domain that was chosen before cannot be
  chosen again (`C116_domain_violated`), a message keeps its translation of another domain (`C116_stale_violated`), and a directory bound
  after the first use of its domain is ignored (`C116_directory_violated`).
* **C117** — `GoBuildSystem.probe` puts the name of the directory in a pattern of `glob` as it is: in a directory with `[`, `*` or `?` in its
  name sources of go are not seen (`C117_bracket_violated`) or those of another directory are (`C117_star_violated`).
* **C118** — files of the formats 1 to 5 hold the mandatory jobs, but the readers of these formats do not restore them, so that the
  next choice of jobs drops them (`C118_mandatory_violated`); formats 1 to 3 keep one result per job (`C118_history_violated`).
* **C119** — the lexer takes every `#` outside quotes for a comment, also inside words: `echo $# 'a⏎b'` is reported
  though its quotes are closed (`C119_rejects_violated`) and `echo a#'` is not (`C119_accepts_violated`); anything with `<<`, a shift
  too, is not looked at (`C119_shift_violated`).
* **C120** — `os.access` is true of directories: with `PAGER` set to nothing the process that should become the pager tries to run a
  directory and the output is lost (`C120_empty_violated`); a value with options is not found and another pager is used
  (`C120_options_violated`).
* **C121** — a unit of the base type (`unit: unit` can be loaded) makes `plainbox dev list` fail with `NotImplementedError` before
  anything is listed (`C121_fails_violated`).
* **C122** — `manage.py i18n --dry-run` makes directories (`C122_dry_violated`); it succeeds when the programs fail (`C122_status_violated`);
  a file `.po` is taken for the language `.po` (`C122_hidden_violated`); what is built is not looked at if there is a directory `locale`
  (`C122_shadowed_violated`).
* **C123** — the version is put into a shell command as it is, and the definition accepts everything that begins with a digit: another file
  is signed (`C123_signed_violated`); `net-1` version `2` and `net` version `1-2` have the same tarball (`C123_names_violated`); it does not
  matter whether signing works (`C123_status_violated`); the directory `locale` is left out (`C123_locale_violated`).
* **C124** — jobs run with pkexec ask in the middle of the run (`C124_pkexec_violated`), and so do jobs that are added later
  (`C124_added_violated`); `SessionAssistant.run_job` warms up before every job, also one that needs nothing (`C124_again_violated`), but
  not for a job that is not on the run list (`C124_outside_violated`).
* **C125** — `CommandLineCommand` and `LineCommand` are the same command and `Command` has no name (`C125_name_violated`); a second
  extension of the same command fails (`C125_twice_violated`); an extension of the install command without an epilog in its docstring, as in
  test_provider_manager.py 571-576, makes every call of manage.py fail (`C125_install_violated`).
* **C126** — `on_service_removed` is not called when a server unregisters or is pruned while another one offers the same service, against its
  docstring (`C126_removed_violated`); a packet with `("RPYC", 5, ())` ends the server, since `cmd.lower()` is outside of the `try`
  (`C126_survives_violated`).
* **C127** — `StopIteration` arrives as the class, without its value (`C127_stop_violated`); an exception whose text has a surrogate, such as
  one about a file name that is not valid UTF-8, is declared safe to write but cannot be written (`C127_write_violated`); a class named
  `b.c` of module `a` and the class `c` of `a.b` become one generic class (`C127_class_violated`).
* **C128** — the docstring of `para` says that the paragraph is re-formatted to match the width, but a list of lines, such as the traceback of a
  crash, is neither wrapped nor cut (`C128_box_violated`).
* **C129** — jobs with the flag `use-chunked-io` are read byte by byte, and every byte is decoded on its own with errors ignored: the user sees
  nothing but the ASCII characters of their output (`C129_chunked_violated`), and `plainbox dev script` shows nothing of it at all
  (`C129_numbered_violated`). One line that is no UTF-8 silences the latter for the rest of the job, on both streams (`C129_stopped`).
* **C130** — passwords are encrypted as numbers, so an empty password reaches sudo as a NUL (`C130_empty_violated`). They are encoded with the
  encoding of the terminal but decoded as UTF-8: with Latin-1 a password raises `UnicodeDecodeError` when a command is run, or is taken for
  another one (`C130_encoding_violated`). `get_master_passphrase` does not ask for the password, unlike `encrypted_password`, and raises
  `AttributeError` if nobody did (`C130_early_violated`). A password that is longer than the key is asked for again each time (`C130_long`).
* **C131** — plainbox writes the job to a pipe before it starts the program that reads it, and reads the report after that has ended. A job that
  does not fit into a pipe (64 KiB on Linux) stops plainbox for ever (`C131_long_job_violated`), and so does a report that does not
  (`C131_long_report_violated`) or a process that a test leaves behind with the descriptor (`C131_helper_violated`). The report is written as UTF-8
  but read with the encoding of the locale, outside of the `try` (`C131_locale_violated`).
* **C132** — the video memory is the sum of all memory regions that can be prefetched, of whatever device, and only of those given in M: a card
  with 8 GiB is told to have the 32 MiB of the network card (`C132_vram_violated`). A "3D controller" is not a video device
  (`C132_addon_violated`), a chipset without "LPC" is NA (`C132_chipset_violated`), fields that are not there become "None"
  (`C132_none_violated`), of several processors only the last is told (`C132_processors_violated`), and one attachment that is not UTF-8, or one record
  without a field, means that there is no report at all (`C132_lost_violated`, `C132_fails`).
* **C133** — `Node.visit` says that it visits all nodes reachable; those in a list in a list are not visited (`C133_nested_violated`; no parser of
  plainbox makes such trees). A quote left open in `depends` (`a "b`) means that the dependencies are never computed (`C133_quote_violated`, from C28).
* **C134** — the comment in `run_job` says that the outcome of a skipped job is mirrored if any inhibitor points to it; this is not done for
  requirements: a job that requires a resource of a skipped resource job is `not-supported`, or even `fail` (`C134_resource_violated`).
  `run_job_if_possible` ignores the flag fail-on-resource (`C134_flag_violated`).
* **C135** — jobs of plugin user-interact-verify, local, qml and others have no statement in the graph, so that they are missing if nothing
  depends on them and they depend on nothing (`C135_plugin_violated`); ids with quotes make a file that cannot be read (`C135_quote_violated`).
* **C136** — `enforce` removes one decorator only, so that a method with two decorators that use `functools.wraps` is refused although it is
  allowed (`C136_twice_violated`); the documentation says that properly made decorators are handled. No method of the assistant has two.
* **C137** — the background YELLOW is blue (`C137_yellow_violated`); on Windows without colorama the name `ansi_on` is bound to `ansi_off`, so
  that `is_enabled` is always true and outcomes are written in colours that nothing ends (`C137_windows_violated`).
* **C138** — if names of arguments have brackets in them, help raises `AssertionError` as soon as the usage is too wide for one line
  (`C138_brackets_violated`).
* **C139** — `check-config`, which is to find problems, ends with an exception on a faulty file and on a value like `50%` (`C139_syntax`,
  `C139_raises_violated`), and says nothing of a misspelt section, with exit code 0 (`C139_misspelt_violated`).
* **C140** — a file left behind that is not UTF-8 makes `dev script` end with an exception in place of the exit code of the command
  (`C140_binary_violated`); after one that must not be read nothing more is shown (`C140_forbidden_violated`); the exit codes 125 and 126
  may be those of the command (`C140_same_code_violated`).
* **C141** — assigning `provider_list` of a context leaves the cache as it is, so that clashes among the new units are missed
  (`C141_stale_violated`); a provider that is twice in the list makes its units clash with themselves, with nothing to look at
  (`C141_itself_violated`); units with equal checksums are put next to each other in the report (`C141_order_violated`).
* **C142** — a session that cannot be read ends `session show` with an exception, and the next ones are not shown (`C142_hidden_violated`);
  of a session that was not saved yet nothing is said about resuming although it was asked for (`C142_unsaved_violated`); of two session
  directories whose names differ only in what follows the last dot, only the first can be shown or archived (`C142_twin_violated`).
* **C143** — the version runs together with the explanation if the documentation is one line (`C143_version_violated`); the place of the
  implementation in the documentation of a public function is wrong if the path has a colon (`C143_where_violated`); a shim without a
  documentation cannot be made public: `TypeError` (`C143_refused`).
* **C144** — without log files a crash is shown twice, because its logger has the handler for errors and passes the message on to one that
  has it, too (`C144_twice_violated`); tracing a logger outside of plainbox and checkbox shows nothing, even with `-C` (`C144_trace_violated`);
  if `PLAINBOX_TRACE` is not set the root logger is traced, whatever level was asked for (`C144_environment_violated`).
* **C145** — a callback that raises an exception keeps the callbacks after it from ever being called (`C145_raising_violated`); an answer
  that is there in time is dropped if handling another message before it takes longer than the expiry (`C145_late_violated`); after that the
  expiry can be removed, and waiting never ends (`C145_dropped_violated`).
* **C146** — running a test case that already has its values runs all values again, although it counts as one (`C146_bound_violated`); a
  parameter with the name of an attribute cannot be read (`C146_lookup_violated`); tests that have values cannot be hashed, because the class
  of the parameters defines `__eq__` only, and tests of different classes are equal but have different hashes (`C146_hash_violated`); values
  with commas can make different tests look the same (`C146_named_violated`).
* **C147** — elements that come before an exception of the iterator are lost if they are read in the same chunk (`C147_lost_violated`); with
  a size of zero elements are left out without an exception, and the first chunk can be larger than the maximum (`C147_zero_violated`).
* **C148** — a connection that is being accepted while the server is closed is served all the same if the server was found active before,
  and else stays open for ever, because nothing closes it (`C148_race_violated`).
* **C149** — `po/POTFILES.in` of a new provider names `jobs/examples-*.txt`, which are not made: the examples are `units/examples-*.pxu`
  (`C149_potfiles_violated`). A name with a newline at its end is accepted, and then a text in `manage.py` is broken (`C149_newline_violated`).
* **C150** — input that cannot be decoded ends with a traceback, because `UnicodeEncodeError` is handled and `UnicodeDecodeError` is
  raised; something that cannot be shown ends with a traceback too (`C150_traceback_violated`).
* **C151** — restarting is undone by `resume_session` and after jobs only: an application that starts a new session at boot is started at
  every boot (`C151_new_violated`), an exception in `run_job` leaves it set up (`C151_fail_violated`), and with
  `use_alternate_restart_strategy` alone jobs that ask for it cannot be run at all (`C151_callback_violated`). The Snappy strategy has one
  file for all applications, so one that resumes undoes what another has set up (`C151_snappy_violated`).

## Testing the theorems

`seeded/LOG.jsonl` records edits of the model, made in a scratch copy, that resemble bugs; which theorems failed to
prove; and which were tightened because a false claim still proved.

Edits that no theorem rejects and that change no claim: the order of the checks in `Config.mkVar`, the early test for a
runner in `Assistant.need` (the call itself tests again).  Two specifications exist only because of such edits: the
grammar of patterns (`Props/PatternGrammar`) and the specification of saved documents (`Props/ResumeDoc`).

{"id": "C01", "title": "Resolved run order is a valid schedule", "statement": "When DependencySolver.resolve_dependencies(job_list, visit_list) returns, the returned list (a) contains every visited job, (b) contains no job twice, (c) places every dependency of every listed job strictly before that job, and (d) contains only jobs that are visited or transitively required by a visited job.", "quantifier": "every job list, every visit list (or none), every dependency relation, every iteration order of each job's dependency set", "why_tests_cant": "The dependency set is a Python set, so its iteration order differs from run to run, and the graph is unbounded; tests cover a few graphs and one order each.", "anchors": ["plainbox/impl/depmgr.py: DependencySolver.resolve_dependencies, _solve, _visit, _get_job_map", "plainbox/impl/ctrl.py: CheckBoxSessionStateController.get_dependency_set"]}
{"id": "C02", "title": "Dependency resolution fails exactly when the input is broken", "statement": "resolve_dependencies raises if and only if two jobs share an id, or a visited job is not in the job list, or a reachable job names a missing dependency, or a dependency cycle is reachable from the visit list. When it raises, the error is truthful: a duplicate error names two jobs with one id, an unknown error names a visited job absent from the list, a missing error names a listed job and one of its dependencies that no listed job has.", "quantifier": "every job list, visit list and dependency relation", "why_tests_cant": "Completeness (no spurious failure) and soundness (no missed failure) are statements over all graphs.", "anchors": ["plainbox/impl/depmgr.py: DependencySolver._visit, DependencyDuplicateError, DependencyUnknownError, DependencyMissingError"]}
{"id": "C03", "title": "A reported dependency cycle is a real cycle", "statement": "When resolve_dependencies raises DependencyCycleError, its job_list has at least two entries, starts and ends with the same job, and each entry directly depends on the next one.", "quantifier": "every job list, visit list and dependency relation", "why_tests_cant": "The trail slicing logic must be right for every depth at which the cycle is entered and every path that leads into it.", "anchors": ["plainbox/impl/depmgr.py: DependencySolver._visit, DependencyCycleError.__init__"]}
{"id": "C04", "title": "Selecting jobs never fails and never leaves an invalid run list", "statement": "SessionState.update_desired_job_list() always terminates; the resulting run list is a valid schedule of the surviving desired jobs and their dependencies; every requested job is either on the run list or was dropped with a reported problem; when no problem is returned nothing was dropped.", "quantifier": "every session job list, every requested selection, every mandatory list, every dependency relation", "why_tests_cant": "The method repairs its input in a loop that removes jobs and retries; termination and the quality of the result depend on unbounded interactions between problems.", "anchors": ["plainbox/impl/session/state.py: SessionState.update_desired_job_list", "plainbox/impl/depmgr.py: DependencyError.affected_job"]}
{"id": "C05", "title": "A startable job really has its prerequisites met", "statement": "If JobState.can_start() is true after a readiness recomputation, then the job is on the run list, every direct dependency has outcome 'pass', every 'after' dependency has some outcome, every resource it requires that is not itself a passed resource job is present, and its requirement program evaluates to true; conversely, a run-list job with attempts left that meets all of this can start.", "quantifier": "every session state: jobs, results, resources, run list", "why_tests_cant": "It is a biconditional over every combination of results, dependencies and resources.", "anchors": ["plainbox/impl/session/jobs.py: JobState.can_start", "plainbox/impl/ctrl.py: CheckBoxSessionStateController.get_inhibitor_list", "plainbox/impl/session/state.py: SessionState._recompute_job_readiness"]}
{"id": "C06", "title": "Readiness is never stale", "statement": "After any sequence of successful session operations (adding and removing jobs, changing the selection, recording results, trimming), the readiness inhibitors visible on every job equal those obtained by computing them afresh from the current results, resources and run list.", "quantifier": "every finite history of session operations starting from an empty session", "why_tests_cant": "Staleness shows up only in particular histories; tests replay a handful.", "anchors": ["plainbox/impl/session/state.py: SessionState.update_job_result, update_desired_job_list, add_unit, remove_unit, trim_job_list, _recompute_job_readiness"]}
{"id": "C07", "title": "Running the to-do list in order never meets an unfinished prerequisite", "statement": "If an application takes the run list once and, for each job in order, runs it when it can start (or records the not-started outcome otherwise), then at the moment each job is considered none of its dependencies is pending, a job is started only if all its direct dependencies passed, and at the end every job on the list has an outcome.", "quantifier": "every valid session, every run list, every assignment of outcomes and resource outputs produced by the jobs", "why_tests_cant": "The guarantee connects the dependency solver, readiness and result processing over every possible sequence of outcomes.", "anchors": ["plainbox/impl/session/assistant.py: SessionAssistant.get_dynamic_todo_list, run_job, use_job_result", "plainbox/impl/session/state.py: update_job_result", "plainbox/impl/depmgr.py"]}
{"id": "C08", "title": "Outcome of a job that cannot start", "statement": "SessionAssistant.run_job() on a job that cannot start yields 'fail' when some resource requirement failed and the job has the fail-on-resource flag, otherwise 'skip' when some failed dependency was itself skipped, otherwise 'not-supported'; the answer does not depend on the order of the readiness inhibitors.", "quantifier": "every list of inhibitors in every order, every flag set, every outcome of related jobs", "why_tests_cant": "The loop mixes break and continue with overwriting; order independence is a property over permutations.", "anchors": ["plainbox/impl/session/assistant.py: SessionAssistant.run_job"]}
{"id": "C09", "title": "Session job bookkeeping stays consistent", "statement": "After any sequence of add_unit, remove_unit, trim_job_list, update_desired_job_list and update_job_result calls, job ids in job_list are unique, job_state_map has exactly one entry per listed job, and adding a job identical to an existing one changes nothing while adding a different job with a used id is refused without side effects.", "quantifier": "every finite history of session operations", "why_tests_cant": "An invariant over unbounded histories including refused operations.", "anchors": ["plainbox/impl/session/state.py: SessionState.add_unit, _add_job_unit, remove_unit, trim_job_list"]}
{"id": "C10", "title": "Trimming removes exactly what it was asked to", "statement": "trim_job_list(qualifier) either raises ValueError and leaves the session unchanged (when a designated job is on the run list), or removes exactly the designated jobs from the job list together with their state and resources, keeping everything else in order.", "quantifier": "every session state and every qualifier", "why_tests_cant": "Quantifies over all job lists and all qualifiers.", "anchors": ["plainbox/impl/session/state.py: SessionState.trim_job_list"]}
{"id": "C11", "title": "Aggregate outcomes do not depend on order", "statement": "The outcome reported for a category, for all resource jobs and for all attachment jobs is 'fail' if any contributing job failed or crashed, otherwise 'pass' if any passed, otherwise 'skip'; it is the same for every ordering of jobs, and get_outcome_stats counts each job exactly once.", "quantifier": "every job list with results, every permutation of it", "why_tests_cant": "Permutation invariance over unbounded lists.", "anchors": ["plainbox/impl/session/state.py: SessionState.category_outcome_map, resource_global_outcome, attachment_global_outcome, get_outcome_stats"]}
{"id": "C12", "title": "Combined qualifiers: exclusion beats inclusion beats indifference", "statement": "The vote of a composite qualifier is VOTE_EXCLUDE if any member excludes, else VOTE_INCLUDE if any member includes, else VOTE_IGNORE; it is independent of order, grouping and repetition of the members.", "quantifier": "every finite tree of qualifiers and every job", "why_tests_cant": "Nested composites are unbounded.", "anchors": ["plainbox/impl/secure/qualifiers.py: CompositeQualifier.get_vote, SimpleQualifier.get_vote, IJobQualifier.designates"]}
{"id": "C13", "title": "select_jobs returns exactly the designated jobs, in qualifier order, once", "statement": "select_jobs(job_list, qualifier_list) returns each job that at least one member qualifier includes and no member qualifier excludes, each exactly once, ordered by the first qualifier that includes it and then by position in the job list; the fast path for id-equality qualifiers returns the same as the general path when ids are unique.", "quantifier": "every job list with unique ids and every list of (nested) qualifiers", "why_tests_cant": "Equality of an optimised and a general algorithm on all inputs.", "anchors": ["plainbox/impl/secure/qualifiers.py: select_jobs, get_flat_primitive_qualifier_list"]}
{"id": "C14", "title": "RFC822 records survive dump and load", "statement": "Dumping a record with RFC822Record.dump() and loading the text with load_rfc822_records() gives back one record with the same fields in the same order and the same values.", "quantifier": "every record with legal field names and every value", "why_tests_cant": "Values are arbitrary multi-line strings; the escaping of blank and dotted lines must be right for all of them.", "anchors": ["plainbox/impl/secure/rfc822.py: RFC822Record.dump, gen_rfc822_records, normalize_rfc822_value"]}
{"id": "C15", "title": "RFC822 parsing accounts for every line", "statement": "Parsing text yields records whose origin line ranges are disjoint, increasing and inside the text; an RFC822SyntaxError is raised exactly for a line that is neither a comment, blank, continuation nor 'key: value', for a repeated key, or for a continuation line with no open key; and all records before the offending line are produced first.", "quantifier": "every text", "why_tests_cant": "Line accounting over every interleaving of comments, blanks and continuations.", "anchors": ["plainbox/impl/secure/rfc822.py: gen_rfc822_records, load_rfc822_records"]}
{"id": "C16", "title": "Requirement expressions cannot execute arbitrary code", "statement": "ResourceExpression(text) is accepted only if every node of the parsed expression is on the documented whitelist (comparisons, boolean connectives, attribute access, names, constants, tuples/lists, calls to len/int/float/bool) and the set of resources it reports covers every name that evaluation reads.", "quantifier": "every syntax tree", "why_tests_cant": "A sandbox claim is about every tree, including those a test author did not think of.", "anchors": ["plainbox/impl/resource.py: ResourceNodeVisitor, ResourceExpression.__init__, _analyze"]}
{"id": "C17", "title": "A requirement holds exactly when some combination of resources satisfies it", "statement": "ResourceExpression.evaluate(*resource_lists) returns True if and only if some choice of one resource from each list makes the expression evaluate to True, a choice whose evaluation raises counting as not satisfying; adding resources never turns True into False.", "quantifier": "every expression, every tuple of resource lists", "why_tests_cant": "Existential over an unbounded product.", "anchors": ["plainbox/impl/resource.py: ResourceExpression.evaluate"]}
{"id": "C18", "title": "Requirement programs are conjunctions with truthful errors", "statement": "ResourceProgram.evaluate_or_raise(map) returns True iff every referenced resource is present and every expression is true; it raises ExpressionCannotEvaluateError iff some expression refers to an absent resource, and otherwise ExpressionFailedError naming the first false expression.", "quantifier": "every program and every resource map", "why_tests_cant": "Quantifies over all programs and maps; the precedence between the two errors matters to readiness.", "anchors": ["plainbox/impl/resource.py: ResourceProgram.evaluate_or_raise, required_resources"]}
{"id": "C19", "title": "Suspend and resume preserve results", "statement": "For a session suspended with the current format and resumed against the same jobs, every job that had a result has the same final result and the same result history after resuming.", "quantifier": "every session state reachable through the API (any history of results, hollow or not)", "why_tests_cant": "A round trip over unbounded histories, filters and replay.", "anchors": ["plainbox/impl/session/suspend.py: SessionSuspendHelper6", "plainbox/impl/session/resume.py: SessionResumeHelper6, _process_job", "plainbox/impl/session/jobs.py: JobState"]}
{"id": "C20", "title": "Suspend and resume preserve the selection", "statement": "After any number of suspend/resume cycles the run list and the desired job list are the same as before the first suspend.", "quantifier": "every session state, every number of cycles", "why_tests_cant": "Drift shows up only after repeated cycles.", "anchors": ["plainbox/impl/session/suspend.py: SessionSuspendHelper2._repr_SessionState", "plainbox/impl/session/resume.py: _restore_SessionState_desired_job_list, _restore_SessionState_mandatory_job_list", "plainbox/impl/session/state.py: update_desired_job_list"]}
{"id": "C21", "title": "Checkpoints are atomic under crashes", "statement": "If the process dies at any point while SessionStorage.save_checkpoint(data) runs, a later load_checkpoint() returns either the complete previous data or the complete new data, never a mixture or a truncated file.", "quantifier": "every crash point, every previous content, every new data, every way the write is split into chunks", "why_tests_cant": "Tests cannot crash between two system calls at every point.", "anchors": ["plainbox/impl/session/storage.py: SessionStorage.save_checkpoint, load_checkpoint"]}
{"id": "C22", "title": "A checkpoint that returns has been stored, and a stale lock never blocks the session", "statement": "When SessionManager.checkpoint() returns normally the stored data is the new snapshot; a leftover temporary file from an earlier crash is cleared automatically and the checkpoint succeeds on retry; failures of the underlying system calls surface as exceptions.", "quantifier": "every initial state of the session directory and every pattern of failing system calls", "why_tests_cant": "Fault injection at every system call in every combination.", "anchors": ["plainbox/impl/session/manager.py: SessionManager.checkpoint", "plainbox/impl/session/storage.py: save_checkpoint, break_lock"]}
{"id": "C23", "title": "Malformed session data is rejected with a documented error", "statement": "Resuming from arbitrary bytes either yields a session or raises a SessionResumeError subclass; no other exception escapes.", "quantifier": "every byte string / every JSON document", "why_tests_cant": "The space of malformed documents is unbounded; tests try individual corruptions.", "anchors": ["plainbox/impl/session/resume.py: SessionResumeHelper.resume, _validate, SessionResumeHelper1, _build_JobResult"]}
{"id": "C24", "title": "Result builders round-trip", "statement": "result.get_builder().get_result() equals result for every result obtained from a builder, and a result is hollow exactly when nothing was set on it.", "quantifier": "every combination of result fields", "why_tests_cant": "Quantifies over all field values, including None and empty lists which are filtered.", "anchors": ["plainbox/impl/result.py: _JobResultBase.__init__, get_builder, is_hollow, JobResultBuilder.get_result"]}
{"id": "C25", "title": "Result history records each recorded result once, in order", "statement": "After any sequence of assignments to JobState.result, result_history is the sequence of assigned non-hollow results in order, and its last entry is the current result unless that is hollow; in particular two identical results recorded in a row both appear.", "quantifier": "every sequence of results", "why_tests_cant": "Unbounded histories with repeats.", "anchors": ["plainbox/impl/session/jobs.py: JobState._on_result_changed", "plainbox/impl/pod.py: Field.__set__"]}
{"id": "C26", "title": "I/O logs survive writing and reading", "statement": "Reading a log written by IOLogRecordWriter yields exactly the records written, for every sequence of records and every byte content, one text line per record.", "quantifier": "every list of (delay, stream, bytes) records", "why_tests_cant": "Arbitrary bytes pass through base64 and JSON lines; padding and alphabet cases are unbounded.", "anchors": ["plainbox/impl/result.py: IOLogRecordWriter.write_record, IOLogRecordReader.read_record"]}
{"id": "C27", "title": "POD fields enforce their declared filters and notify exactly on change", "statement": "Every assignment to a POD field either raises and leaves the old value, or stores the filtered value; change notification fires exactly when the stored value differs from the old one; a read-only field keeps its first value; a field declared unique never holds a sequence with duplicates.", "quantifier": "every sequence of assignments, every filter list", "why_tests_cant": "Quantifies over all filter compositions and assignment histories.", "anchors": ["plainbox/impl/pod.py: Field.__set__, read_only_assign_filter, type_check_assign_filter, sequence_type_check_assign_filter, unique_elements_assign_filter, POD.__init__"]}
{"id": "C28", "title": "Word lists parse back to the words that were written", "statement": "WordList.parse() of words separated by whitespace or commas, each bare or double-quoted, yields exactly those words in order; parsing terminates on every text.", "quantifier": "every list of words and every text", "why_tests_cant": "A scanner termination and round-trip claim over all strings.", "anchors": ["plainbox/impl/xscanners.py: ScannerBase.get_token, WordScanner", "plainbox/impl/xparsers.py: WordList.parse"]}
{"id": "C29", "title": "Include and override statements mean what they say", "statement": "FieldOverride.parse('apply V to P') yields value V and pattern P, IncludeStmt.parse('P F1=V1, F2=V2') yields the pattern and the overrides in order, for all words; anything else yields an Error node, never an exception.", "quantifier": "every pattern, field and value word", "why_tests_cant": "Quantifies over all words and statement shapes.", "anchors": ["plainbox/impl/xparsers.py: FieldOverride.parse, IncludeStmt.parse, OverrideFieldList"]}
{"id": "C30", "title": "Selecting by pattern agrees with regular-expression matching", "statement": "A pattern written in a test plan selects exactly the job ids that the anchored regular expression matches, whether it is treated as fixed text or as a pattern.", "quantifier": "every pattern and every job id", "why_tests_cant": "Equality of an optimised and a general matcher for all patterns.", "anchors": ["plainbox/impl/xparsers.py: Re.parse, ReFixed", "plainbox/impl/unit/testplan.py: TestPlanUnit.parse_matchers, qualify_pattern"]}
{"id": "C31", "title": "Later overrides win", "statement": "When several override statements apply to one job, the effective value of each field is the one from the last matching statement in test-plan order, later test plans over earlier ones; re-applying overrides is idempotent.", "quantifier": "every list of test plans, every list of override statements, every job", "why_tests_cant": "Interactions of merging by pattern across plans.", "anchors": ["plainbox/impl/session/state.py: SessionDeviceContext._override_update, _bulk_override_update", "plainbox/impl/unit/testplan.py: TestPlanUnitSupport._get_override_list", "plainbox/impl/session/jobs.py: JobState.apply_overrides"]}
{"id": "C32", "title": "One effective category per job", "statement": "TestPlanUnit.get_effective_category(job) and get_effective_category_map([job]) agree for every job.", "quantifier": "every list of category overrides and every job", "why_tests_cant": "Agreement of two implementations on all inputs.", "anchors": ["plainbox/impl/unit/testplan.py: get_effective_category, get_effective_category_map"]}
{"id": "C33", "title": "Unit checksums identify unit content", "statement": "Two units have the same checksum exactly when they have the same fields, the same provider namespace and the same template parameters; the order of fields does not matter.", "quantifier": "every pair of units", "why_tests_cant": "An injectivity claim over all units (modulo the hash function).", "anchors": ["plainbox/impl/unit/unit.py: Unit.checksum, Unit.__eq__"]}
{"id": "C34", "title": "Identifier qualification is stable", "statement": "Unit.qualify_id() is idempotent, never changes an identifier that already has a namespace, and gives distinct results for distinct unqualified ids within one namespace.", "quantifier": "every identifier and every provider namespace", "why_tests_cant": "All strings.", "anchors": ["plainbox/impl/unit/unit.py: Unit.qualify_id", "plainbox/impl/unit/unit_with_id.py: UnitWithId.id"]}
{"id": "C35", "title": "Template instantiation depends only on what the template mentions", "statement": "TemplateUnit.instantiate_all(resources) produces one unit per resource accepted by the filter, in order, numbered from 1; units get equal content whenever the resource attributes mentioned by the template are equal; every parameter the template accesses is supplied when the resource has it.", "quantifier": "every template, every resource list", "why_tests_cant": "Quantifies over all resources and all field texts.", "anchors": ["plainbox/impl/unit/template.py: TemplateUnit.instantiate_all, instantiate_one, should_instantiate", "plainbox/impl/unit/__init__.py: get_accessed_parameters"]}
{"id": "C36", "title": "The execution controller chosen for a job is a best and able one", "statement": "The controller chosen to run a job has the maximal score among all controllers and a non-negative score; if none is able LookupError is raised; with the stock controllers a job that asks for root is never executed by the unprivileged controller and an ordinary job never by a privilege-elevating one.", "quantifier": "every list of controllers with any scores, every environment, every job", "why_tests_cant": "All score assignments and environments.", "anchors": ["plainbox/impl/session/state.py: SessionDeviceContext.get_ctrl_for_job", "plainbox/impl/runner.py: JobRunner._get_ctrl_for_job", "plainbox/impl/ctrl.py: get_checkbox_score, get_score"]}
{"id": "C37", "title": "The privileged environment equals the intended one", "statement": "Applying the differential environment to the base environment gives every variable of the intended execution environment its intended value (locale variables neutralised unless preserve-locale is set), and mentions no variable whose value would not change.", "quantifier": "every base environment, target environment and flag set", "why_tests_cant": "All environments.", "anchors": ["plainbox/impl/ctrl.py: CheckBoxDifferentialExecutionController.get_differential_execution_environment"]}
{"id": "C38", "title": "Command results map to outcomes correctly", "statement": "For a job run by the runner, the outcome is 'pass' iff the command exits with 0, 'crash' iff it was killed by a signal, 'fail' otherwise; a dry run executes no command except for resource and attachment jobs; jobs needing verification come back undecided.", "quantifier": "every plugin, return code, flag and runner mode", "why_tests_cant": "Decision table over unbounded return codes and modes.", "anchors": ["plainbox/impl/runner.py: JobRunner.run_job, _just_run_command, run_*_job"]}
{"id": "C39", "title": "Configuration values are always valid", "statement": "After any sequence of assignments and reads of configuration text, the value of every variable is its default or satisfies all its validators; problems found while reading are recorded, never raised.", "quantifier": "every configuration class, every text, every history of assignments and reads", "why_tests_cant": "All texts and all histories.", "anchors": ["plainbox/impl/secure/config.py: Variable.__set__, validate, Config.read_string, _read_commit"]}
{"id": "C40", "title": "Resource job cache: computed once, and crash tolerant", "statement": "ResourceJobCache.get(checksum, fn) runs fn at most once per checksum and returns the same outcome and output on every later call; a crash at any point while an entry is being stored never prevents a later load of the cache.", "quantifier": "every sequence of get/load calls, every crash point while storing", "why_tests_cant": "Histories and crash points.", "anchors": ["plainbox/impl/jobcache.py: ResourceJobCache.get, load, _store"]}
{"id": "C41", "title": "Session assistant enforces run/report pairing", "statement": "In every accepted sequence of SessionAssistant calls, two run_job() calls are separated by a use_job_result() call, no job runs before providers and a test plan (or hand-picked jobs) were selected, and no job runs after finalize_session() until a session is created or resumed.", "quantifier": "every sequence of API calls", "why_tests_cant": "A protocol property over all call sequences.", "anchors": ["plainbox/impl/session/assistant.py: SessionAssistant", "plainbox/impl/developer.py: UsageExpectation.enforce"]}
{"id": "C42", "title": "Provider selection", "statement": "SessionAssistant.select_providers(*patterns) selects every plainbox provider and exactly the providers whose name matches some pattern, each once, and raises ValueError iff some pattern selects nothing new; after a ValueError the call can be corrected and repeated.", "quantifier": "every provider list, every pattern list, every sequence of attempts", "why_tests_cant": "Retry histories.", "anchors": ["plainbox/impl/session/assistant.py: SessionAssistant.select_providers, start_new_session"]}
{"id": "C43", "title": "Signals reach exactly the connected listeners", "statement": "Firing a signal calls each listener connected at that moment exactly once per connection, in connection order, even when listeners connect or disconnect during delivery; disconnecting undoes connecting; remove_signals_listeners(obj) leaves no listener of obj connected to any signal.", "quantifier": "every history of connect/disconnect/fire operations", "why_tests_cant": "Histories with re-entrancy.", "anchors": ["plainbox/vendor/morris/__init__.py: signal.connect, disconnect, fire, remove_signals_listeners"]}
{"id": "C44", "title": "Command output is delivered completely and in order", "statement": "While a command runs under ExternalCommandWithDelegate, the delegate sees on_begin first, then every line of stdout in order and every line of stderr in order, each exactly once, and on_end/on_abnormal_end last, under every interleaving of the reader and worker threads.", "quantifier": "every thread schedule, every stdout and stderr content", "why_tests_cant": "Thread interleavings cannot be enumerated by tests.", "anchors": ["plainbox/vendor/extcmd/__init__.py: ExternalCommandWithDelegate.call, _read_stream, _drain_queue"]}
{"id": "C45", "title": "The trusted launcher runs only known jobs with the environment it was given", "statement": "The trusted launcher executes a command only if a known job has the requested checksum, and then executes that job's command; the environment it reconstructs from the NAME=VALUE arguments built by the controller equals the environment the controller wanted to pass.", "quantifier": "every job list, checksum and environment", "why_tests_cant": "All environments, values containing '=' included.", "anchors": ["plainbox/impl/secure/launcher1.py: TrustedLauncher, UpdateAction", "plainbox/impl/ctrl.py: RootViaPTL1ExecutionController.get_execution_command"]}
{"id": "C46", "title": "Units can be removed from a device context after being added", "statement": "After any successful sequence of add_unit/remove_unit on a SessionDeviceContext, the unit list holds each unit at most once, add_unit of a present unit raises ValueError, remove_unit of a present unit succeeds, and a refused add leaves the context as it was.", "quantifier": "every history of add/remove operations", "why_tests_cant": "Histories including refused adds and generated siblings.", "anchors": ["plainbox/impl/session/state.py: SessionDeviceContext.add_unit, remove_unit, SessionState.add_unit"]}
{"id": "C47", "title": "Estimated durations add up", "statement": "get_estimated_duration() returns, for automated and for manual jobs separately, the sum of the estimates of the jobs on the run list, or None if any of them has no estimate; manual jobs carry the fixed overhead; textual durations parse to hours*3600 + minutes*60 + seconds.", "quantifier": "every run list and every duration text", "why_tests_cant": "Sums over unbounded lists and a parser over all strings.", "anchors": ["plainbox/impl/session/state.py: SessionState.get_estimated_duration", "plainbox/impl/unit/job.py: JobDefinition.estimated_duration"]}
{"id": "C48", "title": "Log files are not shared between jobs", "statement": "Two different jobs of a session never write to the same I/O log file.", "quantifier": "every pair of job ids", "why_tests_cant": "Injectivity over all strings.", "anchors": ["plainbox/impl/runner.py: slugify, JobRunner.get_record_path_for_job"]}
{"id": "C49", "title": "Session listing order and identity", "statement": "SessionStorageRepository.get_storage_list() lists exactly the session directories, youngest first.", "quantifier": "every directory content", "why_tests_cant": "All directory contents.", "anchors": ["plainbox/impl/session/storage.py: SessionStorageRepository.get_storage_list"]}
{"id": "C50", "title": "Resource output prefix semantics", "statement": "When a resource job's output contains a syntax error, all well-formed records before the error are kept and become the resource's value; a job without records becomes a single empty resource; each new result of the job replaces the earlier value entirely.", "quantifier": "every output text, every sequence of results", "why_tests_cant": "All outputs and histories.", "anchors": ["plainbox/impl/ctrl.py: gen_rfc822_records_from_io_log, _parse_and_store_resource, observe_result"]}
{"id": "C51", "title": "Origins order and offset consistently", "statement": "Comparing origins is a strict order on same-source origins, and shifting an origin by two offsets equals shifting by their sum.", "quantifier": "every origin and every offset", "why_tests_cant": "All origins.", "anchors": ["plainbox/impl/secure/origin.py: Origin.with_offset, relative_to, __lt__, CommandLineTextSource, FileTextSource"]}
{"id": "C52", "title": "Restart command keeps its arguments", "statement": "The command line stored by a restart strategy, when executed, carries all the arguments produced by the application's restart callback.", "quantifier": "every argument list", "why_tests_cant": "All argument strings with quoting.", "anchors": ["plainbox/impl/session/restart.py: SnappyRestartStrategy.prime_application_restart, XDGRestartStrategy", "plainbox/impl/session/assistant.py: run_job"]}
{"id": "C53", "title": "Plain objects are constructed completely or not at all", "statement": "Constructing a POD object succeeds exactly when there are no more positional arguments than fields, every keyword names a field not already given by position, every given value passes the filters of its field and every omitted field has a default that passes them (no MANDATORY field is omitted); afterwards each field holds the value given for it, else its default.", "quantifier": "every POD class with distinct field names, every list of positional arguments, every set of keyword arguments", "why_tests_cant": "The combinations of field declarations, filters, positional, keyword and missing arguments are unbounded; tests construct a handful of classes.", "anchors": ["plainbox/impl/pod.py: PODBase.__init__, Field.__set__"]}
{"id": "C54", "title": "Units made from templates belong to the template's provider", "statement": "For every registered unit type, the units produced by TemplateUnit.instantiate_all have that type, the template's provider and origin, and raw data made from the template's raw data.", "quantifier": "every template, every unit type, every resource list, every filter", "why_tests_cant": "Each unit class has its own instantiate_template and its own initialiser; tests instantiate job templates only, and a swapped argument is not visible in rendered fields.", "anchors": ["plainbox/impl/unit/template.py: TemplateUnit.instantiate_one, instantiate_template", "plainbox/impl/unit/unit.py: Unit.instantiate_template", "plainbox/impl/unit/job.py: JobDefinition.instantiate_template", "plainbox/impl/unit/category.py: CategoryUnit.instantiate_template"]}
{"id": "C55", "title": "The environment of a command is the one documented", "statement": "In the environment computed for a job, PATH and PYTHONPATH are the old values with the job's directories prepended, the session and provider directories are set, locale variables are neutralised unless preserve-locale is set, every other variable keeps the value it has in the process, and a variable of the configuration file is used only if nothing else gives it a value.", "quantifier": "every process environment, configuration, job and provider, every variable", "why_tests_cant": "Pointwise equality of two functions on all variable names and all environments.", "anchors": ["plainbox/impl/ctrl.py: CheckBoxExecutionController.get_execution_environment"]}
{"id": "C56", "title": "Which resource a name in a requirement denotes", "statement": "In a resource program a name denotes the resource of the first import that gives it that name, and otherwise the resource of that name in the namespace of the job (or the bare name when there is no namespace); the import lines accepted are exactly 'from NS import ID' and 'from NS import ID as NAME' without '::' in NS or ID, and they denote NS::ID whatever the namespace of the job.", "quantifier": "every expression, import list, namespace and import line", "why_tests_cant": "All combinations of imports, namespaces and names.", "anchors": ["plainbox/impl/resource.py: ResourceExpression.resource_id_list, parse_imports_stmt, ResourceProgram.required_resources"]}
{"id": "C57", "title": "The log of a job holds everything its command wrote", "statement": "When the command of a job has been run, the records of its I/O log are, for each stream and in order, the lines the command wrote, and the .stdout and .stderr files hold it byte by byte.", "quantifier": "every command, every interleaving of its writes with the reader and worker threads, every flag of the job and every delegate of the user interface", "why_tests_cant": "Depends on the schedule of four threads and the process, and on what delegates do; tests run a handful of commands with one schedule each.", "anchors": ["plainbox/impl/runner.py: IOLogRecordGenerator, CommandOutputWriter, JobRunner._prepare_io_handling, _run_command", "plainbox/vendor/extcmd/__init__.py: ExternalCommandWithDelegate, Chain"]}
{"id": "C58", "title": "Configuration survives being written and read back", "statement": "When a configuration object is written (get_parser_obj) and a new object of its class reads what was written, every variable has the same value in both; writing and reading do not raise.", "quantifier": "every configuration class, every history that led to the object, every value of every kind", "why_tests_cant": "All values, with separators, quotes and percent signs in them, and all combinations of sections and names.", "anchors": ["plainbox/impl/secure/config.py: Config.get_parser_obj, write, read_string, _read_commit, PlainBoxConfigParser.getlist"]}
{"id": "C59", "title": "A call the assistant allows finds what it needs", "statement": "Every method of SessionAssistant can be called in some history; a call that the usage expectations allow never fails because there is no session, runner, test plan or restart callback, nor because a nested expectation refuses it.", "quantifier": "every sequence of API calls, every outcome of each", "why_tests_cant": "A property of the allowed-call sets over all call histories, including calls that fail half way.", "anchors": ["plainbox/impl/session/assistant.py: SessionAssistant", "plainbox/impl/developer.py: UsageExpectation"]}
{"id": "C60", "title": "Adding a provider is all or nothing", "statement": "SessionDeviceContext.add_provider either adds the provider with every one of its units, or raises and leaves the context as it was, so that the call can be repeated once the cause is gone.", "quantifier": "every history of the context, every provider", "why_tests_cant": "Histories in which units of several providers clash.", "anchors": ["plainbox/impl/session/state.py: SessionDeviceContext.add_provider, add_unit"]}
{"id": "C61", "title": "Units are found by their id", "statement": "After any history of add_unit, remove_unit, add_provider and instantiated templates, get_unit(id) returns a unit if and only if that unit is in unit_list and has that id.", "quantifier": "every history, every id", "why_tests_cant": "The map is updated by signals in step with the list, over all histories including refused calls.", "anchors": ["plainbox/impl/session/state.py: SessionDeviceContext.get_unit, on_unit_added, on_unit_removed"]}
{"id": "C62", "title": "An exported report says what the session says", "statement": "For every session and every list of export options, the data handed to an exporter lists exactly the jobs that have an outcome, each with its own summary, category and outcome, and with exactly the further parts (comments, hash, definition, log, certification status, attachments, lists, categories, resources) the options in force ask for; logs and attachments can be decoded to the bytes the job wrote; an unknown option is refused.", "quantifier": "every session, option list of the caller and of the exporter unit, job, log", "why_tests_cant": "Tests use a handful of option combinations and one or two jobs; the claim is about all combinations, all byte strings and repeated or contradicting options.", "anchors": ["plainbox/impl/exporter/__init__.py: SessionStateExporterBase.__init__, get_session_data_subset, _build_attachment_map, _squash_io_log, _flatten_io_log, _io_log"]}
{"id": "C63", "title": "Files in a submission archive belong to one job", "statement": "For every session, two different job logs are stored in a submission archive under different member names, every non-empty log of a job is in the archive, and attachments are told apart from test output.", "quantifier": "every set of job ids and log files", "why_tests_cant": "Name clashes need particular pairs of job ids; tests archive one or two jobs.", "anchors": ["plainbox/impl/exporter/tar.py: TARSessionStateExporter.dump_from_session_manager", "plainbox/impl/runner.py: log file names"]}
{"id": "C64", "title": "Plug-in collections hold every good plug-in, in a fixed order", "statement": "Loading a collection yields every plug-in that can be loaded and one problem for every one that cannot, in an order that depends only on the names, not on the order in which the directories list them; loading again changes nothing; the lazy collection answers like the eager one; a block with fake plug-ins leaves no trace.", "quantifier": "every set of files, directory order, loading outcome, sequence of calls", "why_tests_cant": "File-system order, failing plug-ins and call sequences multiply; tests use fixed mocks.", "anchors": ["plainbox/impl/secure/plugins.py: PlugInCollectionBase, FsPlugInCollection, LazyPlugInCollection"]}
{"id": "C65", "title": "One broken file does not hide the units of other files", "statement": "Loading the content of a provider yields the units of every well-formed unit file, in file name order, plus a unit for every file, reports exactly the broken files as problems, and units can be found by their id and by their path; asking again gives the same answer.", "quantifier": "every set of files and every classification and parse outcome", "why_tests_cant": "The loader mixes several sources and failures; tests load one good or one bad file.", "anchors": ["plainbox/impl/secure/providers/v1.py: ProviderContentLoader, UnitPlugIn, ProviderContentPlugIn"]}
{"id": "C66", "title": "A classified file lies below its base directory", "statement": "For every file of a provider the classifier returns a role and a base directory such that the file lies below the base directory, and files are only treated as unit source, executables or data when they lie in the directory meant for these.", "quantifier": "every file name and every layout of provider directories", "why_tests_cant": "Needs file names that share a prefix with a directory; tests use the usual layout.", "anchors": ["plainbox/impl/secure/providers/v1.py: ProviderContentClassifier"]}
{"id": "C67", "title": "Accepted provider definitions are well formed and trusted ones are in trusted places", "statement": "A provider definition that is accepted has a name that is either a full provider identifier or a simple name with an explicit namespace; the namespace used for its units is the explicit one or the one in the name; directories are the explicit ones or those implied by the location; the provider is marked secure exactly when it was found in a directory owned by the administrator.", "quantifier": "every definition text, every path, every environment", "why_tests_cant": "Regular expressions and environment variables range over infinite sets of values.", "anchors": ["plainbox/impl/secure/providers/v1.py: IQNValidator, ProviderNameValidator, VersionValidator, Provider1Definition, Provider1PlugIn, get_secure_PROVIDERPATH_list"]}
{"id": "C68", "title": "The interactive run records what the user decided", "statement": "For every sequence of answers of the user, the result recorded for a job by `plainbox run` has the outcome the user decided on (or the one the job had by itself), contains every comment the user entered, re-running a job keeps nothing of the discarded run but those comments, and a job flagged explicit-fail is not failed by the user without a comment.", "quantifier": "every sequence of answers, every sequence of job results, every plugin and flag", "why_tests_cant": "The dialogue is an unbounded loop; tests play short scripted dialogues.", "anchors": ["plainbox/impl/commands/inv_run.py: RunInvocation._run_single_job_with_ui_loop, _interaction_callback, ActionUI.run"]}
{"id": "C69", "title": "A finished `plainbox run` has a result for every job, and progress is truthful", "statement": "When run_all_selected_jobs returns every job on the run list has an outcome, no job was started twice, jobs added meanwhile are included; the completion ratio lies between 0 and 1, is 1 exactly when every job has an outcome and 0 exactly when none has.", "quantifier": "every session, every set of jobs generated while running", "why_tests_cant": "Jobs generate jobs; the set grows while it is traversed.", "anchors": ["plainbox/impl/commands/inv_run.py: run_all_selected_jobs, run_single_job_with_ui, get_completion_ratio, on_job_added"]}
{"id": "C70", "title": "Packaging meta-data applies to the right system", "statement": "For every /etc/os-release and every packaging unit, a unit contributes its dependencies exactly when its os-id (and os-version-id) names this system, or it names a system this one is like and nothing more specific does; every dependency mentioned by a contributing unit is in the substitution variables exactly once per mention, and none else.", "quantifier": "every os-release file, every list of packaging units, every dependency list", "why_tests_cant": "All combinations of identifiers, versions and lists; tests have a few samples.", "anchors": ["plainbox/impl/unit/packaging.py: _strategy_id_version, _strategy_id, _strategy_id_like, PackagingDriverBase, DebianPackagingDriver"]}
{"id": "C71", "title": "Estimated durations mean what is written", "statement": "For every text in the field estimated_duration, the duration of a job or a test plan is the number of hours, minutes and seconds it says, or the number it is, or unknown; validation reports exactly those that are not positive; the totals of a session are the sums over its jobs, unknown exactly when an estimate that is needed is missing; the time left before each job is the sum over the jobs still to run.", "quantifier": "every text, every run list, every position in it", "why_tests_cant": "The regular expression has optional parts and backtracking, so all texts must be covered; totals range over all mixtures of jobs.", "anchors": ["plainbox/impl/unit/job.py: JobDefinition.estimated_duration", "plainbox/impl/unit/testplan.py: TestPlanUnit.estimated_duration", "plainbox/impl/session/state.py: SessionState.get_estimated_duration", "plainbox/impl/commands/inv_run.py: run_all_selected_jobs, print_estimated_duration"]}
{"id": "C72", "title": "A provider that validates has sound references", "statement": "`manage.py validate` reports success exactly if no definition file has a problem, every unit has an identifier of its own, and everything a job depends on, comes after, requires, imports or is categorised by is exactly one unit of the right kind; if all providers on a system validate, then resolving the dependencies of any selection of their jobs never reports an unknown, missing or duplicate job.", "quantifier": "every provider, every set of installed providers, every unit and reference, every selection of jobs", "why_tests_cant": "The claim relates two subsystems (validation and dependency resolution) over all sets of providers.", "anchors": ["plainbox/provider_manager.py: ValidateCommand.invoked_new, get_early_issues", "plainbox/impl/unit/validators.py: UniqueValueValidator, UnitReferenceValidator, compute_value_map", "plainbox/impl/unit/job.py: JobDefinition.Meta.field_validators", "plainbox/impl/ctrl.py: CheckBoxSessionStateController.get_dependency_set", "plainbox/impl/depmgr.py: DependencySolver"]}
{"id": "C73", "title": "An installed provider is the provider that was installed", "statement": "`manage.py install` of a provider that `setup` accepts, in any of the layouts and with any prefix and root, ends without an error and leaves a provider file that loads to a provider with the same name, namespace, version, description and translation domain as in the source tree, with the same units, jobs, data and translations (none if the source has none) at the places the layout documents, and with its executables; nothing else is changed; different providers have different provider files; a provider installed under /usr or /usr/local in the layouts unix and flat is found and secure.", "quantifier": "every definition, source tree, list of executables, layout, prefix and root directory, every state of the file system", "why_tests_cant": "The claim spans the writer, the copying of files and the loader, over all trees and all values; tests install single fixtures and do not load the result.", "anchors": ["plainbox/provider_manager.py: InstallCommand, setup", "plainbox/impl/secure/config.py: Configuration.get_parser_obj", "plainbox/impl/secure/providers/v1.py: Provider1Definition, Provider1PlugIn"]}
{"id": "C74", "title": "An exported report arrives unchanged", "statement": "A report that is printed, saved to a file or sent with a transport arrives with exactly the characters (bytes, for a file) the exporter made, whatever its length and characters are and whatever the size of the buffers is; a failure is reported as the documented exception; a session is flagged as submitted, and saved, exactly if the transport accepted the report. Transport options are accepted exactly if they are key=value pairs separated by commas, and arrive as written.", "quantifier": "every report text, buffer size, stream and name of its encoding, state of the destination, reply of a server, option string", "why_tests_cant": "Whether a multi-byte character straddles a buffer depends on the length of the report; tests print short ASCII reports and send file-like objects.", "anchors": ["plainbox/impl/exporter/__init__.py: ByteStringStreamTranslator", "plainbox/impl/transport.py", "plainbox/impl/commands/inv_run.py: export_and_send_results, _save_results", "plainbox/impl/commands/inv_session.py: export_session", "plainbox/impl/session/assistant.py: export_to_transport"]}
{"id": "C75", "title": "The spreadsheet report shows the results", "statement": "The XLSX report can be made for every finished session and shows every job that is not a local job exactly once, under the name of its category, with its summary, outcome, certification status, log and comments; the status of a category is that of its jobs; the totals are the numbers of jobs, of passed, failed and other jobs; the sheet of log files has the name and the lines of every text attachment.", "quantifier": "every map of results and of categories, every log, every set of attachments, every state of the exporter", "why_tests_cant": "The order and grouping come from sorting nested dictionaries that are updated while they are built; tests compare one workbook and do not see identifiers that collide with category names, unknown categories or binary logs.", "anchors": ["plainbox/impl/exporter/xlsx.py: XLSXSessionStateExporter._tree, _write_job, write_results, write_attachments"]}
{"id": "C76", "title": "The remote service runs one job at a time and keeps results apart", "statement": "The remote session service runs at most one job at a time; the result of every job it ran is given to the session once, for that job, before another job is started; a job that has a user is not started before a password was saved; a client that runs all jobs of a session is never refused and every job has the result of its run; while a job runs whats_up says which one it is, that it is the first after those completed, and how many there are; monitor_job tells the state and outcome of the job; the output read by the clients is the output of the job, in order and without repetition; progress lists completed and remaining jobs.", "quantifier": "every sequence of calls of any number of clients, every way the worker thread ends, every test plan, every session that is resumed", "why_tests_cant": "run_job is a generator whose body runs in pieces between calls of other clients, and a lock is taken in one call and released in another; tests follow one client through one job.", "anchors": ["plainbox/impl/session/assistant2.py: SessionAssistant2, BackgroundExecutor, BufferedUI", "plainbox/impl/session/assistant.py: SessionAssistant.run_job, use_job_result, get_dynamic_todo_list"]}
{"id": "C77", "title": "The jobs that run are the ones that were chosen", "statement": "After choosing jobs (use_alternate_selection) or categories (filter_jobs_by_categories) the run list of the assistant holds exactly the chosen jobs of the previous run list, the mandatory jobs that can be scheduled and what these depend on, each once and after its dependencies; choosing again only takes jobs away; choosing everything, or all participating categories, changes nothing; after hand_pick_jobs or finish_bootstrap exactly the jobs run that the patterns or the test plan select and that can be scheduled, with the mandatory ones and what these depend on; remove_all_filters brings back the run list of the test plan; every job that get_mandatory_jobs names is in the run list; choosing raises no exception.", "quantifier": "every sequence of calls that select a plan, bootstrap, choose, pick by hand or give results, with any arguments and after any exceptions, for any jobs, dependencies and resource programs", "why_tests_cant": "The choice depends on the whole history of calls, on dependencies between jobs and on the kind of iterable that is given; tests choose once, with lists, on mocked sessions.", "anchors": ["plainbox/impl/session/assistant.py: select_test_plan, hand_pick_jobs, get_bootstrap_todo_list, finish_bootstrap, use_alternate_selection, filter_jobs_by_categories, remove_all_filters, get_participating_categories, get_mandatory_jobs, get_static_todo_list", "plainbox/impl/session/state.py: update_mandatory_job_list, update_desired_job_list, set_test_plan_list"]}
{"id": "C78", "title": "Sessions survive interruptions", "statement": "A session whose bootstrapping is over and that is neither finalised nor deleted is offered by get_resumable_sessions and can be resumed by its application after any interruption, with every result that use_job_result accepted; a job that was interrupted by the restart it may cause has passed if it is not expected to return and else has failed, and no other result changes; a finalised session is never offered or resumed again; every readable session is either resumable or old (get_old_sessions), not both, so that cleaning up reaches all that cannot be resumed and nothing else; delete_sessions removes exactly the named sessions.", "quantifier": "every repository, every sequence of calls by any number of processes one after the other, with failing checkpoints, exceptions and processes that die between or inside calls", "why_tests_cant": "Tests resume a session once, with mocked storages and no crash; the claims are about all histories and all points at which a process can die.", "anchors": ["plainbox/impl/session/assistant.py: get_old_sessions, delete_sessions, start_new_session, resume_session, get_resumable_sessions, update_app_blob, select_test_plan, bootstrap, hand_pick_jobs, finish_bootstrap, run_job, use_job_result, finalize_session, export_to_transport", "plainbox/impl/session/state.py: SessionMetaData"]}
{"id": "C79", "title": "Messages between a service and its clients arrive unchanged", "statement": "Whatever value brine.dump accepts, brine.load gives back, reading exactly the bytes of the dump; no dump is a prefix of another; loading any bytes gives plain values only; dumpable(v) is true exactly when dump(v) succeeds; bytes that end too early are refused. Over a channel and a socket stream that accepts and delivers bytes in arbitrary pieces, with timeouts, compression and failures at any time, the receiver gets exactly the first of the messages whose sending returned, unchanged, in order, once and never in part, and all of them if all bytes arrive; after a failed write nothing more is sent.", "quantifier": "all values of all nesting depths and sizes, all byte strings, all message sequences, all fragmentations and failures of writes and reads, all lossless compressors", "why_tests_cant": "tests dump a few values and send them over a loopback socket; boundaries of the length fields, all code points, all fragmentations and all failure points cannot be enumerated", "anchors": ["plainbox/vendor/rpyc/core/brine.py:dump", "plainbox/vendor/rpyc/core/brine.py:load", "plainbox/vendor/rpyc/core/brine.py:dumpable", "plainbox/vendor/rpyc/core/channel.py:Channel.send", "plainbox/vendor/rpyc/core/channel.py:Channel.recv", "plainbox/vendor/rpyc/core/stream.py:SocketStream.read", "plainbox/vendor/rpyc/core/stream.py:SocketStream.write"]}
{"id": "C80", "title": "Remote objects stay usable while somebody has them, and are released afterwards", "statement": "An object that is passed by reference over a connection stays with its owner as long as the other side has a proxy for it or a reference is on its way: every request made through a proxy reaches exactly the object that was meant, never another object with a reused address, and never fails because the object is gone, whatever else is sent, received, dropped or still queued. When no proxy is left and nothing is on the way the owner releases the object; after a disconnect it keeps nothing. With the default configuration the other side can read only exposed and safe attributes, reaches every exposed one under both names, and can set or delete none; whatever the configuration, unless all attributes are allowed, private attributes are reached only if safe or exposed.", "quantifier": "all histories of sending, receiving, using and dropping references in any order, with messages on the way; all configurations, objects and attribute names", "why_tests_cant": "tests use one proxy of one object; interleavings of references and deletions on the way, address reuse and repeated references are unbounded", "anchors": ["plainbox/vendor/rpyc/lib/colls.py:RefCountingColl", "plainbox/vendor/rpyc/core/protocol.py:Connection._box", "plainbox/vendor/rpyc/core/protocol.py:Connection._unbox", "plainbox/vendor/rpyc/core/protocol.py:Connection._handle_del", "plainbox/vendor/rpyc/core/protocol.py:Connection._check_attr", "plainbox/vendor/rpyc/core/protocol.py:Connection._access_attr", "plainbox/vendor/rpyc/core/netref.py:BaseNetref"]}
{"id": "C81", "title": "Messages sent by several threads at once are sent once each, in order, without waiting", "statement": "However calls of Connection._send interleave (several threads, handlers, destructors run by the garbage collector in the middle of another call), messages go over the wire in the order in which they were handed over and at most once; when all calls have returned every message has been sent exactly once; a call never waits for another one, in particular a destructor that interrupts the thread that is sending returns; a call that runs alone also sends what others left. A message is sent unless sending this message fails, and then its own call raises.", "quantifier": "all numbers of calls, all messages, all interleavings of all steps, all failures of channel.send", "why_tests_cant": "tests cannot schedule threads between every two operations on the queue and the lock, and the number of calls and interleavings is unbounded", "anchors": ["plainbox/vendor/rpyc/core/protocol.py:Connection._send", "plainbox/vendor/rpyc/core/netref.py:BaseNetref.__del__"]}
{"id": "C82", "title": "The fields of a unit read as they were written, however often and in whatever order", "statement": "A field of a unit loaded from a file reads as the cleaned-up text written under its name, with the parameters of the unit put in once; marking a field for translation (a leading underscore) changes neither the value nor the raw value of any field; a field that is not marked is never translated; a marked one reads as its cleaned-up translation and, if there is none, as its value; a missing field reads as the given default. The identifier, summary and description of a job are put together from these fields as documented (description from purpose, steps and verification under their headings, none if all are missing), translated or not. Remembering what was read never changes an answer, and what was read once reads the same for ever.", "quantifier": "all records, all units with or without parameters and with either template engine, all formatters and translations, all sequences of reads", "why_tests_cant": "texts, parameter values, translations and orders of reads are unbounded, and the differences appear only for particular numbers of newlines or for braces in the values of parameters", "anchors": ["plainbox/impl/unit/unit.py:Unit.from_rfc822_record", "plainbox/impl/unit/unit.py:Unit.get_record_value", "plainbox/impl/unit/unit.py:Unit.get_raw_record_value", "plainbox/impl/unit/unit.py:Unit.get_translated_record_value", "plainbox/impl/unit/job.py:JobDefinition.description", "plainbox/impl/unit/job.py:JobDefinition.tr_description", "plainbox/impl/decorators.py:instance_method_lru_cache", "plainbox/impl/decorators.py:cached_property"]}
{"id": "C83", "title": "Every job of a session has the values its test plans give it, whenever it was added", "statement": "Once the test plans of a session are chosen, every job of the session has in each overridable field the value of the last override statement of these test plans that applies to it, and its own value if there is none: no matter whether the job was there before, was added or generated later, was removed and added again, or was added while its device context was not part of the session. The overrides in use are always those of the current test plans. Changing the test plans changes the values accordingly, and a job that was added can be found by its identifier.", "quantifier": "all sequences of adding and removing jobs, assigning test plans and adding and removing device contexts, all test plans, all regular expressions", "why_tests_cant": "it is about all histories of calls: the order of adding jobs and choosing test plans, remembered overrides, and exceptions on the way", "anchors": ["plainbox/impl/session/manager.py:SessionManager.test_plans", "plainbox/impl/session/manager.py:SessionManager._propagate_test_plans", "plainbox/impl/session/state.py:SessionDeviceContext.set_test_plan_list", "plainbox/impl/session/state.py:SessionDeviceContext.on_unit_added", "plainbox/impl/session/state.py:SessionDeviceContext.compute_shared", "plainbox/impl/session/jobs.py:JobState.apply_overrides"]}
{"id": "C84", "title": "A remote call gives the result of that very call", "statement": "Both ends of a connection send requests at the same time, from several threads, from handlers and while a reply is being unboxed. What a synchronous call returns or raises is the answer of the one handler the other end ran for the one request this call sent; a request is handled at most once, a call ends at most once, the result of an asynchronous request is set at most once and never if it has expired. When nothing is on the way any more and no handler runs, every synchronous call has its answer and every asynchronous request has its result or had expired.", "quantifier": "all requests, answers and handlers, all numbers of calls of both ends, all interleavings of sending, receiving, dispatching (in any order), handling, returning and expiring", "why_tests_cant": "replies are matched by number while calls of both ends nest and interleave without bound; a test sees a few schedules", "anchors": ["plainbox/vendor/rpyc/core/protocol.py:Connection.sync_request", "plainbox/vendor/rpyc/core/protocol.py:Connection._async_request", "plainbox/vendor/rpyc/core/protocol.py:Connection._dispatch", "plainbox/vendor/rpyc/core/protocol.py:Connection._dispatch_request", "plainbox/vendor/rpyc/core/protocol.py:Connection._dispatch_reply", "plainbox/vendor/rpyc/core/protocol.py:Connection._dispatch_exception", "plainbox/vendor/rpyc/core/async.py:AsyncResult"]}
{"id": "C85", "title": "Calls from several threads do not wait once their reply is there, and are not forgotten", "statement": "Several threads make synchronous calls over one connection. Only one of them receives and dispatches at any time; the others wait for it, and as soon as it is done they look for their reply again. A call whose reply is there returns without waiting for further messages.", "quantifier": "all numbers of calls and threads, all messages, timeouts and exceptions, all interleavings of the operations on the lock, the event and the stored replies", "why_tests_cant": "the losing schedules need two or three threads to be stopped between two particular lines; a test does not produce them", "anchors": ["plainbox/vendor/rpyc/core/protocol.py:Connection.sync_request", "plainbox/vendor/rpyc/core/protocol.py:Connection.sync_recv_and_dispatch", "plainbox/vendor/rpyc/core/protocol.py:Connection._recv"]}
{"id": "C86", "title": "An interrupted `plainbox run` continues where it stopped", "statement": "When `plainbox run` is started again the user is offered exactly the unfinished sessions of the same command line. A session that they resume is the one that was stored; they are asked about the job that was running when it was interrupted, and what they say becomes its result. Results that were stored are kept, their jobs are not run again, and every other session is left alone. A job that has ended is not run again, and when results are exported there is one for each selected job. A session stays on offer until its results have been exported.", "quantifier": "all job lists, all numbers of sessions and of processes one after the other, all answers, all points where a process can die or a checkpoint fail", "why_tests_cant": "the process has to be stopped between any two lines, and what follows depends on all earlier processes and answers; the tests run one uninterrupted process", "anchors": ["plainbox/impl/commands/inv_run.py:RunInvocation.do_normal_sequence", "plainbox/impl/commands/inv_run.py:RunInvocation.maybe_resume_session", "plainbox/impl/commands/inv_run.py:RunInvocation.get_resume_candidates", "plainbox/impl/commands/inv_run.py:RunInvocation.handle_last_job_after_resume", "plainbox/impl/commands/inv_run.py:RunInvocation.run_single_job_with_ui"]}
{"id": "C87", "title": "A test plan with nested parts selects the jobs of all its parts", "statement": "A test plan selects the jobs that it or one of its nested parts, at any depth, includes, except those that one of them excludes or runs while bootstrapping; what is mandatory in a part is mandatory; a job of the bootstrapping stage is not selected again afterwards. Nested parts are those of the providers of the session. A nested part adds jobs and takes none away. Plans that are nested in themselves are refused.", "quantifier": "all units, all plans with any nesting, all jobs, all recursion limits", "why_tests_cant": "nesting is unbounded; the tests have one part, one level deep, and tell the plan which providers to search", "anchors": ["plainbox/impl/unit/testplan.py:TestPlanUnit.get_nested_part", "plainbox/impl/unit/testplan.py:TestPlanUnit.get_qualifier", "plainbox/impl/unit/testplan.py:TestPlanUnit.get_mandatory_qualifier", "plainbox/impl/unit/testplan.py:TestPlanUnit.get_bootstrap_qualifier", "plainbox/impl/session/manager.py:SessionManager.get_throwaway_manager"]}
{"id": "C88", "title": "plainbox run chooses exactly the jobs that its options name", "statement": "`plainbox run` chooses the jobs that the test plan given with -T selects (mandatory jobs included) and the jobs whose whole identifier matches a pattern given with -i, except those whose whole identifier matches a pattern given with -x; without a plan they come in the order of the patterns. A plan is found in whichever provider it is, and selection, categories and the stored session use the same one. A plan that does not exist and a pattern that is not correct are refused. `plainbox dev special` lists the same jobs, or all that are not excluded when nothing is named.", "quantifier": "all lists of jobs with distinct identifiers, all providers, plans, patterns, all orders of the set of providers", "why_tests_cant": "patterns, plans and jobs combine freely; the tests try a handful of patterns on three jobs of one provider, without plans", "anchors": ["plainbox/impl/commands/inv_checkbox.py:CheckBoxInvocationMixIn._get_matching_job_list", "plainbox/impl/commands/inv_special.py:SpecialInvocation._get_matching_job_list", "plainbox/impl/commands/inv_run.py:RunInvocation.find_test_plan", "plainbox/impl/commands/inv_run.py:RunInvocation.do_initial_job_selection", "plainbox/impl/secure/qualifiers.py:RegExpJobQualifier"]}
{"id": "C89", "title": "What is known of the stored sessions without resuming them", "statement": "The details of a session (title, flags, running job, data and name of the application) that were saved are read back without resuming the session; whenever a session can be resumed its details can be read; data that cannot be read is reported as a corrupted or incompatible session. `plainbox run` offers, and the assistant yields, exactly the unfinished sessions of the application (and plan), in the order of the repository; `get_old_sessions` exactly those with one of the flags. A session that cannot be read is passed over and hides no other. `plainbox session list` shows every session, `plainbox session remove` removes exactly the sessions named.", "quantifier": "all details, all saved formats, all contents of the session files, all repositories", "why_tests_cant": "the files come from interrupted runs, other versions and full disks in any mixture; the tests read back well-formed documents one at a time, and mock the repository", "anchors": ["plainbox/impl/session/resume.py:SessionPeekHelper", "plainbox/impl/session/resume.py:MetaDataHelper3MixIn", "plainbox/impl/session/suspend.py:SessionSuspendHelper3", "plainbox/impl/session/assistant.py:SessionAssistant.get_resumable_sessions", "plainbox/impl/session/assistant.py:SessionAssistant.get_old_sessions", "plainbox/impl/commands/inv_run.py:RunInvocation.get_resume_candidates", "plainbox/impl/commands/inv_session.py:SessionInvocation"]}
{"id": "C90", "title": "Running jobs again through the assistant, and how often", "statement": "An application may run any job any number of times with run_job and use_job_result. In auto-retry mode a job is started at most three times; otherwise it is started whenever nothing inhibits it. Each result is kept in the history in the order in which it came and the last one is the result of the job. A job that passed keeps that result when it cannot be started again; tries in which it was not started are not counted; the tries left survive suspending the session. Asking for the jobs to do again and again gives each of them once, in order, and ends.", "quantifier": "all sessions, all sequences of jobs with any repetitions, all results of the commands", "why_tests_cant": "the sequences of tries and results are unbounded; the tests check can_start for single values of the counter", "anchors": ["plainbox/impl/session/assistant.py:SessionAssistant.run_job", "plainbox/impl/session/assistant.py:SessionAssistant.use_job_result", "plainbox/impl/session/assistant.py:SessionAssistant.get_dynamic_todo_list", "plainbox/impl/session/jobs.py:JobState.can_start", "plainbox/impl/launcher.py:LauncherDefinition1"]}
{"id": "C91", "title": "What validating a test plan tells about what it selects", "statement": "Validating a test plan among other units reports each line of include, exclude, mandatory_include and nested_part that matches nothing, each line of mandatory_include and bootstrap_include that selects a job which include selects as well, and each job to bootstrap that is not exactly one resource job; and nothing else of these kinds. A plan about which nothing is reported has a job for every line of include and a test plan for every line of nested_part.", "quantifier": "all collections of units, all fields of the plan", "why_tests_cant": "the reports depend on all pairs of lines and units; the tests check a few units with one line", "anchors": ["plainbox/impl/unit/testplan.py:NonEmptyPatternIntersectionValidator.check_in_context", "plainbox/impl/unit/testplan.py:NoBaseIncludeValidator.check_in_context", "plainbox/impl/unit/testplan.py:TestPlanUnit", "plainbox/impl/unit/validators.py:UnitReferenceValidator.check_in_context"]}
{"id": "C92", "title": "Origins name the line on which a statement was written", "statement": "When a file of unit definitions is loaded, the qualifier made from each statement of an include-like field carries the number of the line of the file on which that statement was written, also with other fields before it, comments and blank lines within the value and any indentation; an issue reported about that line of the field carries the same number.", "quantifier": "all files, all fields in them, all lines of the fields", "why_tests_cant": "the number is the sum of three offsets kept by the record parser, the normalization of values and the statement parser; the tests check files with one or two lines", "anchors": ["plainbox/impl/secure/rfc822.py:gen_rfc822_records", "plainbox/impl/secure/rfc822.py:normalize_rfc822_value", "plainbox/impl/xparsers.py:IncludeStmtList.parse", "plainbox/impl/unit/testplan.py:TestPlanUnit.parse_matchers", "plainbox/impl/unit/unit.py:UnitValidator.issue", "plainbox/impl/secure/origin.py:Origin.with_offset"]}
{"id": "C93", "title": "What validating a template tells about the units made from it", "statement": "When validating a template of jobs reports nothing, then every job that is ever made from it has the same value, which can be read, in each field that must not vary, and jobs made from resources that differ have different identifiers; what keeps jobs from being made from the template is reported.", "quantifier": "all templates, all resources and filters, all fields that must not vary", "why_tests_cant": "the validator looks at one job made from a made up resource; that this tells about jobs made from all resources is about the format language and about all values", "anchors": ["plainbox/impl/unit/template.py:TemplateUnitValidator.check", "plainbox/impl/unit/validators.py:TemplateVariantFieldValidator.check", "plainbox/impl/unit/validators.py:TemplateInvariantFieldValidator.check", "plainbox/impl/unit/validators.py:UntranslatableFieldValidator.check", "plainbox/impl/unit/__init__.py:get_accessed_parameters", "plainbox/impl/unit/unit.py:Unit.get_record_value", "plainbox/impl/unit/unit_with_id.py:UnitWithIdValidator.explain"]}
{"id": "C94", "title": "What the exit status of a command tells", "statement": "The exit status of a command line tool is zero just when the command did what it was asked to do; `manage.py build` and `clean`, `plainbox script` and the trusted launcher end with zero just when the program that they ran ended with zero; a job that runs through the trusted launcher has the outcome that it has when it runs without.", "quantifier": "all return values, exceptions and options, all statuses and signals that programs end with", "why_tests_cant": "all integers that are returned, and all ways in which programs end, have to be considered; tests look at a few", "anchors": ["plainbox/impl/clitools.py:ToolBase.main", "plainbox/impl/clitools.py:ToolBase.dispatch_and_catch_exceptions", "plainbox/impl/clitools.py:ToolBase.dispatch_command", "plainbox/impl/commands/inv_script.py:ScriptInvocation.run", "plainbox/provider_manager.py:BuildCommand.invoked", "plainbox/provider_manager.py:CleanCommand.invoked", "plainbox/provider_manager.py:DevelopCommand.invoked", "plainbox/provider_manager.py:I18NCommand.invoked", "plainbox/impl/secure/launcher1.py:main"]}
{"id": "C95", "title": "Loading only the command that seems to be wanted changes nothing", "statement": "For every command line, a tool that loads commands lazily gets to the same command with the same arguments, to the same help or to the same error, as one that loads all commands; a command that is named is the only one loaded, so that others which cannot be loaded do not matter.", "quantifier": "all command lines, all sets of commands and options, all ways in which loading can fail", "why_tests_cant": "the guess is made from the words of the command line before they are understood; equality with the slow way for all command lines is a relation between two programs", "anchors": ["plainbox/impl/clitools.py:LazyLoadingToolMixIn.add_subcommands_with_hints", "plainbox/impl/clitools.py:LazyLoadingToolMixIn.add_subcommands_without_hints", "plainbox/impl/clitools.py:ToolBase.construct_early_parser", "plainbox/impl/clitools.py:ToolBase.main", "plainbox/impl/secure/plugins.py:LazyPlugInCollection.get_by_name", "plainbox/impl/secure/plugins.py:LazyPlugInCollection.load_one"]}
{"id": "C96", "title": "What was exported is what is written to the standard output", "statement": "The text that an exporter made is written to the standard output, to streams and to files unchanged and to its end; a stream that cannot hold all characters gets those that it can hold.", "quantifier": "all texts of any length, all encodings of the stream, all ways in which characters are spread over the pieces that are copied", "why_tests_cant": "what is exported is copied in pieces, whose ends fall anywhere in the text; tests export short ASCII texts", "anchors": ["plainbox/impl/exporter/__init__.py:ByteStringStreamTranslator.write", "plainbox/impl/commands/inv_run.py:RunInvocation._save_results", "plainbox/impl/commands/inv_session.py:SessionInvocation.export_session", "plainbox/impl/transport.py:StreamTransport.send", "plainbox/impl/transport.py:FileTransport.send"]}
{"id": "C97", "title": "A command finds the programs of its provider", "statement": "When the command of a job names a program that the provider of the job ships, that program is run; names that no program of the namespace has mean what they mean without plainbox; programs of providers of other namespaces are not found.", "quantifier": "all sets of providers and their files, all names, all environments, jobs of all users", "why_tests_cant": "which program is found depends on all providers, their order, the environment and the user; tests look at single links", "anchors": ["plainbox/impl/ctrl.py:SymLinkNest.add_provider", "plainbox/impl/ctrl.py:SymLinkNest.add_executable", "plainbox/impl/ctrl.py:CheckBoxExecutionController.configured_filesystem", "plainbox/impl/ctrl.py:CheckBoxExecutionController.get_execution_environment", "plainbox/impl/ctrl.py:CheckBoxDifferentialExecutionController.get_differential_execution_environment", "plainbox/impl/secure/providers/v1.py:Provider1.executable_list", "plainbox/impl/secure/providers/v1.py:Provider1.namespace"]}
{"id": "C98", "title": "Files that a command leaves behind are reported", "statement": "Every file and directory that a command leaves in its working directory is reported once, as it is called there; nothing else is; nothing is logged if the job is known to leave files behind.", "quantifier": "all contents of the working directory, nested to any depth, all flags", "why_tests_cant": "directories can be nested arbitrarily and hold anything; tests create a file or two", "anchors": ["plainbox/impl/ctrl.py:CheckBoxExecutionController._find_leftovers", "plainbox/impl/ctrl.py:CheckBoxExecutionController.temporary_cwd", "plainbox/impl/runner.py:JobRunner.on_leftover_files"]}
{"id": "C99", "title": "The report of one word says whether something went wrong", "statement": "The report `global` is FAIL just when some job of the session failed or crashed, and PASS otherwise; the map of jobs by outcome and certification status has exactly the jobs asked for.", "quantifier": "all sessions, all outcomes and certification statuses of their jobs, any number of devices", "why_tests_cant": "the verdict depends on every job; tests have single jobs with one status and no test renders the template", "anchors": ["plainbox/impl/session/state.py:SessionState.get_certification_status_map", "plainbox/impl/session/manager.py:SessionManager.state", "plainbox/impl/exporter/jinja2.py:Jinja2SessionStateExporter.dump_from_session_manager"]}
{"id": "C100", "title": "The JUnit report can be read and says what happened", "statement": "The JUnit report is an XML document with one test case for each job that has an outcome, which tells its id, duration, what happened and, if it failed or crashed, its log; its totals are the numbers of such cases.", "quantifier": "all sessions, all ids and logs, all outcomes", "why_tests_cant": "logs can have any characters, which must be escaped in all places; tests compare single reports", "anchors": ["plainbox/impl/exporter/jinja2.py:Jinja2SessionStateExporter.customize_environment", "plainbox/impl/exporter/jinja2.py:Jinja2SessionStateExporter.dump", "plainbox/impl/session/state.py:SessionState.get_outcome_stats", "plainbox/impl/result.py:_JobResultBase.io_log_as_flat_text"]}
{"id": "C101", "title": "The log of a command as text says what the command printed", "statement": "The text of a log is what the command printed: its bytes in order, read as UTF-8 the way the Unicode standard recommends, with one U+FFFD for every part that is not a character, and without control characters other than tab, newline, vertical tab and carriage return; it does not depend on where the records end. If both streams are text, no character is lost, and the reports that show the text can be read. An attachment is the text of the standard output, or empty if that is not text.", "quantifier": "all logs, of any number of records, with any bytes, cut anywhere and from any stream", "why_tests_cant": "a character can be cut at any byte by the end of a record or by the other stream, and any bytes can be wrong; tests have short logs", "anchors": ["plainbox/impl/result.py:_JobResultBase.io_log_as_flat_text", "plainbox/impl/result.py:_JobResultBase.io_log_as_text_attachment"]}
{"id": "C102", "title": "The JSON report is JSON and tells what the session has", "statement": "The report of the exporter for JSON can be read as JSON. It has one result for every job that has an outcome and is neither a resource nor an attachment, with the identifier without the namespace of the certification programme, the summary, the certification status, the category, the status, the comments and the log; and what the resources and attachments of the certification programme say: packages, snaps, distribution, kernel, architecture, memory, processor, kernel command line, build stamp and the documents that jobs wrote as JSON. Nothing is under two keys and nothing is left out.", "quantifier": "all sessions, with any jobs, outcomes, comments, logs, resources and attachments", "why_tests_cant": "the template puts texts and commas together by hand; whether the whole is JSON depends on which of seventeen parts are there and on every character of every text", "anchors": ["plainbox/impl/providers/exporters/data/checkbox.json", "plainbox/impl/exporter/jinja2.py:Jinja2SessionStateExporter", "plainbox/impl/exporter/jinja2.py:do_strip_ns"]}
{"id": "C103", "title": "Comments are what was typed, without escape sequences", "statement": "The comments of a result are the text the operator typed without the control sequences that terminals send for keys such as the arrows, and without anything else removed: text between sequences remains whole and in order, comments without introducers of sequences are unchanged, comments that are added are on lines of their own and cleaned on their own, and no comments remain no comments. No control sequences are left, and suspending and resuming does not change comments.", "quantifier": "all texts with any characters, any number of added comments, any number of suspends", "why_tests_cant": "sequences have any number of parameters, can be cut short or within each other, and can be made by removing others; tests have one sequence", "anchors": ["plainbox/impl/result.py:_JobResultBase.comments", "plainbox/impl/result.py:JobResultBuilder.add_comment", "plainbox/impl/session/suspend.py:SessionSuspendHelper1._repr_JobResultBase", "plainbox/impl/session/resume.py:SessionResumeHelper1._build_JobResult"]}
{"id": "C104", "title": "The HTML report shows every result and leads to its log", "statement": "The HTML report has a row for every job that has a result, once: under the name of its category, among the resources or among the attachments. The row tells the name, the outcome, the certification status and the comments of the job. If the job wrote anything, the row has a link, and following it shows the summary of that job and what that job wrote, whatever characters these contain. Categories are in the order of their names and jobs in the order of their ids; the heading of a category tells the outcome of its tests, and the chart the number of jobs with each outcome.", "quantifier": "all sessions: any number of jobs and categories, any ids, summaries, comments and logs", "why_tests_cant": "links are made of positions in sorted and filtered lists, which must agree between the tables and the pages; tests compare the report of one session with one job to a stored file", "anchors": ["plainbox/impl/providers/exporters/data/checkbox.html", "plainbox/impl/exporter/jinja2.py:Jinja2SessionStateExporter", "plainbox/impl/session/state.py:SessionState.category_map", "plainbox/impl/session/state.py:SessionState.category_outcome_map"]}
{"id": "C105", "title": "A job brings its siblings and the jobs to be run after suspending", "statement": "A job with the field siblings brings one job for each of the overrides: it is the same job, in every language, but for the overridden fields, and it has no siblings. A job with the flag also-after-suspend or also-after-suspend-manual brings, for each of the two flags, one job to be run again after the machine was suspended: it has an id and a summary of its own, depends on all that the job depends on, on the job itself and on the job that suspends the machine, does not have the two flags, and is the same job in every other field; it brings no further jobs. Adding a job to a session adds all these jobs, each once, and nothing else.", "quantifier": "all jobs: any fields, flags, dependencies, overrides and parameters, and all sessions", "why_tests_cant": "the new jobs are made by editing texts (removing flags, appending to dependencies, formatting ids) which are read again by other parsers, and jobs are brought recursively; tests add one job with one flag", "anchors": ["plainbox/impl/session/state.py:SessionState._add_job_siblings_unit", "plainbox/impl/session/state.py:SessionState._add_job_unit", "plainbox/impl/unit/job.py:JobDefinition.get_flag_set", "plainbox/impl/unit/job.py:JobDefinition.get_direct_dependencies", "plainbox/impl/unit/unit.py:Unit.get_record_value"]}
{"id": "C106", "title": "The text of a configuration file is read back as it was written", "statement": "Writing configuration data as text and reading that text, directly or from a file, gives the same sections in the same order, the same options and the same values; so a configuration object that is written with Config.write and read by a new object has the same value for every variable. When several files are read, the value of an option is the one of the last file that has it, and options that a file does not mention keep their values. Faulty text gives a configparser.Error and no other exception.", "quantifier": "all configuration data: any sections, option names and values of any number of lines; all texts; all lists of files; all histories of a configuration object", "why_tests_cant": "the format has no quoting: whether a value comes back depends on the white space at the ends of each of its lines, on what the lines begin with and on how the name could be taken for something else; tests write a few short values", "anchors": ["plainbox/impl/secure/config.py:PlainBoxConfigParser.write", "plainbox/impl/secure/config.py:Config.write", "plainbox/impl/secure/config.py:Config.read_string", "plainbox/impl/secure/config.py:Config.read"]}
{"id": "C107", "title": "A section of a configuration holds what the configuration files say of it", "statement": "After a configuration object has read text or files, each of its sections is a dictionary that has exactly the options written in that section, with their values, in which references to other options are replaced by what these stand for; a parametric section has one such dictionary for each section name:parameter, and no others. A section that is not in the text is not set. Faulty values are recorded as problems of the configuration and do not raise. A configuration object can be written, and a new object that reads the text has the same variables, sections and parametric sections. A job's command gets the variables of the environment section that have no other value.", "quantifier": "all classes of configurations (any variables, sections and parametric sections), all texts, all lists of files, all earlier contents of the object, all jobs", "why_tests_cant": "what an option stands for depends on other options, to a limited depth, and on DEFAULT behind every section; reading after reading and writing meet states that tests, which read one small text into a fresh object, never make", "anchors": ["plainbox/impl/secure/config.py:Config._read_commit", "plainbox/impl/secure/config.py:Config.get_parser_obj", "plainbox/impl/secure/config.py:Config.read_string", "plainbox/impl/secure/config.py:Config.read", "plainbox/impl/secure/config.py:Config.write", "plainbox/impl/secure/config.py:Section", "plainbox/impl/secure/config.py:ParametricSection", "plainbox/impl/ctrl.py:CheckBoxExecutionController.get_execution_environment"]}
{"id": "C108", "title": "Classes of plain old data inherit fields, and their objects are ordered and can be copied", "statement": "A class of plain old data has the fields of its base classes, in the order of these, followed by its own fields in the order of declaration; no two fields of a class have the same name, clashes are refused with a TypeError when the class is made. Two objects are equal exactly if they are of the same class and all their fields are equal; equality is an equivalence. Objects are in a total order that goes by the first field that differs, and the six comparisons agree with each other. Giving the values of an object as a tuple or as a dictionary to its class makes an equal object.", "quantifier": "all class hierarchies built from any base classes and class bodies; all values with an equality and an order; all objects reached by construction and assignments", "why_tests_cant": "laws over triples of objects (transitivity, exactly one of less, equal, greater) and over arbitrary hierarchies; tests compare two objects of one class", "anchors": ["plainbox/impl/pod.py:_FieldCollection", "plainbox/impl/pod.py:PODMeta", "plainbox/impl/pod.py:podify", "plainbox/impl/pod.py:PODBase.__eq__", "plainbox/impl/pod.py:PODBase.__lt__", "plainbox/impl/pod.py:PODBase.as_tuple", "plainbox/impl/pod.py:PODBase.as_dict"]}
{"id": "C109", "title": "A provider knows all files in its directories, each of them once", "statement": "The content of a provider is exactly the regular files that can be reached, without following links, from its directories for units, jobs, data, programs and translations, or from its base directory if it has one; each path is there once, in alphabetical order, even when one directory lies in another. So every unit that a well formed file in the directories for units and jobs defines is among the units of the provider.", "quantifier": "all trees of directories, all providers with any directories given or not, all contents of files", "why_tests_cant": "directories are nested without limit and may overlap; tests use one mocked directory", "anchors": ["plainbox/impl/secure/providers/v1.py:ProviderContentEnumerator.__init__", "plainbox/impl/secure/plugins.py:FsPlugInCollection._get_plugin_files", "plainbox/impl/secure/plugins.py:FsPlugInCollection.load"]}
{"id": "C110", "title": "The text report tells the outcome of each job", "statement": "The text report of a session has, for each job that has a result and in the order of the run list, one line with the outcome in words and the summary, and nothing else; with colours it has the sign of the outcome, and a further line with all outcomes if the job was run several times. So the outcomes and summaries of a session can be read off its report. An outcome that is not known raises an exception.", "quantifier": "all run lists, outcomes, summaries and histories, with and without colours", "why_tests_cant": "that different sessions have different reports is a claim about pairs of sessions; tests compare the report of one session", "anchors": ["plainbox/impl/exporter/text.py:TextSessionStateExporter.dump", "plainbox/impl/result.py:OUTCOME_METADATA_MAP", "plainbox/impl/result.py:outcome_color_hex", "plainbox/impl/color.py:Colorizer.custom"]}
{"id": "C111", "title": "What is said about where a problem is leads to it", "statement": "The origin of a unit relative to a directory has the same lines, and the name of the file in it leads from that directory to the same file; files below the directory are named by the path below it. What is shown of an origin tells the file and the lines, and what is shown of an issue tells how severe it is, the file, the lines and the message: different ones look different.", "quantifier": "all current directories, base directories and names of files, absolute or not, with any number of . and .. in them; all numbers of lines and messages", "why_tests_cant": "paths are followed over any number of components; that different issues look different is a claim about pairs of issues", "anchors": ["plainbox/impl/secure/origin.py:Origin.__str__", "plainbox/impl/secure/origin.py:Origin.relative_to", "plainbox/impl/secure/origin.py:FileTextSource.relative_to", "plainbox/impl/validation.py:Issue.__str__", "plainbox/impl/validation.py:Issue.relative_to"]}
{"id": "C112", "title": "The device is found and its cookie tells what it is", "statement": "On Linux with a readable os-release file exactly one device is found, and on Windows too; on other systems, or without the file, none is found and that is said. The cookie of the device has the id and the version from the os-release file (the last assignment counts, with defaults) and the architecture as the first working program tells it; cookies of devices that differ in one of them differ.", "quantifier": "all platforms, os-release files made of assignments, and outputs of the programs", "why_tests_cant": "files with any number of assignments in any order; that different devices have different cookies is a claim about pairs of machines", "anchors": ["plainbox/impl/device.py:LocalDevice.discover", "plainbox/impl/device.py:LocalDevice._discover_linux", "plainbox/impl/device.py:LocalDevice._cookie_linux_common", "plainbox/impl/commands/inv_device.py:DeviceInvocation.run"]}
{"id": "C113", "title": "Exporters are found by name and get their options", "statement": "A name means the last exporter unit without problems that has it as id; a short name such as text means the exporter of plainbox with that name if it is there. The commands list exactly the names that mean something, and making an exporter with another name ends with KeyError. An exporter gets the options of the caller and then those of its definition, which are the words between separators; an option that is not supported is refused and named. If the mode is not strict, exactly the given options that the exporter supports are in force and no given option makes it fail.", "quantifier": "all lists of units, names, definitions and lists of options, with and without values", "why_tests_cant": "any number of units with any ids and any sequence of options with repetitions; tests look at one exporter with one or two options", "anchors": ["plainbox/impl/session/manager.py:SessionManager.exporter_map", "plainbox/impl/session/manager.py:SessionManager.create_exporter", "plainbox/impl/unit/exporter.py:ExporterUnitSupport._get_option_list", "plainbox/impl/commands/inv_run.py:RunInvocation.create_exporter", "plainbox/impl/commands/inv_session.py:SessionInvocation.export_session"]}
{"id": "C114", "title": "Symbols are their names, and types of units keep the fields and checks of their base types", "statement": "There is one symbol for every name, and symbols compare with symbols and texts as their names do. A definition of symbols gives every name the symbol that was assigned to it last, or its own if it is only mentioned, and lists every symbol once, in the order of the names. A type of units has its own fields and those of all types it is derived from, and its units are checked with the validators of the last definition for every field, also if a type does not define its own Meta.", "quantifier": "all sequences of calls, bodies of definitions, and chains of derived types of any length", "why_tests_cant": "the order in which symbols are made and the depth of derived types are not bounded; tests look at two or three symbols and one derived type", "anchors": ["plainbox/impl/symbol.py:Symbol.__new__", "plainbox/impl/symbol.py:Symbol.__eq__", "plainbox/impl/symbol.py:Symbol.__lt__", "plainbox/impl/symbol.py:SymbolDefNs", "plainbox/impl/symbol.py:SymbolDefMeta.get_all_symbols", "plainbox/impl/unit/unit.py:UnitType.__new__", "plainbox/impl/unit/unit.py:UnitValidator.check"]}
{"id": "C115", "title": "The reports of `plainbox dev analyze` tell what would run, how long it takes, what is wrong and what is needed", "statement": "`plainbox dev analyze` prints the reports that are asked for, each once, in a fixed order and under its heading: the numbers of known and selected jobs, the dependency problems, for every job on the run list in order whether it needs the tester and how long it takes, the estimates for automated jobs, for the others and for all, the jobs with wrong definitions, the packages that the jobs require, the desired jobs and the run list. A duration that is told is the duration, to the microsecond. No report fails.", "quantifier": "all sets of reports, sessions, jobs, durations and requirement programs", "why_tests_cant": "there are 256 sets of reports and sessions and durations are not bounded; no test of the project runs these reports", "anchors": ["plainbox/impl/commands/inv_analyze.py:AnalyzeInvocation.run", "plainbox/impl/commands/inv_analyze.py:AnalyzeInvocation._print_interactivity_report", "plainbox/impl/commands/inv_analyze.py:AnalyzeInvocation._print_estimated_duration_report", "plainbox/impl/commands/inv_analyze.py:AnalyzeInvocation._print_validation_report", "plainbox/impl/commands/inv_analyze.py:AnalyzeInvocation._print_requirement_report", "plainbox/impl/unit/job.py:JobDefinition.automated"]}
{"id": "C116", "title": "Messages are translated with the domain and the directory in force", "statement": "A translator gives for a message its translation in the catalogue of the domain that is named, or else of the domain chosen last with textdomain, as found in the directory that was bound last for the domain; for a number it gives the form for the number; with a context it gives the translation for the context, and without one the message itself without the context.", "quantifier": "all sequences of calls of a translator, all catalogues, domains, directories, contexts, messages and numbers", "why_tests_cant": "every function has its own cache, so what a call gives depends on the calls before; sequences of calls are not bounded", "anchors": ["plainbox/i18n.py:GettextTranslator", "plainbox/i18n.py:GettextTranslator._get_translation", "plainbox/i18n.py:GettextTranslator.pgettext", "plainbox/i18n.py:GettextTranslator.pngettext", "plainbox/i18n.py:GettextTranslator.textdomain", "plainbox/i18n.py:GettextTranslator.bindtextdomain"]}
{"id": "C117", "title": "`manage.py build` runs the right build command in build/bin", "statement": "`manage.py build` runs the command given to setup(), or else the command of the build system with the greatest score: that of autotools if src/configure is a file, that of make if src/Makefile is, that of go if there is a visible file in src that ends with .go; with none of these it does nothing and succeeds. The directory build/bin is made if need be, the command runs in it, reaches the sources as ../../src wherever the provider is, and its status is the status of manage.py. `manage.py clean` runs the command given, or one that removes build/bin, in the directory of the provider.", "quantifier": "all locations of providers, working directories, contents of src, orders of the build systems, keywords and environments", "why_tests_cant": "the tests replace the functions that look for files and check one path each; names of directories and the contents of src are not bounded", "anchors": ["plainbox/provider_manager.py:BuildCommand.guess_build_command", "plainbox/provider_manager.py:BuildCommand.invoked", "plainbox/provider_manager.py:CleanCommand.invoked", "plainbox/impl/buildsystems.py:MakefileBuildSystem", "plainbox/impl/buildsystems.py:AutotoolsBuildSystem", "plainbox/impl/buildsystems.py:GoBuildSystem"]}
{"id": "C118", "title": "Sessions saved in older formats can be resumed without loss", "statement": "A session saved in any of the formats 1 to 5 is resumed by the reader of that format: all jobs with results come back with their results, the run list, the desired jobs and the mandatory jobs are what they were, and resuming succeeds if the jobs can be had from those given. Files of other versions than 1 to 6 are refused as incompatible.", "quantifier": "all sessions reached by any calls, all formats, all jobs given to resume, all versions in files", "why_tests_cant": "each format has its own writer and reader, tests resume a few hand-written documents; sequences of calls and generated jobs are not bounded", "anchors": ["plainbox/impl/session/suspend.py:SessionSuspendHelper1._repr_SessionState", "plainbox/impl/session/suspend.py:SessionSuspendHelper4._repr_SessionState", "plainbox/impl/session/resume.py:SessionResumeHelper._resume_json", "plainbox/impl/session/resume.py:SessionResumeHelper1._build_SessionState"]}
{"id": "C119", "title": "Shell syntax is reported exactly for commands with open quotes", "statement": "The validator of the command field reports an issue exactly for those commands in which the shell finds a quote that is not closed or a backslash with nothing after it; there is one issue at most, it is placed at the last line of the command and names the last complete token; a field without a value is not reported.", "quantifier": "all texts of commands", "why_tests_cant": "the texts of commands are unbounded, a test checks a handful; the lexer is a state machine whose language has to be compared with the quoting of the shell", "anchors": ["plainbox/impl/unit/validators.py:ShellProgramValidator.check", "plainbox/impl/unit/job.py:JobDefinition.Meta"]}
{"id": "C120", "title": "Paged output is seen, in the pager of the user's choice", "statement": "If the standard output is a terminal then the output of `plainbox dev list` goes to the pager named by PAGER if that can be run, else to the first of sensible-pager, less and more that is in PATH, and straight to the terminal if there is none; if it is not a terminal it is not paged. The output is always seen.", "quantifier": "all values of PAGER and PATH, all files in the directories of PATH", "why_tests_cant": "values of the variables and contents of directories are unbounded, tests never fork into a pager", "anchors": ["plainbox/impl/clitools.py:autopager", "plainbox/impl/clitools.py:find_exec"]}
{"id": "C121", "title": "`plainbox dev list` lists everything, once, where it belongs", "statement": "The list has every provider, unit, repository and storage exactly once; with a group exactly the objects of that group in order, with their attributes if wanted; without a group the lines determine what belongs to what. It is given whatever units the providers have.", "quantifier": "all providers, units, repositories and storages, all groups; all trees of objects", "why_tests_cant": "trees of objects are unbounded; that the lines determine the tree is a statement about all pairs of trees", "anchors": ["plainbox/impl/highlevel.py:Explorer.get_object_tree", "plainbox/impl/commands/inv_list.py:ListInvocation._show"]}
{"id": "C122", "title": "Translations are built where the provider looks for them", "statement": "`manage.py i18n` makes the template from the provider's texts and from all QML files below its data directory, merges it into the file of each language and compiles each of these to the file that gettext reads for the provider, wherever the command is given; only the steps that are wanted are done; with --dry-run nothing is changed, and a failure of a program makes the command fail.", "quantifier": "all locations of providers, current directories, sets of languages and of data files, all options", "why_tests_cant": "the commands use relative names that depend on two arbitrary directories; tests never run the tools", "anchors": ["plainbox/provider_manager.py:I18NCommand", "plainbox/impl/secure/providers/v1.py:Provider1Definition.effective_locale_dir"]}
{"id": "C123", "title": "A source tarball has the provider's files in a directory of its own", "statement": "The tarball that `manage.py sdist` writes to dist/ has exactly the files the provider consists of, each once and with its contents, below one directory that is named after the provider and its version; the name differs for different providers and versions; the file that is signed is this tarball and a failure to sign it makes the command fail.", "quantifier": "all trees of files, all names and versions that the definition accepts", "why_tests_cant": "trees of files are unbounded; that names do not clash is a statement about all pairs of names and versions", "anchors": ["plainbox/provider_manager.py:SourceDistributionCommand.invoked", "plainbox/provider_manager.py:SourceDistributionCommand.toplevel_name"]}
{"id": "C124", "title": "Passwords are asked for once, before the jobs are run", "statement": "Before any job is run, the user is asked to authenticate exactly for the ways of getting privileges that the jobs of the run list will use: each way once, in the order in which the jobs need it, and not at all if no job needs another user or the process is root; asking does not run any job.", "quantifier": "all lists of jobs, all sets of controllers, all platforms and users, all sequences of jobs that are run", "why_tests_cant": "which controller is chosen depends on the job and the machine together, and run lists are unbounded; tests use one mocked controller", "anchors": ["plainbox/impl/runner.py:JobRunner.get_warm_up_sequence", "plainbox/impl/ctrl.py:RootViaPTL1ExecutionController.get_warm_up_for_job", "plainbox/impl/commands/inv_run.py:RunInvocation.maybe_warm_up_authentication", "plainbox/impl/session/assistant.py:SessionAssistant.run_job"]}
{"id": "C125", "title": "The help of a command shows what its docstring says", "statement": "A command is called by the name of its class in lower case without the final word Command; --help shows the help line, the description and the epilog that its docstring is written with, however it is indented and however many blank lines there are; attributes of the class take precedence; an extension of manage.py replaces the command it is made from and leaves all others as they are.", "quantifier": "all class names, all docstrings of the documented form, any indentation, any translation, all lists of commands", "why_tests_cant": "tests have one docstring of each kind; indentation, blank lines and block contents are unbounded", "anchors": ["plainbox/impl/clitools.py:CommandBase", "plainbox/provider_manager.py:InstallCommand.get_command_epilog", "plainbox/provider_manager.py:manage_py_extension"]}
{"id": "C126", "title": "The registry server answers with the servers that are there", "statement": "Whatever has been registered, unregistered and queried before, a query of the rpyc registry is answered with exactly the servers whose last registration under this name (in any case) is not older than the pruning timeout and that have not unregistered since, each once, in the order of their registrations; the callbacks tell of every server that joins and of every one that leaves, and not of keep-alives; no packet ends the server.", "quantifier": "all sequences of registrations, unregistrations and queries with a clock that does not go back, all names, addresses, timeouts and packets", "why_tests_cant": "the answer depends on the whole history and on the clock; queries prune the table while they answer; packets are arbitrary bytes", "anchors": ["plainbox/vendor/rpyc/utils/registry.py:RegistryServer"]}
{"id": "C127", "title": "Exceptions of the other side arrive as what they are", "statement": "An exception sent over an rpyc connection arrives as an exception of the same class if the class is built-in or may be had under the settings, and otherwise as a generic one named after module and class; arguments and public attributes arrive as they are or as their repr, and the traceback unless denied; whatever the peer sends, the default settings import nothing and instantiate only built-in exception classes and generic ones; what is dumped can be written; different classes stay different.", "quantifier": "all exceptions, attribute lists, settings, sets of loaded and importable modules, caches, and all values a peer may send", "why_tests_cant": "exceptions have arbitrary attributes and classes; the safety claim is about every value a peer can send", "anchors": ["plainbox/vendor/rpyc/core/vinegar.py:dump", "plainbox/vendor/rpyc/core/vinegar.py:load"]}
{"id": "C128", "title": "A paragraph is a box with the whole text in it", "statement": "RenderingContext.para prints a box: every line is exactly as wide as the context, with the padding on all four sides and in the colours set; the lines have the whole text in its order, words that fit into a line are not broken, and each line is aligned as set; after a crash the whole traceback is printed and the program exits with status 1, whatever was set before.", "quantifier": "all texts, widths, paddings, alignments and styles, all ways to cut a text into words, all tracebacks", "why_tests_cant": "there are unboundedly many texts and geometries; wrapping depends on every length involved", "anchors": ["plainbox/impl/ingredients.py:RenderingContext", "plainbox/impl/ingredients.py:CanonicalCrashIngredient"]}
{"id": "C129", "title": "The terminal shows what a command writes", "statement": "While a command runs, plainbox run shows all of its output that can be read as UTF-8, in order, each line in the colour of its stream, between two lines that frame it, or only a note if the output is to be hidden; plainbox dev script shows each line with its job, stream and number in the stream.", "quantifier": "all commands and output, all schedules of the processes and threads, with and without colours", "why_tests_cant": "output is arbitrary bytes cut into pieces by concurrent readers; whether characters survive depends on where it is cut", "anchors": ["plainbox/impl/commands/inv_run.py:NormalUI", "plainbox/impl/runner.py:FallbackCommandOutputPrinter", "plainbox/impl/runner.py:JobRunnerUIDelegate"]}
{"id": "C130", "title": "The password that was typed is the one that sudo gets", "statement": "The password that a user types for a remote session is asked for once and written to sudo as it was typed, followed by a newline. The key that it was encrypted with can be stored and restored by a user who types the same password, and by no other. A temporary key decrypts once.", "quantifier": "all passwords, all RSA keys, all terminal encodings, all sequences of uses of a temporary key and of an encrypted password", "why_tests_cant": "whether textbook RSA on byte strings gives back what was encrypted depends on number theory for all keys and on every byte of the password", "anchors": ["plainbox/impl/secure/sudo_broker.py:EphemeralKey", "plainbox/impl/secure/sudo_broker.py:SudoBroker", "plainbox/impl/secure/sudo_broker.py:SudoProvider", "plainbox/impl/ctrl.py:RootViaSudoWithPassExecutionController"]}
{"id": "C131", "title": "What a test in QML reports is what plainbox gets", "statement": "A test in QML is given its job as plainbox sent it, and plainbox gets what the test reports, the beginning of it if the program is killed while it writes, or nothing if it does not report; plainbox always gets done.", "quantifier": "all jobs, reports, exit statuses and pipe capacities, all interleavings of plainbox, the program and a process that it leaves behind, kills at any time", "why_tests_cant": "two processes talk through two pipes of finite size; deadlocks depend on sizes and on the order in which they take turns", "anchors": ["plainbox/impl/ctrl.py:QmlJobExecutionController.execute_job_with_result", "plainbox/data/qml-shell/pipe_handler.py:write_and_close", "plainbox/data/qml-shell/pipe_handler.py:read_and_close", "plainbox/data/qml-shell/plainbox_qml_shell.qml:testDone"]}
{"id": "C132", "title": "The system information of the spreadsheet is what the resources and lspci say", "statement": "The System Info sheet of the XLSX report shows, for the machine under test, the platform, the BIOS, the processors, the memory and the Bluetooth device that the resources tell, the chipset, video, audio and network devices and the video memory that lspci tells, and every installed package; what is not known is shown as NA.", "quantifier": "all lists of resource records, all texts of lspci made of lines with devices and memory regions, all translations", "why_tests_cant": "the rows are found with lazy and greedy regular expressions over free text; tests have one sample, and the sheet is binary", "anchors": ["plainbox/impl/exporter/xlsx.py:XLSXSessionStateExporter._hw_collection", "plainbox/impl/exporter/xlsx.py:XLSXSessionStateExporter._get_bluetooth_product_or_path", "plainbox/impl/exporter/xlsx.py:XLSXSessionStateExporter.write_systeminfo"]}
{"id": "C133", "title": "A visitor sees every node once, and fields with identifiers mean the identifiers written in them", "statement": "Visiting a parsed field explores all nodes reachable from it, each once and in the order of the text, up to the first exception; so depends, after, bootstrap_include and nested_part mean the identifiers that are written in them, put into the namespace of the provider.", "quantifier": "all trees of nodes, all visitors, all texts in the language of words, all namespaces", "why_tests_cant": "trees have any shape and depth and visitors any set of methods; the texts are unbounded", "anchors": ["plainbox/impl/xparsers.py:Node.enumerate_entries", "plainbox/impl/xparsers.py:Visitor.visit", "plainbox/impl/unit/job.py:JobDefinition.get_direct_dependencies", "plainbox/impl/unit/job.py:JobDefinition.get_after_dependencies", "plainbox/impl/unit/testplan.py:TestPlanUnit.get_bootstrap_job_ids", "plainbox/impl/unit/testplan.py:TestPlanUnit.get_nested_part"]}
{"id": "C134", "title": "How skipped and failed jobs affect the jobs that depend on them", "statement": "At the end of a run of the run list every job that was started has the outcome of its command and all jobs it depends on passed; a job without requirements is started exactly if these passed; a job that was not started is skipped exactly if there is a chain of dependencies to a job that was started and skipped, and is not supported (or failed, with the flag fail-on-resource) otherwise, for requirements as for dependencies; run_job_if_possible does the same.", "quantifier": "all reachable sessions, all dependency graphs, all behaviours of the commands", "why_tests_cant": "chains of dependencies have any length and shape, and every subset of the commands may fail or be skipped", "anchors": ["plainbox/impl/session/assistant.py:SessionAssistant.run_job", "plainbox/impl/applogic.py:run_job_if_possible", "plainbox/impl/ctrl.py:CheckBoxSessionStateController.get_inhibitor_list", "plainbox/impl/commands/inv_run.py:RunInvocation.run_single_job_with_ui"]}
{"id": "C135", "title": "The dependency graph that is drawn is the dependency graph", "statement": "`plainbox dev special` prints for the chosen jobs exactly their requirements, each once and in order, and a file in the DOT language that is read as the graph of exactly these jobs, their dependencies, the jobs they come after and, if asked for, the resources they require with the requirement.", "quantifier": "all lists of jobs, with all ids, plugins, dependencies and requirement programs", "why_tests_cant": "the jobs and the texts in them are unbounded; whether a file can be read depends on the characters of all names", "anchors": ["plainbox/impl/commands/inv_special.py:SpecialInvocation._print_expression_list", "plainbox/impl/commands/inv_special.py:SpecialInvocation._print_dot_graph"]}
{"id": "C136", "title": "Exactly the expected calls are accepted, and undeclared exceptions are reported", "statement": "A method that calls `UsageExpectation.of(self).enforce()` returns normally exactly if the method is one of the allowed calls, whoever calls it and however it is decorated; otherwise UnexpectedMethodCall names it and lists all allowed methods with the reasons, in the order of their names. The expectations belong to one object and are the same each time. `raises(...)` refuses classes that are not exceptions and exceptions that the docstring does not mention; the function it makes ends exactly as the function it was given, and reports exceptions exactly if they are not of a declared class.", "quantifier": "all dictionaries of allowed calls, all functions and decorators, all call stacks and values of back, all sequences of objects, all docstrings and declared classes, all outcomes", "why_tests_cant": "whether a call is accepted depends on the code objects on the stack, which all decorated functions share partly; stacks, dictionaries and class hierarchies are unbounded", "anchors": ["plainbox/impl/developer.py:UsageExpectation.enforce", "plainbox/impl/developer.py:UsageExpectation.of", "plainbox/impl/decorators.py:raises"]}
{"id": "C137", "title": "Colours change how text looks and nothing else", "statement": "On a terminal, whatever is written with a Colorizer shows the same characters with colours as without them; each text is shown in the colour and brightness that were named, outcomes in the colours of their outcome, backgrounds in the colour named, and afterwards the terminal looks as before. Without colours exactly the text is written. Headers are centred in 80 columns. Colours are on exactly if asked for, or if nothing was said and the output is a terminal.", "quantifier": "all texts without escape characters, all colour names, all sequences of things written, all states of the terminal, both platforms", "why_tests_cant": "texts and sequences are unbounded, and what is seen depends on the state that all earlier escape sequences left", "anchors": ["plainbox/impl/color.py:Colorizer", "plainbox/impl/color.py:ansi_on", "plainbox/impl/color.py:get_color_for_tty", "plainbox/impl/result.py:OUTCOME_METADATA_MAP"]}
{"id": "C138", "title": "The usage in help texts has all its parts, in order, in filled lines", "statement": "The usage that the tools print has the program name, all options and all positional arguments, in order and none of them broken; it is one line if it fits, otherwise lines that are filled and not wider than the help unless one part alone is, indented behind the name of the program or, if that is long, behind the prefix. A usage text that was given is shown as it is. Printing help does not raise.", "quantifier": "all widths, prefixes, names of programs, lists of options and positional arguments", "why_tests_cant": "widths and lists of options are unbounded, and wrapping depends on all lengths; the parts are found again with a regular expression in a text", "anchors": ["plainbox/impl/_argparse.py:LegacyHelpFormatter._format_usage"]}
{"id": "C139", "title": "check-config reports what the configuration is, and whether it is valid", "statement": "plainbox check-config lists the configuration files in order and tells which are there, shows every variable with the value that is in force (that of the files if valid, otherwise the default), and below [environment] exactly the options that the files say together, each once and in order. Every invalid value is listed as a problem. It exits with 0 exactly if there is no problem and with 1 otherwise, and does not end with an exception because of what is in a file.", "quantifier": "all lists of files and contents of files, all classes of configurations with their validators, all environments of options", "why_tests_cant": "the contents of files are unbounded, and what is shown depends on all files together, on DEFAULT and on references between options; the tests run the command on a mock", "anchors": ["plainbox/impl/commands/inv_check_config.py:CheckConfigInvocation.run", "plainbox/impl/applogic.py:PlainBoxConfig", "plainbox/impl/secure/config.py:Config.get"]}
{"id": "C140", "title": "dev script runs exactly the command of the job that was named, and tells how it ended", "statement": "plainbox dev script runs the command of the first job with the given id, once, and no other command. Its exit code is that of the command; it is 126 if there is no such job and 125 if the job has no command, and then nothing is run. Everything that the command left in its working directory is shown, files line by line with numbers, then the return code and the command.", "quantifier": "all lists of jobs, ids, return codes, trees of files left behind and contents of these files", "why_tests_cant": "the tests use one job and one file; trees and contents of files are unbounded, and exceptions while they are shown go through the runner and its context managers", "anchors": ["plainbox/impl/commands/inv_script.py:ScriptInvocation.run", "plainbox/impl/commands/inv_script.py:ScriptInvocation._on_leftover_files", "plainbox/impl/commands/inv_script.py:ScriptInvocation._get_job", "plainbox/impl/runner.py:JobRunner._run_command"]}
{"id": "C141", "title": "What validators share through the context changes nothing of what they report", "statement": "UnitValidationContext.compute_shared saves validators from going through all units again. Whatever units were checked before and in whichever order, the checks for unique values and for references report what they would report with a context of their own: a value is reported exactly if several units of the providers of the context have it, with all of them, the checked unit in front and the others in the order of the providers, and the checked unit is not among those to look at; a reference is reported exactly if no unit or several units have this id, and once for each constraint that does not hold. The map of a field is computed at most once, and that it could not be computed is not kept.", "quantifier": "all lists of providers and units, fields, values, checksums, sequences of checks, references and constraints", "why_tests_cant": "the tests give each validator a fresh context with one or two units; that the cache is transparent is a statement about all sequences of checks", "anchors": ["plainbox/impl/unit/validators.py:UnitValidationContext.compute_shared", "plainbox/impl/unit/validators.py:compute_value_map", "plainbox/impl/unit/validators.py:UniqueValueValidator.check_in_context", "plainbox/impl/unit/validators.py:UnitReferenceValidator.check_in_context"]}
{"id": "C142", "title": "session show tells what was saved, for every session that was named, and archive takes exactly the session", "statement": "plainbox session show goes through the identifiers in order and shows for each the location and, if the session was saved, application, blob, title, flags, running job and size as they were saved; an unknown identifier is reported and does not stop it. With --resume it tells of each session whether it can be resumed. plainbox session archive takes exactly the directory of the session, under its own name, and nothing if there is no such session. Each stored session can be shown and archived.", "quantifier": "all lists of stored sessions with any data, lists of identifiers, meta-data and results of resuming", "why_tests_cant": "the command has no tests; which sessions are hidden by one that cannot be read depends on all others that are stored and on their order", "anchors": ["plainbox/impl/commands/inv_session.py:SessionInvocation.show_session", "plainbox/impl/commands/inv_session.py:SessionInvocation.archive_session", "plainbox/impl/commands/inv_session.py:SessionInvocation._lookup_storage", "plainbox/impl/session/storage.py:SessionStorage.id"]}
{"id": "C143", "title": "A function marked as deprecated or public does what the function it stands for does, and says so", "statement": "deprecated(version, explanation) needs a version; calls of the function it makes do the same and end the same as calls of the function itself, and each adds one warning with its name and the version; if warnings are exceptions the function is not called. Its documentation is what it was, then a line, indented like the rest, with the version, and then the explanation, apart from the version. public(path) makes a function with the name and documentation of the shim that does what the implementation does, which is found by what follows the first colon of the path or else by the name of the shim; it fails if there is no such module or function, and the documentation tells where the implementation is.", "quantifier": "all functions with any effects, lists of calls, documentations, versions, explanations, paths and sets of modules", "why_tests_cant": "the tests look at one documentation and one call; the layout depends on the indentation of every line of the documentation, and forwarding is about all functions and sequences of calls", "anchors": ["plainbox/impl/__init__.py:deprecated", "plainbox/impl/__init__.py:public", "plainbox/impl/__init__.py:_get_doc_margin", "plainbox/impl/_textwrap.py:_textwrap_indent"]}
{"id": "C144", "title": "Each message is logged where it should be, once, and at the level that was asked for", "statement": "After logging is set up, and however it is adjusted by the environment or the command line (--log-level, -v, -D, -C, -T), a message of a logger that is not below its level is shown once in the console: information on the standard output, warnings and errors on the standard error, debugging messages on the standard output if that was asked for. Debugging messages are written to debug.log, warnings and above to problem.log, crashes to crash.log and bugs to bug.log. If the directory for the files cannot be made, everything is shown in the console in the same way and nothing is written to files. The level of a logger is debugging if it or one above it was traced, and else what was asked for.", "quantifier": "all lists of adjustments, loggers that exist before, names of loggers, levels of messages, values of the environment variables", "why_tests_cant": "tests check neither the configuration nor adjustments; where a message goes depends on all loggers above it, and on all adjustments before", "anchors": ["plainbox/impl/logging.py:LoggingHelper.setup_logging", "plainbox/impl/logging.py:LoggingHelper.adjust_logging", "plainbox/impl/logging.py:LevelFilter.filter", "plainbox/impl/clitools.py:ToolBase._setup_logging_from_environment"]}
{"id": "C145", "title": "An asynchronous result takes the answer in time, tells everyone who asked once, and waiting for it ends", "statement": "The result of an asynchronous request takes the answer exactly if it is handled within the time that was given when the expiry was last set (or none was set), and keeps it from then on, whatever is done with it. Every callback is called exactly once, in the order in which they were added, when the answer is there, and finds it; none is called for an answer that is too late, or before. Waiting without an expiry ends exactly if the answer comes. Waiting with an expiry always ends: with the answer if that is got to before the expiry, and only if it is got to by then, with a timeout otherwise, never before the expiry. An exception of the other side is raised, a value is returned.", "quantifier": "all sequences of adding callbacks, setting the expiry and time passing around the answer; all lists of messages with all times of arrival and of handling", "why_tests_cant": "there are no tests; it depends on times and on the order of what is done", "anchors": ["plainbox/vendor/rpyc/core/async.py:AsyncResult.__call__", "plainbox/vendor/rpyc/core/async.py:AsyncResult.wait", "plainbox/vendor/rpyc/core/async.py:AsyncResult.add_callback", "plainbox/vendor/rpyc/core/async.py:AsyncResult.set_expiry", "plainbox/vendor/rpyc/core/async.py:AsyncResult.value"]}
{"id": "C146", "title": "A test case with parameters runs once for each list of values and finds them by name", "statement": "A test case with parameters runs its test exactly once for each list of values, in order, and counts as many tests as it runs. A list with a wrong number of values is refused, told by its number, after those before it were run, and nothing after it is run. Each test reads each value under the name of the parameter and nothing under other names; it is reported under a name made of its class, its method and its values, which tells tests with different values apart. Two such tests are equal exactly if they have the same method and values, and equal tests have equal hashes.", "quantifier": "all classes, names of parameters, lists of values, methods", "why_tests_cant": "the tests use two parameters with fixed values; that nothing is left out or run twice is about all lists", "anchors": ["plainbox/testing_utils/testcases.py:TestCaseWithParameters.run", "plainbox/testing_utils/testcases.py:TestCaseWithParameters.countTestCases", "plainbox/testing_utils/testcases.py:TestCaseWithParameters.id", "plainbox/testing_utils/testcases.py:TestCaseParameters.__getattr__"]}
{"id": "C147", "title": "Reading a remote iterator in chunks gives its elements; a restricted object shows and changes only what is exposed", "statement": "Reading an iterator of the other side in chunks gives exactly its elements, in order, then ends like it, or with its exception, whatever the sizes of the chunks; the requests ask for chunk elements first and then for factor times as many each time, up to max_chunk; a factor below one is refused. Of an object that is restricted the other side can, by any sequence of reading and writing, find out nothing about attributes that are not exposed for reading and change none that are not exposed for writing; exposed ones are read and written as they are.", "quantifier": "all iterators with and without an exception, all sizes and factors; all objects, sets of exposed attributes and sequences of accesses", "why_tests_cant": "there are no tests; that nothing is lost or can be found out is about all lists and all sequences", "anchors": ["plainbox/vendor/rpyc/utils/helpers.py:buffiter", "plainbox/vendor/rpyc/utils/helpers.py:restricted", "plainbox/vendor/rpyc/core/protocol.py:Connection._handle_buffiter"]}
{"id": "C148", "title": "A server serves only clients that authenticate, and leaves no connection behind", "statement": "However the threads of a server with a thread for each client take turns: a connection is served only if authentication succeeded for it, and never after it failed. Until the server is closed, the connections that are open are exactly the one that is being accepted and those that a thread looks after, and these are the ones that the server knows of; each connection that is done with is closed. After the server is closed no connection comes in, and all are closed.", "quantifier": "all interleavings of accepting, authentication, serving and closing, for any number of connections", "why_tests_cant": "there are no tests; the order in which threads take turns cannot be chosen by a test", "anchors": ["plainbox/vendor/rpyc/utils/server.py:Server.accept", "plainbox/vendor/rpyc/utils/server.py:Server._authenticate_and_serve_client", "plainbox/vendor/rpyc/utils/server.py:Server.close", "plainbox/vendor/rpyc/utils/server.py:ThreadedServer._accept_method"]}
{"id": "C149", "title": "New providers are made completely and overwrite nothing", "statement": "The command that starts a provider changes nothing that exists, however it ends. If there is something with the name of the provider, or the name is not accepted, it says so and changes nothing; otherwise it makes a directory of that name with exactly the directories, files and scripts that a provider (or an empty one) has, each in its place, scripts executable, and nothing anywhere else. The script for managing the provider gives its name and its domain for translations, which is different for different names; the files listed for translation are there.", "quantifier": "all file systems and names, with and without the option for empty providers", "why_tests_cant": "tests make one provider in an empty directory; what is kept or refused depends on everything that may be there", "anchors": ["plainbox/impl/commands/inv_startprovider.py:Skeleton.instantiate", "plainbox/impl/commands/inv_startprovider.py:File.instantiate", "plainbox/impl/commands/inv_startprovider.py:StartProviderInvocation.run", "plainbox/impl/commands/cmd_startprovider.py:IQN"]}
{"id": "C150", "title": "What parsers give is shown completely as JSON", "statement": "The command that parses its input prints JSON that has the same values in the same places as what the parser gave, where other objects count as dictionaries of their attributes; keys are in order, so two inputs give the same text just when they give the same data. It ends with zero just when the parser gave something and all of it can be shown, with two just when the parser failed or gave nothing, and with one if the input cannot be decoded; it never ends with a traceback.", "quantifier": "all parsers, inputs and data without cycles", "why_tests_cant": "tests show a few small values; data is nested without limit, and that texts are the same just for the same data is about all pairs", "anchors": ["plainbox/impl/parsers.py:ParserPlugIn.parse_text_to_json", "plainbox/impl/parsers.py:ParserPlugIn._to_json", "plainbox/impl/commands/inv_parse.py:ParseInvocation.run"]}
{"id": "C151", "title": "The application is started at the next boot just when a job was interrupted that asks for it", "statement": "With restarting configured, the application is started at the next boot just while a job with the flag autorestart runs, with the command that the callback gives; so it is started after a job that was interrupted by a reboot, and when it has started, restarting is undone, so that it happens once. Whether other applications are started does not change.", "quantifier": "all sequences of starting the application, resuming or making sessions, running jobs with or without exceptions, and turning off the machine", "why_tests_cant": "tests check single calls with mocked strategies; this is about all histories over several boots", "anchors": ["plainbox/impl/session/assistant.py:SessionAssistant.run_job", "plainbox/impl/session/assistant.py:SessionAssistant.resume_session", "plainbox/impl/session/assistant.py:SessionAssistant.use_alternate_restart_strategy", "plainbox/impl/session/restart.py:XDGRestartStrategy"]}

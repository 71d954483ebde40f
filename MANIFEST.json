{
 "claims": [
  {
   "property": "C01",
   "status": "proved",
   "theorems": [
    "Verif.DepMgr.C01_resolve_valid"
   ],
   "note": "hypothesis VisitConsistent (a visited job known by id is the listed job); foreign_visit_assertion shows behaviour outside it"
  },
  {
   "property": "C02",
   "status": "proved",
   "theorems": [
    "Verif.DepMgr.C02_resolve_iff",
    "Verif.DepMgr.C02_errors_truthful"
   ],
   "note": "under VisitConsistent"
  },
  {
   "property": "C03",
   "status": "proved",
   "theorems": [
    "Verif.DepMgr.C03_cycle_real"
   ],
   "note": "under VisitConsistent"
  },
  {
   "property": "C04",
   "status": "partial",
   "theorems": [
    "Verif.Session.C04_update_desired_partial",
    "Verif.Session.C04_violated"
   ],
   "note": "All of the statement is proved for every history (also failing calls), except that the call raises when a job of the new run list has a requirement program that cannot be compiled (C04_violated)."
  },
  {
   "property": "C05",
   "status": "partial",
   "theorems": [
    "Verif.Session.C05_can_start_partial",
    "Verif.Session.C05_can_start_exact_partial",
    "Verif.Session.C05_violated"
   ],
   "note": "Both directions are proved for jobs whose requirements refer to resource jobs; C05_can_start_exact_partial describes can_start exactly without that hypothesis; C05_violated shows the property false when a requirement refers to a passed job that is not a resource job."
  },
  {
   "property": "C06",
   "status": "proved",
   "theorems": [
    "Verif.Session.C06_readiness_fresh"
   ],
   "note": "Every history of calls that return normally, from any constructed session."
  },
  {
   "property": "C07",
   "status": "proved",
   "theorems": [
    "Verif.Session.C07_run_in_order"
   ],
   "note": "The command of a job is an arbitrary function to results with an outcome. The loop may also stop early because a generated job clashes; the first half covers every such prefix."
  },
  {
   "property": "C08",
   "status": "proved",
   "theorems": [
    "Verif.Session.C08_cannot_start",
    "Verif.Session.C08_in_session"
   ],
   "note": ""
  },
  {
   "property": "C09",
   "status": "proved",
   "theorems": [
    "Verif.Session.C09_bookkeeping",
    "Verif.Session.C09_add_identical",
    "Verif.Session.C09_add_clash"
   ],
   "note": "Bookkeeping holds also after calls that raise. The no-op and refusal parts hold in sessions reached by calls that return normally."
  },
  {
   "property": "C10",
   "status": "proved",
   "theorems": [
    "Verif.Session.C10_trim"
   ],
   "note": ""
  },
  {
   "property": "C100",
   "status": "partial",
   "theorems": [
    "Verif.Junit.C100_reads_partial",
    "Verif.Junit.C100_order",
    "Verif.Junit.C100_tests_violated",
    "Verif.Junit.C100_shown_violated",
    "Verif.Junit.C100_character_violated",
    "Verif.Junit.C100_return_violated"
   ],
   "note": "The report is read back by a reader of XML, with one case per job, the logs and the totals. Missing: characters that XML does not allow and carriage returns in logs, ids of several lines; the total of tests counts passed jobs only, and jobs that are not implemented or undecided look like passed ones."
  },
  {
   "property": "C101",
   "status": "partial",
   "theorems": [
    "Verif.Flat.C101_reads_partial",
    "Verif.Flat.C101_text",
    "Verif.Flat.C101_records",
    "Verif.Flat.C101_bad_byte",
    "Verif.Flat.C101_cut_off",
    "Verif.Flat.C101_clean",
    "Verif.Flat.C101_chunks",
    "Verif.Flat.C101_attachment",
    "Verif.Flat.C101_interleaved_violated",
    "Verif.Flat.C101_report_violated"
   ],
   "note": "Proved for the bytes of the log as a whole. Not so for each stream on its own: characters are broken when the records of the streams alternate within them. A vertical tab stays and breaks the JUnit report."
  },
  {
   "property": "C102",
   "status": "partial",
   "theorems": [
    "Verif.Submission.C102_reads_partial",
    "Verif.Submission.C102_entities_partial",
    "Verif.Submission.C102_entity_violated",
    "Verif.Submission.C102_backslash_violated",
    "Verif.Submission.C102_attachment_violated",
    "Verif.Submission.C102_snap_violated",
    "Verif.Submission.C102_stamp_violated",
    "Verif.Submission.C102_memory_violated"
   ],
   "note": "Proved for sessions whose texts have no control characters or backslashes (characters special in HTML are shown to appear as entities), whose documents are JSON without the line separators that indentation breaks, whose snaps have more than a name, whose memory has both amounts and whose build stamp is two lines; each of these is shown to be needed."
  },
  {
   "property": "C103",
   "status": "partial",
   "theorems": [
    "Verif.Comments.C103_cleaned",
    "Verif.Comments.C103_none",
    "Verif.Comments.C103_pieces_partial",
    "Verif.Comments.C103_plain",
    "Verif.Comments.C103_added",
    "Verif.Comments.C103_resumed_partial",
    "Verif.Comments.C103_settled",
    "Verif.Comments.C103_again_violated",
    "Verif.Comments.C103_control_violated"
   ],
   "note": "That no sequences are left, and that suspending does not change comments, is proved for texts in which every introducer begins a sequence or is removed; otherwise it is false. Other control characters remain."
  },
  {
   "property": "C104",
   "status": "partial",
   "theorems": [
    "Verif.Html.C104_shown_partial",
    "Verif.Html.C104_all_partial",
    "Verif.Html.C104_tables_partial",
    "Verif.Html.C104_chart",
    "Verif.Html.C104_log_partial",
    "Verif.Html.C104_missing_violated",
    "Verif.Html.C104_heading_violated",
    "Verif.Html.C104_package_violated",
    "Verif.Html.C104_first_line_violated",
    "Verif.Html.C104_chart_order"
   ],
   "note": "Proved for the tables, pages, links and the chart. The statement fails for tests of unknown categories, for headings of categories with resource jobs or attachments, for a second resource job called package, and for logs that begin with an empty line."
  },
  {
   "property": "C105",
   "status": "partial",
   "theorems": [
    "Verif.Sibling.C105_suspended_partial",
    "Verif.Sibling.C105_brings_partial",
    "Verif.Sibling.C105_brings_none",
    "Verif.Sibling.C105_sibling_partial",
    "Verif.Sibling.C105_translated_partial",
    "Verif.Sibling.C105_added_partial",
    "Verif.Sibling.C105_session_partial",
    "Verif.Sibling.C105_inserts",
    "Verif.Sibling.C105_flag_violated",
    "Verif.Sibling.C105_comment_violated",
    "Verif.Sibling.C105_clash_violated",
    "Verif.Sibling.C105_override_violated",
    "Verif.Sibling.C105_translation_violated",
    "Verif.Sibling.C105_braces_violated",
    "Verif.Sibling.C105_again_partial",
    "Verif.Sibling.C105_refused",
    "Verif.Sibling.C105_json",
    "Verif.Sibling.C105_both_partial",
    "Verif.Sibling.C105_unnamed"
   ],
   "note": "Proved for jobs whose id needs no quotes, whose flags and summary have no braces, and whose dependencies do not end in an open comment. Violated: a part of also-after-suspend-manual remains as a flag, dependencies are lost in a comment, siblings without an id clash, overrides of translatable fields without underscore have no effect, siblings lose translations, parameters are inserted twice."
  },
  {
   "property": "C106",
   "status": "partial",
   "theorems": [
    "Verif.IniText.C106_kept",
    "Verif.IniText.C106_value_iff",
    "Verif.IniText.C106_round_partial",
    "Verif.IniText.C106_file_partial",
    "Verif.IniText.C106_config_partial",
    "Verif.IniText.C106_later",
    "Verif.IniText.C106_files",
    "Verif.IniText.C106_faulty",
    "Verif.IniText.C106_crash_partial",
    "Verif.IniText.C106_hash_violated",
    "Verif.IniText.C106_indent_violated",
    "Verif.IniText.C106_end_violated",
    "Verif.IniText.C106_return_violated",
    "Verif.IniText.C106_bracket_violated",
    "Verif.IniText.C106_name_violated",
    "Verif.IniText.C106_crash_violated",
    "Verif.IniText.C106_ends",
    "Verif.IniText.C106_nameless_violated"
   ],
   "note": "Proved for all data whose names can be told from other lines: what comes back of each value is computed exactly, and the values that come back unchanged are characterised; all the others, and the other names, are violations. Which file counts is proved for all texts. Exceptions other than configparser.Error do occur (violated); proved where they can come from."
  },
  {
   "property": "C107",
   "status": "partial",
   "theorems": [
    "Verif.Sections.C107_value",
    "Verif.Sections.C107_section",
    "Verif.Sections.C107_section_partial",
    "Verif.Sections.C107_param",
    "Verif.Sections.C107_files",
    "Verif.Sections.C107_raises",
    "Verif.Sections.C107_write_iff",
    "Verif.Sections.C107_round_partial",
    "Verif.Sections.C107_environment",
    "Verif.Sections.C107_default_violated",
    "Verif.Sections.C107_stale_violated",
    "Verif.Sections.C107_unset_violated",
    "Verif.Sections.C107_percent_violated",
    "Verif.Sections.C107_colon_violated",
    "Verif.Sections.C107_get",
    "Verif.Sections.C107_syntax"
   ],
   "note": "Sections hold what the text says with DEFAULT behind them (exact characterisation); exactly the section's own options only when DEFAULT has none. Sections missing in a later text keep old values, unset sections cannot be written, percent signs raise on reading and do not survive writing: each shown by a witness; the round trip is proved for tidy sections."
  },
  {
   "property": "C108",
   "status": "partial",
   "theorems": [
    "Verif.PodClass.C108_class",
    "Verif.PodClass.C108_names",
    "Verif.PodClass.C108_inherits",
    "Verif.PodClass.C108_equal",
    "Verif.PodClass.C108_equivalence",
    "Verif.PodClass.C108_less",
    "Verif.PodClass.C108_order",
    "Verif.PodClass.C108_copy_iff",
    "Verif.PodClass.C108_kind_violated",
    "Verif.PodClass.C108_podify_violated",
    "Verif.PodClass.C108_none_violated",
    "Verif.PodClass.C108_diamond_violated",
    "Verif.PodClass.C108_copy_violated",
    "Verif.PodClass.C108_podify"
   ],
   "note": "Everything is proved for objects of classes derived from POD with values in a total order; the class of an object is not part of equality, podified classes that do not derive from POD do not compare, None has no order, unset fields get defaults in copies: each shown by a witness."
  },
  {
   "property": "C109",
   "status": "partial",
   "theorems": [
    "Verif.Enumerate.C109_packaged",
    "Verif.Enumerate.C109_source",
    "Verif.Enumerate.C109_base",
    "Verif.Enumerate.C109_once",
    "Verif.Enumerate.C109_complete_partial",
    "Verif.Enumerate.C109_units",
    "Verif.Enumerate.C109_unreadable_violated",
    "Verif.Enumerate.C109_outside_violated",
    "Verif.Enumerate.C109_link_violated"
   ],
   "note": "Both layouts are proved exactly, for all trees. The full statement fails for directories that cannot be read, for directories given apart from the base directory, and for links to directories; these are proved as violations."
  },
  {
   "property": "C11",
   "status": "proved",
   "theorems": [
    "Verif.Stats.C11_global_outcome",
    "Verif.Stats.C11_category_outcome",
    "Verif.Stats.C11_outcome_stats"
   ],
   "note": ""
  },
  {
   "property": "C110",
   "status": "partial",
   "theorems": [
    "Verif.Report.C110_plain",
    "Verif.Report.C110_unique_partial",
    "Verif.Report.C110_column",
    "Verif.Report.C110_raises",
    "Verif.Report.C110_colour",
    "Verif.Report.C110_colour_unique_partial",
    "Verif.Report.C110_stdout",
    "Verif.Report.C110_history_violated",
    "Verif.Report.C110_skip_violated",
    "Verif.Report.C110_newline_violated",
    "Verif.Report.C110_terminal_violated",
    "Verif.Report.C110_column_violated"
   ],
   "note": "Partial because the code violates the statement: former outcomes are missing without colours, skipped and not supported look the same with colours, and summaries of several lines look like other jobs. Without these the report is proved to be unique."
  },
  {
   "property": "C111",
   "status": "partial",
   "theorems": [
    "Verif.Locate.C111_relpath",
    "Verif.Locate.C111_origin",
    "Verif.Locate.C111_distinct",
    "Verif.Locate.C111_shown_partial",
    "Verif.Locate.C111_issue_partial",
    "Verif.Locate.C111_colon_violated",
    "Verif.Locate.C111_kind_violated",
    "Verif.Locate.C111_nowhere_violated",
    "Verif.Locate.C111_nameless_violated",
    "Verif.Locate.C111_place",
    "Verif.Locate.C111_text",
    "Verif.Locate.C111_issue_relative"
   ],
   "note": "Relative names are proved outright. Partial because the code violates the rest of the statement: names of files may have colons or be those of other sources, and issues may have no origin."
  },
  {
   "property": "C112",
   "status": "partial",
   "theorems": [
    "Verif.Cookie.C112_linux_partial",
    "Verif.Cookie.C112_unique_partial",
    "Verif.Cookie.C112_none",
    "Verif.Cookie.C112_one",
    "Verif.Cookie.C112_windows",
    "Verif.Cookie.C112_uname_violated",
    "Verif.Cookie.C112_separator_violated"
   ],
   "note": "partial because the code breaks it: AttributeError without dpkg and rpm, and values with an ampersand are ambiguous"
  },
  {
   "property": "C113",
   "status": "partial",
   "theorems": [
    "Verif.ByName.C113_names",
    "Verif.ByName.C113_strict",
    "Verif.ByName.C113_made",
    "Verif.ByName.C113_lenient_partial",
    "Verif.ByName.C113_accepts",
    "Verif.ByName.C113_commands",
    "Verif.ByName.C113_unknown",
    "Verif.ByName.C113_lists",
    "Verif.ByName.C113_value_violated",
    "Verif.ByName.C113_comma_violated",
    "Verif.ByName.C113_none_violated"
   ],
   "note": "partial because the code breaks it: options with values are dropped in the mode that is not strict, None is not accepted there, and a trailing comma in a definition makes an exporter useless"
  },
  {
   "property": "C114",
   "status": "partial",
   "theorems": [
    "Verif.Symbols.C114_same",
    "Verif.Symbols.C114_compare",
    "Verif.Symbols.C114_other",
    "Verif.Symbols.C114_define",
    "Verif.Symbols.C114_refused",
    "Verif.Symbols.C114_listed_partial",
    "Verif.Symbols.C114_fields_partial",
    "Verif.Symbols.C114_checks_partial",
    "Verif.Symbols.C114_types",
    "Verif.Symbols.C114_meta_violated",
    "Verif.Symbols.C114_twice_violated"
   ],
   "note": "partial because the code breaks it: a derived type without Meta cannot be made, and a symbol with two names is listed twice"
  },
  {
   "property": "C115",
   "status": "partial",
   "theorems": [
    "Verif.Analyze.C115_clock",
    "Verif.Analyze.C115_clock_unique",
    "Verif.Analyze.C115_rounded",
    "Verif.Analyze.C115_sections",
    "Verif.Analyze.C115_order",
    "Verif.Analyze.C115_stopped",
    "Verif.Analyze.C115_works",
    "Verif.Analyze.C115_packages_none",
    "Verif.Analyze.C115_packages_silent",
    "Verif.Analyze.C115_packages_violated",
    "Verif.Analyze.C115_validation_violated",
    "Verif.Analyze.C115_local_violated"
   ],
   "note": "Proved: which reports are printed and in which order, what is in them, durations. The statement is violated by the report about definitions (always fails), by the report about packages (never tells any) and for jobs of the kind local; also by durations of more than 999999999 days."
  },
  {
   "property": "C116",
   "status": "partial",
   "theorems": [
    "Verif.Translate.C116_partial",
    "Verif.Translate.C116_same",
    "Verif.Translate.C116_domain_violated",
    "Verif.Translate.C116_stale_violated",
    "Verif.Translate.C116_directory_violated"
   ],
   "note": "proved when settings are made before what depends on them; otherwise the caches give stale answers (violations), and the same call always has the same answer"
  },
  {
   "property": "C117",
   "status": "partial",
   "theorems": [
    "Verif.Build.C117_best",
    "Verif.Build.C117_where",
    "Verif.Build.C117_choice_partial",
    "Verif.Build.C117_build_partial",
    "Verif.Build.C117_clean",
    "Verif.Build.C117_bracket_violated",
    "Verif.Build.C117_star_violated"
   ],
   "note": "proved for every place whose name has no character that means something to glob, and for every place with src/configure or src/Makefile; violated for sources of go elsewhere"
  },
  {
   "property": "C118",
   "status": "partial",
   "theorems": [
    "Verif.Older.C118_formats",
    "Verif.Older.C118_selection_partial",
    "Verif.Older.C118_early_partial",
    "Verif.Older.C118_middle_partial",
    "Verif.Older.C118_early_succeeds",
    "Verif.Older.C118_middle_succeeds",
    "Verif.Older.C118_mandatory_violated",
    "Verif.Older.C118_history_violated",
    "Verif.Older.C118_newest"
   ],
   "note": "Formats 4 and 5 keep results, histories, run list and desired jobs (no hollow results reported); formats 1 to 3 keep last results, run list and desired jobs. Violated: mandatory jobs are lost in formats 1 to 5, histories in formats 1 to 3."
  },
  {
   "property": "C119",
   "status": "partial",
   "theorems": [
    "Verif.Shell.C119_exact",
    "Verif.Shell.C119_partial",
    "Verif.Shell.C119_accepts",
    "Verif.Shell.C119_issue",
    "Verif.Shell.C119_near",
    "Verif.Shell.C119_rejects_violated",
    "Verif.Shell.C119_accepts_violated",
    "Verif.Shell.C119_shift_violated"
   ],
   "note": "Exact for commands without << in which # is only after the end of a word; the lexer takes other # for comments and << is not looked at (three violation theorems). The grammar of the shell is that of quoting and comments; substitutions in double quotes are text."
  },
  {
   "property": "C12",
   "status": "proved",
   "theorems": [
    "Verif.Qualifiers.C12_composite_vote"
   ],
   "note": ""
  },
  {
   "property": "C120",
   "status": "partial",
   "theorems": [
    "Verif.Pager.C120_exact",
    "Verif.Pager.C120_partial",
    "Verif.Pager.C120_user",
    "Verif.Pager.C120_empty_violated",
    "Verif.Pager.C120_options_violated"
   ],
   "note": "Proved when no directory is found where a pager is looked for; an empty PAGER makes the code run a directory and the output is lost, and a PAGER with options is not found (violation theorems)."
  },
  {
   "property": "C121",
   "status": "partial",
   "theorems": [
    "Verif.Listing.C121_given_partial",
    "Verif.Listing.C121_group",
    "Verif.Listing.C121_tree",
    "Verif.Listing.C121_systems",
    "Verif.Listing.C121_fails_violated"
   ],
   "note": "Proved for providers whose units are of the eight types the code knows; a unit of the base type makes the whole list fail (violation theorem)."
  },
  {
   "property": "C122",
   "status": "partial",
   "theorems": [
    "Verif.I18n.C122_commands",
    "Verif.I18n.C122_dry",
    "Verif.I18n.C122_domain",
    "Verif.I18n.C122_dirs",
    "Verif.I18n.C122_found_partial",
    "Verif.I18n.C122_shadowed_violated",
    "Verif.I18n.C122_dry_violated",
    "Verif.I18n.C122_status_violated",
    "Verif.I18n.C122_hidden_violated"
   ],
   "note": "Proved: which programs are run with which files, that the directories are there, that nothing is run with --dry-run, and where the provider looks. Violated: --dry-run makes directories, failures are ignored, a file .po is misread, a directory locale hides the translations."
  },
  {
   "property": "C123",
   "status": "partial",
   "theorems": [
    "Verif.Sdist.C123_content",
    "Verif.Sdist.C123_signed_partial",
    "Verif.Sdist.C123_names_partial",
    "Verif.Sdist.C123_names_violated",
    "Verif.Sdist.C123_signed_violated",
    "Verif.Sdist.C123_status_violated",
    "Verif.Sdist.C123_locale_violated"
   ],
   "note": "Proved: the contents for all trees; the signed file for versions of usual characters; different names for versions without a dash. Violated for other versions the definition accepts; the result of gpg is ignored; locale is left out."
  },
  {
   "property": "C124",
   "status": "partial",
   "theorems": [
    "Verif.WarmUp.C124_sequence",
    "Verif.WarmUp.C124_harmless",
    "Verif.WarmUp.C124_linux",
    "Verif.WarmUp.C124_quiet",
    "Verif.WarmUp.C124_before_partial",
    "Verif.WarmUp.C124_pkexec_violated",
    "Verif.WarmUp.C124_added_violated",
    "Verif.WarmUp.C124_again",
    "Verif.WarmUp.C124_again_violated",
    "Verif.WarmUp.C124_outside_violated"
   ],
   "note": "The sequence is exact, without repetitions and in order for all lists; for plainbox run every elevated job of the run list comes after its warm-up. Violated for pkexec, for jobs that are added later, and by SessionAssistant.run_job, which warms up before every job."
  },
  {
   "property": "C125",
   "status": "partial",
   "theorems": [
    "Verif.Help.C125_texts",
    "Verif.Help.C125_attributes",
    "Verif.Help.C125_name_partial",
    "Verif.Help.C125_name_violated",
    "Verif.Help.C125_extend",
    "Verif.Help.C125_twice_violated",
    "Verif.Help.C125_install_violated",
    "Verif.Help.C125_registered"
   ],
   "note": "Help line, description and epilog are proved to be what the docstring was written with, for all indentations. Violated for names with the word command elsewhere, for a second extension of the same command and for extensions of the install command without an epilog."
  },
  {
   "property": "C126",
   "status": "partial",
   "theorems": [
    "Verif.Registry.C126_query",
    "Verif.Registry.C126_added",
    "Verif.Registry.C126_removed_partial",
    "Verif.Registry.C126_removed_violated",
    "Verif.Registry.C126_survives_partial",
    "Verif.Registry.C126_survives_violated",
    "Verif.Registry.C126_wire"
   ],
   "note": "Answers to queries are proved in full. The removal callback is not called for all servers, and one kind of packet ends the server; both are proved as violations."
  },
  {
   "property": "C127",
   "status": "partial",
   "theorems": [
    "Verif.Vinegar.C127_roundtrip_partial",
    "Verif.Vinegar.C127_dumpable",
    "Verif.Vinegar.C127_safe",
    "Verif.Vinegar.C127_class_partial",
    "Verif.Vinegar.C127_class_violated",
    "Verif.Vinegar.C127_stop_violated",
    "Verif.Vinegar.C127_write_violated"
   ],
   "note": "Round trip for all exceptions but StopIteration, security for all values; violations for StopIteration, texts with surrogates and class names with dots."
  },
  {
   "property": "C128",
   "status": "partial",
   "theorems": [
    "Verif.Para.C128_box_partial",
    "Verif.Para.C128_words",
    "Verif.Para.C128_box_violated",
    "Verif.Para.C128_crash"
   ],
   "note": "Proved for texts; a list of lines is printed without wrapping, proved as a violation."
  },
  {
   "property": "C129",
   "status": "partial",
   "theorems": [
    "Verif.Live.C129_reading",
    "Verif.Live.C129_screen_partial",
    "Verif.Live.C129_text",
    "Verif.Live.C129_hidden",
    "Verif.Live.C129_chunked_violated",
    "Verif.Live.C129_numbered_partial",
    "Verif.Live.C129_stopped",
    "Verif.Live.C129_numbered_violated"
   ],
   "note": "Jobs with use-chunked-io show only ASCII characters (plainbox run) or nothing (plainbox dev script), proved as violations; the sudo controller is excluded as in C44; the numbered printer stops at the first line that is not UTF-8 (C129_stopped)."
  },
  {
   "property": "C13",
   "status": "proved",
   "theorems": [
    "Verif.Qualifiers.C13_select_jobs",
    "Verif.Qualifiers.C13_fast_path"
   ],
   "note": "For job lists with distinct ids, as the property says for the short cut."
  },
  {
   "property": "C130",
   "status": "partial",
   "theorems": [
    "Verif.Password.C130_delivered_partial",
    "Verif.Password.C130_restored",
    "Verif.Password.C130_once",
    "Verif.Password.C130_asked",
    "Verif.Password.C130_long",
    "Verif.Password.C130_empty_violated",
    "Verif.Password.C130_encoding_violated",
    "Verif.Password.C130_early_violated",
    "Verif.Password.C130_refused"
   ],
   "note": "Passwords that are empty or longer than the key, and passwords with other characters than ASCII on terminals that do not use UTF-8, do not arrive (proved). Sealing keys and SHA-512 are parameters."
  },
  {
   "property": "C131",
   "status": "partial",
   "theorems": [
    "Verif.Qml.C131_result",
    "Verif.Qml.C131_ends_partial",
    "Verif.Qml.C131_calm",
    "Verif.Qml.C131_answer_partial",
    "Verif.Qml.C131_long_job_violated",
    "Verif.Qml.C131_long_report_violated",
    "Verif.Qml.C131_helper_violated",
    "Verif.Qml.C131_locale_violated"
   ],
   "note": "Jobs and reports that do not fit into a pipe, and processes that stay behind with the descriptor, deadlock plainbox; reports with other characters than ASCII raise in the C locale (all proved)."
  },
  {
   "property": "C132",
   "status": "partial",
   "theorems": [
    "Verif.Sysinfo.C132_devices_partial",
    "Verif.Sysinfo.C132_resources_partial",
    "Verif.Sysinfo.C132_titles",
    "Verif.Sysinfo.C132_packages",
    "Verif.Sysinfo.C132_fails",
    "Verif.Sysinfo.C132_missing",
    "Verif.Sysinfo.C132_vram_violated",
    "Verif.Sysinfo.C132_addon_violated",
    "Verif.Sysinfo.C132_chipset_violated",
    "Verif.Sysinfo.C132_none_violated",
    "Verif.Sysinfo.C132_processors_violated",
    "Verif.Sysinfo.C132_lost_violated"
   ],
   "note": "Proved for the rows of devices (lspci text of lines with the grammar of lspci -nnvv), of resources, the packages and the titles. Violated: video memory counts any device and only sizes in M, 3D controllers and chipsets without LPC are not shown, missing fields are shown as None, only the last kind of processor is shown, and one bad record or attachment loses the report."
  },
  {
   "property": "C133",
   "status": "partial",
   "theorems": [
    "Verif.Visit.C133_visit_partial",
    "Verif.Visit.C133_raise",
    "Verif.Visit.C133_written",
    "Verif.Visit.C133_others",
    "Verif.Visit.C133_absent",
    "Verif.Visit.C133_nested_violated",
    "Verif.Visit.C133_quote_violated"
   ],
   "note": "Proved for all trees, visitors and well-written fields; missing: nodes in lists of lists (not visited), and fields with an open quote (the parser does not return, C28)."
  },
  {
   "property": "C134",
   "status": "partial",
   "theorems": [
    "Verif.Session.C134_each",
    "Verif.Session.C134_cause",
    "Verif.Session.C134_spread",
    "Verif.Session.C134_started",
    "Verif.Session.C134_older_partial",
    "Verif.Session.C134_resource_violated",
    "Verif.Session.C134_flag_violated"
   ],
   "note": "Proved for dependencies. Skips are not mirrored over requirements (C134_resource_violated), and run_job_if_possible ignores fail-on-resource (C134_flag_violated)."
  },
  {
   "property": "C135",
   "status": "partial",
   "theorems": [
    "Verif.Dot.C135_graph_partial",
    "Verif.Dot.C135_raises",
    "Verif.Dot.C135_requirements",
    "Verif.Dot.C135_plugin_violated",
    "Verif.Dot.C135_quote_violated",
    "Verif.Dot.C135_stops"
   ],
   "note": "Requirements in full; the graph for names without quotes, backslashes and line ends. Jobs of some plugins are missing (C135_plugin_violated); quotes are not escaped (C135_quote_violated)."
  },
  {
   "property": "C136",
   "status": "partial",
   "theorems": [
    "Verif.Usage.C136_decision_partial",
    "Verif.Usage.C136_back_partial",
    "Verif.Usage.C136_message_partial",
    "Verif.Usage.C136_assistant",
    "Verif.Usage.C136_of",
    "Verif.Usage.C136_documented",
    "Verif.Usage.C136_reported",
    "Verif.Usage.C136_twice_violated"
   ],
   "note": "All proved except for functions decorated more than once, which are refused although allowed (C136_twice_violated); no method of the assistant is."
  },
  {
   "property": "C137",
   "status": "partial",
   "theorems": [
    "Verif.Color.C137_call",
    "Verif.Color.C137_off",
    "Verif.Color.C137_outcome",
    "Verif.Color.C137_same_text",
    "Verif.Color.C137_header",
    "Verif.Color.C137_names",
    "Verif.Color.C137_choice",
    "Verif.Color.C137_background_partial",
    "Verif.Color.C137_style",
    "Verif.Color.C137_yellow_violated",
    "Verif.Color.C137_windows_violated"
   ],
   "note": "All proved except the background YELLOW, which is blue, and colours on Windows without colorama (violations)."
  },
  {
   "property": "C138",
   "status": "partial",
   "theorems": [
    "Verif.UsageText.C138_one_line",
    "Verif.UsageText.C138_parts",
    "Verif.UsageText.C138_short_name",
    "Verif.UsageText.C138_long_name",
    "Verif.UsageText.C138_given",
    "Verif.UsageText.C138_brackets_violated"
   ],
   "note": "Proved for arguments that are words or words in brackets; with brackets inside names help raises AssertionError (C138_brackets_violated)."
  },
  {
   "property": "C139",
   "status": "partial",
   "theorems": [
    "Verif.CheckConfig.C139_code_partial",
    "Verif.CheckConfig.C139_variable",
    "Verif.CheckConfig.C139_files",
    "Verif.CheckConfig.C139_source",
    "Verif.CheckConfig.C139_environment",
    "Verif.CheckConfig.C139_syntax",
    "Verif.CheckConfig.C139_raises_violated",
    "Verif.CheckConfig.C139_misspelt_violated"
   ],
   "note": "Exit code, variables, files and the environment section are proved for all files that parse; the command raises on faulty files and on values that cannot be interpolated, and does not see misspelt sections (violations proved)."
  },
  {
   "property": "C14",
   "status": "partial",
   "theorems": [
    "Verif.RFC822.C14_round_trip_partial",
    "Verif.RFC822.C14_loaded_values_stripped",
    "Verif.RFC822.C14_violated",
    "Verif.RFC822.C14_trailing_newline"
   ],
   "note": "Round trip proved for all records whose values have no outer white space and, when multi-line, no white-space-only or white-space-plus-dot line. The full claim is false; C14_violated gives five witnesses."
  },
  {
   "property": "C140",
   "status": "partial",
   "theorems": [
    "Verif.ScriptCmd.C140_no_job",
    "Verif.ScriptCmd.C140_no_command",
    "Verif.ScriptCmd.C140_code_partial",
    "Verif.ScriptCmd.C140_lines_partial",
    "Verif.ScriptCmd.C140_newlines",
    "Verif.ScriptCmd.C140_binary_violated",
    "Verif.ScriptCmd.C140_forbidden_violated",
    "Verif.ScriptCmd.C140_same_code_violated"
   ],
   "note": "Proved for all jobs, trees and texts; files that are not UTF-8 or must not be read, and commands that return 125 or 126, violate the statement (proved)."
  },
  {
   "property": "C141",
   "status": "partial",
   "theorems": [
    "Verif.Shared.C141_same_partial",
    "Verif.Shared.C141_once",
    "Verif.Shared.C141_retry",
    "Verif.Shared.C141_unique",
    "Verif.Shared.C141_clash",
    "Verif.Shared.C141_raises",
    "Verif.Shared.C141_references",
    "Verif.Shared.C141_stale_violated",
    "Verif.Shared.C141_itself_violated",
    "Verif.Shared.C141_order_violated",
    "Verif.Shared.C141_field"
   ],
   "note": "Proved for all sequences of checks while the list of providers is not assigned to. Violated after assigning it, for a provider that is listed twice, and in the order of units that are defined alike."
  },
  {
   "property": "C142",
   "status": "partial",
   "theorems": [
    "Verif.ShowCmd.C142_show_partial",
    "Verif.ShowCmd.C142_stops",
    "Verif.ShowCmd.C142_details",
    "Verif.ShowCmd.C142_archive",
    "Verif.ShowCmd.C142_hidden_violated",
    "Verif.ShowCmd.C142_unsaved_violated",
    "Verif.ShowCmd.C142_twin_violated"
   ],
   "note": "Proved for sessions that can be read, with what happens at the first that cannot. Violated: such a session hides the next ones, nothing is said about resuming a session that was not saved, and of two directories with the same identifier only one can be shown."
  },
  {
   "property": "C143",
   "status": "partial",
   "theorems": [
    "Verif.Wrappers.C143_margin",
    "Verif.Wrappers.C143_indent",
    "Verif.Wrappers.C143_documented_partial",
    "Verif.Wrappers.C143_version_violated",
    "Verif.Wrappers.C143_forwards",
    "Verif.Wrappers.C143_error",
    "Verif.Wrappers.C143_located",
    "Verif.Wrappers.C143_refused",
    "Verif.Wrappers.C143_public_partial",
    "Verif.Wrappers.C143_where_violated",
    "Verif.Wrappers.C143_explained",
    "Verif.Wrappers.C143_dedented"
   ],
   "note": "Proved: what a deprecated function does, warns about and documents; the margin and indenting; where the implementation of a public function is looked for, when it fails and what the result does. Missing because the code violates it: the version is apart from the explanation for one-line documentations (C143_version_violated); the place named in the documentation for paths with a colon (C143_where_violated)."
  },
  {
   "property": "C144",
   "status": "partial",
   "theorems": [
    "Verif.Logs.C144_where",
    "Verif.Logs.C144_console_partial",
    "Verif.Logs.C144_twice_violated",
    "Verif.Logs.C144_no_files",
    "Verif.Logs.C144_level",
    "Verif.Logs.C144_refused",
    "Verif.Logs.C144_trace_violated",
    "Verif.Logs.C144_environment_violated",
    "Verif.Logs.C144_environment"
   ],
   "note": "Proved: where messages of the loggers of plainbox and checkbox go after any adjustments, the levels after an adjustment, failures, the environment. Missing because the code violates it: crashes are shown twice without log files; tracing other loggers shows nothing; the root logger is traced if PLAINBOX_TRACE is not set."
  },
  {
   "property": "C145",
   "status": "partial",
   "theorems": [
    "Verif.Later.C145_taken",
    "Verif.Later.C145_callbacks_partial",
    "Verif.Later.C145_not_before",
    "Verif.Later.C145_forever",
    "Verif.Later.C145_wait",
    "Verif.Later.C145_kept",
    "Verif.Later.C145_late_violated",
    "Verif.Later.C145_dropped_violated",
    "Verif.Later.C145_raising_violated"
   ],
   "note": "Callbacks: proved if none raises an exception; the code violates the statement otherwise (C145_raising_violated). In time is counted to when the answer is handled, not to when it is there (C145_late_violated)."
  },
  {
   "property": "C146",
   "status": "partial",
   "theorems": [
    "Verif.Params.C146_once",
    "Verif.Params.C146_refused",
    "Verif.Params.C146_bound_violated",
    "Verif.Params.C146_lookup_partial",
    "Verif.Params.C146_lookup_violated",
    "Verif.Params.C146_equal",
    "Verif.Params.C146_hash_partial",
    "Verif.Params.C146_hash_violated",
    "Verif.Params.C146_named_partial",
    "Verif.Params.C146_reads",
    "Verif.Params.C146_named_violated"
   ],
   "note": "The code violates the statement for names that every object has, values with commas in their text, hashes, and tests that already have values; each has a witness."
  },
  {
   "property": "C147",
   "status": "partial",
   "theorems": [
    "Verif.Helpers.C147_elements_partial",
    "Verif.Helpers.C147_raises_partial",
    "Verif.Helpers.C147_sizes",
    "Verif.Helpers.C147_factor",
    "Verif.Helpers.C147_lost_violated",
    "Verif.Helpers.C147_zero_violated",
    "Verif.Helpers.C147_unseen",
    "Verif.Helpers.C147_unchanged",
    "Verif.Helpers.C147_through"
   ],
   "note": "Exceptions of the iterator: proved that they are raised and that a prefix is given; the code loses elements (C147_lost_violated). Sizes of zero are excluded (C147_zero_violated)."
  },
  {
   "property": "C148",
   "status": "partial",
   "theorems": [
    "Verif.Serve.C148_authenticated",
    "Verif.Serve.C148_open",
    "Verif.Serve.C148_closed_partial",
    "Verif.Serve.C148_race_violated"
   ],
   "note": "After closing: proved for all connections but one that is being accepted at that time, for which the code violates the statement (C148_race_violated)."
  },
  {
   "property": "C149",
   "status": "partial",
   "theorems": [
    "Verif.Skel.C149_kept",
    "Verif.Skel.C149_created",
    "Verif.Skel.C149_refused",
    "Verif.Skel.C149_name",
    "Verif.Skel.C149_domain",
    "Verif.Skel.C149_domain_chars",
    "Verif.Skel.C149_newline_violated",
    "Verif.Skel.C149_potfiles_violated"
   ],
   "note": "everything proved but for the files listed for translation, which are not there, and names that end with a newline (violations)"
  },
  {
   "property": "C15",
   "status": "proved",
   "theorems": [
    "Verif.RFC822.C15_parse",
    "Verif.RFC822.C15_error_iff",
    "Verif.RFC822.C15_origins"
   ],
   "note": "Parser refined to a paragraph specification; errors characterised exactly."
  },
  {
   "property": "C150",
   "status": "partial",
   "theorems": [
    "Verif.Dump.C150_json",
    "Verif.Dump.C150_same",
    "Verif.Dump.C150_exit_partial",
    "Verif.Dump.C150_traceback_violated"
   ],
   "note": "everything proved but for input that cannot be decoded and things that cannot be shown: these end with a traceback (violation)"
  },
  {
   "property": "C151",
   "status": "partial",
   "theorems": [
    "Verif.Boot.C151_once_partial",
    "Verif.Boot.C151_interrupted",
    "Verif.Boot.C151_others",
    "Verif.Boot.C151_new_violated",
    "Verif.Boot.C151_fail_violated",
    "Verif.Boot.C151_callback_violated",
    "Verif.Boot.C151_new_partial",
    "Verif.Boot.C151_boots_partial",
    "Verif.Boot.C151_files",
    "Verif.Boot.C151_snappy_violated"
   ],
   "note": "proved over any number of boots, without exceptions in run_job, and where new sessions are made only when the application is not to be started at boot; new sessions otherwise, exceptions, a missing callback and the one file of the Snappy strategy violate the statement (see DESIGN.md)"
  },
  {
   "property": "C16",
   "status": "partial",
   "theorems": [
    "Verif.Resource.C16_sandbox_partial",
    "Verif.Resource.C16_accepts_iff_partial",
    "Verif.Resource.C16_violated"
   ],
   "note": "The full claim is false: keyword arguments and other nested nodes are not visited (C16_violated gives an accepted expression). The partial theorems characterise exactly what the validator does check."
  },
  {
   "property": "C17",
   "status": "proved",
   "theorems": [
    "Verif.Resource.C17_evaluate_iff",
    "Verif.Resource.C17_evaluate_mono"
   ],
   "note": "The compiled lambda is an arbitrary function."
  },
  {
   "property": "C18",
   "status": "proved",
   "theorems": [
    "Verif.Resource.C18_program"
   ],
   "note": ""
  },
  {
   "property": "C19",
   "status": "partial",
   "theorems": [
    "Verif.Suspend.C19_results_partial",
    "Verif.Suspend.C19_C20_cycles_succeed",
    "Verif.Suspend.C19_hollow_violated",
    "Verif.Suspend.C19_history_violated",
    "Verif.Suspend.C19_result_violated",
    "Verif.ResumeJson.C19_result_partial",
    "Verif.ResumeJson.C19_result_needs",
    "Verif.ResumeJson.C19_duration_violated",
    "Verif.ResumeJson.C19_comments_violated",
    "Verif.ResumeJson.C19_outside_violated",
    "Verif.ResumeJson.C19_shown",
    "Verif.ResumeJson.C19_unchanged",
    "Verif.SuspendJson.C19_json_partial",
    "Verif.SuspendJson.C19_json_object"
   ],
   "note": "Proved for every reachable session to which no hollow result was reported, any number of cycles, generated jobs and siblings included; resuming is shown to return normally. C19_json_partial states it for the whole JSON document that is written and validated, for results that are saved without loss (float durations, no escape sequences in comments, log files in the session directory), so the Readable hypothesis of the tree-level theorems is discharged. Violated when a hollow result follows a real one (three witnesses), and for other results (duration, comments, outside witnesses). JSON text, UTF-8 and gzip are not modelled."
  },
  {
   "property": "C20",
   "status": "partial",
   "theorems": [
    "Verif.Suspend.C20_selection_partial",
    "Verif.Suspend.C19_C20_cycles_succeed",
    "Verif.Suspend.C20_desired_violated",
    "Verif.Suspend.C20_run_list_violated",
    "Verif.SuspendJson.C19_json_partial"
   ],
   "note": "Run list and mandatory list unchanged after any number of cycles when the desired list starts with the mandatory jobs; the desired list has the same members but gains a copy of the mandatory jobs per cycle (violation witness), and a selection made without mandatory jobs gains them (violation witness)."
  },
  {
   "property": "C21",
   "status": "partial",
   "theorems": [
    "Verif.Storage.C21_load_complete",
    "Verif.Storage.C21_load_ok",
    "Verif.Storage.C21_process_crash",
    "Verif.Storage.C21_checkpoint_crash",
    "Verif.Storage.C21_power_partial",
    "Verif.Storage.C21_durable",
    "Verif.Storage.C21_power_violated"
   ],
   "note": "Process crashes: proved for every crash point, fault pattern and chunking. Machine failures (stronger than the statement): proved when flushing the file does not fail, violated otherwise."
  },
  {
   "property": "C22",
   "status": "partial",
   "theorems": [
    "Verif.Storage.C22_stored_partial",
    "Verif.Storage.C22_lock_cleared",
    "Verif.Storage.C22_recovers",
    "Verif.Storage.C22_failures_surface_partial",
    "Verif.Storage.C22_rename_violated",
    "Verif.Storage.C22_fsync_violated",
    "Verif.Storage.C22_write_error_hidden"
   ],
   "note": "Violated: a failing rename or flush is swallowed and checkpoint() returns normally. Everything else proved for all fault patterns."
  },
  {
   "property": "C23",
   "status": "partial",
   "theorems": [
    "Verif.ResumeJson.C23_json_partial",
    "Verif.ResumeJson.C23_envelope_partial",
    "Verif.ResumeJson.C23_version",
    "Verif.ResumeJson.C23_checksum",
    "Verif.ResumeJson.C23_null_violated",
    "Verif.ResumeJson.C23_location_violated",
    "Verif.ResumeJson.C23_log_violated",
    "Verif.ResumeJson.C23_clash_violated",
    "Verif.ResumeJson.C23_program_violated",
    "Verif.ResumeJson.C23_envelope_violated",
    "Verif.ResumeJson.C23_undocumented",
    "Verif.Suspend.C23_results_terminate",
    "Verif.ResumeJson.C23_result_exact",
    "Verif.ResumeJson.C23_metadata_exact",
    "Verif.ResumeJson.C23_accepted",
    "Verif.ResumeJson.C23_unread"
   ],
   "note": "Every JSON value in formats 1-6: usable session or documented exception, given a location, readable logs, no null result list, no clashing/uncompilable jobs; each proviso shown necessary by a concrete document."
  },
  {
   "property": "C24",
   "status": "partial",
   "theorems": [
    "Verif.Pod.C24_round_trip",
    "Verif.Pod.C24_hollow_partial",
    "Verif.Pod.C24_violated",
    "Verif.Pod.C24_accepts"
   ],
   "note": "Round trip proved in full. Hollowness: an explicitly set empty io_log counts as nothing, so 'exactly when nothing was set' fails for it (witness)."
  },
  {
   "property": "C25",
   "status": "partial",
   "theorems": [
    "Verif.Pod.C25_history_partial",
    "Verif.Pod.C25_history_distinct",
    "Verif.Pod.C25_violated"
   ],
   "note": "A result equal to the current one is not recorded again; exact characterisation proved, and the full claim for sequences without immediate repetition."
  },
  {
   "property": "C26",
   "status": "proved",
   "theorems": [
    "Verif.IOLog.C26_io_log",
    "Verif.IOLog.C26_injective",
    "Verif.IOLog.C26_hex_case"
   ],
   "note": "Delay kept as its JSON number token; float repr round trip is trusted."
  },
  {
   "property": "C27",
   "status": "partial",
   "theorems": [
    "Verif.Pod.C27_assign",
    "Verif.Pod.C27_notifications",
    "Verif.Pod.C27_checks",
    "Verif.Pod.C27_read_only",
    "Verif.Pod.C27_unique_violated"
   ],
   "note": "Everything except unique: that filter accepts every hashable tuple (with duplicates) and refuses every non-empty list."
  },
  {
   "property": "C28",
   "status": "partial",
   "theorems": [
    "Verif.Words.C28_round_trip",
    "Verif.Words.C28_closed_returns",
    "Verif.Words.C28_open_at_start_raises",
    "Verif.Words.C28_open_later_diverges",
    "Verif.Words.C28_open_after_quote_returns",
    "Verif.Words.C28_violated",
    "Verif.Words.C28_terminates_partial"
   ],
   "note": "Round trip proved for every arrangement. Termination fails: an open quote at the start raises AssertionError, a later one loops for ever; exact characterisation proved for NUL-free texts."
  },
  {
   "property": "C29",
   "status": "partial",
   "theorems": [
    "Verif.Words.C29_override",
    "Verif.Words.C29_override_only",
    "Verif.Words.C29_override_raises_partial",
    "Verif.Words.C29_include",
    "Verif.Words.C29_include_only",
    "Verif.Words.C29_include_raises_partial",
    "Verif.Words.C29_open_quote_raises",
    "Verif.Words.C29_violated"
   ],
   "note": "Both statements read back, converse proved. 'Never an exception' fails for an open quote at the start (AssertionError) and for patterns on which sre_parse overflows; nothing else raises."
  },
  {
   "property": "C30",
   "status": "partial",
   "theorems": [
    "Verif.Pattern.C30_plain",
    "Verif.Pattern.C30_fixed_partial",
    "Verif.Pattern.C30_pattern_partial",
    "Verif.Pattern.C30_own_namespace_partial",
    "Verif.Pattern.C30_qualified_partial",
    "Verif.Pattern.C30_escape_violated",
    "Verif.Pattern.C30_alternation_violated",
    "Verif.Pattern.C30_dollar_violated",
    "Verif.Pattern.C30_namespace_violated",
    "Verif.Pattern.C30_grammar",
    "Verif.Pattern.C30_unambiguous"
   ],
   "note": "Holds for plain text and for patterns with a single top-level branch and no inner anchors, for ids of the own namespace. Proved false for escaped literals, top-level alternation, an escaped trailing dollar sign and dots in the namespace."
  },
  {
   "property": "C31",
   "status": "partial",
   "theorems": [
    "Verif.Overrides.C31_effective_partial",
    "Verif.Overrides.C31_last_wins_partial",
    "Verif.Overrides.C31_idempotent",
    "Verif.Overrides.C31_bulk",
    "Verif.Overrides.C31_bulk_idempotent",
    "Verif.Overrides.C31_sorted_violated",
    "Verif.Overrides.C31_plans_violated",
    "Verif.Overrides.C31_nested_violated",
    "Verif.Overrides.C31_bulk_raised",
    "Verif.Overrides.C31_seen_partial"
   ],
   "note": "Idempotence and bulk/single agreement for every input; exact precedence rule proved. Last statement wins only among statements with the same pattern; proved false across patterns, across plans and for category overrides of nested parts."
  },
  {
   "property": "C32",
   "status": "partial",
   "theorems": [
    "Verif.Overrides.C32_agree_iff_partial",
    "Verif.Overrides.C32_other_partial",
    "Verif.Overrides.C32_violated",
    "Verif.Overrides.C32_invalid_violated",
    "Verif.Overrides.C32_map"
   ],
   "note": "The functions agree exactly when the first and last matching statement name the same category; proved false in general."
  },
  {
   "property": "C33",
   "status": "partial",
   "theorems": [
    "Verif.Checksum.C33_same",
    "Verif.Checksum.C33_iff_partial",
    "Verif.Checksum.C33_namespace_violated",
    "Verif.Checksum.C33_namespace_ignored_violated"
   ],
   "note": "The pre-image of the hash determines the unit and conversely, for units without a field called namespace; with such a field two different units share a checksum. Collisions of SHA-256 itself are outside the model."
  },
  {
   "property": "C34",
   "status": "proved",
   "theorems": [
    "Verif.Pattern.C34_idempotent",
    "Verif.Pattern.C34_qualified",
    "Verif.Pattern.C34_result",
    "Verif.Pattern.C34_injective"
   ],
   "note": "All identifiers and namespaces."
  },
  {
   "property": "C35",
   "status": "partial",
   "theorems": [
    "Verif.Template.C35_instantiate",
    "Verif.Template.C35_succeeds",
    "Verif.Template.C35_content",
    "Verif.Template.C35_lookups_partial",
    "Verif.Template.C35_lookups_violated",
    "Verif.Template.C35_index_violated",
    "Verif.Template.C35_fields"
   ],
   "note": "One unit per accepted resource, numbered, with exactly the mentioned attributes. Violated: attribute/index lookups and nested format specifications lose their parameter; the number is part of the content even when not mentioned. The analysis done by jinja2 is a parameter."
  },
  {
   "property": "C36",
   "status": "partial",
   "theorems": [
    "Verif.Ctrl.C36_choice",
    "Verif.Ctrl.C36_best",
    "Verif.Ctrl.C36_ordinary",
    "Verif.Ctrl.C36_root_partial",
    "Verif.Ctrl.C36_root_session",
    "Verif.Ctrl.C36_root_linux",
    "Verif.Ctrl.C36_qml_violated"
   ],
   "note": "Choice is exact for arbitrary scores; ordinary jobs never elevated; root jobs are elevated in sessions of a non-root process. Violated: the runner's own list gives a qml job that asks for root to the unprivileged qml controller."
  },
  {
   "property": "C37",
   "status": "partial",
   "theorems": [
    "Verif.Ctrl.C37_values_partial",
    "Verif.Ctrl.C37_locale",
    "Verif.Ctrl.C37_minimal_partial",
    "Verif.Ctrl.C37_locale_violated",
    "Verif.Ctrl.C37_minimal_violated",
    "Verif.Launcher.C37_env_program"
   ],
   "note": "Every variable except LANGUAGE and LC_* has its intended value, the effective locale is neutral; violated: LANGUAGE/LC_* of the configuration or base, and unchanged LANG, environ settings and snap variables are mentioned."
  },
  {
   "property": "C38",
   "status": "partial",
   "theorems": [
    "Verif.Runner.C38_exact",
    "Verif.Runner.C38_partial",
    "Verif.Runner.C38_pass_sound",
    "Verif.Runner.C38_crash_violated",
    "Verif.Runner.C38_permission",
    "Verif.Runner.C38_dry",
    "Verif.Runner.C38_dry_runs",
    "Verif.Runner.C38_undecided",
    "Verif.Runner.C38_unknown",
    "Verif.Runner.C38_qml"
   ],
   "note": "Full statement false: a PermissionError while the command is started is swallowed and the result says crash although no program ran (C38_crash_violated, C38_permission). C38_exact gives the outcome in all circumstances, C38_partial the stated table when nothing is swallowed. Dry runs, verification, unknown plugins and qml jobs are covered for all inputs."
  },
  {
   "property": "C39",
   "status": "partial",
   "theorems": [
    "Verif.Config.C39_valid",
    "Verif.Config.C39_kind",
    "Verif.Config.C39_read",
    "Verif.Config.C39_raises_exact",
    "Verif.Config.C39_raise_partial",
    "Verif.Config.C39_collision_violated",
    "Verif.Config.C39_raise_violated",
    "Verif.Config.C39_syntax_violated",
    "Verif.Config.C39_truth",
    "Verif.Config.C39_problems",
    "Verif.Config.C39_assign",
    "Verif.Config.C39_delete"
   ],
   "note": "Validity proved for every history when no two variables share their mangled name; which reads raise is characterised exactly: text variables never do from read_string, numbers, booleans and lists do on bad text, and read() raises on syntax errors. Two variables can share storage (violated)."
  },
  {
   "property": "C40",
   "status": "partial",
   "theorems": [
    "Verif.Cache.C40_history",
    "Verif.Cache.C40_once",
    "Verif.Cache.C40_same",
    "Verif.Cache.C40_computed",
    "Verif.Cache.C40_load",
    "Verif.Cache.C40_crash_partial",
    "Verif.Cache.C40_crash_violated",
    "Verif.Cache.C40_no_log_violated",
    "Verif.Cache.C40_once_violated",
    "Verif.Cache.C40_loaded"
   ],
   "note": "Memoisation proved for all histories of get/restart/outside changes. Crash tolerance is false: a crash between the creation of the entry and its last byte makes every later load raise (C40_crash_violated); the remaining crash points are C40_crash_partial. json is a parameter with a stated contract, for which exists_good gives an instance."
  },
  {
   "property": "C41",
   "status": "partial",
   "theorems": [
    "Verif.Assistant.C41_selected",
    "Verif.Assistant.C41_pair_partial",
    "Verif.Assistant.C41_boot",
    "Verif.Assistant.C41_final_partial",
    "Verif.Assistant.C41_live",
    "Verif.Assistant.C41_pair_violated",
    "Verif.Assistant.C41_final_violated",
    "Verif.Assistant.C41_retry_violated",
    "Verif.Assistant.C41_marked",
    "Verif.Assistant.C41_once",
    "Verif.Assistant.C41_resumed"
   ],
   "note": "No job runs before a selection (full). Pairing holds between calls of run_job outside the three refuted cases: finish_bootstrap or hand_pick_jobs re-allow run_job without a report, finalize_session is a no-op when the session is not flagged incomplete, and a finalize whose checkpoint fails leaves run_job allowed."
  },
  {
   "property": "C42",
   "status": "partial",
   "theorems": [
    "Verif.Select.C42_members_partial",
    "Verif.Select.C42_useless",
    "Verif.Select.C42_start",
    "Verif.Select.C42_retry_exact",
    "Verif.Select.C42_retry_violated"
   ],
   "note": "Members, errors and acceptance by the session are proved for a first attempt; after a ValueError a corrected call selects the plainbox providers again and no session can be started (refuted in general)."
  },
  {
   "property": "C43",
   "status": "partial",
   "theorems": [
    "Verif.Signal.C43_fire",
    "Verif.Signal.C43_fuel",
    "Verif.Signal.C43_connect",
    "Verif.Signal.C43_disconnect",
    "Verif.Signal.C43_undo",
    "Verif.Signal.C43_undo_violated",
    "Verif.Signal.C43_remove_partial",
    "Verif.Signal.C43_remove_exact",
    "Verif.Signal.C43_remove_violated",
    "Verif.Signal.C43_remove_pass_violated",
    "Verif.Signal.C43_first_violated",
    "Verif.Signal.C43_args"
   ],
   "note": "fire, connect and disconnect are proved for all histories and re-entrant listeners. remove_signals_listeners walks a list it shortens: nothing is left if and only if no method had two connections (proved both ways); with pass_signal it raises ValueError. disconnect removes the oldest equal connection, so undoing may change the order. A bound method as first responder is not tracked."
  },
  {
   "property": "C44",
   "status": "partial",
   "theorems": [
    "Verif.Extcmd.C44_delivery_partial",
    "Verif.Extcmd.C44_order",
    "Verif.Extcmd.C44_prefix",
    "Verif.Extcmd.C44_progress",
    "Verif.Extcmd.C44_terminates",
    "Verif.Extcmd.C44_completes",
    "Verif.Extcmd.C44_chain",
    "Verif.Extcmd.C44_transform_partial",
    "Verif.Extcmd.C44_raise_violated",
    "Verif.Extcmd.C44_late_violated",
    "Verif.Extcmd.C44_sudo_violated",
    "Verif.Extcmd.C44_transform_violated"
   ],
   "note": "Proved for all schedules, contents and delegates that do not raise when told about output: exact delivery, order, no deadlock, termination. Violated: a delegate that raises kills the worker thread, CTRL-C while joining, the sudo controller (communicate steals output, signals reported with on_end), Transform swallows on_interrupt."
  },
  {
   "property": "C45",
   "status": "partial",
   "theorems": [
    "Verif.Launcher.C45_known",
    "Verif.Launcher.C45_unknown",
    "Verif.Launcher.C45_environment",
    "Verif.Launcher.C45_end_to_end",
    "Verif.Launcher.C45_dash_violated"
   ],
   "note": "Proved for all jobs, checksums and environments whose names contain no = and do not begin with a dash; for the latter the property is false (C45_dash_violated). Partial because of these names and because argparse is modelled for the options the launcher declares."
  },
  {
   "property": "C46",
   "status": "partial",
   "theorems": [
    "Verif.Device.C46_once",
    "Verif.Device.C46_present_partial",
    "Verif.Device.C46_twice",
    "Verif.Device.C46_remove",
    "Verif.Device.C46_remove_partial",
    "Verif.Device.C46_run_violated",
    "Verif.Device.C46_unrecorded",
    "Verif.Device.C46_sibling_violated",
    "Verif.Device.C46_refused_violated",
    "Verif.Device.C46_generated_violated",
    "Verif.Device.C46_namespace_violated"
   ],
   "note": "Proved for units the application added itself. Refuted for siblings and generated jobs (not recorded, cannot be removed), for run-list jobs, for adds that clash (checksum stays recorded for ever), for generated units that are not jobs (duplicated) and for equal units of different namespaces."
  },
  {
   "property": "C47",
   "status": "partial",
   "theorems": [
    "Verif.Stats.C47_estimated_duration_partial",
    "Verif.Stats.C47_violated",
    "Verif.Stats.C47_duration_text"
   ],
   "note": "The code lets a manual job without a command lack an estimate and still reports a figure; everything else is proved."
  },
  {
   "property": "C48",
   "status": "partial",
   "theorems": [
    "Verif.Runner.C48_collision",
    "Verif.Runner.C48_partial",
    "Verif.Runner.C48_inside",
    "Verif.Runner.C48_violated"
   ],
   "note": "Full statement false: ids that differ only in characters outside letters, digits, dot, dash and underscore share files (C48_violated). C48_collision says exactly which ids collide, C48_partial that no others do."
  },
  {
   "property": "C49",
   "status": "partial",
   "theorems": [
    "Verif.SessionList.C49_listing_partial",
    "Verif.SessionList.C49_errors",
    "Verif.SessionList.C49_violated"
   ],
   "note": "A dangling symbolic link in the directory makes the listing empty; proved when every entry can be examined."
  },
  {
   "property": "C50",
   "status": "proved",
   "theorems": [
    "Verif.RFC822.C50_resource_output"
   ],
   "note": "Text of the job output as lines; decoding of the I/O log is not modelled."
  },
  {
   "property": "C51",
   "status": "proved",
   "theorems": [
    "Verif.Origin.C51_strict_order",
    "Verif.Origin.C51_comparison_raises",
    "Verif.Origin.C51_shift",
    "Verif.Origin.C51_line"
   ],
   "note": "For origins with line numbers; comparisons with whole-file origins raise exactly as C51_comparison_raises says."
  },
  {
   "property": "C52",
   "status": "partial",
   "theorems": [
    "Verif.Restart.C52_quote",
    "Verif.Restart.C52_xdg_exact",
    "Verif.Restart.C52_xdg_partial",
    "Verif.Restart.C52_xdg_percent_violated",
    "Verif.Restart.C52_xdg_terminal_violated",
    "Verif.Restart.C52_snappy_exact",
    "Verif.Restart.C52_snappy_violated",
    "Verif.Restart.C52_respawn_violated"
   ],
   "note": "The command made by run_job splits into all arguments again, proved for all argument lists. The desktop file keeps them when there is no percent sign (ValueError) and no newline (a tab is added) and no terminal (;$SHELL is glued to the last argument). The snappy unit loses all arguments, the respawn file runs them together."
  },
  {
   "property": "C53",
   "status": "proved",
   "theorems": [
    "Verif.Pod.C53_construct"
   ],
   "note": ""
  },
  {
   "property": "C54",
   "status": "partial",
   "theorems": [
    "Verif.Template.C54_provider_partial",
    "Verif.Template.C54_template_violated",
    "Verif.Template.C54_assertion_violated",
    "Verif.Template.C54_unknown"
   ],
   "note": "Holds for unit, job and category; templates that make templates get swapped arguments and four unit types raise AssertionError."
  },
  {
   "property": "C55",
   "status": "proved",
   "theorems": [
    "Verif.Ctrl.C55_environment"
   ],
   "note": "Pointwise over all variable names; PATH splitting and joining included."
  },
  {
   "property": "C56",
   "status": "proved",
   "theorems": [
    "Verif.Resource.C56_import_line",
    "Verif.Resource.C56_resolution",
    "Verif.Resource.C56_unique",
    "Verif.Resource.C56_imported"
   ],
   "note": ""
  },
  {
   "property": "C57",
   "status": "partial",
   "theorems": [
    "Verif.Extcmd.C57_partial",
    "Verif.Extcmd.C57_chunked_violated",
    "Verif.Extcmd.C57_ui_violated",
    "Verif.Extcmd.C44_sudo_violated"
   ],
   "note": "Proved for jobs without use-chunked-io and delegates that do not raise on output. With use-chunked-io log and files stay empty whatever is written; a user interface that raises loses the rest; the sudo controller loses output to communicate."
  },
  {
   "property": "C58",
   "status": "partial",
   "theorems": [
    "Verif.Config.C58_partial",
    "Verif.Config.C58_percent_violated",
    "Verif.Config.C58_double_violated",
    "Verif.Config.C58_list_violated",
    "Verif.Config.C58_unset_violated",
    "Verif.Config.C58_default_violated",
    "Verif.IniText.C106_config_partial"
   ],
   "note": "Proved at the level of the parser's data for values without percent signs, list items without separators or quotes, and unset variables without a default; all the other values are shown to be lost or to raise. The text format is covered by C106_config_partial, which has conditions on the lines of values."
  },
  {
   "property": "C59",
   "status": "partial",
   "theorems": [
    "Verif.Assistant.C59_partial",
    "Verif.Assistant.C59_nested",
    "Verif.Assistant.C59_sso",
    "Verif.Assistant.C59_plan_violated",
    "Verif.Assistant.C59_callback_violated",
    "Verif.Assistant.C59_noreturn_violated"
   ],
   "note": "Proved for calls other than the refuted cases: get_mandatory_jobs/get_participating_categories without a test plan, autorestart job without a restart callback, noreturn bootstrap job refused by a nested expectation; get_ubuntu_sso_oauth_transport is never allowed."
  },
  {
   "property": "C60",
   "status": "partial",
   "theorems": [
    "Verif.Device.C60_partial",
    "Verif.Device.C60_violated",
    "Verif.Device.C60_witness"
   ],
   "note": "A successful call adds everything; a refused unit leaves the provider and the units before it, and the call cannot be repeated."
  },
  {
   "property": "C61",
   "status": "partial",
   "theorems": [
    "Verif.Device.C61_partial",
    "Verif.Device.C61_violated"
   ],
   "note": "Proved when no two units but jobs share an id; refuted otherwise."
  },
  {
   "property": "C62",
   "status": "partial",
   "theorems": [
    "Verif.Export.C62_options",
    "Verif.Export.C62_refused",
    "Verif.Export.C62_results",
    "Verif.Export.C62_fields_partial",
    "Verif.Export.C62_log",
    "Verif.Export.C62_attachment",
    "Verif.Export.C62_parts",
    "Verif.Export.C62_categories",
    "Verif.Export.C62_violated"
   ],
   "note": "Violated: the certification status of attachment jobs and zero durations are left out. Everything else is proved for every session and option list."
  },
  {
   "property": "C63",
   "status": "partial",
   "theorems": [
    "Verif.Export.C63_members",
    "Verif.Export.C63_clash",
    "Verif.Export.C63_distinct_partial",
    "Verif.Export.C63_violated"
   ],
   "note": "Violated when a job id is another one followed by .stderr; C63_clash says exactly when names are shared."
  },
  {
   "property": "C64",
   "status": "partial",
   "theorems": [
    "Verif.Plugins.C64_files",
    "Verif.Plugins.C64_complete_partial",
    "Verif.Plugins.C64_order",
    "Verif.Plugins.C64_again",
    "Verif.Plugins.C64_entry_points_partial",
    "Verif.Plugins.C64_violated",
    "Verif.Plugins.C64_lazy_partial",
    "Verif.Plugins.C64_lazy_load_partial",
    "Verif.Plugins.C64_lazy_violated",
    "Verif.Plugins.C64_fake",
    "Verif.Plugins.C64_entry_points_loaded",
    "Verif.Plugins.C64_lazy_again"
   ],
   "note": "Proved as long as loading raises no unexpected exception; violated otherwise (a second load hides the failure), and lazy collections repeat problems."
  },
  {
   "property": "C65",
   "status": "partial",
   "theorems": [
    "Verif.Content.C65_order",
    "Verif.Content.C65_load_partial",
    "Verif.Content.C65_isolation_partial",
    "Verif.Content.C65_again_partial",
    "Verif.Content.C65_classifiable",
    "Verif.Content.C65_path_violated",
    "Verif.Content.C65_raises_violated",
    "Verif.Content.C65_unclaimed_violated"
   ],
   "note": "Full result when every file can be classified (C65_classifiable: readable files with ordinary names). The map of paths does not list the units stored in a file; files no plug-in claims get no unit; a file that cannot be classified makes every access raise and repeat units."
  },
  {
   "property": "C66",
   "status": "partial",
   "theorems": [
    "Verif.Classify.C66_base_partial",
    "Verif.Classify.C66_source",
    "Verif.Classify.C66_data",
    "Verif.Classify.C66_exec",
    "Verif.Classify.C66_total",
    "Verif.Classify.C66_vcs",
    "Verif.Classify.C66_sibling_violated",
    "Verif.Classify.C66_i18n_violated",
    "Verif.Classify.C66_txt_in_violated",
    "Verif.Classify.C66_loop_violated"
   ],
   "note": "The roles are characterised; the base contains the file unless a directory merely shares the beginning of its name (sibling_violated) or the file is a compiled translation (i18n_violated). The extension .txt.in never matches, and a name beginning with two slashes outside the base makes the classifier run for ever."
  },
  {
   "property": "C67",
   "status": "partial",
   "theorems": [
    "Verif.Definition.C67_iqn",
    "Verif.Definition.C67_name",
    "Verif.Definition.C67_version",
    "Verif.Definition.C67_domain",
    "Verif.Definition.C67_accepted",
    "Verif.Definition.C67_fields",
    "Verif.Definition.C67_secure_partial",
    "Verif.Definition.C67_search",
    "Verif.Definition.C67_name_violated",
    "Verif.Definition.C67_snap_violated",
    "Verif.Definition.C67_raises_violated"
   ],
   "note": "Accepted definitions, and the attributes of the provider, are characterised exactly. With an explicit namespace any text may follow an identifier in the name; with SNAP in the environment the secure directories are those below it; some faulty definitions raise something else than PlugInError."
  },
  {
   "property": "C68",
   "status": "partial",
   "theorems": [
    "Verif.Dialogue.C68_total",
    "Verif.Dialogue.C68_unambiguous",
    "Verif.Dialogue.C68_answers",
    "Verif.Dialogue.C68_recorded",
    "Verif.Dialogue.C68_ends",
    "Verif.Dialogue.C68_outcome",
    "Verif.Dialogue.C68_decided",
    "Verif.Dialogue.C68_last_run",
    "Verif.Dialogue.C68_comments_partial",
    "Verif.Dialogue.C68_rerun_violated",
    "Verif.Dialogue.C68_explicit_fail_violated",
    "Verif.Dialogue.C68_eof_violated",
    "Verif.Dialogue.C68_own_comments_violated"
   ],
   "note": "For every list of answers the dialogue ends; what happens is what the answers say; the recorded result is determined by what happened (outcome by the last decision, code and log by the last run, comments entered before running or after the last run are kept). The code violates the rest: comments entered after a run that is repeated are lost, explicit-fail takes an empty comment and the suggested outcome asks for none, the end of input at a comment raises EOFError, comments of the run itself are replaced. Missing: interruption, exceptions of the runner."
  },
  {
   "property": "C69",
   "status": "partial",
   "theorems": [
    "Verif.Session.C69_done",
    "Verif.Session.C69_once",
    "Verif.Session.C69_ready",
    "Verif.Session.C69_ends",
    "Verif.Progress.C69_ratio_partial",
    "Verif.Progress.C69_ratio_bounds",
    "Verif.Progress.C69_ratio_missing",
    "Verif.Progress.C69_ratio_violated"
   ],
   "note": "The loop with re-selection on added jobs: when it returns every job of the run list and every selected job that can be scheduled, including those added meanwhile, has an outcome; none was started twice; dependencies come first in every round; it ends if finitely many ids can be made. The ratio is truthful when every job has a positive estimate; the code violates the rest (jobs without estimate are not counted as done, zero estimates give 0 for a finished run, negative ones leave the interval). Missing: exceptions end the loop early, results without outcome are excluded by hypothesis."
  },
  {
   "property": "C70",
   "status": "partial",
   "theorems": [
    "Verif.Packaging.C70_os_release",
    "Verif.Packaging.C70_applies",
    "Verif.Packaging.C70_relations",
    "Verif.Packaging.C70_run_partial",
    "Verif.Packaging.C70_refused",
    "Verif.Packaging.C70_last_resort_violated",
    "Verif.Packaging.C70_like_violated",
    "Verif.Packaging.C70_comment_violated",
    "Verif.Packaging.C70_version_violated",
    "Verif.Packaging.C70_twice_violated"
   ],
   "note": "Proved: os-release files without comments are read back; a unit contributes iff it names the system (and version) or, without version, the system in ID_LIKE; after a first run the variables of each marked package mention exactly what the contributing units mention, other files are untouched; when a run is refused. Violated (witnesses): units for the similar system contribute beside more specific ones; an ID_LIKE of several words is never matched; a comment in os-release raises ValueError; the documented field os-version is not read; a second run repeats the lines."
  },
  {
   "property": "C71",
   "status": "partial",
   "theorems": [
    "Verif.Duration.C71_duration",
    "Verif.Duration.C71_written",
    "Verif.Duration.C71_totals",
    "Verif.Duration.C71_validated",
    "Verif.Duration.C71_plan",
    "Verif.Duration.C71_time_left",
    "Verif.Duration.C71_plan_violated",
    "Verif.Duration.C71_blank_violated",
    "Verif.Duration.C71_zero_violated"
   ],
   "note": "Durations, validation, totals and time left are characterised for all texts and run lists. Partial because the code disagrees with the statement: blank texts are zero, a known total of zero is said to be unknown, and a bad text ends the validation of a test plan with an exception (all three proved). float and rounding are outside the model."
  },
  {
   "property": "C72",
   "status": "partial",
   "theorems": [
    "Verif.Validate.C72_valid_partial",
    "Verif.Validate.C72_strict",
    "Verif.Validate.C72_resolves_partial",
    "Verif.Validate.C72_cycle_violated",
    "Verif.Validate.C72_installed_crash_violated",
    "Verif.Validate.C72_installed_valid_violated",
    "Verif.Validate.C72_repeated_violated"
   ],
   "note": "Success of validation is characterised exactly if no other provider of the name is installed, and then dependencies resolve up to cycles. The code disagrees otherwise: an installed provider of the same name replaces the one under test in the context, cycles pass (both proved). Validators that do not look at other units are arbitrary issues."
  },
  {
   "property": "C73",
   "status": "partial",
   "theorems": [
    "Verif.Install.C73_installed_partial",
    "Verif.Install.C73_same_partial",
    "Verif.Install.C73_layout",
    "Verif.Install.C73_found",
    "Verif.Install.C73_files_partial",
    "Verif.Install.C73_files_violated",
    "Verif.Install.C73_empty_bin_violated",
    "Verif.Install.C73_empty_violated",
    "Verif.Install.C73_simple_name_violated",
    "Verif.Install.C73_percent_violated",
    "Verif.Install.C73_double_percent_violated",
    "Verif.Install.C73_description_violated",
    "Verif.Install.C73_again_violated",
    "Verif.Install.C73_same_name_violated",
    "Verif.Install.C73_locale_violated",
    "Verif.Install.C73_shared_locale_violated",
    "Verif.Install.C73_other_provider_violated",
    "Verif.Install.C73_text_partial",
    "Verif.Install.C73_text_violated"
   ],
   "note": "Proved for every file system, definition, layout, prefix and root under the conditions Fit and Suits (and Texts, for the text of the provider file), each of which is shown to be needed by a violation or is a condition on how paths are written. Missing: links and permissions."
  },
  {
   "property": "C74",
   "status": "partial",
   "theorems": [
    "Verif.Transport.C74_stdout_partial",
    "Verif.Transport.C74_stdout_short",
    "Verif.Transport.C74_stdout_violated",
    "Verif.Transport.C74_stream",
    "Verif.Transport.C74_other_encoding",
    "Verif.Transport.C74_encoding_violated",
    "Verif.Transport.C74_file",
    "Verif.Transport.C74_bytes_violated",
    "Verif.Transport.C74_submitted",
    "Verif.Transport.C74_submitted_file",
    "Verif.Transport.C74_upload",
    "Verif.Transport.C74_options"
   ],
   "note": "Proved for files, the stream transport, uploads, the submitted flag and options; printing is characterised exactly (unchanged iff buffer boundaries are character boundaries); violated for characters across buffers, other spellings of utf-8, and bytes given to the transports by plainbox run."
  },
  {
   "property": "C75",
   "status": "partial",
   "theorems": [
    "Verif.Sheet.C75_complete",
    "Verif.Sheet.C75_rows_partial",
    "Verif.Sheet.C75_once",
    "Verif.Sheet.C75_totals",
    "Verif.Sheet.C75_log",
    "Verif.Sheet.C75_cells",
    "Verif.Sheet.C75_attachments",
    "Verif.Sheet.C75_unknown_category_violated",
    "Verif.Sheet.C75_clash_violated",
    "Verif.Sheet.C75_binary_violated",
    "Verif.Sheet.C75_outcome_violated",
    "Verif.Sheet.C75_again_violated",
    "Verif.Sheet.C75_crash_violated",
    "Verif.Sheet.C75_local_violated"
   ],
   "note": "The exact condition for a report and all rows, totals and texts are proved; violated: reports that are not made, totals of a second report, statuses of categories with crashed or local jobs."
  },
  {
   "property": "C76",
   "status": "partial",
   "theorems": [
    "Verif.Remote.C76_one_at_a_time",
    "Verif.Remote.C76_results",
    "Verif.Remote.C76_own_partial",
    "Verif.Remote.C76_whats_up_partial",
    "Verif.Remote.C76_monitor_partial",
    "Verif.Remote.C76_session",
    "Verif.Remote.C76_own_violated",
    "Verif.Remote.C76_twice_violated",
    "Verif.Remote.C76_raised_violated",
    "Verif.Remote.C76_finalize_violated",
    "Verif.Remote.C76_idle_violated",
    "Verif.Remote.C76_resumed_violated",
    "Verif.Remote.C76_progress_violated",
    "Verif.Remote.C76_output",
    "Verif.Remote.C76_whole_violated",
    "Verif.Remote.C76_password"
   ],
   "note": "One job at a time, results only from records, a whole session and the output are proved for all histories; own results and progress for clients that use one generator at a time. Violated: generators advanced in turn, results collected twice, jobs that raise, sessions finalized while a job runs, resumed sessions, completed jobs in the progress, whole_output."
  },
  {
   "property": "C77",
   "status": "partial",
   "theorems": [
    "Verif.Narrow.C77_alternate",
    "Verif.Narrow.C77_filter",
    "Verif.Narrow.C77_mandatory_stay",
    "Verif.Narrow.C77_no_exception",
    "Verif.Narrow.C77_never_grows",
    "Verif.Narrow.C77_everything",
    "Verif.Narrow.C77_all_categories_partial",
    "Verif.Narrow.C77_categories_violated",
    "Verif.Narrow.C77_others_ignored",
    "Verif.Narrow.C77_iterator_partial",
    "Verif.Narrow.C77_iterator_violated",
    "Verif.Narrow.C77_restore",
    "Verif.Narrow.C77_no_plan_violated",
    "Verif.Narrow.C77_mandatory_partial",
    "Verif.Narrow.C77_mandatory_violated",
    "Verif.Narrow.C77_hand_pick",
    "Verif.Narrow.C77_plan",
    "Verif.Narrow.C77_unknown",
    "Verif.Narrow.C77_filter_iterator_partial"
   ],
   "note": "Everything holds as stated for containers; the code violates the statement for all participating categories when the plan overrides categories, for iterators, for mandatory jobs made during the bootstrap and without a test plan, so these have _partial and _violated theorems."
  },
  {
   "property": "C78",
   "status": "partial",
   "theorems": [
    "Verif.Life.C78_listing",
    "Verif.Life.C78_reopen_partial",
    "Verif.Life.C78_interrupted",
    "Verif.Life.C78_results_kept",
    "Verif.Life.C78_result_saved",
    "Verif.Life.C78_result_violated",
    "Verif.Life.C78_unfinished",
    "Verif.Life.C78_begun",
    "Verif.Life.C78_finished_partial",
    "Verif.Life.C78_stale_violated",
    "Verif.Life.C78_found_partial",
    "Verif.Life.C78_lost_violated",
    "Verif.Life.C78_empty_violated",
    "Verif.Life.C78_both_violated",
    "Verif.Life.C78_old",
    "Verif.Life.C78_delete"
   ],
   "note": "All clauses are proved for every history except where the code violates them: the result of an autorestart job that ended is replaced on resume, a listing left half-way revives a finalised session, and three kinds of sessions are in neither or both lists."
  },
  {
   "property": "C79",
   "status": "partial",
   "theorems": [
    "Verif.Brine.C79_roundtrip",
    "Verif.Brine.C79_prefix_free",
    "Verif.Brine.C79_plain",
    "Verif.Brine.C79_dumpable_partial",
    "Verif.Brine.C79_dumpable_of_dump",
    "Verif.Brine.C79_dumpable_violated",
    "Verif.Brine.C79_truncated_violated",
    "Verif.Brine.C79_messages",
    "Verif.Brine.C79_sent",
    "Verif.Brine.C79_closed"
   ],
   "note": "The code violates two parts: dumpable is true for texts with surrogates and for huge values that dump refuses, and load accepts truncated data. Everything else is proved for all values, fragmentations and failures."
  },
  {
   "property": "C80",
   "status": "partial",
   "theorems": [
    "Verif.Netref.C80_usable",
    "Verif.Netref.C80_alive",
    "Verif.Netref.C80_distinct",
    "Verif.Netref.C80_release_partial",
    "Verif.Netref.C80_release_violated",
    "Verif.Netref.C80_disconnect",
    "Verif.Netref.C80_attributes",
    "Verif.Netref.C80_exposed",
    "Verif.Netref.C80_private"
   ],
   "note": "Usability, identity, disconnect and attribute access proved in full; release is proved exactly (released iff no reference arrived while a proxy was alive) because _handle_del ignores the count (C80_release_violated)."
  },
  {
   "property": "C81",
   "status": "partial",
   "theorems": [
    "Verif.SendQueue.C81_order",
    "Verif.SendQueue.C81_complete",
    "Verif.SendQueue.C81_returns",
    "Verif.SendQueue.C81_drains",
    "Verif.SendQueue.C81_forgotten_violated",
    "Verif.SendQueue.C81_blame_violated"
   ],
   "note": "Order, completeness, freedom from waiting and draining proved for all interleavings; the last sentence of the statement fails when channel.send raises (C81_forgotten_violated, C81_blame_violated)."
  },
  {
   "property": "C82",
   "status": "partial",
   "theorems": [
    "Verif.Fields.C82_field",
    "Verif.Fields.C82_absent",
    "Verif.Fields.C82_marked",
    "Verif.Fields.C82_unmarked",
    "Verif.Fields.C82_translated",
    "Verif.Fields.C82_untranslated_partial",
    "Verif.Fields.C82_texts_partial",
    "Verif.Fields.C82_remembered",
    "Verif.Fields.C82_stable",
    "Verif.Fields.C82_untranslated_violated",
    "Verif.Fields.C82_default_violated",
    "Verif.Fields.C82_verbatim"
   ],
   "note": "Without translations the translated value is the value unless the newlines at the end decide how the text is cleaned up (a marked text of two indented lines keeps an indentation), and a missing summary is replaced by the identifier with parameters put in twice; both disagreements have a witness."
  },
  {
   "property": "C83",
   "status": "partial",
   "theorems": [
    "Verif.Effects.C83_current",
    "Verif.Effects.C83_history",
    "Verif.Effects.C83_values_partial",
    "Verif.Effects.C83_order_partial",
    "Verif.Effects.C83_changed_violated",
    "Verif.Effects.C83_raised_violated",
    "Verif.Effects.C83_again"
   ],
   "note": "Proved for sessions that use one list of test plans whose patterns compile and fields exist; for all histories the values are characterised exactly. Missing because the code does otherwise: taking values back when the test plans change, and adding jobs when an override raises."
  },
  {
   "property": "C84",
   "status": "partial",
   "theorems": [
    "Verif.Replies.C84_own",
    "Verif.Replies.C84_own_async",
    "Verif.Replies.C84_asked",
    "Verif.Replies.C84_once",
    "Verif.Replies.C84_late",
    "Verif.Replies.C84_arrives_partial",
    "Verif.Replies.C84_completes",
    "Verif.Replies.C84_never",
    "Verif.Replies.C84_lost_violated",
    "Verif.Replies.C84_unsent_violated",
    "Verif.Replies.C84_blame_violated"
   ],
   "note": "That every call gets its answer holds unless an answer cannot be sent or unboxed (the code then forgets it: C84_lost_violated, C84_unsent_violated, C84_blame_violated); everything else is proved in full."
  },
  {
   "property": "C85",
   "status": "partial",
   "theorems": [
    "Verif.Wake.C85_one_receiver",
    "Verif.Wake.C85_not_forgotten",
    "Verif.Wake.C85_once_more_partial",
    "Verif.Wake.C85_returns",
    "Verif.Wake.C85_alone",
    "Verif.Wake.C85_receives_violated",
    "Verif.Wake.C85_wakeup_violated",
    "Verif.Wake.C85_spin_violated"
   ],
   "note": "One receiver at a time, waiting calls go on when it is done, and a call whose reply is stored waits at most once more; a call made alone never waits with its reply stored. Not true in general: the check for the reply is not made under the lock, so a call can receive or wait for the event although its reply is stored (two violations, for all continuations without a message), and waiting threads can spin."
  },
  {
   "property": "C86",
   "status": "partial",
   "theorems": [
    "Verif.Again.C86_offered",
    "Verif.Again.C86_begun",
    "Verif.Again.C86_unfinished",
    "Verif.Again.C86_kept",
    "Verif.Again.C86_once",
    "Verif.Again.C86_running",
    "Verif.Again.C86_saved_partial",
    "Verif.Again.C86_resumed",
    "Verif.Again.C86_last",
    "Verif.Again.C86_untouched",
    "Verif.Again.C86_complete_partial",
    "Verif.Again.C86_again_violated",
    "Verif.Again.C86_empty_violated",
    "Verif.Again.C86_export_violated"
   ],
   "note": "Holds: offers, resuming, the question about the last job, stored results kept and not rerun, other sessions untouched. Violated: a job that has ended is run again if the process dies before the next checkpoint (its result is taken over after the checkpoint); dying before the jobs are selected gives a resumed session without jobs and an empty report; dying in the export leaves a session that is never offered nor exported. C86_saved_partial: at most one result of a job that ran is not stored. C86_complete_partial: one result for each job, or nothing was ever started."
  },
  {
   "property": "C87",
   "status": "partial",
   "theorems": [
    "Verif.Nest.C87_selected",
    "Verif.Nest.C87_jobs",
    "Verif.Nest.C87_mandatory",
    "Verif.Nest.C87_stages",
    "Verif.Nest.C87_usable_partial",
    "Verif.Nest.C87_circular_violated",
    "Verif.Nest.C87_union_violated",
    "Verif.Nest.C87_session_violated"
   ],
   "note": "Selection over all nested parts, mandatory jobs and the two stages are proved as stated. Violated: parts are looked up among the installed providers and not in the session; exclusions and bootstrapping jobs of a part take away jobs of the whole plan; a circle ends in RecursionError. C87_usable_partial: plans without errors can be used exactly if there is no circle."
  },
  {
   "property": "C88",
   "status": "partial",
   "theorems": [
    "Verif.Choose.C88_selected",
    "Verif.Choose.C88_order",
    "Verif.Choose.C88_bad",
    "Verif.Choose.C88_unknown",
    "Verif.Choose.C88_lookup",
    "Verif.Choose.C88_pattern_partial",
    "Verif.Choose.C88_listing_partial",
    "Verif.Choose.C88_alternation_violated",
    "Verif.Choose.C88_bad_violated",
    "Verif.Choose.C88_unknown_violated",
    "Verif.Choose.C88_provider_violated",
    "Verif.Choose.C88_lookup_violated",
    "Verif.Choose.C88_mandatory_violated",
    "Verif.Choose.C88_bootstrap_violated",
    "Verif.Choose.C88_listing_violated"
   ],
   "note": "The selection is characterised for all inputs; the statement fails for alternatives at top level of a pattern, for incorrect patterns and unknown plans (not refused), for plans in providers without jobs or in several providers, for mandatory and bootstrapping jobs, and for -x alone in plainbox dev special (see the violations)."
  },
  {
   "property": "C89",
   "status": "partial",
   "theorems": [
    "Verif.Peek.C89_saved",
    "Verif.Peek.C89_resumable",
    "Verif.Peek.C89_remove",
    "Verif.Peek.C89_refused_partial",
    "Verif.Peek.C89_run_partial",
    "Verif.Peek.C89_resume_partial",
    "Verif.Peek.C89_old_partial",
    "Verif.Peek.C89_list_partial",
    "Verif.Peek.C89_truncated_violated",
    "Verif.Peek.C89_unreadable_violated",
    "Verif.Peek.C89_resume_violated",
    "Verif.Peek.C89_list_violated",
    "Verif.Peek.C89_damaged_violated",
    "Verif.Peek.C89_list_stops"
   ],
   "note": "Partial because truncated, damaged or unopenable session files end the loops, and session list ends at any bad session; proved as violations."
  },
  {
   "property": "C90",
   "status": "partial",
   "theorems": [
    "Verif.Retry.C90_tries",
    "Verif.Retry.C90_limit",
    "Verif.Retry.C90_started",
    "Verif.Retry.C90_results",
    "Verif.Retry.C90_todo",
    "Verif.Retry.C90_result_violated",
    "Verif.Retry.C90_blocked_violated",
    "Verif.Retry.C90_saved_violated",
    "Verif.Retry.C90_unknown"
   ],
   "note": "Limit, history, last result and the list of jobs to do hold; keeping a passed result, not counting blocked tries and saving the tries left are violated by the code."
  },
  {
   "property": "C91",
   "status": "partial",
   "theorems": [
    "Verif.PlanCheck.C91_ends",
    "Verif.PlanCheck.C91_dead",
    "Verif.PlanCheck.C91_twice",
    "Verif.PlanCheck.C91_bootstrap",
    "Verif.PlanCheck.C91_selects_partial",
    "Verif.PlanCheck.C91_selects_violated",
    "Verif.PlanCheck.C91_nested_violated",
    "Verif.PlanCheck.C91_twice_violated",
    "Verif.PlanCheck.C91_bad_violated",
    "Verif.PlanCheck.C91_bootstrap_violated",
    "Verif.PlanCheck.C91_words_violated"
   ],
   "note": "What is reported is characterised exactly for validations that come to an end (C91_ends says which do). The full statement fails: include lines naming other units than jobs and nested parts that are no plans are not reported, excluded jobs are reported as selected twice, and one unreadable line or a bootstrapped unit that is no job ends the validation."
  },
  {
   "property": "C92",
   "status": "partial",
   "theorems": [
    "Verif.Where.C92_line_partial",
    "Verif.Where.C92_issue",
    "Verif.Where.C92_violation_comment",
    "Verif.Where.C92_violation_dot",
    "Verif.Where.C92_violation_break",
    "Verif.Where.C92_violation_translated",
    "Verif.Where.C92_ends"
   ],
   "note": "Proved for fields without a comment line inside, with line feeds as the only line boundaries and a first line that is neither blank nor a single dot; false otherwise (violations). Issues agree with qualifiers unless the field is written with an underscore."
  },
  {
   "property": "C93",
   "status": "partial",
   "theorems": [
    "Verif.Varies.C93_fixed",
    "Verif.Varies.C93_distinct_partial",
    "Verif.Varies.C93_numbered",
    "Verif.Varies.C93_distinct_violated",
    "Verif.Varies.C93_marked_violated",
    "Verif.Varies.C93_unable_violated",
    "Verif.Varies.C93_filter_violated",
    "Verif.Varies.C93_unknown_violated",
    "Verif.Varies.C93_plain"
   ],
   "note": "proved for fields not marked for translation and identifiers with one parameter written plainly; identifiers with two parameters may be equal, and several faults are not reported (violation theorems)"
  },
  {
   "property": "C94",
   "status": "partial",
   "theorems": [
    "Verif.Exit.C94_zero",
    "Verif.Exit.C94_tool_partial",
    "Verif.Exit.C94_usage",
    "Verif.Exit.C94_build",
    "Verif.Exit.C94_script",
    "Verif.Exit.C94_develop",
    "Verif.Exit.C94_launcher",
    "Verif.Exit.C94_launched",
    "Verif.Exit.C94_interrupted_violated",
    "Verif.Exit.C94_pipe_violated",
    "Verif.Exit.C94_pdb_violated",
    "Verif.Exit.C94_i18n_violated",
    "Verif.Exit.C94_script_violated",
    "Verif.Exit.C94_killed_violated",
    "Verif.Exit.C94_i18n_domain",
    "Verif.Exit.C94_debugger_partial"
   ],
   "note": "the status is characterised for all ends of a command; it is zero also for commands that were interrupted or whose output is not read, and for i18n (violation theorems); jobs killed by a signal fail instead of crashing under the trusted launcher"
  },
  {
   "property": "C95",
   "status": "partial",
   "theorems": [
    "Verif.Hints.C95_same_partial",
    "Verif.Hints.C95_alone",
    "Verif.Hints.C95_fallback",
    "Verif.Hints.C95_help_violated",
    "Verif.Hints.C95_choice_violated",
    "Verif.Hints.C95_early_violated",
    "Verif.Hints.C95_exception"
   ],
   "note": "proved apart from the list of commands that is shown with help and errors, which does depend on the guess (violation theorems)"
  },
  {
   "property": "C96",
   "status": "partial",
   "theorems": [
    "Verif.Stream.C96_stdout_partial",
    "Verif.Stream.C96_short",
    "Verif.Stream.C96_plain",
    "Verif.Stream.C96_other",
    "Verif.Stream.C96_send",
    "Verif.Stream.C96_file",
    "Verif.Stream.C96_long_violated",
    "Verif.Stream.C96_name_violated"
   ],
   "note": "Writing to the standard output gives the whole text just when no character lies across a multiple of 16 KiB (exact condition); else UnicodeDecodeError after a prefix. ASCII texts, short texts, files and the stream transport always get everything. Violated for long texts with other characters and for streams whose encoding is UTF-8 under another name."
  },
  {
   "property": "C97",
   "status": "partial",
   "theorems": [
    "Verif.Tools.C97_first",
    "Verif.Tools.C97_every",
    "Verif.Tools.C97_path",
    "Verif.Tools.C97_decision",
    "Verif.Tools.C97_own_partial",
    "Verif.Tools.C97_system",
    "Verif.Tools.C97_only",
    "Verif.Tools.C97_others",
    "Verif.Tools.C97_own_violated",
    "Verif.Tools.C97_user_violated",
    "Verif.Tools.C97_colon_violated",
    "Verif.Tools.C97_unset_violated",
    "Verif.Tools.C97_shared"
   ],
   "note": "Exactly which program a name stands for is proved; it is the one of the job's own provider if no other of the namespace has that name and the job's user is the present one or root. Violated otherwise, and for temporary directories with a colon; without PATH the current directory is searched."
  },
  {
   "property": "C98",
   "status": "partial",
   "theorems": [
    "Verif.Leftover.C98_sound",
    "Verif.Leftover.C98_complete_partial",
    "Verif.Leftover.C98_once",
    "Verif.Leftover.C98_logged",
    "Verif.Leftover.C98_link_violated",
    "Verif.Leftover.C98_unreadable_violated"
   ],
   "note": "Everything is reported once, and nothing else, except links to directories and unreadable directories, which are not reported (violations)."
  },
  {
   "property": "C99",
   "status": "partial",
   "theorems": [
    "Verif.Verdict.C99_map",
    "Verif.Verdict.C99_blockers",
    "Verif.Verdict.C99_word",
    "Verif.Verdict.C99_sound",
    "Verif.Verdict.C99_verdict_partial",
    "Verif.Verdict.C99_none",
    "Verif.Verdict.C99_spelling_violated",
    "Verif.Verdict.C99_crash_violated",
    "Verif.Verdict.C99_devices_violated"
   ],
   "note": "FAIL is never said without a failed job, and always when a job failed whose status the template knows. Missing: failed jobs with the status non-blocker (misspelled in the template), crashed jobs, and devices other than the first, all of which give PASS."
  }
 ]
}

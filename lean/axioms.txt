'Verif.Again.C86_again_violated' depends on axioms: [propext]
'Verif.Again.C86_begun' depends on axioms: [propext, Quot.sound]
'Verif.Again.C86_complete_partial' depends on axioms: [propext, Quot.sound]
'Verif.Again.C86_empty_violated' depends on axioms: [propext]
'Verif.Again.C86_export_violated' depends on axioms: [propext, Quot.sound]
'Verif.Again.C86_kept' depends on axioms: [propext, Quot.sound]
'Verif.Again.C86_last' depends on axioms: [propext, Quot.sound]
'Verif.Again.C86_offered' depends on axioms: [propext, Quot.sound]
'Verif.Again.C86_once' depends on axioms: [propext, Quot.sound]
'Verif.Again.C86_resumed' depends on axioms: [propext, Quot.sound]
'Verif.Again.C86_running' depends on axioms: [propext, Quot.sound]
'Verif.Again.C86_saved_partial' depends on axioms: [propext, Quot.sound]
'Verif.Again.C86_unfinished' depends on axioms: [propext, Quot.sound]
'Verif.Again.C86_untouched' depends on axioms: [propext, Quot.sound]
'Verif.Analyze.C115_clock' depends on axioms: [propext, Classical.choice, Quot.sound]
'Verif.Analyze.C115_clock_unique' depends on axioms: [propext, Classical.choice, Quot.sound]
'Verif.Analyze.C115_local_violated' depends on axioms: [propext, Classical.choice, Quot.sound]
'Verif.Analyze.C115_order' depends on axioms: [propext, Classical.choice, Quot.sound]
'Verif.Analyze.C115_packages_none' depends on axioms: [propext, Classical.choice, Quot.sound]
'Verif.Analyze.C115_packages_silent' depends on axioms: [propext, Classical.choice, Quot.sound]
'Verif.Analyze.C115_packages_violated' depends on axioms: [propext, Classical.choice, Quot.sound]
'Verif.Analyze.C115_rounded' depends on axioms: [propext, Classical.choice, Quot.sound]
'Verif.Analyze.C115_sections' depends on axioms: [propext, Classical.choice, Quot.sound]
'Verif.Analyze.C115_stopped' depends on axioms: [propext, Classical.choice, Quot.sound]
'Verif.Analyze.C115_validation_violated' depends on axioms: [propext, Classical.choice, Quot.sound]
'Verif.Analyze.C115_works' depends on axioms: [propext, Classical.choice, Quot.sound]
'Verif.Assistant.C41_boot' depends on axioms: [propext, Quot.sound]
'Verif.Assistant.C41_final_partial' depends on axioms: [propext, Classical.choice, Quot.sound]
'Verif.Assistant.C41_final_violated' depends on axioms: [propext]
'Verif.Assistant.C41_live' depends on axioms: [propext, Quot.sound]
'Verif.Assistant.C41_marked' depends on axioms: [propext, Quot.sound]
'Verif.Assistant.C41_once' depends on axioms: [propext]
'Verif.Assistant.C41_pair_partial' depends on axioms: [propext, Classical.choice, Quot.sound]
'Verif.Assistant.C41_pair_violated' depends on axioms: [propext]
'Verif.Assistant.C41_resumed' depends on axioms: [propext]
'Verif.Assistant.C41_retry_violated' depends on axioms: [propext]
'Verif.Assistant.C41_selected' depends on axioms: [propext, Quot.sound]
'Verif.Assistant.C59_callback_violated' depends on axioms: [propext]
'Verif.Assistant.C59_nested' depends on axioms: [propext, Quot.sound]
'Verif.Assistant.C59_noreturn_violated' depends on axioms: [propext]
'Verif.Assistant.C59_partial' depends on axioms: [propext, Quot.sound]
'Verif.Assistant.C59_plan_violated' depends on axioms: [propext]
'Verif.Assistant.C59_sso' depends on axioms: [propext, Quot.sound]
'Verif.Boot.C151_boots_partial' depends on axioms: [propext, Classical.choice, Quot.sound]
'Verif.Boot.C151_callback_violated' depends on axioms: [propext]
'Verif.Boot.C151_fail_violated' depends on axioms: [propext, Classical.choice, Quot.sound]
'Verif.Boot.C151_files' depends on axioms: [propext]
'Verif.Boot.C151_interrupted' depends on axioms: [propext, Quot.sound]
'Verif.Boot.C151_new_partial' depends on axioms: [propext, Classical.choice, Quot.sound]
'Verif.Boot.C151_new_violated' depends on axioms: [propext, Classical.choice, Quot.sound]
'Verif.Boot.C151_once_partial' depends on axioms: [propext, Classical.choice, Quot.sound]
'Verif.Boot.C151_others' depends on axioms: [propext]
'Verif.Boot.C151_snappy_violated' depends on axioms: [propext]
'Verif.Brine.C79_closed' depends on axioms: [propext, Quot.sound]
'Verif.Brine.C79_dumpable_of_dump' depends on axioms: [propext]
'Verif.Brine.C79_dumpable_partial' depends on axioms: [propext, Classical.choice, Quot.sound]
'Verif.Brine.C79_dumpable_violated' depends on axioms: [propext, Classical.choice, Quot.sound]
'Verif.Brine.C79_messages' depends on axioms: [propext, Classical.choice, Quot.sound]
'Verif.Brine.C79_plain' depends on axioms: [propext, Quot.sound]
'Verif.Brine.C79_prefix_free' depends on axioms: [propext, Classical.choice, Quot.sound]
'Verif.Brine.C79_roundtrip' depends on axioms: [propext, Classical.choice, Quot.sound]
'Verif.Brine.C79_sent' depends on axioms: [propext, Classical.choice, Quot.sound]
'Verif.Brine.C79_truncated_violated' depends on axioms: [propext]
'Verif.Build.C117_best' depends on axioms: [propext, Quot.sound]
'Verif.Build.C117_bracket_violated' depends on axioms: [propext, Classical.choice, Quot.sound]
'Verif.Build.C117_build_partial' depends on axioms: [propext, Classical.choice, Quot.sound]
'Verif.Build.C117_choice_partial' depends on axioms: [propext, Classical.choice, Quot.sound]
'Verif.Build.C117_clean' depends on axioms: [propext, Classical.choice, Quot.sound]
'Verif.Build.C117_star_violated' depends on axioms: [propext, Classical.choice, Quot.sound]
'Verif.Build.C117_where' depends on axioms: [propext, Classical.choice, Quot.sound]
'Verif.ByName.C113_accepts' depends on axioms: [propext, Classical.choice, Quot.sound]
'Verif.ByName.C113_comma_violated' depends on axioms: [propext, Classical.choice, Quot.sound]
'Verif.ByName.C113_commands' depends on axioms: [propext, Classical.choice, Quot.sound]
'Verif.ByName.C113_lenient_partial' depends on axioms: [propext, Classical.choice, Quot.sound]
'Verif.ByName.C113_lists' depends on axioms: [propext, Classical.choice, Quot.sound]
'Verif.ByName.C113_made' depends on axioms: [propext, Classical.choice, Quot.sound]
'Verif.ByName.C113_names' depends on axioms: [propext, Classical.choice, Quot.sound]
'Verif.ByName.C113_none_violated' depends on axioms: [propext, Classical.choice, Quot.sound]
'Verif.ByName.C113_strict' depends on axioms: [propext, Classical.choice, Quot.sound]
'Verif.ByName.C113_unknown' depends on axioms: [propext, Classical.choice, Quot.sound]
'Verif.ByName.C113_value_violated' depends on axioms: [propext, Classical.choice, Quot.sound]
'Verif.Cache.C40_computed' depends on axioms: [propext, Classical.choice, Quot.sound]
'Verif.Cache.C40_crash_partial' depends on axioms: [propext, Classical.choice, Quot.sound]
'Verif.Cache.C40_crash_violated' depends on axioms: [propext, Classical.choice, Quot.sound]
'Verif.Cache.C40_history' depends on axioms: [propext, Classical.choice, Quot.sound]
'Verif.Cache.C40_load' depends on axioms: [propext, Classical.choice, Quot.sound]
'Verif.Cache.C40_loaded' depends on axioms: [propext, Classical.choice, Quot.sound]
'Verif.Cache.C40_no_log_violated' depends on axioms: [propext, Classical.choice, Quot.sound]
'Verif.Cache.C40_once' depends on axioms: [propext, Classical.choice, Quot.sound]
'Verif.Cache.C40_once_violated' depends on axioms: [propext, Classical.choice, Quot.sound]
'Verif.Cache.C40_same' depends on axioms: [propext, Classical.choice, Quot.sound]
'Verif.CheckConfig.C139_code_partial' depends on axioms: [propext, Classical.choice, Quot.sound]
'Verif.CheckConfig.C139_environment' depends on axioms: [propext, Classical.choice, Quot.sound]
'Verif.CheckConfig.C139_files' depends on axioms: [propext, Classical.choice, Quot.sound]
'Verif.CheckConfig.C139_misspelt_violated' depends on axioms: [propext, Classical.choice, Quot.sound]
'Verif.CheckConfig.C139_raises_violated' depends on axioms: [propext, Classical.choice, Quot.sound]
'Verif.CheckConfig.C139_source' depends on axioms: [propext, Classical.choice, Quot.sound]
'Verif.CheckConfig.C139_syntax' depends on axioms: [propext, Classical.choice, Quot.sound]
'Verif.CheckConfig.C139_variable' depends on axioms: [propext, Classical.choice, Quot.sound]
'Verif.Checksum.C33_iff_partial' depends on axioms: [propext, Classical.choice, Quot.sound]
'Verif.Checksum.C33_namespace_ignored_violated' depends on axioms: [propext, Classical.choice, Quot.sound]
'Verif.Checksum.C33_namespace_violated' depends on axioms: [propext, Classical.choice, Quot.sound]
'Verif.Checksum.C33_same' depends on axioms: [propext, Classical.choice, Quot.sound]
'Verif.Choose.C88_alternation_violated' depends on axioms: [propext, Classical.choice, Quot.sound]
'Verif.Choose.C88_bad' depends on axioms: [propext, Quot.sound]
'Verif.Choose.C88_bad_violated' depends on axioms: [propext, Classical.choice, Quot.sound]
'Verif.Choose.C88_bootstrap_violated' depends on axioms: [propext, Classical.choice, Quot.sound]
'Verif.Choose.C88_listing_partial' depends on axioms: [propext, Quot.sound]
'Verif.Choose.C88_listing_violated' depends on axioms: [propext, Classical.choice, Quot.sound]
'Verif.Choose.C88_lookup' depends on axioms: [propext]
'Verif.Choose.C88_lookup_violated' depends on axioms: [propext, Classical.choice, Quot.sound]
'Verif.Choose.C88_mandatory_violated' depends on axioms: [propext, Classical.choice, Quot.sound]
'Verif.Choose.C88_order' depends on axioms: [propext, Classical.choice, Quot.sound]
'Verif.Choose.C88_pattern_partial' depends on axioms: [propext, Quot.sound]
'Verif.Choose.C88_provider_violated' depends on axioms: [propext, Classical.choice, Quot.sound]
'Verif.Choose.C88_selected' depends on axioms: [propext, Classical.choice, Quot.sound]
'Verif.Choose.C88_unknown' depends on axioms: [propext, Quot.sound]
'Verif.Choose.C88_unknown_violated' depends on axioms: [propext, Classical.choice, Quot.sound]
'Verif.Classify.C66_base_partial' depends on axioms: [propext, Classical.choice, Quot.sound]
'Verif.Classify.C66_data' depends on axioms: [propext, Classical.choice, Quot.sound]
'Verif.Classify.C66_exec' depends on axioms: [propext, Classical.choice, Quot.sound]
'Verif.Classify.C66_i18n_violated' depends on axioms: [propext, Classical.choice, Quot.sound]
'Verif.Classify.C66_loop_violated' depends on axioms: [propext, Classical.choice, Quot.sound]
'Verif.Classify.C66_sibling_violated' depends on axioms: [propext, Classical.choice, Quot.sound]
'Verif.Classify.C66_source' depends on axioms: [propext, Classical.choice, Quot.sound]
'Verif.Classify.C66_total' depends on axioms: [propext, Classical.choice, Quot.sound]
'Verif.Classify.C66_txt_in_violated' depends on axioms: [propext, Classical.choice, Quot.sound]
'Verif.Classify.C66_vcs' depends on axioms: [propext, Classical.choice, Quot.sound]
'Verif.Color.C137_background_partial' depends on axioms: [propext, Classical.choice, Quot.sound]
'Verif.Color.C137_call' depends on axioms: [propext, Classical.choice, Quot.sound]
'Verif.Color.C137_choice' does not depend on any axioms
'Verif.Color.C137_header' depends on axioms: [propext, Classical.choice, Quot.sound]
'Verif.Color.C137_names' depends on axioms: [propext, Classical.choice, Quot.sound]
'Verif.Color.C137_off' depends on axioms: [propext, Classical.choice, Quot.sound]
'Verif.Color.C137_outcome' depends on axioms: [propext, Classical.choice, Quot.sound]
'Verif.Color.C137_same_text' depends on axioms: [propext, Classical.choice, Quot.sound]
'Verif.Color.C137_style' depends on axioms: [propext, Classical.choice, Quot.sound]
'Verif.Color.C137_windows_violated' depends on axioms: [propext, Classical.choice, Quot.sound]
'Verif.Color.C137_yellow_violated' depends on axioms: [propext, Classical.choice, Quot.sound]
'Verif.Comments.C103_added' depends on axioms: [propext, Quot.sound]
'Verif.Comments.C103_again_violated' depends on axioms: [propext, Classical.choice, Quot.sound]
'Verif.Comments.C103_cleaned' depends on axioms: [propext, Quot.sound]
'Verif.Comments.C103_control_violated' depends on axioms: [propext, Classical.choice, Quot.sound]
'Verif.Comments.C103_none' depends on axioms: [propext]
'Verif.Comments.C103_pieces_partial' depends on axioms: [propext, Quot.sound]
'Verif.Comments.C103_plain' depends on axioms: [propext, Quot.sound]
'Verif.Comments.C103_resumed_partial' depends on axioms: [propext, Quot.sound]
'Verif.Comments.C103_settled' depends on axioms: [propext, Quot.sound]
'Verif.Config.C39_assign' depends on axioms: [propext, Classical.choice, Quot.sound]
'Verif.Config.C39_collision_violated' depends on axioms: [propext, Classical.choice, Quot.sound]
'Verif.Config.C39_delete' depends on axioms: [propext, Classical.choice, Quot.sound]
'Verif.Config.C39_kind' depends on axioms: [propext, Quot.sound]
'Verif.Config.C39_problems' depends on axioms: [propext, Classical.choice, Quot.sound]
'Verif.Config.C39_raise_partial' depends on axioms: [propext, Classical.choice, Quot.sound]
'Verif.Config.C39_raise_violated' depends on axioms: [propext, Classical.choice, Quot.sound]
'Verif.Config.C39_raises_exact' depends on axioms: [propext, Classical.choice, Quot.sound]
'Verif.Config.C39_read' depends on axioms: [propext, Classical.choice, Quot.sound]
'Verif.Config.C39_syntax_violated' depends on axioms: [propext, Classical.choice, Quot.sound]
'Verif.Config.C39_truth' depends on axioms: [propext, Classical.choice, Quot.sound]
'Verif.Config.C39_valid' depends on axioms: [propext, Classical.choice, Quot.sound]
'Verif.Config.C58_default_violated' depends on axioms: [propext, Classical.choice, Quot.sound]
'Verif.Config.C58_double_violated' depends on axioms: [propext, Classical.choice, Quot.sound]
'Verif.Config.C58_list_violated' depends on axioms: [propext, Classical.choice, Quot.sound]
'Verif.Config.C58_partial' depends on axioms: [propext, Classical.choice, Quot.sound]
'Verif.Config.C58_percent_violated' depends on axioms: [propext, Classical.choice, Quot.sound]
'Verif.Config.C58_unset_violated' depends on axioms: [propext, Classical.choice, Quot.sound]
'Verif.Content.C65_again_partial' depends on axioms: [propext, Classical.choice, Quot.sound]
'Verif.Content.C65_classifiable' depends on axioms: [propext, Classical.choice, Quot.sound]
'Verif.Content.C65_isolation_partial' depends on axioms: [propext, Classical.choice, Quot.sound]
'Verif.Content.C65_load_partial' depends on axioms: [propext, Classical.choice, Quot.sound]
'Verif.Content.C65_order' depends on axioms: [propext, Quot.sound]
'Verif.Content.C65_path_violated' depends on axioms: [propext, Classical.choice, Quot.sound]
'Verif.Content.C65_raises_violated' depends on axioms: [propext, Classical.choice, Quot.sound]
'Verif.Content.C65_unclaimed_violated' depends on axioms: [propext, Classical.choice, Quot.sound]
'Verif.Cookie.C112_linux_partial' depends on axioms: [propext, Classical.choice, Quot.sound]
'Verif.Cookie.C112_none' depends on axioms: [propext, Classical.choice, Quot.sound]
'Verif.Cookie.C112_one' depends on axioms: [propext, Classical.choice, Quot.sound]
'Verif.Cookie.C112_separator_violated' depends on axioms: [propext, Classical.choice, Quot.sound]
'Verif.Cookie.C112_uname_violated' depends on axioms: [propext, Classical.choice, Quot.sound]
'Verif.Cookie.C112_unique_partial' depends on axioms: [propext, Classical.choice, Quot.sound]
'Verif.Cookie.C112_windows' depends on axioms: [propext, Classical.choice, Quot.sound]
'Verif.Ctrl.C36_best' depends on axioms: [propext, Classical.choice, Quot.sound]
'Verif.Ctrl.C36_choice' depends on axioms: [propext, Classical.choice, Quot.sound]
'Verif.Ctrl.C36_ordinary' depends on axioms: [propext, Classical.choice, Quot.sound]
'Verif.Ctrl.C36_qml_violated' depends on axioms: [propext, Classical.choice, Quot.sound]
'Verif.Ctrl.C36_root_linux' depends on axioms: [propext, Classical.choice, Quot.sound]
'Verif.Ctrl.C36_root_partial' depends on axioms: [propext, Classical.choice, Quot.sound]
'Verif.Ctrl.C36_root_session' depends on axioms: [propext, Classical.choice, Quot.sound]
'Verif.Ctrl.C37_locale' depends on axioms: [propext, Classical.choice, Quot.sound]
'Verif.Ctrl.C37_locale_violated' depends on axioms: [propext, Classical.choice, Quot.sound]
'Verif.Ctrl.C37_minimal_partial' depends on axioms: [propext, Classical.choice, Quot.sound]
'Verif.Ctrl.C37_minimal_violated' depends on axioms: [propext, Classical.choice, Quot.sound]
'Verif.Ctrl.C37_values_partial' depends on axioms: [propext, Classical.choice, Quot.sound]
'Verif.Ctrl.C55_environment' depends on axioms: [propext, Classical.choice, Quot.sound]
'Verif.Definition.C67_accepted' depends on axioms: [propext, Classical.choice, Quot.sound]
'Verif.Definition.C67_domain' depends on axioms: [propext, Quot.sound]
'Verif.Definition.C67_fields' depends on axioms: [propext, Classical.choice, Quot.sound]
'Verif.Definition.C67_iqn' depends on axioms: [propext, Quot.sound]
'Verif.Definition.C67_name' depends on axioms: [propext, Quot.sound]
'Verif.Definition.C67_name_violated' depends on axioms: [propext, Classical.choice, Quot.sound]
'Verif.Definition.C67_raises_violated' depends on axioms: [propext, Classical.choice, Quot.sound]
'Verif.Definition.C67_search' depends on axioms: [propext, Classical.choice, Quot.sound]
'Verif.Definition.C67_secure_partial' depends on axioms: [propext, Classical.choice, Quot.sound]
'Verif.Definition.C67_snap_violated' depends on axioms: [propext, Classical.choice, Quot.sound]
'Verif.Definition.C67_version' depends on axioms: [propext, Classical.choice, Quot.sound]
'Verif.DepMgr.C01_resolve_valid' depends on axioms: [propext, Classical.choice, Quot.sound]
'Verif.DepMgr.C02_errors_truthful' depends on axioms: [propext, Classical.choice, Quot.sound]
'Verif.DepMgr.C02_resolve_iff' depends on axioms: [propext, Classical.choice, Quot.sound]
'Verif.DepMgr.C03_cycle_real' depends on axioms: [propext, Classical.choice, Quot.sound]
'Verif.Device.C46_generated_violated' depends on axioms: [propext]
'Verif.Device.C46_namespace_violated' depends on axioms: [propext]
'Verif.Device.C46_once' depends on axioms: [propext, Classical.choice, Quot.sound]
'Verif.Device.C46_present_partial' depends on axioms: [propext, Classical.choice, Quot.sound]
'Verif.Device.C46_refused_violated' depends on axioms: [propext, Classical.choice, Quot.sound]
'Verif.Device.C46_remove' depends on axioms: [propext, Classical.choice, Quot.sound]
'Verif.Device.C46_remove_partial' depends on axioms: [propext, Classical.choice, Quot.sound]
'Verif.Device.C46_run_violated' depends on axioms: [propext, Classical.choice, Quot.sound]
'Verif.Device.C46_sibling_violated' depends on axioms: [propext]
'Verif.Device.C46_twice' depends on axioms: [propext]
'Verif.Device.C46_unrecorded' depends on axioms: [propext, Quot.sound]
'Verif.Device.C60_partial' depends on axioms: [propext, Classical.choice, Quot.sound]
'Verif.Device.C60_violated' depends on axioms: [propext, Quot.sound]
'Verif.Device.C60_witness' depends on axioms: [propext]
'Verif.Device.C61_partial' depends on axioms: [propext, Classical.choice, Quot.sound]
'Verif.Device.C61_violated' depends on axioms: [propext]
'Verif.Dialogue.C68_answers' depends on axioms: [propext, Classical.choice, Quot.sound]
'Verif.Dialogue.C68_comments_partial' depends on axioms: [propext, Classical.choice, Quot.sound]
'Verif.Dialogue.C68_decided' depends on axioms: [propext, Classical.choice, Quot.sound]
'Verif.Dialogue.C68_ends' depends on axioms: [propext, Classical.choice, Quot.sound]
'Verif.Dialogue.C68_eof_violated' depends on axioms: [propext, Classical.choice, Quot.sound]
'Verif.Dialogue.C68_explicit_fail_violated' depends on axioms: [propext, Classical.choice, Quot.sound]
'Verif.Dialogue.C68_last_run' depends on axioms: [propext, Classical.choice, Quot.sound]
'Verif.Dialogue.C68_outcome' depends on axioms: [propext, Classical.choice, Quot.sound]
'Verif.Dialogue.C68_own_comments_violated' depends on axioms: [propext, Classical.choice, Quot.sound]
'Verif.Dialogue.C68_recorded' depends on axioms: [propext, Classical.choice, Quot.sound]
'Verif.Dialogue.C68_rerun_violated' depends on axioms: [propext, Classical.choice, Quot.sound]
'Verif.Dialogue.C68_total' depends on axioms: [propext, Classical.choice, Quot.sound]
'Verif.Dialogue.C68_unambiguous' depends on axioms: [propext, Quot.sound]
'Verif.Dot.C135_graph_partial' depends on axioms: [propext, Classical.choice, Quot.sound]
'Verif.Dot.C135_plugin_violated' depends on axioms: [propext, Classical.choice, Quot.sound]
'Verif.Dot.C135_quote_violated' depends on axioms: [propext, Classical.choice, Quot.sound]
'Verif.Dot.C135_raises' depends on axioms: [propext, Classical.choice, Quot.sound]
'Verif.Dot.C135_requirements' depends on axioms: [propext, Classical.choice, Quot.sound]
'Verif.Dot.C135_stops' depends on axioms: [propext, Classical.choice, Quot.sound]
'Verif.Dump.C150_exit_partial' depends on axioms: [propext, Classical.choice, Quot.sound]
'Verif.Dump.C150_json' depends on axioms: [propext, Classical.choice, Quot.sound]
'Verif.Dump.C150_same' depends on axioms: [propext, Classical.choice, Quot.sound]
'Verif.Dump.C150_traceback_violated' depends on axioms: [propext, Classical.choice, Quot.sound]
'Verif.Duration.C71_blank_violated' depends on axioms: [propext, Quot.sound]
'Verif.Duration.C71_duration' depends on axioms: [propext, Quot.sound]
'Verif.Duration.C71_plan' depends on axioms: [propext, Quot.sound]
'Verif.Duration.C71_plan_violated' depends on axioms: [propext, Quot.sound]
'Verif.Duration.C71_time_left' depends on axioms: [propext, Classical.choice, Quot.sound]
'Verif.Duration.C71_totals' depends on axioms: [propext, Classical.choice, Quot.sound]
'Verif.Duration.C71_validated' depends on axioms: [propext, Quot.sound]
'Verif.Duration.C71_written' depends on axioms: [propext, Quot.sound]
'Verif.Duration.C71_zero_violated' depends on axioms: [propext, Classical.choice, Quot.sound]
'Verif.Effects.C83_again' depends on axioms: [propext, Classical.choice, Quot.sound]
'Verif.Effects.C83_changed_violated' depends on axioms: [propext, Classical.choice, Quot.sound]
'Verif.Effects.C83_current' depends on axioms: [propext, Classical.choice, Quot.sound]
'Verif.Effects.C83_history' depends on axioms: [propext, Classical.choice, Quot.sound]
'Verif.Effects.C83_order_partial' depends on axioms: [propext, Classical.choice, Quot.sound]
'Verif.Effects.C83_raised_violated' depends on axioms: [propext, Classical.choice, Quot.sound]
'Verif.Effects.C83_values_partial' depends on axioms: [propext, Classical.choice, Quot.sound]
'Verif.Enumerate.C109_base' depends on axioms: [propext, Classical.choice, Quot.sound]
'Verif.Enumerate.C109_complete_partial' depends on axioms: [propext]
'Verif.Enumerate.C109_link_violated' depends on axioms: [propext, Classical.choice, Quot.sound]
'Verif.Enumerate.C109_once' depends on axioms: [propext, Classical.choice, Quot.sound]
'Verif.Enumerate.C109_outside_violated' depends on axioms: [propext, Classical.choice, Quot.sound]
'Verif.Enumerate.C109_packaged' depends on axioms: [propext, Classical.choice, Quot.sound]
'Verif.Enumerate.C109_source' depends on axioms: [propext, Classical.choice, Quot.sound]
'Verif.Enumerate.C109_units' depends on axioms: [propext, Classical.choice, Quot.sound]
'Verif.Enumerate.C109_unreadable_violated' depends on axioms: [propext, Classical.choice, Quot.sound]
'Verif.Exit.C94_build' depends on axioms: [propext, Quot.sound]
'Verif.Exit.C94_debugger_partial' depends on axioms: [propext, Quot.sound]
'Verif.Exit.C94_develop' depends on axioms: [propext]
'Verif.Exit.C94_i18n_domain' depends on axioms: [propext]
'Verif.Exit.C94_i18n_violated' depends on axioms: [propext]
'Verif.Exit.C94_interrupted_violated' depends on axioms: [propext]
'Verif.Exit.C94_killed_violated' depends on axioms: [propext, Classical.choice, Quot.sound]
'Verif.Exit.C94_launched' depends on axioms: [propext, Classical.choice, Quot.sound]
'Verif.Exit.C94_launcher' depends on axioms: [propext, Classical.choice, Quot.sound]
'Verif.Exit.C94_pdb_violated' depends on axioms: [propext]
'Verif.Exit.C94_pipe_violated' depends on axioms: [propext]
'Verif.Exit.C94_script' depends on axioms: [propext, Quot.sound]
'Verif.Exit.C94_script_violated' depends on axioms: [propext]
'Verif.Exit.C94_tool_partial' depends on axioms: [propext, Classical.choice, Quot.sound]
'Verif.Exit.C94_usage' depends on axioms: [propext]
'Verif.Exit.C94_zero' depends on axioms: [propext, Classical.choice, Quot.sound]
'Verif.Export.C62_attachment' depends on axioms: [propext, Classical.choice, Quot.sound]
'Verif.Export.C62_categories' depends on axioms: [propext, Classical.choice, Quot.sound]
'Verif.Export.C62_fields_partial' depends on axioms: [propext, Classical.choice, Quot.sound]
'Verif.Export.C62_log' depends on axioms: [propext, Classical.choice, Quot.sound]
'Verif.Export.C62_options' depends on axioms: [propext, Quot.sound]
'Verif.Export.C62_parts' depends on axioms: [propext, Classical.choice, Quot.sound]
'Verif.Export.C62_refused' depends on axioms: [propext, Quot.sound]
'Verif.Export.C62_results' depends on axioms: [propext, Classical.choice, Quot.sound]
'Verif.Export.C62_violated' depends on axioms: [propext, Classical.choice, Quot.sound]
'Verif.Export.C63_clash' depends on axioms: [propext, Classical.choice, Quot.sound]
'Verif.Export.C63_distinct_partial' depends on axioms: [propext, Classical.choice, Quot.sound]
'Verif.Export.C63_members' depends on axioms: [propext, Classical.choice, Quot.sound]
'Verif.Export.C63_violated' depends on axioms: [propext, Classical.choice, Quot.sound]
'Verif.Extcmd.C44_chain' depends on axioms: [propext]
'Verif.Extcmd.C44_completes' depends on axioms: [propext, Classical.choice, Quot.sound]
'Verif.Extcmd.C44_delivery_partial' depends on axioms: [propext, Quot.sound]
'Verif.Extcmd.C44_late_violated' depends on axioms: [propext, Quot.sound]
'Verif.Extcmd.C44_order' depends on axioms: [propext, Quot.sound]
'Verif.Extcmd.C44_prefix' depends on axioms: [propext, Quot.sound]
'Verif.Extcmd.C44_progress' depends on axioms: [propext, Classical.choice, Quot.sound]
'Verif.Extcmd.C44_raise_violated' depends on axioms: [propext, Quot.sound]
'Verif.Extcmd.C44_sudo_violated' depends on axioms: [propext, Quot.sound]
'Verif.Extcmd.C44_terminates' depends on axioms: [propext, Quot.sound]
'Verif.Extcmd.C44_transform_partial' depends on axioms: [propext]
'Verif.Extcmd.C44_transform_violated' depends on axioms: [propext, Quot.sound]
'Verif.Extcmd.C57_chunked_violated' depends on axioms: [propext, Classical.choice, Quot.sound]
'Verif.Extcmd.C57_partial' depends on axioms: [propext, Classical.choice, Quot.sound]
'Verif.Extcmd.C57_ui_violated' depends on axioms: [propext, Quot.sound]
'Verif.Fields.C82_absent' depends on axioms: [propext, Quot.sound]
'Verif.Fields.C82_default_violated' depends on axioms: [propext, Classical.choice, Quot.sound]
'Verif.Fields.C82_field' depends on axioms: [propext]
'Verif.Fields.C82_marked' depends on axioms: [propext, Classical.choice, Quot.sound]
'Verif.Fields.C82_remembered' depends on axioms: [propext, Classical.choice, Quot.sound]
'Verif.Fields.C82_stable' depends on axioms: [propext, Classical.choice, Quot.sound]
'Verif.Fields.C82_texts_partial' depends on axioms: [propext, Classical.choice, Quot.sound]
'Verif.Fields.C82_translated' depends on axioms: [propext]
'Verif.Fields.C82_unmarked' depends on axioms: [propext]
'Verif.Fields.C82_untranslated_partial' depends on axioms: [propext, Classical.choice, Quot.sound]
'Verif.Fields.C82_untranslated_violated' depends on axioms: [propext, Classical.choice, Quot.sound]
'Verif.Fields.C82_verbatim' depends on axioms: [propext]
'Verif.Flat.C101_attachment' depends on axioms: [propext, Classical.choice, Quot.sound]
'Verif.Flat.C101_bad_byte' depends on axioms: [propext, Classical.choice, Quot.sound]
'Verif.Flat.C101_chunks' depends on axioms: [propext, Classical.choice, Quot.sound]
'Verif.Flat.C101_clean' depends on axioms: [propext, Classical.choice, Quot.sound]
'Verif.Flat.C101_cut_off' depends on axioms: [propext, Classical.choice, Quot.sound]
'Verif.Flat.C101_interleaved_violated' depends on axioms: [propext, Classical.choice, Quot.sound]
'Verif.Flat.C101_reads_partial' depends on axioms: [propext, Classical.choice, Quot.sound]
'Verif.Flat.C101_records' depends on axioms: [propext, Classical.choice, Quot.sound]
'Verif.Flat.C101_report_violated' depends on axioms: [propext, Classical.choice, Quot.sound]
'Verif.Flat.C101_text' depends on axioms: [propext, Classical.choice, Quot.sound]
'Verif.Help.C125_attributes' depends on axioms: [propext, Classical.choice, Quot.sound]
'Verif.Help.C125_extend' depends on axioms: [propext]
'Verif.Help.C125_install_violated' depends on axioms: [propext, Classical.choice, Quot.sound]
'Verif.Help.C125_name_partial' depends on axioms: [propext, Classical.choice, Quot.sound]
'Verif.Help.C125_name_violated' depends on axioms: [propext, Classical.choice, Quot.sound]
'Verif.Help.C125_registered' depends on axioms: [propext, Classical.choice, Quot.sound]
'Verif.Help.C125_texts' depends on axioms: [propext, Classical.choice, Quot.sound]
'Verif.Help.C125_twice_violated' depends on axioms: [propext]
'Verif.Helpers.C147_elements_partial' depends on axioms: [propext, Classical.choice, Quot.sound]
'Verif.Helpers.C147_factor' depends on axioms: [propext, Quot.sound]
'Verif.Helpers.C147_lost_violated' does not depend on any axioms
'Verif.Helpers.C147_raises_partial' depends on axioms: [propext, Classical.choice, Quot.sound]
'Verif.Helpers.C147_sizes' depends on axioms: [propext, Quot.sound]
'Verif.Helpers.C147_through' depends on axioms: [propext]
'Verif.Helpers.C147_unchanged' depends on axioms: [propext]
'Verif.Helpers.C147_unseen' depends on axioms: [propext]
'Verif.Helpers.C147_zero_violated' does not depend on any axioms
'Verif.Hints.C95_alone' depends on axioms: [propext, Classical.choice, Quot.sound]
'Verif.Hints.C95_choice_violated' depends on axioms: [propext, Classical.choice, Quot.sound]
'Verif.Hints.C95_early_violated' depends on axioms: [propext, Classical.choice, Quot.sound]
'Verif.Hints.C95_exception' depends on axioms: [propext, Classical.choice, Quot.sound]
'Verif.Hints.C95_fallback' depends on axioms: [propext, Classical.choice, Quot.sound]
'Verif.Hints.C95_help_violated' depends on axioms: [propext, Classical.choice, Quot.sound]
'Verif.Hints.C95_same_partial' depends on axioms: [propext, Classical.choice, Quot.sound]
'Verif.Html.C104_all_partial' depends on axioms: [propext, Classical.choice, Quot.sound]
'Verif.Html.C104_chart' depends on axioms: [propext, Classical.choice, Quot.sound]
'Verif.Html.C104_chart_order' depends on axioms: [propext, Classical.choice, Quot.sound]
'Verif.Html.C104_first_line_violated' depends on axioms: [propext, Classical.choice, Quot.sound]
'Verif.Html.C104_heading_violated' depends on axioms: [propext, Classical.choice, Quot.sound]
'Verif.Html.C104_log_partial' depends on axioms: [propext]
'Verif.Html.C104_missing_violated' depends on axioms: [propext, Classical.choice, Quot.sound]
'Verif.Html.C104_package_violated' depends on axioms: [propext, Classical.choice, Quot.sound]
'Verif.Html.C104_shown_partial' depends on axioms: [propext, Classical.choice, Quot.sound]
'Verif.Html.C104_tables_partial' depends on axioms: [propext, Classical.choice, Quot.sound]
'Verif.I18n.C122_commands' depends on axioms: [propext, Classical.choice, Quot.sound]
'Verif.I18n.C122_dirs' depends on axioms: [propext, Classical.choice, Quot.sound]
'Verif.I18n.C122_domain' depends on axioms: [propext, Classical.choice, Quot.sound]
'Verif.I18n.C122_dry' depends on axioms: [propext, Classical.choice, Quot.sound]
'Verif.I18n.C122_dry_violated' depends on axioms: [propext, Classical.choice, Quot.sound]
'Verif.I18n.C122_found_partial' depends on axioms: [propext, Classical.choice, Quot.sound]
'Verif.I18n.C122_hidden_violated' depends on axioms: [propext, Classical.choice, Quot.sound]
'Verif.I18n.C122_shadowed_violated' depends on axioms: [propext, Classical.choice, Quot.sound]
'Verif.I18n.C122_status_violated' depends on axioms: [propext, Classical.choice, Quot.sound]
'Verif.IOLog.C26_hex_case' depends on axioms: [propext, Classical.choice, Quot.sound]
'Verif.IOLog.C26_injective' depends on axioms: [propext, Classical.choice, Quot.sound]
'Verif.IOLog.C26_io_log' depends on axioms: [propext, Classical.choice, Quot.sound]
'Verif.IniText.C106_bracket_violated' depends on axioms: [propext, Classical.choice, Quot.sound]
'Verif.IniText.C106_config_partial' depends on axioms: [propext, Classical.choice, Quot.sound]
'Verif.IniText.C106_crash_partial' depends on axioms: [propext, Classical.choice, Quot.sound]
'Verif.IniText.C106_crash_violated' depends on axioms: [propext, Classical.choice, Quot.sound]
'Verif.IniText.C106_end_violated' depends on axioms: [propext, Classical.choice, Quot.sound]
'Verif.IniText.C106_ends' depends on axioms: [propext, Classical.choice, Quot.sound]
'Verif.IniText.C106_faulty' depends on axioms: [propext, Classical.choice, Quot.sound]
'Verif.IniText.C106_file_partial' depends on axioms: [propext, Classical.choice, Quot.sound]
'Verif.IniText.C106_files' depends on axioms: [propext, Classical.choice, Quot.sound]
'Verif.IniText.C106_hash_violated' depends on axioms: [propext, Classical.choice, Quot.sound]
'Verif.IniText.C106_indent_violated' depends on axioms: [propext, Classical.choice, Quot.sound]
'Verif.IniText.C106_kept' depends on axioms: [propext, Classical.choice, Quot.sound]
'Verif.IniText.C106_later' depends on axioms: [propext, Classical.choice, Quot.sound]
'Verif.IniText.C106_name_violated' depends on axioms: [propext, Classical.choice, Quot.sound]
'Verif.IniText.C106_nameless_violated' depends on axioms: [propext, Classical.choice, Quot.sound]
'Verif.IniText.C106_return_violated' depends on axioms: [propext, Classical.choice, Quot.sound]
'Verif.IniText.C106_round_partial' depends on axioms: [propext, Classical.choice, Quot.sound]
'Verif.IniText.C106_value_iff' depends on axioms: [propext, Classical.choice, Quot.sound]
'Verif.Install.C73_again_violated' depends on axioms: [propext, Classical.choice, Quot.sound]
'Verif.Install.C73_description_violated' depends on axioms: [propext, Classical.choice, Quot.sound]
'Verif.Install.C73_double_percent_violated' depends on axioms: [propext, Classical.choice, Quot.sound]
'Verif.Install.C73_empty_bin_violated' depends on axioms: [propext, Classical.choice, Quot.sound]
'Verif.Install.C73_empty_violated' depends on axioms: [propext, Classical.choice, Quot.sound]
'Verif.Install.C73_files_partial' depends on axioms: [propext, Classical.choice, Quot.sound]
'Verif.Install.C73_files_violated' depends on axioms: [propext, Classical.choice, Quot.sound]
'Verif.Install.C73_found' depends on axioms: [propext, Classical.choice, Quot.sound]
'Verif.Install.C73_installed_partial' depends on axioms: [propext, Classical.choice, Quot.sound]
'Verif.Install.C73_layout' depends on axioms: [propext, Classical.choice, Quot.sound]
'Verif.Install.C73_locale_violated' depends on axioms: [propext, Classical.choice, Quot.sound]
'Verif.Install.C73_other_provider_violated' depends on axioms: [propext, Classical.choice, Quot.sound]
'Verif.Install.C73_percent_violated' depends on axioms: [propext, Classical.choice, Quot.sound]
'Verif.Install.C73_same_name_violated' depends on axioms: [propext, Classical.choice, Quot.sound]
'Verif.Install.C73_same_partial' depends on axioms: [propext, Classical.choice, Quot.sound]
'Verif.Install.C73_shared_locale_violated' depends on axioms: [propext, Classical.choice, Quot.sound]
'Verif.Install.C73_simple_name_violated' depends on axioms: [propext, Classical.choice, Quot.sound]
'Verif.Install.C73_text_partial' depends on axioms: [propext, Classical.choice, Quot.sound]
'Verif.Install.C73_text_violated' depends on axioms: [propext, Classical.choice, Quot.sound]
'Verif.Junit.C100_character_violated' depends on axioms: [propext, Classical.choice, Quot.sound]
'Verif.Junit.C100_order' depends on axioms: [propext, Classical.choice, Quot.sound]
'Verif.Junit.C100_reads_partial' depends on axioms: [propext, Classical.choice, Quot.sound]
'Verif.Junit.C100_return_violated' depends on axioms: [propext, Classical.choice, Quot.sound]
'Verif.Junit.C100_shown_violated' depends on axioms: [propext, Classical.choice, Quot.sound]
'Verif.Junit.C100_tests_violated' depends on axioms: [propext, Classical.choice, Quot.sound]
'Verif.Later.C145_callbacks_partial' depends on axioms: [propext, Classical.choice, Quot.sound]
'Verif.Later.C145_dropped_violated' does not depend on any axioms
'Verif.Later.C145_forever' depends on axioms: [propext, Quot.sound]
'Verif.Later.C145_kept' depends on axioms: [propext]
'Verif.Later.C145_late_violated' does not depend on any axioms
'Verif.Later.C145_not_before' depends on axioms: [propext, Quot.sound]
'Verif.Later.C145_raising_violated' does not depend on any axioms
'Verif.Later.C145_taken' depends on axioms: [propext, Classical.choice, Quot.sound]
'Verif.Later.C145_wait' depends on axioms: [propext, Classical.choice, Quot.sound]
'Verif.Launcher.C37_env_program' depends on axioms: [propext, Classical.choice, Quot.sound]
'Verif.Launcher.C45_dash_violated' depends on axioms: [propext, Classical.choice, Quot.sound]
'Verif.Launcher.C45_end_to_end' depends on axioms: [propext, Classical.choice, Quot.sound]
'Verif.Launcher.C45_environment' depends on axioms: [propext, Classical.choice, Quot.sound]
'Verif.Launcher.C45_known' depends on axioms: [propext, Classical.choice, Quot.sound]
'Verif.Launcher.C45_unknown' depends on axioms: [propext, Classical.choice, Quot.sound]
'Verif.Leftover.C98_complete_partial' depends on axioms: [propext, Quot.sound]
'Verif.Leftover.C98_link_violated' depends on axioms: [propext, Classical.choice, Quot.sound]
'Verif.Leftover.C98_logged' depends on axioms: [propext, Classical.choice, Quot.sound]
'Verif.Leftover.C98_once' depends on axioms: [propext, Quot.sound]
'Verif.Leftover.C98_sound' depends on axioms: [propext, Quot.sound]
'Verif.Leftover.C98_unreadable_violated' depends on axioms: [propext, Classical.choice, Quot.sound]
'Verif.Life.C78_begun' depends on axioms: [propext, Quot.sound]
'Verif.Life.C78_both_violated' depends on axioms: [propext, Quot.sound]
'Verif.Life.C78_delete' depends on axioms: [propext, Quot.sound]
'Verif.Life.C78_empty_violated' depends on axioms: [propext]
'Verif.Life.C78_finished_partial' depends on axioms: [propext, Quot.sound]
'Verif.Life.C78_found_partial' depends on axioms: [propext, Quot.sound]
'Verif.Life.C78_interrupted' depends on axioms: [propext, Quot.sound]
'Verif.Life.C78_listing' depends on axioms: [propext, Quot.sound]
'Verif.Life.C78_lost_violated' depends on axioms: [propext]
'Verif.Life.C78_old' depends on axioms: [propext, Quot.sound]
'Verif.Life.C78_reopen_partial' depends on axioms: [propext, Quot.sound]
'Verif.Life.C78_result_saved' depends on axioms: [propext, Quot.sound]
'Verif.Life.C78_result_violated' depends on axioms: [propext, Quot.sound]
'Verif.Life.C78_results_kept' depends on axioms: [propext, Quot.sound]
'Verif.Life.C78_stale_violated' depends on axioms: [propext]
'Verif.Life.C78_unfinished' depends on axioms: [propext, Quot.sound]
'Verif.Listing.C121_fails_violated' depends on axioms: [propext, Classical.choice, Quot.sound]
'Verif.Listing.C121_given_partial' depends on axioms: [propext, Classical.choice, Quot.sound]
'Verif.Listing.C121_group' depends on axioms: [propext, Classical.choice, Quot.sound]
'Verif.Listing.C121_systems' depends on axioms: [propext, Classical.choice, Quot.sound]
'Verif.Listing.C121_tree' depends on axioms: [propext, Classical.choice, Quot.sound]
'Verif.Live.C129_chunked_violated' depends on axioms: [propext, Classical.choice, Quot.sound]
'Verif.Live.C129_hidden' depends on axioms: [propext, Classical.choice, Quot.sound]
'Verif.Live.C129_numbered_partial' depends on axioms: [propext, Classical.choice, Quot.sound]
'Verif.Live.C129_numbered_violated' depends on axioms: [propext, Classical.choice, Quot.sound]
'Verif.Live.C129_reading' depends on axioms: [propext, Classical.choice, Quot.sound]
'Verif.Live.C129_screen_partial' depends on axioms: [propext, Classical.choice, Quot.sound]
'Verif.Live.C129_stopped' depends on axioms: [propext, Classical.choice, Quot.sound]
'Verif.Live.C129_text' depends on axioms: [propext, Classical.choice, Quot.sound]
'Verif.Locate.C111_colon_violated' depends on axioms: [propext, Classical.choice, Quot.sound]
'Verif.Locate.C111_distinct' depends on axioms: [propext, Quot.sound]
'Verif.Locate.C111_issue_partial' depends on axioms: [propext, Classical.choice, Quot.sound]
'Verif.Locate.C111_issue_relative' depends on axioms: [propext]
'Verif.Locate.C111_kind_violated' depends on axioms: [propext, Classical.choice, Quot.sound]
'Verif.Locate.C111_nameless_violated' depends on axioms: [propext]
'Verif.Locate.C111_nowhere_violated' depends on axioms: [propext, Classical.choice, Quot.sound]
'Verif.Locate.C111_origin' depends on axioms: [propext, Quot.sound]
'Verif.Locate.C111_place' depends on axioms: [propext, Classical.choice, Quot.sound]
'Verif.Locate.C111_relpath' depends on axioms: [propext, Quot.sound]
'Verif.Locate.C111_shown_partial' depends on axioms: [propext, Classical.choice, Quot.sound]
'Verif.Locate.C111_text' depends on axioms: [propext, Classical.choice, Quot.sound]
'Verif.Logs.C144_console_partial' depends on axioms: [propext, Classical.choice, Quot.sound]
'Verif.Logs.C144_environment' depends on axioms: [propext, Classical.choice, Quot.sound]
'Verif.Logs.C144_environment_violated' depends on axioms: [propext, Classical.choice, Quot.sound]
'Verif.Logs.C144_level' depends on axioms: [propext, Classical.choice, Quot.sound]
'Verif.Logs.C144_no_files' depends on axioms: [propext, Quot.sound]
'Verif.Logs.C144_refused' depends on axioms: [propext, Quot.sound]
'Verif.Logs.C144_trace_violated' depends on axioms: [propext]
'Verif.Logs.C144_twice_violated' depends on axioms: [propext]
'Verif.Logs.C144_where' depends on axioms: [propext, Classical.choice, Quot.sound]
'Verif.Narrow.C77_all_categories_partial' depends on axioms: [propext, Classical.choice, Quot.sound]
'Verif.Narrow.C77_alternate' depends on axioms: [propext, Classical.choice, Quot.sound]
'Verif.Narrow.C77_categories_violated' depends on axioms: [propext, Classical.choice, Quot.sound]
'Verif.Narrow.C77_everything' depends on axioms: [propext, Classical.choice, Quot.sound]
'Verif.Narrow.C77_filter' depends on axioms: [propext, Classical.choice, Quot.sound]
'Verif.Narrow.C77_filter_iterator_partial' depends on axioms: [propext, Classical.choice, Quot.sound]
'Verif.Narrow.C77_hand_pick' depends on axioms: [propext, Classical.choice, Quot.sound]
'Verif.Narrow.C77_iterator_partial' depends on axioms: [propext, Classical.choice, Quot.sound]
'Verif.Narrow.C77_iterator_violated' depends on axioms: [propext, Classical.choice, Quot.sound]
'Verif.Narrow.C77_mandatory_partial' depends on axioms: [propext, Classical.choice, Quot.sound]
'Verif.Narrow.C77_mandatory_stay' depends on axioms: [propext, Classical.choice, Quot.sound]
'Verif.Narrow.C77_mandatory_violated' depends on axioms: [propext, Quot.sound]
'Verif.Narrow.C77_never_grows' depends on axioms: [propext, Classical.choice, Quot.sound]
'Verif.Narrow.C77_no_exception' depends on axioms: [propext, Classical.choice, Quot.sound]
'Verif.Narrow.C77_no_plan_violated' depends on axioms: [propext, Classical.choice, Quot.sound]
'Verif.Narrow.C77_others_ignored' depends on axioms: [propext, Classical.choice, Quot.sound]
'Verif.Narrow.C77_plan' depends on axioms: [propext, Classical.choice, Quot.sound]
'Verif.Narrow.C77_restore' depends on axioms: [propext, Classical.choice, Quot.sound]
'Verif.Narrow.C77_unknown' depends on axioms: [propext, Quot.sound]
'Verif.Nest.C87_circular_violated' depends on axioms: [propext, Classical.choice, Quot.sound]
'Verif.Nest.C87_jobs' depends on axioms: [propext, Classical.choice, Quot.sound]
'Verif.Nest.C87_mandatory' depends on axioms: [propext, Classical.choice, Quot.sound]
'Verif.Nest.C87_selected' depends on axioms: [propext, Classical.choice, Quot.sound]
'Verif.Nest.C87_session_violated' depends on axioms: [propext, Quot.sound]
'Verif.Nest.C87_stages' depends on axioms: [propext, Classical.choice, Quot.sound]
'Verif.Nest.C87_union_violated' depends on axioms: [propext, Quot.sound]
'Verif.Nest.C87_usable_partial' depends on axioms: [propext, Classical.choice, Quot.sound]
'Verif.Netref.C80_alive' depends on axioms: [propext, Classical.choice, Quot.sound]
'Verif.Netref.C80_attributes' depends on axioms: [propext, Classical.choice, Quot.sound]
'Verif.Netref.C80_disconnect' depends on axioms: [propext]
'Verif.Netref.C80_distinct' depends on axioms: [propext, Classical.choice, Quot.sound]
'Verif.Netref.C80_exposed' depends on axioms: [propext, Classical.choice, Quot.sound]
'Verif.Netref.C80_private' depends on axioms: [propext, Classical.choice, Quot.sound]
'Verif.Netref.C80_release_partial' depends on axioms: [propext, Classical.choice, Quot.sound]
'Verif.Netref.C80_release_violated' depends on axioms: [propext, Quot.sound]
'Verif.Netref.C80_usable' depends on axioms: [propext, Classical.choice, Quot.sound]
'Verif.Older.C118_early_partial' depends on axioms: [propext, Classical.choice, Quot.sound]
'Verif.Older.C118_early_succeeds' depends on axioms: [propext, Classical.choice, Quot.sound]
'Verif.Older.C118_formats' depends on axioms: [propext, Classical.choice, Quot.sound]
'Verif.Older.C118_history_violated' depends on axioms: [propext]
'Verif.Older.C118_mandatory_violated' depends on axioms: [propext]
'Verif.Older.C118_middle_partial' depends on axioms: [propext, Classical.choice, Quot.sound]
'Verif.Older.C118_middle_succeeds' depends on axioms: [propext, Classical.choice, Quot.sound]
'Verif.Older.C118_newest' depends on axioms: [propext, Classical.choice, Quot.sound]
'Verif.Older.C118_selection_partial' depends on axioms: [propext, Classical.choice, Quot.sound]
'Verif.Origin.C51_comparison_raises' depends on axioms: [propext, Classical.choice, Quot.sound]
'Verif.Origin.C51_line' depends on axioms: [propext]
'Verif.Origin.C51_shift' depends on axioms: [propext, Classical.choice, Quot.sound]
'Verif.Origin.C51_strict_order' depends on axioms: [propext, Classical.choice, Quot.sound]
'Verif.Overrides.C31_bulk' depends on axioms: [propext, Classical.choice, Quot.sound]
'Verif.Overrides.C31_bulk_idempotent' depends on axioms: [propext, Classical.choice, Quot.sound]
'Verif.Overrides.C31_bulk_raised' depends on axioms: [propext, Classical.choice, Quot.sound]
'Verif.Overrides.C31_effective_partial' depends on axioms: [propext, Classical.choice, Quot.sound]
'Verif.Overrides.C31_idempotent' depends on axioms: [propext, Classical.choice, Quot.sound]
'Verif.Overrides.C31_last_wins_partial' depends on axioms: [propext, Classical.choice, Quot.sound]
'Verif.Overrides.C31_nested_violated' depends on axioms: [propext, Classical.choice, Quot.sound]
'Verif.Overrides.C31_plans_violated' depends on axioms: [propext, Classical.choice, Quot.sound]
'Verif.Overrides.C31_seen_partial' depends on axioms: [propext, Classical.choice, Quot.sound]
'Verif.Overrides.C31_sorted_violated' depends on axioms: [propext, Classical.choice, Quot.sound]
'Verif.Overrides.C32_agree_iff_partial' depends on axioms: [propext, Classical.choice, Quot.sound]
'Verif.Overrides.C32_invalid_violated' depends on axioms: [propext, Classical.choice, Quot.sound]
'Verif.Overrides.C32_map' depends on axioms: [propext, Classical.choice, Quot.sound]
'Verif.Overrides.C32_other_partial' depends on axioms: [propext, Classical.choice, Quot.sound]
'Verif.Overrides.C32_violated' depends on axioms: [propext, Classical.choice, Quot.sound]
'Verif.Packaging.C70_applies' depends on axioms: [propext, Classical.choice, Quot.sound]
'Verif.Packaging.C70_comment_violated' depends on axioms: [propext, Classical.choice, Quot.sound]
'Verif.Packaging.C70_last_resort_violated' depends on axioms: [propext, Classical.choice, Quot.sound]
'Verif.Packaging.C70_like_violated' depends on axioms: [propext, Classical.choice, Quot.sound]
'Verif.Packaging.C70_os_release' depends on axioms: [propext, Classical.choice, Quot.sound]
'Verif.Packaging.C70_refused' depends on axioms: [propext, Classical.choice, Quot.sound]
'Verif.Packaging.C70_relations' depends on axioms: [propext, Classical.choice, Quot.sound]
'Verif.Packaging.C70_run_partial' depends on axioms: [propext, Classical.choice, Quot.sound]
'Verif.Packaging.C70_twice_violated' depends on axioms: [propext, Classical.choice, Quot.sound]
'Verif.Packaging.C70_version_violated' depends on axioms: [propext, Classical.choice, Quot.sound]
'Verif.Pager.C120_empty_violated' depends on axioms: [propext, Classical.choice, Quot.sound]
'Verif.Pager.C120_exact' depends on axioms: [propext, Classical.choice, Quot.sound]
'Verif.Pager.C120_options_violated' depends on axioms: [propext, Classical.choice, Quot.sound]
'Verif.Pager.C120_partial' depends on axioms: [propext, Classical.choice, Quot.sound]
'Verif.Pager.C120_user' depends on axioms: [propext, Classical.choice, Quot.sound]
'Verif.Para.C128_box_partial' depends on axioms: [propext, Classical.choice, Quot.sound]
'Verif.Para.C128_box_violated' depends on axioms: [propext, Classical.choice, Quot.sound]
'Verif.Para.C128_crash' depends on axioms: [propext, Classical.choice, Quot.sound]
'Verif.Para.C128_words' depends on axioms: [propext, Classical.choice, Quot.sound]
'Verif.Params.C146_bound_violated' does not depend on any axioms
'Verif.Params.C146_equal' depends on axioms: [propext, Quot.sound]
'Verif.Params.C146_hash_partial' depends on axioms: [propext]
'Verif.Params.C146_hash_violated' depends on axioms: [propext, Quot.sound]
'Verif.Params.C146_lookup_partial' depends on axioms: [propext, Quot.sound]
'Verif.Params.C146_lookup_violated' depends on axioms: [propext, Classical.choice, Quot.sound]
'Verif.Params.C146_named_partial' depends on axioms: [propext, Classical.choice, Quot.sound]
'Verif.Params.C146_named_violated' depends on axioms: [propext, Classical.choice, Quot.sound]
'Verif.Params.C146_once' depends on axioms: [propext]
'Verif.Params.C146_reads' depends on axioms: [propext, Classical.choice, Quot.sound]
'Verif.Params.C146_refused' depends on axioms: [propext, Quot.sound]
'Verif.Password.C130_asked' depends on axioms: [propext, Quot.sound]
'Verif.Password.C130_delivered_partial' depends on axioms: [propext, Classical.choice, Quot.sound]
'Verif.Password.C130_early_violated' depends on axioms: [propext, Quot.sound]
'Verif.Password.C130_empty_violated' depends on axioms: [propext, Classical.choice, Quot.sound]
'Verif.Password.C130_encoding_violated' depends on axioms: [propext, Classical.choice, Quot.sound]
'Verif.Password.C130_long' depends on axioms: [propext, Quot.sound]
'Verif.Password.C130_once' depends on axioms: [propext, Classical.choice, Quot.sound]
'Verif.Password.C130_refused' depends on axioms: [propext, Quot.sound]
'Verif.Password.C130_restored' depends on axioms: [propext, Classical.choice, Quot.sound]
'Verif.Pattern.C30_alternation_violated' depends on axioms: [propext, Classical.choice, Quot.sound]
'Verif.Pattern.C30_dollar_violated' depends on axioms: [propext, Classical.choice, Quot.sound]
'Verif.Pattern.C30_escape_violated' depends on axioms: [propext, Classical.choice, Quot.sound]
'Verif.Pattern.C30_fixed_partial' depends on axioms: [propext, Classical.choice, Quot.sound]
'Verif.Pattern.C30_grammar' depends on axioms: [propext, Classical.choice, Quot.sound]
'Verif.Pattern.C30_namespace_violated' depends on axioms: [propext, Classical.choice, Quot.sound]
'Verif.Pattern.C30_own_namespace_partial' depends on axioms: [propext, Classical.choice, Quot.sound]
'Verif.Pattern.C30_pattern_partial' depends on axioms: [propext, Classical.choice, Quot.sound]
'Verif.Pattern.C30_plain' depends on axioms: [propext, Classical.choice, Quot.sound]
'Verif.Pattern.C30_qualified_partial' depends on axioms: [propext, Classical.choice, Quot.sound]
'Verif.Pattern.C30_unambiguous' depends on axioms: [propext, Classical.choice, Quot.sound]
'Verif.Pattern.C34_idempotent' depends on axioms: [propext, Classical.choice, Quot.sound]
'Verif.Pattern.C34_injective' depends on axioms: [propext, Classical.choice, Quot.sound]
'Verif.Pattern.C34_qualified' depends on axioms: [propext, Classical.choice, Quot.sound]
'Verif.Pattern.C34_result' depends on axioms: [propext, Classical.choice, Quot.sound]
'Verif.Peek.C89_damaged_violated' depends on axioms: [propext, Classical.choice, Quot.sound]
'Verif.Peek.C89_list_partial' depends on axioms: [propext, Classical.choice, Quot.sound]
'Verif.Peek.C89_list_stops' depends on axioms: [propext, Classical.choice, Quot.sound]
'Verif.Peek.C89_list_violated' depends on axioms: [propext, Classical.choice, Quot.sound]
'Verif.Peek.C89_old_partial' depends on axioms: [propext, Classical.choice, Quot.sound]
'Verif.Peek.C89_refused_partial' depends on axioms: [propext, Classical.choice, Quot.sound]
'Verif.Peek.C89_remove' depends on axioms: [propext, Quot.sound]
'Verif.Peek.C89_resumable' depends on axioms: [propext, Classical.choice, Quot.sound]
'Verif.Peek.C89_resume_partial' depends on axioms: [propext, Classical.choice, Quot.sound]
'Verif.Peek.C89_resume_violated' depends on axioms: [propext, Classical.choice, Quot.sound]
'Verif.Peek.C89_run_partial' depends on axioms: [propext, Classical.choice, Quot.sound]
'Verif.Peek.C89_saved' depends on axioms: [propext, Classical.choice, Quot.sound]
'Verif.Peek.C89_truncated_violated' depends on axioms: [propext, Classical.choice, Quot.sound]
'Verif.Peek.C89_unreadable_violated' depends on axioms: [propext, Classical.choice, Quot.sound]
'Verif.PlanCheck.C91_bad_violated' depends on axioms: [propext]
'Verif.PlanCheck.C91_bootstrap' depends on axioms: [propext, Classical.choice, Quot.sound]
'Verif.PlanCheck.C91_bootstrap_violated' depends on axioms: [propext]
'Verif.PlanCheck.C91_dead' depends on axioms: [propext, Classical.choice, Quot.sound]
'Verif.PlanCheck.C91_ends' depends on axioms: [propext, Classical.choice, Quot.sound]
'Verif.PlanCheck.C91_nested_violated' depends on axioms: [propext]
'Verif.PlanCheck.C91_selects_partial' depends on axioms: [propext, Classical.choice, Quot.sound]
'Verif.PlanCheck.C91_selects_violated' depends on axioms: [propext]
'Verif.PlanCheck.C91_twice' depends on axioms: [propext, Classical.choice, Quot.sound]
'Verif.PlanCheck.C91_twice_violated' depends on axioms: [propext]
'Verif.PlanCheck.C91_words_violated' depends on axioms: [propext, Classical.choice, Quot.sound]
'Verif.Plugins.C64_again' depends on axioms: [propext]
'Verif.Plugins.C64_complete_partial' depends on axioms: [propext, Quot.sound]
'Verif.Plugins.C64_entry_points_loaded' depends on axioms: [propext, Quot.sound]
'Verif.Plugins.C64_entry_points_partial' depends on axioms: [propext]
'Verif.Plugins.C64_fake' depends on axioms: [propext, Quot.sound]
'Verif.Plugins.C64_files' depends on axioms: [propext, Quot.sound]
'Verif.Plugins.C64_lazy_again' depends on axioms: [propext, Quot.sound]
'Verif.Plugins.C64_lazy_load_partial' depends on axioms: [propext, Quot.sound]
'Verif.Plugins.C64_lazy_partial' depends on axioms: [propext, Quot.sound]
'Verif.Plugins.C64_lazy_violated' depends on axioms: [propext, Classical.choice, Quot.sound]
'Verif.Plugins.C64_order' depends on axioms: [propext, Quot.sound]
'Verif.Plugins.C64_violated' depends on axioms: [propext, Classical.choice, Quot.sound]
'Verif.Pod.C24_accepts' depends on axioms: [propext, Classical.choice, Quot.sound]
'Verif.Pod.C24_hollow_partial' depends on axioms: [propext, Classical.choice, Quot.sound]
'Verif.Pod.C24_round_trip' depends on axioms: [propext, Classical.choice, Quot.sound]
'Verif.Pod.C24_violated' depends on axioms: [propext, Classical.choice, Quot.sound]
'Verif.Pod.C25_history_distinct' depends on axioms: [propext, Quot.sound]
'Verif.Pod.C25_history_partial' depends on axioms: [propext, Quot.sound]
'Verif.Pod.C25_violated' depends on axioms: [propext, Classical.choice, Quot.sound]
'Verif.Pod.C27_assign' depends on axioms: [propext, Quot.sound]
'Verif.Pod.C27_checks' depends on axioms: [propext, Quot.sound]
'Verif.Pod.C27_notifications' depends on axioms: [propext]
'Verif.Pod.C27_read_only' depends on axioms: [propext, Quot.sound]
'Verif.Pod.C27_unique_violated' depends on axioms: [propext, Quot.sound]
'Verif.Pod.C53_construct' depends on axioms: [propext, Classical.choice, Quot.sound]
'Verif.PodClass.C108_class' depends on axioms: [propext, Quot.sound]
'Verif.PodClass.C108_copy_iff' depends on axioms: [propext, Classical.choice, Quot.sound]
'Verif.PodClass.C108_copy_violated' depends on axioms: [propext, Classical.choice, Quot.sound]
'Verif.PodClass.C108_diamond_violated' depends on axioms: [propext, Classical.choice, Quot.sound]
'Verif.PodClass.C108_equal' depends on axioms: [propext, Classical.choice, Quot.sound]
'Verif.PodClass.C108_equivalence' depends on axioms: [propext, Classical.choice, Quot.sound]
'Verif.PodClass.C108_inherits' depends on axioms: [propext, Quot.sound]
'Verif.PodClass.C108_kind_violated' depends on axioms: [propext, Classical.choice, Quot.sound]
'Verif.PodClass.C108_less' depends on axioms: [propext, Classical.choice, Quot.sound]
'Verif.PodClass.C108_names' depends on axioms: [propext, Classical.choice, Quot.sound]
'Verif.PodClass.C108_none_violated' depends on axioms: [propext, Classical.choice, Quot.sound]
'Verif.PodClass.C108_order' depends on axioms: [propext, Quot.sound]
'Verif.PodClass.C108_podify' depends on axioms: [propext, Quot.sound]
'Verif.PodClass.C108_podify_violated' depends on axioms: [propext, Classical.choice, Quot.sound]
'Verif.Progress.C69_ratio_bounds' depends on axioms: [propext, Classical.choice, Quot.sound]
'Verif.Progress.C69_ratio_missing' depends on axioms: [propext, Classical.choice, Quot.sound]
'Verif.Progress.C69_ratio_partial' depends on axioms: [propext, Classical.choice, Quot.sound]
'Verif.Progress.C69_ratio_violated' depends on axioms: [propext, Classical.choice, Quot.sound]
'Verif.Qml.C131_answer_partial' depends on axioms: [propext, Quot.sound]
'Verif.Qml.C131_calm' depends on axioms: [propext, Quot.sound]
'Verif.Qml.C131_ends_partial' depends on axioms: [propext, Quot.sound]
'Verif.Qml.C131_helper_violated' depends on axioms: [propext, Quot.sound]
'Verif.Qml.C131_locale_violated' depends on axioms: [propext, Classical.choice, Quot.sound]
'Verif.Qml.C131_long_job_violated' depends on axioms: [propext, Classical.choice, Quot.sound]
'Verif.Qml.C131_long_report_violated' depends on axioms: [propext, Quot.sound]
'Verif.Qml.C131_result' depends on axioms: [propext, Quot.sound]
'Verif.Qualifiers.C12_composite_vote' depends on axioms: [propext, Classical.choice, Quot.sound]
'Verif.Qualifiers.C13_fast_path' depends on axioms: [propext, Classical.choice, Quot.sound]
'Verif.Qualifiers.C13_select_jobs' depends on axioms: [propext, Classical.choice, Quot.sound]
'Verif.RFC822.C14_loaded_values_stripped' depends on axioms: [propext, Quot.sound]
'Verif.RFC822.C14_round_trip_partial' depends on axioms: [propext, Classical.choice, Quot.sound]
'Verif.RFC822.C14_trailing_newline' depends on axioms: [propext, Classical.choice, Quot.sound]
'Verif.RFC822.C14_violated' depends on axioms: [propext, Classical.choice, Quot.sound]
'Verif.RFC822.C15_error_iff' depends on axioms: [propext, Classical.choice, Quot.sound]
'Verif.RFC822.C15_origins' depends on axioms: [propext, Classical.choice, Quot.sound]
'Verif.RFC822.C15_parse' depends on axioms: [propext, Classical.choice, Quot.sound]
'Verif.RFC822.C50_resource_output' depends on axioms: [propext, Classical.choice, Quot.sound]
'Verif.Registry.C126_added' depends on axioms: [propext, Classical.choice, Quot.sound]
'Verif.Registry.C126_query' depends on axioms: [propext, Classical.choice, Quot.sound]
'Verif.Registry.C126_removed_partial' depends on axioms: [propext, Classical.choice, Quot.sound]
'Verif.Registry.C126_removed_violated' depends on axioms: [propext, Quot.sound]
'Verif.Registry.C126_survives_partial' depends on axioms: [propext, Classical.choice, Quot.sound]
'Verif.Registry.C126_survives_violated' depends on axioms: [propext, Classical.choice, Quot.sound]
'Verif.Registry.C126_wire' depends on axioms: [propext, Classical.choice, Quot.sound]
'Verif.Remote.C76_finalize_violated' depends on axioms: [propext]
'Verif.Remote.C76_idle_violated' depends on axioms: [propext]
'Verif.Remote.C76_monitor_partial' depends on axioms: [propext, Quot.sound]
'Verif.Remote.C76_one_at_a_time' depends on axioms: [propext, Quot.sound]
'Verif.Remote.C76_output' depends on axioms: [propext, Quot.sound]
'Verif.Remote.C76_own_partial' depends on axioms: [propext, Quot.sound]
'Verif.Remote.C76_own_violated' depends on axioms: [propext]
'Verif.Remote.C76_password' depends on axioms: [propext, Classical.choice, Quot.sound]
'Verif.Remote.C76_progress_violated' depends on axioms: [propext, Quot.sound]
'Verif.Remote.C76_raised_violated' depends on axioms: [propext, Quot.sound]
'Verif.Remote.C76_results' depends on axioms: [propext, Quot.sound]
'Verif.Remote.C76_resumed_violated' depends on axioms: [propext]
'Verif.Remote.C76_session' depends on axioms: [propext, Classical.choice, Quot.sound]
'Verif.Remote.C76_twice_violated' depends on axioms: [propext]
'Verif.Remote.C76_whats_up_partial' depends on axioms: [propext, Quot.sound]
'Verif.Remote.C76_whole_violated' depends on axioms: [propext]
'Verif.Replies.C84_arrives_partial' depends on axioms: [propext, Classical.choice, Quot.sound]
'Verif.Replies.C84_asked' depends on axioms: [propext, Classical.choice, Quot.sound]
'Verif.Replies.C84_blame_violated' depends on axioms: [propext, Classical.choice, Quot.sound]
'Verif.Replies.C84_completes' depends on axioms: [propext, Classical.choice, Quot.sound]
'Verif.Replies.C84_late' depends on axioms: [propext, Classical.choice, Quot.sound]
'Verif.Replies.C84_lost_violated' depends on axioms: [propext, Classical.choice, Quot.sound]
'Verif.Replies.C84_never' depends on axioms: [propext, Classical.choice, Quot.sound]
'Verif.Replies.C84_once' depends on axioms: [propext, Classical.choice, Quot.sound]
'Verif.Replies.C84_own' depends on axioms: [propext, Classical.choice, Quot.sound]
'Verif.Replies.C84_own_async' depends on axioms: [propext, Classical.choice, Quot.sound]
'Verif.Replies.C84_unsent_violated' depends on axioms: [propext, Classical.choice, Quot.sound]
'Verif.Report.C110_colour' depends on axioms: [propext, Classical.choice, Quot.sound]
'Verif.Report.C110_colour_unique_partial' depends on axioms: [propext, Classical.choice, Quot.sound]
'Verif.Report.C110_column' depends on axioms: [propext, Classical.choice, Quot.sound]
'Verif.Report.C110_column_violated' depends on axioms: [propext, Classical.choice, Quot.sound]
'Verif.Report.C110_history_violated' depends on axioms: [propext, Classical.choice, Quot.sound]
'Verif.Report.C110_newline_violated' depends on axioms: [propext, Classical.choice, Quot.sound]
'Verif.Report.C110_plain' depends on axioms: [propext, Classical.choice, Quot.sound]
'Verif.Report.C110_raises' depends on axioms: [propext, Classical.choice, Quot.sound]
'Verif.Report.C110_skip_violated' depends on axioms: [propext, Classical.choice, Quot.sound]
'Verif.Report.C110_stdout' depends on axioms: [propext, Classical.choice, Quot.sound]
'Verif.Report.C110_terminal_violated' depends on axioms: [propext, Classical.choice, Quot.sound]
'Verif.Report.C110_unique_partial' depends on axioms: [propext, Classical.choice, Quot.sound]
'Verif.Resource.C16_accepts_iff_partial' depends on axioms: [propext, Quot.sound]
'Verif.Resource.C16_sandbox_partial' depends on axioms: [propext, Quot.sound]
'Verif.Resource.C16_violated' depends on axioms: [propext]
'Verif.Resource.C17_evaluate_iff' depends on axioms: [propext, Quot.sound]
'Verif.Resource.C17_evaluate_mono' depends on axioms: [propext, Quot.sound]
'Verif.Resource.C18_program' depends on axioms: [propext, Classical.choice, Quot.sound]
'Verif.Resource.C56_import_line' depends on axioms: [propext]
'Verif.Resource.C56_imported' depends on axioms: [propext]
'Verif.Resource.C56_resolution' depends on axioms: [propext, Quot.sound]
'Verif.Resource.C56_unique' depends on axioms: [propext, Quot.sound]
'Verif.Restart.C52_quote' depends on axioms: [propext, Classical.choice, Quot.sound]
'Verif.Restart.C52_respawn_violated' depends on axioms: [propext, Classical.choice, Quot.sound]
'Verif.Restart.C52_snappy_exact' depends on axioms: [propext, Classical.choice, Quot.sound]
'Verif.Restart.C52_snappy_violated' depends on axioms: [propext, Classical.choice, Quot.sound]
'Verif.Restart.C52_xdg_exact' depends on axioms: [propext, Classical.choice, Quot.sound]
'Verif.Restart.C52_xdg_partial' depends on axioms: [propext, Classical.choice, Quot.sound]
'Verif.Restart.C52_xdg_percent_violated' depends on axioms: [propext, Classical.choice, Quot.sound]
'Verif.Restart.C52_xdg_terminal_violated' depends on axioms: [propext, Classical.choice, Quot.sound]
'Verif.ResumeJson.C19_comments_violated' depends on axioms: [propext, Classical.choice, Quot.sound]
'Verif.ResumeJson.C19_duration_violated' depends on axioms: [propext, Classical.choice, Quot.sound]
'Verif.ResumeJson.C19_outside_violated' depends on axioms: [propext, Classical.choice, Quot.sound]
'Verif.ResumeJson.C19_result_needs' depends on axioms: [propext, Classical.choice, Quot.sound]
'Verif.ResumeJson.C19_result_partial' depends on axioms: [propext, Classical.choice, Quot.sound]
'Verif.ResumeJson.C19_shown' depends on axioms: [propext, Quot.sound]
'Verif.ResumeJson.C19_unchanged' depends on axioms: [propext, Quot.sound]
'Verif.ResumeJson.C23_accepted' depends on axioms: [propext, Classical.choice, Quot.sound]
'Verif.ResumeJson.C23_checksum' depends on axioms: [propext, Classical.choice, Quot.sound]
'Verif.ResumeJson.C23_clash_violated' depends on axioms: [propext, Classical.choice, Quot.sound]
'Verif.ResumeJson.C23_envelope_partial' depends on axioms: [propext, Classical.choice, Quot.sound]
'Verif.ResumeJson.C23_envelope_violated' depends on axioms: [propext, Classical.choice, Quot.sound]
'Verif.ResumeJson.C23_json_partial' depends on axioms: [propext, Classical.choice, Quot.sound]
'Verif.ResumeJson.C23_location_violated' depends on axioms: [propext, Classical.choice, Quot.sound]
'Verif.ResumeJson.C23_log_violated' depends on axioms: [propext, Classical.choice, Quot.sound]
'Verif.ResumeJson.C23_metadata_exact' depends on axioms: [propext, Classical.choice, Quot.sound]
'Verif.ResumeJson.C23_null_violated' depends on axioms: [propext, Classical.choice, Quot.sound]
'Verif.ResumeJson.C23_program_violated' depends on axioms: [propext, Classical.choice, Quot.sound]
'Verif.ResumeJson.C23_result_exact' depends on axioms: [propext, Classical.choice, Quot.sound]
'Verif.ResumeJson.C23_undocumented' does not depend on any axioms
'Verif.ResumeJson.C23_unread' depends on axioms: [propext]
'Verif.ResumeJson.C23_version' depends on axioms: [propext, Classical.choice, Quot.sound]
'Verif.Retry.C90_blocked_violated' depends on axioms: [propext, Quot.sound]
'Verif.Retry.C90_limit' depends on axioms: [propext, Quot.sound]
'Verif.Retry.C90_result_violated' depends on axioms: [propext, Quot.sound]
'Verif.Retry.C90_results' depends on axioms: [propext, Quot.sound]
'Verif.Retry.C90_saved_violated' depends on axioms: [propext, Quot.sound]
'Verif.Retry.C90_started' depends on axioms: [propext, Classical.choice, Quot.sound]
'Verif.Retry.C90_todo' depends on axioms: [propext, Classical.choice, Quot.sound]
'Verif.Retry.C90_tries' depends on axioms: [propext, Quot.sound]
'Verif.Retry.C90_unknown' depends on axioms: [propext, Quot.sound]
'Verif.Runner.C38_crash_violated' depends on axioms: [propext, Classical.choice, Quot.sound]
'Verif.Runner.C38_dry' depends on axioms: [propext, Classical.choice, Quot.sound]
'Verif.Runner.C38_dry_runs' depends on axioms: [propext, Classical.choice, Quot.sound]
'Verif.Runner.C38_exact' depends on axioms: [propext, Classical.choice, Quot.sound]
'Verif.Runner.C38_partial' depends on axioms: [propext, Classical.choice, Quot.sound]
'Verif.Runner.C38_pass_sound' depends on axioms: [propext, Classical.choice, Quot.sound]
'Verif.Runner.C38_permission' depends on axioms: [propext, Classical.choice, Quot.sound]
'Verif.Runner.C38_qml' depends on axioms: [propext, Classical.choice, Quot.sound]
'Verif.Runner.C38_undecided' depends on axioms: [propext, Classical.choice, Quot.sound]
'Verif.Runner.C38_unknown' depends on axioms: [propext, Classical.choice, Quot.sound]
'Verif.Runner.C48_collision' depends on axioms: [propext, Classical.choice, Quot.sound]
'Verif.Runner.C48_inside' depends on axioms: [propext, Classical.choice, Quot.sound]
'Verif.Runner.C48_partial' depends on axioms: [propext, Classical.choice, Quot.sound]
'Verif.Runner.C48_violated' depends on axioms: [propext, Classical.choice, Quot.sound]
'Verif.ScriptCmd.C140_binary_violated' depends on axioms: [propext, Classical.choice, Quot.sound]
'Verif.ScriptCmd.C140_code_partial' depends on axioms: [propext, Classical.choice, Quot.sound]
'Verif.ScriptCmd.C140_forbidden_violated' depends on axioms: [propext, Classical.choice, Quot.sound]
'Verif.ScriptCmd.C140_lines_partial' depends on axioms: [propext, Classical.choice, Quot.sound]
'Verif.ScriptCmd.C140_newlines' depends on axioms: [propext]
'Verif.ScriptCmd.C140_no_command' depends on axioms: [propext, Classical.choice, Quot.sound]
'Verif.ScriptCmd.C140_no_job' depends on axioms: [propext, Classical.choice, Quot.sound]
'Verif.ScriptCmd.C140_same_code_violated' depends on axioms: [propext, Classical.choice, Quot.sound]
'Verif.Sdist.C123_content' depends on axioms: [propext, Classical.choice, Quot.sound]
'Verif.Sdist.C123_locale_violated' depends on axioms: [propext, Classical.choice, Quot.sound]
'Verif.Sdist.C123_names_partial' depends on axioms: [propext, Quot.sound]
'Verif.Sdist.C123_names_violated' depends on axioms: [propext, Classical.choice, Quot.sound]
'Verif.Sdist.C123_signed_partial' depends on axioms: [propext, Classical.choice, Quot.sound]
'Verif.Sdist.C123_signed_violated' depends on axioms: [propext, Classical.choice, Quot.sound]
'Verif.Sdist.C123_status_violated' depends on axioms: [propext, Classical.choice, Quot.sound]
'Verif.Sections.C107_colon_violated' depends on axioms: [propext, Classical.choice, Quot.sound]
'Verif.Sections.C107_default_violated' depends on axioms: [propext, Classical.choice, Quot.sound]
'Verif.Sections.C107_environment' depends on axioms: [propext, Classical.choice, Quot.sound]
'Verif.Sections.C107_files' depends on axioms: [propext, Classical.choice, Quot.sound]
'Verif.Sections.C107_get' depends on axioms: [propext, Classical.choice, Quot.sound]
'Verif.Sections.C107_param' depends on axioms: [propext, Classical.choice, Quot.sound]
'Verif.Sections.C107_percent_violated' depends on axioms: [propext, Classical.choice, Quot.sound]
'Verif.Sections.C107_raises' depends on axioms: [propext, Classical.choice, Quot.sound]
'Verif.Sections.C107_round_partial' depends on axioms: [propext, Classical.choice, Quot.sound]
'Verif.Sections.C107_section' depends on axioms: [propext, Classical.choice, Quot.sound]
'Verif.Sections.C107_section_partial' depends on axioms: [propext, Classical.choice, Quot.sound]
'Verif.Sections.C107_stale_violated' depends on axioms: [propext, Classical.choice, Quot.sound]
'Verif.Sections.C107_syntax' depends on axioms: [propext, Classical.choice, Quot.sound]
'Verif.Sections.C107_unset_violated' depends on axioms: [propext, Classical.choice, Quot.sound]
'Verif.Sections.C107_value' depends on axioms: [propext, Quot.sound]
'Verif.Sections.C107_write_iff' depends on axioms: [propext, Classical.choice, Quot.sound]
'Verif.Select.C42_members_partial' depends on axioms: [propext, Classical.choice, Quot.sound]
'Verif.Select.C42_retry_exact' depends on axioms: [propext, Classical.choice, Quot.sound]
'Verif.Select.C42_retry_violated' depends on axioms: [propext, Classical.choice, Quot.sound]
'Verif.Select.C42_start' depends on axioms: [propext, Classical.choice, Quot.sound]
'Verif.Select.C42_useless' depends on axioms: [propext, Classical.choice, Quot.sound]
'Verif.SendQueue.C81_blame_violated' depends on axioms: [propext]
'Verif.SendQueue.C81_complete' depends on axioms: [propext, Quot.sound]
'Verif.SendQueue.C81_drains' depends on axioms: [propext, Quot.sound]
'Verif.SendQueue.C81_forgotten_violated' depends on axioms: [propext]
'Verif.SendQueue.C81_order' depends on axioms: [propext, Quot.sound]
'Verif.SendQueue.C81_returns' depends on axioms: [propext, Quot.sound]
'Verif.Serve.C148_authenticated' depends on axioms: [propext, Quot.sound]
'Verif.Serve.C148_closed_partial' depends on axioms: [propext, Quot.sound]
'Verif.Serve.C148_open' depends on axioms: [propext, Quot.sound]
'Verif.Serve.C148_race_violated' depends on axioms: [propext, Quot.sound]
'Verif.Session.C04_update_desired_partial' depends on axioms: [propext, Classical.choice, Quot.sound]
'Verif.Session.C04_violated' depends on axioms: [propext]
'Verif.Session.C05_can_start_exact_partial' depends on axioms: [propext, Classical.choice, Quot.sound]
'Verif.Session.C05_can_start_partial' depends on axioms: [propext, Classical.choice, Quot.sound]
'Verif.Session.C05_violated' depends on axioms: [propext]
'Verif.Session.C06_readiness_fresh' depends on axioms: [propext, Classical.choice, Quot.sound]
'Verif.Session.C07_run_in_order' depends on axioms: [propext, Classical.choice, Quot.sound]
'Verif.Session.C08_cannot_start' depends on axioms: [propext, Quot.sound]
'Verif.Session.C08_in_session' depends on axioms: [propext, Classical.choice, Quot.sound]
'Verif.Session.C09_add_clash' depends on axioms: [propext, Classical.choice, Quot.sound]
'Verif.Session.C09_add_identical' depends on axioms: [propext, Classical.choice, Quot.sound]
'Verif.Session.C09_bookkeeping' depends on axioms: [propext, Classical.choice, Quot.sound]
'Verif.Session.C10_trim' depends on axioms: [propext, Classical.choice, Quot.sound]
'Verif.Session.C134_cause' depends on axioms: [propext, Classical.choice, Quot.sound]
'Verif.Session.C134_each' depends on axioms: [propext, Classical.choice, Quot.sound]
'Verif.Session.C134_flag_violated' depends on axioms: [propext]
'Verif.Session.C134_older_partial' depends on axioms: [propext, Quot.sound]
'Verif.Session.C134_resource_violated' depends on axioms: [propext]
'Verif.Session.C134_spread' depends on axioms: [propext, Classical.choice, Quot.sound]
'Verif.Session.C134_started' depends on axioms: [propext, Classical.choice, Quot.sound]
'Verif.Session.C69_done' depends on axioms: [propext, Classical.choice, Quot.sound]
'Verif.Session.C69_ends' depends on axioms: [propext, Classical.choice, Quot.sound]
'Verif.Session.C69_once' depends on axioms: [propext, Classical.choice, Quot.sound]
'Verif.Session.C69_ready' depends on axioms: [propext, Classical.choice, Quot.sound]
'Verif.SessionList.C49_errors' depends on axioms: [propext, Classical.choice, Quot.sound]
'Verif.SessionList.C49_listing_partial' depends on axioms: [propext, Classical.choice, Quot.sound]
'Verif.SessionList.C49_violated' depends on axioms: [propext, Classical.choice, Quot.sound]
'Verif.Shared.C141_clash' depends on axioms: [propext, Classical.choice, Quot.sound]
'Verif.Shared.C141_field' depends on axioms: [propext]
'Verif.Shared.C141_itself_violated' depends on axioms: [propext, Classical.choice, Quot.sound]
'Verif.Shared.C141_once' depends on axioms: [propext, Classical.choice, Quot.sound]
'Verif.Shared.C141_order_violated' depends on axioms: [propext, Classical.choice, Quot.sound]
'Verif.Shared.C141_raises' depends on axioms: [propext, Classical.choice, Quot.sound]
'Verif.Shared.C141_references' depends on axioms: [propext, Classical.choice, Quot.sound]
'Verif.Shared.C141_retry' depends on axioms: [propext, Classical.choice, Quot.sound]
'Verif.Shared.C141_same_partial' depends on axioms: [propext, Classical.choice, Quot.sound]
'Verif.Shared.C141_stale_violated' depends on axioms: [propext, Classical.choice, Quot.sound]
'Verif.Shared.C141_unique' depends on axioms: [propext, Classical.choice, Quot.sound]
'Verif.Sheet.C75_again_violated' depends on axioms: [propext, Classical.choice, Quot.sound]
'Verif.Sheet.C75_attachments' depends on axioms: [propext, Classical.choice, Quot.sound]
'Verif.Sheet.C75_binary_violated' depends on axioms: [propext, Classical.choice, Quot.sound]
'Verif.Sheet.C75_cells' depends on axioms: [propext, Classical.choice, Quot.sound]
'Verif.Sheet.C75_clash_violated' depends on axioms: [propext, Classical.choice, Quot.sound]
'Verif.Sheet.C75_complete' depends on axioms: [propext, Classical.choice, Quot.sound]
'Verif.Sheet.C75_crash_violated' depends on axioms: [propext, Classical.choice, Quot.sound]
'Verif.Sheet.C75_local_violated' depends on axioms: [propext, Classical.choice, Quot.sound]
'Verif.Sheet.C75_log' depends on axioms: [propext, Classical.choice, Quot.sound]
'Verif.Sheet.C75_once' depends on axioms: [propext, Classical.choice, Quot.sound]
'Verif.Sheet.C75_outcome_violated' depends on axioms: [propext, Classical.choice, Quot.sound]
'Verif.Sheet.C75_rows_partial' depends on axioms: [propext, Classical.choice, Quot.sound]
'Verif.Sheet.C75_totals' depends on axioms: [propext, Classical.choice, Quot.sound]
'Verif.Sheet.C75_unknown_category_violated' depends on axioms: [propext, Classical.choice, Quot.sound]
'Verif.Shell.C119_accepts' depends on axioms: [propext, Classical.choice, Quot.sound]
'Verif.Shell.C119_accepts_violated' depends on axioms: [propext, Classical.choice, Quot.sound]
'Verif.Shell.C119_exact' depends on axioms: [propext, Classical.choice, Quot.sound]
'Verif.Shell.C119_issue' depends on axioms: [propext, Classical.choice, Quot.sound]
'Verif.Shell.C119_near' depends on axioms: [propext, Classical.choice, Quot.sound]
'Verif.Shell.C119_partial' depends on axioms: [propext, Classical.choice, Quot.sound]
'Verif.Shell.C119_rejects_violated' depends on axioms: [propext, Classical.choice, Quot.sound]
'Verif.Shell.C119_shift_violated' depends on axioms: [propext, Classical.choice, Quot.sound]
'Verif.ShowCmd.C142_archive' depends on axioms: [propext, Classical.choice, Quot.sound]
'Verif.ShowCmd.C142_details' depends on axioms: [propext, Classical.choice, Quot.sound]
'Verif.ShowCmd.C142_hidden_violated' depends on axioms: [propext, Classical.choice, Quot.sound]
'Verif.ShowCmd.C142_show_partial' depends on axioms: [propext, Classical.choice, Quot.sound]
'Verif.ShowCmd.C142_stops' depends on axioms: [propext, Classical.choice, Quot.sound]
'Verif.ShowCmd.C142_twin_violated' depends on axioms: [propext, Classical.choice, Quot.sound]
'Verif.ShowCmd.C142_unsaved_violated' depends on axioms: [propext, Classical.choice, Quot.sound]
'Verif.Sibling.C105_added_partial' depends on axioms: [propext, Classical.choice, Quot.sound]
'Verif.Sibling.C105_again_partial' depends on axioms: [propext, Classical.choice, Quot.sound]
'Verif.Sibling.C105_both_partial' depends on axioms: [propext, Classical.choice, Quot.sound]
'Verif.Sibling.C105_braces_violated' depends on axioms: [propext, Classical.choice, Quot.sound]
'Verif.Sibling.C105_brings_none' depends on axioms: [propext, Classical.choice, Quot.sound]
'Verif.Sibling.C105_brings_partial' depends on axioms: [propext, Classical.choice, Quot.sound]
'Verif.Sibling.C105_clash_violated' depends on axioms: [propext, Classical.choice, Quot.sound]
'Verif.Sibling.C105_comment_violated' depends on axioms: [propext, Classical.choice, Quot.sound]
'Verif.Sibling.C105_flag_violated' depends on axioms: [propext, Classical.choice, Quot.sound]
'Verif.Sibling.C105_inserts' depends on axioms: [propext, Classical.choice, Quot.sound]
'Verif.Sibling.C105_json' depends on axioms: [propext, Classical.choice, Quot.sound]
'Verif.Sibling.C105_override_violated' depends on axioms: [propext, Classical.choice, Quot.sound]
'Verif.Sibling.C105_refused' depends on axioms: [propext, Classical.choice, Quot.sound]
'Verif.Sibling.C105_session_partial' depends on axioms: [propext, Classical.choice, Quot.sound]
'Verif.Sibling.C105_sibling_partial' depends on axioms: [propext, Classical.choice, Quot.sound]
'Verif.Sibling.C105_suspended_partial' depends on axioms: [propext, Classical.choice, Quot.sound]
'Verif.Sibling.C105_translated_partial' depends on axioms: [propext, Classical.choice, Quot.sound]
'Verif.Sibling.C105_translation_violated' depends on axioms: [propext, Classical.choice, Quot.sound]
'Verif.Sibling.C105_unnamed' depends on axioms: [propext, Classical.choice, Quot.sound]
'Verif.Signal.C43_args' depends on axioms: [propext, Classical.choice, Quot.sound]
'Verif.Signal.C43_connect' depends on axioms: [propext]
'Verif.Signal.C43_disconnect' depends on axioms: [propext, Classical.choice, Quot.sound]
'Verif.Signal.C43_fire' depends on axioms: [propext, Classical.choice, Quot.sound]
'Verif.Signal.C43_first_violated' depends on axioms: [propext, Quot.sound]
'Verif.Signal.C43_fuel' depends on axioms: [propext, Quot.sound]
'Verif.Signal.C43_remove_exact' depends on axioms: [propext, Classical.choice, Quot.sound]
'Verif.Signal.C43_remove_partial' depends on axioms: [propext, Classical.choice, Quot.sound]
'Verif.Signal.C43_remove_pass_violated' depends on axioms: [propext, Quot.sound]
'Verif.Signal.C43_remove_violated' depends on axioms: [propext, Quot.sound]
'Verif.Signal.C43_undo' depends on axioms: [propext, Classical.choice, Quot.sound]
'Verif.Signal.C43_undo_violated' depends on axioms: [propext, Quot.sound]
'Verif.Skel.C149_created' depends on axioms: [propext, Classical.choice, Quot.sound]
'Verif.Skel.C149_domain' depends on axioms: [propext, Quot.sound]
'Verif.Skel.C149_domain_chars' depends on axioms: [propext, Quot.sound]
'Verif.Skel.C149_kept' depends on axioms: [propext, Classical.choice, Quot.sound]
'Verif.Skel.C149_name' depends on axioms: [propext, Quot.sound]
'Verif.Skel.C149_newline_violated' depends on axioms: [propext, Classical.choice, Quot.sound]
'Verif.Skel.C149_potfiles_violated' depends on axioms: [propext, Classical.choice, Quot.sound]
'Verif.Skel.C149_refused' depends on axioms: [propext, Classical.choice, Quot.sound]
'Verif.Stats.C11_category_outcome' depends on axioms: [propext, Classical.choice, Quot.sound]
'Verif.Stats.C11_global_outcome' depends on axioms: [propext, Classical.choice, Quot.sound]
'Verif.Stats.C11_outcome_stats' depends on axioms: [propext, Quot.sound]
'Verif.Stats.C47_duration_text' depends on axioms: [propext, Quot.sound]
'Verif.Stats.C47_estimated_duration_partial' depends on axioms: [propext, Quot.sound]
'Verif.Stats.C47_violated' depends on axioms: [propext, Quot.sound]
'Verif.Storage.C21_checkpoint_crash' depends on axioms: [propext, Quot.sound]
'Verif.Storage.C21_durable' depends on axioms: [propext, Quot.sound]
'Verif.Storage.C21_load_complete' depends on axioms: [propext, Quot.sound]
'Verif.Storage.C21_load_ok' depends on axioms: [propext]
'Verif.Storage.C21_power_partial' depends on axioms: [propext, Quot.sound]
'Verif.Storage.C21_power_violated' depends on axioms: [propext]
'Verif.Storage.C21_process_crash' depends on axioms: [propext, Quot.sound]
'Verif.Storage.C22_failures_surface_partial' depends on axioms: [propext, Quot.sound]
'Verif.Storage.C22_fsync_violated' depends on axioms: [propext]
'Verif.Storage.C22_lock_cleared' depends on axioms: [propext, Quot.sound]
'Verif.Storage.C22_recovers' depends on axioms: [propext, Quot.sound]
'Verif.Storage.C22_rename_violated' depends on axioms: [propext]
'Verif.Storage.C22_stored_partial' depends on axioms: [propext, Quot.sound]
'Verif.Storage.C22_write_error_hidden' depends on axioms: [propext]
'Verif.Stream.C96_file' depends on axioms: [propext, Quot.sound]
'Verif.Stream.C96_long_violated' depends on axioms: [propext, Classical.choice, Quot.sound]
'Verif.Stream.C96_name_violated' depends on axioms: [propext, Classical.choice, Quot.sound]
'Verif.Stream.C96_other' depends on axioms: [propext, Classical.choice, Quot.sound]
'Verif.Stream.C96_plain' depends on axioms: [propext, Classical.choice, Quot.sound]
'Verif.Stream.C96_send' depends on axioms: [propext, Classical.choice, Quot.sound]
'Verif.Stream.C96_short' depends on axioms: [propext, Classical.choice, Quot.sound]
'Verif.Stream.C96_stdout_partial' depends on axioms: [propext, Classical.choice, Quot.sound]
'Verif.Submission.C102_attachment_violated' depends on axioms: [propext, Classical.choice, Quot.sound]
'Verif.Submission.C102_backslash_violated' depends on axioms: [propext, Classical.choice, Quot.sound]
'Verif.Submission.C102_entities_partial' depends on axioms: [propext, Classical.choice, Quot.sound]
'Verif.Submission.C102_entity_violated' depends on axioms: [propext, Classical.choice, Quot.sound]
'Verif.Submission.C102_memory_violated' depends on axioms: [propext, Classical.choice, Quot.sound]
'Verif.Submission.C102_reads_partial' depends on axioms: [propext, Classical.choice, Quot.sound]
'Verif.Submission.C102_snap_violated' depends on axioms: [propext, Classical.choice, Quot.sound]
'Verif.Submission.C102_stamp_violated' depends on axioms: [propext, Classical.choice, Quot.sound]
'Verif.Suspend.C19_C20_cycles_succeed' depends on axioms: [propext, Classical.choice, Quot.sound]
'Verif.Suspend.C19_history_violated' depends on axioms: [propext]
'Verif.Suspend.C19_hollow_violated' depends on axioms: [propext]
'Verif.Suspend.C19_result_violated' depends on axioms: [propext]
'Verif.Suspend.C19_results_partial' depends on axioms: [propext, Classical.choice, Quot.sound]
'Verif.Suspend.C20_desired_violated' depends on axioms: [propext]
'Verif.Suspend.C20_run_list_violated' depends on axioms: [propext]
'Verif.Suspend.C20_selection_partial' depends on axioms: [propext, Classical.choice, Quot.sound]
'Verif.Suspend.C23_results_terminate' depends on axioms: [propext, Quot.sound]
'Verif.SuspendJson.C19_json_object' depends on axioms: [propext, Classical.choice, Quot.sound]
'Verif.SuspendJson.C19_json_partial' depends on axioms: [propext, Classical.choice, Quot.sound]
'Verif.Symbols.C114_checks_partial' depends on axioms: [propext, Classical.choice, Quot.sound]
'Verif.Symbols.C114_compare' depends on axioms: [propext, Classical.choice, Quot.sound]
'Verif.Symbols.C114_define' depends on axioms: [propext, Classical.choice, Quot.sound]
'Verif.Symbols.C114_fields_partial' depends on axioms: [propext, Classical.choice, Quot.sound]
'Verif.Symbols.C114_listed_partial' depends on axioms: [propext, Classical.choice, Quot.sound]
'Verif.Symbols.C114_meta_violated' depends on axioms: [propext, Classical.choice, Quot.sound]
'Verif.Symbols.C114_other' does not depend on any axioms
'Verif.Symbols.C114_refused' depends on axioms: [propext, Classical.choice, Quot.sound]
'Verif.Symbols.C114_same' depends on axioms: [propext, Classical.choice, Quot.sound]
'Verif.Symbols.C114_twice_violated' depends on axioms: [propext, Classical.choice, Quot.sound]
'Verif.Symbols.C114_types' depends on axioms: [propext, Classical.choice, Quot.sound]
'Verif.Sysinfo.C132_addon_violated' depends on axioms: [propext, Classical.choice, Quot.sound]
'Verif.Sysinfo.C132_chipset_violated' depends on axioms: [propext, Classical.choice, Quot.sound]
'Verif.Sysinfo.C132_devices_partial' depends on axioms: [propext, Classical.choice, Quot.sound]
'Verif.Sysinfo.C132_fails' depends on axioms: [propext, Classical.choice, Quot.sound]
'Verif.Sysinfo.C132_lost_violated' depends on axioms: [propext, Classical.choice, Quot.sound]
'Verif.Sysinfo.C132_missing' depends on axioms: [propext, Classical.choice, Quot.sound]
'Verif.Sysinfo.C132_none_violated' depends on axioms: [propext, Classical.choice, Quot.sound]
'Verif.Sysinfo.C132_packages' depends on axioms: [propext, Classical.choice, Quot.sound]
'Verif.Sysinfo.C132_processors_violated' depends on axioms: [propext, Classical.choice, Quot.sound]
'Verif.Sysinfo.C132_resources_partial' depends on axioms: [propext, Classical.choice, Quot.sound]
'Verif.Sysinfo.C132_titles' depends on axioms: [propext, Classical.choice, Quot.sound]
'Verif.Sysinfo.C132_vram_violated' depends on axioms: [propext, Classical.choice, Quot.sound]
'Verif.Template.C35_content' depends on axioms: [propext, Classical.choice, Quot.sound]
'Verif.Template.C35_fields' depends on axioms: [propext, Quot.sound]
'Verif.Template.C35_index_violated' depends on axioms: [propext, Classical.choice, Quot.sound]
'Verif.Template.C35_instantiate' depends on axioms: [propext, Classical.choice, Quot.sound]
'Verif.Template.C35_lookups_partial' depends on axioms: [propext, Classical.choice, Quot.sound]
'Verif.Template.C35_lookups_violated' depends on axioms: [propext, Classical.choice, Quot.sound]
'Verif.Template.C35_succeeds' depends on axioms: [propext, Classical.choice, Quot.sound]
'Verif.Template.C54_assertion_violated' depends on axioms: [propext, Classical.choice, Quot.sound]
'Verif.Template.C54_provider_partial' depends on axioms: [propext, Classical.choice, Quot.sound]
'Verif.Template.C54_template_violated' depends on axioms: [propext, Classical.choice, Quot.sound]
'Verif.Template.C54_unknown' depends on axioms: [propext, Classical.choice, Quot.sound]
'Verif.Tools.C97_colon_violated' depends on axioms: [propext, Classical.choice, Quot.sound]
'Verif.Tools.C97_decision' depends on axioms: [propext, Classical.choice, Quot.sound]
'Verif.Tools.C97_every' depends on axioms: [propext, Classical.choice, Quot.sound]
'Verif.Tools.C97_first' depends on axioms: [propext, Classical.choice, Quot.sound]
'Verif.Tools.C97_only' depends on axioms: [propext, Classical.choice, Quot.sound]
'Verif.Tools.C97_others' depends on axioms: [propext, Classical.choice, Quot.sound]
'Verif.Tools.C97_own_partial' depends on axioms: [propext, Classical.choice, Quot.sound]
'Verif.Tools.C97_own_violated' depends on axioms: [propext, Classical.choice, Quot.sound]
'Verif.Tools.C97_path' depends on axioms: [propext, Classical.choice, Quot.sound]
'Verif.Tools.C97_shared' depends on axioms: [propext, Classical.choice, Quot.sound]
'Verif.Tools.C97_system' depends on axioms: [propext, Classical.choice, Quot.sound]
'Verif.Tools.C97_unset_violated' depends on axioms: [propext, Classical.choice, Quot.sound]
'Verif.Tools.C97_user_violated' depends on axioms: [propext, Classical.choice, Quot.sound]
'Verif.Translate.C116_directory_violated' depends on axioms: [propext, Classical.choice, Quot.sound]
'Verif.Translate.C116_domain_violated' depends on axioms: [propext, Classical.choice, Quot.sound]
'Verif.Translate.C116_partial' depends on axioms: [propext, Classical.choice, Quot.sound]
'Verif.Translate.C116_same' depends on axioms: [propext]
'Verif.Translate.C116_stale_violated' depends on axioms: [propext, Classical.choice, Quot.sound]
'Verif.Transport.C74_bytes_violated' depends on axioms: [propext, Classical.choice, Quot.sound]
'Verif.Transport.C74_encoding_violated' depends on axioms: [propext, Classical.choice, Quot.sound]
'Verif.Transport.C74_file' depends on axioms: [propext, Classical.choice, Quot.sound]
'Verif.Transport.C74_options' depends on axioms: [propext, Classical.choice, Quot.sound]
'Verif.Transport.C74_other_encoding' depends on axioms: [propext, Classical.choice, Quot.sound]
'Verif.Transport.C74_stdout_partial' depends on axioms: [propext, Classical.choice, Quot.sound]
'Verif.Transport.C74_stdout_short' depends on axioms: [propext, Classical.choice, Quot.sound]
'Verif.Transport.C74_stdout_violated' depends on axioms: [propext, Classical.choice, Quot.sound]
'Verif.Transport.C74_stream' depends on axioms: [propext, Classical.choice, Quot.sound]
'Verif.Transport.C74_submitted' depends on axioms: [propext]
'Verif.Transport.C74_submitted_file' depends on axioms: [propext, Classical.choice, Quot.sound]
'Verif.Transport.C74_upload' depends on axioms: [propext, Classical.choice, Quot.sound]
'Verif.Usage.C136_assistant' depends on axioms: [propext, Classical.choice, Quot.sound]
'Verif.Usage.C136_back_partial' depends on axioms: [propext, Quot.sound]
'Verif.Usage.C136_decision_partial' depends on axioms: [propext, Quot.sound]
'Verif.Usage.C136_documented' depends on axioms: [propext, Classical.choice, Quot.sound]
'Verif.Usage.C136_message_partial' depends on axioms: [propext, Quot.sound]
'Verif.Usage.C136_of' depends on axioms: [propext, Classical.choice, Quot.sound]
'Verif.Usage.C136_reported' depends on axioms: [propext, Quot.sound]
'Verif.Usage.C136_twice_violated' depends on axioms: [propext, Classical.choice, Quot.sound]
'Verif.UsageText.C138_brackets_violated' depends on axioms: [propext, Classical.choice, Quot.sound]
'Verif.UsageText.C138_given' depends on axioms: [propext, Quot.sound]
'Verif.UsageText.C138_long_name' depends on axioms: [propext, Quot.sound]
'Verif.UsageText.C138_one_line' depends on axioms: [propext, Quot.sound]
'Verif.UsageText.C138_parts' depends on axioms: [propext, Quot.sound]
'Verif.UsageText.C138_short_name' depends on axioms: [propext, Quot.sound]
'Verif.Validate.C72_cycle_violated' depends on axioms: [propext]
'Verif.Validate.C72_installed_crash_violated' depends on axioms: [propext, Classical.choice, Quot.sound]
'Verif.Validate.C72_installed_valid_violated' depends on axioms: [propext, Classical.choice, Quot.sound]
'Verif.Validate.C72_repeated_violated' depends on axioms: [propext, Quot.sound]
'Verif.Validate.C72_resolves_partial' depends on axioms: [propext, Classical.choice, Quot.sound]
'Verif.Validate.C72_strict' depends on axioms: [propext, Classical.choice, Quot.sound]
'Verif.Validate.C72_valid_partial' depends on axioms: [propext, Classical.choice, Quot.sound]
'Verif.Varies.C93_distinct_partial' depends on axioms: [propext, Classical.choice, Quot.sound]
'Verif.Varies.C93_distinct_violated' depends on axioms: [propext, Classical.choice, Quot.sound]
'Verif.Varies.C93_filter_violated' depends on axioms: [propext, Classical.choice, Quot.sound]
'Verif.Varies.C93_fixed' depends on axioms: [propext, Classical.choice, Quot.sound]
'Verif.Varies.C93_marked_violated' depends on axioms: [propext, Classical.choice, Quot.sound]
'Verif.Varies.C93_numbered' depends on axioms: [propext, Classical.choice, Quot.sound]
'Verif.Varies.C93_plain' depends on axioms: [propext, Classical.choice, Quot.sound]
'Verif.Varies.C93_unable_violated' depends on axioms: [propext, Classical.choice, Quot.sound]
'Verif.Varies.C93_unknown_violated' depends on axioms: [propext, Classical.choice, Quot.sound]
'Verif.Verdict.C99_blockers' depends on axioms: [propext, Classical.choice, Quot.sound]
'Verif.Verdict.C99_crash_violated' depends on axioms: [propext, Classical.choice, Quot.sound]
'Verif.Verdict.C99_devices_violated' depends on axioms: [propext, Classical.choice, Quot.sound]
'Verif.Verdict.C99_map' depends on axioms: [propext, Quot.sound]
'Verif.Verdict.C99_none' depends on axioms: [propext, Classical.choice, Quot.sound]
'Verif.Verdict.C99_sound' depends on axioms: [propext, Classical.choice, Quot.sound]
'Verif.Verdict.C99_spelling_violated' depends on axioms: [propext, Classical.choice, Quot.sound]
'Verif.Verdict.C99_verdict_partial' depends on axioms: [propext, Classical.choice, Quot.sound]
'Verif.Verdict.C99_word' depends on axioms: [propext, Classical.choice, Quot.sound]
'Verif.Vinegar.C127_class_partial' depends on axioms: [propext, Classical.choice, Quot.sound]
'Verif.Vinegar.C127_class_violated' depends on axioms: [propext, Classical.choice, Quot.sound]
'Verif.Vinegar.C127_dumpable' depends on axioms: [propext, Classical.choice, Quot.sound]
'Verif.Vinegar.C127_roundtrip_partial' depends on axioms: [propext, Classical.choice, Quot.sound]
'Verif.Vinegar.C127_safe' depends on axioms: [propext, Classical.choice, Quot.sound]
'Verif.Vinegar.C127_stop_violated' depends on axioms: [propext, Classical.choice, Quot.sound]
'Verif.Vinegar.C127_write_violated' depends on axioms: [propext, Classical.choice, Quot.sound]
'Verif.Visit.C133_absent' depends on axioms: [propext, Classical.choice, Quot.sound]
'Verif.Visit.C133_nested_violated' depends on axioms: [propext, Quot.sound]
'Verif.Visit.C133_others' depends on axioms: [propext, Classical.choice, Quot.sound]
'Verif.Visit.C133_quote_violated' depends on axioms: [propext, Classical.choice, Quot.sound]
'Verif.Visit.C133_raise' depends on axioms: [propext, Quot.sound]
'Verif.Visit.C133_visit_partial' depends on axioms: [propext, Quot.sound]
'Verif.Visit.C133_written' depends on axioms: [propext, Classical.choice, Quot.sound]
'Verif.Wake.C85_alone' depends on axioms: [propext, Classical.choice, Quot.sound]
'Verif.Wake.C85_not_forgotten' depends on axioms: [propext, Quot.sound]
'Verif.Wake.C85_once_more_partial' depends on axioms: [propext, Quot.sound]
'Verif.Wake.C85_one_receiver' depends on axioms: [propext, Quot.sound]
'Verif.Wake.C85_receives_violated' depends on axioms: [propext, Quot.sound]
'Verif.Wake.C85_returns' depends on axioms: [propext, Quot.sound]
'Verif.Wake.C85_spin_violated' depends on axioms: [propext, Quot.sound]
'Verif.Wake.C85_wakeup_violated' depends on axioms: [propext, Quot.sound]
'Verif.WarmUp.C124_added_violated' depends on axioms: [propext, Classical.choice, Quot.sound]
'Verif.WarmUp.C124_again' depends on axioms: [propext, Classical.choice, Quot.sound]
'Verif.WarmUp.C124_again_violated' depends on axioms: [propext, Classical.choice, Quot.sound]
'Verif.WarmUp.C124_before_partial' depends on axioms: [propext, Classical.choice, Quot.sound]
'Verif.WarmUp.C124_harmless' depends on axioms: [propext, Classical.choice, Quot.sound]
'Verif.WarmUp.C124_linux' depends on axioms: [propext, Classical.choice, Quot.sound]
'Verif.WarmUp.C124_outside_violated' depends on axioms: [propext, Classical.choice, Quot.sound]
'Verif.WarmUp.C124_pkexec_violated' depends on axioms: [propext, Classical.choice, Quot.sound]
'Verif.WarmUp.C124_quiet' depends on axioms: [propext, Classical.choice, Quot.sound]
'Verif.WarmUp.C124_sequence' depends on axioms: [propext, Quot.sound]
'Verif.Where.C92_ends' depends on axioms: [propext, Classical.choice, Quot.sound]
'Verif.Where.C92_issue' depends on axioms: [propext, Quot.sound]
'Verif.Where.C92_line_partial' depends on axioms: [propext, Classical.choice, Quot.sound]
'Verif.Where.C92_violation_break' depends on axioms: [propext, Classical.choice, Quot.sound]
'Verif.Where.C92_violation_comment' depends on axioms: [propext, Classical.choice, Quot.sound]
'Verif.Where.C92_violation_dot' depends on axioms: [propext, Classical.choice, Quot.sound]
'Verif.Where.C92_violation_translated' depends on axioms: [propext]
'Verif.Words.C28_closed_returns' depends on axioms: [propext, Classical.choice, Quot.sound]
'Verif.Words.C28_open_after_quote_returns' depends on axioms: [propext, Classical.choice, Quot.sound]
'Verif.Words.C28_open_at_start_raises' depends on axioms: [propext, Classical.choice, Quot.sound]
'Verif.Words.C28_open_later_diverges' depends on axioms: [propext, Classical.choice, Quot.sound]
'Verif.Words.C28_round_trip' depends on axioms: [propext, Classical.choice, Quot.sound]
'Verif.Words.C28_terminates_partial' depends on axioms: [propext, Classical.choice, Quot.sound]
'Verif.Words.C28_violated' depends on axioms: [propext, Classical.choice, Quot.sound]
'Verif.Words.C29_include' depends on axioms: [propext, Classical.choice, Quot.sound]
'Verif.Words.C29_include_only' depends on axioms: [propext, Classical.choice, Quot.sound]
'Verif.Words.C29_include_raises_partial' depends on axioms: [propext, Classical.choice, Quot.sound]
'Verif.Words.C29_open_quote_raises' depends on axioms: [propext, Classical.choice, Quot.sound]
'Verif.Words.C29_override' depends on axioms: [propext, Classical.choice, Quot.sound]
'Verif.Words.C29_override_only' depends on axioms: [propext, Classical.choice, Quot.sound]
'Verif.Words.C29_override_raises_partial' depends on axioms: [propext, Classical.choice, Quot.sound]
'Verif.Words.C29_violated' depends on axioms: [propext, Classical.choice, Quot.sound]
'Verif.Wrappers.C143_dedented' depends on axioms: [propext, Classical.choice, Quot.sound]
'Verif.Wrappers.C143_documented_partial' depends on axioms: [propext, Classical.choice, Quot.sound]
'Verif.Wrappers.C143_error' depends on axioms: [propext, Classical.choice, Quot.sound]
'Verif.Wrappers.C143_explained' depends on axioms: [propext, Classical.choice, Quot.sound]
'Verif.Wrappers.C143_forwards' depends on axioms: [propext, Classical.choice, Quot.sound]
'Verif.Wrappers.C143_indent' depends on axioms: [propext, Classical.choice, Quot.sound]
'Verif.Wrappers.C143_located' depends on axioms: [propext, Quot.sound]
'Verif.Wrappers.C143_margin' depends on axioms: [propext, Quot.sound]
'Verif.Wrappers.C143_public_partial' depends on axioms: [propext, Classical.choice, Quot.sound]
'Verif.Wrappers.C143_refused' depends on axioms: [propext, Classical.choice, Quot.sound]
'Verif.Wrappers.C143_version_violated' depends on axioms: [propext, Classical.choice, Quot.sound]
'Verif.Wrappers.C143_where_violated' depends on axioms: [propext, Classical.choice, Quot.sound]

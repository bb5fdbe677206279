# Axioms per theorem

Generated by `tools/axioms.py` from `#print axioms`.

## Classical.choice, Quot.sound, propext

- `Verif.Animate.C138_rendered`
- `Verif.Annotations.C01_cleaned`
- `Verif.Annotations.C01_output`
- `Verif.Annotations.C01_reading_unique`
- `Verif.Annotations.C02_locations`
- `Verif.Annotations.C02_not_char_position`
- `Verif.Annotations.C02_split`
- `Verif.Annotations.C03_boundary_focus`
- `Verif.Annotations.C03_hidden`
- `Verif.Annotations.C03_hidden_increasing`
- `Verif.Annotations.C03_paths`
- `Verif.Annotations.C03_paths_none`
- `Verif.Annotations.C03_stepper_focus`
- `Verif.Block.C04_complete`
- `Verif.Block.C04_disjoint`
- `Verif.Block.C04_range`
- `Verif.Block.C04_scanned`
- `Verif.Block.C05_leak`
- `Verif.Block.C05_roundtrip`
- `Verif.Block.C05_sound`
- `Verif.Block.C05_trim`
- `Verif.Book.C122_again`
- `Verif.Book.C122_built`
- `Verif.Book.C122_exact`
- `Verif.Book.C122_failed_keeps`
- `Verif.Book.C122_forgotten`
- `Verif.Book.C122_page`
- `Verif.Boundaries.C111_accepted_partial`
- `Verif.Boundaries.C111_objection_partial`
- `Verif.Boundaries.C111_rejected`
- `Verif.Boundaries.C111_shown`
- `Verif.Boundaries.C130_known_partial`
- `Verif.Boundaries.C130_part_of_blank`
- `Verif.Boundaries.C130_rejected_partial`
- `Verif.Boundaries.C130_unknown`
- `Verif.Boundaries.C30_body`
- `Verif.Boundaries.C30_reported`
- `Verif.Boundaries.C31_chosen_partial`
- `Verif.Boundaries.C31_most_specific_partial`
- `Verif.Boundaries.C31_nearest`
- `Verif.Boundaries.C98_boundaries`
- `Verif.Boundaries.C98_drawn`
- `Verif.Boundaries.C98_found`
- `Verif.Boundaries.C98_order_free_partial`
- `Verif.Boundaries.C98_own`
- `Verif.Boundaries.C98_reported`
- `Verif.Boundaries.C98_unresolved`
- `Verif.Boundaries.C98_uses`
- `Verif.Cache.C117_crash`
- `Verif.Cache.C117_cut`
- `Verif.Cache.C117_injective`
- `Verif.Cache.C117_only`
- `Verif.Cache.C117_rebuild`
- `Verif.Cache.C117_refines`
- `Verif.Cache.C117_round_trip`
- `Verif.Cfg.C37_partial_reach`
- `Verif.Cfg.C37_postdominates`
- `Verif.Cfg.C39_entry`
- `Verif.Cfg.C39_exit`
- `Verif.Cfg.C39_found`
- `Verif.Cfg.C63_entry`
- `Verif.Cfg.C63_exit_iff`
- `Verif.Cfg.C63_exit_partial`
- `Verif.Chapter.C07_exact`
- `Verif.Chapter.C121_chapter_partial`
- `Verif.Chapter.C121_exact`
- `Verif.Chapter.C121_fails`
- `Verif.Chapter.C121_leak`
- `Verif.Chapter.C121_leaks`
- `Verif.Chapter.C121_panics`
- `Verif.Chapter.C121_rewrite`
- `Verif.Chapter.C121_untouched`
- `Verif.Cli.C120_options`
- `Verif.Controls.C131_eye`
- `Verif.Controls.C131_popups`
- `Verif.Controls.C131_report_partial`
- `Verif.Controls.C131_shortcuts`
- `Verif.Controls.C131_stale`
- `Verif.Driver.C50_earliest`
- `Verif.Driver.C50_outside_hides`
- `Verif.Driver.C56_all`
- `Verif.Driver.C56_fatal`
- `Verif.Driver.C56_independent`
- `Verif.Driver.C56_panic`
- `Verif.Embed.C137_first`
- `Verif.Embed.C137_left`
- `Verif.Embed.C80_false_is_on`
- `Verif.Embed.C80_plain_partial`
- `Verif.Embed.C80_tool_partial`
- `Verif.Embed.C90_lines`
- `Verif.Facts.C104_gained`
- `Verif.Facts.C104_landing`
- `Verif.Facts.C104_location`
- `Verif.Facts.C104_lost`
- `Verif.Facts.C104_permissions`
- `Verif.Facts.C104_unborrowed`
- `Verif.Facts.C110_owed`
- `Verif.Facts.C110_permissions`
- `Verif.Facts.C129_moved`
- `Verif.Facts.C129_parts`
- `Verif.Facts.C129_read`
- `Verif.Facts.C129_true`
- `Verif.Facts.C22_at_point`
- `Verif.Facts.C23_live`
- `Verif.Facts.C23_moved`
- `Verif.Facts.C24_terminates`
- `Verif.Facts.C24_uninitialised`
- `Verif.Facts.C25_order`
- `Verif.Facts.C25_refined`
- `Verif.Facts.C26_key`
- `Verif.Facts.C26_order`
- `Verif.Flow.C114_no_effect`
- `Verif.Flow.C32_boundary`
- `Verif.Flow.C32_flow_kind`
- `Verif.Flow.C32_kind`
- `Verif.Flow.C32_total`
- `Verif.Flow.C33_abstract`
- `Verif.Flow.C33_declared_partial`
- `Verif.Flow.C33_declared_used`
- `Verif.Flow.C33_local`
- `Verif.Flow.C62_declared_partial`
- `Verif.Flow.C62_exact`
- `Verif.Flow.C62_undeclared_partial`
- `Verif.Frontend.C52_error`
- `Verif.Frontend.C52_labels`
- `Verif.Frontend.C52_pairs`
- `Verif.Frontend.C53_analysis`
- `Verif.Frontend.C54_drawn`
- `Verif.Frontend.C55_drawn_partial`
- `Verif.Frontend.C55_draws`
- `Verif.Frontend.C55_endpoint_partial`
- `Verif.Frontend.C71_char`
- `Verif.Frontend.C71_nearest`
- `Verif.Frontend.C71_string`
- `Verif.Frontend.C72_names`
- `Verif.Frontend.C72_right_cell_partial`
- `Verif.Frontend.C74_exact`
- `Verif.Frontend.C74_in_range`
- `Verif.Frontend.C74_order`
- `Verif.Frontend.C75_at_failure_partial`
- `Verif.Frontend.C75_last`
- `Verif.Frontend.C78_regions`
- `Verif.Frontend.Editor.C69_ignored`
- `Verif.Frontend.Editor.C69_unticked_partial`
- `Verif.Frontend.Editor.C70_calm_partial`
- `Verif.Frontend.Editor.C70_exact`
- `Verif.Frontend.Editor.C70_one_each`
- `Verif.Frontend.Follow.C135_arrows`
- `Verif.Frontend.Follow.C135_drawn`
- `Verif.Frontend.Follow.C135_follows`
- `Verif.Frontend.Follow.C135_in_time_partial`
- `Verif.Frontend.Follow.C135_inside`
- `Verif.Frontend.Follow.C135_negative`
- `Verif.Frontend.Follow.C135_once_partial`
- `Verif.Frontend.Follow.C135_timers`
- `Verif.Frontend.Follow.C135_timers_length`
- `Verif.Frontend.Layout.C79_all_counted`
- `Verif.Frontend.Layout.C79_apart`
- `Verif.Frontend.Layout.C79_colors`
- `Verif.Frontend.Layout.C79_ends`
- `Verif.Frontend.Layout.C79_heights`
- `Verif.Frontend.Layout.C79_inside`
- `Verif.Frontend.Layout.C79_not_stack`
- `Verif.Frontend.Layout.C79_one_each`
- `Verif.Frontend.Layout.C79_outside`
- `Verif.Frontend.Layout.C79_single`
- `Verif.Frontend.Layout.C79_turns`
- `Verif.Frontend.Widgets.C94_boundaries`
- `Verif.Frontend.Widgets.C94_new_line`
- `Verif.Frontend.Widgets.C94_stale`
- `Verif.Frontend.Widgets.C94_steps_partial`
- `Verif.HirSource.C99_begin`
- `Verif.HirSource.C99_declared`
- `Verif.HirSource.C99_end`
- `Verif.HirSource.C99_first`
- `Verif.HirSource.C99_has_end`
- `Verif.HirSource.C99_last`
- `Verif.HirSource.C99_own`
- `Verif.HirSource.C99_page`
- `Verif.HirSource.C99_statements`
- `Verif.HirSteps.C100_counts`
- `Verif.HirSteps.C100_dominators`
- `Verif.HirSteps.C100_join`
- `Verif.HirSteps.C100_programs`
- `Verif.HirSteps.C100_steps`
- `Verif.HirSteps.C124_no_steps`
- `Verif.HirSteps.C132_lost`
- `Verif.HirSteps.C82_errors`
- `Verif.HirSteps.C82_scopes`
- `Verif.HirSteps.C83_insert`
- `Verif.HirSteps.C83_recorded`
- `Verif.HirSteps.C84_rest`
- `Verif.HirSteps.C85_compute`
- `Verif.HirSteps.C85_finished`
- `Verif.HirSteps.C85_not_finished`
- `Verif.HirSteps.C86_guard`
- `Verif.HirSteps.C86_unsupported`
- `Verif.HirSteps.C87_order_partial`
- `Verif.HirSteps.C88_all`
- `Verif.HirSteps.C88_only`
- `Verif.HirSteps.C89_straight`
- `Verif.HirSteps.LeavesCases.C124_deep_return`
- `Verif.HirSteps.LeavesCases.C124_while_break`
- `Verif.InlinePerms.C06_invalid`
- `Verif.InlinePerms.C06_only_known`
- `Verif.InlinePerms.C06_render`
- `Verif.InlinePerms.C06_results`
- `Verif.InlinePerms.C07_disjoint_partial`
- `Verif.InlinePerms.C07_overlap`
- `Verif.Keys.C136_editor`
- `Verif.Keys.C136_exactly`
- `Verif.Keys.C136_kept`
- `Verif.Keys.C136_passed_partial`
- `Verif.Keys.C136_stuck`
- `Verif.Keys.C136_together`
- `Verif.Live.C118_answer_partial`
- `Verif.Live.C118_failed`
- `Verif.Live.C118_flag`
- `Verif.Live.C118_injective`
- `Verif.Live.C118_lost`
- `Verif.Live.C118_only`
- `Verif.Live.C118_refusal`
- `Verif.Live.C118_request`
- `Verif.Live.C118_results`
- `Verif.Live.C118_route`
- `Verif.Live.C118_silent`
- `Verif.Live.C118_trace_error`
- `Verif.Live.C118_trace_partial`
- `Verif.Live.C125_analysis`
- `Verif.Live.C125_blank`
- `Verif.Live.C125_build`
- `Verif.Live.C125_cut_short`
- `Verif.Live.C125_five_seconds_partial`
- `Verif.Live.C125_results`
- `Verif.Live.C125_several`
- `Verif.Live.C125_stale`
- `Verif.Live.C125_trace`
- `Verif.Mapper.C91_disjoint`
- `Verif.Mapper.C91_dropped`
- `Verif.Mapper.C91_memo`
- `Verif.Mapper.C91_no_block`
- `Verif.Mapper.C91_order`
- `Verif.Mapper.C91_statement`
- `Verif.Mapper.C92_last`
- `Verif.Mapper.C92_nothing`
- `Verif.Mapper.C92_runs_partial`
- `Verif.Mapper.C92_sound`
- `Verif.Overlap.C113_loans_partial`
- `Verif.Overlap.C113_moves_partial`
- `Verif.Overlap.C113_never_misses`
- `Verif.Overlap.C113_parts`
- `Verif.Overlap.C113_reinit_part`
- `Verif.Overlap.C113_shares_memory_partial`
- `Verif.Overlap.C113_siblings`
- `Verif.Overlap.C113_symmetric`
- `Verif.Overlap.C113_total`
- `Verif.Permissions.Debug.C107_angle`
- `Verif.Pipeline.C101_entry`
- `Verif.Pipeline.C101_page`
- `Verif.Pipeline.C101_shown_partial`
- `Verif.Pipeline.C101_silent`
- `Verif.Pipeline.C101_story_partial`
- `Verif.Pipeline.C103_entry`
- `Verif.Pipeline.C103_loops_told`
- `Verif.Pipeline.C103_page`
- `Verif.Pipeline.C103_shown_partial`
- `Verif.Pipeline.C103_silent`
- `Verif.Pipeline.C103_story_partial`
- `Verif.Pipeline.C105_arm`
- `Verif.Pipeline.C105_location`
- `Verif.Pipeline.C105_page`
- `Verif.Pipeline.C105_quiet`
- `Verif.Pipeline.C105_step`
- `Verif.Pipeline.C108_merge`
- `Verif.Pipeline.C108_runs`
- `Verif.Pipeline.C108_told`
- `Verif.Pipeline.C109_loop`
- `Verif.Pipeline.C109_page`
- `Verif.Pipeline.C109_possible`
- `Verif.Pipeline.C109_steps`
- `Verif.Pipeline.C110_lent`
- `Verif.Pipeline.C110_merge`
- `Verif.Pipeline.C110_page`
- `Verif.Pipeline.C110_possible`
- `Verif.Pipeline.C110_runs`
- `Verif.Pipeline.C110_steps`
- `Verif.Pipeline.C110_taken`
- `Verif.Pipeline.C112_letters`
- `Verif.Pipeline.C112_rejected_partial`
- `Verif.Pipeline.C97_facts`
- `Verif.Pipeline.C97_not_hidden`
- `Verif.Pipeline.C97_shown_partial`
- `Verif.Pipeline.C97_silent`
- `Verif.Pipeline.C97_story`
- `Verif.Pipeline.C97_story_source`
- `Verif.Pipeline.C97_straight`
- `Verif.Pipeline.C97_total`
- `Verif.Pipeline.C97_true`
- `Verif.Preproc.C11_element`
- `Verif.Ranges.C34_char_ranges`
- `Verif.Ranges.C34_clean_partial`
- `Verif.Ranges.C34_idempotent`
- `Verif.Ranges.C34_lossless`
- `Verif.Ranges.C34_order`
- `Verif.Ranges.C34_spans_partial`
- `Verif.Ranges.C35_covers`
- `Verif.Ranges.C35_exists`
- `Verif.Ranges.C35_highlight_partial`
- `Verif.Ranges.C35_macros`
- `Verif.Ranges.C35_region`
- `Verif.Ranges.C36_inverted`
- `Verif.Ranges.C36_no_region`
- `Verif.Ranges.C36_operational`
- `Verif.Ranges.C36_regions`
- `Verif.Ranges.C36_visible_lost`
- `Verif.Segments.C101_in_tree`
- `Verif.Segments.C101_splits`
- `Verif.Segments.C132_before`
- `Verif.Segments.C132_exact`
- `Verif.Segments.C44_kept_partial`
- `Verif.Segments.C44_only`
- `Verif.Segments.C44_total`
- `Verif.Segments.C45_contiguous`
- `Verif.Segments.C45_one_start`
- `Verif.Segments.C46_chain`
- `Verif.Segments.C46_current`
- `Verif.Segments.C46_open`
- `Verif.Segments.C46_parents`
- `Verif.Segments.C47_complete`
- `Verif.Segments.C47_only_first`
- `Verif.Segments.C48_child_keeps_open`
- `Verif.Segments.C48_childless_partial`
- `Verif.Segments.C48_first_wins_partial`
- `Verif.Segments.C48_never_finished`
- `Verif.Segments.C49_absent_partial`
- `Verif.Segments.C49_diverges`
- `Verif.Segments.C49_found`
- `Verif.Segments.C64_diverges`
- `Verif.Segments.C64_straight_partial`
- `Verif.Segments.C64_stuck`
- `Verif.Segments.C65_no_grandchild`
- `Verif.Segments.C66_exact`
- `Verif.Segments.C66_forward_partial`
- `Verif.Segments.C66_straight_iff`
- `Verif.Segments.C66_straight_partial`
- `Verif.Segments.C68_after`
- `Verif.Segments.C68_before`
- `Verif.Segments.C68_exists`
- `Verif.Segments.C68_join`
- `Verif.Segments.C68_shared`
- `Verif.Serve.C139_alone`
- `Verif.Serve.C139_answers`
- `Verif.Serve.C139_clean`
- `Verif.Serve.C139_processes`
- `Verif.Serve.C51_answers`
- `Verif.Serve.C51_clean`
- `Verif.Serve.C51_dropped`
- `Verif.Serve.C51_error`
- `Verif.Serve.C51_orphans`
- `Verif.Serve.C51_outputs`
- `Verif.Steps.C30_rows_after`
- `Verif.Steps.C30_rows_before_partial`
- `Verif.Steps.C30_rows_same_line_lost`
- `Verif.Steps.C42_one_per_line`
- `Verif.Steps.C42_rows`
- `Verif.Steps.C43_alternating`
- `Verif.Steps.C43_outcome`
- `Verif.Steps.C43_two_steps`
- `Verif.Story.C126_exact_partial`
- `Verif.Story.C126_hidden`
- `Verif.Story.C126_story`
- `Verif.Story.C126_undefined`
- `Verif.Story.C127_closure`
- `Verif.Story.C127_mark`
- `Verif.TestSource.C57_accepted`
- `Verif.TestSource.C57_letters`
- `Verif.TestSource.C57_rejected`
- `Verif.Trace.C20_complete`
- `Verif.Trace.C20_failure`
- `Verif.Trace.C20_success`
- `Verif.Trace.Locals.C95_complete_partial`
- `Verif.Trace.Locals.C95_enum`
- `Verif.Trace.Locals.C95_initialised_partial`
- `Verif.Trace.Locals.C95_shown`
- `Verif.Trace.Locals.C95_stops`
- `Verif.Trace.Locals.C96_pointer`
- `Verif.Trace.Locals.C96_slots`
- `Verif.Trace.Locals.C96_step`
- `Verif.Value.C16_diagram`
- `Verif.Value.C16_targets`
- `Verif.Value.C17_locateAddress_partial`
- `Verif.Value.C17_locate_partial`
- `Verif.Value.C17_outcome`
- `Verif.Value.C17_packed`
- `Verif.Value.C21_bytes_partial`
- `Verif.Value.C21_exact`
- `Verif.Value.C60_ends`
- `Verif.Value.C60_terminates_partial`
- `Verif.Walk.C102_complete`
- `Verif.Walk.C102_order`
- `Verif.Walk.C102_programs`
- `Verif.Walk.C102_source`
- `Verif.Walk.C102_steps`
- `Verif.Walk.C132_early`
- `Verif.Walk.C132_programs`
- `Verif.Walk.C133_early`
- `Verif.Walk.C133_guard`
- `Verif.Walk.C133_panics`
- `Verif.Walk.C133_programs`
- `Verif.Walk.C133_texts`
- `Verif.Walk.C84_branching`
- `Verif.Walk.C84_left_out`
- `Verif.Walk.C84_programs`
- `Verif.Walk.Panics.C128_joins`
- `Verif.Walk.Panics.C128_no_exit`
- `Verif.Walk.Panics.C128_no_join`
- `Verif.Walk.Panics.C128_restart`
- `Verif.Walk.Panics.C128_steps`
- `Verif.Walk.Panics.C132_panics`
- `Verif.Walk.Panics.Example.C128_later`
- `Verif.Wire.C115_editable`
- `Verif.Wire.C115_one_line`
- `Verif.Wire.C115_opens`
- `Verif.Wire.C115_round_trip`
- `Verif.Wire.C116_book`
- `Verif.Wire.C116_deep`
- `Verif.Wire.C116_depth`
- `Verif.Wire.C116_not_finite`
- `Verif.Wire.C116_order`
- `Verif.Wire.C116_output`
- `Verif.Wire.C116_page`
- `Verif.Wire.C116_page_results`
- `Verif.Wire.C116_page_trace_partial`
- `Verif.Wire.C116_results`
- `Verif.Wire.C116_trace_injective`
- `Verif.Wire.C116_trace_partial`
- `Verif.Wire.C119_annotations`
- `Verif.Wire.C119_bigint`
- `Verif.Wire.C119_results`
- `Verif.Wire.C119_trace_partial`

## Quot.sound, propext

- `Verif.Animate.C138_cut_short`
- `Verif.Animate.C138_ends`
- `Verif.Animate.C138_exactly`
- `Verif.Annotations.C02_ascii_positions`
- `Verif.Block.C05_fenceFree`
- `Verif.Boundaries.C111_behind`
- `Verif.Boundaries.C111_box`
- `Verif.Boundaries.C111_match`
- `Verif.Boundaries.C111_reserved`
- `Verif.Boundaries.C111_two_phase`
- `Verif.Boundaries.C29_assignment_ignored`
- `Verif.Boundaries.C29_display`
- `Verif.Boundaries.C29_icons`
- `Verif.Boundaries.C29_violation_display`
- `Verif.Boundaries.C30_no_error`
- `Verif.Boundaries.C31_member`
- `Verif.Boundaries.C31_resolve_use`
- `Verif.Boundaries.C31_similar`
- `Verif.Boundaries.C31_single`
- `Verif.Boundaries.C61_exact_partial`
- `Verif.Boundaries.C98_elsewhere`
- `Verif.Boundaries.C98_order`
- `Verif.Boundaries.C98_order_matters`
- `Verif.Cache.C08_refines`
- `Verif.Cache.C08_survives`
- `Verif.Cache.C09_crash`
- `Verif.Cache.C09_lookup`
- `Verif.Cache.C117_cut_text`
- `Verif.Cfg.C37_no_exits`
- `Verif.Cfg.C37_returns`
- `Verif.Cfg.C38_edges`
- `Verif.Cfg.C38_imaginary_kept`
- `Verif.Cfg.C38_imaginary_postdominance`
- `Verif.Cfg.C38_imaginary_witness`
- `Verif.Cfg.C38_kept_partial`
- `Verif.Cfg.C38_location`
- `Verif.Cfg.C38_pred`
- `Verif.Cfg.C38_predecessors`
- `Verif.Cfg.C39_exit_default`
- `Verif.Cfg.C39_gather`
- `Verif.Cfg.C39_none`
- `Verif.Cfg.C39_values`
- `Verif.Cfg.C63_endless_loop`
- `Verif.Chapter.C121_order`
- `Verif.Chapter.C121_stable`
- `Verif.Cli.C120_answered_partial`
- `Verif.Cli.C120_book_partial`
- `Verif.Cli.C120_driver`
- `Verif.Cli.C120_flows_refused`
- `Verif.Cli.C120_no_flows`
- `Verif.Cli.C120_no_panic`
- `Verif.Cli.C120_playground`
- `Verif.Cli.C120_should_fail_ignored`
- `Verif.Cli.C120_transport`
- `Verif.Controls.C131_copy`
- `Verif.Controls.C131_no_other`
- `Verif.Driver.C50_other_body`
- `Verif.Driver.C50_other_panics`
- `Verif.Driver.C50_own_partial`
- `Verif.Driver.C56_kind`
- `Verif.Driver.C56_unparsed`
- `Verif.Driver.C67_crash`
- `Verif.Embed.C137_asks_nothing`
- `Verif.Embed.C137_fresh`
- `Verif.Embed.C137_shows`
- `Verif.Embed.C80_false_to_tool`
- `Verif.Embed.C90_all_partial`
- `Verif.Embed.C90_asked`
- `Verif.Embed.C90_hidden`
- `Verif.Embed.C90_operations_partial`
- `Verif.Embed.C90_tool`
- `Verif.Facts.C129_uninit`
- `Verif.Flow.C114_never_shown`
- `Verif.Flow.C114_reborrow`
- `Verif.Flow.C32_no_constraints_panics`
- `Verif.Flow.C33_unused_middle`
- `Verif.Flow.C62_cycle_accepted`
- `Verif.Frontend.C53_entry`
- `Verif.Frontend.C53_explained`
- `Verif.Frontend.C53_icon`
- `Verif.Frontend.C53_none`
- `Verif.Frontend.C54_defined`
- `Verif.Frontend.C55_abbreviated`
- `Verif.Frontend.C55_path`
- `Verif.Frontend.C55_range`
- `Verif.Frontend.C71_bool`
- `Verif.Frontend.C71_large`
- `Verif.Frontend.C71_not_finite`
- `Verif.Frontend.C71_shown`
- `Verif.Frontend.C71_signed_partial`
- `Verif.Frontend.C71_space`
- `Verif.Frontend.C71_unsigned_partial`
- `Verif.Frontend.C71_wide`
- `Verif.Frontend.C72_every_pointer`
- `Verif.Frontend.C73_open`
- `Verif.Frontend.C73_rows`
- `Verif.Frontend.C74_beyond`
- `Verif.Frontend.Editor.C69_absent`
- `Verif.Frontend.Editor.C70_banner_appears`
- `Verif.Frontend.Widgets.C94_edit`
- `Verif.Frontend.Widgets.C94_places`
- `Verif.Frontend.Widgets.C94_stale_forever`
- `Verif.Group.C13_consecutive_differ`
- `Verif.Group.C13_runs`
- `Verif.Group.C13_total`
- `Verif.Group.C14_idempotent`
- `Verif.Group.C14_last`
- `Verif.Group.C14_result`
- `Verif.Group.C14_two_stage`
- `Verif.HirSource.C99_out_of_order`
- `Verif.HirSteps.C84_later`
- `Verif.HirSteps.C84_lost`
- `Verif.HirSteps.C85_left_open`
- `Verif.HirSteps.C87_shared`
- `Verif.HirSteps.C89_block`
- `Verif.HirSteps.C89_contiguous`
- `Verif.InlinePerms.C06_gap`
- `Verif.InlinePerms.C06_ranges`
- `Verif.InlinePerms.C06_scanned`
- `Verif.Live.C125_last`
- `Verif.Live.C125_tab`
- `Verif.Live.C125_until`
- `Verif.Mapper.C91_brace`
- `Verif.Mapper.C91_span`
- `Verif.Mapper.C92_moves`
- `Verif.Mapper.C92_result`
- `Verif.Mapper.C92_total`
- `Verif.Permissions.C27_inside`
- `Verif.Permissions.C27_own`
- `Verif.Permissions.C27_shared`
- `Verif.Permissions.C27_write`
- `Verif.Permissions.C27_write_exact_partial`
- `Verif.Permissions.C28_domain_idempotent`
- `Verif.Permissions.C28_domain_partial`
- `Verif.Permissions.C58_identity`
- `Verif.Permissions.C58_points`
- `Verif.Permissions.C58_registered`
- `Verif.Permissions.Debug.C107_gone`
- `Verif.Permissions.Debug.C107_new_hidden`
- `Verif.Permissions.Debug.C107_rows`
- `Verif.Permissions.Debug.C107_silent`
- `Verif.Pipeline.C110_shared`
- `Verif.Pipeline.C97_block_hides`
- `Verif.Pipeline.Example.C101_lost_at_join`
- `Verif.Preproc.C10_changed_only_if_missing`
- `Verif.Preproc.C10_loaded`
- `Verif.Preproc.C10_no_new_block`
- `Verif.Preproc.C11_cache`
- `Verif.Preproc.C11_chapter`
- `Verif.Preproc.C11_result`
- `Verif.Preproc.C12_args`
- `Verif.Preproc.C12_not_cached`
- `Verif.Preproc.C12_success_iff`
- `Verif.Preproc.Process.C93_in_time_partial`
- `Verif.Preproc.Process.C93_large`
- `Verif.Preproc.Process.C93_never_analysed`
- `Verif.Preproc.Process.C93_not_early`
- `Verif.Preproc.Process.C93_output`
- `Verif.Ranges.C34_empty_span`
- `Verif.Ranges.C35_empty_overlaps`
- `Verif.Ranges.C35_macro_lost`
- `Verif.Segments.C103_kept`
- `Verif.Segments.C132_blind`
- `Verif.Segments.C132_stretch`
- `Verif.Segments.C44_lost`
- `Verif.Segments.C45_insert`
- `Verif.Segments.C45_restart`
- `Verif.Segments.C47_no_splits`
- `Verif.Segments.C49_endless_loop`
- `Verif.Segments.C65_panics`
- `Verif.Segments.C66_backwards`
- `Verif.Segments.C66_cut`
- `Verif.Serve.C134_address`
- `Verif.Serve.C134_apart`
- `Verif.Serve.C134_arrives`
- `Verif.Serve.C134_default`
- `Verif.Serve.C134_down`
- `Verif.Serve.C134_one_port`
- `Verif.Serve.C134_port`
- `Verif.Serve.C139_at_once`
- `Verif.Serve.C139_runs_on`
- `Verif.Steps.C30_rows_filter`
- `Verif.Steps.C40_domain`
- `Verif.Steps.C40_entry`
- `Verif.Story.C126_count`
- `Verif.Story.C126_recursion`
- `Verif.Story.C126_recursion_count`
- `Verif.Story.C126_unique`
- `Verif.Story.C127_entered_partial`
- `Verif.Story.C127_inside`
- `Verif.Story.C127_main_partial`
- `Verif.Story.C127_statement_partial`
- `Verif.TestRun.C123_boundaries`
- `Verif.TestRun.C123_checked_partial`
- `Verif.TestRun.C123_directory`
- `Verif.TestRun.C123_flows`
- `Verif.TestRun.C123_interpreter`
- `Verif.TestRun.C123_nothing_selected`
- `Verif.TestRun.C123_refinements`
- `Verif.TestRun.C123_same_name`
- `Verif.TestRun.C123_steps`
- `Verif.TestSource.C57_checked`
- `Verif.TestSource.C57_distinct`
- `Verif.TestSource.C57_slice`
- `Verif.Toolchain.C106_environment`
- `Verif.Toolchain.C106_output`
- `Verif.Toolchain.C106_panic`
- `Verif.Toolchain.C106_start`
- `Verif.Trace.C19_marks_partial`
- `Verif.Trace.C19_no_reassign_partial`
- `Verif.Trace.C19_part`
- `Verif.Trace.C19_statement`
- `Verif.Trace.C19_unmarked`
- `Verif.Trace.C20_nonempty`
- `Verif.Trace.C20_result`
- `Verif.Trace.Locals.C95_empty`
- `Verif.Trace.Locals.C95_padding`
- `Verif.Trace.Locals.C95_union`
- `Verif.Value.C15_count`
- `Verif.Value.C15_first_error`
- `Verif.Value.C15_shown`
- `Verif.Value.C21_larger_elements`
- `Verif.Value.C60_cycle_never`
- `Verif.Value.C60_cycle_overflows`
- `Verif.Value.C60_literal_never`
- `Verif.Value.C60_literal_overflows`
- `Verif.Value.C60_never`
- `Verif.Walk.C133_any`
- `Verif.Walk.C133_expected`
- `Verif.Walk.C133_plain`
- `Verif.Wire.C115_attribute`
- `Verif.Wire.C115_cached`
- `Verif.Wire.C115_fixed`
- `Verif.Wire.C115_injective`
- `Verif.Wire.C115_json`
- `Verif.Wire.C119_present`

## none

- `Verif.Driver.C50_warnings_counted`
- `Verif.Driver.C67_fine_partial`
- `Verif.Facts.C22_type_facts`
- `Verif.Frontend.C54_second_lost`
- `Verif.Frontend.C74_emoji`
- `Verif.Frontend.C77_size`
- `Verif.Frontend.C78_nothing`
- `Verif.Frontend.Editor.C69_code`
- `Verif.Frontend.Editor.C69_value`
- `Verif.Group.C14_two_stage_limit`
- `Verif.Live.C118_texts`
- `Verif.Permissions.C22_text`
- `Verif.Permissions.C28_false_change`
- `Verif.Permissions.C28_not_a_join`
- `Verif.Permissions.C28_permissions`
- `Verif.Permissions.Debug.C107_readable`

## propext

- `Verif.Annotations.C01_no_invention`
- `Verif.Annotations.C01_restore`
- `Verif.Boundaries.C130_checker`
- `Verif.Boundaries.C29_expected`
- `Verif.Boundaries.C29_field_copy`
- `Verif.Boundaries.C29_flow_not_counted`
- `Verif.Boundaries.C29_uses`
- `Verif.Boundaries.C29_violation`
- `Verif.Boundaries.C30_body_order`
- `Verif.Boundaries.C30_order`
- `Verif.Boundaries.C31_none_chosen`
- `Verif.Boundaries.C31_not_most_specific`
- `Verif.Boundaries.C61_covered`
- `Verif.Boundaries.C61_index_lost`
- `Verif.Boundaries.C61_temporary_lost`
- `Verif.Driver.C50_local`
- `Verif.Driver.C50_unannounced_panics`
- `Verif.Driver.C67_requested`
- `Verif.Embed.C80_empty_differs`
- `Verif.Embed.C80_false_witness`
- `Verif.Embed.C80_yes_differs`
- `Verif.Embed.C90_outcomes`
- `Verif.Embed.C90_stops`
- `Verif.Flow.C114_all_errors`
- `Verif.Flow.C114_every_loan`
- `Verif.Frontend.C55_iter_name`
- `Verif.Frontend.C55_slice_lost`
- `Verif.Frontend.C55_zero_sized`
- `Verif.Frontend.C72_element_100`
- `Verif.Frontend.C72_shadowed`
- `Verif.Frontend.C72_zero_sized`
- `Verif.Frontend.C73_substring`
- `Verif.Frontend.C75_wrong_step`
- `Verif.Frontend.C76_cells`
- `Verif.Frontend.C76_hover`
- `Verif.Frontend.C76_lost_explained`
- `Verif.Frontend.C77_letters`
- `Verif.Frontend.C77_violation`
- `Verif.Frontend.C78_empty_point`
- `Verif.Frontend.Editor.C69_banner`
- `Verif.Frontend.Editor.C70_banner_stays`
- `Verif.Frontend.Editor.C70_diagram`
- `Verif.Frontend.Editor.C70_drawn`
- `Verif.Frontend.Editor.C70_edit`
- `Verif.Frontend.Editor.C70_failed_keeps`
- `Verif.Frontend.Editor.C70_failed_redraws`
- `Verif.Frontend.Editor.C70_panel`
- `Verif.Frontend.Editor.C70_stale_answer`
- `Verif.Frontend.Editor.C81_clears`
- `Verif.Frontend.Editor.C81_current`
- `Verif.Frontend.Editor.C81_diagram_partial`
- `Verif.Frontend.Editor.C81_out_of_order`
- `Verif.Overlap.C113_behind_shared`
- `Verif.Overlap.C113_empty_array`
- `Verif.Permissions.C22_liveness`
- `Verif.Permissions.C22_permissions`
- `Verif.Permissions.C22_read_needed`
- `Verif.Permissions.C27_at_point`
- `Verif.Permissions.C27_box_behind_mut_ref`
- `Verif.Permissions.C27_box_content`
- `Verif.Permissions.C27_raw_pointer`
- `Verif.Permissions.C58_duplicate`
- `Verif.Permissions.Debug.C107_markup`
- `Verif.Pipeline.C109_statement`
- `Verif.Preproc.C08_annotations`
- `Verif.Segments.C46_close`
- `Verif.Serve.C51_hello`
- `Verif.Serve.C51_route`
- `Verif.Serve.C51_timeout_runs_on`
- `Verif.Serve.C51_unreadable`
- `Verif.Serve.C51_warning_drops`
- `Verif.Steps.C40_apply`
- `Verif.Steps.C40_empty`
- `Verif.Steps.C40_fact`
- `Verif.Steps.C40_flag`
- `Verif.Steps.C40_permissions`
- `Verif.Steps.C40_refiner_change`
- `Verif.Steps.C41_back_and_forth`
- `Verif.Steps.C41_commutes`
- `Verif.Steps.C41_complete`
- `Verif.Steps.C41_compose`
- `Verif.Steps.C43_not_total`
- `Verif.Steps.C43_order_dependent`
- `Verif.Steps.C43_unchanged_vanishes`
- `Verif.TestRun.C123_broken_passes`
- `Verif.TestRun.C123_fatal`
- `Verif.TestRun.C123_unchecked`
- `Verif.TestSource.C57_bracket_before`
- `Verif.Toolchain.C106_child`
- `Verif.Toolchain.C106_not_trimmed`
- `Verif.Toolchain.C106_unpinned`
- `Verif.Trace.C19_addressed`
- `Verif.Trace.C19_call_moves`
- `Verif.Trace.C19_reassigned`
- `Verif.Trace.Locals.C96_temporary`
- `Verif.Value.C16_reached_shown`
- `Verif.Value.C16_same_cell`
- `Verif.Value.C17_padding_panic`
- `Verif.Value.C17_wrong_field`
- `Verif.Value.C18_error_partial`
- `Verif.Value.C18_error_wrong`
- `Verif.Value.C18_labelled`
- `Verif.Value.C18_labels`
- `Verif.Value.C21_underflow`
- `Verif.Value.C59_value_partial`
- `Verif.Value.C59_vec_of_one_ref`
- `Verif.Value.C59_vec_of_refs`
- `Verif.Wire.C119_lacks`

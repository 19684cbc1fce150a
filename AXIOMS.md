# Axioms

Axioms that the theorems of `MANIFEST.json` depend on, as printed by `#print axioms`.

| claim | theorem | axioms |
|---|---|---|
| C01 | `IBL.nu_never_nonpositive` | propext, Classical.choice, Quot.sound |
| C01 | `IBL.constructor_rejects_nu` | propext, Classical.choice, Quot.sound |
| C01 | `IBL.nu_assignment` | propext, Classical.choice, Quot.sound |
| C01 | `IBL.nan_viscosity_accepted` | propext, Classical.choice, Quot.sound |
| C02 | `IBL.solve_faithful` | propext, Classical.choice, Quot.sound |
| C02 | `IBL.solve_returns` | propext, Classical.choice, Quot.sound |
| C03 | `IBL.reason_text_injective` | propext, Classical.choice, Quot.sound |
| C03 | `IBL.message_injective` | propext, Classical.choice, Quot.sound |
| C03 | `IBL.solve_message` | propext, Classical.choice, Quot.sound |
| C04 | `IBL.failed_solve_leaves_nothing` | propext, Classical.choice, Quot.sound |
| C04 | `IBL.fresh_object_raises` | propext, Classical.choice, Quot.sound |
| C04 | `IBL.successful_solve_is_visible` | propext, Classical.choice, Quot.sound |
| C04 | `IBL.raising_solve_keeps_solution` | propext, Classical.choice, Quot.sound |
| C04 | `IBL.stale_solution_after_exception` | propext, Classical.choice, Quot.sound |
| C05 | `IBL.events_not_scoped` | propext, Classical.choice, Quot.sound |
| C05 | `IBL.user_events_leak` | propext, Classical.choice, Quot.sound |
| C05 | `IBL.events_scoped_partial` | propext, Classical.choice, Quot.sound |
| C05 | `IBL.thwaites_events_since` | propext, Classical.choice, Quot.sound |
| C05 | `IBL.head_events_since` | propext, Classical.choice, Quot.sound |
| C05 | `IBL.thwaites_events_scoped_partial` | propext, Classical.choice, Quot.sound |
| C05 | `IBL.head_events_scoped_partial` | propext, Classical.choice, Quot.sound |
| C06 | `IBL.thwaites_separation_monitored` | propext, Classical.choice, Quot.sound |
| C06 | `IBL.head_separation_monitored` | propext, Classical.choice, Quot.sound |
| C07 | `IBL.accepted_velocity_works_partial` | propext, Classical.choice, Quot.sound |
| C07 | `IBL.accepted_velocity_fails` | propext, Classical.choice, Quot.sound |
| C07 | `IBL.accepted_bad_second` | propext, Classical.choice, Quot.sound |
| C07 | `IBL.accepted_velocity_total` | propext, Classical.choice, Quot.sound |
| C07 | `IBL.object_velocity_partial` | propext, Classical.choice, Quot.sound |
| C08 | `IBL.rejected_velocity_keeps_fails` | propext, Classical.choice, Quot.sound |
| C08 | `IBL.rejected_callable_overwrites` | propext, Classical.choice, Quot.sound |
| C08 | `IBL.rejected_velocity_keeps_partial` | propext, Classical.choice, Quot.sound |
| C08 | `IBL.rejected_callable_exact` | propext, Classical.choice, Quot.sound |
| C09 | `IBL.table_accepted_iff` | propext, Classical.choice, Quot.sound |
| C09 | `IBL.not_table_rejected` | propext, Classical.choice, Quot.sound |
| C09 | `IBL.bad_table_error` | propext, Classical.choice, Quot.sound |
| C10 | `IBL.numeric_slope_accuracy` | propext, Classical.choice, Quot.sound |
| C10 | `IBL.numeric_curvature_accuracy` | propext, Classical.choice, Quot.sound |
| C10 | `IBL.numeric_second_accuracy` | propext, Classical.choice, Quot.sound |
| C10 | `IBL.numeric_slope_exact` | propext, Classical.choice, Quot.sound |
| C10 | `IBL.numeric_curvature_exact` | propext, Classical.choice, Quot.sound |
| C10 | `IBL.numeric_second_exact` | propext, Classical.choice, Quot.sound |
| C100 | `IBL.table_units` | propext, Classical.choice, Quot.sound |
| C100 | `IBL.table_slope_units` | propext, Classical.choice, Quot.sound |
| C100 | `IBL.interpolator_moves` | propext, Classical.choice, Quot.sound |
| C100 | `IBL.histories_move_tables` | propext, Classical.choice, Quot.sound |
| C101 | `IBL.table_line` | propext, Classical.choice, Quot.sound |
| C102 | `IBL.XFoil.clean_tables` | propext, Classical.choice, Quot.sound |
| C102 | `IBL.XFoil.dump_to_layer` | propext, Classical.choice, Quot.sound |
| C103 | `IBL.thicker_stays_thicker` | propext, Classical.choice, Quot.sound |
| C103 | `IBL.thicker_separates_first` | propext, Classical.choice, Quot.sound |
| C103 | `IBL.thinner_stays_attached` | propext, Classical.choice, Quot.sound |
| C103 | `IBL.thicker_separated_too` | propext, Classical.choice, Quot.sound |
| C104 | `IBL.Stanford.head_accepts_case` | propext, Classical.choice, Quot.sound |
| C104 | `IBL.Stanford.head_of_case` | propext, Classical.choice, Quot.sound |
| C105 | `IBL.Analytic.similarity_arrays_partial` | propext, Classical.choice, Quot.sound |
| C105 | `IBL.Analytic.plane_arrays_partial` | propext, Quot.sound |
| C105 | `IBL.Analytic.line_arrays_partial` | propext, Quot.sound |
| C105 | `IBL.Analytic.profile_arrays` | propext, Quot.sound |
| C105 | `IBL.Analytic.lengths_refused` | propext, Classical.choice, Quot.sound |
| C105 | `IBL.Analytic.similarity_arrays_downstream` | propext, Classical.choice, Quot.sound |
| C105 | `IBL.Analytic.similarity_arrays_fail` | propext, Classical.choice, Quot.sound |
| C106 | `IBL.stagnation_start_bounded` | propext, Classical.choice, Quot.sound |
| C106 | `IBL.nonlinear_below` | propext, Classical.choice, Quot.sound |
| C106 | `IBL.linear_below` | propext, Classical.choice, Quot.sound |
| C107 | `IBL.solve_depends_on_settings` | propext, Classical.choice, Quot.sound |
| C107 | `IBL.solve_again` | propext, Classical.choice, Quot.sound |
| C108 | `IBL.Analytic.no_profile_refuses_partial` | propext, Quot.sound |
| C108 | `IBL.Analytic.success_has_profile` | propext, Classical.choice, Quot.sound |
| C108 | `IBL.Analytic.no_profile_is_stale` | propext, Classical.choice, Quot.sound |
| C108 | `IBL.Analytic.stale_thickness` | propext, Classical.choice, Quot.sound |
| C108 | `IBL.Analytic.no_profile_refuses_fails` | propext, Classical.choice, Quot.sound |
| C109 | `IBL.initial_read_after` | propext, Classical.choice, Quot.sound |
| C109 | `IBL.initial_read_before_partial` | propext, Classical.choice, Quot.sound |
| C109 | `IBL.stagnation_read` | propext, Classical.choice, Quot.sound |
| C109 | `IBL.read_before_fails` | propext, Classical.choice, Quot.sound |
| C109 | `IBL.shape_factor_read_back` | propext, Classical.choice, Quot.sound |
| C11 | `IBL.PPoly.scalar_velocity_integral` | propext, Classical.choice, Quot.sound |
| C11 | `IBL.PPoly.scalar_velocity_integral_joined` | propext, Classical.choice, Quot.sound |
| C11 | `IBL.PPoly.addConst_eval` | propext, Classical.choice, Quot.sound |
| C110 | `IBL.extended_table_accepted_iff` | propext, Classical.choice, Quot.sound |
| C110 | `IBL.extended_table_velocity` | propext, Classical.choice, Quot.sound |
| C110 | `IBL.extended_table_slope` | propext, Classical.choice, Quot.sound |
| C111 | `IBL.XFoil.dump_start_values` | propext, Classical.choice, Quot.sound |
| C111 | `IBL.XFoil.dump_to_head` | propext, Classical.choice, Quot.sound |
| C112 | `IBL.stagnation_slope` | propext, Classical.choice, Quot.sound |
| C112 | `IBL.stagSlope_pos_iff` | propext, Classical.choice, Quot.sound |
| C112 | `IBL.stagnation_start_partial` | propext, Classical.choice, Quot.sound |
| C112 | `IBL.stagnation_start_fails` | propext, Classical.choice, Quot.sound |
| C112 | `IBL.XFoil.dump_stagnation_table` | propext, Classical.choice, Quot.sound |
| C113 | `IBL.wedge_similarity_partial` | propext, Classical.choice, Quot.sound |
| C113 | `IBL.wedge_stagnation` | propext, Classical.choice, Quot.sound |
| C113 | `IBL.wedge_similarity_fails` | propext, Classical.choice, Quot.sound |
| C113 | `IBL.wedge_attached` | propext, Classical.choice, Quot.sound |
| C114 | `IBL.thwaites_grows` | propext, Classical.choice, Quot.sound |
| C114 | `IBL.head_grows` | propext, Classical.choice, Quot.sound |
| C114 | `IBL.builtin_f_pos` | propext, Classical.choice, Quot.sound |
| C115 | `IBL.layer_worsens` | propext, Classical.choice, Quot.sound |
| C115 | `IBL.criterion_falls` | propext, Classical.choice, Quot.sound |
| C115 | `IBL.separation_at_end_iff` | propext, Classical.choice, Quot.sound |
| C115 | `IBL.separation_step_independent` | propext, Classical.choice, Quot.sound |
| C115 | `IBL.builtin_adverse` | propext, Classical.choice, Quot.sound |
| C115 | `IBL.howarth_case` | propext, Classical.choice, Quot.sound |
| C116 | `IBL.head_drag` | propext, Classical.choice, Quot.sound |
| C116 | `IBL.head_plate_drag` | propext, Classical.choice, Quot.sound |
| C116 | `IBL.thwaites_plate_drag_partial` | propext, Classical.choice, Quot.sound |
| C116 | `IBL.nonlinear_plate_drag` | propext, Classical.choice, Quot.sound |
| C116 | `IBL.plate_drag_fails` | propext, Classical.choice, Quot.sound |
| C117 | `IBL.result_lines` | propext, Classical.choice, Quot.sound |
| C117 | `IBL.result_text_determines` | propext, Classical.choice, Quot.sound |
| C118 | `IBL.thickness_lower_bound` | propext, Classical.choice, Quot.sound |
| C118 | `IBL.criterion_met` | propext, Classical.choice, Quot.sound |
| C118 | `IBL.persistent_deceleration_separates` | propext, Classical.choice, Quot.sound |
| C118 | `IBL.drela_never_separates` | propext, Classical.choice, Quot.sound |
| C118 | `IBL.persistent_case` | propext, Classical.choice, Quot.sound |
| C119 | `IBL.sampled_velocity` | propext, Classical.choice, Quot.sound |
| C119 | `IBL.equidistant_samples` | propext, Classical.choice, Quot.sound |
| C119 | `IBL.equidistant_converges` | propext, Classical.choice, Quot.sound |
| C12 | `IBL.fit_argument_clipped` | propext |
| C12 | `IBL.array_clipped_partial` | propext, Quot.sound |
| C12 | `IBL.array_clipped_fails` | propext, Classical.choice, Quot.sound |
| C120 | `IBL.thickness_error` | propext, Classical.choice, Quot.sound |
| C120 | `IBL.table_thickness_error` | propext, Classical.choice, Quot.sound |
| C120 | `IBL.table_thickness_case` | propext, Classical.choice, Quot.sound |
| C121 | `IBL.head_until_separation` | propext, Classical.choice, Quot.sound |
| C121 | `IBL.head_plate_to_end` | propext, Classical.choice, Quot.sound |
| C122 | `IBL.head_shape_rises` | propext, Classical.choice, Quot.sound |
| C122 | `IBL.head_ends_before_quarter` | propext, Classical.choice, Quot.sound |
| C122 | `IBL.head_separates` | propext, Classical.choice, Quot.sound |
| C122 | `IBL.head_separation_determined` | propext, Classical.choice, Quot.sound |
| C123 | `IBL.XFoil.mirror_exchanges` | propext, Classical.choice, Quot.sound |
| C123 | `IBL.XFoil.symmetric_surfaces` | propext, Classical.choice, Quot.sound |
| C124 | `IBL.Analytic.falknerSkan_units` | propext, Classical.choice, Quot.sound |
| C124 | `IBL.Analytic.blasius_units` | propext, Classical.choice, Quot.sound |
| C124 | `IBL.Analytic.similarity_units_set` | propext, Classical.choice, Quot.sound |
| C125 | `IBL.head_error` | propext, Classical.choice, Quot.sound |
| C125 | `IBL.head_error_through` | propext, Classical.choice, Quot.sound |
| C125 | `IBL.head_starts` | propext, Classical.choice, Quot.sound |
| C126 | `IBL.PyFloat.float_iff` | propext, Classical.choice, Quot.sound |
| C126 | `IBL.PyFloat.float_numeral` | propext, Classical.choice, Quot.sound |
| C126 | `IBL.PyFloat.numeral_unique` | propext, Classical.choice, Quot.sound |
| C126 | `IBL.PyFloat.float_run_together` | propext, Classical.choice, Quot.sound |
| C126 | `IBL.PyFloat.float_asterisk` | propext, Classical.choice, Quot.sound |
| C126 | `IBL.PyFloat.float_special` | propext, Classical.choice, Quot.sound |
| C126 | `IBL.XFoil.printed_row` | propext, Classical.choice, Quot.sound |
| C126 | `IBL.XFoil.printed_wake_row` | propext, Classical.choice, Quot.sound |
| C126 | `IBL.XFoil.printed_row_rejected` | propext, Classical.choice, Quot.sound |
| C126 | `IBL.XFoil.printed_dump` | propext, Classical.choice, Quot.sound |
| C126 | `IBL.XFoil.printed_tables` | propext, Classical.choice, Quot.sound |
| C126 | `IBL.Stanford.printed_station` | propext, Classical.choice, Quot.sound |
| C127 | `IBL.rounded_table_accepted_iff` | propext, Classical.choice, Quot.sound |
| C127 | `IBL.rounded_table_velocity` | propext, Classical.choice, Quot.sound |
| C127 | `IBL.rounded_table_points` | propext, Classical.choice, Quot.sound |
| C128 | `IBL.rk45_ends` | propext, Classical.choice, Quot.sound |
| C128 | `IBL.rk45_steps` | propext, Classical.choice, Quot.sound |
| C128 | `IBL.rk45_solve_returns` | propext, Classical.choice, Quot.sound |
| C128 | `IBL.rk45_consistent` | propext, Classical.choice, Quot.sound |
| C128 | `IBL.separation_total` | propext, Classical.choice, Quot.sound |
| C128 | `IBL.rk45_no_exception` | propext, Classical.choice, Quot.sound |
| C128 | `IBL.rkStep_textbook` | propext, Classical.choice, Quot.sound |
| C128 | `IBL.rk45_example` | propext, Classical.choice, Quot.sound |
| C129 | `IBL.rk45_flat_plate` | propext, Classical.choice, Quot.sound |
| C129 | `IBL.rk45_stagnation` | propext, Classical.choice, Quot.sound |
| C129 | `IBL.solve_line` | propext, Classical.choice, Quot.sound |
| C129 | `IBL.rk45_exact_cases` | propext, Classical.choice, Quot.sound |
| C13 | `IBL.white_shape_p` | propext, Classical.choice, Quot.sound |
| C13 | `IBL.drela_shape_p` | propext, Classical.choice, Quot.sound |
| C13 | `IBL.cb_shape_p` | propext, Classical.choice, Quot.sound |
| C13 | `IBL.cb_shape_jump` | propext, Classical.choice, Quot.sound |
| C13 | `IBL.drela_shape_p_outside` | propext, Classical.choice, Quot.sound |
| C13 | `IBL.custom_shape_p` | propext, Classical.choice, Quot.sound |
| C13 | `IBL.spline_shape_p` | propext, Classical.choice, Quot.sound |
| C13 | `IBL.spline_shape_p_outside` | propext, Classical.choice, Quot.sound |
| C13 | `IBL.table_splines_exist` | propext, Classical.choice, Quot.sound |
| C13 | `IBL.spline_unique` | propext, Classical.choice, Quot.sound |
| C130 | `IBL.rk45_empty_interval` | propext, Classical.choice, Quot.sound |
| C130 | `IBL.rk45_empty_case` | propext, Classical.choice, Quot.sound |
| C131 | `IBL.rk45_thwaites_fifth_order` | propext, Classical.choice, Quot.sound |
| C131 | `IBL.rk45_follows` | propext, Classical.choice, Quot.sound |
| C131 | `IBL.rk45_order_case` | propext, Classical.choice, Quot.sound |
| C132 | `IBL.viscosity_queries` | propext, Classical.choice, Quot.sound |
| C132 | `IBL.viscosity_solve` | propext, Classical.choice, Quot.sound |
| C132 | `IBL.viscosity_call` | propext, Classical.choice, Quot.sound |
| C132 | `IBL.viscosity_history` | propext, Classical.choice, Quot.sound |
| C132 | `IBL.viscosity_construct` | propext, Classical.choice, Quot.sound |
| C133 | `IBL.rk45_separation_located` | propext, Classical.choice, Quot.sound |
| C133 | `IBL.rk45_no_false_separation` | propext, Classical.choice, Quot.sound |
| C133 | `IBL.separatesAt_white` | propext, Classical.choice, Quot.sound |
| C133 | `IBL.separatesAt_spline` | propext, Classical.choice, Quot.sound |
| C133 | `IBL.separatesAt_cb` | propext, Classical.choice, Quot.sound |
| C133 | `IBL.rk45_separation_case` | propext, Classical.choice, Quot.sound |
| C134 | `IBL.rk45_failure` | propext, Classical.choice, Quot.sound |
| C134 | `IBL.rk45_succeeds` | propext, Classical.choice, Quot.sound |
| C134 | `IBL.rk45_step_count` | propext, Classical.choice, Quot.sound |
| C134 | `IBL.thwaites_solve_succeeds` | propext, Classical.choice, Quot.sound |
| C134 | `IBL.thwaites_step_count` | propext, Classical.choice, Quot.sound |
| C134 | `IBL.boundedFits_spline` | propext, Classical.choice, Quot.sound |
| C134 | `IBL.boundedFits_cb` | propext, Classical.choice, Quot.sound |
| C134 | `IBL.rk45_failure_case` | propext, Classical.choice, Quot.sound |
| C134 | `IBL.thwaites_success_case` | propext, Classical.choice, Quot.sound |
| C135 | `IBL.rk45_converges` | propext, Classical.choice, Quot.sound |
| C135 | `IBL.rk45_solve_converges` | propext, Classical.choice, Quot.sound |
| C135 | `IBL.thwaites_converges` | propext, Classical.choice, Quot.sound |
| C135 | `IBL.table_thwaites_converges` | propext, Classical.choice, Quot.sound |
| C135 | `IBL.head_converges` | propext, Classical.choice, Quot.sound |
| C135 | `IBL.thwaites_converges_case` | propext, Classical.choice, Quot.sound |
| C135 | `IBL.white_converges_case` | propext, Classical.choice, Quot.sound |
| C135 | `IBL.head_converges_case` | propext, Classical.choice, Quot.sound |
| C136 | `IBL.rk45_separation_converges` | propext, Classical.choice, Quot.sound |
| C136 | `IBL.rk45_attached_converges` | propext, Classical.choice, Quot.sound |
| C136 | `IBL.thwaites_separation_converges` | propext, Classical.choice, Quot.sound |
| C136 | `IBL.table_separation_converges` | propext, Classical.choice, Quot.sound |
| C136 | `IBL.head_separation_converges` | propext, Classical.choice, Quot.sound |
| C136 | `IBL.thwaites_separation_case` | propext, Classical.choice, Quot.sound |
| C136 | `IBL.head_separation_case` | propext, Classical.choice, Quot.sound |
| C137 | `IBL.rk45_passes` | propext, Classical.choice, Quot.sound |
| C137 | `IBL.head_passes_converges` | propext, Classical.choice, Quot.sound |
| C137 | `IBL.head_passes_separation` | propext, Classical.choice, Quot.sound |
| C137 | `IBL.head_slows_passes` | propext, Classical.choice, Quot.sound |
| C137 | `IBL.head_slows_converges` | propext, Classical.choice, Quot.sound |
| C137 | `IBL.head_slows_case` | propext, Classical.choice, Quot.sound |
| C138 | `IBL.added_events_as_passed` | propext, Classical.choice, Quot.sound |
| C138 | `IBL.added_events_accumulate` | none |
| C138 | `IBL.added_events_dropped` | propext, Classical.choice, Quot.sound |
| C138 | `IBL.fits_label` | propext, Classical.choice, Quot.sound |
| C139 | `IBL.rk45_approaches` | propext, Classical.choice, Quot.sound |
| C139 | `IBL.thwaites_one_sided` | propext, Classical.choice, Quot.sound |
| C139 | `IBL.thwaites_any_fit_converges` | propext, Classical.choice, Quot.sound |
| C139 | `IBL.thwaites_any_fit_separation_converges` | propext, Classical.choice, Quot.sound |
| C139 | `IBL.table_white_converges` | propext, Classical.choice, Quot.sound |
| C139 | `IBL.white_separation_case` | propext, Classical.choice, Quot.sound |
| C14 | `IBL.white_regular` | propext, Classical.choice, Quot.sound |
| C14 | `IBL.cb_regular` | propext, Classical.choice, Quot.sound |
| C14 | `IBL.drela_regular` | propext, Classical.choice, Quot.sound |
| C14 | `IBL.fits_shape_gt_one` | propext, Classical.choice, Quot.sound |
| C14 | `IBL.white_shape_ge` | propext, Classical.choice, Quot.sound |
| C14 | `IBL.cb_shape_gt` | propext, Classical.choice, Quot.sound |
| C14 | `IBL.drela_shape_gt` | propext, Classical.choice, Quot.sound |
| C14 | `IBL.white_shape_negative` | propext, Classical.choice, Quot.sound |
| C14 | `IBL.spline_bounds` | propext, Classical.choice, Quot.sound |
| C14 | `IBL.spline_monotone` | propext, Classical.choice, Quot.sound |
| C14 | `IBL.spline_interpolates` | propext, Classical.choice, Quot.sound |
| C140 | `IBL.rk45_rounded` | propext, Classical.choice, Quot.sound |
| C140 | `IBL.rk45_rounded_case` | propext, Classical.choice, Quot.sound |
| C141 | `IBL.rk45_rounded_ends` | propext, Classical.choice, Quot.sound |
| C141 | `IBL.rk45_rounded_steps` | propext, Classical.choice, Quot.sound |
| C141 | `IBL.rk45_rounded_returns` | propext, Classical.choice, Quot.sound |
| C141 | `IBL.rk45_rounded_ends_case` | propext, Classical.choice, Quot.sound |
| C142 | `IBL.Analytic.similarity_drag` | propext, Classical.choice, Quot.sound |
| C142 | `IBL.Analytic.similarity_energy_loss` | propext, Classical.choice, Quot.sound |
| C142 | `IBL.Analytic.blasius_drag` | propext, Classical.choice, Quot.sound |
| C143 | `IBL.Analytic.similarity_viscosity_set` | propext, Classical.choice, Quot.sound |
| C143 | `IBL.Analytic.falknerSkan_viscosity` | propext, Classical.choice, Quot.sound |
| C143 | `IBL.Analytic.blasius_viscosity` | propext, Classical.choice, Quot.sound |
| C144 | `IBL.rounded_separation` | propext, Classical.choice, Quot.sound |
| C144 | `IBL.rounded_head_separation` | propext, Classical.choice, Quot.sound |
| C144 | `IBL.rounded_head_separation_case` | propext, Classical.choice, Quot.sound |
| C145 | `IBL.white_shear_rounded` | propext, Classical.choice, Quot.sound |
| C145 | `IBL.cb_shear_rounded` | propext, Classical.choice, Quot.sound |
| C145 | `IBL.drela_shear_rounded` | propext, Classical.choice, Quot.sound |
| C145 | `IBL.rounded_laminar_separation` | propext, Classical.choice, Quot.sound |
| C145 | `IBL.rounded_white_separation` | propext, Classical.choice, Quot.sound |
| C145 | `IBL.rounded_cb_separation` | propext, Classical.choice, Quot.sound |
| C145 | `IBL.rounded_drela_separation` | propext, Classical.choice, Quot.sound |
| C145 | `IBL.rounded_laminar_separation_case` | propext, Classical.choice, Quot.sound |
| C146 | `IBL.rounded_start_state` | propext, Classical.choice, Quot.sound |
| C146 | `IBL.rounded_start_queried` | propext, Classical.choice, Quot.sound |
| C146 | `IBL.rounded_start_case` | propext, Classical.choice, Quot.sound |
| C147 | `IBL.Stanford.rounded_summary_read` | propext, Classical.choice, Quot.sound |
| C147 | `IBL.Stanford.rounded_station_read` | propext, Classical.choice, Quot.sound |
| C147 | `IBL.Stanford.rounded_units_agree` | propext, Classical.choice, Quot.sound |
| C147 | `IBL.Stanford.squares_case` | propext, Classical.choice, Quot.sound |
| C147 | `IBL.Stanford.rounded_station_case` | propext, Classical.choice, Quot.sound |
| C148 | `IBL.Stanford.rounded_summary_accepted` | propext, Classical.choice, Quot.sound |
| C148 | `IBL.Stanford.rounded_consistent` | propext, Classical.choice, Quot.sound |
| C148 | `IBL.Stanford.rounded_profile` | propext, Classical.choice, Quot.sound |
| C148 | `IBL.Stanford.rounded_station_case` | propext, Classical.choice, Quot.sound |
| C149 | `IBL.float_viscosity_queries` | propext, Classical.choice, Quot.sound |
| C149 | `IBL.float_viscosity_solve` | propext, Classical.choice, Quot.sound |
| C149 | `IBL.float_viscosity_call` | propext, Classical.choice, Quot.sound |
| C149 | `IBL.float_viscosity_history` | propext, Classical.choice, Quot.sound |
| C149 | `IBL.float_viscosity_construct` | propext, Classical.choice, Quot.sound |
| C149 | `IBL.float_viscosity_case` | propext, Classical.choice, Quot.sound |
| C15 | `IBL.signals_separation_partial` | propext, Classical.choice, Quot.sound |
| C15 | `IBL.all_signal_fails` | propext, Classical.choice, Quot.sound |
| C15 | `IBL.separation_event_value` | propext, Classical.choice, Quot.sound |
| C15 | `IBL.white_signals` | propext, Classical.choice, Quot.sound |
| C15 | `IBL.white_event_iff` | propext, Classical.choice, Quot.sound |
| C15 | `IBL.cb_signals_at` | propext, Classical.choice, Quot.sound |
| C15 | `IBL.cb_signals` | propext, Classical.choice, Quot.sound |
| C15 | `IBL.drela_shear_pos` | propext, Classical.choice, Quot.sound |
| C15 | `IBL.drela_never_signals` | propext, Classical.choice, Quot.sound |
| C15 | `IBL.drela_event_positive` | propext, Classical.choice, Quot.sound |
| C15 | `IBL.spline_signals` | propext, Classical.choice, Quot.sound |
| C15 | `IBL.spline_event_iff` | propext, Classical.choice, Quot.sound |
| C15 | `IBL.spline_event_nonneg` | propext, Classical.choice, Quot.sound |
| C15 | `IBL.spline_shear_pos_iff` | propext, Classical.choice, Quot.sound |
| C150 | `IBL.Analytic.float_similarity_set` | propext, Classical.choice, Quot.sound |
| C150 | `IBL.Analytic.float_falknerSkan` | propext, Classical.choice, Quot.sound |
| C150 | `IBL.Analytic.float_blasius` | propext, Classical.choice, Quot.sound |
| C150 | `IBL.Analytic.float_similarity_case` | propext, Classical.choice, Quot.sound |
| C151 | `IBL.Stanford.rounded_case_read` | propext, Classical.choice, Quot.sound |
| C151 | `IBL.Stanford.rounded_smooth_ordered` | propext, Classical.choice, Quot.sound |
| C151 | `IBL.Stanford.rounded_case_accepted` | propext, Classical.choice, Quot.sound |
| C151 | `IBL.Stanford.rounded_case_case` | propext, Classical.choice, Quot.sound |
| C152 | `IBL.float_time_queries` | propext, Classical.choice, Quot.sound |
| C152 | `IBL.float_time_solve` | propext, Classical.choice, Quot.sound |
| C152 | `IBL.float_time_call` | propext, Classical.choice, Quot.sound |
| C152 | `IBL.float_time_history` | propext, Classical.choice, Quot.sound |
| C152 | `IBL.float_time_construct` | propext, Classical.choice, Quot.sound |
| C152 | `IBL.float_time_case` | propext, Classical.choice, Quot.sound |
| C153 | `IBL.XFoil.rounded_edge_velocity` | propext, Classical.choice, Quot.sound |
| C153 | `IBL.XFoil.unit_edge_velocity` | propext, Classical.choice, Quot.sound |
| C153 | `IBL.XFoil.binary_reference_velocity` | propext, Classical.choice, Quot.sound |
| C153 | `IBL.XFoil.rounded_delta_k` | propext, Classical.choice, Quot.sound |
| C153 | `IBL.XFoil.edge_velocity_case` | propext, Classical.choice, Quot.sound |
| C154 | `IBL.HeadArr.float_time_shear` | propext, Classical.choice, Quot.sound |
| C154 | `IBL.HeadArr.float_time_transpiration` | propext, Classical.choice, Quot.sound |
| C154 | `IBL.HeadArr.float_time_shear_case` | propext, Classical.choice, Quot.sound |
| C155 | `IBL.Pchip.interpolator_times` | propext, Classical.choice, Quot.sound |
| C155 | `IBL.float_table_units` | propext, Classical.choice, Quot.sound |
| C155 | `IBL.float_table_slope_units` | propext, Classical.choice, Quot.sound |
| C155 | `IBL.float_table_case` | propext, Classical.choice, Quot.sound |
| C156 | `IBL.rounded_initial_values` | propext, Classical.choice, Quot.sound |
| C156 | `IBL.rounded_initial_order` | propext, Classical.choice, Quot.sound |
| C156 | `IBL.rounded_stagnation` | propext, Classical.choice, Quot.sound |
| C156 | `IBL.rounded_initial_case` | propext, Classical.choice, Quot.sound |
| C157 | `IBL.rounded_ludwieg_tillman_pos` | propext, Classical.choice, Quot.sound |
| C157 | `IBL.rounded_ludwieg_tillman_anti` | propext, Classical.choice, Quot.sound |
| C157 | `IBL.rounded_felsch_defined` | propext, Classical.choice, Quot.sound |
| C157 | `IBL.rounded_felsch_nonneg` | propext, Classical.choice, Quot.sound |
| C157 | `IBL.rounded_felsch_pos` | propext, Classical.choice, Quot.sound |
| C157 | `IBL.rounded_felsch_anti` | propext, Classical.choice, Quot.sound |
| C157 | `IBL.rounded_felsch_clip` | propext, Classical.choice, Quot.sound |
| C157 | `IBL.rounded_white_pos` | propext, Classical.choice, Quot.sound |
| C157 | `IBL.rounded_white_anti_re` | propext, Classical.choice, Quot.sound |
| C157 | `IBL.rounded_white_anti_h` | propext, Classical.choice, Quot.sound |
| C157 | `IBL.elementary_correct` | propext, Classical.choice, Quot.sound |
| C157 | `IBL.rounded_skin_friction_case` | propext, Classical.choice, Quot.sound |
| C158 | `IBL.Head.rounded_h1_ge` | propext, Classical.choice, Quot.sound |
| C158 | `IBL.Head.rounded_h1_anti` | propext, Classical.choice, Quot.sound |
| C158 | `IBL.Head.rounded_h1p_neg` | propext, Classical.choice, Quot.sound |
| C158 | `IBL.Head.rounded_entrainment_pos` | propext, Classical.choice, Quot.sound |
| C158 | `IBL.Head.rounded_entrainment_anti` | propext, Classical.choice, Quot.sound |
| C158 | `IBL.Head.rounded_hOf_ge` | propext, Classical.choice, Quot.sound |
| C158 | `IBL.Head.rounded_rates_defined` | propext, Classical.choice, Quot.sound |
| C158 | `IBL.Head.rounded_thickness_grows` | propext, Classical.choice, Quot.sound |
| C158 | `IBL.Head.rounded_thickness_order` | propext, Classical.choice, Quot.sound |
| C158 | `IBL.Head.rounded_head_rhs` | propext, Classical.choice, Quot.sound |
| C158 | `IBL.Head.rounded_closure_case` | propext, Classical.choice, Quot.sound |
| C159 | `IBL.rounded_laminar_thickness` | propext, Classical.choice, Quot.sound |
| C159 | `IBL.rounded_displacement` | propext, Classical.choice, Quot.sound |
| C159 | `IBL.rounded_laminar_shear` | propext, Classical.choice, Quot.sound |
| C159 | `IBL.rounded_laminar_case` | propext, Classical.choice, Quot.sound |
| C16 | `IBL.thwaites_momentum_exact_rhs` | propext, Classical.choice, Quot.sound |
| C16 | `IBL.thwaites_momentum_defect` | propext, Classical.choice, Quot.sound |
| C160 | `IBL.HeadArr.rounded_shear_positive` | propext, Classical.choice, Quot.sound |
| C160 | `IBL.HeadArr.rounded_shear_order` | propext, Classical.choice, Quot.sound |
| C160 | `IBL.HeadArr.rounded_shear_case` | propext, Classical.choice, Quot.sound |
| C161 | `IBL.Fits.rounded_fits_divisors` | propext, Classical.choice, Quot.sound |
| C161 | `IBL.Fits.rounded_white_shear_order` | propext, Classical.choice, Quot.sound |
| C161 | `IBL.Fits.rounded_cb_shear_order` | propext, Classical.choice, Quot.sound |
| C161 | `IBL.Fits.rounded_cb_shape_order` | propext, Classical.choice, Quot.sound |
| C161 | `IBL.Fits.rounded_linear_growth` | propext, Classical.choice, Quot.sound |
| C161 | `IBL.Fits.rounded_linear_rate` | propext, Classical.choice, Quot.sound |
| C161 | `IBL.Fits.rounded_fits_case` | propext, Classical.choice, Quot.sound |
| C162 | `IBL.Analytic.rounded_similarity_velocity` | propext, Classical.choice, Quot.sound |
| C162 | `IBL.Analytic.rounded_similarity_thicknesses` | propext, Classical.choice, Quot.sound |
| C162 | `IBL.Analytic.rounded_similarity_shear` | propext, Classical.choice, Quot.sound |
| C162 | `IBL.Analytic.rounded_similarity_regular` | propext, Classical.choice, Quot.sound |
| C162 | `IBL.Analytic.rounded_similarity_case` | propext, Classical.choice, Quot.sound |
| C17 | `IBL.thwaites_transpiration` | propext, Classical.choice, Quot.sound |
| C17 | `IBL.thwaites_transpiration_builtin` | propext, Classical.choice, Quot.sound |
| C17 | `IBL.thwaites_transpiration_spline` | propext, Classical.choice, Quot.sound |
| C18 | `IBL.thwaites_bounded_below` | propext, Classical.choice, Quot.sound |
| C18 | `IBL.builtin_f_pos` | propext, Classical.choice, Quot.sound |
| C18 | `IBL.thwaites_linear_quadrature` | propext, Classical.choice, Quot.sound |
| C18 | `IBL.thwaites_stays_positive` | propext, Classical.choice, Quot.sound |
| C19 | `IBL.set_data_fits_iff` | propext, Classical.choice, Quot.sound |
| C19 | `IBL.documented_fits_iff` | propext, Classical.choice, Quot.sound |
| C19 | `IBL.constructor_fits_iff` | propext, Classical.choice, Quot.sound |
| C20 | `IBL.Head.entrainment_not_decreasing` | propext, Classical.choice, Quot.sound |
| C20 | `IBL.Head.entrainment_not_injective` | propext, Classical.choice, Quot.sound |
| C20 | `IBL.Head.entrainment_decreasing_partial` | propext, Classical.choice, Quot.sound |
| C20 | `IBL.Head.entrainment_almost_decreasing` | propext, Classical.choice, Quot.sound |
| C21 | `IBL.Head.roundtrip_fails_at_branch` | propext, Classical.choice, Quot.sound |
| C21 | `IBL.Head.conversions_not_inverse` | propext, Classical.choice, Quot.sound |
| C21 | `IBL.Head.roundtrip_partial` | propext, Classical.choice, Quot.sound |
| C21 | `IBL.Head.roundtrip_close` | propext, Classical.choice, Quot.sound |
| C22 | `IBL.Head.entrainment_derivative` | propext, Classical.choice, Quot.sound |
| C22 | `IBL.Head.entrainment_derivative_neg` | propext, Classical.choice, Quot.sound |
| C23 | `IBL.head_momentum_integral` | propext, Classical.choice, Quot.sound |
| C23 | `IBL.head_entrainment_equation` | propext, Classical.choice, Quot.sound |
| C24 | `IBL.head_transpiration` | propext, Classical.choice, Quot.sound |
| C25 | `IBL.initial_order_matters` | propext, Classical.choice, Quot.sound |
| C25 | `IBL.initial_values_partial` | propext, Classical.choice, Quot.sound |
| C26 | `IBL.head_event_sign` | propext, Classical.choice, Quot.sound |
| C26 | `IBL.head_event_sign_rounded` | propext, Classical.choice, Quot.sound |
| C26 | `IBL.head_separation_monitored` | propext, Classical.choice, Quot.sound |
| C27 | `IBL.HeadArr.tau_w_array` | propext, Classical.choice, Quot.sound |
| C27 | `IBL.HeadArr.tau_w_scalar_raises` | propext, Classical.choice, Quot.sound |
| C27 | `IBL.HeadArr.v_e_scalar` | propext, Classical.choice, Quot.sound |
| C27 | `IBL.HeadArr.v_e_array` | propext, Classical.choice, Quot.sound |
| C27 | `IBL.HeadArr.transpiration_agrees_partial` | propext, Classical.choice, Quot.sound |
| C27 | `IBL.HeadArr.transpiration_agrees_fails` | propext, Classical.choice, Quot.sound |
| C27 | `IBL.HeadArr.shear_agrees_fails` | propext, Classical.choice, Quot.sound |
| C27 | `IBL.HeadArr.shear_pointwise_partial` | propext, Classical.choice, Quot.sound |
| C28 | `IBL.HeadArr.query_writes_argument` | propext, Classical.choice, Quot.sound |
| C28 | `IBL.HeadArr.queries_read_only_fails` | propext, Classical.choice, Quot.sound |
| C28 | `IBL.HeadArr.queries_read_only_partial` | propext, Classical.choice, Quot.sound |
| C28 | `IBL.HeadArr.elementwise_ok` | propext, Quot.sound |
| C29 | `IBL.ludwieg_tillman_pos` | propext, Classical.choice, Quot.sound |
| C29 | `IBL.ludwieg_tillman_anti_re` | propext, Classical.choice, Quot.sound |
| C29 | `IBL.ludwieg_tillman_anti_h` | propext, Classical.choice, Quot.sound |
| C29 | `IBL.felsch_base_nonneg` | propext, Classical.choice, Quot.sound |
| C29 | `IBL.felsch_nonneg` | propext, Classical.choice, Quot.sound |
| C29 | `IBL.felsch_at_separation` | propext, Classical.choice, Quot.sound |
| C29 | `IBL.felsch_anti_re` | propext, Classical.choice, Quot.sound |
| C29 | `IBL.felsch_anti_h` | propext, Classical.choice, Quot.sound |
| C29 | `IBL.white_pos` | propext, Classical.choice, Quot.sound |
| C29 | `IBL.white_anti_re` | propext, Classical.choice, Quot.sound |
| C29 | `IBL.white_anti_h` | propext, Classical.choice, Quot.sound |
| C29 | `IBL.skin_friction_regular` | propext, Classical.choice, Quot.sound |
| C30 | `IBL.stagnation_condition` | propext, Classical.choice, Quot.sound |
| C30 | `IBL.stagnation_stationary` | propext, Classical.choice, Quot.sound |
| C30 | `IBL.stagnation_zero_slope` | propext, Classical.choice, Quot.sound |
| C30 | `IBL.stagnation_negative_slope` | propext, Classical.choice, Quot.sound |
| C31 | `IBL.initial_thickness_guard` | propext, Classical.choice, Quot.sound |
| C31 | `IBL.initial_thickness_ignored` | propext, Classical.choice, Quot.sound |
| C31 | `IBL.initial_thickness_used_fails` | propext, Classical.choice, Quot.sound |
| C31 | `IBL.initial_thickness_used_partial` | propext, Classical.choice, Quot.sound |
| C32 | `IBL.Analytic.reset_m_reads_back` | propext, Classical.choice, Quot.sound |
| C32 | `IBL.Analytic.beta_survives_m` | propext, Classical.choice, Quot.sound |
| C32 | `IBL.Analytic.reset_m_rejects` | propext, Classical.choice, Quot.sound |
| C32 | `IBL.Analytic.reset_m_accepts_iff` | propext, Classical.choice, Quot.sound |
| C32 | `IBL.Analytic.reset_m_minus_inf` | propext, Classical.choice, Quot.sound |
| C33 | `IBL.Analytic.failure_keeps_partial` | propext, Classical.choice, Quot.sound |
| C33 | `IBL.Analytic.failed_reset_changes_beta` | propext, Classical.choice, Quot.sound |
| C33 | `IBL.Analytic.failed_set_drops_solution` | propext, Classical.choice, Quot.sound |
| C33 | `IBL.Analytic.failure_keeps_fails` | propext, Classical.choice, Quot.sound |
| C34 | `IBL.Analytic.supplied_eta_kept` | propext, Classical.choice, Quot.sound |
| C34 | `IBL.Analytic.supplied_fw_kept` | propext, Classical.choice, Quot.sound |
| C34 | `IBL.Analytic.search_total` | propext, Classical.choice, Quot.sound |
| C34 | `IBL.Analytic.search_never_reports` | propext, Classical.choice, Quot.sound |
| C34 | `IBL.Analytic.search_converges_fails` | propext, Classical.choice, Quot.sound |
| C34 | `IBL.Analytic.eta_supplied_converged_partial` | propext, Classical.choice, Quot.sound |
| C34 | `IBL.Analytic.fw_supplied_converged_partial` | propext, Classical.choice, Quot.sound |
| C34 | `IBL.Analytic.blasius_eta_search` | propext, Classical.choice, Quot.sound |
| C34 | `IBL.Analytic.blasius_eta_search_returns` | propext, Classical.choice, Quot.sound |
| C34 | `IBL.Analytic.blasius_fw_search` | propext, Classical.choice, Quot.sound |
| C34 | `IBL.Analytic.blasius_fw_search_returns` | propext, Classical.choice, Quot.sound |
| C35 | `IBL.Analytic.thickness_integrals_partial` | propext, Classical.choice, Quot.sound |
| C35 | `IBL.Analytic.thickness_integrals_close_partial` | propext, Classical.choice, Quot.sound |
| C35 | `IBL.Analytic.thickness_integrals_fail` | propext, Classical.choice, Quot.sound |
| C35 | `IBL.Analytic.exact_exists` | propext, Classical.choice, Quot.sound |
| C35 | `IBL.Analytic.exact_call` | propext, Classical.choice, Quot.sound |
| C36 | `IBL.Analytic.continuity` | propext, Classical.choice, Quot.sound |
| C36 | `IBL.Analytic.transpiration` | propext, Classical.choice, Quot.sound |
| C37 | `IBL.Analytic.momentum_integral` | propext, Classical.choice, Quot.sound |
| C37 | `IBL.Analytic.energy_integral` | propext, Classical.choice, Quot.sound |
| C37 | `IBL.Analytic.Current.consistent` | propext, Classical.choice, Quot.sound |
| C38 | `IBL.Analytic.shape_factors` | propext, Classical.choice, Quot.sound |
| C38 | `IBL.Analytic.shape_factors_constant` | propext, Classical.choice, Quot.sound |
| C38 | `IBL.Analytic.thickness_scaling` | propext, Classical.choice, Quot.sound |
| C39 | `IBL.Analytic.blasius_agrees` | propext, Classical.choice, Quot.sound |
| C39 | `IBL.Analytic.blasius_constructor_agrees` | propext, Classical.choice, Quot.sound |
| C39 | `IBL.Analytic.blasius_default` | propext, Classical.choice, Quot.sound |
| C40 | `IBL.XFoil.row_accepted_iff` | propext, Classical.choice, Quot.sound |
| C40 | `IBL.XFoil.wake_row_accepted_iff` | propext, Classical.choice, Quot.sound |
| C40 | `IBL.XFoil.row_rejected` | propext, Classical.choice, Quot.sound |
| C40 | `IBL.XFoil.wake_row_rejected` | propext, Classical.choice, Quot.sound |
| C40 | `IBL.XFoil.row_empty` | propext, Quot.sound |
| C40 | `IBL.XFoil.wake_row_empty` | propext, Quot.sound |
| C40 | `IBL.XFoil.record_admissible` | propext, Quot.sound |
| C40 | `IBL.XFoil.wake_record_admissible` | propext, Quot.sound |
| C40 | `IBL.columns_iff` | propext, Quot.sound |
| C41 | `IBL.XFoil.rows_kept` | propext, Classical.choice, Quot.sound |
| C41 | `IBL.XFoil.points_counted` | propext, Classical.choice, Quot.sound |
| C41 | `IBL.lines_readlines` | propext, Quot.sound |
| C41 | `IBL.XFoil.sections_dumpData` | propext, Classical.choice, Quot.sound |
| C41 | `IBL.XFoil.dumpData_sections` | propext, Classical.choice, Quot.sound |
| C41 | `IBL.XFoil.cancels_rounded` | propext, Classical.choice, Quot.sound |
| C42 | `IBL.XFoil.arc_length` | propext, Classical.choice, Quot.sound |
| C42 | `IBL.XFoil.arc_length_rounded` | propext, Classical.choice, Quot.sound |
| C43 | `IBL.XFoil.stagnation_partial` | propext, Classical.choice, Quot.sound |
| C43 | `IBL.XFoil.stagnation_x_wrong` | propext, Classical.choice, Quot.sound |
| C43 | `IBL.XFoil.stagnation_rounded` | propext, Classical.choice, Quot.sound |
| C44 | `IBL.XFoil.zero_velocity_rejected` | propext, Classical.choice, Quot.sound |
| C44 | `IBL.XFoil.zero_velocity_partial` | propext, Classical.choice, Quot.sound |
| C44 | `IBL.XFoil.zero_velocity_example` | propext, Classical.choice, Quot.sound |
| C45 | `IBL.XFoil.filename_never_reported` | propext, Quot.sound |
| C45 | `IBL.XFoil.filename_partial` | propext, Quot.sound |
| C46 | `IBL.XFoil.accessors` | propext, Quot.sound |
| C46 | `IBL.XFoil.references_guarded` | propext, Quot.sound |
| C46 | `IBL.XFoil.reference_velocity_scales` | propext, Quot.sound |
| C47 | `IBL.Stanford.sections_read` | propext, Classical.choice, Quot.sound |
| C47 | `IBL.Stanford.single_header_loses_row` | propext, Classical.choice, Quot.sound |
| C47 | `IBL.Stanford.third_header_shifts_sections` | propext, Classical.choice, Quot.sound |
| C48 | `IBL.Stanford.rows_lost` | propext, Classical.choice, Quot.sound |
| C48 | `IBL.Stanford.stations_partial` | propext, Classical.choice, Quot.sound |
| C49 | `IBL.Stanford.selected` | propext, Classical.choice, Quot.sound |
| C49 | `IBL.Stanford.selected_ident` | propext, Classical.choice, Quot.sound |
| C49 | `IBL.Stanford.selections_partial` | propext, Classical.choice, Quot.sound |
| C49 | `IBL.Stanford.selection_fresh` | propext, Classical.choice, Quot.sound |
| C49 | `IBL.Stanford.failed_selection_keeps_name` | propext, Classical.choice, Quot.sound |
| C49 | `IBL.Stanford.failed_selection_example` | propext, Classical.choice, Quot.sound |
| C49 | `IBL.Stanford.failed_selection_half_loaded` | propext, Classical.choice, Quot.sound |
| C50 | `IBL.Stanford.units_agree` | propext, Classical.choice, Quot.sound |
| C50 | `IBL.Stanford.units_read` | propext, Classical.choice, Quot.sound |
| C50 | `IBL.Stanford.units_read_summary` | propext, Classical.choice, Quot.sound |
| C50 | `IBL.Stanford.viscosity_units` | propext, Classical.choice, Quot.sound |
| C50 | `IBL.Stanford.smooth_units` | propext, Classical.choice, Quot.sound |
| C51 | `IBL.Stanford.summaries_consistent` | propext, Classical.choice, Quot.sound |
| C51 | `IBL.Stanford.accepted_iff` | propext, Classical.choice, Quot.sound |
| C52 | `IBL.Stanford.derived_values` | propext, Classical.choice, Quot.sound |
| C53 | `IBL.results_not_stable` | propext, Classical.choice, Quot.sound |
| C53 | `IBL.results_stable_partial` | propext, Classical.choice, Quot.sound |
| C54 | `IBL.thwaites_quadrature` | propext, Classical.choice, Quot.sound |
| C54 | `IBL.thwaites_linear_quadrature` | propext, Classical.choice, Quot.sound |
| C55 | `IBL.Analytic.reached_good` | propext, Classical.choice, Quot.sound |
| C55 | `IBL.Analytic.reached_inRange` | propext, Classical.choice, Quot.sound |
| C56 | `IBL.Analytic.queries_answer_partial` | propext, Classical.choice, Quot.sound |
| C56 | `IBL.Analytic.beta_two_unusable` | propext, Classical.choice, Quot.sound |
| C56 | `IBL.Analytic.queries_answer_fails` | propext, Classical.choice, Quot.sound |
| C57 | `IBL.XFoil.reader_admissible` | propext, Quot.sound |
| C58 | `IBL.XFoil.wellformed_read` | propext, Classical.choice, Quot.sound |
| C59 | `IBL.Stanford.accepted_iff` | propext, Classical.choice, Quot.sound |
| C59 | `IBL.Stanford.samples_counted` | propext, Classical.choice, Quot.sound |
| C59 | `IBL.Stanford.station1100` | propext, Classical.choice, Quot.sound |
| C60 | `IBL.Stanford.attributes_positive_partial` | propext, Classical.choice, Quot.sound |
| C60 | `IBL.Stanford.attributes_positive_fails` | propext, Classical.choice, Quot.sound |
| C60 | `IBL.Stanford.attributes_bounded` | propext, Classical.choice, Quot.sound |
| C60 | `IBL.Stanford.assigned_array_bounded` | propext, Quot.sound |
| C60 | `IBL.Stanford.negative_sample_accepted` | propext, Classical.choice, Quot.sound |
| C61 | `IBL.Stanford.other_exceptions` | propext, Classical.choice, Quot.sound |
| C61 | `IBL.Stanford.zero_viscosity_raises` | propext, Classical.choice, Quot.sound |
| C61 | `IBL.Stanford.selection_raises_partial` | propext, Classical.choice, Quot.sound |
| C62 | `IBL.Stanford.initialised_partial` | propext, Classical.choice, Quot.sound |
| C62 | `IBL.Stanford.initialised_fails` | propext, Classical.choice, Quot.sound |
| C62 | `IBL.Stanford.station_initialised` | propext, Classical.choice, Quot.sound |
| C62 | `IBL.Stanford.selection_fresh` | propext, Classical.choice, Quot.sound |
| C62 | `IBL.Stanford.select_mem` | propext, Classical.choice, Quot.sound |
| C62 | `IBL.Stanford.failed_reset_uninitialised` | propext, Classical.choice, Quot.sound |
| C63 | `IBL.Stanford.arrays_aligned` | propext, Classical.choice, Quot.sound |
| C64 | `IBL.separation_reported_iff` | propext, Classical.choice, Quot.sound |
| C64 | `IBL.separation_step` | propext, Classical.choice, Quot.sound |
| C64 | `IBL.attached_run_reaches_end` | propext, Classical.choice, Quot.sound |
| C64 | `IBL.solve_outcome` | propext, Classical.choice, Quot.sound |
| C64 | `IBL.solve_total` | propext, Classical.choice, Quot.sound |
| C64 | `IBL.no_pocket_fails` | propext, Classical.choice, Quot.sound |
| C65 | `IBL.nonneg_fits_step_end` | propext, Classical.choice, Quot.sound |
| C65 | `IBL.white_shear_nonneg` | propext, Classical.choice, Quot.sound |
| C65 | `IBL.spline_point_late` | propext, Classical.choice, Quot.sound |
| C65 | `IBL.first_point_partial` | propext, Classical.choice, Quot.sound |
| C65 | `IBL.first_point_fails` | propext, Classical.choice, Quot.sound |
| C65 | `IBL.bracketRoot_exists` | propext, Classical.choice, Quot.sound |
| C66 | `IBL.start_separated_unreported` | propext, Classical.choice, Quot.sound |
| C66 | `IBL.start_reported_fails` | propext, Classical.choice, Quot.sound |
| C66 | `IBL.start_separated_partial` | propext, Classical.choice, Quot.sound |
| C67 | `IBL.earliest_event_wins` | propext, Classical.choice, Quot.sound |
| C67 | `IBL.event_order_irrelevant` | propext, Classical.choice, Quot.sound |
| C67 | `IBL.solve_outcome` | propext, Classical.choice, Quot.sound |
| C68 | `IBL.was_attached_partial` | propext, Classical.choice, Quot.sound |
| C68 | `IBL.was_attached_nonneg` | propext, Classical.choice, Quot.sound |
| C68 | `IBL.was_attached_builtin` | propext, Classical.choice, Quot.sound |
| C68 | `IBL.reattachment_reported` | propext, Classical.choice, Quot.sound |
| C68 | `IBL.was_attached_fails` | propext, Classical.choice, Quot.sound |
| C68 | `IBL.separation_step` | propext, Classical.choice, Quot.sound |
| C69 | `IBL.independent_partial` | propext, Classical.choice, Quot.sound |
| C69 | `IBL.shared_solves_partial` | propext, Classical.choice, Quot.sound |
| C69 | `IBL.independent_fails` | propext, Classical.choice, Quot.sound |
| C69 | `IBL.step_call_separate` | propext, Classical.choice, Quot.sound |
| C69 | `IBL.prepare_alike` | propext, Classical.choice, Quot.sound |
| C70 | `IBL.solve_overwrites_condition` | propext, Classical.choice, Quot.sound |
| C70 | `IBL.conditions_kept_fails` | propext, Classical.choice, Quot.sound |
| C70 | `IBL.solve_keeps_thickness_partial` | propext, Classical.choice, Quot.sound |
| C71 | `IBL.kinetic_computed_fails` | propext, Classical.choice, Quot.sound |
| C71 | `IBL.shapeK_zero_thickness` | propext, Classical.choice, Quot.sound |
| C71 | `IBL.shapeK_refused_partial` | propext, Quot.sound |
| C71 | `IBL.kinetic_integrand` | propext, Classical.choice, Quot.sound |
| C72 | `IBL.head_stays_positive` | propext, Classical.choice, Quot.sound |
| C72 | `IBL.head_solution_exists` | propext, Classical.choice, Quot.sound |
| C73 | `IBL.displacement_not_ordered` | propext, Classical.choice, Quot.sound |
| C73 | `IBL.negative_displacement` | propext, Classical.choice, Quot.sound |
| C73 | `IBL.displacement_ordered_partial` | propext, Classical.choice, Quot.sound |
| C73 | `IBL.displacement_ordered_decelerated` | propext, Classical.choice, Quot.sound |
| C74 | `IBL.attached_when_accelerated_partial` | propext, Classical.choice, Quot.sound |
| C74 | `IBL.attached_when_accelerated_fails` | propext, Classical.choice, Quot.sound |
| C74 | `IBL.head_attached_when_accelerated` | propext, Classical.choice, Quot.sound |
| C74 | `IBL.head_shape_bounded` | propext, Classical.choice, Quot.sound |
| C75 | `IBL.thwaites_linear_exists` | propext, Classical.choice, Quot.sound |
| C75 | `IBL.thwaites_linear_unique` | propext, Classical.choice, Quot.sound |
| C75 | `IBL.thwaites_linear_difference` | propext, Classical.choice, Quot.sound |
| C76 | `IBL.queries_move` | propext, Classical.choice, Quot.sound |
| C76 | `IBL.histories_move` | propext, Classical.choice, Quot.sound |
| C76 | `IBL.calls_move` | propext, Classical.choice, Quot.sound |
| C76 | `IBL.constructors_move` | propext, Classical.choice, Quot.sound |
| C77 | `IBL.thwaites_units_partial` | propext, Classical.choice, Quot.sound |
| C77 | `IBL.thwaites_units_fails` | propext, Classical.choice, Quot.sound |
| C77 | `IBL.thwaites_units_start` | propext, Classical.choice, Quot.sound |
| C77 | `IBL.thwaites_units_queries` | propext, Classical.choice, Quot.sound |
| C77 | `IBL.head_units_partial` | propext, Classical.choice, Quot.sound |
| C77 | `IBL.head_units_fails` | propext, Classical.choice, Quot.sound |
| C78 | `IBL.flat_plate` | propext, Classical.choice, Quot.sound |
| C78 | `IBL.flat_plate_values` | propext, Classical.choice, Quot.sound |
| C79 | `IBL.linear_flow_lambda` | propext, Classical.choice, Quot.sound |
| C79 | `IBL.linear_flow_separation` | propext, Classical.choice, Quot.sound |
| C79 | `IBL.linear_flow_fits` | propext, Classical.choice, Quot.sound |
| C79 | `IBL.linear_flow_run` | propext, Classical.choice, Quot.sound |
| C80 | `IBL.stored_solution` | propext, Classical.choice, Quot.sound |
| C80 | `IBL.start_queried` | propext, Classical.choice, Quot.sound |
| C80 | `IBL.solve_stores` | propext, Classical.choice, Quot.sound |
| C81 | `IBL.out_of_range_fails` | propext, Classical.choice, Quot.sound |
| C81 | `IBL.out_of_range_partial` | propext, Classical.choice, Quot.sound |
| C82 | `IBL.thwaites_nonlinear_error` | propext, Classical.choice, Quot.sound |
| C82 | `IBL.thwaites_nonlinear_unique` | propext, Classical.choice, Quot.sound |
| C82 | `IBL.thwaites_linear_error` | propext, Classical.choice, Quot.sound |
| C82 | `IBL.builtin_oneSided` | propext, Classical.choice, Quot.sound |
| C83 | `IBL.thwaites_nonlinear_exists_partial` | propext, Classical.choice, Quot.sound |
| C83 | `IBL.thwaites_white_exists_partial` | propext, Classical.choice, Quot.sound |
| C83 | `IBL.thwaites_white_until` | propext, Classical.choice, Quot.sound |
| C83 | `IBL.thwaites_white_no_solution` | propext, Classical.choice, Quot.sound |
| C84 | `IBL.Analytic.Profile.velocity` | propext, Classical.choice, Quot.sound |
| C84 | `IBL.Analytic.Profile.thicknesses` | propext, Classical.choice, Quot.sound |
| C84 | `IBL.Analytic.Profile.shapeK_lt` | propext, Classical.choice, Quot.sound |
| C84 | `IBL.Analytic.Profile.shapeD_gt` | propext, Classical.choice, Quot.sound |
| C84 | `IBL.Analytic.Profile.normal_velocity` | propext, Classical.choice, Quot.sound |
| C84 | `IBL.Analytic.rises` | propext, Classical.choice, Quot.sound |
| C84 | `IBL.Analytic.rises_blasius` | propext, Classical.choice, Quot.sound |
| C84 | `IBL.Analytic.profile_exists` | propext, Classical.choice, Quot.sound |
| C84 | `IBL.Analytic.profile_long` | propext, Classical.choice, Quot.sound |
| C85 | `IBL.Stanford.assign_scalar` | propext, Quot.sound |
| C85 | `IBL.Stanford.assign_array` | propext, Quot.sound |
| C85 | `IBL.Stanford.assign_station` | propext, Classical.choice, Quot.sound |
| C85 | `IBL.Stanford.assign_station_array` | propext, Classical.choice, Quot.sound |
| C85 | `IBL.XFoil.assign_point` | propext, Quot.sound |
| C85 | `IBL.XFoil.assign_wake_point` | propext, Quot.sound |
| C85 | `IBL.XFoil.assign_upper_partial` | propext, Classical.choice, Quot.sound |
| C85 | `IBL.XFoil.assign_lower_partial` | propext, Classical.choice, Quot.sound |
| C85 | `IBL.XFoil.assign_wake` | propext, Classical.choice, Quot.sound |
| C85 | `IBL.XFoil.load_disjoint` | propext, Classical.choice, Quot.sound |
| C85 | `IBL.XFoil.step_disjoint` | propext, Quot.sound |
| C85 | `IBL.XFoil.assign_disjoint` | propext, Quot.sound |
| C85 | `IBL.XFoil.assign_upper_changes_lower` | propext, Classical.choice, Quot.sound |
| C85 | `IBL.XFoil.assign_upper_false` | propext, Classical.choice, Quot.sound |
| C85 | `IBL.XFoil.assign_reader` | propext, Quot.sound |
| C85 | `IBL.XFoil.assign_reader_name` | propext, Quot.sound |
| C86 | `IBL.thwaites_undefined_partial` | propext, Classical.choice, Quot.sound |
| C86 | `IBL.white_keeps` | propext, Classical.choice, Quot.sound |
| C86 | `IBL.drela_keeps` | propext, Classical.choice, Quot.sound |
| C86 | `IBL.spline_keeps` | propext, Classical.choice, Quot.sound |
| C86 | `IBL.custom_keeps` | propext, Classical.choice, Quot.sound |
| C86 | `IBL.head_undefined` | propext, Classical.choice, Quot.sound |
| C86 | `IBL.cebeciBradshaw_loses` | propext, Classical.choice, Quot.sound |
| C86 | `IBL.cebeciBradshaw_reports_zero` | propext, Classical.choice, Quot.sound |
| C86 | `IBL.cebeciBradshaw_separates` | propext, Classical.choice, Quot.sound |
| C86 | `IBL.nan_never_separates` | propext, Classical.choice, Quot.sound |
| C86 | `IBL.cebeciBradshaw_undefined_false` | propext, Classical.choice, Quot.sound |
| C86 | `IBL.Head.rates_keep` | propext, Classical.choice, Quot.sound |
| C86 | `IBL.Head.relations_lose` | propext, Classical.choice, Quot.sound |
| C86 | `IBL.ludwiegTillman_keeps` | propext, Classical.choice, Quot.sound |
| C86 | `IBL.felsch_keeps` | propext, Classical.choice, Quot.sound |
| C86 | `IBL.whiteFriction_keeps` | propext, Classical.choice, Quot.sound |
| C87 | `IBL.XFoil.wellformed_read_rounded_partial` | propext, Classical.choice, Quot.sound |
| C87 | `IBL.XFoil.separated_by_digits` | propext, Classical.choice, Quot.sound |
| C87 | `IBL.XFoil.equal_arc_length_rejected` | propext, Classical.choice, Quot.sound |
| C87 | `IBL.XFoil.equal_arc_length_example` | propext, Classical.choice, Quot.sound |
| C87 | `IBL.XFoil.arc_length_rounded` | propext, Classical.choice, Quot.sound |
| C88 | `IBL.numeric_slope_rounded` | propext, Classical.choice, Quot.sound |
| C88 | `IBL.numeric_curvature_rounded` | propext, Classical.choice, Quot.sound |
| C88 | `IBL.numeric_second_rounded` | propext, Classical.choice, Quot.sound |
| C89 | `IBL.Analytic.reset_m_reads_back_rounded_partial` | propext, Classical.choice, Quot.sound |
| C89 | `IBL.Analytic.reset_m_accepts_rounded` | propext, Classical.choice, Quot.sound |
| C89 | `IBL.Analytic.reset_m_rejects_rounded` | propext, Classical.choice, Quot.sound |
| C89 | `IBL.Analytic.large_m_lost` | propext, Classical.choice, Quot.sound |
| C90 | `IBL.Analytic.boundary_layer_equations` | propext, Classical.choice, Quot.sound |
| C90 | `IBL.Analytic.CurrentWith.equation` | propext, Classical.choice, Quot.sound |
| C90 | `IBL.Analytic.exact_object` | propext, Classical.choice, Quot.sound |
| C91 | `IBL.Analytic.wall_shear` | propext, Classical.choice, Quot.sound |
| C91 | `IBL.Analytic.layer_integrals` | propext, Classical.choice, Quot.sound |
| C91 | `IBL.Analytic.exact_object` | propext, Classical.choice, Quot.sound |
| C92 | `IBL.set_velocity_raises_partial` | propext, Classical.choice, Quot.sound |
| C92 | `IBL.set_velocity_stumbles` | propext, Classical.choice, Quot.sound |
| C92 | `IBL.set_velocity_raises_fails` | propext, Classical.choice, Quot.sound |
| C92 | `IBL.set_data_fits_raises` | propext, Classical.choice, Quot.sound |
| C92 | `IBL.setters_raise` | propext, Classical.choice, Quot.sound |
| C92 | `IBL.head_refused_iff` | propext, Classical.choice, Quot.sound |
| C92 | `IBL.thwaites_refused_iff` | propext, Classical.choice, Quot.sound |
| C92 | `IBL.velocity_unset_partial` | propext, Classical.choice, Quot.sound |
| C92 | `IBL.velocity_unset_fails` | propext, Classical.choice, Quot.sound |
| C92 | `IBL.Analytic.construct_raises` | propext, Classical.choice, Quot.sound |
| C92 | `IBL.Analytic.similarity_raises_partial` | propext, Classical.choice, Quot.sound |
| C92 | `IBL.Analytic.reset_m_raises_fails` | propext, Classical.choice, Quot.sound |
| C93 | `IBL.XFoil.empty_file_refused` | propext, Quot.sound |
| C93 | `IBL.XFoil.no_rows_refused` | propext, Classical.choice, Quot.sound |
| C93 | `IBL.XFoil.first_negative_refused` | propext, Classical.choice, Quot.sound |
| C93 | `IBL.XFoil.one_surface_refused` | propext, Classical.choice, Quot.sound |
| C93 | `IBL.XFoil.load_raises_partial` | propext, Classical.choice, Quot.sound |
| C93 | `IBL.XFoil.zero_division_only` | propext, Classical.choice, Quot.sound |
| C93 | `IBL.XFoil.one_surface_accepted` | propext, Classical.choice, Quot.sound |
| C94 | `IBL.arrays_agree_partial` | propext, Classical.choice, Quot.sound |
| C94 | `IBL.one_sided` | propext, Classical.choice, Quot.sound |
| C94 | `IBL.fits_arrays_agree` | propext, Classical.choice, Quot.sound |
| C94 | `IBL.arrays_agree_fails` | propext, Classical.choice, Quot.sound |
| C95 | `IBL.head_determined_partial` | propext, Classical.choice, Quot.sound |
| C95 | `IBL.head_determined_smooth` | propext, Classical.choice, Quot.sound |
| C95 | `IBL.head_two_solutions` | propext, Classical.choice, Quot.sound |
| C95 | `IBL.head_not_determined` | propext, Classical.choice, Quot.sound |
| C96 | `IBL.head_solvable` | propext, Classical.choice, Quot.sound |
| C96 | `IBL.head_no_smooth_passage` | propext, Classical.choice, Quot.sound |
| C97 | `IBL.table_velocity` | propext, Classical.choice, Quot.sound |
| C97 | `IBL.table_velocity_accepted_iff` | propext, Classical.choice, Quot.sound |
| C97 | `IBL.table_slope` | propext, Classical.choice, Quot.sound |
| C97 | `IBL.interpolator_vectors` | propext, Classical.choice, Quot.sound |
| C98 | `IBL.tables_accelerate_partial` | propext, Classical.choice, Quot.sound |
| C98 | `IBL.tables_accelerate_fails` | propext, Classical.choice, Quot.sound |
| C99 | `IBL.table_thwaites_determined` | propext, Classical.choice, Quot.sound |
| C99 | `IBL.table_thwaites_attached` | propext, Classical.choice, Quot.sound |
| C99 | `IBL.table_head_attached` | propext, Classical.choice, Quot.sound |

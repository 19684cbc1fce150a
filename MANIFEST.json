{
 "claims": [
  {
   "property": "C01",
   "status": "proved",
   "theorems": [
    "IBL.nu_never_nonpositive",
    "IBL.constructor_rejects_nu",
    "IBL.nu_assignment",
    "IBL.nan_viscosity_accepted"
   ],
   "note": "Any arithmetic, any history. The claim is about `<= 0` comparing false; NaN is accepted by the code (nan_viscosity_accepted)."
  },
  {
   "property": "C02",
   "status": "proved",
   "theorems": [
    "IBL.solve_faithful",
    "IBL.solve_returns"
   ],
   "note": "Any integrator, any arithmetic."
  },
  {
   "property": "C03",
   "status": "proved",
   "theorems": [
    "IBL.reason_text_injective",
    "IBL.message_injective",
    "IBL.solve_message"
   ],
   "note": ""
  },
  {
   "property": "C04",
   "status": "proved",
   "theorems": [
    "IBL.failed_solve_leaves_nothing",
    "IBL.fresh_object_raises",
    "IBL.successful_solve_is_visible",
    "IBL.raising_solve_keeps_solution",
    "IBL.stale_solution_after_exception"
   ],
   "note": "The parenthetical remark of the statement is raising_solve_keeps_solution / stale_solution_after_exception."
  },
  {
   "property": "C05",
   "status": "partial",
   "theorems": [
    "IBL.events_not_scoped",
    "IBL.user_events_leak",
    "IBL.events_scoped_partial",
    "IBL.thwaites_events_since",
    "IBL.head_events_since",
    "IBL.thwaites_events_scoped_partial",
    "IBL.head_events_scoped_partial"
   ],
   "note": "False of the code: events_not_scoped is the negation. Holds over all histories in which no solve was given events since the closure was last selected; in general the extra events are among those."
  },
  {
   "property": "C06",
   "status": "proved",
   "theorems": [
    "IBL.thwaites_separation_monitored",
    "IBL.head_separation_monitored"
   ],
   "note": ""
  },
  {
   "property": "C07",
   "status": "partial",
   "theorems": [
    "IBL.accepted_velocity_works_partial",
    "IBL.accepted_velocity_fails",
    "IBL.accepted_bad_second",
    "IBL.accepted_velocity_total",
    "IBL.object_velocity_partial"
   ],
   "note": "Holds for all argument kinds except a non-callable d2u_e next to a callable du_e, which the code accepts (line 466 tests du_e twice): accepted_velocity_fails is the negation."
  },
  {
   "property": "C08",
   "status": "partial",
   "theorems": [
    "IBL.rejected_velocity_keeps_fails",
    "IBL.rejected_callable_overwrites",
    "IBL.rejected_velocity_keeps_partial",
    "IBL.rejected_callable_exact"
   ],
   "note": "False of the code for callable u_e (stored before the checks). Holds for every other kind of u_e."
  },
  {
   "property": "C09",
   "status": "proved",
   "theorems": [
    "IBL.table_accepted_iff",
    "IBL.not_table_rejected",
    "IBL.bad_table_error"
   ],
   "note": "Any interpolator."
  },
  {
   "property": "C10",
   "status": "proved",
   "theorems": [
    "IBL.numeric_slope_accuracy",
    "IBL.numeric_curvature_accuracy",
    "IBL.numeric_second_accuracy",
    "IBL.numeric_slope_exact",
    "IBL.numeric_curvature_exact",
    "IBL.numeric_second_exact"
   ],
   "note": "Exact arithmetic (no rounding of the differences; with rounding: C88)."
  },
  {
   "property": "C100",
   "status": "proved",
   "theorems": [
    "IBL.table_units",
    "IBL.table_slope_units",
    "IBL.interpolator_moves",
    "IBL.histories_move_tables"
   ],
   "note": "Exact arithmetic; scipy's interpolator as modelled, on vectors."
  },
  {
   "property": "C101",
   "status": "proved",
   "theorems": [
    "IBL.table_line"
   ],
   "note": "Exact arithmetic; scipy's interpolator as modelled."
  },
  {
   "property": "C102",
   "status": "proved",
   "theorems": [
    "IBL.XFoil.clean_tables",
    "IBL.XFoil.dump_to_layer"
   ],
   "note": "Exact arithmetic; scipy's interpolator as modelled. The reader of floats is a parameter."
  },
  {
   "property": "C103",
   "status": "proved",
   "theorems": [
    "IBL.thicker_stays_thicker",
    "IBL.thicker_separates_first",
    "IBL.thinner_stays_attached",
    "IBL.thicker_separated_too"
   ],
   "note": "Exact arithmetic; scipy's event handling as modelled."
  },
  {
   "property": "C104",
   "status": "proved",
   "theorems": [
    "IBL.Stanford.head_accepts_case",
    "IBL.Stanford.head_of_case"
   ],
   "note": "Exact arithmetic; scipy's pchip as modelled. Covers the program in examples/turbulent/head_case1100_comparison.py up to the integration."
  },
  {
   "property": "C105",
   "status": "partial",
   "theorems": [
    "IBL.Analytic.similarity_arrays_partial",
    "IBL.Analytic.plane_arrays_partial",
    "IBL.Analytic.line_arrays_partial",
    "IBL.Analytic.profile_arrays",
    "IBL.Analytic.lengths_refused",
    "IBL.Analytic.similarity_arrays_downstream",
    "IBL.Analytic.similarity_arrays_fail"
   ],
   "note": "False of the code at the origin: python floats raise ZeroDivisionError where arrays give a value. Proved in any arithmetic for arrays without the origin, for profiles at one location without restriction. One-dimensional arrays; scipy's dense solution acts elementwise."
  },
  {
   "property": "C106",
   "status": "proved",
   "theorems": [
    "IBL.stagnation_start_bounded",
    "IBL.nonlinear_below",
    "IBL.linear_below"
   ],
   "note": "Exact solutions of the code's equation."
  },
  {
   "property": "C107",
   "status": "proved",
   "theorems": [
    "IBL.solve_depends_on_settings",
    "IBL.solve_again"
   ],
   "note": "In any arithmetic. With user events it is false (C05)."
  },
  {
   "property": "C108",
   "status": "partial",
   "theorems": [
    "IBL.Analytic.no_profile_refuses_partial",
    "IBL.Analytic.success_has_profile",
    "IBL.Analytic.no_profile_is_stale",
    "IBL.Analytic.stale_thickness",
    "IBL.Analytic.no_profile_refuses_fails"
   ],
   "note": "False of the code: the thicknesses, shape factors, v_e and dissipation still answer from the dropped solution (no_profile_is_stale). Proved for the profile and the velocity components."
  },
  {
   "property": "C109",
   "status": "partial",
   "theorems": [
    "IBL.initial_read_after",
    "IBL.initial_read_before_partial",
    "IBL.stagnation_read",
    "IBL.read_before_fails",
    "IBL.shape_factor_read_back"
   ],
   "note": "Proved after a solve with any condition and before it with a ManualCondition, any arithmetic. False of the code before a solve with a stagnation condition, which still has its own slope and viscosity."
  },
  {
   "property": "C11",
   "status": "proved",
   "theorems": [
    "IBL.PPoly.scalar_velocity_integral",
    "IBL.PPoly.scalar_velocity_integral_joined",
    "IBL.PPoly.addConst_eval"
   ],
   "note": "Exact arithmetic, any piecewise polynomial slope with increasing breakpoints; scipy's evaluation and antiderivative are modelled from its documentation."
  },
  {
   "property": "C110",
   "status": "proved",
   "theorems": [
    "IBL.extended_table_accepted_iff",
    "IBL.extended_table_velocity",
    "IBL.extended_table_slope"
   ],
   "note": "Over numbers extended by NaN and infinities, without rounding; scipy's pchip as modelled in Model/Pchip.lean."
  },
  {
   "property": "C111",
   "status": "proved",
   "theorems": [
    "IBL.XFoil.dump_start_values",
    "IBL.XFoil.dump_to_head"
   ],
   "note": "Real arithmetic; scipy's pchip as modelled in Model/Pchip.lean."
  },
  {
   "property": "C112",
   "status": "partial",
   "theorems": [
    "IBL.stagnation_slope",
    "IBL.stagSlope_pos_iff",
    "IBL.stagnation_start_partial",
    "IBL.stagnation_start_fails",
    "IBL.XFoil.dump_stagnation_table"
   ],
   "note": "Exact slope proved: that of the parabola through the first three points, limited to [0, 3 times the first chord]. False of the code for tables whose second velocity is not below the parabola through the first: du_e is then 0 and solve() raises ZeroDivisionError. Real arithmetic; scipy's pchip as modelled in Model/Pchip.lean."
  },
  {
   "property": "C113",
   "status": "partial",
   "theorems": [
    "IBL.wedge_similarity_partial",
    "IBL.wedge_stagnation",
    "IBL.wedge_similarity_fails",
    "IBL.wedge_attached"
   ],
   "note": "Exact for p = 1; otherwise proved up to the factor 1 + 0.001 (1 - p)/((5 p + 1) v), v the smallest velocity, never thicker. False exactly because the code divides by u_e + 0.001 (witness: flat plate). The statement about separation is proved in full for solutions of the equation. Real arithmetic."
  },
  {
   "property": "C114",
   "status": "proved",
   "theorems": [
    "IBL.thwaites_grows",
    "IBL.head_grows",
    "IBL.builtin_f_pos"
   ],
   "note": "Exact solutions of the code's equations over the reals; Head's with finitely many exceptional points."
  },
  {
   "property": "C115",
   "status": "proved",
   "theorems": [
    "IBL.layer_worsens",
    "IBL.criterion_falls",
    "IBL.separation_at_end_iff",
    "IBL.separation_step_independent",
    "IBL.builtin_adverse",
    "IBL.howarth_case"
   ],
   "note": "Accepted points on an exact solution; scipy's event handling modelled; real arithmetic."
  },
  {
   "property": "C116",
   "status": "partial",
   "theorems": [
    "IBL.head_drag",
    "IBL.head_plate_drag",
    "IBL.thwaites_plate_drag_partial",
    "IBL.nonlinear_plate_drag",
    "IBL.plate_drag_fails"
   ],
   "note": "Proved for Head. For Thwaites on a flat plate proved with the exact factors: (U + 0.001)/U for the nonlinear method and in addition 2 S(0)/0.45 for the linear one; false without them. Exact solutions, real arithmetic; Head's tau_w queried with an array (C27)."
  },
  {
   "property": "C117",
   "status": "proved",
   "theorems": [
    "IBL.result_lines",
    "IBL.result_text_determines"
   ],
   "note": "The formatting of floats and numpy arrays is a parameter; only that it stays on one line is used. (numpy prints array entries with 8 digits, so f_end itself is not determined by the text.)"
  },
  {
   "property": "C118",
   "status": "proved",
   "theorems": [
    "IBL.thickness_lower_bound",
    "IBL.criterion_met",
    "IBL.persistent_deceleration_separates",
    "IBL.drela_never_separates",
    "IBL.persistent_case"
   ],
   "note": "Exact solutions; solve_ivp as modelled in Model/SolveIvp.lean. The bound on the right hand side of the nonlinear method holds for each built-in fit by its formula."
  },
  {
   "property": "C119",
   "status": "proved",
   "theorems": [
    "IBL.sampled_velocity",
    "IBL.equidistant_samples",
    "IBL.equidistant_converges"
   ],
   "note": "PchipInterpolator as modelled in Model/Pchip.lean, exact arithmetic. Samples.error is the statement about the interpolant."
  },
  {
   "property": "C12",
   "status": "partial",
   "theorems": [
    "IBL.fit_argument_clipped",
    "IBL.array_clipped_partial",
    "IBL.array_clipped_fails"
   ],
   "note": "False of the code for arrays exceeding the range on both sides (an if/elif over the whole array): array_clipped_fails. The caller's array is never written because np.array copies. Scalars: any arithmetic."
  },
  {
   "property": "C120",
   "status": "proved",
   "theorems": [
    "IBL.thickness_error",
    "IBL.table_thickness_error",
    "IBL.table_thickness_case"
   ],
   "note": "Exact solutions of the equation handed to the integrator; PchipInterpolator as modelled in Model/Pchip.lean."
  },
  {
   "property": "C121",
   "status": "proved",
   "theorems": [
    "IBL.head_until_separation",
    "IBL.head_plate_to_end"
   ],
   "note": "Exact solutions of the code's ODE, continuous, equation satisfied but for finitely many points; at 1.6 the right hand side jumps, so more cannot be asked (C96)."
  },
  {
   "property": "C122",
   "status": "proved",
   "theorems": [
    "IBL.head_shape_rises",
    "IBL.head_ends_before_quarter",
    "IBL.head_separates",
    "IBL.head_separation_determined"
   ],
   "note": "Exact solutions of the code's ODE. The factor 4 is not sharp."
  },
  {
   "property": "C123",
   "status": "proved",
   "theorems": [
    "IBL.XFoil.mirror_exchanges",
    "IBL.XFoil.symmetric_surfaces"
   ],
   "note": "Exact arithmetic."
  },
  {
   "property": "C124",
   "status": "proved",
   "theorems": [
    "IBL.Analytic.falknerSkan_units",
    "IBL.Analytic.blasius_units",
    "IBL.Analytic.similarity_units_set"
   ],
   "note": "Exact arithmetic. For beta = 2 u_e is not defined (C56)."
  },
  {
   "property": "C125",
   "status": "proved",
   "theorems": [
    "IBL.head_error",
    "IBL.head_error_through",
    "IBL.head_starts"
   ],
   "note": "Exact arithmetic; the dense output is compared through its residual."
  },
  {
   "property": "C126",
   "status": "proved",
   "theorems": [
    "IBL.PyFloat.float_iff",
    "IBL.PyFloat.float_numeral",
    "IBL.PyFloat.numeral_unique",
    "IBL.PyFloat.float_run_together",
    "IBL.PyFloat.float_asterisk",
    "IBL.PyFloat.float_special",
    "IBL.XFoil.printed_row",
    "IBL.XFoil.printed_wake_row",
    "IBL.XFoil.printed_row_rejected",
    "IBL.XFoil.printed_dump",
    "IBL.XFoil.printed_tables",
    "IBL.Stanford.printed_station"
   ],
   "note": "python's float() modelled from its documentation (ASCII digits; the value before rounding to a double). Rows in any arithmetic, tables in exact arithmetic."
  },
  {
   "property": "C127",
   "status": "proved",
   "theorems": [
    "IBL.rounded_table_accepted_iff",
    "IBL.rounded_table_velocity",
    "IBL.rounded_table_points"
   ],
   "note": "Model of scipy's PCHIP (external code) with scipy's order of operations, over arithmetic with rounding without overflow and underflow (Verif/Round.lean). The exact interpolant is the one of C97. Locations outside the table are not covered."
  },
  {
   "property": "C128",
   "status": "proved",
   "theorems": [
    "IBL.rk45_ends",
    "IBL.rk45_steps",
    "IBL.rk45_solve_returns",
    "IBL.rk45_consistent",
    "IBL.separation_total",
    "IBL.rk45_no_exception",
    "IBL.rkStep_textbook",
    "IBL.rk45_example"
   ],
   "note": "Model of scipy's RK45 (external code, Model/RungeKutta.lean) in exact arithmetic; the distance to the next float is a parameter with a positive lower bound. The root finder is assumed to return."
  },
  {
   "property": "C129",
   "status": "proved",
   "theorems": [
    "IBL.rk45_flat_plate",
    "IBL.rk45_stagnation",
    "IBL.solve_line",
    "IBL.rk45_exact_cases"
   ],
   "note": "solve, scipy's RK45 and its dense output (external code, modelled) and the queries together, in exact arithmetic. The fits only have to be attached at the lambda of the flow."
  },
  {
   "property": "C13",
   "status": "proved",
   "theorems": [
    "IBL.white_shape_p",
    "IBL.drela_shape_p",
    "IBL.cb_shape_p",
    "IBL.cb_shape_jump",
    "IBL.drela_shape_p_outside",
    "IBL.custom_shape_p",
    "IBL.spline_shape_p",
    "IBL.spline_shape_p_outside",
    "IBL.table_splines_exist",
    "IBL.spline_unique"
   ],
   "note": "Exact arithmetic. Spline: for every function that is the not-a-knot cubic spline of the tables as scipy documents it (Spec/Spline.lean); there is exactly one, computed exactly. custom_shape_p adds the numerical derivative used for two-tuples of callables."
  },
  {
   "property": "C130",
   "status": "proved",
   "theorems": [
    "IBL.rk45_empty_interval",
    "IBL.rk45_empty_case"
   ],
   "note": "With scipy's RK45 and event handling (external code) modelled, exact arithmetic."
  },
  {
   "property": "C131",
   "status": "proved",
   "theorems": [
    "IBL.rk45_thwaites_fifth_order",
    "IBL.rk45_follows",
    "IBL.rk45_order_case"
   ],
   "note": "Exact arithmetic; scipy's RK45, its dense output and event handling modelled. The constant exists by compactness and is not computed. The relation between h and the tolerances is not part of the claim."
  },
  {
   "property": "C132",
   "status": "proved",
   "theorems": [
    "IBL.viscosity_queries",
    "IBL.viscosity_solve",
    "IBL.viscosity_call",
    "IBL.viscosity_history",
    "IBL.viscosity_construct"
   ],
   "note": "Exact arithmetic. The integrator is any function of the problem it is given."
  },
  {
   "property": "C133",
   "status": "proved",
   "theorems": [
    "IBL.rk45_separation_located",
    "IBL.rk45_no_false_separation",
    "IBL.separatesAt_white",
    "IBL.separatesAt_spline",
    "IBL.separatesAt_cb",
    "IBL.rk45_separation_case"
   ],
   "note": "Exact arithmetic; scipy's RK45, its dense output and event handling modelled, brentq by its contract. The constant exists by compactness and is not computed."
  },
  {
   "property": "C134",
   "status": "proved",
   "theorems": [
    "IBL.rk45_failure",
    "IBL.rk45_succeeds",
    "IBL.rk45_step_count",
    "IBL.thwaites_solve_succeeds",
    "IBL.thwaites_step_count",
    "IBL.boundedFits_spline",
    "IBL.boundedFits_cb",
    "IBL.rk45_failure_case",
    "IBL.thwaites_success_case"
   ],
   "note": "Exact arithmetic with the spacing of numbers as a parameter; the bound g is explicit in the proof (atol / (50 (M E + 1))) but not in the statement. White's and Drela's functions are unbounded above and not covered by the nonlinear case."
  },
  {
   "property": "C135",
   "status": "proved",
   "theorems": [
    "IBL.rk45_converges",
    "IBL.rk45_solve_converges",
    "IBL.thwaites_converges",
    "IBL.table_thwaites_converges",
    "IBL.head_converges",
    "IBL.thwaites_converges_case",
    "IBL.white_converges_case",
    "IBL.head_converges_case"
   ],
   "note": "Exact arithmetic; scipy's RK45 with step size control and dense output modelled. First order in h only (smooth flows: C131 has the fifth order for the linear method). White's functions, whose right hand side is not Lipschitz continuous at its end lambda = -0.09, are covered for layers above that only, and not for tables (C139 has them without a rate); C137 has the passage of Head's shape factor through 1.6, where the right hand side jumps."
  },
  {
   "property": "C136",
   "status": "proved",
   "theorems": [
    "IBL.rk45_separation_converges",
    "IBL.rk45_attached_converges",
    "IBL.thwaites_separation_converges",
    "IBL.table_separation_converges",
    "IBL.head_separation_converges",
    "IBL.thwaites_separation_case",
    "IBL.head_separation_case"
   ],
   "note": "Exact arithmetic; scipy's RK45, dense output and event handling modelled, brentq only as something that returns a point of the bracket. The bound on the steps exists by compactness and is not computed; C133 has the order for smooth flows and the linear method. C139 has separation in the nonlinear method with White's functions (at the end of their range) and tables with them. C137 has Head layers passing 1.6. Calls may name any end, also one that the exact layer does not get to."
  },
  {
   "property": "C137",
   "status": "proved",
   "theorems": [
    "IBL.rk45_passes",
    "IBL.head_passes_converges",
    "IBL.head_passes_separation",
    "IBL.head_slows_passes",
    "IBL.head_slows_converges",
    "IBL.head_slows_case"
   ],
   "note": "Exact arithmetic; scipy's RK45 with step size control, dense output and event handling modelled, brentq only as something that returns a point of the bracket. The ratio 4 of the slopes is what the weights of the Dormand-Prince formula allow (the sum of the negative ones is small); in decelerated flow it is proved to hold. Not covered: layers that touch 1.6 without crossing or cross it several times."
  },
  {
   "property": "C138",
   "status": "proved",
   "theorems": [
    "IBL.added_events_as_passed",
    "IBL.added_events_accumulate",
    "IBL.added_events_dropped",
    "IBL.fits_label"
   ],
   "note": "Generic in the arithmetic. Lists are values in the model: that _set_kill_event keeps a reference to a list of the caller is not modelled (the library passes single events)."
  },
  {
   "property": "C139",
   "status": "proved",
   "theorems": [
    "IBL.rk45_approaches",
    "IBL.thwaites_one_sided",
    "IBL.thwaites_any_fit_converges",
    "IBL.thwaites_any_fit_separation_converges",
    "IBL.table_white_converges",
    "IBL.white_separation_case"
   ],
   "note": "Exact arithmetic; scipy's RK45 with step size control, dense output and event handling modelled, brentq only as something that returns a point of the bracket. No rate of convergence; the bound on the steps exists by compactness and is not computed. C135 and C136 have the rate where the right hand side is Lipschitz continuous."
  },
  {
   "property": "C14",
   "status": "proved",
   "theorems": [
    "IBL.white_regular",
    "IBL.cb_regular",
    "IBL.drela_regular",
    "IBL.fits_shape_gt_one",
    "IBL.white_shape_ge",
    "IBL.cb_shape_gt",
    "IBL.drela_shape_gt",
    "IBL.white_shape_negative",
    "IBL.spline_bounds",
    "IBL.spline_monotone",
    "IBL.spline_interpolates"
   ],
   "note": "Regularity on extended reals where inf/NaN are representable."
  },
  {
   "property": "C140",
   "status": "proved",
   "theorems": [
    "IBL.rk45_rounded",
    "IBL.rk45_rounded_case"
   ],
   "note": "Arithmetic with rounding (Verif/Round.lean): no overflow or underflow, sums of np.dot from the left; scipy's RK45 with step size control, dense output and event handling modelled, the power function in the step size control arbitrary, brentq only as something that returns a point of the bracket. K is not computed. Linear method only."
  },
  {
   "property": "C141",
   "status": "proved",
   "theorems": [
    "IBL.rk45_rounded_ends",
    "IBL.rk45_rounded_steps",
    "IBL.rk45_rounded_returns",
    "IBL.rk45_rounded_ends_case"
   ],
   "note": "Arithmetic with rounding (Verif/Round.lean): no overflow, underflow or nan. RK45 with its step size control and event handling modelled; np.nextafter is a parameter that gives the spacing, the power function a parameter. The bound on the number of steps is far from sharp."
  },
  {
   "property": "C142",
   "status": "proved",
   "theorems": [
    "IBL.Analytic.similarity_drag",
    "IBL.Analytic.similarity_energy_loss",
    "IBL.Analytic.blasius_drag"
   ],
   "note": "Exact arithmetic; the integral is the Lebesgue integral over (0, x). For beta = 2 u_e is not defined (C56)."
  },
  {
   "property": "C143",
   "status": "proved",
   "theorems": [
    "IBL.Analytic.similarity_viscosity_set",
    "IBL.Analytic.falknerSkan_viscosity",
    "IBL.Analytic.blasius_viscosity"
   ],
   "note": "Exact arithmetic. For beta = 2 u_e is not defined (C56)."
  },
  {
   "property": "C144",
   "status": "proved",
   "theorems": [
    "IBL.rounded_separation",
    "IBL.rounded_head_separation",
    "IBL.rounded_head_separation_case"
   ],
   "note": "Arithmetic with rounding (Verif/Round.lean): no overflow, underflow or nan. RK45 and its event handling as in C141. A crossing and return within one accepted step is not seen by solve_ivp, which looks only at accepted points; the statement says so."
  },
  {
   "property": "C145",
   "status": "proved",
   "theorems": [
    "IBL.white_shear_rounded",
    "IBL.cb_shear_rounded",
    "IBL.drela_shear_rounded",
    "IBL.rounded_laminar_separation",
    "IBL.rounded_white_separation",
    "IBL.rounded_cb_separation",
    "IBL.rounded_drela_separation",
    "IBL.rounded_laminar_separation_case"
   ],
   "note": "Arithmetic with rounding (Verif/Round.lean): no overflow, underflow or nan. RK45 and its event handling as in C141. The spline functions are covered by rounded_laminar_separation only: how scipy computes the spline in floating point is not modelled. That the states stay non-negative in rounded arithmetic is a hypothesis of the statement about Drela."
  },
  {
   "property": "C146",
   "status": "proved",
   "theorems": [
    "IBL.rounded_start_state",
    "IBL.rounded_start_queried",
    "IBL.rounded_start_case"
   ],
   "note": "Arithmetic with rounding (Verif/Round.lean): no overflow, underflow or nan. RK45, its dense output and event handling as modelled; the spacing of floats a parameter (FloatGaps)."
  },
  {
   "property": "C147",
   "status": "proved",
   "theorems": [
    "IBL.Stanford.rounded_summary_read",
    "IBL.Stanford.rounded_station_read",
    "IBL.Stanford.rounded_units_agree",
    "IBL.Stanford.squares_case",
    "IBL.Stanford.rounded_station_case"
   ],
   "note": "Arithmetic with rounding (Verif/Round.lean): no overflow, underflow or nan. float(text) is the nearest float to the number (rounded); the square by ** is right up to two units of rounding (Squares). The derived values: x is not infinite and c_f is not negative."
  },
  {
   "property": "C148",
   "status": "proved",
   "theorems": [
    "IBL.Stanford.rounded_summary_accepted",
    "IBL.Stanford.rounded_consistent",
    "IBL.Stanford.rounded_profile",
    "IBL.Stanford.rounded_station_case"
   ],
   "note": "Arithmetic with rounding (Verif/Round.lean): no overflow, underflow or nan. float(text) is the nearest float to the number. The derived values are compared if x is not infinite."
  },
  {
   "property": "C149",
   "status": "proved",
   "theorems": [
    "IBL.float_viscosity_queries",
    "IBL.float_viscosity_solve",
    "IBL.float_viscosity_call",
    "IBL.float_viscosity_history",
    "IBL.float_viscosity_construct",
    "IBL.float_viscosity_case"
   ],
   "note": "Arithmetic with rounding (Verif/Round.lean): no overflow, underflow or nan. delta_m**2 as a product. The integrator is any function of the problem it is given."
  },
  {
   "property": "C15",
   "status": "partial",
   "theorems": [
    "IBL.signals_separation_partial",
    "IBL.all_signal_fails",
    "IBL.separation_event_value",
    "IBL.white_signals",
    "IBL.white_event_iff",
    "IBL.cb_signals_at",
    "IBL.cb_signals",
    "IBL.drela_shear_pos",
    "IBL.drela_never_signals",
    "IBL.drela_event_positive",
    "IBL.spline_signals",
    "IBL.spline_event_iff",
    "IBL.spline_event_nonneg",
    "IBL.spline_shear_pos_iff"
   ],
   "note": "True for Spline, White and Cebeci-Bradshaw, false for Drela (drela_never_signals)."
  },
  {
   "property": "C150",
   "status": "proved",
   "theorems": [
    "IBL.Analytic.float_similarity_set",
    "IBL.Analytic.float_falknerSkan",
    "IBL.Analytic.float_blasius",
    "IBL.Analytic.float_similarity_case"
   ],
   "note": "Arithmetic with rounding (Verif/Round.lean): no overflow, underflow or nan. u_e**2 as a product. The power function is arbitrary."
  },
  {
   "property": "C151",
   "status": "proved",
   "theorems": [
    "IBL.Stanford.rounded_case_read",
    "IBL.Stanford.rounded_smooth_ordered",
    "IBL.Stanford.rounded_case_accepted",
    "IBL.Stanford.rounded_case_case"
   ],
   "note": "Arithmetic with rounding (Verif/Round.lean): no overflow, underflow or nan; float(text) is the nearest float to the decimal number. With station sections acceptance is not compared, since the tolerances of the comparisons are themselves rounded (C148 says what an accepted station satisfies)."
  },
  {
   "property": "C152",
   "status": "proved",
   "theorems": [
    "IBL.float_time_queries",
    "IBL.float_time_solve",
    "IBL.float_time_call",
    "IBL.float_time_history",
    "IBL.float_time_construct",
    "IBL.float_time_case"
   ],
   "note": "Arithmetic with rounding (Verif/Round.lean): no overflow, underflow or nan. The power function is arbitrary. Velocities as callables; tables and tau_w (arrays only) are not part of it. Thwaites' methods add 0.001 to the velocity, so they have no such symmetry."
  },
  {
   "property": "C153",
   "status": "proved",
   "theorems": [
    "IBL.XFoil.rounded_edge_velocity",
    "IBL.XFoil.unit_edge_velocity",
    "IBL.XFoil.binary_reference_velocity",
    "IBL.XFoil.rounded_delta_k",
    "IBL.XFoil.edge_velocity_case"
   ],
   "note": "Arithmetic with rounding (Verif/Round.lean): no overflow, underflow or nan."
  },
  {
   "property": "C154",
   "status": "proved",
   "theorems": [
    "IBL.HeadArr.float_time_shear",
    "IBL.HeadArr.float_time_transpiration",
    "IBL.HeadArr.float_time_shear_case"
   ],
   "note": "Arithmetic with rounding (Verif/Round.lean): no overflow, underflow or nan. Velocity callables that return new arrays. numpy computes u_e**2 of an array as u_e*u_e."
  },
  {
   "property": "C155",
   "status": "proved",
   "theorems": [
    "IBL.Pchip.interpolator_times",
    "IBL.float_table_units",
    "IBL.float_table_slope_units",
    "IBL.float_table_case"
   ],
   "note": "Arithmetic with rounding (Verif/Round.lean): no overflow, underflow or nan. scipy's PchipInterpolator and PPoly as modelled in Model/Pchip.lean and Model/PPoly.lean. For the table of slopes both arrays are vectors; for the table of velocities other shapes are rejected before the interpolation."
  },
  {
   "property": "C156",
   "status": "proved",
   "theorems": [
    "IBL.rounded_initial_values",
    "IBL.rounded_initial_order",
    "IBL.rounded_stagnation",
    "IBL.rounded_initial_case"
   ],
   "note": "Arithmetic with rounding (Verif/Round.lean): no overflow, underflow or nan. Thickness first; for the other order see C25."
  },
  {
   "property": "C157",
   "status": "proved",
   "theorems": [
    "IBL.rounded_ludwieg_tillman_pos",
    "IBL.rounded_ludwieg_tillman_anti",
    "IBL.rounded_felsch_defined",
    "IBL.rounded_felsch_nonneg",
    "IBL.rounded_felsch_pos",
    "IBL.rounded_felsch_anti",
    "IBL.rounded_felsch_clip",
    "IBL.rounded_white_pos",
    "IBL.rounded_white_anti_re",
    "IBL.rounded_white_anti_h",
    "IBL.elementary_correct",
    "IBL.rounded_skin_friction_case"
   ],
   "note": "Arithmetic with rounding (Verif/Round.lean): no overflow, underflow or nan. The library functions are hypotheses (Elementary), met by correctly rounded ones (elementary_correct). Scalars."
  },
  {
   "property": "C158",
   "status": "proved",
   "theorems": [
    "IBL.Head.rounded_h1_ge",
    "IBL.Head.rounded_h1_anti",
    "IBL.Head.rounded_h1p_neg",
    "IBL.Head.rounded_entrainment_pos",
    "IBL.Head.rounded_entrainment_anti",
    "IBL.Head.rounded_hOf_ge",
    "IBL.Head.rounded_rates_defined",
    "IBL.Head.rounded_thickness_grows",
    "IBL.Head.rounded_thickness_order",
    "IBL.Head.rounded_head_rhs",
    "IBL.Head.rounded_closure_case"
   ],
   "note": "Arithmetic with rounding (Verif/Round.lean): no overflow, underflow or nan. The library functions are hypotheses (Elementary), see C157. 3.3, 1.1, 1.6 and 0.6778 are the rounded literals of the code."
  },
  {
   "property": "C159",
   "status": "proved",
   "theorems": [
    "IBL.rounded_laminar_thickness",
    "IBL.rounded_displacement",
    "IBL.rounded_laminar_shear",
    "IBL.rounded_laminar_case"
   ],
   "note": "Arithmetic with rounding (Verif/Round.lean): no overflow, underflow or nan. Locations one at a time."
  },
  {
   "property": "C16",
   "status": "proved",
   "theorems": [
    "IBL.thwaites_momentum_exact_rhs",
    "IBL.thwaites_momentum_defect"
   ],
   "note": "Exact arithmetic. The momentum integral holds up to the code's own regularisation of u_e by 0.001; thwaites_momentum_defect gives the defect exactly."
  },
  {
   "property": "C160",
   "status": "proved",
   "theorems": [
    "IBL.HeadArr.rounded_shear_positive",
    "IBL.HeadArr.rounded_shear_order",
    "IBL.HeadArr.rounded_shear_case"
   ],
   "note": "Arithmetic with rounding (Verif/Round.lean): no overflow, underflow or nan. Velocity functions that return new arrays (see C28 for others). The library functions are hypotheses (Elementary), see C157."
  },
  {
   "property": "C161",
   "status": "proved",
   "theorems": [
    "IBL.Fits.rounded_fits_divisors",
    "IBL.Fits.rounded_white_shear_order",
    "IBL.Fits.rounded_cb_shear_order",
    "IBL.Fits.rounded_cb_shape_order",
    "IBL.Fits.rounded_linear_growth",
    "IBL.Fits.rounded_linear_rate",
    "IBL.Fits.rounded_fits_case"
   ],
   "note": "Arithmetic with rounding (Verif/Round.lean): no overflow, underflow or nan. The polynomials of White and Drela and of Cebeci and Bradshaw for positive lambda are not monotone operation by operation and are left out. 2.088 and 0.45 are the rounded literals of the code."
  },
  {
   "property": "C162",
   "status": "proved",
   "theorems": [
    "IBL.Analytic.rounded_similarity_velocity",
    "IBL.Analytic.rounded_similarity_thicknesses",
    "IBL.Analytic.rounded_similarity_shear",
    "IBL.Analytic.rounded_similarity_regular",
    "IBL.Analytic.rounded_similarity_case"
   ],
   "note": "Arithmetic with rounding (Verif/Round.lean): no overflow, underflow or nan. Python floats as locations. That the thickness integrals found by the numerical tools are positive and ordered is a hypothesis; the power function is assumed to be Elementary (C157)."
  },
  {
   "property": "C17",
   "status": "proved",
   "theorems": [
    "IBL.thwaites_transpiration",
    "IBL.thwaites_transpiration_builtin",
    "IBL.thwaites_transpiration_spline"
   ],
   "note": "Exact arithmetic."
  },
  {
   "property": "C18",
   "status": "proved",
   "theorems": [
    "IBL.thwaites_bounded_below",
    "IBL.builtin_f_pos",
    "IBL.thwaites_linear_quadrature",
    "IBL.thwaites_stays_positive"
   ],
   "note": "Exact solutions of the code's ODE, no discretisation error."
  },
  {
   "property": "C19",
   "status": "proved",
   "theorems": [
    "IBL.set_data_fits_iff",
    "IBL.documented_fits_iff",
    "IBL.constructor_fits_iff"
   ],
   "note": ""
  },
  {
   "property": "C20",
   "status": "partial",
   "theorems": [
    "IBL.Head.entrainment_not_decreasing",
    "IBL.Head.entrainment_not_injective",
    "IBL.Head.entrainment_decreasing_partial",
    "IBL.Head.entrainment_almost_decreasing"
   ],
   "note": "False of the code at the branch point H = 1.6 (a jump of about 1e-15 upwards). Strictly decreasing on each branch."
  },
  {
   "property": "C21",
   "status": "partial",
   "theorems": [
    "IBL.Head.roundtrip_fails_at_branch",
    "IBL.Head.conversions_not_inverse",
    "IBL.Head.roundtrip_partial",
    "IBL.Head.roundtrip_close"
   ],
   "note": "False of the code around the branch point. Exact elsewhere; everywhere the error is below 3e-15."
  },
  {
   "property": "C22",
   "status": "proved",
   "theorems": [
    "IBL.Head.entrainment_derivative",
    "IBL.Head.entrainment_derivative_neg"
   ],
   "note": "Exact arithmetic."
  },
  {
   "property": "C23",
   "status": "proved",
   "theorems": [
    "IBL.head_momentum_integral",
    "IBL.head_entrainment_equation"
   ],
   "note": "Exact arithmetic, where the code's floors are not active and off the branch point."
  },
  {
   "property": "C24",
   "status": "proved",
   "theorems": [
    "IBL.head_transpiration"
   ],
   "note": "Exact arithmetic."
  },
  {
   "property": "C25",
   "status": "partial",
   "theorems": [
    "IBL.initial_order_matters",
    "IBL.initial_values_partial"
   ],
   "note": "False of the code for shape factor first. Holds for thickness first with a ManualCondition, exact arithmetic."
  },
  {
   "property": "C26",
   "status": "proved",
   "theorems": [
    "IBL.head_event_sign",
    "IBL.head_event_sign_rounded",
    "IBL.head_separation_monitored"
   ],
   "note": "Exact arithmetic with infinities and NaN, and arithmetic with rounding."
  },
  {
   "property": "C27",
   "status": "partial",
   "theorems": [
    "IBL.HeadArr.tau_w_array",
    "IBL.HeadArr.tau_w_scalar_raises",
    "IBL.HeadArr.v_e_scalar",
    "IBL.HeadArr.v_e_array",
    "IBL.HeadArr.transpiration_agrees_partial",
    "IBL.HeadArr.transpiration_agrees_fails",
    "IBL.HeadArr.shear_agrees_fails",
    "IBL.HeadArr.shear_pointwise_partial"
   ],
   "note": "False of the code: tau_w raises at a float, and v_e differs in reversed flow (different floors). Proved: v_e agrees where u_e > -0.001 on the whole array; tau_w of an array of any length gives at each element what that element gives as an array of length one."
  },
  {
   "property": "C28",
   "status": "partial",
   "theorems": [
    "IBL.HeadArr.query_writes_argument",
    "IBL.HeadArr.queries_read_only_fails",
    "IBL.HeadArr.queries_read_only_partial",
    "IBL.HeadArr.elementwise_ok"
   ],
   "note": "False of the code: the floor writes into the array the velocity callable returns, which may be the caller's. Holds when the callable returns floats or new arrays."
  },
  {
   "property": "C29",
   "status": "proved",
   "theorems": [
    "IBL.ludwieg_tillman_pos",
    "IBL.ludwieg_tillman_anti_re",
    "IBL.ludwieg_tillman_anti_h",
    "IBL.felsch_base_nonneg",
    "IBL.felsch_nonneg",
    "IBL.felsch_at_separation",
    "IBL.felsch_anti_re",
    "IBL.felsch_anti_h",
    "IBL.white_pos",
    "IBL.white_anti_re",
    "IBL.white_anti_h",
    "IBL.skin_friction_regular"
   ],
   "note": "Reals; regularity on extended reals."
  },
  {
   "property": "C30",
   "status": "proved",
   "theorems": [
    "IBL.stagnation_condition",
    "IBL.stagnation_stationary",
    "IBL.stagnation_zero_slope",
    "IBL.stagnation_negative_slope"
   ],
   "note": "Exact arithmetic."
  },
  {
   "property": "C31",
   "status": "partial",
   "theorems": [
    "IBL.initial_thickness_guard",
    "IBL.initial_thickness_ignored",
    "IBL.initial_thickness_used_fails",
    "IBL.initial_thickness_used_partial"
   ],
   "note": "False of the code with a stagnation condition installed (assignment silently ignored). Holds with ManualCondition, any arithmetic and history."
  },
  {
   "property": "C32",
   "status": "proved",
   "theorems": [
    "IBL.Analytic.reset_m_reads_back",
    "IBL.Analytic.beta_survives_m",
    "IBL.Analytic.reset_m_rejects",
    "IBL.Analytic.reset_m_accepts_iff",
    "IBL.Analytic.reset_m_minus_inf"
   ],
   "note": "Exact arithmetic extended by infinities and NaN (with rounding: C89)."
  },
  {
   "property": "C33",
   "status": "partial",
   "theorems": [
    "IBL.Analytic.failure_keeps_partial",
    "IBL.Analytic.failed_reset_changes_beta",
    "IBL.Analytic.failed_set_drops_solution",
    "IBL.Analytic.failure_keeps_fails"
   ],
   "note": "False of the code: reset_beta stores beta before the search, and set_solution_parameters drops the old profile when the last integration fails. Proved: rejected arguments leave the object as it was."
  },
  {
   "property": "C34",
   "status": "partial",
   "theorems": [
    "IBL.Analytic.supplied_eta_kept",
    "IBL.Analytic.supplied_fw_kept",
    "IBL.Analytic.search_total",
    "IBL.Analytic.search_never_reports",
    "IBL.Analytic.search_converges_fails",
    "IBL.Analytic.eta_supplied_converged_partial",
    "IBL.Analytic.fw_supplied_converged_partial",
    "IBL.Analytic.blasius_eta_search",
    "IBL.Analytic.blasius_eta_search_returns",
    "IBL.Analytic.blasius_fw_search",
    "IBL.Analytic.blasius_fw_search_returns"
   ],
   "note": "False of the code: the search returns after 100 rounds without looking at its convergence flags. Proved: supplied values are kept; with one value supplied and the flag set the searched end condition holds to 1e-8. For the Blasius equation with a supplied f''(0) up to 1e13 and an exact integrator the search is proved to converge (blasius_eta_search), and likewise with a supplied eta_inf of at least 2e-5 (blasius_fw_search)."
  },
  {
   "property": "C35",
   "status": "partial",
   "theorems": [
    "IBL.Analytic.thickness_integrals_partial",
    "IBL.Analytic.thickness_integrals_close_partial",
    "IBL.Analytic.thickness_integrals_fail",
    "IBL.Analytic.exact_exists",
    "IBL.Analytic.exact_call"
   ],
   "note": "Exact equality is impossible at finite eta_inf (proved). Proved: eta_d is the integral; eta_m and eta_k are the integrals up to explicit terms in 1 - f'(eta_inf) and f''(eta_inf), and their bound for the tolerances of the search."
  },
  {
   "property": "C36",
   "status": "proved",
   "theorems": [
    "IBL.Analytic.continuity",
    "IBL.Analytic.transpiration"
   ],
   "note": "Exact arithmetic."
  },
  {
   "property": "C37",
   "status": "proved",
   "theorems": [
    "IBL.Analytic.momentum_integral",
    "IBL.Analytic.energy_integral",
    "IBL.Analytic.Current.consistent"
   ],
   "note": "Exact arithmetic; momentum for objects whose last request for a solution succeeded."
  },
  {
   "property": "C38",
   "status": "proved",
   "theorems": [
    "IBL.Analytic.shape_factors",
    "IBL.Analytic.shape_factors_constant",
    "IBL.Analytic.thickness_scaling"
   ],
   "note": "Exact arithmetic."
  },
  {
   "property": "C39",
   "status": "proved",
   "theorems": [
    "IBL.Analytic.blasius_agrees",
    "IBL.Analytic.blasius_constructor_agrees",
    "IBL.Analytic.blasius_default"
   ],
   "note": "Any arithmetic in which 2 - 0 = 2."
  },
  {
   "property": "C40",
   "status": "proved",
   "theorems": [
    "IBL.XFoil.row_accepted_iff",
    "IBL.XFoil.wake_row_accepted_iff",
    "IBL.XFoil.row_rejected",
    "IBL.XFoil.wake_row_rejected",
    "IBL.XFoil.row_empty",
    "IBL.XFoil.wake_row_empty",
    "IBL.XFoil.record_admissible",
    "IBL.XFoil.wake_record_admissible",
    "IBL.columns_iff"
   ],
   "note": "Any arithmetic in which infinity is not below 0; float() of a word is a parameter. columns_iff: split() gives the maximal runs of non-blank characters."
  },
  {
   "property": "C41",
   "status": "proved",
   "theorems": [
    "IBL.XFoil.rows_kept",
    "IBL.XFoil.points_counted",
    "IBL.lines_readlines",
    "IBL.XFoil.sections_dumpData",
    "IBL.XFoil.dumpData_sections",
    "IBL.XFoil.cancels_rounded"
   ],
   "note": "Any arithmetic in which v + v*(-1) == 0 for the numbers of the file (IEEE: finite numbers; cancels_rounded)."
  },
  {
   "property": "C42",
   "status": "proved",
   "theorems": [
    "IBL.XFoil.arc_length",
    "IBL.XFoil.arc_length_rounded"
   ],
   "note": "Exact arithmetic and arithmetic with rounding."
  },
  {
   "property": "C43",
   "status": "partial",
   "theorems": [
    "IBL.XFoil.stagnation_partial",
    "IBL.XFoil.stagnation_x_wrong",
    "IBL.XFoil.stagnation_rounded"
   ],
   "note": "Exact arithmetic, and up to a few rounding errors with rounding. Everything but x is proved; x is false of the code (sign error), witness stagnation_x_wrong."
  },
  {
   "property": "C44",
   "status": "partial",
   "theorems": [
    "IBL.XFoil.zero_velocity_rejected",
    "IBL.XFoil.zero_velocity_partial",
    "IBL.XFoil.zero_velocity_example"
   ],
   "note": "False of the code: such a file raises ValueError unless that row has s = 0; proved for files that are read."
  },
  {
   "property": "C45",
   "status": "partial",
   "theorems": [
    "IBL.XFoil.filename_never_reported",
    "IBL.XFoil.filename_partial"
   ],
   "note": "False of the code: filename is empty after every history."
  },
  {
   "property": "C46",
   "status": "proved",
   "theorems": [
    "IBL.XFoil.accessors",
    "IBL.XFoil.references_guarded",
    "IBL.XFoil.reference_velocity_scales"
   ],
   "note": "Any arithmetic."
  },
  {
   "property": "C47",
   "status": "proved",
   "theorems": [
    "IBL.Stanford.sections_read",
    "IBL.Stanford.single_header_loses_row",
    "IBL.Stanford.third_header_shifts_sections"
   ],
   "note": "The last two show that the layout in the statement is needed."
  },
  {
   "property": "C48",
   "status": "partial",
   "theorems": [
    "IBL.Stanford.rows_lost",
    "IBL.Stanford.stations_partial"
   ],
   "note": "False of the code: with fewer station summaries or profiles than summary rows the rest is lost without error (rows_lost). stations_partial: one station per place where all sections have an entry, with exactly these entries. Any arithmetic."
  },
  {
   "property": "C49",
   "status": "partial",
   "theorems": [
    "IBL.Stanford.selected",
    "IBL.Stanford.selected_ident",
    "IBL.Stanford.selections_partial",
    "IBL.Stanford.selection_fresh",
    "IBL.Stanford.failed_selection_keeps_name",
    "IBL.Stanford.failed_selection_example",
    "IBL.Stanford.failed_selection_half_loaded"
   ],
   "note": "Success part proved in full. False of the code on failure (three witnesses); proved: data of two files are never mixed or shown under another name. Any arithmetic."
  },
  {
   "property": "C50",
   "status": "proved",
   "theorems": [
    "IBL.Stanford.units_agree",
    "IBL.Stanford.units_read",
    "IBL.Stanford.units_read_summary",
    "IBL.Stanford.viscosity_units",
    "IBL.Stanford.smooth_units"
   ],
   "note": "Exact arithmetic."
  },
  {
   "property": "C51",
   "status": "proved",
   "theorems": [
    "IBL.Stanford.summaries_consistent",
    "IBL.Stanford.accepted_iff"
   ],
   "note": "Exact arithmetic."
  },
  {
   "property": "C52",
   "status": "proved",
   "theorems": [
    "IBL.Stanford.derived_values"
   ],
   "note": "Exact arithmetic; x is not infinite."
  },
  {
   "property": "C53",
   "status": "partial",
   "theorems": [
    "IBL.results_not_stable",
    "IBL.results_stable_partial"
   ],
   "note": "False of the code for Thwaites (assigning nu changes delta_m): results_not_stable. Holds for the solution itself and Head's thicknesses and shape factor."
  },
  {
   "property": "C54",
   "status": "proved",
   "theorems": [
    "IBL.thwaites_quadrature",
    "IBL.thwaites_linear_quadrature"
   ],
   "note": "Exact arithmetic."
  },
  {
   "property": "C55",
   "status": "proved",
   "theorems": [
    "IBL.Analytic.reached_good",
    "IBL.Analytic.reached_inRange"
   ],
   "note": "reached_good: any arithmetic (in terms of its comparisons); reached_inRange: exact arithmetic."
  },
  {
   "property": "C56",
   "status": "partial",
   "theorems": [
    "IBL.Analytic.queries_answer_partial",
    "IBL.Analytic.beta_two_unusable",
    "IBL.Analytic.queries_answer_fails"
   ],
   "note": "False of the code at beta = 2; proved for beta < 2."
  },
  {
   "property": "C57",
   "status": "proved",
   "theorems": [
    "IBL.XFoil.reader_admissible"
   ],
   "note": "Any arithmetic in which infinity and 1 are not <= 0 and 0 is not < 0."
  },
  {
   "property": "C58",
   "status": "proved",
   "theorems": [
    "IBL.XFoil.wellformed_read"
   ],
   "note": "Exact arithmetic (with rounding: C87)."
  },
  {
   "property": "C59",
   "status": "proved",
   "theorems": [
    "IBL.Stanford.accepted_iff",
    "IBL.Stanford.samples_counted",
    "IBL.Stanford.station1100"
   ],
   "note": "Exact arithmetic."
  },
  {
   "property": "C60",
   "status": "partial",
   "theorems": [
    "IBL.Stanford.attributes_positive_partial",
    "IBL.Stanford.attributes_positive_fails",
    "IBL.Stanford.attributes_bounded",
    "IBL.Stanford.assigned_array_bounded",
    "IBL.Stanford.negative_sample_accepted"
   ],
   "note": "Scalar attributes proved for all histories, in any arithmetic in which infinity is not <= 0. Arrays proved for histories that read no negative number in a profile and in which no reset raises; false of the code otherwise: negative samples are read without error."
  },
  {
   "property": "C61",
   "status": "partial",
   "theorems": [
    "IBL.Stanford.other_exceptions",
    "IBL.Stanford.zero_viscosity_raises",
    "IBL.Stanford.selection_raises_partial"
   ],
   "note": "False of the code: IndexError and ZeroDivisionError. Proved for readable files of the documented layout with non-zero viscosities."
  },
  {
   "property": "C62",
   "status": "partial",
   "theorems": [
    "IBL.Stanford.initialised_partial",
    "IBL.Stanford.initialised_fails",
    "IBL.Stanford.station_initialised",
    "IBL.Stanford.selection_fresh",
    "IBL.Stanford.select_mem",
    "IBL.Stanford.failed_reset_uninitialised"
   ],
   "note": "Proved for all histories except for the profile arrays after a reset that raised, where it is false of the code. Any arithmetic."
  },
  {
   "property": "C63",
   "status": "proved",
   "theorems": [
    "IBL.Stanford.arrays_aligned"
   ],
   "note": "Any arithmetic."
  },
  {
   "property": "C64",
   "status": "proved",
   "theorems": [
    "IBL.separation_reported_iff",
    "IBL.separation_step",
    "IBL.attached_run_reaches_end",
    "IBL.solve_outcome",
    "IBL.solve_total",
    "IBL.no_pocket_fails"
   ],
   "note": "Exact arithmetic, with scipy's event handling modelled (the stepping is arbitrary). no_pocket_fails: points between accepted ones really are not looked at."
  },
  {
   "property": "C65",
   "status": "partial",
   "theorems": [
    "IBL.nonneg_fits_step_end",
    "IBL.white_shear_nonneg",
    "IBL.spline_point_late",
    "IBL.first_point_partial",
    "IBL.first_point_fails",
    "IBL.bracketRoot_exists"
   ],
   "note": "False of the code for the default Spline fits and for White: their shear is exactly zero beyond separation, so the end of the integration step is reported. Proved for a criterion that strictly decreases along the step."
  },
  {
   "property": "C66",
   "status": "partial",
   "theorems": [
    "IBL.start_separated_unreported",
    "IBL.start_reported_fails",
    "IBL.start_separated_partial"
   ],
   "note": "False of the code where the criterion is negative at the start (Head, Cebeci-Bradshaw). Proved where it is exactly zero there (Spline, White)."
  },
  {
   "property": "C67",
   "status": "proved",
   "theorems": [
    "IBL.earliest_event_wins",
    "IBL.event_order_irrelevant",
    "IBL.solve_outcome"
   ],
   "note": "Exact arithmetic. For the order the two calls are taken to make the integrator accept the same steps; the step sizes do not depend on the events."
  },
  {
   "property": "C68",
   "status": "partial",
   "theorems": [
    "IBL.was_attached_partial",
    "IBL.was_attached_nonneg",
    "IBL.was_attached_builtin",
    "IBL.reattachment_reported",
    "IBL.was_attached_fails",
    "IBL.separation_step"
   ],
   "note": "False of the code: events have no direction, a layer that reattaches is stopped as SEPARATED. Proved for all other layers, and for all layers with the Spline and White fits. For layers that start attached separation_step gives what SEPARATED means."
  },
  {
   "property": "C69",
   "status": "partial",
   "theorems": [
    "IBL.independent_partial",
    "IBL.shared_solves_partial",
    "IBL.independent_fails",
    "IBL.step_call_separate",
    "IBL.prepare_alike"
   ],
   "note": "False of the code for objects that share a condition object (assigning initial_delta_m of one changes the other). Proved without sharing for all histories, and with sharing for all histories that assign no thicknesses. Any arithmetic."
  },
  {
   "property": "C70",
   "status": "partial",
   "theorems": [
    "IBL.solve_overwrites_condition",
    "IBL.conditions_kept_fails",
    "IBL.solve_keeps_thickness_partial"
   ],
   "note": "False of the code: nu and du_e of the condition are overwritten. Proved: kind and thicknesses are kept. Any arithmetic."
  },
  {
   "property": "C71",
   "status": "partial",
   "theorems": [
    "IBL.kinetic_computed_fails",
    "IBL.shapeK_zero_thickness",
    "IBL.shapeK_refused_partial",
    "IBL.kinetic_integrand"
   ],
   "note": "False of the code: delta_k and dissipation are zero, solved or not."
  },
  {
   "property": "C72",
   "status": "proved",
   "theorems": [
    "IBL.head_stays_positive",
    "IBL.head_solution_exists"
   ],
   "note": "Exact solutions of the code's ODE (equation satisfied but for finitely many points), no discretisation error."
  },
  {
   "property": "C73",
   "status": "partial",
   "theorems": [
    "IBL.displacement_not_ordered",
    "IBL.negative_displacement",
    "IBL.displacement_ordered_partial",
    "IBL.displacement_ordered_decelerated"
   ],
   "note": "False of the code: in u_e = exp(x) the reported displacement thickness becomes negative. Proved for decelerated flows with Reynolds numbers up to 1e12 and under a bound on the acceleration."
  },
  {
   "property": "C74",
   "status": "partial",
   "theorems": [
    "IBL.attached_when_accelerated_partial",
    "IBL.attached_when_accelerated_fails",
    "IBL.head_attached_when_accelerated",
    "IBL.head_shape_bounded"
   ],
   "note": "Proved for the Spline, White and Cebeci-Bradshaw fits and Head. False of the code for Drela's fits, whose shear is negative for large lambda."
  },
  {
   "property": "C75",
   "status": "proved",
   "theorems": [
    "IBL.thwaites_linear_exists",
    "IBL.thwaites_linear_unique",
    "IBL.thwaites_linear_difference"
   ],
   "note": "Exact arithmetic."
  },
  {
   "property": "C76",
   "status": "proved",
   "theorems": [
    "IBL.queries_move",
    "IBL.histories_move",
    "IBL.calls_move",
    "IBL.constructors_move"
   ],
   "note": "Exact arithmetic; the integrator and the interpolator are assumed to move with their data. For scipy's interpolator on vectors this is proved in C100."
  },
  {
   "property": "C77",
   "status": "partial",
   "theorems": [
    "IBL.thwaites_units_partial",
    "IBL.thwaites_units_fails",
    "IBL.thwaites_units_start",
    "IBL.thwaites_units_queries",
    "IBL.head_units_partial",
    "IBL.head_units_fails"
   ],
   "note": "False of the code: the offset 0.001 (Thwaites) and the velocity floor 0.001 (Head) have a fixed unit. Proved: unit of length (Thwaites), and both units for Head where u_e >= 0.001 in both units; all queries and the start values."
  },
  {
   "property": "C78",
   "status": "proved",
   "theorems": [
    "IBL.flat_plate",
    "IBL.flat_plate_values"
   ],
   "note": "Exact solutions of the code's ODE, exact arithmetic."
  },
  {
   "property": "C79",
   "status": "proved",
   "theorems": [
    "IBL.linear_flow_lambda",
    "IBL.linear_flow_separation",
    "IBL.linear_flow_fits",
    "IBL.linear_flow_run"
   ],
   "note": "Accepted points on an exact solution; scipy's event handling modelled."
  },
  {
   "property": "C80",
   "status": "proved",
   "theorems": [
    "IBL.stored_solution",
    "IBL.start_queried",
    "IBL.solve_stores"
   ],
   "note": "Exact arithmetic (solve_stores: any); scipy's dense output modelled."
  },
  {
   "property": "C81",
   "status": "partial",
   "theorems": [
    "IBL.out_of_range_fails",
    "IBL.out_of_range_partial"
   ],
   "note": "False of the code: nothing is refused. Proved: which interpolant answers outside the range."
  },
  {
   "property": "C82",
   "status": "proved",
   "theorems": [
    "IBL.thwaites_nonlinear_error",
    "IBL.thwaites_nonlinear_unique",
    "IBL.thwaites_linear_error",
    "IBL.builtin_oneSided"
   ],
   "note": "Exact arithmetic."
  },
  {
   "property": "C83",
   "status": "partial",
   "theorems": [
    "IBL.thwaites_nonlinear_exists_partial",
    "IBL.thwaites_white_exists_partial",
    "IBL.thwaites_white_until",
    "IBL.thwaites_white_no_solution"
   ],
   "note": "False of the code with White's fits: u_e = x from lambda = 1 has no solution on [0, 1]. Proved for the other three built-in fits. With White's: there is a solution up to the end or to the first place where lambda reaches 0.3, so over the whole interval in flows that are nowhere accelerated or whose gradient nowhere increases (start below 0.3). Exact arithmetic."
  },
  {
   "property": "C84",
   "status": "proved",
   "theorems": [
    "IBL.Analytic.Profile.velocity",
    "IBL.Analytic.Profile.thicknesses",
    "IBL.Analytic.Profile.shapeK_lt",
    "IBL.Analytic.Profile.shapeD_gt",
    "IBL.Analytic.Profile.normal_velocity",
    "IBL.Analytic.rises",
    "IBL.Analytic.rises_blasius",
    "IBL.Analytic.profile_exists",
    "IBL.Analytic.profile_long"
   ],
   "note": "Exact arithmetic, exact integrator and quadrature."
  },
  {
   "property": "C85",
   "status": "partial",
   "theorems": [
    "IBL.Stanford.assign_scalar",
    "IBL.Stanford.assign_array",
    "IBL.Stanford.assign_station",
    "IBL.Stanford.assign_station_array",
    "IBL.XFoil.assign_point",
    "IBL.XFoil.assign_wake_point",
    "IBL.XFoil.assign_upper_partial",
    "IBL.XFoil.assign_lower_partial",
    "IBL.XFoil.assign_wake",
    "IBL.XFoil.load_disjoint",
    "IBL.XFoil.step_disjoint",
    "IBL.XFoil.assign_disjoint",
    "IBL.XFoil.assign_upper_changes_lower",
    "IBL.XFoil.assign_upper_false",
    "IBL.XFoil.assign_reader",
    "IBL.XFoil.assign_reader_name"
   ],
   "note": "False of the code: a stagnation row of an XFoil dump becomes one object that is the first point of both surfaces. Proved: this is the only exception, it needs a row of zero velocity, and Stanford stations and wake points have none."
  },
  {
   "property": "C86",
   "status": "partial",
   "theorems": [
    "IBL.thwaites_undefined_partial",
    "IBL.white_keeps",
    "IBL.drela_keeps",
    "IBL.spline_keeps",
    "IBL.custom_keeps",
    "IBL.head_undefined",
    "IBL.cebeciBradshaw_loses",
    "IBL.cebeciBradshaw_reports_zero",
    "IBL.cebeciBradshaw_separates",
    "IBL.nan_never_separates",
    "IBL.cebeciBradshaw_undefined_false",
    "IBL.Head.rates_keep",
    "IBL.Head.relations_lose",
    "IBL.ludwiegTillman_keeps",
    "IBL.felsch_keeps",
    "IBL.whiteFriction_keeps"
   ],
   "note": "False of the code with the Cebeci-Bradshaw fits, which turn NaN into zero (np.piecewise), so that separation is reported. Proved for the other fits and for Head. Exact extended reals."
  },
  {
   "property": "C87",
   "status": "partial",
   "theorems": [
    "IBL.XFoil.wellformed_read_rounded_partial",
    "IBL.XFoil.separated_by_digits",
    "IBL.XFoil.equal_arc_length_rejected",
    "IBL.XFoil.equal_arc_length_example",
    "IBL.XFoil.arc_length_rounded"
   ],
   "note": "False of the code if the two rows next to the stagnation point have the same arc length: with double precision a file with velocities 1 and -5 at arc length 11 raises ValueError. Proved if they are separated by more than a few rounding errors; separated_by_digits shows that five printed decimals suffice. Rounding without overflow and underflow."
  },
  {
   "property": "C88",
   "status": "proved",
   "theorems": [
    "IBL.numeric_slope_rounded",
    "IBL.numeric_curvature_rounded",
    "IBL.numeric_second_rounded"
   ],
   "note": "Rounding without overflow and underflow; dx**2 as a product."
  },
  {
   "property": "C89",
   "status": "partial",
   "theorems": [
    "IBL.Analytic.reset_m_reads_back_rounded_partial",
    "IBL.Analytic.reset_m_accepts_rounded",
    "IBL.Analytic.reset_m_rejects_rounded",
    "IBL.Analytic.large_m_lost"
   ],
   "note": "False for large m: with double precision m = 2^54 reads back as infinity. Proved with the bound 5 eps (1+|m|)|m| for eps (1+|m|) <= 1/1000. Rounding without overflow and underflow."
  },
  {
   "property": "C90",
   "status": "proved",
   "theorems": [
    "IBL.Analytic.boundary_layer_equations",
    "IBL.Analytic.CurrentWith.equation",
    "IBL.Analytic.exact_object"
   ],
   "note": "Exact arithmetic, exact integrator; eta_inf > 0, beta < 2."
  },
  {
   "property": "C91",
   "status": "proved",
   "theorems": [
    "IBL.Analytic.wall_shear",
    "IBL.Analytic.layer_integrals",
    "IBL.Analytic.exact_object"
   ],
   "note": "Exact arithmetic, exact integrator and quadrature; eta_inf > 0, beta < 2."
  },
  {
   "property": "C92",
   "status": "partial",
   "theorems": [
    "IBL.set_velocity_raises_partial",
    "IBL.set_velocity_stumbles",
    "IBL.set_velocity_raises_fails",
    "IBL.set_data_fits_raises",
    "IBL.setters_raise",
    "IBL.head_refused_iff",
    "IBL.thwaites_refused_iff",
    "IBL.velocity_unset_partial",
    "IBL.velocity_unset_fails",
    "IBL.Analytic.construct_raises",
    "IBL.Analytic.similarity_raises_partial",
    "IBL.Analytic.reset_m_raises_fails"
   ],
   "note": "False of the code: set_velocity(None) is a TypeError, a velocity that was not set a ValueError, reset_m(-1) a ZeroDivisionError. Proved: the complete list of exceptions with their causes. Similarity objects in exact arithmetic."
  },
  {
   "property": "C93",
   "status": "partial",
   "theorems": [
    "IBL.XFoil.empty_file_refused",
    "IBL.XFoil.no_rows_refused",
    "IBL.XFoil.first_negative_refused",
    "IBL.XFoil.one_surface_refused",
    "IBL.XFoil.load_raises_partial",
    "IBL.XFoil.zero_division_only",
    "IBL.XFoil.one_surface_accepted"
   ],
   "note": "False of the code: IndexError or ZeroDivisionError, or accepted if the last row has zero velocity and arc length. Proved: these are the only exceptions besides ValueError and those of opening the file."
  },
  {
   "property": "C94",
   "status": "partial",
   "theorems": [
    "IBL.arrays_agree_partial",
    "IBL.one_sided",
    "IBL.fits_arrays_agree",
    "IBL.arrays_agree_fails"
   ],
   "note": "False of the code with the Cebeci-Bradshaw (and Spline) fits if lambda leaves their range on both sides. Proved for all other arrays; for White, Drela and custom fits without restriction. Velocity callables and dense solution act elementwise."
  },
  {
   "property": "C95",
   "status": "partial",
   "theorems": [
    "IBL.head_determined_partial",
    "IBL.head_determined_smooth",
    "IBL.head_two_solutions",
    "IBL.head_not_determined"
   ],
   "note": "False of the code in a narrow band at shape factor 1.6 (uniform stream witness). Proved outside it, and without restriction for solutions that satisfy the equation at every point. Exact solutions of the code's ODE."
  },
  {
   "property": "C96",
   "status": "proved",
   "theorems": [
    "IBL.head_solvable",
    "IBL.head_no_smooth_passage"
   ],
   "note": "Local existence; C121 continues it. Exact solutions of the code's ODE."
  },
  {
   "property": "C97",
   "status": "proved",
   "theorems": [
    "IBL.table_velocity",
    "IBL.table_velocity_accepted_iff",
    "IBL.table_slope",
    "IBL.interpolator_vectors"
   ],
   "note": "Exact arithmetic; scipy's PchipInterpolator as modelled in Model/Pchip.lean."
  },
  {
   "property": "C98",
   "status": "partial",
   "theorems": [
    "IBL.tables_accelerate_partial",
    "IBL.tables_accelerate_fails"
   ],
   "note": "False of the code outside the table (witness: (0,1),(1,1),(2,2) at 5). Proved within it. Exact arithmetic; scipy's interpolator as modelled."
  },
  {
   "property": "C99",
   "status": "proved",
   "theorems": [
    "IBL.table_thwaites_determined",
    "IBL.table_thwaites_attached",
    "IBL.table_head_attached"
   ],
   "note": "Exact arithmetic; scipy's interpolator and event handling as modelled."
  }
 ]
}
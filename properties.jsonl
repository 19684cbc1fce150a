{"id": "C01", "title": "Viscosity of a method object is never non-positive", "statement": "However a Thwaites or Head method object is built and then driven (assigning nu, setting velocities, initial conditions, fits, events, solving, querying, including calls that raise), the value read back from `nu` never compares <= 0, and a rejected assignment leaves the previous value in place.", "quantifier": "every constructor call and every finite history of public calls, for every float arithmetic (NaN included)", "why_tests_cant": "A test visits a few histories; the claim is an invariant of all call sequences, including ones in which earlier calls failed half way.", "anchors": ["ibl/ibl_method.py:IBLMethod.__init__", "ibl/ibl_method.py:IBLMethod.nu", "ibl/initial_condition.py:InitialCondition.nu"]}
{"id": "C02", "title": "solve() reports the integrator outcome faithfully", "statement": "Whatever the ODE integrator returns, the IntegrationResult says: on a failed integration success=False, status UNKNOWN, x_end/f_end are the starting point; on a full run REACHED_END with x_end the last integration point and f_end the dense solution there; on an event stop, status/message are those of the first listed event that fired, and x_end/f_end its first location.", "quantifier": "every integrator result record, every event list, every initial state", "why_tests_cant": "The integrator's outcome space (all statuses, all event-time tables) cannot be enumerated by running a few ODEs.", "anchors": ["ibl/ibl_method.py:IBLMethod.solve", "ibl/ibl_method.py:IntegrationResult", "ibl/ibl_method.py:TermReason"]}
{"id": "C03", "title": "The reason text always agrees with the reason code", "statement": "The message of an IntegrationResult returned by solve() always starts with the text of its status; a run to the end has exactly the message 'Completed', and otherwise the integrator/event text follows after ': ' when it is not empty. Different status codes have different texts, so the code can be recovered from the message.", "quantifier": "every integrator outcome and every event text", "why_tests_cant": "Needs all outcomes and all event texts including empty ones.", "anchors": ["ibl/ibl_method.py:IBLMethod.solve", "ibl/ibl_method.py:TermReason.__str__"]}
{"id": "C04", "title": "A solve that did not succeed leaves nothing to query", "statement": "After a solve() that returned success=False every boundary layer quantity that needs the solution raises; after one that returned success=True they are evaluated on the solution returned by that very solve. (The code keeps the previous solution when solve() raises instead of returning.)", "quantifier": "every history of solves, each with an arbitrary integrator outcome (including raising)", "why_tests_cant": "It is a statement about which of many past solves is visible after an arbitrary history.", "anchors": ["ibl/ibl_method.py:IBLMethod.solve", "ibl/thwaites_method.py:ThwaitesMethod.delta_m", "ibl/head_method.py:HeadMethod.delta_m"]}
{"id": "C05", "title": "User termination events apply to the solve they were passed to and no other", "statement": "Events passed as term_event to one solve() are handed to the integrator in that solve only; a later solve() without term_event is stopped only by the method's own events.", "quantifier": "every history of solve() calls with arbitrary term_event arguments", "why_tests_cant": "Needs histories of several solves with different arguments; a unit test solves once per object.", "anchors": ["ibl/ibl_method.py:IBLMethod.solve", "ibl/ibl_method.py:IBLMethod._add_kill_event"]}
{"id": "C06", "title": "Separation is always monitored, with the currently selected closure", "statement": "In every solve() of a Thwaites (Head) object the first event handed to the integrator is the separation event that uses the currently selected data fits (currently set critical shape factor), whatever was called before.", "quantifier": "every finite history of public calls on a Thwaites or Head object", "why_tests_cant": "Invariant over all histories mixing fit changes, failed calls, and solves with user events.", "anchors": ["ibl/thwaites_method.py:ThwaitesMethod.set_data_fits", "ibl/head_method.py:HeadMethod.set_shape_d_critical", "ibl/ibl_method.py:IBLMethod._set_kill_event"]}
{"id": "C07", "title": "After an accepted set_velocity all three velocity queries work and belong together", "statement": "If set_velocity (or the constructor) accepts a velocity, then u_e, du_e and d2u_e can all be evaluated without 'not set' or type errors, du_e is the derivative representation of the u_e just given, and d2u_e that of du_e.", "quantifier": "every accepted combination of u_e/du_e/d2u_e argument kinds, from every prior state", "why_tests_cant": "All argument kind combinations from all prior states, including objects left over from failed calls.", "anchors": ["ibl/ibl_method.py:IBLMethod.set_velocity", "ibl/ibl_method.py:IBLMethod.u_e", "ibl/ibl_method.py:IBLMethod.du_e", "ibl/ibl_method.py:IBLMethod.d2u_e"]}
{"id": "C08", "title": "A rejected set_velocity changes nothing", "statement": "If set_velocity raises, then u_e, du_e and d2u_e evaluate exactly as before the call.", "quantifier": "every rejected argument combination and every prior state", "why_tests_cant": "Crash-point style claim: every raise site must come before every write.", "anchors": ["ibl/ibl_method.py:IBLMethod.set_velocity"]}
{"id": "C09", "title": "Tabulated velocities are accepted exactly when they are two equal-length vectors with at least two points", "statement": "set_velocity with a pair of arrays succeeds iff both are one-dimensional, of the same length, and with at least two points (given that the interpolator accepts them); every other input raises and leaves the velocities unchanged.", "quantifier": "every pair of array shapes", "why_tests_cant": "Infinite family of shapes.", "anchors": ["ibl/ibl_method.py:IBLMethod.set_velocity"]}
{"id": "C10", "title": "Numerical velocity derivatives are fourth-order accurate", "statement": "When only u_e is given, the du_e reported at x differs from the true derivative by at most (h^4/18) times a bound on the fifth derivative near x, with h=1e-4, and is exact for quartics; the d2u_e formula is exact for quintics; with du_e given, d2u_e is the same first-derivative formula with h=1e-5.", "quantifier": "every polynomial / every five times continuously differentiable edge velocity, every location", "why_tests_cant": "Ranges over all functions and locations; tests check a few with a tolerance.", "anchors": ["ibl/ibl_method.py:IBLMethod.set_velocity"]}
{"id": "C11", "title": "A velocity given by its start value and tabulated slope is the integral of that slope", "statement": "With a scalar u_e and tabulated du_e the resulting u_e equals the scalar at the first abscissa, is continuous, has du_e as derivative inside every interval, and d2u_e is the derivative of du_e.", "quantifier": "every piecewise cubic slope (any number of points, any coefficients) and every start value", "why_tests_cant": "For all tables and all points between table points.", "anchors": ["ibl/ibl_method.py:IBLMethod.set_velocity"]}
{"id": "C12", "title": "Thwaites data fits are only evaluated inside their range of validity", "statement": "For a single lambda the fits see the lambda clipped to the fit's range. For an array of lambdas every element is clipped in the same way as it would be alone, and the caller's array is not modified.", "quantifier": "every lambda value and every array of lambdas", "why_tests_cant": "Arrays whose elements leave the range on both sides are needed, together with all sizes.", "anchors": ["ibl/thwaites_method.py:_ThwaitesFunctions._check_range", "ibl/thwaites_method.py:_ThwaitesFunctions.shear", "ibl/thwaites_method.py:_ThwaitesFunctions.shape"]}
{"id": "C13", "title": "Built-in Thwaites fits: the supplied derivative is the derivative of the shape factor", "statement": "For the Spline (default), White, Cebeci-Bradshaw and Drela fits, shape_p(lambda) is the exact derivative of shape at every lambda strictly inside the fit's range (except the branch point 0 of Cebeci-Bradshaw, where the fit itself jumps).", "quantifier": "every real lambda inside the range", "why_tests_cant": "Uncountably many points; a sign or coefficient error may hide between test points.", "anchors": ["ibl/thwaites_method.py:_ThwaitesFunctionsSpline", "ibl/thwaites_method.py:_ThwaitesFunctionsWhite", "ibl/thwaites_method.py:_ThwaitesFunctionsCebeciBradshaw", "ibl/thwaites_method.py:_ThwaitesFunctionsDrela"]}
{"id": "C14", "title": "Built-in Thwaites fits are regular and physically ordered on their whole range", "statement": "For the closed-form fits no division by zero or invalid power can occur after clipping, and for all built-in fits (also between the points of the Spline table) the shape factor is finite and greater than 1 for every lambda in the range up to lambda = 0.25. The Spline shear (shape factor) strictly increases (decreases) with lambda over the whole range.", "quantifier": "every real lambda", "why_tests_cant": "For all reals, including clipped ones.", "anchors": ["ibl/thwaites_method.py:_ThwaitesFunctionsSpline", "ibl/thwaites_method.py:_ThwaitesFunctionsWhite", "ibl/thwaites_method.py:_ThwaitesFunctionsCebeciBradshaw", "ibl/thwaites_method.py:_ThwaitesFunctionsDrela"]}
{"id": "C15", "title": "Laminar separation is signalled when the fit reaches zero wall shear in a decelerating flow", "statement": "For each built-in fit, as the pressure-gradient parameter decreases from 0, the separation event value is positive until some lambda_sep in [-0.1, -0.08] and non-positive at and below it, so that a sufficiently adverse pressure gradient always terminates the integration as SEPARATED.", "quantifier": "every lambda <= 0 for every built-in fit", "why_tests_cant": "Sign of a function on a half line; a test uses one flow that happens to separate.", "anchors": ["ibl/thwaites_method.py:_ThwaitesSeparationEvent", "ibl/thwaites_method.py:_ThwaitesFunctions.shear", "ibl/thwaites_method.py:_ThwaitesFunctionsSpline", "ibl/thwaites_method.py:_ThwaitesFunctionsDrela"]}
{"id": "C16", "title": "Nonlinear Thwaites obeys the momentum integral equation", "statement": "With the exact right hand side, the nonlinear Thwaites ODE is the von Karman momentum integral: rho*d(u_e^2 delta_m)/dx + rho*delta_d*u_e*du_e/dx = tau_w for the reported quantities. (The code divides by 1e-3+u_e instead of u_e; the defect this causes is given exactly.)", "quantifier": "every differentiable edge velocity, every pair of closure functions, every point of every solution with positive thickness", "why_tests_cant": "An identity between functions for all flows.", "anchors": ["ibl/thwaites_method.py:ThwaitesMethodNonlinear._calc_f", "ibl/thwaites_method.py:ThwaitesMethod._ode_impl", "ibl/thwaites_method.py:ThwaitesMethod.tau_w", "ibl/thwaites_method.py:ThwaitesMethod.delta_d"]}
{"id": "C17", "title": "Thwaites transpiration velocity is the growth rate of the displaced flux", "statement": "v_e(x) equals d(u_e*delta_d)/dx for the reported u_e and delta_d, wherever the solution satisfies its ODE, thickness is positive and the fit derivative is the derivative of the shape factor.", "quantifier": "every edge velocity, closure, and solution", "why_tests_cant": "An identity for all flows; finite-difference tests are at a few points with tolerances.", "anchors": ["ibl/thwaites_method.py:ThwaitesMethod.v_e", "ibl/thwaites_method.py:ThwaitesMethod.delta_d", "ibl/thwaites_method.py:ThwaitesMethod.delta_m"]}
{"id": "C18", "title": "The Thwaites solution variable stays positive", "statement": "Along any exact solution of the ODE of either Thwaites method, with any built-in fit, that starts positive, with u_e > -1e-3 and du_e bounded above by D > 0, the reported delta_m stays positive (so it never becomes NaN), and delta_m^2 is at least the smaller of its start value and 0.04*nu/D.", "quantifier": "every edge velocity, every interval, every start value, both methods", "why_tests_cant": "All flows, all positions; a barrier argument.", "anchors": ["ibl/thwaites_method.py:ThwaitesMethodLinear._calc_f", "ibl/thwaites_method.py:ThwaitesMethod._ode_impl", "ibl/thwaites_method.py:ThwaitesMethod.delta_m"]}
{"id": "C19", "title": "Unknown data fits are rejected and leave the selected fits in force", "statement": "set_data_fits accepts exactly the four documented names, and tuples of two or three callables; everything else raises ValueError and leaves the fits, and the monitored events, unchanged.", "quantifier": "every string, every tuple of values, every prior state", "why_tests_cant": "All strings / tuples.", "anchors": ["ibl/thwaites_method.py:ThwaitesMethod.set_data_fits"]}
{"id": "C20", "title": "Head entrainment shape factor is strictly decreasing in the shape factor", "statement": "H1 as a function of H (for H > 1.1) is strictly decreasing, so that a value of H1 determines H.", "quantifier": "every pair of real shape factors above 1.1", "why_tests_cant": "Uncountable; the defect at the branch point is 6e-16 wide and invisible to tests.", "anchors": ["ibl/head_method.py:HeadMethod._shape_entrainment"]}
{"id": "C21", "title": "Head shape factor conversions are inverse to each other", "statement": "Converting H to H1 and back returns H.", "quantifier": "every real H > 1.1", "why_tests_cant": "For all reals with exact arithmetic, including the neighbourhood of the branch point.", "anchors": ["ibl/head_method.py:HeadMethod._shape_entrainment", "ibl/head_method.py:HeadMethod._shape_d"]}
{"id": "C22", "title": "Head entrainment derivative is the derivative of the entrainment relation", "statement": "The derivative of H1 used by the ODE equals the true derivative of H1(H) for every H > 1.1 other than the branch point 1.6.", "quantifier": "every real H > 1.1, H /= 1.6", "why_tests_cant": "Uncountably many points.", "anchors": ["ibl/head_method.py:HeadMethod._shape_entrainment_p", "ibl/head_method.py:HeadMethod._shape_entrainment"]}
{"id": "C23", "title": "Head ODE is momentum integral plus entrainment equation", "statement": "Along any solution of Head's ODE inside the unclamped region: rho*d(u_e^2 delta_m)/dx + rho*delta_d*u_e*du_e/dx = tau_w, and d(u_e*delta_m*H1)/dx = u_e*E(H1), in the reported quantities.", "quantifier": "every edge velocity, skin friction value, and solution in the unclamped region", "why_tests_cant": "Identity for all flows.", "anchors": ["ibl/head_method.py:HeadMethod._ode_impl", "ibl/head_method.py:HeadMethod.tau_w", "ibl/head_method.py:HeadMethod.delta_d"]}
{"id": "C24", "title": "Head transpiration velocity is the growth rate of the displaced flux", "statement": "v_e(x) equals d(u_e*delta_d)/dx for the reported u_e and delta_d wherever the solution satisfies its ODE.", "quantifier": "every edge velocity and solution", "why_tests_cant": "Identity for all flows.", "anchors": ["ibl/head_method.py:HeadMethod.v_e", "ibl/head_method.py:HeadMethod.delta_d"]}
{"id": "C25", "title": "Head initial shape factor and thickness can be set in any order", "statement": "After assigning initial_delta_m = a and initial_shape_d = h (a, h > 0), in either order and after any previous assignments, the integration starts from momentum thickness a and shape factor h.", "quantifier": "every history of assignments", "why_tests_cant": "Histories; order dependence only shows if both orders are tried.", "anchors": ["ibl/head_method.py:HeadMethod.initial_delta_m", "ibl/head_method.py:HeadMethod.initial_shape_d", "ibl/initial_condition.py:ManualCondition"]}
{"id": "C26", "title": "Turbulent separation is signalled exactly when the shape factor reaches the critical value", "statement": "The Head separation event value is positive iff the shape factor is below the critical one, zero at it, negative above it; it reports SEPARATED; setting a critical value takes effect for the next solve whatever happened before.", "quantifier": "every state and critical value", "why_tests_cant": "All states.", "anchors": ["ibl/head_method.py:_HeadSeparationEvent", "ibl/head_method.py:HeadMethod.set_shape_d_critical"]}
{"id": "C27", "title": "Head quantities do not depend on whether they are evaluated one point at a time or on an array", "statement": "tau_w and v_e at an array of points equal the values obtained by evaluating each point separately as a scalar.", "quantifier": "every edge velocity (any sign), every array of points", "why_tests_cant": "All arrays and all velocities incl. reversed flow.", "anchors": ["ibl/head_method.py:HeadMethod._ode_impl", "ibl/head_method.py:HeadMethod.tau_w"]}
{"id": "C28", "title": "Querying does not modify the caller's data", "statement": "Evaluating tau_w, v_e, shape factors etc. leaves the array of positions passed in, and arrays owned by the user's velocity function, unchanged.", "quantifier": "every velocity callable, including ones returning their argument, and every array", "why_tests_cant": "Aliasing behaviours of all callables.", "anchors": ["ibl/head_method.py:HeadMethod.tau_w", "ibl/head_method.py:HeadMethod._ode_impl", "ibl/head_method.py:HeadMethod._shape_entrainment"]}
{"id": "C29", "title": "Skin friction correlations are defined, non-negative and monotone", "statement": "For Re_theta > 0 (White: > 1) and any H: Ludwieg-Tillman and White are positive; Felsch is non-negative, never takes a power of a negative number, and is below 1e-15/Re_theta^0.268 for H >= 2.9986313485; each is non-increasing in Re_theta (White: for H >= 0) and in H (White: for Re_theta >= 10).", "quantifier": "all real Re_theta and H in the domain", "why_tests_cant": "Uncountable domain; the Felsch base touches zero within 1e-9 so only exact arithmetic can settle its sign.", "anchors": ["ibl/skin_friction.py:ludwieg_tillman", "ibl/skin_friction.py:felsch", "ibl/skin_friction.py:white"]}
{"id": "C30", "title": "The stagnation initial condition is the stationary state of the momentum integral", "statement": "For nu > 0 and du_e > 0 the stagnation condition returns positive thicknesses with delta_d = shape_d*delta_m and delta_k = shape_k*delta_m, and lambda = delta_m^2*du_e/nu satisfies lambda*(shape_d+2) = eta_m*f''(0) so the nonlinear Thwaites right hand side vanishes there for every fit that has the stagnation values of shear and shape factor at that lambda; for du_e = 0 it raises and for du_e < 0 it yields NaN.", "quantifier": "all real nu > 0, du_e", "why_tests_cant": "All reals.", "anchors": ["ibl/initial_condition.py:FalknerSkanStagCondition"]}
{"id": "C31", "title": "An accepted initial momentum thickness is the one the integration starts from", "statement": "After an accepted assignment initial_delta_m = a, reading initial_delta_m gives a and the next solve() starts from it (Thwaites: a^2/nu), whatever initial condition object is installed; an assignment comparing <= 0 raises ValueError and changes nothing.", "quantifier": "every history of calls, including set_initial_condition with any of the provided condition classes", "why_tests_cant": "Depends on the history (which condition object is installed).", "anchors": ["ibl/thwaites_method.py:ThwaitesMethod.initial_delta_m", "ibl/head_method.py:HeadMethod.initial_delta_m", "ibl/initial_condition.py:ManualCondition", "ibl/initial_condition.py:FalknerSkanStagCondition"]}
{"id": "C32", "title": "Falkner-Skan beta and m parameterisations agree", "statement": "reset_m(m) followed by reading m returns m, for every admissible finite m and for m = inf; reset_beta(b) then reset_m(m) with m read back leaves beta unchanged; reset_m accepts m exactly when m = inf or m >= -0.19884/2.19884, and raises otherwise.", "quantifier": "every real m and beta", "why_tests_cant": "All reals, and the two singular points m=-1 and beta=2.", "anchors": ["ibl/analytic/_falkner_skan.py:FalknerSkan.reset_m", "ibl/analytic/_falkner_skan.py:FalknerSkan.reset_beta", "ibl/analytic/_falkner_skan.py:FalknerSkan.m"]}
{"id": "C33", "title": "A failed Falkner-Skan reset leaves the previous solution usable and consistent", "statement": "If reset_beta/reset_m/set_solution_parameters raise, then beta, fw_pp, eta_inf and all profile quantities are those of the previous solution.", "quantifier": "every prior state, every argument, every integrator outcome", "why_tests_cant": "Crash points between writes.", "anchors": ["ibl/analytic/_falkner_skan.py:FalknerSkan.reset_beta", "ibl/analytic/_analytic_2d_base.py:Analytic2dSimilarityIncompressible.set_solution_parameters", "ibl/analytic/_analytic_2d_base.py:Analytic2dSimilarityIncompressible._calculate_solution"]}
{"id": "C34", "title": "The similarity solution search converges or says so", "statement": "If set_solution_parameters returns normally, then the end conditions |f'(eta_inf)-1| and |f''(eta_inf)| are below the tolerance, or both fw_pp and eta_inf were supplied by the user. Supplied values are always kept.", "quantifier": "every integrator and every supplied value combination", "why_tests_cant": "Depends on the iteration history for all parameters.", "anchors": ["ibl/analytic/_analytic_2d_base.py:Analytic2dSimilarityIncompressible._calculate_solution"]}
{"id": "C35", "title": "Similarity thickness integrals are the boundary layer integrals", "statement": "For an exact similarity solution the reported eta_d, eta_m, eta_k equal the integrals over [0, eta_inf] of 1-f', f'(1-f') and f'(1-f'^2).", "quantifier": "every beta, alpha > -beta, every exact solution and eta_inf", "why_tests_cant": "Identity over all solutions.", "anchors": ["ibl/analytic/_analytic_2d_base.py:Analytic2dSimilarityIncompressible.set_solution_parameters", "ibl/analytic/_analytic_2d_base.py:Analytic2dSimilarityIncompressible.eta_d", "ibl/analytic/_analytic_2d_base.py:Analytic2dSimilarityIncompressible.eta_m", "ibl/analytic/_analytic_2d_base.py:Analytic2dSimilarityIncompressible.eta_k"]}
{"id": "C36", "title": "Similarity solutions satisfy continuity and the transpiration relation", "statement": "For the reported velocity components du/dx + dv/dy = 0, and the reported v_e equals d(u_e*delta_d)/dx.", "quantifier": "every beta in range (beta < 2), every x > 0, y, every profile", "why_tests_cant": "Identity in a continuum of points.", "anchors": ["ibl/analytic/_analytic_2d_base.py:Analytic2dSimilarityIncompressible.u", "ibl/analytic/_analytic_2d_base.py:Analytic2dSimilarityIncompressible.v", "ibl/analytic/_analytic_2d_base.py:Analytic2dSimilarityIncompressible.v_e", "ibl/analytic/_analytic_2d_base.py:Analytic2dSimilarityIncompressible.delta_d"]}
{"id": "C37", "title": "Similarity solutions satisfy the momentum and energy integral equations", "statement": "tau_w, delta_d, delta_m reported at x satisfy rho*d(u_e^2*delta_m)/dx + rho*delta_d*u_e*du_e/dx = tau_w, and d(0.5*rho*u_e^3*delta_k)/dx = dissipation.", "quantifier": "every beta in range (beta < 2), x > 0, rho, u_ref, nu_ref > 0, and every profile", "why_tests_cant": "Identity in a continuum of points.", "anchors": ["ibl/analytic/_analytic_2d_base.py:Analytic2dSimilarityIncompressible.tau_w", "ibl/analytic/_analytic_2d_base.py:Analytic2dSimilarityIncompressible.dissipation", "ibl/analytic/_analytic_2d_base.py:Analytic2dSimilarityIncompressible.delta_m", "ibl/analytic/_analytic_2d_base.py:Analytic2dSimilarityIncompressible.delta_k"]}
{"id": "C38", "title": "Similarity shape factors are the same everywhere", "statement": "shape_d and shape_k do not depend on x, u_ref or nu_ref and equal delta_d/delta_m and delta_k/delta_m; thicknesses scale with sqrt(nu_ref/u_ref).", "quantifier": "all x > 0 and all reference values", "why_tests_cant": "All reals.", "anchors": ["ibl/analytic/_analytic_2d_base.py:Analytic2dSimilarityIncompressible.shape_d", "ibl/analytic/_analytic_2d_base.py:Analytic2dSimilarityIncompressible.shape_k", "ibl/analytic/_analytic_2d_base.py:Analytic2dSimilarityIncompressible.delta_m"]}
{"id": "C39", "title": "Blasius and Falkner-Skan with beta = 0 agree", "statement": "Given the same profile, the Blasius class and the Falkner-Skan class with beta = 0 report identical u_e, thicknesses, wall shear, dissipation and v_e at every x.", "quantifier": "all x and reference values", "why_tests_cant": "All reals.", "anchors": ["ibl/analytic/_blasius.py:Blasius", "ibl/analytic/_falkner_skan.py:FalknerSkan"]}
{"id": "C40", "title": "XFoil records only hold admissible data and a row is accepted exactly if it has the right number of columns and admissible numbers", "statement": "Resetting a record from a non-empty text succeeds iff the row has exactly 12 (wake: 8) numeric columns and the s, thickness, friction and shape factor columns do not compare below their limits; then each field equals its column. Otherwise ValueError is raised. The empty text resets all fields to infinity. Whatever is done to a record, it never holds inadmissible data.", "quantifier": "every text row, every history of assignments and resets", "why_tests_cant": "All strings.", "anchors": ["ibl/reference/_xfoil_data.py:XFoilAirfoilData.reset", "ibl/reference/_xfoil_data.py:XFoilWakeData.reset"]}
{"id": "C41", "title": "No dump row is lost or duplicated by the XFoil reader", "statement": "After reading a dump file with N airfoil rows and W wake rows the upper and lower surfaces together hold the N rows plus one stagnation point on each surface, in order from the stagnation point, and the wake holds W rows. (A row with exactly zero velocity is itself the stagnation point.)", "quantifier": "every dump file of finite numbers that is read", "why_tests_cant": "All files; the boundary cases (no lower surface, no wake, stagnation on the first row) are data dependent.", "anchors": ["ibl/reference/_xfoil_reader.py:XFoilReader.filename", "ibl/reference/_xfoil_reader.py:XFoilReader._get_dump_data"]}
{"id": "C42", "title": "Arc length on each XFoil surface starts at zero at the stagnation point and increases", "statement": "After a successful read, s is 0 at the first point of each surface and, if s is nondecreasing in the file, nondecreasing along each surface and in the wake.", "quantifier": "every dump file that is read successfully", "why_tests_cant": "All files.", "anchors": ["ibl/reference/_xfoil_reader.py:XFoilReader.filename", "ibl/reference/_xfoil_reader.py:XFoilReader._interpolate_aifoil_data"]}
{"id": "C43", "title": "The inserted stagnation point interpolates its neighbours and has zero edge velocity", "statement": "The stagnation point placed at the start of both surfaces has u_e_rel = 0 and every other quantity, including x, lies between the values of its two neighbouring rows, at the same interpolation fraction.", "quantifier": "every pair of neighbouring rows", "why_tests_cant": "All pairs of rows; the x coordinate is near 0 in the test file so an error there is invisible.", "anchors": ["ibl/reference/_xfoil_reader.py:XFoilReader._interpolate_aifoil_data"]}
{"id": "C44", "title": "A dump row with exactly zero velocity can be read", "statement": "If the dump contains a row whose velocity is exactly zero, the reader accepts the file and that row is the stagnation point of both surfaces with s = 0.", "quantifier": "every dump file with such a row", "why_tests_cant": "Needs a file with exact zero, which the test data lacks.", "anchors": ["ibl/reference/_xfoil_reader.py:XFoilReader.filename"]}
{"id": "C45", "title": "The XFoil reader object reports the file it holds", "statement": "After successfully loading a file, `filename` returns that file's name.", "quantifier": "every file name", "why_tests_cant": "Trivial to test but not tested; kept as it is a user-visible contract for all names.", "anchors": ["ibl/reference/_xfoil_reader.py:XFoilReader.filename"]}
{"id": "C46", "title": "XFoil edge quantities scale with the reference velocity", "statement": "For any loaded data, the lower/upper/wake edge velocities are u_ref times the relative ones, delta_k = shape_k*delta_m elementwise, every accessor returns one value per stored point, and setting u_ref <= 0 (or the other references out of range) is rejected without change.", "quantifier": "all loaded data and reference values", "why_tests_cant": "All data.", "anchors": ["ibl/reference/_xfoil_reader.py:XFoilReader.u_e_upper", "ibl/reference/_xfoil_reader.py:XFoilReader.delta_k_upper", "ibl/reference/_xfoil_reader.py:XFoilReader.u_ref"]}
{"id": "C47", "title": "Stanford case files are split into their sections without losing rows", "statement": "For every file made of a one-line-header first section followed by two-line-header sections, the reader obtains exactly the non-empty rows of each section, in order.", "quantifier": "every list of sections with any rows not containing '# '", "why_tests_cant": "All files.", "anchors": ["ibl/reference/_stanford_1968.py:StanfordOlympics1968._get_case_data"]}
{"id": "C48", "title": "Every row of a Stanford case becomes a station", "statement": "After successfully selecting a case, station_count equals the number of rows in the summary section, and station i carries row i of the summary, row i of the station-summary section and the i-th profile section.", "quantifier": "every case file", "why_tests_cant": "Files with unequal section counts.", "anchors": ["ibl/reference/_stanford_1968.py:StanfordOlympics1968.case", "ibl/reference/_stanford_1968.py:StanfordOlympics1968.station_count"]}
{"id": "C49", "title": "Selecting a Stanford case is all or nothing", "statement": "If selecting a case raises, `case` and the data belong together (both old, or both empty); after success `case` returns the requested name and the data are from that file, whose identifier line names the same case; selecting '' gives empty data.", "quantifier": "every history of case selections and every file content", "why_tests_cant": "Histories and all error positions.", "anchors": ["ibl/reference/_stanford_1968.py:StanfordOlympics1968.case"]}
{"id": "C50", "title": "Stanford data are converted to SI by the same factors everywhere", "statement": "For a non-SI case, lengths in the summary are scaled by 0.3048 (feet) or 0.0254 (inches), velocities by 0.3048, viscosity by 0.3048^2; for SI cases lengths and velocities are as documented; dimensionless quantities are untouched. Reading the same physical state in the two unit systems gives the same SI record.", "quantifier": "every row", "why_tests_cant": "All rows.", "anchors": ["ibl/reference/_stanford_1968_station.py:StanfordOlympics1968StationData._reset_summary_data", "ibl/reference/_stanford_1968_station.py:StanfordOlympics1968StationData._reset_station_summary", "ibl/reference/_stanford_1968_station.py:StanfordOlympics1968StationData._reset_station_data", "ibl/reference/_stanford_1968.py:StanfordOlympics1968.case"]}
{"id": "C51", "title": "An accepted Stanford station is consistent between its two summaries", "statement": "If the station-summary row is accepted, each repeated quantity differs from the summary value by less than the stated tolerance.", "quantifier": "every pair of rows (finite numbers)", "why_tests_cant": "All rows; NaN entries defeat the check.", "anchors": ["ibl/reference/_stanford_1968_station.py:StanfordOlympics1968StationData._reset_station_summary"]}
{"id": "C52", "title": "Stanford summary thicknesses and friction velocity satisfy their definitions", "statement": "After reading a summary row delta_d = shape_d*delta_m, delta_k = shape_k*delta_m, and u_star^2 = u_e^2*c_f/2 with u_star > 0.", "quantifier": "every row with c_f >= 0", "why_tests_cant": "All rows.", "anchors": ["ibl/reference/_stanford_1968_station.py:StanfordOlympics1968StationData._reset_summary_data"]}
{"id": "C53", "title": "Results always describe the configuration that was solved", "statement": "Boundary layer quantities read after a successful solve do not change when nu, the velocity or the fits are changed without solving again.", "quantifier": "every history of reconfiguration after a solve", "why_tests_cant": "Histories.", "anchors": ["ibl/thwaites_method.py:ThwaitesMethod.delta_m", "ibl/ibl_method.py:IBLMethod.nu", "ibl/ibl_method.py:IBLMethod.set_velocity"]}
{"id": "C54", "title": "The linear Thwaites method computes Thwaites' quadrature", "statement": "Along any exact solution of the linear method's equation the reported momentum thickness satisfies delta_m(b)^2*(u_e(b)+eps)^6 = delta_m(a)^2*(u_e(a)+eps)^6 + 0.45*nu*integral of (u_e+eps)^5 from a to b, eps = 0.001 being the code's offset.", "quantifier": "every edge velocity with u_e > -0.001 on [a, b], every viscosity, every positive initial thickness", "why_tests_cant": "Identity over all velocity functions.", "anchors": ["ibl/thwaites_method.py:ThwaitesMethodLinear", "ibl/thwaites_method.py:ThwaitesMethod._ode_impl", "ibl/thwaites_method.py:ThwaitesMethod.delta_m"]}
{"id": "C55", "title": "Similarity objects keep their parameters in the documented range", "statement": "However a Blasius or Falkner-Skan object is built and driven (reference values assigned, beta or m reset, solutions recalculated, calls that raise included), u_ref and nu_ref are positive, beta lies in [-0.19884, 2] and is 0 for Blasius.", "quantifier": "every constructor call and every history of public calls, any behaviour of the numerical tools", "why_tests_cant": "Invariant of all histories.", "anchors": ["ibl/analytic/_analytic_2d_base.py:Analytic2dSimilarityIncompressible.u_ref", "ibl/analytic/_analytic_2d_base.py:Analytic2dSimilarityIncompressible.nu_ref", "ibl/analytic/_falkner_skan.py:FalknerSkan.reset_beta", "ibl/analytic/_falkner_skan.py:FalknerSkan.reset_m"]}
{"id": "C56", "title": "Every accepted wedge parameter gives a usable object", "statement": "If a similarity object's last request for a solution succeeded, every query at x > 0 returns a number. (False of the code at beta = 2, m = inf.)", "quantifier": "every accepted beta, every x > 0", "why_tests_cant": "All reals; the exception is one boundary value.", "anchors": ["ibl/analytic/_analytic_2d_base.py:Analytic2dSimilarityIncompressible.u_e", "ibl/analytic/_falkner_skan.py:FalknerSkan.reset_m"]}
{"id": "C57", "title": "The XFoil reader never holds inadmissible data", "statement": "After any history of loads, reference assignments and changes of points through upper(i), lower(i), wake(i), including calls that raised half way, u_ref, c and n_trans are not <= 0, the Reynolds number is not negative, and no point has a negative arc length, thickness or friction or a nonpositive shape factor.", "quantifier": "every history of public calls, every file content, any number arithmetic", "why_tests_cant": "Invariant over all histories including failed loads.", "anchors": ["ibl/reference/_xfoil_reader.py:XFoilReader.filename", "ibl/reference/_xfoil_reader.py:XFoilReader.u_ref", "ibl/reference/_xfoil_data.py:XFoilAirfoilData"]}
{"id": "C58", "title": "Every well-formed XFoil dump can be read", "statement": "If all rows are admissible, some row with positive velocity is directly followed by the first row with negative velocity, and arc length does not decrease in the airfoil and in the wake, then loading the file succeeds.", "quantifier": "every such file, with or without header and wake", "why_tests_cant": "All files.", "anchors": ["ibl/reference/_xfoil_reader.py:XFoilReader.filename", "ibl/reference/_xfoil_reader.py:XFoilReader._interpolate_aifoil_data"]}
{"id": "C59", "title": "A Stanford station is accepted exactly when its rows are consistent", "statement": "A station is built from its three kinds of rows if and only if the summary and station summary values that must be positive are positive, the two agree within the tolerances in the code and every profile sample agrees with the station; sample_count is then the number of profile rows.", "quantifier": "every summary row, station summary row and profile (finite numbers)", "why_tests_cant": "All rows; rejection as well as acceptance.", "anchors": ["ibl/reference/_stanford_1968_station.py:StanfordOlympics1968StationData.reset", "ibl/reference/_stanford_1968_station.py:StanfordOlympics1968StationData.sample_count"]}
{"id": "C60", "title": "Attributes documented as positive are positive in every Stanford station", "statement": "After any history of case selections, attribute assignments and station resets, successful or not, no attribute documented as positive is <= 0 and no profile array has a negative entry.", "quantifier": "every history and every file content", "why_tests_cant": "Histories with failures in the middle.", "anchors": ["ibl/reference/_stanford_1968_station.py:StanfordOlympics1968StationData.u_e", "ibl/reference/_stanford_1968_station.py:StanfordOlympics1968StationData.y", "ibl/reference/_stanford_1968_station.py:StanfordOlympics1968StationData._reset_station_data"]}
{"id": "C61", "title": "Selecting a Stanford case raises only ValueError", "statement": "If a case cannot be selected the exception is a ValueError, as documented.", "quantifier": "every name and every file content", "why_tests_cant": "All defects of a file.", "anchors": ["ibl/reference/_stanford_1968.py:StanfordOlympics1968.case", "ibl/reference/_stanford_1968.py:StanfordOlympics1968._get_case_data", "ibl/reference/_stanford_1968_station.py:StanfordOlympics1968StationData._reset_station_summary"]}
{"id": "C62", "title": "Stanford data never contain uninitialised memory", "statement": "Whatever np.empty returns, the values seen through a case object or a station depend only on the files and assignments.", "quantifier": "every content of uninitialised memory, every history", "why_tests_cant": "Memory content is not under the control of a test.", "anchors": ["ibl/reference/_stanford_1968_station.py:StanfordOlympics1968StationData._reset_station_data", "ibl/reference/_stanford_1968_station.py:StanfordOlympics1968StationData.reset"]}
{"id": "C63", "title": "The arrays of a Stanford case can be plotted against each other", "statement": "After any history of selections, attribute assignments and resets, successful or not, the six profile arrays of every station have the same length and the three smoothed velocity arrays have the same length.", "quantifier": "every history without assignments to the profile arrays", "why_tests_cant": "Histories with failures in the middle.", "anchors": ["ibl/reference/_stanford_1968.py:StanfordOlympics1968.x_smooth", "ibl/reference/_stanford_1968.py:StanfordOlympics1968.y", "ibl/reference/_stanford_1968_station.py:StanfordOlympics1968StationData._reset_station_data"]}
{"id": "C64", "title": "Separation is reported exactly when the criterion is met at an accepted integration point", "statement": "In a solve() without user events that starts attached, the status is SEPARATED if and only if at some accepted integration point the shear function is not positive (Thwaites) or the shape factor is at least the critical one (Head); integration stops in the first such step. (A separated stretch that lies between two accepted points is not noticed.)", "quantifier": "every way of stepping by the integrator, every root finder, every velocity and closure", "why_tests_cant": "Steps are chosen by the integrator from the tolerances; a test sees one sequence of steps.", "anchors": ["ibl/ibl_method.py:TermEvent", "ibl/ibl_method.py:IBLMethod.solve", "ibl/thwaites_method.py:_ThwaitesSeparationEvent", "ibl/head_method.py:_HeadSeparationEvent"]}
{"id": "C65", "title": "The reported separation point is the first point where the criterion vanishes", "statement": "When a solve() that started attached is stopped as SEPARATED, the criterion is positive at every point of the last step before the reported x_end.", "quantifier": "every way of stepping, every root finder that meets the specification of brentq, every closure", "why_tests_cant": "The location inside a step depends on the root finder and on the behaviour of the closure beyond separation.", "anchors": ["ibl/ibl_method.py:IBLMethod.solve", "ibl/thwaites_method.py:_ThwaitesSeparationEvent", "ibl/thwaites_method.py:_ThwaitesFunctionsSpline", "ibl/thwaites_method.py:_ThwaitesFunctionsWhite", "ibl/head_method.py:_HeadSeparationEvent"]}
{"id": "C66", "title": "A boundary layer that is separated at the start is reported", "statement": "A solve() whose starting state already meets the separation criterion does not end as REACHED_END.", "quantifier": "every way of stepping, every starting state and closure", "why_tests_cant": "A root search looks for sign changes; tests start from attached states.", "anchors": ["ibl/ibl_method.py:IBLMethod.solve", "ibl/thwaites_method.py:_ThwaitesSeparationEvent", "ibl/head_method.py:_HeadSeparationEvent"]}
{"id": "C67", "title": "Of several events the one that occurs first is reported", "statement": "When several termination events change sign in the same integration step, solve() reports x_end, status and message of one whose location is not behind any other; the order in which events were registered does not matter.", "quantifier": "every event list, every way of stepping downstream, every root finder", "why_tests_cant": "Needs several events inside one integration step, whose length the caller does not control.", "anchors": ["ibl/ibl_method.py:IBLMethod.solve", "ibl/ibl_method.py:TermEvent"]}
{"id": "C68", "title": "SEPARATED means that an attached layer separated", "statement": "solve() ends as SEPARATED only if the separation criterion was not already passed (its value was not negative) at the start.", "quantifier": "every way of stepping, every starting state", "why_tests_cant": "Sign changes have two directions; tests only try one.", "anchors": ["ibl/ibl_method.py:TermEvent", "ibl/ibl_method.py:IBLMethod.solve", "ibl/head_method.py:_HeadSeparationEvent"]}
{"id": "C69", "title": "Method objects are independent of each other", "statement": "What the calls on one method object return does not depend on calls made on other method objects.", "quantifier": "every number of objects, every interleaving of calls on them, shared or separate initial conditions", "why_tests_cant": "All interleavings of histories, and references held in several places.", "anchors": ["ibl/ibl_method.py:IBLMethod.set_initial_condition", "ibl/ibl_method.py:IBLMethod.solve", "ibl/thwaites_method.py:ThwaitesMethod.initial_delta_m", "ibl/head_method.py:HeadMethod.initial_delta_m"]}
{"id": "C70", "title": "Solving leaves the caller's initial condition object as it was", "statement": "An initial condition object given to set_initial_condition has the same attributes after a solve() as before, whether the solve succeeds, fails or raises.", "quantifier": "every method object, every condition, every integrator outcome", "why_tests_cant": "Side effect on an object the test does not look at again.", "anchors": ["ibl/ibl_method.py:IBLMethod.solve", "ibl/initial_condition.py:InitialCondition.nu", "ibl/initial_condition.py:InitialCondition.du_e"]}
{"id": "C71", "title": "Kinetic energy quantities are computed or refused", "statement": "delta_k, shape_k and dissipation of a method object raise before there is a solution; afterwards delta_k is between delta_m and twice delta_m, as for every velocity profile between 0 and the edge velocity.", "quantifier": "every object, solved or not, every location", "why_tests_cant": "A test comparing types or shapes accepts any number.", "anchors": ["ibl/thwaites_method.py:ThwaitesMethod.delta_k", "ibl/thwaites_method.py:ThwaitesMethod.dissipation", "ibl/head_method.py:HeadMethod.delta_k", "ibl/head_method.py:HeadMethod.shape_k"]}
{"id": "C72", "title": "Head's momentum thickness stays positive", "statement": "Along any exact solution of Head's equations that starts with a positive momentum thickness the reported delta_m is positive everywhere.", "quantifier": "every edge velocity with a slope bounded above, every start value, every interval", "why_tests_cant": "All flows and positions; powers of a negative Reynolds number appear as soon as it fails.", "anchors": ["ibl/head_method.py:HeadMethod._ode_impl", "ibl/head_method.py:HeadMethod.delta_m"]}
{"id": "C73", "title": "Head's displacement thickness is not smaller than the momentum thickness", "statement": "Along any exact solution of Head's equations that starts with positive momentum thickness and a shape factor in the range of the correlations (>= 1.11), delta_d >= delta_m at every location.", "quantifier": "every edge velocity >= 0.001, every solution, every location", "why_tests_cant": "The correlations are clamped in the equations but not in the reported shape factor, which needs a strongly accelerated flow to show.", "anchors": ["ibl/head_method.py:HeadMethod._ode_impl", "ibl/head_method.py:HeadMethod.delta_d", "ibl/head_method.py:HeadMethod.shape_d"]}
{"id": "C74", "title": "No separation in a flow that is nowhere decelerated", "statement": "If du_e >= 0 on the range of the solve and the accepted points lie on a solution of the method's equations, solve() does not end as SEPARATED (Head: critical shape factor above 2 and above the start value, Reynolds numbers of at least 1).", "quantifier": "every accelerated edge velocity, both Thwaites methods with every built-in fit, Head, every choice of steps", "why_tests_cant": "All accelerated flows; the fits are evaluated for parameters that no test reaches.", "anchors": ["ibl/thwaites_method.py:_ThwaitesSeparationEvent", "ibl/thwaites_method.py:_ThwaitesFunctionsDrela", "ibl/head_method.py:_HeadSeparationEvent", "ibl/head_method.py:HeadMethod._ode_impl"]}
{"id": "C75", "title": "The linear Thwaites equation determines its solution, and errors are damped in accelerated flow", "statement": "For every start value there is exactly one solution of the linear method's equation; the difference of two solutions at x is their difference at the start times ((u_e(a)+eps)/(u_e(x)+eps))^6, eps = 0.001.", "quantifier": "every differentiable edge velocity > -0.001 with continuous slope, every pair of start values", "why_tests_cant": "Existence and uniqueness are not observable by running.", "anchors": ["ibl/thwaites_method.py:ThwaitesMethodLinear", "ibl/thwaites_method.py:ThwaitesMethod._ode_impl"]}
{"id": "C76", "title": "Results do not depend on the origin of x", "statement": "Moving the origin (edge velocity, its data points, start location and range all shifted by the same amount) gives the same results at the moved locations: every query of a solved object, and every history of set-ups, solves and queries.", "quantifier": "every object, every history of operations, every shift; every integrator that itself does not look at absolute positions", "why_tests_cant": "A relation between two runs for all shifts and histories; a test compares a few locations.", "anchors": ["ibl/ibl_method.py:IBLMethod.set_velocity", "ibl/ibl_method.py:IBLMethod.solve", "ibl/thwaites_method.py:ThwaitesMethod._ode_impl", "ibl/head_method.py:HeadMethod._ode_impl"]}
{"id": "C77", "title": "Results do not depend on the units of length and velocity", "statement": "Describing the same flow in other units of length and velocity (viscosity in the matching unit) gives the same results in these units, for Thwaites' and Head's methods.", "quantifier": "every flow, every pair of positive unit factors, every solution", "why_tests_cant": "A relation between two runs for all units; needs the offset constants to matter to show.", "anchors": ["ibl/thwaites_method.py:ThwaitesMethod._ode_impl", "ibl/head_method.py:HeadMethod._ode_impl", "ibl/thwaites_method.py:ThwaitesMethod.tau_w", "ibl/head_method.py:HeadMethod.delta_m"]}
{"id": "C78", "title": "Flat plate", "statement": "In a flow of constant edge velocity U the square of delta_m grows linearly with slope c nu/(U+0.001), c = 0.45 for the linear method and 0.44 for the nonlinear method with Spline, Cebeci-Bradshaw and Drela fits (twice 0.09^0.62 with White's); shape_d is constant (2.61, White 2.59359375) and tau_w = rho nu U S/delta_m with S = 0.22 (0.09^0.62).", "quantifier": "every U > -0.001, viscosity, start value, location; both Thwaites methods", "why_tests_cant": "Exact law for all parameters; a test samples a discretised solution with a tolerance.", "anchors": ["ibl/thwaites_method.py:ThwaitesMethodLinear", "ibl/thwaites_method.py:ThwaitesMethodNonlinear", "ibl/thwaites_method.py:ThwaitesMethod.shape_d", "ibl/thwaites_method.py:ThwaitesMethod.tau_w"]}
{"id": "C79", "title": "Linearly decelerated flow separates where theory says", "statement": "In u_e = c + k x with k < 0 the linear Thwaites method (Spline or White fits) that starts attached reports SEPARATED exactly if an accepted point satisfies ((u_e(x0)+eps)/(u_e(x)+eps))^6 >= 0.165/(0.075 - lambda(x0)), eps = 0.001; lambda along the flow is given in closed form (also for k > 0).", "quantifier": "every c, k, start value, choice of steps along the exact solution", "why_tests_cant": "Exact law for all parameters and step choices.", "anchors": ["ibl/thwaites_method.py:ThwaitesMethodLinear", "ibl/thwaites_method.py:_ThwaitesSeparationEvent", "ibl/ibl_method.py:IBLMethod.solve"]}
{"id": "C80", "title": "Queries after a solve return the integrator's solution", "statement": "After a successful solve() the queries are evaluated on a state that is the start vector at the start (so delta_m there is the initial momentum thickness, for Head shape_d the initial shape factor), the accepted state at every accepted point, the step's interpolant inside each step, and f_end at x_end.", "quantifier": "every object, forward and backward solves, every sequence of accepted steps whose interpolants match their ends, every event", "why_tests_cant": "All step sequences; a test with one step size cannot tell which interpolant is used.", "anchors": ["ibl/ibl_method.py:IBLMethod.solve", "ibl/thwaites_method.py:ThwaitesMethod.delta_m", "ibl/head_method.py:HeadMethod.delta_m"]}
{"id": "C81", "title": "Queries outside the solved range are refused", "statement": "After a successful solve() from x0 that ended at x_end, querying left of x0 or right of x_end (in particular beyond a reported separation point) raises.", "quantifier": "every solved object, every location outside the range", "why_tests_cant": "Absence of a check for all locations.", "anchors": ["ibl/ibl_method.py:IBLMethod.solve", "ibl/thwaites_method.py:ThwaitesMethod.delta_m", "ibl/head_method.py:HeadMethod.delta_m"]}
{"id": "C82", "title": "The nonlinear Thwaites problem determines its solution", "statement": "With a built-in fit, two solutions of the nonlinear Thwaites equation from the same positive start value coincide over the whole interval; and whatever satisfies the equation up to a residual eps deviates from the solution by at most (start difference + eps times distance) times exp(M distance), M depending only on the fit and bounds of flow and solution (6 max|du_e|/min(u_e+0.001) for the linear method).", "quantifier": "every flow with continuous u_e > -0.001 and bounded gradient, every built-in fit, every start value, every approximate solution", "why_tests_cant": "Uniqueness and error propagation for all flows and all approximate solutions; White's shear has infinite slope at separation, so it does not follow from smoothness.", "anchors": ["ibl/thwaites_method.py:ThwaitesMethod._ode_impl", "ibl/thwaites_method.py:ThwaitesMethodNonlinear", "ibl/thwaites_method.py:ThwaitesMethodLinear"]}
{"id": "C83", "title": "The nonlinear Thwaites problem has a solution", "statement": "With a built-in fit the equation solve() poses to the integrator has a positive solution over the whole requested interval from every positive start value.", "quantifier": "every flow with continuous u_e > -0.001 and gradient, every built-in fit, every start value and interval", "why_tests_cant": "Existence for all flows; no finite set of integrations shows it.", "anchors": ["ibl/thwaites_method.py:ThwaitesMethod._ode_impl", "ibl/thwaites_method.py:ThwaitesMethodNonlinear", "ibl/thwaites_method.py:_ThwaitesFunctionsWhite"]}
{"id": "C84", "title": "Similarity profiles are physically ordered", "statement": "For an exact similarity solution that stays within the edge velocity in magnitude, starts with positive wall shear and, if accelerating, still rises at eta_inf: u is 0 at the wall, strictly increasing in y and at most u_e up to eta_inf; tau_w, delta_d, delta_m, delta_k and the shape factors are positive. If beta >= 0, shape_k < 2, and shape_d > 1 if eta_inf and the end slope meet the stated bounds. For Blasius flow v is 0 at the wall, increasing, and at most the reported v_e.", "quantifier": "every history of calls leading to a successful solution, every x > 0, every beta < 2 accepted", "why_tests_cant": "For all betas, all solutions and all points of the profile; tests sample a few tabulated values.", "anchors": ["ibl/analytic/_analytic_2d_base.py:Analytic2dSimilarityIncompressible.u", "ibl/analytic/_analytic_2d_base.py:Analytic2dSimilarityIncompressible.v", "ibl/analytic/_analytic_2d_base.py:Analytic2dSimilarityIncompressible.delta_m", "ibl/analytic/_analytic_2d_base.py:Analytic2dSimilarityIncompressible.shape_d"]}
{"id": "C85", "title": "Assigning an attribute of a data point changes that attribute of that point only", "statement": "An assignment `reader.upper(i).f = v`, `reader.lower(i).f = v`, `reader.wake(i).f = v` or `data.station(i).f = v` either raises (IndexError if there is no such point, ValueError if the value is refused) and changes nothing at all, or it sets that one attribute of that one point, and every other attribute, every other point, the other surface and the reader's own attributes stay as they were. A negative index counts from the end.", "quantifier": "For all readers and cases in any reachable state (any history of loads, resets and assignments), all indices, all attributes, all values.", "why_tests_cant": "Whether two list entries are the same object depends on the file: the reader puts the object of a zero-velocity row in both surfaces. A test looks at one file and one attribute; it cannot show that no history makes other entries share an object.", "anchors": ["ibl/reference/_xfoil_reader.py:XFoilReader.upper", "ibl/reference/_xfoil_reader.py:XFoilReader.lower", "ibl/reference/_xfoil_reader.py:XFoilReader.wake", "ibl/reference/_xfoil_reader.py:XFoilReader._interpolate_aifoil_data", "ibl/reference/_xfoil_data.py", "ibl/reference/_stanford_1968.py", "ibl/reference/_stanford_1968_station.py"]}
{"id": "C86", "title": "Where the state or the edge velocity is undefined, the queries say so", "statement": "If at some location the stored solution, the edge velocity or its slope is NaN, every query there that depends on it (delta_m, shape_d, delta_d, shape_k, tau_w, v_e) returns NaN, never an ordinary number; the right-hand side handed to the integrator is NaN, and the separation event is NaN, so that no separation is reported because of it.", "quantifier": "For all method objects of all three classes, all choices of data fits, all locations, all remaining values (finite, infinite or NaN).", "why_tests_cant": "NaN takes the branch nobody wrote: both conditions of a piecewise definition are false and numpy fills in zero. Tests of a fit use numbers, and a NaN that has become a plausible zero shape factor or wall shear raises no error.", "anchors": ["ibl/thwaites_method.py:_ThwaitesFunctionsCebeciBradshaw", "ibl/thwaites_method.py:_ThwaitesFunctions._check_range", "ibl/thwaites_method.py:ThwaitesMethod.shape_d", "ibl/thwaites_method.py:ThwaitesMethod.tau_w", "ibl/head_method.py:HeadMethod._shape_entrainment", "ibl/head_method.py:HeadMethod._shape_entrainment_p", "ibl/head_method.py:HeadMethod._ode_impl", "ibl/head_method.py:HeadMethod.v_e"]}
{"id": "C87", "title": "Rounding does not make a well-formed XFoil dump unreadable", "statement": "A dump as in C58 is read also when every arithmetic operation of the reader rounds its result, as floating point does; the surfaces and the wake then start at arc length exactly 0 and arc length does not decrease.", "quantifier": "For all dump files, all roundings to nearest-like (monotone, odd, small relative error) representable numbers.", "why_tests_cant": "The reader raises if a shifted arc length is below zero by any amount, so whether a file can be read depends on the last bit of an interpolation. Tests read a few files.", "anchors": ["ibl/reference/_xfoil_reader.py:XFoilReader.filename", "ibl/reference/_xfoil_reader.py:XFoilReader._interpolate_aifoil_data", "ibl/reference/_xfoil_data.py"]}
{"id": "C88", "title": "Numerical velocity derivatives are accurate in floating point", "statement": "With only u_e given, computed with error d, with |u_e| <= B, |u_e'| <= L and fifth derivative at most M near x, the reported du_e differs from the true one by at most h^4/17 M + 10^4 (2(d + L eps(|x| + 3h)) + 7 eps B), h = 1e-4; d2u_e by at most h^4/53 M6 + 10^8 (6(d + L eps(|x|+3h)) + 28 eps B); with du_e given, d2u_e obeys the first bound with h = 1e-5 and 10^5. With double precision and values of order one: eleven digits for du_e.", "quantifier": "For all velocity functions computed with any bounded error, all locations, all roundings.", "why_tests_cant": "The step sizes trade truncation against cancellation; a test at one location sees one rounding error and cannot bound all of them.", "anchors": ["ibl/ibl_method.py:IBLMethod.set_velocity", "ibl/ibl_method.py:IBLMethod.du_e", "ibl/ibl_method.py:IBLMethod.d2u_e"]}
{"id": "C89", "title": "Falkner-Skan beta and m agree in floating point", "statement": "After a successful reset_m(m) reading m returns m up to a few rounding errors, for every finite m; m is accepted if it is at least -0.19884/2.19884 and refused if it is below, up to a few rounding errors of the limit.", "quantifier": "For all finite m > -1, all roundings, all objects.", "why_tests_cant": "beta tends to 2 as m grows, so the conversion loses digits without bound; tests use small m.", "anchors": ["ibl/analytic/_falkner_skan.py:FalknerSkan.reset_m", "ibl/analytic/_falkner_skan.py:FalknerSkan.m"]}
{"id": "C90", "title": "Similarity solutions satisfy the boundary layer equations", "statement": "For every Falkner-Skan or Blasius object (beta < 2) whose last request for a solution succeeded, the reported u(x,y), v(x,y), u_e(x) satisfy u u_x + v u_y = u_e du_e/dx + nu u_yy and u_x + v_y = 0 inside the layer, and u = v = 0 at the wall, provided the integrator solved the equation it was given.", "quantifier": "For all objects and histories, all x > 0, all y inside the layer, all exact integrators.", "why_tests_cant": "This is the meaning of the whole module; it combines the equation handed to the integrator, the scaling and the velocity formulas, and holds at a continuum of points. Tests compare a few numbers with tables.", "anchors": ["ibl/analytic/_analytic_2d_base.py:Analytic2dSimilarityIncompressible.u", "ibl/analytic/_analytic_2d_base.py:Analytic2dSimilarityIncompressible.v", "ibl/analytic/_analytic_2d_base.py:Analytic2dSimilarityIncompressible._calculate_solution", "ibl/analytic/_falkner_skan.py:FalknerSkan", "ibl/analytic/_blasius.py"]}
{"id": "C91", "title": "Similarity wall shear, thicknesses and dissipation are those of the reported velocity", "statement": "tau_w is rho nu times the slope of u at the wall; delta_d, delta_m, delta_k and the dissipation are the integrals of (1-u/u_e), u/u_e(1-u/u_e), u/u_e(1-(u/u_e)^2) and rho nu u_y^2 over the layer, delta_d exactly and the others up to a small multiple of the tolerance to which f' = 1 and f'' = 0 hold at eta_inf.", "quantifier": "For all objects and histories, all x > 0, all exact integrators and quadratures, all tolerances.", "why_tests_cant": "The code computes these from wall values and one quadrature through integrated forms of the equation, not from the velocity; agreement is an identity over all solutions.", "anchors": ["ibl/analytic/_analytic_2d_base.py:Analytic2dSimilarityIncompressible.tau_w", "ibl/analytic/_analytic_2d_base.py:Analytic2dSimilarityIncompressible.dissipation", "ibl/analytic/_analytic_2d_base.py:Analytic2dSimilarityIncompressible.delta_d", "ibl/analytic/_analytic_2d_base.py:Analytic2dSimilarityIncompressible.delta_m", "ibl/analytic/_analytic_2d_base.py:Analytic2dSimilarityIncompressible.delta_k", "ibl/analytic/_analytic_2d_base.py:Analytic2dSimilarityIncompressible.set_solution_parameters"]}
{"id": "C92", "title": "A refused call raises the exception that its documentation names", "statement": "Constructors, set_velocity, set_data_fits, the setters of method objects and the constructors and resets of similarity objects raise ValueError for everything they refuse; u_e, du_e, d2u_e and solve raise TypeError if the velocity was not set. (False of the code in listed cases.)", "quantifier": "For all arguments of every documented kind, all objects and histories, whatever the external interpolator, integrator and root finder do.", "why_tests_cant": "A caller's except clause must match whatever invalid argument arrives; tests try a handful of invalid arguments of an unbounded set.", "anchors": ["ibl/ibl_method.py:IBLMethod.set_velocity", "ibl/ibl_method.py:IBLMethod.__init__", "ibl/ibl_method.py:IBLMethod.solve", "ibl/ibl_method.py:IBLMethod.u_e", "ibl/ibl_method.py:IBLMethod.du_e", "ibl/ibl_method.py:IBLMethod.d2u_e", "ibl/thwaites_method.py:ThwaitesMethod.set_data_fits", "ibl/analytic/_analytic_2d_base.py:Analytic2dSimilarityIncompressible.set_solution_parameters", "ibl/analytic/_falkner_skan.py:FalknerSkan.reset_m", "ibl/analytic/_falkner_skan.py:FalknerSkan.reset_beta"]}
{"id": "C93", "title": "An XFoil dump without two surfaces is refused with ValueError", "statement": "Loading a file that is empty, has no airfoil rows, begins with a row of negative velocity or has no row of negative velocity raises ValueError, like every other defect of the file. (False of the code: IndexError, ZeroDivisionError, or accepted if the last row has zero velocity and zero arc length.)", "quantifier": "For all file contents and all numbers in them.", "why_tests_cant": "Files are unbounded texts; the four defects each cover infinitely many files, and that nothing else escapes as another exception is a statement about all of them.", "anchors": ["ibl/reference/_xfoil_reader.py:XFoilReader.filename", "ibl/reference/_xfoil_reader.py:XFoilReader._get_dump_data", "ibl/reference/_xfoil_reader.py:XFoilReader._interpolate_aifoil_data"]}
{"id": "C94", "title": "Thwaites quantities on an array are those at its points", "statement": "For a Thwaites object delta_m, shape_d, delta_d, delta_k, shape_k, tau_w, dissipation and v_e on an array of points return exactly the values returned for the single points, and raise exactly if one of these raises. (False of the code if lambda is below the range of the fits at one point and above it at another.)", "quantifier": "For all Thwaites objects with any fits, all solutions, all edge velocities evaluated element by element, all non-empty arrays; in any arithmetic.", "why_tests_cant": "The disagreement depends on combinations of points in one array; tests compare some arrays with some reference values.", "anchors": ["ibl/thwaites_method.py:ThwaitesMethod.v_e", "ibl/thwaites_method.py:ThwaitesMethod.delta_m", "ibl/thwaites_method.py:ThwaitesMethod.delta_d", "ibl/thwaites_method.py:ThwaitesMethod.shape_d", "ibl/thwaites_method.py:ThwaitesMethod.shape_k", "ibl/thwaites_method.py:ThwaitesMethod.tau_w", "ibl/thwaites_method.py:_ThwaitesFunctions._check_range"]}
{"id": "C95", "title": "Head's method determines the layer", "statement": "Two Head objects with the same viscosity in the same flow that hold solutions of their equations with the same positive starting momentum thickness and the same starting shape factor report the same delta_m, shape_d and delta_d at every point. (False of the code: the right hand side jumps at shape factor 1.6, and where c_f/2 - 2.6 delta_m u_e'/u_e is about 0.00344 a layer of shape factor 1.6 can continue in two ways.)", "quantifier": "For all flows with continuous velocity gradient, all viscosities, all solutions (continuous, equation satisfied but for finitely many points), all start values.", "why_tests_cant": "Uniqueness is about all functions that satisfy an equation; no run shows that there is no second one.", "anchors": ["ibl/head_method.py:HeadMethod._ode_impl", "ibl/head_method.py:HeadMethod._shape_entrainment", "ibl/head_method.py:HeadMethod._shape_entrainment_p"]}
{"id": "C96", "title": "Head's equation can be solved from every start", "statement": "From every positive momentum thickness and every shape factor the differential equation a Head object hands to the integrator has a solution over some distance, with positive momentum thickness. It satisfies the equation at every point but possibly the first. (At shape factor 1.6 the restriction is necessary: in a clearly decelerated flow no functions satisfy the equation at every point and have the shape factor 1.6 anywhere.)", "quantifier": "For all flows with continuous velocity gradient, all viscosities, all start values.", "why_tests_cant": "Existence of an exact solution is not visible in a computed approximation, which exists in any case.", "anchors": ["ibl/head_method.py:HeadMethod._ode_impl", "ibl/head_method.py:HeadMethod._shape_entrainment", "ibl/head_method.py:HeadMethod._shape_entrainment_p"]}
{"id": "C97", "title": "A tabulated velocity has no overshoot", "statement": "set_velocity((x, u)) is accepted exactly if the table has at least two points and the x increase; otherwise it raises ValueError and the object is unchanged. After an accepted call u_e, du_e and d2u_e return at every location a function through the tabulated points, its derivative, and (except at the points of the table, where it may jump) the derivative of that. The derivative is continuous. Between two neighbouring points u_e stays between the two tabulated values and goes in one direction, nowhere more than three times as steep as the straight line between the two points. The same holds for du_e after set_velocity(u0, (x, du)), where u_e is u0 plus the integral of du_e from the first x on.", "quantifier": "For all tables of real numbers, all locations, all objects.", "why_tests_cant": "Tests interpolate some tables at some points; that nothing overshoots is a statement about all tables and all locations between their points.", "anchors": ["ibl/ibl_method.py:IBLMethod.set_velocity", "ibl/ibl_method.py:IBLMethod.u_e", "ibl/ibl_method.py:IBLMethod.du_e", "ibl/ibl_method.py:IBLMethod.d2u_e"]}
{"id": "C98", "title": "A table of increasing velocities is an accelerated flow", "statement": "After set_velocity with a table of positive velocities, none smaller than the one before, u_e is positive and du_e is not negative at every location where the object answers. (False of the code outside the table: there the end pieces are extrapolated without notice, and the velocity can become negative.)", "quantifier": "For all tables of real numbers, all locations.", "why_tests_cant": "Holds at every location within every table and fails only outside; tests query a few locations.", "anchors": ["ibl/ibl_method.py:IBLMethod.set_velocity", "ibl/ibl_method.py:IBLMethod.u_e", "ibl/ibl_method.py:IBLMethod.du_e"]}
{"id": "C99", "title": "A tabulated flow determines the layer", "statement": "For a flow given by a table of velocities that are not negative, the equation of Thwaites' linear method and, with all built-in fits but White's, of the nonlinear method has from every positive start value exactly one solution over any interval within the table, and it is positive. If the tabulated velocities are nowhere decreasing, a solve within the table that follows a solution does not report separation (Thwaites with Spline, White or Cebeci-Bradshaw fits; Head for velocities of at least 0.001, Reynolds numbers of at least 1 and a critical shape factor above 2 and above the start).", "quantifier": "For all tables of real numbers, all viscosities, all start values, all intervals within the table, all stepping of the integrator.", "why_tests_cant": "Quantifies over all tables, all solutions and all step sequences; a computed run shows neither uniqueness nor that no step sequence reports separation.", "anchors": ["ibl/ibl_method.py:IBLMethod.set_velocity", "ibl/ibl_method.py:IBLMethod.solve", "ibl/thwaites_method.py:ThwaitesMethod._ode_impl", "ibl/head_method.py:HeadMethod._ode_impl"]}
{"id": "C100", "title": "Tables in other units or from another origin describe the same flow", "statement": "An object that is given a table of velocities, or of slopes with a start value, and an object that is given the same table in other units of length and velocity report the same u_e, du_e and d2u_e in their units at every location. Moving all locations of a table by the same distance moves the reported functions by this distance.", "quantifier": "For all tables, all positive scale factors, all distances, all locations.", "why_tests_cant": "The interpolant of a table is not a linear function of its values, so its invariance cannot be concluded from some tables.", "anchors": ["ibl/ibl_method.py:IBLMethod.set_velocity", "ibl/ibl_method.py:IBLMethod.u_e", "ibl/ibl_method.py:IBLMethod.du_e", "ibl/ibl_method.py:IBLMethod.d2u_e"]}
{"id": "C101", "title": "Tables of a linear velocity are reproduced exactly", "statement": "After set_velocity with a table of points on a straight line u_e, du_e and d2u_e return the values, the slope and the (zero) curvature of this line at every location, also outside the table, however the points are spaced.", "quantifier": "For all lines, all tables of at least two points on them, all locations.", "why_tests_cant": "All spacings and all locations; tests use a few.", "anchors": ["ibl/ibl_method.py:IBLMethod.set_velocity", "ibl/ibl_method.py:IBLMethod.u_e", "ibl/ibl_method.py:IBLMethod.du_e", "ibl/ibl_method.py:IBLMethod.d2u_e"]}
{"id": "C102", "title": "The surfaces of an XFoil dump can be used as velocity tables", "statement": "A dump with increasing arc length, positive velocities in the rows before the stagnation point and negative ones in the rows after it is read. For any positive reference velocity set with u_ref, the arrays s and u_e of either surface are accepted by set_velocity of any method object. Its u_e is then zero at zero arc length, where the straight line through the velocities of the two neighbouring rows is zero; it is the dumped speed times the reference velocity at the distance of every row from there; and it is nowhere negative on the surface. The equation of Thwaites' linear method and, with all built-in fits but White's, of the nonlinear method then has from every positive start value exactly one solution over the surface.", "quantifier": "For all dumps of this form, all positive reference velocities, both surfaces, all method objects, all start values.", "why_tests_cant": "Spans the dump reader, the interpolation and the method; tests treat these separately and on a few files.", "anchors": ["ibl/reference/_xfoil_reader.py:XFoilReader", "ibl/ibl_method.py:IBLMethod.set_velocity", "ibl/ibl_method.py:IBLMethod.u_e", "ibl/thwaites_method.py:ThwaitesMethod._ode_impl"]}
{"id": "C103", "title": "A thicker laminar layer stays thicker and does not separate later", "statement": "Two objects of the same Thwaites method with the same fits (any for the linear, any built-in ones for the nonlinear method) and the same viscosity hold solutions for the same flow. If delta_m of the first is positive and not larger than that of the second at the start, then so it is everywhere. Where the flow is decelerated and the fits signal separation (Spline, White, Cebeci-Bradshaw), the separation criterion is met in the thicker layer wherever it is met in the thinner one; a solve of the thinner layer does not report separation in a flow that is nowhere accelerated if the thicker layer is attached throughout.", "quantifier": "For all flows with u_e > -0.001 and bounded slope, all pairs of start values, all locations, all stepping of the integrator.", "why_tests_cant": "A comparison of all pairs of solutions; tests compare a few pairs at a few points.", "anchors": ["ibl/thwaites_method.py:ThwaitesMethod._ode_impl", "ibl/thwaites_method.py:ThwaitesMethod.delta_m", "ibl/thwaites_method.py:_ThwaitesSeparationEvent", "ibl/ibl_method.py:IBLMethod.solve"]}
{"id": "C104", "title": "A Stanford case can be handed to Head's method", "statement": "HeadMethod(nu=case.nu_ref, U_e=[case.x(), case.u_e()]) succeeds exactly if nu_ref is positive and the case has at least two stations at increasing locations, and raises ValueError otherwise. If the case was selected without error and the object was created, then delta_m and shape_d of the first station are accepted as initial values; u_e of the object is the tabulated velocity at every station and positive from the first to the last; solve from x()[0] to x()[-1] starts the integration from exactly these two values, watched by the separation event; and Head's equations have a solution with these initial values that goes on to the last station or to the place where its shape factor reaches any given higher level, such as the critical one.", "quantifier": "For all case files, all critical shape factors.", "why_tests_cant": "Spans the reader, the interpolation and the method; the example program tries one file.", "anchors": ["ibl/reference/_stanford_1968.py:StanfordOlympics1968", "ibl/head_method.py:HeadMethod", "ibl/head_method.py:HeadMethod._ode_impl", "ibl/ibl_method.py:IBLMethod.set_velocity", "ibl/ibl_method.py:IBLMethod.solve"]}
{"id": "C105", "title": "Similarity quantities on an array are those at its points", "statement": "For Blasius and Falkner-Skan objects u_e, v_e, delta_d, delta_m, delta_k, delta_s, shape_d, shape_k, tau_w and dissipation on an array of locations return exactly the values returned for the single locations, and raise exactly if these raise. So do eta, u and v on two arrays of the same length, and on one array and one number; two arrays of different lengths, none of them 1, are refused. (False of the code for arrays that contain the origin: there the number raises and the array does not.)", "quantifier": "For all objects in all states, all non-empty arrays; in any arithmetic.", "why_tests_cant": "All arrays, all object states and all exceptions; tests compare some arrays with reference values.", "anchors": ["ibl/analytic/_analytic_2d_base.py:Analytic2dSimilarityIncompressible.u_e", "ibl/analytic/_analytic_2d_base.py:Analytic2dSimilarityIncompressible.v_e", "ibl/analytic/_analytic_2d_base.py:Analytic2dSimilarityIncompressible.eta", "ibl/analytic/_analytic_2d_base.py:Analytic2dSimilarityIncompressible.u", "ibl/analytic/_analytic_2d_base.py:Analytic2dSimilarityIncompressible.v", "ibl/analytic/_analytic_2d_base.py:Analytic2dSimilarityIncompressible.delta_d", "ibl/analytic/_analytic_2d_base.py:Analytic2dSimilarityIncompressible.tau_w", "ibl/analytic/_analytic_2d_base.py:Analytic2dSimilarityIncompressible.dissipation", "ibl/analytic/_falkner_skan.py:FalknerSkan._g", "ibl/analytic/_blasius.py:Blasius._g"]}
{"id": "C106", "title": "From a stagnation point Thwaites' parameter does not grow", "statement": "In a flow whose velocity slope nowhere increases, a laminar layer started from FalknerSkanStagCondition(du_e(x0), nu) satisfies delta_m(x)^2 du_e(x) <= 0.08547 nu (the stagnation value) at every x, so the data fits are never evaluated beyond the upper end of their range. More generally no level from 0.085 to 0.1 (linear method: from 0.075 on) is crossed upwards.", "quantifier": "For all such flows, all viscosities, both Thwaites methods, all built-in fits, all locations.", "why_tests_cant": "A bound over all flows and locations; tests run single flows, mostly with one set of fits.", "anchors": ["ibl/thwaites_method.py:ThwaitesMethod._ode_impl", "ibl/thwaites_method.py:ThwaitesMethodNonlinear._calc_f", "ibl/thwaites_method.py:ThwaitesMethodLinear._calc_f", "ibl/thwaites_method.py:_ThwaitesFunctions._check_range", "ibl/initial_condition.py:FalknerSkanStagCondition.delta_m"]}
{"id": "C107", "title": "A solve depends on the settings in force only", "statement": "As long as no term_event is given, the outcome of solve() and the object afterwards do not depend on earlier solves (successful, failed or raising), nor on the order in which viscosity, velocity, initial condition and closure were set; repeating a solve gives the same outcome again.", "quantifier": "For all objects, all pairs of histories of set-up calls and solves that contain the same calls for each setting in the same order; every deterministic integrator; in any arithmetic.", "why_tests_cant": "A relation between arbitrary histories; tests use one order and mostly one solve per object.", "anchors": ["ibl/ibl_method.py:IBLMethod.solve", "ibl/ibl_method.py:IBLMethod.set_velocity", "ibl/ibl_method.py:IBLMethod.set_initial_condition", "ibl/thwaites_method.py:ThwaitesMethod.set_data_fits", "ibl/head_method.py:HeadMethod.set_shape_d_critical"]}
{"id": "C108", "title": "A similarity object without a solution answers no query about it", "statement": "When set_solution_parameters has raised because the final integration failed, the object has no profile: f, f_p and f_pp raise ValueError, u and v raise, and so does every other query about the solution (thicknesses, shape factors, v_e, wall shear stress, dissipation). A computation that returns normally leaves a profile.", "quantifier": "For all objects and histories, all supplied parameters, every behaviour of the integrator, quadrature and root finder; in any arithmetic.", "why_tests_cant": "The state is reached only through an integrator failure, which no test provokes; the claim is about every query after it.", "anchors": ["ibl/analytic/_analytic_2d_base.py:Analytic2dSimilarityIncompressible.set_solution_parameters", "ibl/analytic/_analytic_2d_base.py:Analytic2dSimilarityIncompressible.f_pp", "ibl/analytic/_analytic_2d_base.py:Analytic2dSimilarityIncompressible.f_p", "ibl/analytic/_analytic_2d_base.py:Analytic2dSimilarityIncompressible.delta_d"]}
{"id": "C109", "title": "The initial values that can be read are those a solve starts from", "statement": "initial_delta_m and, for Head's method, initial_shape_d read before solve() give the momentum thickness and shape factor that the integration starts from; read after it they give those it started from; an accepted initial_shape_d is read back.", "quantifier": "every object, every initial condition, every history of calls", "why_tests_cant": "The initial condition is changed by solve() itself, and its answers depend on which condition object is installed.", "anchors": ["ibl/thwaites_method.py:ThwaitesMethod.initial_delta_m", "ibl/head_method.py:HeadMethod.initial_delta_m", "ibl/head_method.py:HeadMethod.initial_shape_d", "ibl/ibl_method.py:IBLMethod.solve", "ibl/initial_condition.py:FalknerSkanStagCondition.delta_m"]}
{"id": "C110", "title": "A velocity table is refused unless it is finite and increasing, and then answers finite numbers", "statement": "Giving [x, u_e] as a table of velocities is accepted exactly if all entries are finite numbers, there are at least two points and the locations increase; otherwise ValueError is raised and the object is unchanged. With an accepted table u_e and its slope are finite at every finite location and NaN at a NaN location, and u_e has the value of the monotone interpolant.", "quantifier": "every table of extended numbers (finite, infinite, NaN), every object", "why_tests_cant": "The tables with NaN and infinite entries and the locations asked for are an infinite set, and a NaN that gets in is seen only in later answers.", "anchors": ["ibl/ibl_method.py:IBLMethod.set_velocity", "ibl/ibl_method.py:IBLMethod.u_e", "ibl/ibl_method.py:IBLMethod.du_e"]}
{"id": "C111", "title": "Head's method can be started from an XFoil dump", "statement": "A clean dump (C102) with a boundary layer next to the stagnation point is read; HeadMethod(nu, U_e=[s, u_e]) succeeds for either surface and any positive viscosity and reference velocity; the first entries of delta_m and shape_d of that surface are positive, lie between those of the two rows next to the stagnation point, and are accepted as initial_delta_m and initial_shape_d; solve() starts the integration from exactly them; and the equation it integrates has a solution from there that goes on to the end of the range or to the place where its shape factor reaches any given higher level, such as the critical one.", "quantifier": "every dump file of this kind, both surfaces, every viscosity, reference velocity and critical shape factor", "why_tests_cant": "The tests read one dump and never pass it on to a method; the files, viscosities and end locations are infinitely many.", "anchors": ["ibl/reference/_xfoil_reader.py:XFoilReader.delta_m_upper", "ibl/reference/_xfoil_reader.py:XFoilReader.shape_d_lower", "ibl/head_method.py:HeadMethod.__init__", "ibl/head_method.py:HeadMethod.initial_shape_d", "ibl/ibl_method.py:IBLMethod.solve"]}
{"id": "C112", "title": "A layer can be started at the stagnation point of a velocity table", "statement": "For a table of velocities [x, u_e] that begins with zero and is positive from there on (as each surface of an XFoil dump is), du_e at the first location is positive, so that a solve() from there with FalknerSkanStagCondition starts from the stagnation point similarity solution for that slope.", "quantifier": "every such table, every method object with a stagnation condition", "why_tests_cant": "Depends on the end slope the interpolator chooses for every table.", "anchors": ["ibl/ibl_method.py:IBLMethod.set_velocity", "ibl/ibl_method.py:IBLMethod.du_e", "ibl/ibl_method.py:IBLMethod.solve", "ibl/initial_condition.py:FalknerSkanStagCondition.delta_m"]}
{"id": "C113", "title": "The linear Thwaites method keeps the similarity solution of a wedge flow", "statement": "For u_e = U x^p with -1/5 < p <= 1, a layer of the linear method that has the thickness of Thwaites' similarity solution, delta_m^2 = 0.45 nu x/((5 p + 1) u_e), at the start has it at every x. For p > -0.1 no separation is reported (fits with separation at lambda = -0.09).", "quantifier": "all exponents in the range, all U, viscosities, intervals of positive x, every way of stepping that follows the solution", "why_tests_cant": "A continuum of exponents and locations; the equation integrated is not quite Thwaites' one.", "anchors": ["ibl/thwaites_method.py:ThwaitesMethodLinear", "ibl/thwaites_method.py:ThwaitesMethod._ode_impl", "ibl/thwaites_method.py:ThwaitesMethod.delta_m", "ibl/ibl_method.py:IBLMethod.solve"]}
{"id": "C114", "title": "In a flow that is nowhere accelerated the layer grows", "statement": "If du_e <= 0 on the range, then along any exact solution of either Thwaites method (linear with any fits, nonlinear with any built-in fits, u_e > -0.001) or of Head's method that starts with a positive momentum thickness, the reported delta_m at a location is larger than at every location upstream of it.", "quantifier": "every decelerated or constant edge velocity, every start value, every pair of locations, all three methods", "why_tests_cant": "Growth at sampled points of sampled flows says nothing about other flows; the claim is about every pair of points of every decelerated flow.", "anchors": ["ibl/thwaites_method.py:ThwaitesMethodLinear._calc_f", "ibl/thwaites_method.py:ThwaitesMethodNonlinear._calc_f", "ibl/thwaites_method.py:ThwaitesMethod._ode_impl", "ibl/thwaites_method.py:ThwaitesMethod.delta_m", "ibl/head_method.py:HeadMethod._ode_impl", "ibl/head_method.py:HeadMethod.delta_m"]}
{"id": "C115", "title": "In a flow whose deceleration does not weaken a laminar layer separates once and no step size misses it", "statement": "If du_e <= 0 and du_e does not increase with x, then with any built-in fits, along any exact solution of either Thwaites method: downstream the shape factor is not smaller, the displacement thickness is larger, the wall shear stress (as long as it is not negative, rho >= 0, u_e >= 0) does not rise and the value of the separation criterion does not rise. Hence a solve that starts attached and follows the solution to the end reports SEPARATED exactly if the criterion is met at the end point, and solves with different steps report the same.", "quantifier": "every such flow, both Thwaites methods, every built-in fit, every choice of steps and root finder", "why_tests_cant": "Whether a step can jump over a separated region cannot be excluded by running particular step sizes.", "anchors": ["ibl/thwaites_method.py:_ThwaitesSeparationEvent._call_impl", "ibl/thwaites_method.py:ThwaitesMethod.shape_d", "ibl/thwaites_method.py:ThwaitesMethod.delta_d", "ibl/thwaites_method.py:ThwaitesMethod.tau_w", "ibl/ibl_method.py:IBLMethod.solve"]}
{"id": "C116", "title": "Friction drag is the momentum lost", "statement": "The integral of the reported wall shear over a length of the surface equals rho (u_e^2 delta_m) at its end minus that at its start plus the integral of rho delta_d u_e du_e; on a flat plate it is rho U^2 times the growth of the reported delta_m.", "quantifier": "every solution of Head's method with a continuous velocity slope and no safeguard active; every flat plate solution of both Thwaites methods", "why_tests_cant": "An equality of an integral over a continuum with end values for every flow is not a finite check.", "anchors": ["ibl/head_method.py:HeadMethod.tau_w", "ibl/head_method.py:HeadMethod.delta_m", "ibl/head_method.py:HeadMethod._ode_impl", "ibl/thwaites_method.py:ThwaitesMethod.tau_w", "ibl/thwaites_method.py:ThwaitesMethod.delta_m", "ibl/thwaites_method.py:ThwaitesMethod._ode_impl"]}
{"id": "C117", "title": "A printed integration result can be told from every other", "statement": "str(result) consists of a title line and one line each for x_end, f_end, status, message and success. Two results that are printed alike have the same status, message and success flag, and end locations and states that are printed alike, whatever text the message contains.", "quantifier": "every pair of results, every message, every formatting of numbers that stays on one line", "why_tests_cant": "Injectivity over all message texts (which come from user events and scipy) is not a finite check.", "anchors": ["ibl/ibl_method.py:IntegrationResult.__str__", "ibl/ibl_method.py:TermReason.__str__", "ibl/ibl_method.py:IntegrationResult"]}
{"id": "C118", "title": "A laminar layer that keeps being decelerated separates within a known distance", "statement": "If du_e <= 0, then along any exact solution of either Thwaites method (linear with any fits, nonlinear with any built-in fits) delta_m^2 gains at least 3/8 nu (x - a)/(u_e(a) + 0.001) from a to x. If du_e <= -k < 0 on the range and the fits signal separation (the Spline, White and Cebeci-Bradshaw fits), the separation criterion is met at every x at least 4/15 (u_e(a) + 0.001)/k downstream of the start a, so that a solve that starts attached and would step beyond that distance reports SEPARATED. With Drela's fits no solve in a flow that is nowhere accelerated reports separation.", "quantifier": "every such flow, start value, viscosity, both Thwaites methods, every choice of steps and root finder", "why_tests_cant": "A bound on the distance for every decelerated flow cannot be had from runs of particular flows.", "anchors": ["ibl/thwaites_method.py:_ThwaitesSeparationEvent._call_impl", "ibl/thwaites_method.py:ThwaitesMethodLinear._calc_f", "ibl/thwaites_method.py:ThwaitesMethodNonlinear._calc_f", "ibl/thwaites_method.py:ThwaitesMethod._ode_impl", "ibl/thwaites_method.py:ThwaitesMethod.delta_m", "ibl/ibl_method.py:IBLMethod.solve"]}
{"id": "C119", "title": "The velocity from a table of samples is second order accurate", "statement": "set_velocity with a table of samples of a velocity f (slope f', changing by at most B per unit length) at abscissae at most d apart is accepted, and in the range of the table |u_e - f| <= 5 B d^2 and |du_e - f'| <= 5 B d, also at extrema, in flat parts and at both ends. So velocity and slope from ever finer tables of equidistant samples converge uniformly.", "quantifier": "every such velocity, every table of its samples, equidistant or not, of any length", "why_tests_cant": "The error at sampled locations of sampled tables bounds nothing; the limiter acts differently from table to table.", "anchors": ["ibl/ibl_method.py:IBLMethod.set_velocity", "ibl/ibl_method.py:IBLMethod.u_e", "ibl/ibl_method.py:IBLMethod.du_e"]}
{"id": "C120", "title": "The laminar momentum thickness from a table of samples is second order accurate", "statement": "Two layers of the linear Thwaites method with equal viscosity that start with the same momentum thickness in flows whose velocities differ by at most e (w <= u_e + 0.001 <= W in both) have momentum thicknesses d1, d2 at x with w^6 |d1^2 - d2^2| <= W^4 (6 W (d0^2 + d2^2) + 9/4 nu (x - a)) e. In particular the layer on a table of samples of a velocity differs from that of the velocity itself by a multiple of the square of the sample distance.", "quantifier": "every pair of such flows and solutions, every smooth velocity and every table of its samples within which u_e > -0.001", "why_tests_cant": "Convergence of the result of an integration for every velocity is not a finite check.", "anchors": ["ibl/ibl_method.py:IBLMethod.set_velocity", "ibl/thwaites_method.py:ThwaitesMethodLinear._calc_f", "ibl/thwaites_method.py:ThwaitesMethod._ode_impl", "ibl/thwaites_method.py:ThwaitesMethod.delta_m"]}
{"id": "C121", "title": "Head's layer goes on until it reaches a given shape factor or the flow ends", "statement": "From every positive momentum thickness and every shape factor below H the differential equation a Head object hands to the integrator has a solution, with positive momentum thickness, that ends where the given range ends or where its shape factor reaches H, and nowhere before. With H the critical shape factor: up to separation nothing else can stop the layer. On a flat plate (constant velocity) from a Reynolds number of the momentum thickness of at least 1 it lasts to the end of every range, and its shape factor never exceeds the larger of the first one and 2.", "quantifier": "every flow with continuous velocity gradient (of either sign, also where u_e is small or negative), every viscosity, range, start value and level H", "why_tests_cant": "A run shows that one approximation was continued; that no exact layer ever breaks down before separation is a statement about all flows.", "anchors": ["ibl/head_method.py:HeadMethod._ode_impl", "ibl/head_method.py:HeadMethod._shape_entrainment", "ibl/head_method.py:HeadMethod._shape_entrainment_p", "ibl/head_method.py:_HeadSeparationEvent._call_impl"]}
{"id": "C122", "title": "A turbulent layer that keeps being decelerated separates before its velocity has fallen to a quarter", "statement": "Where -delta_m(a) du_e >= u_e/100 and u_e >= 0.001 all along, shape_d of every solution of Head's equation increases strictly, and two solutions with the same start agree. From a starting shape factor of at least 1.3 no solution reaches a place where u_e has fallen to a quarter of its value at the start. So, if u_e does fall that far, there is a solution from every such start that meets the separation criterion for any critical shape factor above the first one at a place before that, and nowhere before it.", "quantifier": "every such flow, viscosity, start value and critical shape factor", "why_tests_cant": "A bound for every decelerated flow cannot be had from runs of particular flows.", "anchors": ["ibl/head_method.py:HeadMethod._ode_impl", "ibl/head_method.py:HeadMethod._shape_entrainment", "ibl/head_method.py:HeadMethod._shape_entrainment_p", "ibl/head_method.py:_HeadSeparationEvent._call_impl", "ibl/head_method.py:HeadMethod.shape_d"]}
{"id": "C123", "title": "An XFoil dump and its mirror image give the same surfaces, exchanged", "statement": "When the rows of one dump are those of another in the opposite order and mirrored (arc length from the other end, y, the edge velocity along the contour and with it mass and kinetic energy defect with the opposite sign), both are read, and for the same u_ref every array of the upper surface of one equals that array of the lower surface of the other, except that y has the opposite sign. A dump that is its own mirror image has equal upper and lower surfaces.", "quantifier": "all dumps with positive velocities before and negative velocities after the stagnation point and increasing arc length; all positive u_ref", "why_tests_cant": "The stagnation point is interpolated with different formulas for the two neighbours, and the two surfaces are read, reversed, negated and shifted by different code; a test compares one file.", "anchors": ["ibl/reference/_xfoil_reader.py:XFoilReader.filename", "ibl/reference/_xfoil_reader.py:XFoilReader._interpolate_aifoil_data", "ibl/reference/_xfoil_reader.py:XFoilReader.s_upper", "ibl/reference/_xfoil_reader.py:XFoilReader.s_lower"]}
{"id": "C124", "title": "Similarity solutions do not depend on the units", "statement": "A Blasius or Falkner-Skan object made with the same wedge and solution parameters from reference values in other units of length and velocity exists exactly if the original one does (otherwise the same exception), and its answers are the original ones in these units: u_e, v_e, u and v in the unit of velocity, the four thicknesses in the unit of length, eta and the shape factors unchanged, tau_w and dissipation in the units of rho u^2 and rho u^3. The same after the reference values of an existing object are set to those in other units.", "quantifier": "all wedge parameters below 2, reference values, solution parameters, behaviours of the scipy tools, positive unit factors, positions x > 0 and all y, rho", "why_tests_cant": "u_ref has a unit that depends on the wedge parameter; a test checks a few combinations.", "anchors": ["ibl/analytic/_analytic_2d_base.py:Analytic2dSimilarityIncompressible.u_e", "ibl/analytic/_analytic_2d_base.py:Analytic2dSimilarityIncompressible.u", "ibl/analytic/_analytic_2d_base.py:Analytic2dSimilarityIncompressible.v", "ibl/analytic/_analytic_2d_base.py:Analytic2dSimilarityIncompressible.tau_w", "ibl/analytic/_analytic_2d_base.py:Analytic2dSimilarityIncompressible.dissipation", "ibl/analytic/_falkner_skan.py:FalknerSkan.__init__", "ibl/analytic/_blasius.py:Blasius.__init__"]}
{"id": "C125", "title": "Head's method depends continuously on its start values and on the integrator's residual, also through the jump of the closure at a shape factor of 1.6", "statement": "For a viscosity and bounds on velocity, slope, momentum thickness (from below as well) and shape factor there is a rate M such that two layers of HeadMethod in the same flow, which satisfy the equation handed to the integrator up to residuals e1 and e2 (except in finitely many places), differ at x by at most (difference of the start values + (e1 + e2)(x - x_start)) exp(M (x - x_start)), as long as both shape factors are on the same side of 1.6. If the flow slows down persistently (-delta_m u_e' >= u_e/100 for the least momentum thickness) and the residuals are small, the same holds with a constant factor also when the shape factors pass 1.6, where the closure relation jumps; the reported momentum thicknesses and shape factors and the places of separation of two calculations then differ at most by a constant times the difference of their start values.", "quantifier": "for all velocities with the stated bounds, all pairs of start values and residuals; the constants depend on the bounds only", "why_tests_cant": "A test compares two particular runs; a bound with constants that do not depend on the runs, valid although the right hand side is discontinuous, is a statement about all pairs of solutions.", "anchors": ["ibl/head_method.py:HeadMethod._ode_impl", "ibl/head_method.py:HeadMethod.delta_m", "ibl/head_method.py:HeadMethod.shape_d"]}
{"id": "C126", "title": "Numbers in the data files are read exactly as they are printed, and misprinted columns are found out", "statement": "float(word), as the readers use it, gives the number q exactly if the word is a decimal numeral (sign, digits with a point, exponent) for q. A dump whose rows are printed as decimal numerals, with any blanks between them, is read by XFoilReader row by row as exactly these numbers, and its arrays of arc length and edge velocity follow from the printed numbers by the definition of the stagnation point; likewise the rows of a Stanford station. Columns that run together, a column of asterisks or a wrong number of columns raise ValueError instead of giving wrong numbers; the word NaN however is read as a number that is not one.", "quantifier": "for all words, rows and files", "why_tests_cant": "Tests read a handful of files; that no text is misread needs the grammar of numerals and the reader together.", "anchors": ["ibl/reference/_xfoil_data.py:XFoilAirfoilData.reset", "ibl/reference/_xfoil_data.py:XFoilWakeData.reset", "ibl/reference/_xfoil_reader.py:XFoilReader.filename", "ibl/reference/_stanford_1968_station.py:StanfordOlympics1968StationData.reset"]}
{"id": "C127", "title": "A tabulated velocity in floating point is the exact one up to a few hundred rounding errors", "statement": "With set_velocity((x, u_e)) executed in floating point, a table is accepted exactly if it has at least two points and its abscissae increase, no matter how closely they lie; otherwise ValueError is raised and nothing changes. Afterwards u_e(x) returns exactly the tabulated value at every point of the table but the last one. Between two neighbouring points (including the last one) u_e(x) differs from the monotone interpolant of exact arithmetic by at most 500 unit roundoffs of the sum of the magnitudes of the two tabulated velocities, and du_e(x) by at most 1050 unit roundoffs of the magnitude of the slope of the line between them, independently of the other points of the table. In particular u_e leaves the range of the two tabulated values by rounding errors only.", "quantifier": "all tables of representable numbers, all locations within the table, all roundings of relative error at most 1/1000 (binary arithmetic with at least ten digits)", "why_tests_cant": "the number of tables and locations is astronomical and errors may grow for unequal spacing, steep neighbours or cancellation in the end slopes; tests sample a few smooth tables", "anchors": ["ibl/ibl_method.py:IBLMethod.set_velocity", "ibl/ibl_method.py:IBLMethod.u_e", "ibl/ibl_method.py:IBLMethod.du_e"]}
{"id": "C128", "title": "solve always comes to an end", "statement": "A call of solve always ends: scipy's RK45, which it uses, takes finitely many steps for every problem (a bound is the length of the interval over ten times the smallest spacing of floats, plus two), whatever the right hand side does. If the edge velocity is defined everywhere and the events return numbers, solve returns a result and raises nothing once the initial condition could be evaluated. Each accepted step goes forward inside the interval, is a step of the method of Dormand and Prince whose error estimate meets the tolerances, and its interpolant is the quartic that belongs to that method and matches both ends; the end of the interval is reported as reached exactly if the last step ends there.", "quantifier": "all objects, flows, start values, intervals, events; all spacings of the numbers bounded below by a positive number", "why_tests_cant": "tests can only time out; the number of rejected and accepted steps has no bound that a test could exhaust", "anchors": ["ibl/ibl_method.py:IBLMethod.solve", "ibl/ibl_method.py:IBLMethod._ode_setup"]}
{"id": "C129", "title": "flat plate and stagnation flow are solved exactly", "statement": "On a flat plate (constant edge velocity) solve of either Thwaites method reaches the end of the interval, and delta_m, shape_d and tau_w afterwards are exactly those of the closed-form solution at every position from the start on, up to nothing but floating point rounding: the square of delta_m is the start value squared plus 0.45 nu x / (u_e + 0.001) (nonlinear: twice the wall shear at lambda = 0 instead of 0.45). In stagnation flow (constant velocity gradient k) the linear method started with delta_m = sqrt(0.075 nu / k) reports that value everywhere. This does not depend on tolerances or on the steps the integrator takes.", "quantifier": "all velocities above -0.001, start thicknesses, viscosities, intervals, fits with positive wall shear, spacings of the numbers", "why_tests_cant": "a test sees one flow and has to allow for the integrator's tolerance; here integrator and dense output are part of the model", "anchors": ["ibl/ibl_method.py:IBLMethod.solve", "ibl/thwaites_method.py:ThwaitesMethod._ode_impl", "ibl/thwaites_method.py:ThwaitesMethod.delta_m"]}
{"id": "C130", "title": "solving over an empty interval gives the initial condition", "statement": "solve(x0, x0) succeeds, reports that the end was reached at x0 with the state of the initial condition, and afterwards the solution is that state at every position, provided the right hand side can be evaluated at x0 and no event is exactly zero there.", "quantifier": "all methods, objects, initial conditions, events and root finders", "why_tests_cant": "the corner case goes through event handling, dense output and the evaluation of the result; a test covers one object", "anchors": ["ibl/ibl_method.py:IBLMethod.solve"]}
{"id": "C131", "title": "Linear Thwaites with RK45 is accurate to fifth order in the step", "statement": "After every successful solve() of the linear Thwaites method the momentum thickness reported between the start and x_end differs from Thwaites' integral (evaluated exactly) by at most C h^5, where h bounds the steps the integrator took and C depends on the flow, the interval, the viscosity and the start thickness only; not on the termination event, the root finder or the spacing of floating-point numbers.", "quantifier": "every flow six times continuously differentiable with u_e > -0.001, every interval, every start thickness > 0, every termination event, every run of the integrator", "why_tests_cant": "Runs compare against one flow with one tolerance; that the combination of equation, coefficients of the method, step control and interpolant has this order for every smooth flow is a statement about all step sequences.", "anchors": ["ibl/thwaites_method.py:ThwaitesMethodLinear._calc_f", "ibl/thwaites_method.py:ThwaitesMethod._ode_impl", "ibl/ibl_method.py:IBLMethod.solve", "ibl/thwaites_method.py:ThwaitesMethod.delta_m"]}
{"id": "C132", "title": "Laminar layers scale with the square root of the viscosity", "statement": "With k times the viscosity and an initial condition sqrt(k) times as thick (the stagnation condition is by itself) every call on an object of a Thwaites method returns or raises the same: in particular solve() gives the same x_end, f_end, status and message. Afterwards shape_d and the separation criterion are the same everywhere; delta_m, delta_d, tau_w and v_e are sqrt(k) times as large.", "quantifier": "every k > 0, every flow, fits, initial condition and integrator, every history of calls, every location", "why_tests_cant": "That a Reynolds number does not move the separation point of a laminar layer is what users rely on when they run one viscosity only; tests compare at most two.", "anchors": ["ibl/thwaites_method.py:ThwaitesMethod._ode_setup", "ibl/thwaites_method.py:ThwaitesMethod._ode_impl", "ibl/thwaites_method.py:ThwaitesMethod.delta_m", "ibl/thwaites_method.py:ThwaitesMethod.tau_w", "ibl/thwaites_method.py:ThwaitesMethod.v_e", "ibl/ibl_method.py:IBLMethod.solve", "ibl/initial_condition.py:FalknerSkanStagCondition.delta_m"]}
{"id": "C133", "title": "How accurate the reported separation point is", "statement": "In a smooth flow whose deceleration does not weaken, with the linear Thwaites method: if the exact layer separates at xs, a successful solve() reports SEPARATED not earlier than C h^5 before xs and not later than one step and C h^5 behind it, or reaches the end of an interval that ends less than C h^5 behind xs. With the Cebeci-Bradshaw functions, whose wall shear is negative beyond separation, x_end of a separated run is within C h^5 of xs. A layer that stays attached is reported as separated only if lambda at the end is within C h^5 of the critical value. h bounds the steps of the integrator; C does not depend on the run.", "quantifier": "every flow six times continuously differentiable with u_e > -0.001, du_e/dx <= 0 and not rising; White, Spline and Cebeci-Bradshaw functions, or any others whose wall shear is continuous and positive exactly above a critical lambda; every start thickness, interval, run of the integrator and root finder that meets brentq's contract", "why_tests_cant": "The reported separation point is the result most users want; tests can compare it with tabulated values for a few flows but not bound its error for all, and the two-sided distinction between fits whose shear stays at zero and fits whose shear changes sign does not show in examples.", "anchors": ["ibl/ibl_method.py:IBLMethod.solve", "ibl/thwaites_method.py:_ThwaitesSeparationEvent._call_impl", "ibl/thwaites_method.py:ThwaitesMethod._ode_impl", "ibl/thwaites_method.py:_ThwaitesFunctionsCebeciBradshaw", "ibl/thwaites_method.py:_ThwaitesFunctionsWhite"]}
{"id": "C134", "title": "When the integrator gives up", "statement": "A run of scipy's RK45 downstream ends unsuccessfully only at a point from which a step shorter than fifty spacings of floating-point numbers misses the tolerances. With Thwaites' methods (the nonlinear one with the Spline or Cebeci-Bradshaw functions, whose values are bounded) in a flow whose velocity plus 0.001 is bounded away from zero and whose gradient is bounded on the interval, there is a spacing g, depending on flow, interval and start only, such that with numbers spaced by no more than g every solve() that returns has success set: it reached the end of the interval, or was ended by an event whose status is reported. The number of steps of such a run is bounded by a number that does not depend on the spacing of floating-point numbers.", "quantifier": "every problem and spacing of numbers; for Thwaites every flow with these bounds (also discontinuous), every interval, viscosity, initial condition, termination event and root finder", "why_tests_cant": "solve() reports success=False when the step size control fails; whether this can happen in a benign flow depends on all step sequences the control can produce.", "anchors": ["ibl/ibl_method.py:IBLMethod.solve", "ibl/thwaites_method.py:ThwaitesMethod._ode_impl", "ibl/thwaites_method.py:ThwaitesMethodNonlinear._calc_f"]}
{"id": "C135", "title": "Results converge to the exact solution of the equation as the steps get shorter", "statement": "Thwaites' methods (the nonlinear one with any built-in functions, with White's along layers that stay above lambda = -0.09) in a flow whose velocity gradient is Lipschitz continuous and u_e > -0.001, in particular in every flow given as a table of non-negative velocities: there is a constant C such that after a successful solve() over any part of the interval, none of whose steps is longer than h with C h <= 1, delta_m(x) is within C h of the exact momentum thickness for every x from the start to x_end; if solve() is asked to go beyond the interval, for every x at least h before the end of the interval. The same holds for delta_m and shape_d of Head's method along a solution whose shape factor stays on one side of 1.6. If C times the spacing of floating-point numbers does not exceed the absolute tolerance 1e-11, solve() is successful: it reaches the end or is ended by an event. For any equation: RK45 converges along every solution with slope of bounded change near which the right hand side is Lipschitz continuous.", "quantifier": "every such flow and table, viscosity, interval, start value, termination event, sequence of steps and rejections of the integrator, spacing of numbers and root finder", "why_tests_cant": "Convergence is a statement about all step sequences and all flows at once; and since the tabulated velocity has no second derivative at the points of the table, textbook orders, which tests could check on smooth examples, do not apply there.", "anchors": ["ibl/ibl_method.py:IBLMethod.solve", "ibl/thwaites_method.py:ThwaitesMethod._ode_impl", "ibl/thwaites_method.py:ThwaitesMethod.delta_m", "ibl/thwaites_method.py:ThwaitesMethodNonlinear._calc_f", "ibl/head_method.py:HeadMethod._ode_impl", "ibl/head_method.py:HeadMethod.delta_m", "ibl/head_method.py:HeadMethod.shape_d"]}
{"id": "C136", "title": "The reported separation point converges to that of the exact layer", "statement": "Where the exact layer meets the separation criterion of the method at xs (attached before, beyond the criterion for some way behind), for every eps there is a bound on the steps of the integrator such that every successful solve() with such steps reports SEPARATED if the interval goes on for eps behind xs, REACHED_END if it ends eps before xs, and never an x_end of a separated layer more than eps away from xs. If the exact layer stays attached, REACHED_END is reported once the steps are short enough. If the spacing of floating-point numbers is below the bound too, solve() is successful. This holds for Thwaites' methods (the linear one with any data fit with a critical lambda, the nonlinear one with Cebeci-Bradshaw or Spline, and with White's functions for layers that stay attached), also for velocities given as a table, and for Head's method along layers whose shape factor stays on one side of 1.6.", "quantifier": "every flow with Lipschitz continuous velocity gradient and u_e > -0.001 (Head: any velocity), every table of non-negative velocities, viscosity, interval, start value, sequence of steps and rejections of the integrator, spacing of numbers and root finder that returns a point of its bracket", "why_tests_cant": "It is a limit statement over all flows and step sequences. An event between two accepted points can be missed, so agreement in examples does not exclude that separation is overlooked or invented elsewhere.", "anchors": ["ibl/ibl_method.py:IBLMethod.solve", "ibl/thwaites_method.py:_ThwaitesSeparationEvent._call_impl", "ibl/thwaites_method.py:ThwaitesMethod._ode_impl", "ibl/head_method.py:_HeadSeparationEvent._call_impl", "ibl/head_method.py:HeadMethod._ode_impl"]}
{"id": "C137", "title": "Head's method converges through the jump of its right hand side at shape factor 1.6", "statement": "Head's correlation for H1 jumps at the shape factor 1.6, so the right hand side of the equation is discontinuous there and so is the slope of the layer. Nevertheless, along every exact layer whose shape factor crosses 1.6 once, with a nonzero slope on either side, neither slope four times the other: delta_m and shape_d after solve() are within a constant times the longest step of the exact ones, the reported separation point converges to that of the exact layer, and so does the verdict that it stays attached. In persistently decelerated flow (u_e >= 0.001, -delta_m du_e >= u_e/100, u_e falling to a quarter), from a shape factor between 1.3 and 1.6 and for every critical value above 1.6, there is such a layer, it separates before u_e has fallen to a quarter, and solve() converges to it, whatever end solve() is asked to go to.", "quantifier": "every flow with Lipschitz continuous velocity gradient, viscosity, interval, start value, critical value above 1.6, sequence of steps and rejections of the integrator, spacing of numbers and root finder that returns a point of its bracket", "why_tests_cant": "Convergence theorems for integrators assume a continuous right hand side; the stages of a step across the jump mix both formulas, and whether the errors made there stay proportional to the step cannot be read off examples.", "anchors": ["ibl/head_method.py:HeadMethod._ode_impl", "ibl/head_method.py:HeadMethod._shape_entrainment", "ibl/head_method.py:HeadMethod._shape_entrainment_p", "ibl/ibl_method.py:IBLMethod.solve", "ibl/head_method.py:_HeadSeparationEvent._call_impl"]}
{"id": "C138", "title": "Events of derived classes act like events passed to solve, until the criterion is chosen anew", "statement": "A class derived from one of the methods adds events with _add_kill_event(ke). From then on solve(..., term_event=te) returns or raises what it would for an object without them when called with ke followed by te, and leaves the same object behind, except that the added events stay also if solve() raises before it integrates. Adding twice is adding both in order. set_data_fits (if it accepts its argument) and set_shape_d_critical drop them. The label get_name() of the fits in use is that of the name given to set_data_fits, Custom for a tuple of functions, different for different names, and unchanged if set_data_fits raises.", "quantifier": "every object, list of added events, term_event argument, integrator (as an arbitrary function), data fits argument; generic in the arithmetic", "why_tests_cant": "The library never calls _add_kill_event, so no test of its own classes exercises it; the statement is about all derived classes, all events and all integrators.", "anchors": ["ibl/ibl_method.py:IBLMethod._add_kill_event", "ibl/ibl_method.py:IBLMethod._set_kill_event", "ibl/ibl_method.py:IBLMethod.solve", "ibl/thwaites_method.py:_ThwaitesFunctions.get_name"]}
{"id": "C139", "title": "White's functions: solve() converges through separation, where the slope of the wall shear is infinite", "statement": "With White's functions in the nonlinear Thwaites method, the wall shear has infinite slope at separation (lambda = -0.09), so the right hand side of the equation is continuous but not Lipschitz continuous there. Nevertheless, along every positive exact layer, attached or not: for every eps there is a bound on the steps such that after a successful solve() delta_m(x) is within eps of the exact momentum thickness from the start to x_end, and the call does succeed if the numbers are dense enough. If lambda of the exact layer is above -0.09 before xs and below it behind, solve() asked to go beyond xs + eps reports SEPARATED within eps of xs, and solve() asked to end before xs - eps reports REACHED_END; if lambda stays above, REACHED_END is always reported. The same holds for the other built-in fits, with a velocity gradient that is only continuous. For tables of nonnegative velocities and White's functions the exact layer exists as far as its lambda stays below 0.3.", "quantifier": "every flow with continuous velocity gradient and u_e > -0.001, viscosity, interval, positive start value, sequence of steps and rejections of the integrator, spacing of numbers and root finder that returns a point of its bracket", "why_tests_cant": "The usual error bounds for RK45 need a Lipschitz constant, which does not exist at the point users ask for. A test compares a few runs with a finer run, which may be wrong in the same way.", "anchors": ["ibl/thwaites_method.py:ThwaitesMethodNonlinear._calc_f", "ibl/thwaites_method.py:_ThwaitesFunctionsWhite", "ibl/ibl_method.py:IBLMethod.solve", "ibl/thwaites_method.py:_ThwaitesSeparationEvent._call_impl"]}
{"id": "C140", "title": "Rounding errors of solve() add up at most proportionally to the number of steps", "statement": "Everything computed with rounding: velocities, right hand side, every operation of RK45, its dense output and the query. For the linear Thwaites method and a flow that is six times continuously differentiable there is a constant K, dependent on flow, interval, viscosity and start thickness only, such that after every successful solve() delta_m(x) lies within K (h^5 + n eps + d) of Thwaites' integral from the start to x_end, whatever termination event stopped the integration, if at most n steps, none longer than h, were taken up to there, every operation has a relative error of at most eps, and velocities and start thickness are given with an error of at most d (provided that bound is at most 1)..", "quantifier": "every flow with six continuous derivatives and u_e > -0.001, viscosity, start thickness, interval, arithmetic with rounding of relative error at most 1/1000, velocity functions, sequence of steps and rejections of the integrator, power function in the step size control, spacing of numbers, root finder that returns a point of its bracket, termination event and query point", "why_tests_cant": "Rounding errors of thousands of operations depend on every digit of the input. A test with a tolerance samples a few flows; that errors cannot be amplified beyond proportion to the number of steps is a statement about all of them.", "anchors": ["ibl/thwaites_method.py:ThwaitesMethodLinear._calc_f", "ibl/thwaites_method.py:ThwaitesMethod._ode_impl", "ibl/ibl_method.py:IBLMethod.solve", "ibl/thwaites_method.py:ThwaitesMethod.delta_m"]}
{"id": "C141", "title": "In floating point solve() ends, and x_end is exactly the end that was asked for", "statement": "With rounding in every operation: if the velocity functions and events return numbers and the root finder returns a point of its bracket, solve() with scipy's RK45 comes to an end and raises only what the preparation (initial condition, velocity at the start) raises. Accepted points go strictly forward, in either direction, and never past the end. The reported x_end lies between start and end; it equals the requested end to the last digit if no event stopped the integration, and equals the start, with status unknown, if the integration failed. The number of steps is at most the length of the interval divided by eight times the smallest distance of numbers, plus 2.", "quantifier": "every method, flow, initial condition, interval in either direction, list of events, arithmetic with rounding of relative error at most 1/1000 whose numbers near t are spaced by at least eps |t| and by at least a positive number, power function in the step size control that is at most 1 for rejected errors, root finder that returns a point of its bracket", "why_tests_cant": "A loop that shortens the step until the error is small, with a smallest step that depends on the spacing of numbers, could go on for ever for one flow in a million, or step past the end by one digit. Tests run a few flows; they cannot show that it never does.", "anchors": ["ibl/ibl_method.py:IBLMethod.solve", "ibl/ibl_method.py:IntegrationResult", "ibl/thwaites_method.py:ThwaitesMethod._ode_impl", "ibl/head_method.py:HeadMethod._ode_impl"]}
{"id": "C142", "title": "The drag of a similarity layer is the momentum lost since the leading edge", "statement": "For a Blasius or Falkner-Skan object that has a solution the reported wall shear, although it may be infinite at the leading edge, has an integral from there to any x: it equals rho*u_e^2*delta_m reported at x plus the integral of rho*delta_d*u_e*du_e/dx, and is (2-beta)/(1+beta) times x*tau_w(x); for a plate it is rho*u_ref^2*delta_m(x), twice x*tau_w(x). The integral of the reported dissipation equals rho*u_e^3*delta_k/2 at x, and is (2-beta)/(1+2*beta) times x times the dissipation at x.", "quantifier": "every object whose last request for a solution succeeded (for the dissipation: every object), every history of calls, every behaviour of the scipy tools, beta below 2, x > 0, rho", "why_tests_cant": "The integrand is singular at the leading edge and involves four reported quantities; a numerical check of one wedge to a tolerance says nothing about the others.", "anchors": ["ibl/analytic/_analytic_2d_base.py:Analytic2dSimilarityIncompressible.tau_w", "ibl/analytic/_analytic_2d_base.py:Analytic2dSimilarityIncompressible.delta_m", "ibl/analytic/_analytic_2d_base.py:Analytic2dSimilarityIncompressible.delta_d", "ibl/analytic/_analytic_2d_base.py:Analytic2dSimilarityIncompressible.delta_k", "ibl/analytic/_analytic_2d_base.py:Analytic2dSimilarityIncompressible.dissipation"]}
{"id": "C143", "title": "Similarity layers scale with the square root of the viscosity", "statement": "A Blasius or Falkner-Skan object for a fluid of k times the viscosity exists exactly if the original one does (otherwise the same exception), and reports the same u_e and shape factors; the four thicknesses, v_e, tau_w and dissipation are sqrt(k) times as large; u and eta at distance sqrt(k)*y are those at y, v there is sqrt(k) times that at y. The same after nu_ref of an existing object is set to k times its value.", "quantifier": "all k > 0, wedge parameters below 2, reference values, solution parameters, behaviours of the scipy tools, positions x > 0 and all y, rho", "why_tests_cant": "Reynolds number independence is used to compare with experiments at another scale; a test compares two viscosities, the property is about all.", "anchors": ["ibl/analytic/_analytic_2d_base.py:Analytic2dSimilarityIncompressible.nu_ref", "ibl/analytic/_falkner_skan.py:FalknerSkan._g", "ibl/analytic/_blasius.py:Blasius._g", "ibl/analytic/_analytic_2d_base.py:Analytic2dSimilarityIncompressible.tau_w"]}
{"id": "C144", "title": "Separation in floating point is decided by the computed numbers", "statement": "With the method's separation event alone and RK45 in rounded arithmetic, a solve that starts attached returns. It reports SEPARATED exactly if the computed criterion is not positive at some accepted point of the integration; all accepted points before the first such point are attached, and x_end lies between that point and the one before. Otherwise it reports Completed with x_end equal to the requested end to the last digit, or failure with x_end equal to the start. For Head's method the comparison is that of the shape factors themselves, H_d against the critical value: rounding the difference cannot change the outcome.", "quantifier": "every method object whose velocity functions return a number everywhere and whose only event is the separation criterion, every rounding with relative error at most 1/1000, both directions, every root finder that returns a point of its bracket", "why_tests_cant": "A test compares one separation point to a tolerance; whether rounding can make a solve miss separation at an accepted point, or report it where the shape factors do not, concerns all roundings and all step sequences.", "anchors": ["ibl/ibl_method.py:IBLMethod.solve", "ibl/head_method.py:_HeadSeparationEvent", "ibl/head_method.py:HeadMethod.set_shape_d_critical", "ibl/thwaites_method.py:_ThwaitesSeparationEvent"]}
{"id": "C145", "title": "Laminar separation in floating point", "statement": "Rounding neither hides nor invents laminar separation. With White's functions the computed wall shear is positive exactly where the computed pressure-gradient parameter exceeds the double -0.09, and a solve with RK45 that starts above it reports SEPARATED exactly if an accepted point is at or below that double; wherever the exact product of the computed state and velocity slope is at most -0.09 at an accepted point, it is reported. With Cebeci and Bradshaw's functions an accepted point at or below -0.095 is always reported, and SEPARATED only with an accepted point below -0.08. With Drela's functions the computed wall shear stays positive in every flow that is not accelerated, so SEPARATED is not reported there however strong the deceleration, as long as the accepted states are not negative. With any functions a layer that starts with positive computed wall shear is reported SEPARATED exactly if the computed wall shear is not positive at an accepted point, and otherwise reaches the requested end exactly or fails.", "quantifier": "every linear and nonlinear Thwaites object whose velocity functions return a number everywhere and whose only event is its separation criterion, every rounding with relative error at most 1/1000, both directions, every power function that keeps zero and positive numbers apart", "why_tests_cant": "The wall shear at separation is a difference of nearly equal numbers, and White's has a vertical tangent there: whether rounding can flip its sign is a question about all doubles near -0.09, not about a sample.", "anchors": ["ibl/thwaites_method.py:_ThwaitesFunctionsWhite", "ibl/thwaites_method.py:_ThwaitesFunctionsCebeciBradshaw", "ibl/thwaites_method.py:_ThwaitesFunctionsDrela", "ibl/thwaites_method.py:_ThwaitesSeparationEvent", "ibl/ibl_method.py:IBLMethod.solve"]}
{"id": "C146", "title": "In floating point the solved layer starts at its initial condition", "statement": "After a successful solve with RK45 in rounded arithmetic the state at the start, which all queries there use, is the start vector to the last digit, although it is computed from the interpolating polynomial of the first step. So Head's delta_m and shape_d at x0 are exactly those of the initial condition the solve used; Thwaites' delta_m, which goes through delta_m**2/nu and back, is that of the condition up to three rounding errors.", "quantifier": "all methods, forward, backward and empty intervals, all events, right hand sides and step sequences of RK45, root finders that return a point of their bracket, every rounding with relative error at most 1/1000", "why_tests_cant": "A test checks delta_m(x0) to a tolerance for one layer; which interpolation interval answers at x0 depends on the direction and on where the integration stopped.", "anchors": ["ibl/ibl_method.py:IBLMethod.solve", "ibl/head_method.py:HeadMethod.delta_m", "ibl/head_method.py:HeadMethod.shape_d", "ibl/thwaites_method.py:ThwaitesMethod.delta_m"]}
{"id": "C147", "title": "Stanford stations in floating point carry the SI values of their rows to a few rounding errors", "statement": "Reading a station in rounded arithmetic, from a file in either unit system: every attribute that has a unit is the SI value of the printed number up to seven units of rounding (relative), every attribute without unit is the float nearest to the printed number, the profile velocities are u/u_e times u_e up to nine. A station read from the summary alone has delta_d = shape_d*delta_m, delta_k = shape_k*delta_m up to nine and u_star = u_e*sqrt(c_f/2) up to twelve, all positive. The same state written in both unit systems and accepted in both gives attributes within fourteen units of rounding of each other; those without unit are equal.", "quantifier": "all rows of texts and the decimal numbers they spell, both unit systems, profiles of any length, every rounding with relative error at most 1/1000, every power function whose square is right up to two units of rounding", "why_tests_cant": "A test reads the files that are shipped and compares with a tolerance; it does not bound the error of the conversions for other rows.", "anchors": ["ibl/reference/_stanford_1968_station.py:StanfordOlympics1968StationData._reset_summary_data", "ibl/reference/_stanford_1968_station.py:StanfordOlympics1968StationData._reset_station_summary", "ibl/reference/_stanford_1968_station.py:StanfordOlympics1968StationData._reset_station_data"]}
{"id": "C148", "title": "In floating point the consistency checks of Stanford stations mean what they say", "statement": "In rounded arithmetic a station is created from a summary row alone exactly if the printed edge velocity, momentum thickness, shape factors and friction coefficient are positive: rounding never changes that. If a station with two summaries is accepted, the floats that both have (x, u_e, delta_m, shape_d, shape_k, shape_eq and the derived thicknesses and friction velocity) differ by strictly less than the tolerances 0.002, 0.06 and 0.005, without any allowance for rounding, and the Reynolds numbers by less than 5 from quotients that are exact up to three units of rounding. At every sample of the profile y+, u+, y/delta_c and the velocity defect are within 1 and 0.5 of what follows from y, u and the station, up to three units of rounding.", "quantifier": "all rows of texts and the decimal numbers they spell, both unit systems, profiles of any length, every rounding with relative error at most 1/1000", "why_tests_cant": "A test cannot place a pair of rows on the edge of every tolerance in every rounding.", "anchors": ["ibl/reference/_stanford_1968_station.py:StanfordOlympics1968StationData._reset_summary_data", "ibl/reference/_stanford_1968_station.py:StanfordOlympics1968StationData._reset_station_summary", "ibl/reference/_stanford_1968_station.py:StanfordOlympics1968StationData._reset_station_data"]}
{"id": "C149", "title": "In floating point laminar layers scale exactly with powers of four of the viscosity", "statement": "In rounded arithmetic, with 4**n times the viscosity and an initial condition 2**n times as thick (the stagnation condition is by itself), every call on an object of a Thwaites method returns or raises the same; solve() gives the same x_end, f_end, status and message to the last digit with any integrator. Afterwards shape_d and the separation criterion are the same floats everywhere, and delta_m, delta_d, tau_w and v_e are exactly 2**n times the others.", "quantifier": "every integer n, every flow, fits, initial condition and integrator, every history of calls, every location, every rounding that commutes with doubling (all binary ones)", "why_tests_cant": "A test compares two layers to a tolerance, and cannot cover the integrator's step sequences.", "anchors": ["ibl/ibl_method.py:IBLMethod.solve", "ibl/thwaites_method.py:ThwaitesMethod.delta_m", "ibl/thwaites_method.py:ThwaitesMethod.v_e", "ibl/thwaites_method.py:ThwaitesMethod.tau_w", "ibl/thwaites_method.py:ThwaitesMethod.delta_d"]}
{"id": "C150", "title": "In floating point similarity solutions scale exactly with powers of four of the reference values", "statement": "In rounded arithmetic a Blasius or Falkner-Skan object with 4**m times the reference velocity and 4**n times the viscosity exists exactly if the original one does (otherwise the same exception), and every answer of it is the original one times a power of two, to the last digit and with the same exceptions at every point: u_e and u times 4**m, the four thicknesses times 2**(n-m), v_e and v times 2**(n+m), tau_w times 2**(n+3m), dissipation times 2**(n+5m); u, v and eta are those at the distance from the wall multiplied by 2**(n-m); the shape factors and eta are equal. The same after u_ref and nu_ref of an existing object are set.", "quantifier": "all integers m and n, all wedge parameters, reference values, solution parameters, behaviours of the scipy tools, all x, y and rho, every rounding that commutes with doubling (all binary ones)", "why_tests_cant": "A test compares a few values to a tolerance; the statement is about every digit and every exception at every point.", "anchors": ["ibl/analytic/_analytic_2d_base.py:Analytic2dSimilarityIncompressible.u_e", "ibl/analytic/_analytic_2d_base.py:Analytic2dSimilarityIncompressible.v_e", "ibl/analytic/_analytic_2d_base.py:Analytic2dSimilarityIncompressible.delta_d", "ibl/analytic/_analytic_2d_base.py:Analytic2dSimilarityIncompressible.tau_w", "ibl/analytic/_analytic_2d_base.py:Analytic2dSimilarityIncompressible.dissipation"]}
{"id": "C151", "title": "A Stanford case loaded in floating point has the SI values of its file to a few rounding errors", "statement": "A case selected in floating point, compared with the same file read with exact numbers: nu_ref, every x_smooth and u_e_smooth and every station's x, u_e and delta_m are the exact SI values up to 7 rounding errors whichever unit system the file has; du_e_smooth and the dimensionless columns are the nearest floats to the printed numbers; tables and stations have the same number of entries. Positions of the smoothed table that do not decrease in the file do not decrease as floats. A file without station sections is accepted in floating point exactly if it is with exact numbers.", "quantifier": "all files and names, all objects and histories before the selection, every rounding with relative error at most 1/1000, every square computed to two rounding errors", "why_tests_cant": "A test compares a few files to a tolerance it chooses; the bound, the order of the table and the equality of acceptance are about every file and every rounding.", "anchors": ["ibl/reference/_stanford_1968.py:StanfordOlympics1968.case", "ibl/reference/_stanford_1968.py:StanfordOlympics1968.nu_ref", "ibl/reference/_stanford_1968.py:StanfordOlympics1968.x_smooth", "ibl/reference/_stanford_1968.py:StanfordOlympics1968.u_e_smooth"]}
{"id": "C152", "title": "In floating point Head's layers do not depend on the unit of time when it changes by a power of two", "statement": "Two Head objects, the second one with velocities, their derivatives and viscosity 2**n times those of the first (as callables, given or differentiated numerically), given the same other calls: every call returns or raises the same, solve() with any integrator returns the same result, and delta_m, delta_d and shape_d are equal to the last digit everywhere; u_e, du_e, d2u_e and v_e are exactly 2**n times as large. Provided no velocity lies below the 0.001 that the code takes for smaller ones.", "quantifier": "all integers n, velocities, viscosities, initial conditions, critical shape factors, events, integrators and histories of calls, every rounding that commutes with doubling (all binary ones)", "why_tests_cant": "A test compares a few values to a tolerance; the statement is about every digit, every exception and every history.", "anchors": ["ibl/head_method.py:HeadMethod.delta_m", "ibl/head_method.py:HeadMethod.v_e", "ibl/head_method.py:HeadMethod._ode_impl", "ibl/ibl_method.py:IBLMethod.set_velocity", "ibl/ibl_method.py:IBLMethod.solve"]}
{"id": "C153", "title": "In floating point XFoil's edge velocities keep sign, order and accuracy, and follow powers of two of the reference velocity exactly", "statement": "For any reader and accepted u_ref, u_e_upper, u_e_lower and u_e_wake hold one value per point: u_ref times the relative velocity up to one rounding error, with the sign of the relative velocity and in the same order of size; delta_k is shape_k*delta_m up to one rounding error. Just after reading, the edge velocities are the relative velocities to the last digit. u_ref and 2**n*u_ref are accepted or rejected together; if accepted the edge velocities are exactly 2**n times as large and all other arrays are the same.", "quantifier": "all dumps, reader states, reference velocities, integers n, every rounding that is monotone, odd, of small relative error and commutes with doubling", "why_tests_cant": "A test compares some values of one file to a tolerance; sign, order and last digit concern every file and every reference velocity.", "anchors": ["ibl/reference/_xfoil_reader.py:XFoilReader.u_ref", "ibl/reference/_xfoil_reader.py:XFoilReader.u_e_upper", "ibl/reference/_xfoil_reader.py:XFoilReader.u_e_lower", "ibl/reference/_xfoil_reader.py:XFoilReader.u_e_wake", "ibl/reference/_xfoil_reader.py:XFoilReader.delta_k_upper", "ibl/reference/_xfoil_reader.py:XFoilReader.delta_k_lower"]}
{"id": "C154", "title": "In floating point Head's wall shear stress and transpiration on arrays follow binary changes of the units of time and mass exactly", "statement": "For an array of positions, tau_w of a solved Head object with velocities and viscosity 2**n times and density 2**m times as large is, element by element and to the last digit, 2**(m+2n) times as large; v_e with velocities, slopes and viscosity 2**n times as large is exactly 2**n times as large. Both calls succeed both times. Provided no velocity, in either unit, lies within 0.001 of zero.", "quantifier": "all integers m and n, arrays, velocities of either sign, solutions, viscosities, densities, power functions, every rounding that commutes with doubling (all binary ones)", "why_tests_cant": "A test compares a few values to a tolerance; the statement is about every digit for every array and velocity.", "anchors": ["ibl/head_method.py:HeadMethod.tau_w", "ibl/head_method.py:HeadMethod.v_e", "ibl/head_method.py:HeadMethod._ode_impl"]}
{"id": "C155", "title": "In floating point a table of velocities gives the same velocities in units that differ by powers of two", "statement": "set_velocity with a table whose locations are multiplied by 2**k and velocities by 2**n returns or raises as with the original table; u_e, du_e and d2u_e at 2**k times any location are then exactly 2**n, 2**(n-k) and 2**(n-2k) times those of the original table, to the last digit, between the points and outside. The same for a start value 2**n times as large with a table of slopes multiplied by 2**(n-k).", "quantifier": "all tables (of any length, ordered or not, of any shape), start values, locations, integers k and n, every rounding that commutes with doubling (all binary ones)", "why_tests_cant": "A test compares a few interpolated values to a tolerance; limiting of slopes and choice of intervals are comparisons that a rounding error can turn.", "anchors": ["ibl/ibl_method.py:IBLMethod.set_velocity", "ibl/ibl_method.py:IBLMethod.u_e", "ibl/ibl_method.py:IBLMethod.du_e", "ibl/ibl_method.py:IBLMethod.d2u_e"]}
{"id": "C156", "title": "In floating point a layer starts from the assigned thickness and shape factor, or from the stagnation values, to a few rounding errors", "statement": "With a ManualCondition, initial_delta_m = a and then initial_shape_d = h (a, h > 0) are accepted; a is read back and started from to the last digit; the shape factor read back is the one the next solve() starts from, differs from h by at most about two rounding errors, is not below 1 if h is not, and a larger h never gives a smaller one. A stagnation condition gives a momentum thickness for every positive slope and viscosity: positive, and that of the similarity solution up to ten rounding errors.", "quantifier": "every Head object in any state, all positive thicknesses, shape factors, slopes and viscosities, every rounding with relative error at most 1/1000", "why_tests_cant": "A test compares a few values to a tolerance; the shape factor is stored as a product and read as a quotient, which does not return every number.", "anchors": ["ibl/head_method.py:HeadMethod.initial_shape_d", "ibl/head_method.py:HeadMethod.initial_delta_m", "ibl/initial_condition.py:FalknerSkanStagCondition.delta_m", "ibl/initial_condition.py:ManualCondition.shape_d"]}
{"id": "C157", "title": "In floating point the skin friction relations keep their sign and their order", "statement": "ludwieg_tillman() is positive and does not increase with Reynolds number or shape factor. felsch() never raises a negative number to a power (so never gives nan), is not negative, is positive up to shape factor 2.9, does not increase with Reynolds number or shape factor, and does not depend on the shape factor below 1 or above 3. white() is positive for Reynolds numbers above 1, does not increase with Reynolds number (shape factor not negative) nor with shape factor (Reynolds number at least 10).", "quantifier": "all positive Reynolds numbers and all shape factors within the stated ranges, every rounding (for felsch: with relative error at most 1e-12), every monotone, sign-correct power, exponential and logarithm, the logarithm with at most two rounding errors and exact at 1 and 10", "why_tests_cant": "The separation value in felsch() is a rounded root of 0.93 - 1.95 log10(H): whether the difference is ever negative after rounding depends on its eleventh digit, and a sample of points does not show order between neighbouring floats.", "anchors": ["ibl/skin_friction.py:ludwieg_tillman", "ibl/skin_friction.py:felsch", "ibl/skin_friction.py:white"]}
{"id": "C158", "title": "In floating point Head's equation never divides by zero, and the layer thickens wherever the flow is not accelerated", "statement": "For every shape factor the entrainment shape factor H1 is at least 3.3 and its derivative is negative; H1 does not increase with H on either side of 1.6. The entrainment velocity is positive for every H1 and does not increase with H1 above 3. Converting H1 back gives at least 0.6778, above the branch point at least 1.1. Whatever velocity and shape factor the integrator tries, with positive viscosity and momentum thickness the Reynolds number and the skin friction are positive and the divisor of the second equation is negative, never 0; where du_e <= 0 the momentum thickness grows, and it grows the less the larger du_e.", "quantifier": "every float for shape factor, velocity, slope and H1, every positive viscosity and thickness, every rounding with relative error at most 1e-5, every monotone, sign-correct power function", "why_tests_cant": "The guards are literals such as 1.1001 against 1.1 that must stay apart after rounding, and the integrator tries states no test foresees.", "anchors": ["ibl/head_method.py:HeadMethod._ode_impl", "ibl/head_method.py:HeadMethod._shape_entrainment", "ibl/head_method.py:HeadMethod._shape_entrainment_p", "ibl/head_method.py:HeadMethod._shape_d", "ibl/head_method.py:HeadMethod._entrainment_velocity"]}
{"id": "C159", "title": "In floating point the reported thicknesses and wall shear stress of a laminar layer fit together and have the right signs", "statement": "Where the solution of Thwaites' equation is positive, delta_m is positive and its square root formula holds to two rounding errors. delta_d (also of Head's method) is delta_m*shape_d to one rounding error, at least delta_m where shape_d >= 1, and positive exactly where shape_d is. tau_w is rho*nu*u_e*S/delta_m with the reported delta_m to four rounding errors, is positive, negative or zero exactly as the model's shear function S is, and does not decrease with the density where S >= 0.", "quantifier": "every object, location, velocity u_e > 0, viscosity, density and data fit, every rounding with relative error at most 1/1000", "why_tests_cant": "A test compares a few values to a tolerance; near separation, where tau_w changes sign, a tolerance says nothing about the sign.", "anchors": ["ibl/thwaites_method.py:ThwaitesMethod.delta_m", "ibl/thwaites_method.py:ThwaitesMethod.delta_d", "ibl/thwaites_method.py:ThwaitesMethod.tau_w", "ibl/head_method.py:HeadMethod.delta_d"]}
{"id": "C160", "title": "In floating point the wall shear stress of Head's method is always positive", "statement": "tau_w on an array of locations with positive momentum thickness and u_e >= 0 succeeds and every element is positive, whatever the shape factor; where u_e is at least 0.001 it is 0.5*rho*u_e**2 times Ludwieg-Tillman's skin friction to four rounding errors. A thicker layer with a larger shape factor in a fluid that is not denser nowhere has a larger tau_w.", "quantifier": "every array, solution, velocity function that is not negative, positive viscosity and density, every rounding with relative error at most 1/1000, every monotone, sign-correct power function", "why_tests_cant": "Positivity and order for every pair of floats are not visible in samples.", "anchors": ["ibl/head_method.py:HeadMethod.tau_w", "ibl/skin_friction.py:ludwieg_tillman"]}
{"id": "C161", "title": "In floating point the laminar closure functions never divide by zero and keep their order where the flow is decelerated", "statement": "For every number passed to them the divisors in Cebeci and Bradshaw's and in Drela's functions are positive, and White's shear function is a power of a number that is not negative; it does not decrease with the parameter lambda. For negative lambda Cebeci and Bradshaw's shear does not decrease and their shape factor does not increase with lambda and is at least 2.088. In the linear method the numerator of Thwaites' equation is at least 0.45 where du_e <= 0 and the state is not negative, and does not decrease with the state; so the state grows there if u_e >= 0.", "quantifier": "every float as lambda, every linear object, location and state, every rounding with relative error at most 1/1000, every monotone, sign-correct power function", "why_tests_cant": "The clipping limits and the poles are decimal literals that must stay apart after rounding; order between neighbouring floats is not visible in samples.", "anchors": ["ibl/thwaites_method.py:_ThwaitesFunctionsWhite", "ibl/thwaites_method.py:_ThwaitesFunctionsCebeciBradshaw", "ibl/thwaites_method.py:_ThwaitesFunctionsDrela", "ibl/thwaites_method.py:ThwaitesMethodLinear._calc_f"]}
{"id": "C162", "title": "In floating point similarity solutions report positive velocities and thicknesses in the right order", "statement": "Every Blasius or Falkner-Skan object that public calls can produce, unless beta is exactly 2, answers u_e, delta_d, delta_m, delta_k, delta_s, shape_d and tau_w at every x > 0 without an exception. u_e is positive and does not decrease downstream if beta >= 0. The thicknesses are positive if the thickness integrals are and come in the order of the integrals: delta_m <= delta_d and shape_d >= 1 if eta_m <= eta_d, delta_d <= delta_s if eta_d <= eta_s, delta_m <= delta_k if eta_m <= eta_k. delta_d/delta_m is shape_d to four rounding errors. tau_w has the sign of fw_pp.", "quantifier": "every history of public calls, every x > 0, every positive density, every rounding with relative error at most 1/1000, every monotone, sign-correct power function", "why_tests_cant": "delta_d >= delta_m at every float, and not only up to a tolerance, is a statement about the rounding of two different quotients.", "anchors": ["ibl/analytic/_analytic_2d_base.py:Analytic2dSimilarityIncompressible.u_e", "ibl/analytic/_analytic_2d_base.py:Analytic2dSimilarityIncompressible.delta_d", "ibl/analytic/_analytic_2d_base.py:Analytic2dSimilarityIncompressible.delta_m", "ibl/analytic/_analytic_2d_base.py:Analytic2dSimilarityIncompressible.tau_w", "ibl/analytic/_falkner_skan.py:FalknerSkan._g", "ibl/analytic/_blasius.py:Blasius._g"]}

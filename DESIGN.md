# Formal model of the IBL library

Source: `/repo/ibl` (python, read as text, never run).  Formalisation: Lean 4.33 + Mathlib, in `lean/Verif`.

## 1. How the code is modelled

* Every python function is a total Lean function that follows it branch by branch.
  Exceptions are values (`Except Exc`), objects are records, methods that write
  before they raise return the *new state together with* the error.
* **Floats.** Object/state/validation code is modelled generically over a type `α`
  with python's operations as type classes (`+ - * /`, literals, comparisons,
  `sqrt`, `inf`, ...) and no laws. Theorems proved at this level hold for *every*
  arithmetic, thus also for IEEE doubles with rounding, NaN and infinities.
  Where a claim needs arithmetic laws it is proved for an exact instance:
  - `ℝ` (formulas, calculus; no NaN, no rounding), or
  - `Flt K` = nan | -inf | finite element of an ordered field | +inf, with IEEE rules
    for special values, exact on finite ones (no rounding, no overflow, one zero), or
  - `R.F` for any rounding `R` (`Verif/Round.lean`): every operation rounds its exact result to a representable
    number; monotone, odd, relative error at most `eps <= 1/1000`, small integers and doubling exact, no overflow or
    underflow. `binary p` (p binary digits, to nearest) is proved to be one; p = 53 has the precision of python's floats.
    `**`, `np.exp` and `np.log10` with rounding are not fixed: theorems that need them assume monotony, signs and (for `log10`) accuracy as a
    hypothesis (`Elementary` in `Props/SkinFrictionFloat.lean`: C157, C158, C160-C162), which correctly rounded functions are proved to meet.
* **External code** (scipy `solve_ivp`, `PchipInterpolator`, `CubicSpline`, `quad`,
  `root_scalar`, file reading) is a parameter: theorems quantify over every behaviour,
  or state the used contract as a hypothesis.
* **Aliasing** is modelled where the code relies on it or suffers from it: the event list
  shared between solves, XFoil point objects shared between surfaces (heap + references),
  numpy arrays written in place.
* When a property is false of the code, the negation is proved with a concrete witness
  (`*_fails`, `not_*`), and what does hold is proved as `*_partial`.

## 2. Layout

* `Verif/Py.lean`            python values, exceptions, float operations, `Flt K`
* `Verif/Round.lean`         arithmetic with rounding
* `Verif/PyText.lean`        python text: `split`, `readlines`, indexing
* `Verif/Model/*.lean`       the model; each definition cites file and lines in /repo
* `Verif/Spec/*.lean`        small independent specifications used in theorem statements
* `Verif/Lemmas/*.lean`      helper lemmas
* `Verif/Props/*.lean`       property theorems (one file per area), each with a non-vacuity example

## 3. Plan per property

| id | model | proof |
|----|-------|-------|
| C01 | method object state machine, all public mutators (`Model/Method`) | invariant by induction over call histories, any arithmetic |
| C02 | `solve` with arbitrary integrator result record | case analysis over all outcomes against a relational spec |
| C03 | `solve` message composition, `TermReason.__str__` | case analysis; injectivity of texts |
| C04 | state machine, solution slot | invariant: slot = dense output of last solve that returned, characterised over histories |
| C05 | state machine, shared event list | false: witness; partial: over all histories the events are those of the closure in force, the call's own, and some of those given since the closure was last selected |
| C06 | state machine | invariant over histories: head of event list is the current separation event |
| C07 | `set_velocity` over all argument kinds | case analysis; fails only for non-callable d2u_e (witness) |
| C08 | `set_velocity` write order | false for callable u_e (witness); holds for all other kinds |
| C09 | `set_velocity` on array pairs (shapes) | iff by case analysis |
| C10 | finite difference formulas over ℝ | polynomial identities; Taylor/mean value bound |
| C11 | scipy piecewise polynomials over ℝ | induction over pieces; derivative of Horner form |
| C12 | `_check_range` on scalars and arrays | scalar: clamp; arrays: false (witness), holds when not both sides are exceeded |
| C13, C14, C15 | the closed form fits over ℝ; the Spline fits for every function meeting the not-a-knot spline specification | derivative calculus; polynomial inequalities; Drela never signals separation (witness for all lambda <= 0); the spline of the tables is computed exactly over ℚ (uniqueness proved) and its slope sign certified by Bernstein coefficients, kernel evaluation |
| C16, C17 | Thwaites ODE and outputs over ℝ | derivative calculus along an arbitrary solution |
| C18 | Thwaites ODEs, all built-in fits | barrier argument |
| C19 | `set_data_fits` | case analysis over all inputs |
| C20, C21 | Head H1(H) and inverse over ℝ | rpow monotonicity; exact integer-power comparison at the branch point; false in a window of width < 1e-15 |
| C22, C23, C24 | Head closure derivative, ODE, v_e over ℝ | rpow calculus; algebra |
| C25, C31 | initial values in the state machine | histories; order dependence and ignored assignment as witnesses |
| C26 | Head separation event | order reasoning over ℝ, history invariant |
| C27, C28 | Head scalar/array evaluation, in-place writes | model with array references; false (witness), partial |
| C29 | skin friction over ℝ | rpow/log monotonicity; 2.9986313485^65 <= 10^31 by exact arithmetic |
| C30 | stagnation condition over ℝ, error branches over `Flt ℝ` | algebra |
| C32 | beta/m conversions over ℝ and `Flt` | field algebra |
| C33, C34 | similarity solution object and search loop with arbitrary integrator | write-order witness; loop analysis |
| C35-C39 | similarity outputs over ℝ | integration by parts, calculus of `x^p` |
| C40-C46 | XFoil reader with heap of point objects | list induction; witnesses for the exact-zero, x and filename defects |
| C47-C52 | Stanford reader: text sections to stations | list induction over sections; algebra; witnesses |
| C53 | state machine | false: witness; partial: what queries read |
| C54 | linear Thwaites equation over ℝ | fundamental theorem of calculus along an arbitrary solution |
| C55, C56 | similarity objects | invariant over histories; false at beta = 2 (witness) |
| C59, C61 | Stanford station and case object | success iff consistent rows; case analysis of every raise; witnesses for other exceptions |
| C60, C62, C63 | Stanford objects with arbitrary `np.empty` content | invariants over histories with failures; two histories that differ in memory only are compared, with and without the profile arrays; witnesses |
| C57, C58 | XFoil reader | invariant over histories with failed loads; forward execution of the loader |
| C64-C68 | `solve` with scipy's event handling modelled, arbitrary stepping and root finder | induction over accepted steps; witnesses for C65, C66, C68 |
| C69, C70 | several method objects, conditions by reference (`Model/Shared.lean`) | simulation of each object by the by-value model; witnesses |
| C71 | queries | witness; case analysis |
| C72, C73 | Head ODE over ℝ | barrier arguments along an arbitrary solution (continuous, finitely many exceptional points, since the right hand side jumps at 1.6); existence by Picard-Lindelöf; explicit solution as witness |
| C74 | `solve` along exact solutions, event handling modelled | C18/C72 bounds, sign of the event value, C64; witness for Drela's fits |
| C75 | linear Thwaites ODE over ℝ | explicit quadrature solution; integrating factor |
| C76 | whole state machine over ℝ, shifted copies (`Spec/Shift.lean`) | simulation between moved and unmoved histories |
| C77 | both ODEs and queries over ℝ | change of variables; witnesses for the fixed offsets |
| C78, C79 | Thwaites ODEs over ℝ in constant and linear flow | explicit solutions; C64 for the reported status |
| C80, C81 | `solve` with scipy's dense output modelled, arbitrary stepping | induction over accepted steps, both directions; witness for C81 |
| C82, C83 | Thwaites ODEs over ℝ, all built-in fits (spline as the interpolant) | one-sided Lipschitz estimate of each fit, Gronwall; truncation, Picard-Lindelöf, a priori bounds; for White uniform limit of cut-off fits; runaway witness for White |
| C84 | queries of similarity objects over ℝ, exact solution and quadrature | integrating factor for f'', monotonicity, integral comparison; Blasius solutions on every interval by truncation and Picard-Lindelöf |
| C85 | XFoil and Stanford readers, all histories | heap invariant: no object twice in a list, a shared object is the first of both surfaces; witness file over the exact IEEE-like numbers |
| C86 | fits, Head relations, skin friction, queries and events over the exact extended reals | NaN propagation through each expression; witness object for the Cebeci-Bradshaw fits |
| C87, C88, C89 | XFoil reader, numerical derivatives, m/beta conversion in arithmetic with rounding | error analysis operation by operation; witnesses in 53-digit binary arithmetic |
| C90, C91, C34 (Blasius) | similarity module as a whole | from an exact integrator for whatever equation it is handed: chain rule to the boundary layer equations, integrated identities; uniqueness connects search and final solution; decay estimate of the secant iteration; for a supplied eta_inf concavity of the end value in f''(0) by scaling, and convergence of the secant iteration for such functions (`Lemmas/Secant.lean`) |
| C94 | Thwaites queries on arrays | success or failure of each elementary array evaluation, then elementwise algebra; the fits through C12; witness built by public calls |
| C95, C96 | Head ODE over ℝ, solutions with finitely many exceptional points | both branches of H1(H) as smooth functions; Lipschitz uniqueness and Picard-Lindelöf on each; which branch is followed at 1.6 by the sign of the rates; rational bounds of the powers at 1.6 |
| C97-C101 | tables of velocities with scipy's `PchipInterpolator` modelled (`Model/Pchip.lean`) over ℝ | slope limits at the points, Hermite cubic with limited slopes is monotone; induction over the points; C74, C82, C83 for the layer; equivariance under scaling coefficient by coefficient; witness table for C98 |
| C102 | dump reader, reference velocity, `set_velocity`, Thwaites' equation over ℝ | C40, C43 (`load_ok`, stagnation between two rows) composed with C97 and C99 |
| C103 | Thwaites' equations and separation monitor over ℝ | solutions that meet stay together (C75, C82), so by the intermediate value theorem they keep their order; the criterion is monotone in sign (C15) |
| C104 | `Case.select`, `mkHead` with a table, `prepare` over ℝ | composition of the claims on accepted stations (C51), tables (C97–C99) and existence for Head's equations (C121) |
| C105 | queries of similarity objects on arrays (`Model/AnalyticArray.lean`) | success or failure of each elementary array evaluation against that at the points, numpy's broadcasting; witness at the origin |
| C106 | Thwaites' equations in flows with non-increasing velocity slope | barrier argument for the product of solution and slope; sign of each built-in fit's right hand side between 0.085 and 0.1 |
| C107 | state machine, histories | each setting depends only on the calls made for it (induction over histories); solve reads nothing but the settings |
| C108 | similarity objects, queries | case analysis on the state left by a failed computation; witness with a failing integrator |
| C109 | initial values of the method objects, any arithmetic | case analysis over all object states; witness with a stagnation condition |
| C110 | tables of extended numbers | finite entries stay finite through slopes, pieces and evaluation; then C97 |
| C111 | clean dumps (C102) | interpolated row between admissible rows; object construction as in C104; existence (C121) |
| C112 | tables with a stagnation point | end slope of the interpolant in closed form; witness table (0,0),(1,1),(2,5) |
| C113 | wedge flows, linear method | K x / u_e as super- and subsolution in the integrating weight; witness on the flat plate |
| C114 | growth in decelerated flow | slope of F positive for lambda <= 0.04, barrier; Head: friction positive, finitely many exceptional points |
| C115 | worsening layer | monotone fits for lambda <= 0, F increasing and du_e decreasing make lambda fall; event reported iff met at the last point |
| C116 | drag and momentum | C23 integrated over [a, b] with finitely many exceptional points; flat plate closed form for Thwaites; witness for the 0.001 |
| C117 | `IntegrationResult.__str__` | split at newlines; labels and True/False are told apart from the end |
| C118 | Persistent deceleration | `DeceleratedLayer`, `ThwaitesExact`, `SignalsSeparation` |
| C119 | Accuracy of tables | `Samples`, `secant` (Spec/Table.lean), `equidistant` |
| C120 | Accuracy of a layer on a table | `Samples`, `LinearLayer` |
| C121 | Head ODE over ℝ as in C95, C96 | a-priori bounds of both unknowns below H, limits at the end of a solution, continuation by C96, Zorn's lemma over the solutions ordered by extension |
| C122 | as C121 | the rate of H1 from the ODE, with rational bounds of entrainment and H1; `G(h) - 4.9 log u_e` decreases, G being H1 with the jump at 1.6 removed; existence by C121, uniqueness by C95 |
| C123 | XFoilReader as in C102, exact arithmetic | the mirrored dump is clean; its stagnation point is the mirrored one (fraction 1 - t, absolute values); lists of points equal up to the sign of y |
| C124 | constructors and queries of the similarity classes, exact arithmetic | the search does not see the reference values; closed forms of the queries |
| C125 | Head: dependence on start values and residuals | `head_error`, `head_error_through` (through the jump at 1.6), `head_starts` (Props/HeadError.lean); Gronwall on each branch, passage of 1.6 in a time proportional to the distance |
| C126 | readers with python's `float()` modelled (`Model/PyFloat.lean`) | `PyFloat.float_iff` against `Spec/Numeral.lean`; `XFoil.printed_*`, `Stanford.printed_station` (Props/Printed.lean, PrintedDump.lean) |
| C127 | set_velocity, u_e, du_e with rounding | multiplicative error factors through the slope formulas; end slopes as a cut-off, which is Lipschitz; error propagation through Hermite coefficients and the power sum |
| C128 | `solve` with scipy's RK45 modelled (`Model/RungeKutta.lean`) over ℝ | relations for the step loops; every rejected trial shortens the step by a tenth, every accepted one is at least the smallest step; algebra of the tableau for the interpolant; comparison with the method as in textbooks |
| C129 | `solve` with RK45, then the queries, over ℝ | the stages of RK45 stay on a straight line along which the slope is constant, so that no error is estimated and no step rejected; induction over the steps; events stay positive |
| C130 | `solve` with RK45 on an empty interval over ℝ | determinism of the run; evaluation of the event loop |
| C131 | `solve` with RK45, then `delta_m`, over ℝ | Taylor expansions with remainder `h^5` closed under sums and products (`Lemmas/Expansion.lean`); the order conditions of the method and its interpolant for `y' = a(t) + b(t) y` (`Lemmas/RkAffine.lean`, generated and checked by `ring`); discrete Gronwall over the steps |
| C132 | calls and queries of Thwaites objects over ℝ | a relation between two objects kept by every call; the problem handed to the integrator does not contain the viscosity |
| C133 | `solve` with RK45 and the separation event, over ℝ | the error of lambda along a run from C131; lambda of the exact layer falls at least linearly, so an error of lambda bounds the error of the place |
| C134 | RK45 and `solve` over ℝ, the spacing of numbers a parameter | the last rejected trial before giving up; slopes of a step bounded by the growth of the right hand side, states by a discrete Gronwall argument, so short steps meet the absolute tolerance; step control keeps the length above a fixed bound, which bounds the number of steps |
| C135 | `solve` with RK45, dense output, `set_velocity` with a table (pchip), over ℝ | slopes of all stages compared with the slope of the exact solution; errors added up by a discrete Gronwall argument that also keeps the run within the neighbourhood where the right hand side is Lipschitz continuous |
| C136 | `solve` with RK45 and its event handling, `set_velocity` with a table, separation events of both methods, over ℝ | margin of the exact layer to the criterion is bounded away from 0 outside a neighbourhood of xs (compactness); C135 bounds the difference of the margin at accepted points; an accepted point falls into the zone behind xs |
| C137 | `solve` with RK45 and its event handling for Head's method, over ℝ | three phases: errors add up before the passage as in C135; during the passage, which takes a bounded number of step lengths because every stage moves the shape factor in the same direction, errors grow by a multiple of the step; behind it the error adds up again along the other formula |
| C138 | `_add_kill_event`, `get_name` | the problem handed to the integrator is the same |
| C139 | `solve` with RK45 and its event handling for the nonlinear method, over ℝ | the right hand side is one-sided Lipschitz along positive layers (C82), so the square of the error grows at most exponentially, up to a term that uniform continuity makes small; then as in C136 |
| C140 | `solve` of the linear method with RK45 and its event handling, in rounded arithmetic (`R.F`) | every quantity of a step stays close to its exact counterpart (`RkRound.Cl`, closed under the operations); the errors of the steps are summed with a discrete Grönwall inequality on top of C131 |
| C141 | `solve` of every method with RK45 and its event handling, in rounded arithmetic, both directions | a rejected step is shortened to at most 0.995 of itself in spite of rounding, an accepted one goes on by at least eight spacings; comparisons with the end are exact because rounding keeps signs |
| C142 | queries of `Analytic.Sim` over ℝ | the reported values are powers of x behind the leading edge, with an exponent above -1 for every admissible beta |
| C143 | constructors, setters and queries of `Analytic.Sim` over ℝ | the search does not see nu_ref; `_g` scales with its inverse square root |
| C144 | `solve` with one separation event and RK45, in rounded arithmetic | along quiet steps the criterion stays positive; the sign of a rounded difference is the sign of the difference |
| C145 | fits of White, Cebeci-Bradshaw and Drela and `solve` of both Thwaites classes with RK45, in rounded arithmetic | interval arithmetic on every operation; White's sum is exactly zero at the clipped value because rounding is odd |
| C146 | `solve`, dense output and queries of every method with RK45, in rounded arithmetic | at the start the relative position is exactly zero, and adding zero is exact; the first interval is the one asked in both directions |
| C147 | `StanfordOlympics1968StationData` read in rounded arithmetic | relative errors through products, quotients and the root |
| C148 | acceptance of Stanford stations in rounded arithmetic | rounding is monotone and keeps signs, so a comparison of rounded differences decides the exact one |
| C149 | `solve` and all queries of the Thwaites methods in rounded arithmetic | multiplication by a power of two commutes with rounding, so the two calculations have the same roundings |
| C150 | reference values of `Blasius` and `FalknerSkan` in rounded arithmetic | multiplication by a power of two commutes with rounding |
| C151 | cases of the Stanford collection in rounded arithmetic | columns are the rounded columns; error bounds of the unit conversions |
| C152 | velocities and viscosity of `HeadMethod` in rounded arithmetic | multiplication by a power of two commutes with rounding; every quotient in the equation is unchanged |
| C153 | `u_ref`, `u_e_*` and `delta_k_*` of `XFoilReader` in rounded arithmetic | one rounding per product: monotone, odd, and commuting with powers of two |
| C154 | `tau_w` and `v_e` of `HeadMethod` on arrays in rounded arithmetic | the elementwise forms of C27 with powers of two taken out of every operation |
| C155 | tabulated velocities in rounded arithmetic | multiplication by powers of two commutes with every operation and comparison of the interpolation |
| C156 | initial conditions in rounded arithmetic | relative errors through product, quotient and root; monotone rounding |
| C157 | skin friction in rounded arithmetic | monotone rounding; log10 of the separation value from its 65th power with margin |
| C158 | Head's closure relations in rounded arithmetic | guards stay apart after rounding; signs through each operation |
| C159 | laminar thicknesses and shear in rounded arithmetic | relative errors with sign kept; monotone rounding |
| C160 | Head's shear stress on arrays in rounded arithmetic | signs and monotone rounding, element by element |
| C161 | laminar closure functions in rounded arithmetic | clipped arguments stay away from the poles; monotone rounding |
| C162 | queries of `Blasius` and `FalknerSkan` in rounded arithmetic | signs operation by operation; a common divisor keeps order under monotone rounding |
| C92, C93 | exceptions of method objects, similarity objects and the XFoil reader | case analysis of every raising branch; loops by induction; the false cases are witnesses |

## 4. Trusted base

Lean's kernel; axioms `propext`, `Classical.choice`, `Quot.sound` only (checked by
`#print axioms` / `vcheck`; listed theorem by theorem in `AXIOMS.md`); the reading of the python text into the model, documented definition by definition
(`COVERAGE.md` lists every function of `/repo/ibl` with the definitions that model it, and the two that are not modelled).

## 5. Not modelled

Floating point rounding in the ℝ/`Flt` theorems (see `Verif/Round.lean` for those with rounding), overflow and underflow; numpy broadcasting and dtypes beyond what is stated;
internals of scipy, except `PchipInterpolator` on vectors (`Model/Pchip.lean`, `Model/PPoly.lean`, in the statements of C11, C97-C102, C104, C110-C112, C119, C120, C127, C135, C136, C139 and C155 only (the finiteness test of `Model/Pchip.lean` also serves RK45), written from scipy's published
algorithm: argument checks, slopes, coefficients, evaluation, derivative, antiderivative) and the event handling of `solve_ivp` (`Model/SolveIvp.lean`, in the statements of C64-C68, C74, C79-C81, C86, C99, C103, C113, C115, C118, C128-C131, C133-C137, C139-C141 and C144-C146 only, written from
scipy's documentation and source as known: sign changes between accepted points, root search on the interpolant,
first root wins, which interpolant the dense output uses; the stepping itself stays arbitrary) and RK45 (`Model/RungeKutta.lean`, in the statements of C128-C131, C133-C137, C139-C141 and C144-C146 only, written from scipy's source as known: tableau, error estimate, step size control, initial step, interpolant; the sums of `np.dot` in one order, the spacing of floats a parameter); parsing of decimal numerals (`float(word)` is a parameter of the readers; its grammar is modelled in `Model/PyFloat.lean`, used by C126 only, without the rounding to the nearest double); text decoding (a file is its decoded characters); examples, tests, docs; `ibl/_pybl.py` (all commented out); plotting; type annotations.

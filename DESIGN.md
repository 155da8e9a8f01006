# Formal model of do-mpc in Lean 4

## Layout

* `lean/Verif/Model/*.lean` – the model: total functions that mirror the Python code branch by branch.  Each definition cites the file and lines it
  models and says where it simplifies.  Exceptions are values (`Except String`, `Option`, or the object after the call together with the error where
  partial effects matter).
* `lean/Verif/Spec/*.lean` – small specifications: what a user would say, without the model's helper functions.
* `lean/Verif/Lemmas/*.lean` – helper lemmas.
* `lean/Verif/Props/*.lean` – the property theorems (named `Cnn_…`), each with an `example` showing that its hypotheses are met in a non-trivial case.
* `properties.jsonl` – the properties; `MANIFEST.json` – theorem(s) per property; `seeded/LOG.jsonl` – the wrong-program tests.

Naming: `Cnn_…_partial` proves the property under a premise that the property does not mention; `Cnn_fails_…` proves that the property as stated is
false for the model of the code (a concrete program/history that violates it).

## Common modelling decisions

* Numbers: an arbitrary linearly ordered field `K` (or any field where no order is needed), `ℝ` where analysis is used.  Floating-point rounding,
  overflow and NaN are not modelled (NaN only where the code produces it deliberately: failed linear solves in the differentiator, empty rows).
* CasADi symbolic expressions are modelled by the functions they denote; CasADi structures (power indexing) by functions of the indices; automatic
  differentiation by the derivative.
* Solvers (IPOPT), integrators (idas/cvodes), root finders, SciPy's Riccati and matrix exponential routines, random generators are arbitrary
  parameters; theorems quantify over all of them, with a contract as a premise where the property needs one (for example "the solver returns a
  minimiser").  A solver may return a different result in every call.
* Infinite bounds are values of an inductive type (`Bound`) or `none`.
* Objects with aliasing (iterated variables, indexed properties) are modelled with an explicit heap; histories are lists of calls and theorems are by
  induction over them; threads (OPC UA trigger) are interleaved statement by statement; crashes (sampler, `save_results`) may occur between any two
  file-system effects.

## Trusted base

* Lean's kernel (4.33.0) and the axioms listed at the end per theorem: at most `propext`, `Classical.choice`, `Quot.sound`.  No axioms were added; no
  compiled evaluation is trusted (`decide +kernel` is evaluated by the kernel).
* The faithfulness of the model: it was written by reading `/repo`; nothing was executed.  The behaviour of third-party libraries is taken from their
  documentation: NumPy, CasADi structures (`struct_symSX`, power indices, `labels()`), `pickle`, `asyncua`, Python's evaluation order and descriptors,
  `threading.Timer`.
* The English-to-Lean reading of the specifications in `Spec/` and of the theorem statements.

## Which code is modelled

| file in `/repo/do_mpc` | modelled | not modelled |
|----|----|----|
| `optimizer.py` | bounds, scaling, `lb_opt_x`/`ub_opt_x`, `set_nl_cons`, soft constraints, scenario tree, collocation, `solve`, `reset_history`, `prepare_nlp`/`create_nlp` flags, edits of `nlp_obj`, `nlp_cons`, `nlp_cons_lb`, `nlp_cons_ub` (C95; how CasADi reads `lbg`, `ubg` of a wrong length is part of the trusted model) | `compile_nlp` (ends in a `NameError`, see findings), solver options, `opt_aux_expression_fun` beyond C52 |
| `controller/_mpc.py` | settings that enter the NLP, objective, rterm, `set_uncertainty_values`, `set_tvp_fun`/`set_p_fun`, `_check_validity`, `set_initial_guess`, `make_step`, `_update_bounds`, `_prepare_nlp` | printing, `time.sleep`, templates as CasADi objects |
| `controller/_lqr.py` | `discrete_gain`, `set_objective`, `set_rterm`, `set_setpoint`, `setup`, `make_step` (both modes) | floating-point Riccati iteration |
| `controller/_controllersettings.py`, `estimator/_estimatorsettings.py` | all fields with defaults, `check_for_mandatory_settings`, `supress_ipopt_output`, `set_linear_solver`, instance/class attributes and references | type annotations, attributes every Python object has |
| `estimator/_mhe.py` | parameter split, default objective, measurement window, `make_step`, `_update_bounds`, `_prepare_nlp`, initial guess, configuration and life cycle (`_check_validity`, `setup`, guards) | noise flags of the measurement templates beyond C25/C26 |
| `estimator/_base.py`, `_ekf.py` | `Estimator`, `StateFeedback` | `EKF` (its constructor always raises) |
| `simulator.py` | configuration, user functions with memory (also of controller and estimator), `set_param`, `setup`, `init_algebraic_variables`, `make_step`, `simulate`, log rows, discrete and continuous | integrator and NLP solver internals |
| `data.py` | `Data` (with values, and with arrays as objects: `export`, queries, `update`, `init_storage`), `MPCData.prediction`, `save_results`, `load_results` | |
| `model/_model.py` | configuration calls, `setup`, generated functions; symbols: `_convert2struct`, `_substitute_struct_vars`, `_substitute_exported_vars`, `__getstate__`, `__setstate__`, `__getitem__` | type checks of arguments, SX/MX difference (a structure has one symbol), `_transfer_variables` |
| `model/_linearmodel.py`, `_linearize.py` | `setup`, `discretize`, `get_steady_state`, `linearize` | numerical `expm`/`cont2discrete` (contract) |
| `model/_iteratedvariables.py` | `x0`, `u0`, `z0`, `t0` setters and aliasing | |
| `model/_dae2odeconversion.py` | `dae2odeconversion` | matrix-valued variables, printing |
| `sampling/*` | planner, sampler (one process, and several processes that share the directory: every interleaving), data handler, their configuration (`set_param`, `data_dir`, `set_sample_function` with Python signatures) | progress bars |
| `tools/*` | `IndexedProperty`, `Structure`, pickling names, `Timer` | standard deviation and histogram of `Timer`, printing |
| `opcua/*` | trigger, tags, namespaces, several clients with interleaved requests, failing requests and connections (arbitrary outcomes) | asyncua itself (its answers are arbitrary) |
| `casadi.tools` structures (used by `_mpc.py:1118-1145`, `_mhe.py:1049-1081`) | repeats, flat order, power indices with all repeat indices | slices, nested power indices |
| `differentiator/*` | `sens_num` queries, active set, KKT system, reduction, mapping back, rescaling, status (with exact rank) | numerical rank decisions of numpy |
| `sysid/_onnxconversion.py` | `convert`, queries, operators on matrices | keras/onnx file parsing, one-dimensional NumPy weights, `Shape` |
| `graphics.py` | `Graphics`, `default_plot`, `animate` (points shown by each line, axes, frames, file names) | labels, colours, axis limits, `clear(lines)` |
| whole objects in the user's loop (`Model/Live`, `MheLive`, `LiveLoop`, `LiveOutLoop`; `examples/*/main.py`) | controller, simulator and estimator from the constructor on – every configuration call, `setup()`, `make_step`, `reset_history`, `set_initial_guess`, `solve`, assignments – one at a time, controller with simulator, and all three in one loop | exceptions that leave the script, several threads |


## Properties: what is modelled, how it is proved, status

The full English statements are in `properties.jsonl`; the theorem names are in `MANIFEST.json`.  "partial" means that the property as stated is false or only proved under a premise; the theorems named `…_fails_…` are the counterexamples.

| id | property | model and proof | status |
|----|----|----|----|
| C01 | Scenario tree is a tree | `_setup_scenario_tree`: loops with a counter over tables; closed form by induction over the loops | proved: node counts, unique parent/child, recorded parent; for every horizon, robust horizon, number of combinations |
| C02 | Scenarios are exactly the realisation sequences; parameters freeze after the robust horizon | branch offsets and parents; base-c encoding is a bijection | proved: nodes = realisation histories; freezing after the robust horizon |
| C03 | Uncertainty values are combined exhaustively, nominal first | `set_uncertainty_values` with `itertools.product`; induction on the list of lists | proved |
| C04 | A feasible MPC solution follows the model on every scenario, and nothing else is demanded | `_prepare_nlp` over indexed variables, generic in the discretisation; feasible iff the tree specification holds | proved: discrete-time models and collocation |
| C05 | Non-anticipativity of the inputs | variable layout of `_prepare_nlp`: inputs indexed by node, paths with a common prefix share nodes | proved |
| C06 | Bounds are enforced in physical units on every node | `_update_bounds` on scaled variables; feasible iff every node within physical bounds | partial: exact characterisation of the bounds; the collocation points inside the last interval are not bounded although cons_check_colloc_points is on (C06_last_interval_interior_unbounded) |
| C07 | Nonlinear and soft constraints hold at every node | `set_nl_cons`, slack variables, constraint rows; feasibility iff with and without slack | partial: holds with the default setting at each node; fails on the branch's own algebraic state, and nl_cons_check_colloc_points drops all constraints for discrete models |
| C08 | MPC objective is the scenario-averaged cost | objective sums re-indexed along the tree; induction over stages | partial: holds when n_robust < n_horizon and algebraic states do not branch (for collocation with the algebraic states at the end of the interval); counterexamples otherwise |
| C09 | Input-change penalty compares consecutive inputs of the same scenario | default and user rterm, recorded previous input; sums over parents | partial: default penalty proved; a user rterm receives the scaled previous input |
| C10 | Collocation solutions are piecewise polynomials that satisfy the ODE at the collocation points | Lagrange interpolation (Mathlib), derivative and continuity conditions; iff | proved: collocation points are abstract, distinct and start with 0 |
| C11 | Collocation bookkeeping always balances | counts and positions of collocation variables | proved |
| C12 | make_step returns the first input of an optimal policy | objective = policy cost, feasible iff admissible; optimality with a solver contract; composed with `make_step`; for continuous-time models the same with polynomial trajectories (`Spec/CollStage`) | partial: discrete-time and continuous-time (collocation) models under the conditions in which C07-C09 hold; false of the code with a user-defined rterm and scaled inputs (C12_fails_user_rterm, C12_fails_make_step: no optimal policy starts with the input that make_step returns) and with n_robust = n_horizon (C12_fails_full_robust_horizon) |
| C13 | MPC history is an exact log of the calls | `make_step` state machine, induction over all call histories with an arbitrary solver | proved: every call sequence |
| C14 | Warm start uses the last solution | queries to the solver over histories | proved |
| C15 | Simulator history is the plant trajectory | simulator state machine, induction over histories | proved |
| C16 | Closed loop consistency | simulator and controller composed, induction on the number of steps | proved |
| C17 | Data fields: append-only, all-or-nothing per field, same length | `Data` fields, exact acceptance condition of `update` | proved |
| C18 | reset_history gives a fresh start | `reset_history` of controller and simulator | partial: the log and the time are reset; the MPC keeps warm start and the previous input, so outputs may differ (C18_fails_mpc) |
| C19 | save_results never destroys a stored result | directory as finite map; `while isfile` by pigeonhole | proved: one process; with two concurrent savers a result can be lost (C19_fails_concurrent) |
| C20 | prediction() returns one scenario per column | `structure_scenario`, index arithmetic, exact condition | partial: holds for robust horizon <= 2 (exact condition proved); counterexamples |
| C21 | MHE uses the last n_horizon measurements in order | measurement window over call histories | proved: the window of the last measurements for every call history; padding at the start is the spec Spec.measurementWindow |
| C22 | Splitting parameters into estimated and set ones loses nothing | parameter split by name | proved: names in p_est_list that are no parameter of the model are silently ignored |
| C23 | MHE arrival cost and log | run of the estimator, induction over histories | proved |
| C24 | MHE bounds hold for every state on the horizon | `_update_bounds`, iff | partial: exact characterisation of the bounds; the returned estimate may violate them (C24_fails_returned_estimate) |
| C25 | MHE problem uses the model's physical parameters | rows of `_prepare_nlp`, iff | partial: holds with unit scaling of estimated parameters |
| C26 | MHE objective and constraints | constraints and objective | partial: false for the current estimate (never constrained) and for nl_cons_check_colloc_points with discrete-time models (raises); proved for unscaled estimated parameters and the default settings |
| C27 | A set-up model is complete and frozen | builder state machine, exact acceptance condition | proved: every history of configuration calls without repeated names (repeated names are left to CasADi) |
| C28 | Every documented variable type name is accepted | `set_variable` strings | partial: exact set of accepted strings; timevarying_parameter is refused |
| C29 | Exactly one right-hand side per state | duplicates | partial: variables proved; a second right-hand side silently replaces the first |
| C30 | State feedback is the default measurement | `StateFeedback` measurements | proved |
| C31 | Linear models and their discretisation | matrices with run-time shapes | partial: setup proved for all matrices and for equations; the shapes of C and D are not checked (C31_fails_shapes_unchecked); discretize drops the feed-through matrix D |
| C32 | Steady states are steady | steady states with Mathlib matrices | partial: returned states are steady; returned inputs are if B is square or an equilibrium exists; refused for singular A although a steady state exists |
| C33 | Linearisation is exact on linear systems | Fréchet derivatives | partial: exact unless C = I and D is not 0, in which case the call raises |
| C34 | Finite-horizon LQR gain is optimal | Riccati completion of squares, induction on the horizon | proved: exact arithmetic; every horizon >= 1 (horizon 0 raises); also for the inputs returned by make_step in both modes |
| C35 | LQR make_step control law and log | `make_step` of the LQR | partial: false for states given as row vectors; proved for column vectors, with and without input rate penalty |
| C36 | LQR set point can be changed at any time | `set_setpoint` | partial: standard mode proved; in rate mode set_setpoint with one argument, or a second call, breaks or distorts the augmented set point |
| C37 | Configuration freezes at setup | life cycle state machine over all call histories | partial: the solver problem and the guarded configuration are frozen; settings, calls between prepare_nlp and create_nlp, and LQR.set_rterm are not |
| C38 | Bounds can be read back and take effect at once | bounds read/write, alias of terminal bounds | partial: state, input and algebraic bounds; false for terminal bounds and for lb_opt_x/ub_opt_x |
| C39 | Indexed properties act on their own object | descriptor semantics with explicit evaluation order | partial: false for augmented assignments with another object on the right, held references, index expressions, threads |
| C40 | Calling setup again replaces the problem | setup is a function of the configuration | partial: MPC: without soft constraints with a penalty, with the terminal bounds and use_terminal_bounds left unchanged; LQR standard mode; the rest is false (counterexamples) |
| C41 | Sampling plans: unique ids and full grids | planner, induction | partial: holds unless a variable is itself named id (C41_fails_variable_named_id) |
| C42 | Sampling can be interrupted and resumed | all crash points of the sampler | partial: every interruption between effects; a process killed inside the write leaves a torn file taken for finished |
| C43 | DataHandler returns the stored samples | data handler with cache | partial: holds for every query history while files are unchanged, also if data_dir and the post-processing functions are assigned before the first query; counterexamples otherwise |
| C44 | Exported plans do not overwrite files | export names | partial: holds for names without .pkl inside |
| C45 | Structure container round trip | `Structure` refined to an association list of paths | partial: queries and slices proved; an assignment over an existing entry of another shape leaves or loses entries (counterexamples) |
| C46 | Real-time trigger: stop means stop | threads interleaved statement by statement; potential function and explicit schedules | partial: proved if methods do not interrupt each other; in every interleaving the pending triggers are at most the start calls; false in general: a stop can be lost for ever |
| C47 | OPC UA tags round trip | server as finite map | partial: pairwise different existing tags |
| C48 | OPC UA node ids are unambiguous | strings; unique decomposition at `[` | partial: proved for default namespaces of every model; false for user-chosen names and for registering a client twice |
| C49 | Active set partition and multiplier map | index lists | partial: proved; the setting set_lam_zero makes every call raise |
| C50 | Removing undetermined variables is reversible | index lists, scatter/gather | partial: index maps proved; a parameter vector of the wrong length is accepted if anything was removed |
| C51 | Each row of the simulator log is self-consistent | simulator rows | partial: exact description of what is logged; counterexamples for the stale input and algebraic state |
| C52 | Logged auxiliary expressions of the MPC belong to the logged solution | MPC aux rows | partial: false with a robust horizon (parameters of the last branch are logged); exact description proved, and the property without robust horizon |
| C53 | Assigning an initial value copies it | heap of structures | partial: holds for attributes not involved in an assignment of a structure; a.x0 = b.x0 shares the object |
| C54 | Every solver statistic can be stored | solver statistics | partial: exact condition; the documented statistic return_status cannot be stored |
| C55 | The initial time can be set with every documented type | `t0` setter | partial: every DM is refused |
| C56 | The initial guess is made of the initial values | initial guesses | partial: holds; an estimator without the call ignores x0 (prior 0) |
| C57 | Infinite-horizon LQR gain is optimal | infinite-horizon LQR with the Riccati equation as premise | proved: relative to the solution of the Riccati equation returned by SciPy |
| C58 | Returned sensitivities satisfy the linearised optimality conditions | block structure of the KKT matrix on the kept rows; sums over index lists | proved: relative to correct derivatives (CasADi) and a linear solver that returns solutions |
| C59 | Returned sensitivities are the derivatives of the solution | implicit function theorem for the conditions of first order (active set fixed by strict complementarity), uniqueness of the linearised system; chain rule along solution paths; strict local minimality near the solution (coercivity of the Lagrangian on the critical cone) turns first-order paths into solutions | partial: proved (C59_sensitivity_partial for the path of first-order points, C59_solution_partial for every continuous choice of global minimisers, which near the given solution are the only ones) if the status reports LICQ and strict complementarity, the condition of second order holds, the functions are continuously differentiable and the tolerance is positive: then the solution is differentiable and the returned matrices are its derivatives; also (C59_derivative_partial) for differentiable solution paths with a constant active set.  False close to inactive bounds (where strict complementarity is reported to fail) and after changing bounds |
| C60 | The converted DAE model has the solutions of the original model | conversion loops over layouts; chain rule with Mathlib derivatives, constancy of the algebraic residual | partial: continuous time, scalar inputs, noise in the order of the states, constant parameters: solutions coincide; counterexamples for vector inputs, noise order, discrete time and time-varying parameters |
| C61 | ONNX conversion evaluates the network | graph with arbitrary tensors and operators as nested dictionaries updates (Model/Onnx); soundness and completeness of the node loop against the equation system of the graph (Spec/Onnx) by induction over the nodes | proved: tensors and operators are arbitrary; the values of the queries are the unique solution of the graph equations |
| C62 | Converted operators are the ONNX operators | operators on CasADi matrices over the reals; each compared with the Mathlib matrix operation | partial: real arithmetic, matrices; false for Elu with alpha, Gemm without bias or with a row bias on a batch, Concat axis -2, Slice without axes, Reshape of matrices |
| C63 | Inputs of the wrong name or shape are refused | exact acceptance condition of convert from C61; counterexamples | partial: names and one-dimensional lengths are checked; two-dimensional shapes are not, an input named verbose and vectors of variable length can never be converted |
| C64 | Predictions of auxiliary expressions, time-varying parameters and parameters | model of the index computation on top of C20; exact value of each column; counterexamples; cache invariant by induction over the queries | partial: exact result for auxiliary expressions; within the robust horizon the parameter of the last branch is used; scalar time-varying parameters only; parameters are refused; the cache is transparent |
| C65 | Plots show the recorded data | figure as list of lines, line structures as in C45; invariant tying the entries of the structures to the lines, by induction over the calls | partial: proved for all call sequences in which no variable is added twice; a variable added twice is not updated on its first axis, clear keeps predictions, the empty record and the index behind the end raise |
| C66 | default_plot plots exactly the requested variables | model of the checks and of the loop over add_line; induction over the list of variables | partial: proved without a list of algebraic states; such a list is compared with the inputs and refused |
| C67 | animate saves the whole record without overwriting | induction over the frames with C65; file name search as in C19; counterexamples | partial: frames proved for controller data; simulator and estimator data cannot be animated; the search for a free name looks at .pkl files, so that animations are overwritten |
| C68 | Robust constraint satisfaction in closed loop | composition of C04, C06, C07 with the simulator step and the loop of C16; induction over the iterations; `Spec/Guarantees` states "the plant is the model" | proved: closed loop of any length; discrete-time models, C76 for continuous time |
| C69 | A plan is what happens | induction over the stages of a scenario with C04 and C15 | proved: discrete-time models |
| C70 | Recursive feasibility | shifted policy is admissible; C12 both ways; induction over the iterations | proved: nominal controller, discrete-time models, terminal box control invariant; C77 for continuous time |
| C71 | The closed loop is not more expensive than planned | cost of the shifted policy, optimality, telescoping over the iterations | proved: nominal controller, discrete-time models; C78 for continuous time |
| C72 | The MHE returns the end of a best explanation of the recent measurements | `Spec/Estimation`: the estimation problem in physical units; encoding and reading of solver points with C24, C25, C26; run with C21/C23 | partial: discrete-time models, default collocation settings, unscaled estimated parameters; with a scaled estimated parameter the property is false (C72_fails_scaled_parameters) |
| C73 | The MHE is exact on exact data | zero cost of the truth, definiteness, induction over the window and over the calls with C72 | partial: same fragment as C72, false outside it (C73_fails_scaled_parameters); C80 covers continuous-time models |
| C74 | Robust recursive feasibility of multi-stage MPC | the old policy after the realisation that occurred, continued by the terminal controller, is admissible for the next problem; induction over the loop | proved: discrete-time models, robust horizon = horizon (with a shorter one, parameters that keep changing after it are not covered by the plan), no algebraic variables unless one realisation |
| C75 | MPC and MHE together: exact estimates and constraint satisfaction | invariant of the three-object loop: exact window, priors and estimate; C72/C73 for the estimator's problem, one-step lemma of C68 for the controller, shift lemmas of C70/C74 | proved: discrete-time models, no noise, unscaled estimated parameters, default collocation settings |
| C76 | Robust constraint satisfaction for continuous-time plants | as C68, with the collocation polynomials of the plan (C10, C12 for collocation) as trajectory of the plant; induction over the iterations | proved: plant and controller agree in the sense that the integrator ends where the collocation solution ends |
| C77 | Recursive feasibility for continuous-time plants | as C70/C74 with shifted collocation policies; counterexample: a double integrator that overshoots in the last interval, whose interior is not bounded | partial: false with cons_check_colloc_points (the default): the interior of the last interval is not bounded; proved without it or if no admissible trajectory leaves the state bounds on its way into the terminal set |
| C78 | The closed loop with a continuous-time plant costs at most what was planned | as C71 with shifted collocation policies | partial: false with cons_check_colloc_points (the default), as C77; proved under the condition of C77; stage cost without algebraic states (C08_fails_collocation_time) |
| C79 | The closed loop never stops by itself | invariant: both logs keep the columns made by setup; C54 and C15 for one iteration | proved: closed loop with state feedback |
| C80 | What the MHE returns for continuous-time models | C10 turns the rows into collocation solutions; encode/decode between points and explanations; exactness as for C73; counterexample y = z | partial: false if measurements depend on algebraic states (taken at the start of the interval); proved otherwise, with the default settings for the collocation points and unscaled estimated parameters |
| C81 | Estimator and output feedback loop never stop by themselves | invariant: the logs keep the columns made by setup; C17 for the update after the solver | proved: every call of mhe.make_step and every iteration of the loop, for arbitrary solvers |
| C82 | Controller, simulator and estimator together for continuous-time models | invariant of C75 with collocation solutions in place of steps: C80 for the estimator's problem, the interval lemma of C76 for the plant, the shifts of C77 for feasibility | partial: only for measurements that do not depend on algebraic states (false otherwise: C82_fails_algebraic_measurement); default settings for the collocation points, unscaled estimated parameters; recursive feasibility under the hypotheses of C77 |
| C83 | The log of a moving horizon estimator is consistent | induction over the calls for the exact content of the rows; with exact data the minimiser is the truth (C72/C73), so the rows are the plant's; counterexample with an exact solver | partial: what every row holds is proved exactly for every history; the rows are not self-consistent (state and parameters are the previous estimate, auxiliary values come from the new one); with exact data and priors they are (fragment of C72/C73) |
| C84 | A simulator that has been set up keeps its configuration, and its log is in step with the plant | object with the attributes that calls write; induction over the calls (frozen), then C15 for the log; counterexamples for an assignment to settings and for a second setup | partial: proved as long as neither settings is assigned nor setup called again; settings.t_step is not guarded after setup (clock and plant then drift apart) and a second setup makes the next row log aux as 0 |
| C85 | init_algebraic_variables gives a consistent start | unfold the call, C15 for the row | proved: the optimisation that CasADi performs is a hypothesis: it returns a solution of the algebraic equations if there is one |
| C86 | A moving horizon estimator that has been set up keeps its configuration and gets the latest measurements | object with the attributes that calls write; invariants by induction over the calls; counterexamples for settings, second setup, parameter bounds | partial: proved as long as neither settings is assigned nor the problem rebuilt; settings.n_horizon is not guarded (stale measurements), a second setup with another horizon keeps the old measurement template, crossing bounds of estimated parameters are accepted |
| C87 | The closed loop with an infinite-horizon LQR converges to the set point | Loop of the LQR model and the simulator model; the value function telescopes along the loop (completing the square); convergence by summability and compactness of the unit sphere. | proved: convergence over the real numbers, the rest over every ordered field; with input rate penalty every set_setpoint call gives both set points (otherwise C36_fails_*); a finite horizon guarantees nothing of the kind (C87_finite_horizon_may_diverge) |
| C88 | Objects that exchange their results through the OPC UA server behave as if they were connected directly | Clients as small-step processes (one tag per request) over a shared server with recorded history; refinement to mailboxes for whole steps, invariant over all interleavings, counterexample for torn vectors. | partial: proved for every order of whole steps; if requests of two clients interleave, a reader may get components of different vectors (C88_fails_torn): proved then that each component is recent, and the whole vector if no write overlaps the reading |
| C89 | Symbols: setup's substitution, exported variables and pickling preserve the model | Expressions as trees with symbols; sequential substitution = simultaneous substitution (no replacement contains a replaced symbol); invariant of the configuration (fresh, unique symbols), refinement to the functional builder of C27; pickling by re-evaluating the functions on new symbols. | partial: Proved for all histories and expressions. False of the code: model['x','v'] is refused although model['v'] works (C89_fails_tuple); what set_meas returns contains the noise symbol and makes setup raise when it is used in set_expression/set_rhs (C89_fails_meas_expression). Refinement of the functional model of C27 (Model/ModelBuilder.lean), so C27, C29, C30 apply to the symbolic program. |
| C90 | Every controller, estimator and simulator has its own settings; set_param, assignments and setup treat them as documented | Heap model of Python objects (settings objects, instance and class attributes, mutable containers by reference); simulation relation to independent records (every container referred to by at most one setting); counterexamples by evaluation of short histories. | partial: Proved for all histories without sharing and without in-place changes of integration_opts. False of the code: integration_opts is one dictionary for all continuous-time simulators (C90_fails_integration_opts); MPC ignores its settings argument; MHE and LQR settings can be shared and then change after setup; assignments are not guarded after setup; misspelled assignments are accepted; set_param can overwrite methods. |
| C91 | The status of a differentiator says what it claims | exact ranks; kernel characterisations of the matrices, transfer from the reduced NLP, induction over histories of calls | partial: LICQ, full_rank and residuals are proved to mean what they claim for the NLP of the user. False of the code: a field keeps the result of an earlier call when the check is switched off (C91_fails_stale); SC ignores active bounds of variables that do not occur in the problem (C91_fails_sc_removed); lse_solved is true with a least squares solver even if the system has no solution (C91_fails_lse). |
| C92 | The documented sampling pipeline: plan, sample, load | SamplingConf: the attributes of the three objects as dictionaries with data_fields; Python functions with signatures; refinement of the pipeline to the plan, sampler and handler models of C41-C43; induction over configuration calls. | partial: The configuration after any history of calls, and the pipeline for all plans, functions that can be called and directories, are proved. False of the code: Sampler(plan, data_dir=...) only prints a message and samples to ./ while DataHandler(plan, data_dir=...) reads the given directory (C92_fails_data_dir_param); set_sample_function accepts functions with a parameter id or without a parameter for a variable of the plan, which raise at sampling (C92_fails_id_argument, C92_fails_missing_argument). |
| C93 | The documented OPC UA set-up: every client works on its own tags | OpcServer.registerAll over namespaceFromModel; injectivity of node ids ns=<i>;s=<group><label>; composition with the OPC loop of C69. | partial: Proved for all numbers of clients with different names. False of the code for two clients of the same name: they get the same namespace index and the second registration raises (C93_fails_same_name). |
| C94 | A sampling run touches only its own result files and respects overwrite | Over the file system model of C42 and the configuration model of C92: one case, then induction over the list of indices, for arbitrary sample_name/format/overwrite values. | proved: All files, all plans, all configurations with data_dir, sample_name, save_format and overwrite of the types modelled, including runs that raise. |
| C95 | Custom objective terms and constraints are solved exactly as added | Model/CustomNlp: the four attributes as Python lists or CasADi vectors, guards of the setters, vertcat, CasADi's reading of arguments; induction over edits; rows of MPC/MHE as lists of functions with constant bounds. | proved: For all sequences of edits; MPC and MHE instances relate the result to the problem that setup() would have created. |
| C96 | The applied input solves the problem the user configured | Spec/Configured reads the multi-stage problem off the list of calls; invariant over calls before and after setup (Props/Configured.After), then C12's equivalence between minimisers and optimal policies. | proved: End to end from the calls to the input: combines C37, C38 and C12. The conditions are those of the statement; counterexamples without them are C07_fails_*, C08_fails_*, C09_fails_*, C12_fails_*. Discrete time and collocation. |
| C97 | The estimate solves the estimation problem the user configured | Spec/MheConfigured reads the estimation problem off the list of calls; invariant over calls before and after setup (Props/MheConfigured.MheAfter), then C72/C80's equivalence between minimisers and best explanations. | proved: End to end from the calls to the estimate: combines C86 and C72 (C80 for collocation). The conditions are those of the statement; counterexamples without them are C24_fails_*, C26_fails_*, C72_fails_*, C80_fails_*. |
| C98 | Flat solver vectors and power indices describe the same problem | Model/Flat defines structures, flat vectors and index arithmetic as in casadi.tools.structure3; an independent labelling of the flat vector shows that power indices are a bijection; then congruence of objective and constraints. | proved: The order of CasADi's structures (entries in order, last repeat index fastest) is taken from its documentation. The condition that the integrator uses only its own collocation points is proved for the discrete and the collocation integrator (discrete_ownPoints, collocation_ownPoints). |
| C99 | sens_num contains the derivative of the optimal solution at the queried entries | Spec/FlatSens says when an NLP with derivatives is the NLP of an MPC; combine C98's index arithmetic with C59's derivative of the solution path; chain rule for the direction x0. Spec/NlpMin defines solutions; minimisers of the MPC problem are minimisers of the NLP (C98) and thus on the path of C59. | proved: C99_sens_num and C99_feedback_gain: for every continuous selection of global solutions of the MPC problem; the _partial versions are for a given path of first-order points. That the solution is differentiable is proved, not assumed. Remark: the index indexf['_x',0,0] of the class docstring is refused (C99_fails_documented_index). |
| C100 | Flat solver vectors of an estimator describe its problem | Model/FlatMhe lays out opt_x, opt_p, bounds and scaling of the estimator with the structures of Model/Flat; fits/round trip from C98's index lemmas; congruence of objective and constraints. | proved: the power indices themselves are C98 (any structure). |
| C101 | sens_num of an estimator contains the derivative of the estimate | Spec/MheSens says when an NLP with derivatives is the NLP of an estimator; minimisers transfer by C100; C59_solution_along_partial gives the derivative along any smooth change of the parameters; chain rule for one measurement block. | proved: for every continuous selection of global solutions of the estimation problem; differentiability is proved, not assumed. |
| C102 | Nominal MPC with a terminal cost is asymptotically stable | Lyapunov argument on the model of the loop: cost of the closed loop is summable (C71), stage cost bounded below away from the set point, Archimedean field; terminal plan by recursion gives the bound of the optimal cost near the set point. | proved: the conditions in the statement are hypotheses of the theorems (global minimisers are what IPOPT is assumed to return); StabEx meets all of them. Continuous-time plants: C103. |
| C103 | Nominal MPC of a continuous-time model is asymptotically stable under the stated conditions | As C102 on collocation plans (C78 for the closed-loop cost); terminal plan by recursion over sampling intervals. | proved: the conditions in the statement are hypotheses of the theorems; IntegratorEx meets all of them. The condition on cons_check_colloc_points is needed: C77_fails_collocation_points. |
| C104 | Scaling factors change the numbers of the solver, not the problem | Spec/Scaling says when two configurations differ in their scaling only; the scaled discretised models agree in physical units (by induction over collocation rows), hence rows, bounds and cost term by term. | partial: Proved for equal penalties in physical units (SameChangePenalty) and any other difference in scaling. With the same set_rterm factors in both controllers the claim is false: C104_fails_default_penalty. Missing: user-defined rterm expressions (their weighting of scaled changes is C12_fails_user_rterm) and the scaling of estimated parameters (false: C72_fails_scaled_parameters). |
| C105 | A controller that asks for less is feasible whenever the other is | Spec/Robustness relates two configurations; a policy on the larger tree is pulled back along an embedding of histories (Props/Robustness.embed) and translated to and from the NLP by C12's equivalence. | proved: for settings whose NLP is the documented one (RegularConstraints / CollConstraints: nl_cons_single_slack and nl_cons_check_colloc_points off, no algebraic states on a branching tree; the others have counterexamples C07_fails_*). Cost claims also need n_robust < n_horizon (C08_fails_*). |
| C106 | Several processes may sample one plan at the same time | interleaving model of processes running sample_idx over one shared file system; invariants over arbitrary schedules: what each file holds, who called the function, a variant for progress, and equality with the one-process run. | proved: Interleaving semantics of sample_idx with five atomic steps (check, call, check, open/truncate, close); all by induction over the schedule. The premises on the names (GoodNames) are those of the statement. C106_fails_same_case is the boundary: two processes with the same case. Simplified: two processes that have the same file open at once (the last one to close wins); a result that cannot be pickled. |
| C107 | User functions with memory act as functions of time | the user program as a state machine over an arbitrary world with effectful functions; a machine whose clock advances cannot distinguish step-by-step values from a function of time (induction over the run), instantiated for controller, simulator and estimator. | proved: Refinement: the program with a world of structures and functions with effects is simulated by the run-time models with functions of time (Model/MpcRun, Simulator, MheRun). The two C107_fails theorems are the documented surprises at registration and init_algebraic_variables. Not modelled: functions that raise or return a structure with other labels; changing templates from a solver callback. |
| C108 | A lost OPC UA connection is reported and never leads to invented data | Requests with an arbitrary outcome each (done, refused, broken, executed but answer lost); writeLoopW writes a prefix; invariant over all histories (inputs, returned vectors, tags not older than a bound); C88 for histories without exceptions. | partial: Proved for whole steps of the clients (interleaved requests are C88). False of the code: a step that failed while writing has already advanced the object, so that repeating it advances it twice (C108_fails_retry); connect() turns a RuntimeError into a message (C108_fails_connect); address and port of ServerOpts are ignored (C108_fails_endpoint). |
| C109 | A configured controller stays correct for its whole life | Model/Live joins the configuration attributes (Lifecycle) and the run-time attributes (MpcRun) in one object with ten kinds of events; invariant over histories (LiveInv: C96's After, length of the multipliers, log columns, clock, last input), then C12's equivalence. Spec/Live reads clock, last input, bounds and log off the history. | proved: complete for the restrictions in the statement (those of C96: no single slack, no constraints at collocation points, no algebraic states with branching, ...); later calls that change settings, terminal bounds or opt_x bounds are excluded (C37-C40) |
| C110 | A configured estimator behaves like an ideal estimator over its whole life | Model/MheLive joins MheObj and MheSt in one object with nine kinds of events; Spec/MheLive is an ideal estimator (a nondeterministic machine whose answers are best explanations); refinement: invariant MheLiveInv between the machine's memory and the object, C72/C80 for the step, for discrete-time models and collocation. | proved: complete for the restrictions in the statement (those of C97: parameters unscaled, no constraints at collocation points, bounds at all points); a direct call of solve() and later calls that change settings or opt_x bounds are not among the events (C86) |
| C111 | A configured controller and a configured simulator in a loop do what the planned problem says over their whole life | Model/LiveLoop: C109's controller and SimLife's simulator with four kinds of events; Spec/LiveLoop reads time, state, previous input, bounds and the episode's log off the history; invariant LoopInv (LiveInv for the controller, readiness of the simulator, equal clocks and states), then C12's equivalence and the identity of the controller's transcription with the simulator's step (C68, C76). | proved: complete for the restrictions in the statement (those of C96 and full state measurement); events that move only one of the two clocks (a make_step outside of a turn, reset_history or t0 of one object alone) are excluded; process noise is excluded; feasibility is a hypothesis of each turn (its recursion is C74, C77) |
| C112 | With safe terminal bounds a configured loop keeps its constraints for ever, once a plan exists | Spec/LiveSafe states the conditions on the calls, the terminal bounds and the predictions; C111's invariant LoopInv is carried along, the shifted policy of C74/C77/C81 extended by the invariance of the terminal bounds is admissible for the problem of the next turn, and C12's equivalence turns a feasible point into the policy whose first step the simulator does. | proved: complete for the restrictions in the statement (no single slack, no constraints at collocation points, no algebraic states with branching unless one realisation; full state measurement; n_robust = 0 or n_robust >= n_horizon without open_loop); bounds assigned later and new episodes are covered by starting the argument again after them |
| C113 | What the turns of a configured loop cost is bounded by the cost of any plan, and the plant settles | Spec/LiveCost sums lterm over the rows of the history and states the decrease condition; one turn of the live loop applies the first input of an optimal policy (C12, C111's invariant), the policy shifted as in C112 costs at most the old one minus the stage cost (shift_cost of C76), and the sum telescopes over the history; settling from the count bound and the Archimedean property. | proved: complete for the restrictions in the statement (nominal, no penalty on input changes, full state measurement, global minimisers); for continuous-time models the cost bound and the count are proved, with the stage cost independent of algebraic states |
| C114 | Output feedback with configured objects stays safe for ever and every estimate is the true state | Spec/LiveOutLoop states in terms of an ideal estimator's memory (Spec/MheLive) what has to be known at the beginning and what the events are; C112's argument for the controller (shifted policy, invariant terminal bounds) and C110's for the estimator (every answer is a best explanation, and the true explanation has cost 0, hence is the only one) are carried through the script in one invariant; the next window is exact because the plant's move is within the bounds of the controller, hence of the estimator. | proved: complete for the restrictions in the statement (discrete time; no single slack, no constraints at collocation points; n_robust = 0 or n_robust >= n_horizon without open_loop; no noise); knowing the past exactly at the beginning is a hypothesis: without it no finite horizon estimator is exact |
| C115 | Data containers and the arrays they hand out | Model/DataHeap.lean: the container with addresses for its arrays; invariant: attributes of fields are distinct allocated addresses; simulation by the value container of Model/Data.lean, frame lemmas for arrays | proved: complete for base containers (Data of simulator, estimator and MPC); the additional prediction queries of MPCData are C28/C40 |
| C116 | Timer | Model/Timer.lean: the object over an ordered field; strong induction on the calls for the list of times, folds of min/max/sum for info | proved: complete over an ordered field (exact time differences); standard deviation, message text and histogram are not modelled |
| C117 | The order of configuration calls does not matter | the object after configuration calls is a function of the last call per item (conf_run); permutation lemmas for rows, slack cost and slack bounds for the order of the constraints | proved: complete for configuration calls before setup(); bounds assigned after setup() are C38/C109 |
| C118 | Soft constraints cost exactly the worst planned violation | exchange argument on the documented problem (lower one slack / harden / compare two optima), then transported to the solver variables by the refinement of C96 | proved: complete for controllers with the restrictions of C96 (no single slack, no algebraic states with branching, ...), which are PlainCalls; soft constraints without penalty (penalty_term_cons = 0) have slacks that are not determined |
| C119 | Slacks of an estimator are the worst violations of its window | exchange argument on the documented estimation problem (lower one slack, or all copies of a single slack; compare two optima), transported to the solver variables by C72/C80/C97 | proved: complete for estimators with the restrictions of C97 (parameters unscaled, no constraints at collocation points, bounds at all points), which are PlainMheCalls; soft constraints without penalty have slacks that are not determined |
| C120 | Soft constraints never make a problem infeasible, and change it only where they are violated | construction of slacks that cover the violations over the finitely many realisations of each node; comparison of the problem with its hard version for slacks zero; transported by C96_solvable and returned_policy | proved: complete for controllers and estimators, discrete-time and with collocation, with the restrictions of C96 (PlainCalls) and C97 (PlainMheCalls) |

## Findings: where the code does not do what a user relies on

Each item with a theorem name is machine-checked on the model (`DoMpc.` left out); the others were found while reading and are given with their place.

* MPC, collocation: with `cons_check_colloc_points` the points inside the last interval are unbounded (`C06_last_interval_interior_unbounded`).
* MPC, constraints: evaluated with the first branch's algebraic state only (`C07_fails_algebraic_states`); `nl_cons_check_colloc_points` drops every
  constraint of a discrete model (`C07_colloc_setting_discrete_drops_all`).
* MPC, continuous-time models: the stage cost and a user `rterm` get the states at the beginning of an interval and the algebraic states at its end
  (`_z[k, s, -1]` next to `_x[k, s, -1]`, `_mpc.py:1231-1239`; `C08_fails_collocation_time`).
* MPC, `cons_check_colloc_points` (default): the collocation points of the last interval are not bounded, so a plan may leave the state bounds on its way
  into the terminal set and the next problem is infeasible (`C77_fails_collocation_points`).
* MPC, objective: with `n_robust = n_horizon` or algebraic states the cost is no scenario average (`C08_fails_*`); a user `rterm` gets the scaled
  previous input (`C09_fails_user_rterm_scaled`).
* `prediction()` mixes scenarios for a robust horizon of 3 or more, or equal to the horizon (`C20_fails_*`).
* `MPC.reset_history` keeps the warm start and previous input (`C18_fails_mpc`).
* Simulator: the logged aux expressions use the previous input / algebraic state (`C51_fails_*`); MPC aux of robust problems (`C52_fails_robust`).
* Solver statistics: `return_status` cannot be stored (`C54_fails_return_status`).
* `save_results`: two concurrent savers (`C19_fails_concurrent`).
* Sampling: `C41_fails_variable_named_id`, `C42_fails_torn_file`, `C42_fails_pkl_in_name`, `C43_fails_*`, `C44_fails_*`.
* MHE: returned estimate may violate its bounds (`C24_fails_returned_estimate`); estimated parameters with scaling (`C25_fails_scaled_parameters`);
  constraints not at the current estimate (`C26_fails_*`); prior zero without `set_initial_guess` (`C56_fails_mhe_prior_without_guess`).
* Initial values: `a.x0 = b.x0` shares the object (`C53_fails_shared`); `t0` refuses every DM (`C55_fails_dm`).
* Model: `set_variable('timevarying_parameter')` refused (`C28_fails_…`); a second `set_rhs` replaces the first (`C29_fails_second_rhs`).
* Linear models: `discretize` drops D (`C31_fails_discretize_drops_D`); steady states (`C32_fails_*`); `linearize` with C = I and D ≠ 0
  (`C33_fails_identity_C_with_D`).
* LQR: row vectors (`C35_fails_row_vector`); set points in rate mode (`C36_fails_*`); `setup` twice (`C40_fails_lqr_rate`); `set_rterm` after setup
  (`C37_fails_lqr_set_rterm`); `n_horizon = 0` raises `UnboundLocalError` (`C34_horizon_zero`).
* Life cycle: `C37_fails_*`, `C40_fails_*`; bounds: `C38_fails_*` (terminal bounds alias the state bounds); indexed properties: `IP.C39_fails_*`.
* `Structure`: `Struct.C45_fails_*`.
* OPC UA: `Opc.C46_fails_*` (a stop request can be lost for ever), `Opc.C47_fails_*`, `Opc.C48_fails_*`.
* Differentiator: `Diff.C49_fails_set_lam_zero`, `Diff.C50_fails_wrong_length_accepted`, `Diff.C59_fails_*`.
* `dae2odeconversion`: vector inputs, noise order, discrete models, time-varying parameters (`Dae.C60_fails_*`).
* ONNX: `Onnx.C62_fails_*` (Elu alpha, Gemm bias, Concat axis, Slice defaults, Reshape order), `Onnx.C63_fails_*` (unchecked shapes, `verbose`).
* Predictions: auxiliary expressions within the robust horizon use the last branch's parameter, vector-valued time-varying parameters are mixed up,
  parameters are refused (`C64_fails_*`).
* Graphics: `Gfx.C65_fails_*`; `dae_states_list` is compared with the inputs (`Gfx.C66_fails_dae`); `animate` fails for simulator data and overwrites
  animations (`Gfx.C67_fails_*`).
* MHE of a continuous-time model with measured algebraic states: `_mhe.py:1126-1142` pairs the state at the end of the interval with the algebraic state at
  its beginning; with exact data and priors the estimate is wrong (`C80_fails_algebraic_measurement`).
* MHE log: `_x`, `_p` of a row are the previous estimate while `_aux` is evaluated at the new one (`_mhe.py:955-975`), so rows are not self-consistent
  (`C83_fails_aux_is_not_of_the_row`).
* `simulator.settings.t_step = …` after `setup` is accepted: the clock and the log then advance by the new step, the plant by the old one
  (`C84_fails_settings`); calling `setup()` again makes the next row log the auxiliary expressions as 0 (`C84_fails_setup_again`).
* `mhe.settings.n_horizon = …` after `setup` is accepted and leaves stale measurements in the problem (`C86_fails_settings`); after a second `setup` with a
  shorter horizon the default measurement function still fills the old template and new measurements never reach the solver (`C86_fails_setup_again`);
  `_mhe.py:823` does not check the bounds of the estimated parameters (`C86_fails_parameter_bounds`).
* OPC UA: vectors are read and written tag by tag without a lock; a controller can be given a vector that mixes components of two plant outputs (`C88_fails_torn`).
* Model: `model['x','v']` raises although `model['v']` works (`_model.py:178` lacks `'v'`, `C89_fails_tuple`); expressions formed before `setup` - also those
  returned by `set_expression` and `set_meas` - keep symbols that the model no longer has (`C89_derived_refused`); the expression returned by `set_meas`
  contains the measurement noise and cannot be used in other model equations (`C89_fails_meas_expression`).
* Settings: `ContinousSimulatorSettings` (`simulator.py:64-102`) is not a dataclass; its `integration_opts` is one dictionary for all simulators,
  so that adding an option for one simulator adds it for all others, also for later ones (`C90_fails_integration_opts`).  `MPC(model, settings = s)`
  ignores `s` (`controller/_mpc.py:168-169`, `C90_fails_mpc_argument`).  `settings` of `MHE` and `LQR` can be replaced and then aliases
  (`C90_fails_shared_object`, `C90_fails_frozen_shared`); assignments to the settings object are not guarded after `setup`
  (`C90_fails_frozen_assign`), misspelled ones are accepted silently (`C90_fails_misspelled`); `set_param` overwrites methods (`C90_fails_method`).
* `status` of the differentiator: `LICQ`, `SC`, `residuals`, `full_rank` keep the value of an earlier call when the check is switched off, although documented as `None` if not checked (`Diff.C91_fails_stale`); `SC` does not look at bounds of variables that do not occur (`Diff.C91_fails_sc_removed`); `lse_solved` is true for least squares even if there is no solution (`Diff.C91_fails_lse`).
* `LinearModel.setup` does not check the shapes of `C` and `D` (`_linearmodel.py:204-208`): a scalar `D` is added to every measurement, a scalar `C` measures every state (`C31_fails_shapes_unchecked`).
* ONNX `Add`/`Sub`/`Mul` with broadcasting: a row vector (`1 × n`) against an `m × n` matrix is refused although ONNX broadcasts it, and shapes ONNX refuses (`m × n` against `m × kn`) are accepted and repeated horizontally (`C62_fails_broadcast_row`).
* `Sampler(plan, data_dir=d)` and `sampler.set_param(data_dir=d)` only print a message (`_sampler.py:70-75,126-130`): samples go to `./`, while `DataHandler(plan, data_dir=d)` (`_datahandler.py:78-82`) reads `d` and returns `res: None` (`C92_fails_data_dir_param`).  `set_sample_function` accepts functions with a parameter `id` or lacking a variable of the plan (`_sampler.py:163-165`), which raise at sampling (`C92_fails_id_argument`, `C92_fails_missing_argument`); an unknown `save_format` raises `UnboundLocalError` (`C92_refused`).
* Two OPC UA clients of the same name: the second registration raises (`Opc.C93_fails_same_name`).
* C12_fails_user_rterm / C12_fails_make_step / C12_fails_full_robust_horizon: the input returned by `make_step` need not be the first input of any optimal policy of the problem the user stated: with a user-defined `rterm` and scaled inputs (`_mpc.py:1246-1261`), and with `n_robust = n_horizon` (terminal costs weighted by the last stage's branching).
* MheFails.C72_fails_scaled_parameters / C73_fails_scaled_parameters: with a scaled estimated parameter the estimate is not the minimiser of the user's cost, and exact data do not give exact estimates (`_mhe.py`, arrival cost compares scaled and unscaled parameter).
* C78_fails_collocation_points, C82_fails_algebraic_measurement: end-to-end loops in which the closed loop ends in an infeasible problem although all textbook conditions hold (default `cons_check_colloc_points`), and in which the estimate is 3/2 while the plant is at 1 (measured algebraic state).
* C95: `create_nlp` does not compare the numbers of constraints and bounds; a single bound is silently applied to all constraints, no bound at all to mean 0 (CasADi's reading of arguments); `nlp_cons_lb`/`nlp_cons_ub` can be assigned after `create_nlp` and take effect, the documentation asks for changes before.
* The class documentation of `DoMPCDifferentiator` (`_nlpdifferentiator.py:755`) queries `sens_num['dxdp', indexf['_u',0,0], indexf['_x',0,0]]`; `opt_p` has no `_x`, so it raises for every MPC (`FlatEx.C99_fails_documented_index`); `indexf['_x0']` works.
* C104_fails_default_penalty: the factors of `set_rterm` weigh changes of *scaled* inputs (`_mpc.py:1251-1255`) although documented as penalty of the input: scaling an input by `s` divides the penalty by `s²` and changes the input that `make_step` returns.
* `Sampler.sample_idx` checks twice that the result file does not exist (`_sampler.py:218`, `:191`) but neither check is atomic with the write (`tools/__init__.py:38`): two processes (or two runs of the script) that work on the same case both call the sample function, and the later one replaces the complete result of the earlier although `overwrite` is off (`C106_fails_same_case`). If every case is given to one process (`pool.map` over the indices) there is no such race (`C106_*`).
* Registering a user function calls it: `set_tvp_fun` (`optimizer.py:670-671`, `simulator.py:402-403`) and `Simulator.set_p_fun` (`simulator.py:482-483`) twice at time 0, the others once. The random walk documented in `Simulator.set_p_fun` therefore does not start at the values in the template (`C107_fails_first_value`), and `init_algebraic_variables` (`simulator.py:538`) advances it once more, so that the algebraic states are initialised for other parameter values than those of the first step (`C107_fails_init`). Within `make_step` everything is consistent (`C107_sim_log`).
* OPC UA and lost connections: `writeData`/`readData` handle `ConnectionRefusedError` by printing `self.type` (`_client.py:124`, `:143`), an attribute no `RTClient` has, so that an `AttributeError` is raised instead of the intended message and `False`.  `RTClient.connect`
  swallows `RuntimeError` (`_client.py:95-101`), so that the handler in `RTBase.connect` (`_base.py:136-139`) is dead and `connect()` returns normally without a connection (`Opc.C108_fails_connect`).  A `make_step` that fails while writing has advanced the object (`Opc.C108_fails_retry`).
  `RTServer` never passes address and port of its options on (`_server.py:63-77`), nor `RTClient` the port (`Opc.C108_fails_endpoint`).
* `Data.export()` and queries of a whole field (`data['_x']`) return the arrays of the container themselves (`data.py:150-156,220-227`): writing into the result alters the log, but only until the next `update` or reset, which silently detaches it
  (`C115_write`, `C115_attached`).  `Timer.toc` tests `assert self.t_start`, so that a start at the time 0 counts as none (`C116_toc`).
* Not formalised: `optimizer.py:727` `compile_nlp` ends with the undefined name `nlpsol`; the default options for `nlpsol` (`controller/_mpc.py:1292-1297`, `estimator/_mhe.py:1218-1223`)
  are built, updated in place and thrown away (`dict.update` returns `None`), so that `expand = False` and the linear solver are never passed on; `set_p_fun`, `set_tvp_fun`, `set_uncertainty_values` are not guarded after `setup`; the client error paths of `opcua`
  refer to the undefined `self.type`; `np.alltrue` (LQR) was removed in NumPy 2.


## Axioms of each theorem in MANIFEST.json

Obtained with `#print axioms`; the prefix `DoMpc.` is left out.

* **none** (7): C01_empty_horizon_refused, C20_fails_full_robust_horizon, C20_fails_robust_horizon_3, C55_fails_dm, Opc.C108_fails_connect, Opc.C108_fails_endpoint, Opc.C47_fails_unknown_tag

* **propext** (29): C03_unknown_refused, C19_fails_concurrent, C41_fails_variable_named_id, C41_refused, C43_fails_cached_missing, C43_fails_dir_change, C43_fails_filter_locals, C43_fails_sequence_index, C53_fails_shared, C53_shared_structure, C53_sizes, C64_fails_parameters, Gfx.C65_fails_empty, IP.C39_fails_whole_assignment, Opc.C47_wrong_size_refused, Opc.C88_fails_torn, Settings.C90_fails_frozen_assign, Settings.C90_fails_frozen_shared, Settings.C90_fails_integration_opts, Settings.C90_fails_method, Settings.C90_fails_misspelled, Settings.C90_fails_mpc_argument, Settings.C90_fails_mpc_argument_ex, Settings.C90_fails_shared_dict, Settings.C90_fails_shared_object, Settings.C90_replace_ignored, Struct.C45_fails_list_over_scalar, Struct.C45_fails_scalar_over_list, Struct.C45_fails_shorter_list

* **propext, Quot.sound** (101): C06_initial_state_unbounded, C06_last_interval_interior_unbounded, C07_colloc_setting_discrete_drops_all, C100_obj_congr, C100_opt_p_round_trip, C100_opt_x_round_trip, C100_rows_congr, C100_size, C100_unscaled, C107_calls_mhe, C107_calls_mpc, C107_calls_sim, C107_mpc_time, C107_registrations, C115_attached, C115_snapshot, C116_times, C116_toc, C120_unused_estimator, C13_refused, C17_update_append_only, C17_update_appends, C17_update_ok_iff, C17_widths, C18_mpc_reset_keeps, C18_mpc_reset_partial, C18_simulator_reset, C19_unknown_refused, C22_split_merge, C22_unknown_names_ignored, C26_constraints_iff_partial, C26_fails_colloc_setting, C26_objective_partial, C31_discretize_refuses_discrete, C31_setup_refuses, C37_create_again, C37_fails_objective_after_prepare, C37_fails_settings, C37_guarded, C37_setup_problem, C38_effect_partial, C38_effect_state, C38_fails_opt_bound_overwritten, C38_fails_opt_bound_read, C38_fails_terminal_changes_path, C38_fails_terminal_no_effect, C38_fails_terminal_read, C38_opt_bound, C38_read_back, C40_fails_soft_constraint, C40_fails_warm_start, C41_variables, C53_constructor_private, C53_independent_partial, C55_set_time_partial, C56_fails_mhe_prior_without_guess, C64_fails_vector_tvp, C64_tvp_partial, C84_frozen, C84_setup_succeeds_iff, C85_refused_before_setup, C86_bounds_effect_partial, C86_bounds_read_back, C86_configured_problem, C86_create_again, C86_guarded, C86_opt_bound, C86_setup_problem, C86_setup_returns_iff, C86_setup_succeeds_iff, C92_accepted_iff, C98_accepted, C98_no_alias, C98_read, C98_size, Custom.C95_frozen, Custom.C95_new_bounds, Diff.C49_fails_set_lam_zero, Diff.C50_wrong_length_refused, Gfx.C65_fails_added_twice, Gfx.C65_fails_index, Gfx.C66_fails_dae, Gfx.C67_fails_overwrite, Gfx.C67_fails_simulator, IP.C39_others_untouched, IP.C39_partial, IP.C39_statement_partial, Opc.C46_fails_lost_trigger, Opc.C46_fails_overlap, Opc.C46_fails_race, Opc.C46_fails_two_triggers, Opc.C46_partial, Opc.C46_periodic, Opc.C46_stop_before_start, Opc.C47_fails_repeated_tag, Opc.C48_fails_ambiguous_names, Sym.C89_derived_refused, Sym.C89_getstate, Sym.C89_other_model_refused, mhe_queries_are_the_solver_calls, queries_are_the_solver_calls

* **propext, Classical.choice, Quot.sound** (483): C01_scenario_tree_is_tree, C02_nodes_are_histories, C02_nominal_without_robust_horizon, C02_path_parameter_freezes, C03_uncertainty_values, C04_C07_rows_iff_discrete, C04_C10_rows_iff_collocation, C04_feasible_follows_model, C04_rows_iff_any_discretisation, C05_nonanticipative, C06_bounds_iff_physical, C06_feasible_nodes_within_bounds, C07_fails_algebraic_states, C07_fails_colloc_setting_discrete, C07_feasible_branch_constraints_partial, C07_feasible_respects_constraints, C08_fails_algebraic_states, C08_fails_collocation_time, C08_fails_full_robust_horizon, C08_objective_average_partial, C09_default_change_penalty, C09_fails_user_rterm_scaled, C09_user_rterm_as_coded, C09_user_rterm_partial, C100_flat_feasible, C100_minimiser, C100_opt_p_vector, C100_opt_x_vector, C100_same_problem, C101_estimator_gain, C101_sens_num, C102_convergence, C102_endless_run, C102_stability, C102_terminal_plan, C103_convergence, C103_stability, C103_terminal_plan, C104_cost_partial, C104_estimates, C104_fails_default_penalty, C104_feasible, C104_inputs_partial, C104_mhe_cost, C104_mhe_feasible, C104_same_explanation, C104_same_plan, C105_best_cost, C105_cost, C105_cost_collocation, C105_feasible, C105_feasible_collocation, C106_alone, C106_as_sample_data, C106_calls, C106_fails_same_case, C106_files, C106_process, C106_progress, C107_fails_first_value, C107_fails_init, C107_mhe, C107_mpc, C107_mpc_log, C107_sim, C107_sim_log, C109_log, C109_runs, C109_step, C109_step_collocation, C10_collocation_iff, C110_guess, C110_history, C110_history_collocation, C111_log, C111_runs, C111_safe, C111_turn, C111_turn_collocation, C112_every_turn, C112_for_ever, C112_for_ever_collocation, C113_bound, C113_cost, C113_cost_collocation, C113_settles, C114_output_feedback, C115_log, C115_results, C115_write, C116_info, C116_total, C117_constraints, C117_constraints_estimator, C117_estimator, C117_order, C117_overwritten, C117_overwritten_estimator, C117_overwritten_simulator, C117_permutation, C117_permutation_estimator, C117_permutation_simulator, C117_simulator, C118_hard, C118_larger_penalty, C118_larger_penalty_collocation, C118_optimal_slack, C118_optimal_slack_collocation, C118_penalty, C118_slack, C118_slack_collocation, C118_zero_violation, C119_larger_penalty, C119_optimal_slack, C119_optimal_slack_collocation, C119_penalty, C119_slack, C119_slack_collocation, C11_bookkeeping, C120_as_hard, C120_as_hard_collocation, C120_as_hard_estimator, C120_as_hard_estimator_collocation, C120_never_blocks, C120_never_blocks_collocation, C120_never_blocks_estimator, C120_never_blocks_estimator_collocation, C120_relax, C120_relax_collocation, C120_relax_estimator, C120_relax_estimator_collocation, C120_unused, C120_unused_collocation, C120_unused_estimator_collocation, C12_admissible_is_feasible, C12_admissible_is_feasible_collocation, C12_fails_full_robust_horizon, C12_fails_make_step, C12_fails_user_rterm, C12_feasible_iff_collocation, C12_feasible_is_admissible, C12_feasible_is_admissible_collocation, C12_first_input_collocation_partial, C12_first_input_of_optimal_policy_partial, C12_make_step_optimal_partial, C12_objective_collocation, C12_objective_is_policy_cost, C12_solver_problem_feasible_iff, C13_log, C13_solution_row, C14_warm_start, C15_log, C15_succeeds_iff, C16_closed_loop, C17_query, C18_fails_mpc, C19_never_destroys, C19_saves, C20_columns_are_scenarios_iff, C20_fails_algebraic_states, C20_prediction_is_scenario_partial, C21_C23_problem, C22_exactly_one, C22_merge_selects, C23_log, C23_measurements_logged, C23_reset_keeps_prior, C24_C25_C26_feasible_iff, C24_bounds_iff_partial, C24_bounds_without_colloc, C24_fails_returned_estimate, C25_fails_scaled_parameters, C25_rows_iff_as_coded, C25_rows_iff_collocation, C25_rows_iff_partial, C26_default_objective, C26_fails_current_estimate, C27_frozen, C27_functions, C27_refused_no_effect, C27_setup_iff, C28_fails_timevarying_parameter, C28_set_variable_partial, C29_duplicate_variable_partial, C29_fails_second_rhs, C30_state_feedback, C31_discretize_partial, C31_fails_discretize_drops_D, C31_fails_shapes_unchecked, C31_setup, C31_setup_appends_meas, C31_setup_equations, C31_setup_no_D, C31_setup_refines_model, C31_setup_state_feedback, C32_both_given, C32_fails_no_equilibrium, C32_fails_singular_A, C32_input_from_state_partial, C32_input_from_state_square, C32_state_from_input, C33_fails_identity_C_with_D, C33_first_order, C33_partial, C34_default_terminal_weight, C34_gain_optimal, C34_horizon_zero, C34_make_step_optimal, C34_make_step_optimal_rate, C35_fails_row_vector, C35_rate_partial, C35_standard, C36_fails_rate_input_lost, C36_fails_rate_one_argument, C36_rate_partial, C36_standard, C37_configured_problem, C37_fails_lqr_set_rterm, C37_fails_scaling_after_prepare, C37_frozen, C37_lqr_objective, C37_setup_returns_iff, C37_setup_succeeds_iff, C38_history_partial, C40_fails_lqr_rate, C40_fails_terminal, C40_lqr_standard, C40_partial, C41_add_case, C41_gen, C41_ids_distinct, C41_product, C42_existing_files_kept, C42_fails_pkl_in_name, C42_fails_torn_file, C42_index_refused, C42_resume_partial, C42_success_is_complete, C43_filter_configured_partial, C43_filter_partial, C43_get_configured_partial, C43_get_partial, C44_export_partial, C44_fails_exhausted, C44_fails_name_with_pkl, C51_fails_algebraic_state, C51_fails_aux_of_previous_input, C51_logged_aux_exact, C51_logged_aux_partial, C52_fails_robust, C52_logged_aux_exact, C52_logged_aux_partial, C54_fails_return_status, C54_make_step_succeeds_iff, C56_mhe_first_call, C56_mhe_initial_guess, C56_mpc_first_call, C56_mpc_initial_guess, C57_error_propagates, C57_infinite_horizon, C64_aux_exact, C64_aux_partial, C64_cache, C64_fails_robust_horizon, C68_robust_constraint_satisfaction, C69_plan_is_reproduced, C70_recursive_feasibility, C71_closed_loop_cost, C71_performance_bound, C72_estimates_partial, C72_minimiser_iff, C73_exact_estimates_partial, C74_robust_recursive_feasibility, C74_safe_for_ever, C75_output_feedback, C75_recursive_feasibility, C75_robust_recursive_feasibility, C76_robust_constraint_satisfaction, C77_fails_collocation_points, C77_recursive_feasibility_partial, C77_robust_recursive_feasibility_partial, C78_closed_loop_cost_partial, C78_fails_collocation_points, C79_loop_runs, C79_loop_stops_iff, C80_estimates_partial, C80_exact_estimates_partial, C80_fails_algebraic_measurement, C80_minimiser_is_best, C81_estimator_runs, C81_make_step_succeeds_iff, C81_output_feedback_runs, C82_fails_algebraic_measurement, C82_output_feedback_partial, C82_recursive_feasibility_partial, C82_robust_recursive_feasibility_partial, C83_exact_log_partial, C83_fails_aux_is_not_of_the_row, C83_log_exact, C84_fails_settings, C84_fails_setup_again, C84_log_partial, C85_consistent_start, C86_fails_parameter_bounds, C86_fails_settings, C86_fails_setup_again, C86_frozen, C86_measurements_partial, C87_rate_converges, C87_rate_cost, C87_rate_law, C87_standard_converges, C87_standard_cost, C87_standard_law, C92_configuration, C92_data_dir, C92_data_dir_handler, C92_fails_data_dir_param, C92_fails_id_argument, C92_fails_missing_argument, C92_pipeline_partial, C92_refused, C94_files, C96_returned_input, C96_returned_input_collocation, C96_solvable, C96_solvable_collocation, C97_estimate, C97_estimate_collocation, C98_cover, C98_flat_feasible, C98_minimiser, C98_obj_congr, C98_opt_p_round_trip, C98_opt_p_vector, C98_opt_x_round_trip, C98_opt_x_vector, C98_rows_congr, C98_same_problem, C98_unscaled, C98_variable, C99_feedback_gain, C99_feedback_gain_partial, C99_kkt_feasible, C99_sens_num, C99_sens_num_partial, Custom.C95_custom_problem, Custom.C95_mhe, Custom.C95_mpc, Custom.C95_sizes, Dae.C60_configured, Dae.C60_configured_variables, Dae.C60_discrete_partial, Dae.C60_fails_discrete, Dae.C60_fails_noise_order, Dae.C60_fails_tvp, Dae.C60_fails_vector_input, Dae.C60_solutions_partial, Dae.C60_succeeds_iff, Diff.C49_multiplier_map, Diff.C49_partition, Diff.C50_fails_wrong_length_accepted, Diff.C50_map_back, Diff.C50_partition, Diff.C58_linearized_kkt, Diff.C59_derivative_checked_partial, Diff.C59_derivative_partial, Diff.C59_do_mpc_partial, Diff.C59_fails_stale_bounds, Diff.C59_fails_tolerance, Diff.C59_sensitivity_do_mpc_partial, Diff.C59_sensitivity_partial, Diff.C59_solution_along_partial, Diff.C59_solution_partial, Diff.C91_certificate, Diff.C91_fails_lse, Diff.C91_fails_sc_removed, Diff.C91_fails_stale, Diff.C91_full_rank, Diff.C91_history_partial, Diff.C91_licq, Diff.C91_never_checked, Diff.C91_residual, Diff.C91_sc_partial, FlatEx.C99_fails_documented_index, Gfx.C65_fails_clear, Gfx.C65_fails_parameter, Gfx.C65_predictions_partial, Gfx.C65_results_partial, Gfx.C66_default_plot_partial, Gfx.C67_file_partial, Gfx.C67_frames_partial, IP.C39_fails_augmented_assignment, IP.C39_fails_held_reference, IP.C39_fails_index_expression, IP.C39_fails_index_read, IP.C39_fails_threads, LqrLoopEx.C87_finite_horizon_may_diverge, MheFails.C72_fails_scaled_parameters, MheFails.C73_fails_scaled_parameters, Onnx.C61_evaluation, Onnx.C61_history, Onnx.C61_succeeds_iff, Onnx.C62_add, Onnx.C62_broadcast_partial, Onnx.C62_concat_columns, Onnx.C62_concat_rows, Onnx.C62_dense_layer, Onnx.C62_elu_partial, Onnx.C62_fails_broadcast_row, Onnx.C62_fails_concat_negative_axis, Onnx.C62_fails_elu_alpha, Onnx.C62_fails_gemm_row_bias, Onnx.C62_fails_gemm_without_bias, Onnx.C62_fails_reshape, Onnx.C62_fails_slice_defaults, Onnx.C62_fails_slice_other_attribute, Onnx.C62_gemm_partial, Onnx.C62_matmul, Onnx.C62_mul, Onnx.C62_relu, Onnx.C62_reshape_partial, Onnx.C62_sigmoid, Onnx.C62_slice, Onnx.C62_slice_one_axis_partial, Onnx.C62_slice_two_axes_partial, Onnx.C62_sub, Onnx.C62_tanh, Onnx.C63_fails_two_dimensional, Onnx.C63_fails_variable_length, Onnx.C63_fails_verbose, Onnx.C63_length_refused_partial, Onnx.C63_names_refused, Opc.C108_fails_retry, Opc.C108_history, Opc.C108_linked, Opc.C108_recovers, Opc.C108_silent, Opc.C108_silent_history, Opc.C108_step, Opc.C108_unconnected, Opc.C108_undisturbed, Opc.C46_pending_le_starts_partial, Opc.C47_missing_tag, Opc.C47_round_trip_partial, Opc.C48_default_entries, Opc.C48_default_namespace, Opc.C48_distinct_partial, Opc.C48_fails_default_name, Opc.C48_fails_registered_twice, Opc.C88_mpc_loop, Opc.C88_reading_partial, Opc.C88_steps, Opc.C88_undisturbed, Opc.C88_uninterrupted, Opc.C93_closed_loop, Opc.C93_fails_same_name, Opc.C93_tags, Settings.C90_assign_partial, Settings.C90_defaults_partial, Settings.C90_frozen, Settings.C90_independent_partial, Settings.C90_mutate_partial, Settings.C90_set_param_partial, Settings.C90_settings_partial, Settings.C90_setup_partial, Struct.C45_full_slice, Struct.C45_get_index, Struct.C45_others_unaffected, Struct.C45_overwrite_scalar, Struct.C45_query, Struct.C45_round_trip_partial, Struct.C45_slice, Struct.C45_slice_layout, Sym.C89_coherent, Sym.C89_fails_meas_expression, Sym.C89_fails_tuple, Sym.C89_functions, Sym.C89_handles, Sym.C89_setstate, Sym.C89_setstate_iterate, Sym.C89_setup, Sym.C89_tuple_partial

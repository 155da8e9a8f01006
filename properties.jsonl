{"id": "C01", "title": "Scenario tree is a tree", "statement": "For every horizon, robust horizon and number of uncertainty combinations, the tree an MPC builds has c^min(k,n_robust) nodes at stage k, every node at stage k+1 is reached from exactly one (node, branch) pair of stage k, and the recorded parent of that node is that node.", "quantifier": "all n_horizon >= 1, n_robust >= 0, n_combinations >= 1, all stages, nodes and branches", "why_tests_cant": "The node count is exponential in n_robust; a test fixes one or two small trees.", "anchors": ["do_mpc/optimizer.py:_setup_scenario_tree"]}
{"id": "C02", "title": "Scenarios are exactly the realisation sequences; parameters freeze after the robust horizon", "statement": "The nodes at stage k are in one-to-one correspondence with the sequences of min(k,n_robust) uncertainty realisations; branching off with realisation b appends b to the sequence, and after the robust horizon the branch keeps using the realisation chosen last (the nominal one when n_robust=0).", "quantifier": "all trees, all nodes, all branches", "why_tests_cant": "Needs every sequence of realisations of every length.", "anchors": ["do_mpc/optimizer.py:_setup_scenario_tree", "do_mpc/controller/_mpc.py:_prepare_nlp (current_scenario)"]}
{"id": "C03", "title": "Uncertainty values are combined exhaustively, nominal first", "statement": "After set_uncertainty_values the parameter scenarios are exactly the combinations of one listed value per named parameter, each combination of positions once; scenario 0 takes the first value of every parameter; parameters not named keep 0; unknown names are refused and leave the controller unchanged.", "quantifier": "all dictionaries of names to value lists", "why_tests_cant": "The number of dictionaries and of value lists is unbounded.", "anchors": ["do_mpc/controller/_mpc.py:set_uncertainty_values", "do_mpc/controller/_mpc.py:get_p_template", "do_mpc/controller/_mpc.py:set_p_fun"]}
{"id": "C04", "title": "A feasible MPC solution follows the model on every scenario, and nothing else is demanded", "statement": "For every scaling, a point is feasible for the equality constraints of the MPC problem iff, in physical units, the root state is the measured state and along every branch the successor state is what the discretised model gives for the node's state, input, the stage's time-varying parameter and the branch's parameter realisation.", "quantifier": "all models, scalings > 0, horizons, trees, parameter values and candidate points", "why_tests_cant": "Quantifies over all models and all real-valued trajectories.", "anchors": ["do_mpc/controller/_mpc.py:_prepare_nlp", "do_mpc/optimizer.py:_setup_discretization"]}
{"id": "C05", "title": "Non-anticipativity of the inputs", "statement": "Two scenarios that share their realisation history up to stage k use the same input at stage k (so the input returned by make_step is unique); with open_loop all scenarios share one input per stage.", "quantifier": "all trees, stages, pairs of scenarios, both open_loop settings", "why_tests_cant": "Exponentially many scenario pairs.", "anchors": ["do_mpc/controller/_mpc.py:_prepare_nlp (opt_x _u, s_u)"]}
{"id": "C06", "title": "Bounds are enforced in physical units on every node", "statement": "A point respects the MPC variable bounds iff in physical units every input, every state at stages 1..N-1 and every algebraic state of every scenario is within the user's bounds, the states at stage N are within the terminal bounds, and slacks are within [0, maximum_violation]; the initial state is never bounded.", "quantifier": "all bounds (including infinite), all scalings > 0, all settings of cons_check_colloc_points, all points", "why_tests_cant": "Real-valued quantification with scaling; tests only sample.", "anchors": ["do_mpc/controller/_mpc.py:_update_bounds", "do_mpc/optimizer.py:lb_opt_x", "do_mpc/optimizer.py:ub_opt_x", "do_mpc/optimizer.py:bounds"]}
{"id": "C07", "title": "Nonlinear and soft constraints hold at every node", "statement": "With default settings every feasible point satisfies, at every stage, node and branch, each user constraint expr <= ub when hard and expr <= ub + eps with 0 <= eps <= maximum_violation when soft; the same must hold when constraints are checked on the collocation points.", "quantifier": "all constraint lists, models, trees, points", "why_tests_cant": "Quantifies over all constraint functions and points.", "anchors": ["do_mpc/controller/_mpc.py:_prepare_nlp (nl_cons)", "do_mpc/optimizer.py:set_nl_cons", "do_mpc/optimizer.py:_setup_nl_cons"]}
{"id": "C08", "title": "MPC objective is the scenario-averaged cost", "statement": "In physical units the economic part of the MPC objective equals the uniform average over all scenarios of the accumulated stage cost plus the terminal cost of the scenario's own leaf.", "quantifier": "all models, costs, trees, points", "why_tests_cant": "Quantifies over all cost functions and trees, including n_robust >= n_horizon.", "anchors": ["do_mpc/controller/_mpc.py:_prepare_nlp (lterm, mterm, omega)"]}
{"id": "C09", "title": "Input-change penalty compares consecutive inputs of the same scenario", "statement": "The default rterm penalises, at each node, factor times the squared change to the input of the parent node, and at stage 0 the change to the input applied last, all in scaled units; a user supplied rterm receives the physical current and previous input.", "quantifier": "all trees, inputs, scalings, both rterm kinds", "why_tests_cant": "Quantifies over all inputs and scalings.", "anchors": ["do_mpc/controller/_mpc.py:_prepare_nlp (U regularization)", "do_mpc/controller/_mpc.py:set_rterm"]}
{"id": "C10", "title": "Collocation solutions are piecewise polynomials that satisfy the ODE at the collocation points", "statement": "For every degree, number of finite elements and set of distinct collocation points: a point satisfies the collocation equations of an interval iff on each finite element the interpolating polynomial of degree <= deg starts at the element's initial state, its derivative at each collocation point equals the right-hand side there, the algebraic equations hold, and its end value is the next element's initial state (the last one being the successor state).", "quantifier": "all deg >= 1, ni >= 1, distinct nodes, step lengths, right-hand sides and candidate points", "why_tests_cant": "Quantifies over all degrees and real-valued trajectories.", "anchors": ["do_mpc/optimizer.py:_setup_discretization"]}
{"id": "C11", "title": "Collocation bookkeeping always balances", "statement": "For all dimensions, the unknowns of an interval are consumed exactly, the number of equations equals the number of unknowns and the internal assertions never fail, so setup never aborts there.", "quantifier": "all deg, ni >= 1, n_x, n_z", "why_tests_cant": "Unbounded dimensions.", "anchors": ["do_mpc/optimizer.py:_setup_discretization"]}
{"id": "C12", "title": "make_step returns the first input of an optimal policy", "statement": "If the solver returns a global optimum of the problem it is given, the input returned by MPC.make_step is the first input of a tree policy that is feasible and optimal for the multi-stage problem the documentation describes, for the measured state and previous input.", "quantifier": "all solvers that return an optimum, all problems within the modelled class", "why_tests_cant": "Optimality ranges over all competing policies.", "anchors": ["do_mpc/controller/_mpc.py:make_step", "do_mpc/controller/_mpc.py:_prepare_nlp", "do_mpc/optimizer.py:solve"]}
{"id": "C13", "title": "MPC history is an exact log of the calls", "statement": "After any sequence of successful make_step calls the i-th stored row holds the state passed to and the input returned from call i, the time t0+i*t_step, and the parameters and tvp of that time; the previous input used in call i+1 is the input returned by call i.", "quantifier": "all call histories, all solvers, all parameter functions", "why_tests_cant": "Histories of unbounded length.", "anchors": ["do_mpc/controller/_mpc.py:make_step", "do_mpc/data.py:Data.update", "do_mpc/optimizer.py:solve"]}
{"id": "C14", "title": "Warm start uses the last solution", "statement": "Every solver call after the first starts from the primal and dual solution of the previous call; the first call uses the user's initial guess and no multipliers.", "quantifier": "all call histories and solvers", "why_tests_cant": "Histories of unbounded length.", "anchors": ["do_mpc/optimizer.py:solve", "do_mpc/controller/_mpc.py:set_initial_guess"]}
{"id": "C15", "title": "Simulator history is the plant trajectory", "statement": "After any sequence of successful make_step calls, the state stored in row i+1 is the integrator's result from row i with the input, disturbance, tvp and parameter of step i; times advance by t_step; the returned measurement is the measurement function at the new state.", "quantifier": "all input sequences, plants, parameter functions", "why_tests_cant": "Histories of unbounded length.", "anchors": ["do_mpc/simulator.py:make_step", "do_mpc/simulator.py:simulate"]}
{"id": "C16", "title": "Closed loop consistency", "statement": "Running u=mpc.make_step(x); y=simulator.make_step(u); x=estimator.make_step(y) with state feedback from equal initial states, for any number of iterations the MPC log and the simulator log agree row by row in state, input and time.", "quantifier": "all loop lengths, plants, solvers", "why_tests_cant": "Unbounded histories.", "anchors": ["do_mpc/controller/_mpc.py:make_step", "do_mpc/simulator.py:make_step", "do_mpc/estimator/_base.py:StateFeedback.make_step"]}
{"id": "C17", "title": "Data fields: append-only, all-or-nothing per field, same length", "statement": "update appends exactly one row to each named field and changes nothing else; unknown fields are refused; querying a field returns rows in call order with the configured width; rows are never altered by later updates.", "quantifier": "all update histories", "why_tests_cant": "Unbounded histories.", "anchors": ["do_mpc/data.py:Data.update", "do_mpc/data.py:Data.__getitem__", "do_mpc/data.py:Data.init_storage"]}
{"id": "C18", "title": "reset_history gives a fresh start", "statement": "After reset_history a controller, estimator or simulator with the same x0 behaves like a freshly set up one: empty log, time 0, same outputs for the same inputs.", "quantifier": "all histories before the reset", "why_tests_cant": "Unbounded histories before the reset.", "anchors": ["do_mpc/optimizer.py:reset_history", "do_mpc/simulator.py:reset_history", "do_mpc/estimator/_base.py:reset_history"]}
{"id": "C19", "title": "save_results never destroys a stored result", "statement": "With overwrite=False save_results always terminates, writes to a file name that did not exist before and leaves all other files unchanged; loading the new file returns the stored data; objects of unknown class are refused without writing.", "quantifier": "all directory contents, names and save lists", "why_tests_cant": "Unbounded directory contents.", "anchors": ["do_mpc/data.py:save_results", "do_mpc/data.py:load_results"]}
{"id": "C20", "title": "prediction() returns one scenario per column", "statement": "For every stored solution, column j of prediction(('_x',..)) is the predicted physical trajectory of one scenario: consecutive entries are parent and child in the scenario tree and the last entry is leaf j; inputs are those applied at the nodes of the same path.", "quantifier": "all trees, stored solutions, time indices", "why_tests_cant": "Needs all robust horizons; tests use n_robust <= 1.", "anchors": ["do_mpc/data.py:MPCData.prediction", "do_mpc/optimizer.py:_setup_scenario_tree (structure_scenario)"]}
{"id": "C21", "title": "MHE uses the last n_horizon measurements in order", "statement": "With the default measurement function, at each call the MHE's measurement window holds the most recent n_horizon measurements oldest first, and while fewer exist the leading entries repeat the oldest one.", "quantifier": "all measurement histories and horizons", "why_tests_cant": "Unbounded histories.", "anchors": ["do_mpc/estimator/_mhe.py:_check_validity (y_fun)", "do_mpc/estimator/_mhe.py:make_step"]}
{"id": "C22", "title": "Splitting parameters into estimated and set ones loses nothing", "statement": "For every selection of estimated parameters, splitting the model's parameter vector and merging it again gives the original vector in the model's order, and each named parameter is in exactly one part.", "quantifier": "all parameter lists and selections", "why_tests_cant": "All orders and subsets.", "anchors": ["do_mpc/estimator/_mhe.py:__init__ (_p_est,_p_set,_p_cat_fun)"]}
{"id": "C23", "title": "MHE arrival cost and log", "statement": "In call i+1 the prior state and parameter are the physical second state and the parameter of the solution of call i; the log stores each measurement passed; the returned estimate is the physical last state of the solution.", "quantifier": "all call histories and solvers", "why_tests_cant": "Unbounded histories.", "anchors": ["do_mpc/estimator/_mhe.py:make_step"]}
{"id": "C24", "title": "MHE bounds hold for every state on the horizon", "statement": "A feasible MHE solution respects the user's bounds, in physical units, for every estimated state including the returned one, the inputs, estimated parameters and slacks, for both settings of cons_check_colloc_points.", "quantifier": "all bounds, scalings, settings, points", "why_tests_cant": "Real-valued quantification.", "anchors": ["do_mpc/estimator/_mhe.py:_update_bounds"]}
{"id": "C25", "title": "MHE problem uses the model's physical parameters", "statement": "For every scaling, the equality constraints of the MHE problem hold iff in physical units the trajectory follows the model with process noise and every measurement equation holds with the estimated parameters.", "quantifier": "all scalings, models, points", "why_tests_cant": "Real-valued quantification.", "anchors": ["do_mpc/estimator/_mhe.py:_prepare_nlp", "do_mpc/optimizer.py:_setup_discretization"]}
{"id": "C26", "title": "MHE objective and constraints", "statement": "The MHE objective is the arrival cost plus the sum over the window of the stage cost at (w_k, v_k); every nonlinear constraint is enforced in physical units at every stage.", "quantifier": "all cost functions, horizons, points", "why_tests_cant": "All functions and points.", "anchors": ["do_mpc/estimator/_mhe.py:_prepare_nlp", "do_mpc/estimator/_mhe.py:set_default_objective"]}
{"id": "C27", "title": "A set-up model is complete and frozen", "statement": "If Model.setup succeeds, every state has a right-hand side, the number of algebraic equations equals the number of algebraic states and the noise variables are exactly those requested; afterwards no configuration call succeeds or changes the model.", "quantifier": "all configuration call sequences", "why_tests_cant": "Unbounded call sequences.", "anchors": ["do_mpc/model/_model.py:setup", "do_mpc/model/_model.py:set_rhs", "do_mpc/model/_model.py:set_variable", "do_mpc/model/_model.py:set_alg", "do_mpc/model/_model.py:set_meas"]}
{"id": "C28", "title": "Every documented variable type name is accepted", "statement": "set_variable accepts each documented long and short name of a variable type and files the variable under the matching type; other names are refused.", "quantifier": "all strings", "why_tests_cant": "All strings.", "anchors": ["do_mpc/model/_model.py:set_variable"]}
{"id": "C29", "title": "Exactly one right-hand side per state", "statement": "Defining the right-hand side or measurement of one name twice is refused.", "quantifier": "all configuration sequences", "why_tests_cant": "Unbounded sequences.", "anchors": ["do_mpc/model/_model.py:set_rhs", "do_mpc/model/_model.py:set_meas", "do_mpc/model/_model.py:setup"]}
{"id": "C30", "title": "State feedback is the default measurement", "statement": "If no measurement is configured, the model's measurement is the full state and the measurement function returns the state.", "quantifier": "all configuration sequences", "why_tests_cant": "Unbounded sequences.", "anchors": ["do_mpc/model/_model.py:setup"]}
{"id": "C31", "title": "Linear models and their discretisation", "statement": "LinearModel.setup(A,B,C,D) gives the dynamics Ax+Bu and measurement Cx+Du; discretize returns a discrete linear model with the same measurement equation.", "quantifier": "all matrices", "why_tests_cant": "All real matrices.", "anchors": ["do_mpc/model/_linearmodel.py:setup", "do_mpc/model/_linearmodel.py:discretize"]}
{"id": "C32", "title": "Steady states are steady", "statement": "Whatever get_steady_state returns for a discrete model without raising satisfies x = A x + B u (and for a requested state, the returned pair is an equilibrium whenever one exists).", "quantifier": "all matrices and set points", "why_tests_cant": "All real matrices.", "anchors": ["do_mpc/model/_linearmodel.py:get_steady_state"]}
{"id": "C33", "title": "Linearisation is exact on linear systems", "statement": "Linearising a model with right-hand side Ax+Bu (+const) and measurement Cx+Du at any point returns a linear model with matrices A, B and the measurement Cx+Du.", "quantifier": "all matrices and linearisation points", "why_tests_cant": "All real matrices.", "anchors": ["do_mpc/model/_linearize.py:linearize"]}
{"id": "C34", "title": "Finite-horizon LQR gain is optimal", "statement": "For Q, P positive semidefinite and R positive definite, the gain returned for a finite horizon makes u = Kx the first input of a minimiser of the finite-horizon quadratic cost, from every state, and the minimal cost is given by the Riccati matrix.", "quantifier": "all systems, weights, horizons, states, competing input sequences", "why_tests_cant": "All real matrices and sequences.", "anchors": ["do_mpc/controller/_lqr.py:discrete_gain"]}
{"id": "C35", "title": "LQR make_step control law and log", "statement": "After any sequence of make_step calls, row i stores the given state and the returned input; in standard mode the input is K(x-xss)+uss; in rate-penalty mode the applied input is the previous one plus the gain times the augmented deviation.", "quantifier": "all call histories", "why_tests_cant": "Unbounded histories.", "anchors": ["do_mpc/controller/_lqr.py:make_step", "do_mpc/controller/_lqr.py:set_setpoint"]}
{"id": "C36", "title": "LQR set point can be changed at any time", "statement": "Calling set_setpoint any number of times, with either argument, keeps the controller operable and makes the last given values the set point.", "quantifier": "all sequences of set_setpoint and make_step", "why_tests_cant": "Unbounded sequences.", "anchors": ["do_mpc/controller/_lqr.py:set_setpoint"]}
{"id": "C37", "title": "Configuration freezes at setup", "statement": "After setup, objective, input penalty, nonlinear constraints, scaling and parameters cannot be changed through the API; calls that violate this raise and change nothing.", "quantifier": "all API call sequences", "why_tests_cant": "Unbounded sequences.", "anchors": ["do_mpc/controller/_mpc.py:set_objective", "do_mpc/controller/_mpc.py:set_param", "do_mpc/optimizer.py:set_nl_cons", "do_mpc/optimizer.py:scaling"]}
{"id": "C38", "title": "Bounds can be read back and take effect at once", "statement": "Reading a bound (or terminal bound) returns the value set last for that entry, setting one entry changes no other, and after setup the optimisation problem's bounds follow.", "quantifier": "all sequences of bound updates", "why_tests_cant": "Unbounded sequences.", "anchors": ["do_mpc/optimizer.py:bounds", "do_mpc/controller/_mpc.py:terminal_bounds"]}
{"id": "C39", "title": "Indexed properties act on their own object", "statement": "Setting an indexed property obtained from one controller changes that controller only, whatever other controllers exist.", "quantifier": "all interleavings of property accesses on several objects", "why_tests_cant": "All interleavings.", "anchors": ["do_mpc/tools/_indexedproperty.py:IndexedProperty"]}
{"id": "C40", "title": "Calling setup again replaces the problem", "statement": "Calling setup again after adapting the configuration yields the same problem as one setup with that configuration.", "quantifier": "all configurations", "why_tests_cant": "All configurations.", "anchors": ["do_mpc/controller/_mpc.py:setup", "do_mpc/optimizer.py:_setup_nl_cons"]}
{"id": "C41", "title": "Sampling plans: unique ids and full grids", "statement": "Cases in a sampling plan have distinct ids; product builds every combination of the given values exactly once in lexicographic order; gen_sampling_plan(n) adds n cases with a value for each variable.", "quantifier": "all plans and value lists", "why_tests_cant": "Unbounded plans.", "anchors": ["do_mpc/sampling/_samplingplanner.py"]}
{"id": "C42", "title": "Sampling can be interrupted and resumed", "statement": "For every interruption point, running sample_data again completes the plan: afterwards each case's file holds the sample function applied to that case, files that already existed are not recomputed and no other file is touched.", "quantifier": "all plans, file systems, crash points and restarts", "why_tests_cant": "All crash points.", "anchors": ["do_mpc/sampling/_sampler.py"]}
{"id": "C43", "title": "DataHandler returns the stored samples", "statement": "Indexing and filtering return, in plan order, exactly the stored samples (all those satisfying the filter) with the post-processing functions applied; a sample added to the directory later is seen.", "quantifier": "all plans, directories, filters and query histories", "why_tests_cant": "Unbounded histories.", "anchors": ["do_mpc/sampling/_datahandler.py"]}
{"id": "C44", "title": "Exported plans do not overwrite files", "statement": "SamplingPlanner.export without overwrite writes to a name that was free and leaves every other file unchanged.", "quantifier": "all directory contents", "why_tests_cant": "Unbounded contents.", "anchors": ["do_mpc/sampling/_samplingplanner.py:export"]}
{"id": "C45", "title": "Structure container round trip", "statement": "After structure[path] = value, structure[path] returns the value, other paths are unaffected, and slices select exactly the stored paths that match.", "quantifier": "all sequences of assignments and queries", "why_tests_cant": "Unbounded sequences.", "anchors": ["do_mpc/tools/_structure.py"]}
{"id": "C46", "title": "Real-time trigger: stop means stop", "statement": "In the OPC UA real-time loop at most one trigger is pending at any time, and after async_step_stop no further step starts unless async_step_start is called.", "quantifier": "all interleavings of timer expiry, start and stop", "why_tests_cant": "All interleavings.", "anchors": ["do_mpc/opcua/_base.py"]}
{"id": "C47", "title": "OPC UA tags round trip", "statement": "A vector written with write_to_tags is what read_from_tags returns for the same tags; wrong sizes are refused without writing.", "quantifier": "all vectors and tag lists", "why_tests_cant": "All vectors.", "anchors": ["do_mpc/opcua/_base.py:write_to_tags", "do_mpc/opcua/_base.py:read_from_tags"]}
{"id": "C48", "title": "OPC UA node ids are unambiguous", "statement": "Different (object, variable) pairs registered on a server get different nodes, and registering the same client again does not change its tags.", "quantifier": "all namespaces", "why_tests_cant": "All names.", "anchors": ["do_mpc/opcua/_server.py", "do_mpc/opcua/_helper.py"]}
{"id": "C49", "title": "Active set partition and multiplier map", "statement": "Each constraint is classified as active or inactive, never both; multiplier sensitivities of inactive constraints are zero and active ones are placed at their own constraint.", "quantifier": "all constraint values, bounds and tolerances", "why_tests_cant": "All vectors.", "anchors": ["do_mpc/differentiator/_nlpdifferentiator.py"]}
{"id": "C50", "title": "Removing undetermined variables is reversible", "statement": "Reducing the NLP to its determined variables and mapping the sensitivities back puts every entry at its original position and zero elsewhere.", "quantifier": "all index sets", "why_tests_cant": "All index sets.", "anchors": ["do_mpc/differentiator/_nlpdifferentiator.py"]}
{"id": "C51", "title": "Each row of the simulator log is self-consistent", "statement": "In every stored row of the simulator's history the algebraic states and the auxiliary expressions are those belonging to the state, input, parameters and time stored in the same row.", "quantifier": "all models, plants and call sequences", "why_tests_cant": "Unbounded call sequences.", "anchors": ["do_mpc/simulator.py:Simulator.make_step"]}
{"id": "C52", "title": "Logged auxiliary expressions of the MPC belong to the logged solution", "statement": "The auxiliary expressions an MPC stores in a row are the model's expressions evaluated at the logged state, input, algebraic state, parameters and time-varying parameters.", "quantifier": "all models, scenario trees and call sequences", "why_tests_cant": "All models and histories.", "anchors": ["do_mpc/controller/_mpc.py:MPC.make_step", "do_mpc/optimizer.py:Optimizer.solve"]}
{"id": "C53", "title": "Assigning an initial value copies it", "statement": "After a.x0 = b.x0 the two objects are independent: later assignments to a.x0 or calls of a.make_step never change b.x0, and vice versa.", "quantifier": "all histories of assignments and make_step calls on any number of objects", "why_tests_cant": "Unbounded histories and aliasing patterns.", "anchors": ["do_mpc/model/_iteratedvariables.py:IteratedVariables"]}
{"id": "C54", "title": "Every solver statistic can be stored", "statement": "Whatever admissible list of solver statistics is configured with store_solver_stats, a make_step for which the solver terminates succeeds and stores them.", "quantifier": "all settings and solver results", "why_tests_cant": "All settings and histories.", "anchors": ["do_mpc/optimizer.py:Optimizer._prepare_data", "do_mpc/data.py:Data.update"]}
{"id": "C55", "title": "The initial time can be set with every documented type", "statement": "Setting t0 with a float, int, numpy array or casadi DM of one element sets the time to that element; other types and sizes are refused and leave the time unchanged.", "quantifier": "all values of every accepted type", "why_tests_cant": "All values.", "anchors": ["do_mpc/model/_iteratedvariables.py:t0"]}
{"id": "C56", "title": "The initial guess is made of the initial values", "statement": "After set_initial_guess, the guess of every state, input, algebraic state (and estimated parameter) over the whole horizon is the current x0, u0, z0 (p_est0) in physical units whatever the scaling, the next solver call starts from it, and the estimator's prior is x0.", "quantifier": "all states of controller and estimator, all scalings and horizons", "why_tests_cant": "All scalings, horizons and histories.", "anchors": ["do_mpc/controller/_mpc.py:MPC.set_initial_guess", "do_mpc/estimator/_mhe.py:MHE.set_initial_guess"]}
{"id": "C57", "title": "Infinite-horizon LQR gain is optimal", "statement": "With n_horizon None and a solution of the algebraic Riccati equation returned by SciPy, the gain's feedback costs at most x'Px over any number of steps and no input sequence that drives the state to the origin costs less.", "quantifier": "all systems, weights, initial states and competing input sequences", "why_tests_cant": "All systems and infinite input sequences.", "anchors": ["do_mpc/controller/_lqr.py:LQR.discrete_gain"]}
{"id": "C58", "title": "Returned sensitivities satisfy the linearised optimality conditions", "statement": "Whenever NLPDifferentiator.differentiate returns with lse_solved, dx_dp and dlam_dp satisfy, for every parameter, the linearised first-order optimality conditions of the NLP that was passed in, whatever variables or parameters do not occur in it.", "quantifier": "all NLPs, bounds, solutions, sets of unused variables and parameters", "why_tests_cant": "All sizes, index sets and active sets.", "anchors": ["do_mpc/differentiator/_nlpdifferentiator.py:NLPDifferentiator.differentiate"]}
{"id": "C59", "title": "Returned sensitivities are the derivatives of the solution", "statement": "The entries of dx_dp and dlam_dp are the derivatives of the optimal solution and of the multipliers with respect to the parameters; for do-mpc objects of the unscaled variables.", "quantifier": "all NLPs, solutions and parameters", "why_tests_cant": "All differentiable solution maps.", "anchors": ["do_mpc/differentiator/_nlpdifferentiator.py:NLPDifferentiator.differentiate", "do_mpc/differentiator/_nlpdifferentiator.py:DoMPCDifferentiator"]}
{"id": "C60", "title": "The converted DAE model has the solutions of the original model", "statement": "dae2odeconversion returns a model with states x, u, z and input q whose solutions from consistent initial values are exactly the solutions of the original differential-algebraic equations under the input u with u' = q (for discrete models: the next point satisfies the algebraic equations).", "quantifier": "all set-up index-1 models, trajectories, input rates and noise", "why_tests_cant": "All models and trajectories in continuous time.", "anchors": ["do_mpc/model/_dae2odeconversion.py:dae2odeconversion"]}
{"id": "C61", "title": "ONNX conversion evaluates the network", "statement": "After `converter.convert(...)` succeeds, querying any layer of the converted ONNX model returns the value that the equations of the graph determine for the given inputs and the stored weights; the equations have exactly one solution; the conversion succeeds exactly if the keyword arguments name the inputs, the shapes are accepted, every tensor is defined before use and the operators accept their arguments. After any sequence of conversions, queries return the values of the last successful one.", "quantifier": "every ONNX graph in single-assignment form, every set of operators, every keyword argument, every sequence of conversions", "why_tests_cant": "Tests convert a few trained networks; the order of nodes, reuse of tensors and failed conversions vary without bound.", "anchors": ["do_mpc/sysid/_onnxconversion.py:ONNXConversion.convert", "do_mpc/sysid/_onnxconversion.py:ONNXConversion.__getitem__"]}
{"id": "C62", "title": "Converted operators are the ONNX operators", "statement": "Each operator of the conversion computes, on matrices of any size, the operator of the ONNX standard with the attributes of the node.", "quantifier": "all sizes, entries and attribute values of the supported operators", "why_tests_cant": "The standard quantifies over all shapes and attributes; tests use those of a few networks.", "anchors": ["do_mpc/sysid/_onnxconversion.py:ONNXOperations"]}
{"id": "C63", "title": "Inputs of the wrong name or shape are refused", "statement": "A conversion is refused if the keyword arguments are not exactly the inputs of the model or if an input does not have the declared shape, and is not refused for other reasons than the network itself.", "quantifier": "every graph, every set of keyword arguments and shapes", "why_tests_cant": "The set of wrong calls is unbounded.", "anchors": ["do_mpc/sysid/_onnxconversion.py:ONNXConversion.convert"]}
{"id": "C64", "title": "Predictions of auxiliary expressions, time-varying parameters and parameters", "statement": "MPCData.prediction of an auxiliary expression gives, for every scenario and time step, its value at the predicted state, input and parameters of that scenario; of a time-varying parameter the values given to the controller; every documented variable type can be queried; the answer does not depend on earlier queries.", "quantifier": "all models, scenario trees, stored solutions, time indices and histories of queries", "why_tests_cant": "All scenario trees and query histories.", "anchors": ["do_mpc/data.py:MPCData.prediction"]}
{"id": "C65", "title": "Plots show the recorded data", "statement": "After any calls of the methods of a Graphics object, plot_results(t_ind) shows for each added variable, element by element and on its axis, exactly the samples up to t_ind; plot_predictions(t_ind) shows exactly the trajectories predicted at t_ind for every scenario; clear empties all lines.", "quantifier": "all sequences of add_line, plot_results, plot_predictions and clear, all records and indices", "why_tests_cant": "Unbounded call sequences, records and indices.", "anchors": ["do_mpc/graphics.py:Graphics"]}
{"id": "C66", "title": "default_plot plots exactly the requested variables", "statement": "default_plot shows the requested variables (by default all states, algebraic states, inputs and auxiliary expressions), each on its own axis, and refuses only names that do not exist.", "quantifier": "all models, records and lists of names", "why_tests_cant": "All models and lists.", "anchors": ["do_mpc/graphics.py:default_plot"]}
{"id": "C67", "title": "animate saves the whole record without overwriting", "statement": "animate saves an animation whose t-th frame shows the record up to t (and the predictions at t); without overwrite=True no existing animation is lost.", "quantifier": "all records, plots and states of the file system", "why_tests_cant": "All records and file systems.", "anchors": ["do_mpc/graphics.py:animate"]}
{"id": "C68", "title": "Robust constraint satisfaction in closed loop", "statement": "For a discrete-time model with default constraint settings (and no algebraic states that branch): if the plant is the controller's model, its parameters are at every time among the uncertainty values given to the controller (the nominal ones if n_robust = 0), and the solver returns a feasible point in every step, then in the closed loop mpc.make_step -> simulator.make_step -> state feedback every logged input is within its bounds, every logged state after the first within the state bounds, and every nonlinear constraint holds with the parameters the plant really had (soft ones up to maximum_violation), although the controller does not know them.", "quantifier": "all models, settings, uncertainty values, initial states, numbers of steps, plant parameter sequences among the uncertainty values, all feasible solver answers", "why_tests_cant": "a test runs some parameter sequences for some steps; the guarantee is about every sequence the plant may choose, for ever", "anchors": ["do_mpc/controller/_mpc.py:MPC._prepare_nlp", "do_mpc/controller/_mpc.py:MPC.make_step", "do_mpc/simulator.py:Simulator.make_step", "do_mpc/estimator/_base.py:StateFeedback.make_step"]}
{"id": "C69", "title": "A plan is what happens", "statement": "For a discrete-time model: applying the inputs a solution of the MPC problem contains for a scenario to a simulator of the same model, with the predicted time-varying parameters and the parameters of the scenario, produces a simulator log whose states are exactly the predicted states of that scenario, up to the end of the horizon.", "quantifier": "all models, solutions, scenarios, horizons, robust horizons, scalings", "why_tests_cant": "every scenario of every solution", "anchors": ["do_mpc/controller/_mpc.py:MPC._prepare_nlp", "do_mpc/optimizer.py:Optimizer._setup_discretization", "do_mpc/simulator.py:Simulator.simulate"]}
{"id": "C70", "title": "Recursive feasibility", "statement": "For a nominal controller (n_robust = 0) of a discrete-time model, with a plant equal to the model, consistent time-varying parameter predictions and terminal bounds that describe a control invariant set inside the state bounds: if the first problem is feasible and the solver finds a feasible point whenever there is one, then every problem solved in the closed loop is feasible.", "quantifier": "all models, settings, constraints, initial states, numbers of steps, solvers with this property", "why_tests_cant": "an induction over the infinite closed loop; a test sees finitely many steps from one initial state", "anchors": ["do_mpc/controller/_mpc.py:MPC.make_step", "do_mpc/controller/_mpc.py:MPC._update_bounds", "do_mpc/controller/_mpc.py:MPC._prepare_nlp", "do_mpc/simulator.py:Simulator.make_step"]}
{"id": "C71", "title": "The closed loop is not more expensive than planned", "statement": "Under the conditions of C70, if the terminal cost falls by at least the stage cost inside the terminal set, inputs changes are not penalised, and the solver finds global minimisers: the stage costs accumulated by the closed loop over any number of steps plus the cost of some feasible plan for the next problem are at most the cost of any feasible plan of the first problem; with non-negative costs the accumulated stage cost is bounded by the first plan's cost.", "quantifier": "all models, costs, initial states, numbers of steps", "why_tests_cant": "a statement about the whole future of the closed loop (it implies convergence of the stage cost)", "anchors": ["do_mpc/controller/_mpc.py:MPC._prepare_nlp", "do_mpc/controller/_mpc.py:MPC.set_objective", "do_mpc/controller/_mpc.py:MPC.make_step", "do_mpc/simulator.py:Simulator.make_step"]}
{"id": "C72", "title": "The MHE returns the end of a best explanation of the recent measurements", "statement": "For a discrete-time model and a solver that returns global minimisers: every state returned by make_step is the last state of a trajectory (with noise, inputs, algebraic states, slacks and estimated parameters, all in physical units) that is consistent with the model, the bounds, the constraints and the last n_horizon measurements, and minimises arrival cost plus stage costs plus slack penalties among all such trajectories; the prior of every call is the second state and the parameters of the trajectory chosen by the call before.", "quantifier": "all models, scalings, bounds, costs, histories of measurements and numbers of calls", "why_tests_cant": "optimality over all explanations and all histories; a test compares single estimates with single references", "anchors": ["do_mpc/estimator/_mhe.py:MHE.make_step", "do_mpc/estimator/_mhe.py:MHE._prepare_nlp", "do_mpc/estimator/_mhe.py:MHE._update_bounds", "do_mpc/estimator/_mhe.py:MHE._get_y_template"]}
{"id": "C73", "title": "The MHE is exact on exact data", "statement": "If the plant is the model without noise, inputs are measured, costs are positive definite, and at some time the window holds exact measurements and the priors are exact, then every further call of make_step with a global solver returns exactly the state of the plant, and the estimated parameters stay exact, for ever.", "quantifier": "all models, scalings, constraints respected by the plant, trajectories and numbers of calls", "why_tests_cant": "induction over an unbounded run, for all models and costs", "anchors": ["do_mpc/estimator/_mhe.py:MHE.make_step", "do_mpc/estimator/_mhe.py:MHE._prepare_nlp", "do_mpc/estimator/_mhe.py:MHE.set_default_objective"]}
{"id": "C74", "title": "Robust recursive feasibility of multi-stage MPC", "statement": "With n_robust equal to n_horizon, a plant that at every step has any of the parameter combinations given to set_uncertainty_values (changing from step to step), and terminal bounds that form a robust control invariant set inside the state bounds: if the problem of the first make_step call is feasible and the solver returns a feasible point whenever there is one, every later problem is feasible, and the plant satisfies all bounds and constraints for ever.", "quantifier": "all discrete-time models, dimensions, horizons, numbers of realisations, parameter sequences of the plant, terminal sets with the invariance property, solvers that find feasible points, and closed loops of any length", "why_tests_cant": "the parameter sequence and the number of closed-loop steps are unbounded; a test sees finitely many of the exponentially many parameter sequences", "anchors": ["do_mpc/controller/_mpc.py:MPC.make_step", "do_mpc/controller/_mpc.py:MPC._prepare_nlp", "do_mpc/controller/_mpc.py:MPC._update_bounds", "do_mpc/optimizer.py:Optimizer._setup_scenario_tree", "do_mpc/simulator.py:Simulator.make_step"]}
{"id": "C75", "title": "MPC and MHE together: exact estimates and constraint satisfaction", "statement": "In the loop u = mpc.make_step(x); y = simulator.make_step(u); x = mhe.make_step(y) with one discrete-time model and no noise, once the window of the estimator holds exact measurements and its priors are exact: if the solver of the estimator returns global minimisers of costs that vanish only without noise, the estimate after every iteration is exactly the state (and parameter) of the plant; and if the controller's solver returns feasible points whenever there are any and the terminal bounds are (robust) control invariant, every problem of the controller is feasible and the plant satisfies all bounds and constraints for ever.", "quantifier": "all discrete-time models with observed inputs, dimensions, horizons, costs, bounds, scalings, solvers, parameters that are estimated or given, and loops of any length", "why_tests_cant": "the interplay of three objects over an unbounded number of iterations, for all models, bounds and solvers", "anchors": ["do_mpc/controller/_mpc.py:MPC.make_step", "do_mpc/estimator/_mhe.py:MHE.make_step", "do_mpc/simulator.py:Simulator.make_step"]}
{"id": "C76", "title": "Robust constraint satisfaction for continuous-time plants", "statement": "In the loop u = mpc.make_step(x); x = simulator.make_step(u) of a continuous-time model whose simulator ends every sampling interval where the collocation polynomial of the controller ends, if the solver returns a feasible point in every iteration and the parameters of the plant are among those considered: inputs and algebraic states are within their bounds, every logged state after the first is within the state bounds (with cons_check_colloc_points and n_horizon > 1 also the trajectory at the collocation points in between), and the nonlinear constraints hold at the sampling times with the parameters of the plant.", "quantifier": "all continuous-time models, collocation schemes, numbers of realisations, robust horizons, bounds, scalings, solvers, and loops of any length", "why_tests_cant": "the guarantee concerns all models, realisations and unboundedly many iterations", "anchors": ["do_mpc/controller/_mpc.py:MPC.make_step", "do_mpc/controller/_mpc.py:MPC._prepare_nlp", "do_mpc/optimizer.py:Optimizer._setup_collocation_discretization", "do_mpc/simulator.py:Simulator.make_step"]}
{"id": "C77", "title": "Recursive feasibility for continuous-time plants", "statement": "If the terminal bounds form a (robust) control invariant set inside the state bounds, predictions are consistent, the plant is the model and the solver returns a feasible point of every feasible problem, then feasibility of the first problem implies feasibility of all later ones.", "quantifier": "all continuous-time models, collocation schemes, bounds, scalings, solvers, and loops of any length", "why_tests_cant": "a statement about all later iterations for all models and bounds", "anchors": ["do_mpc/controller/_mpc.py:MPC._update_bounds", "do_mpc/controller/_mpc.py:MPC._prepare_nlp", "do_mpc/simulator.py:Simulator.make_step"]}
{"id": "C78", "title": "The closed loop with a continuous-time plant costs at most what was planned", "statement": "If in addition the terminal cost falls by the stage cost inside the terminal set and the solver returns global minimisers, the stage costs of the logged trajectory and the cost of a feasible plan of the problem after it are together at most the cost of any feasible plan of the first problem.", "quantifier": "all continuous-time models, collocation schemes, costs, bounds, scalings, solvers, and loops of any length", "why_tests_cant": "an inequality over unboundedly many iterations for all models and costs", "anchors": ["do_mpc/controller/_mpc.py:MPC._prepare_nlp", "do_mpc/controller/_mpc.py:MPC.make_step", "do_mpc/simulator.py:Simulator.make_step"]}
{"id": "C79", "title": "The closed loop never stops by itself", "statement": "After setup of controller and simulator, the loop u = mpc.make_step(x); x = simulator.make_step(u) with a measured state runs for any number of iterations, whatever the solver returns, converged or not; it raises exactly in the first iteration in which a solver statistic that is to be stored is not a number.", "quantifier": "all models, controllers, solvers (a different behaviour in every iteration) and numbers of iterations", "why_tests_cant": "unboundedly many iterations with arbitrary solver results", "anchors": ["do_mpc/controller/_mpc.py:MPC.make_step", "do_mpc/simulator.py:Simulator.make_step", "do_mpc/data.py:Data.update"]}
{"id": "C80", "title": "What the MHE returns for continuous-time models", "statement": "For a continuous-time (DAE) model discretised by collocation: a global minimiser of the problem built by the MHE, together with the collocation polynomials through its states, is a best explanation (arrival cost, stage costs, slack penalties) of the data by the model, its bounds at all collocation points and the user constraints; every best explanation is a global minimiser; make_step returns its last state, and on exact data with exact priors and a solver that finds a global minimiser whenever one exists it returns exactly the state of the plant, for ever.", "quantifier": "all continuous-time models, degrees, numbers of elements, collocation points, scalings, constraints, data and numbers of calls", "why_tests_cant": "equivalence of two optimisation problems over all points and an induction over an unbounded run", "anchors": ["do_mpc/estimator/_mhe.py:MHE._prepare_nlp", "do_mpc/estimator/_mhe.py:MHE.make_step", "do_mpc/optimizer.py:Optimizer._setup_discretization"]}
{"id": "C81", "title": "Estimator and output feedback loop never stop by themselves", "statement": "After setup, mhe.make_step with a measurement of the right size raises exactly if a solver statistic that is to be stored is not a number, whatever else the solver returns; hence the loop u = mpc.make_step(x); y = simulator.make_step(u); x = mhe.make_step(y) runs for any number of iterations.", "quantifier": "all models, controllers, estimators, solvers (a different behaviour in every iteration) and numbers of iterations", "why_tests_cant": "unboundedly many iterations with arbitrary solver results", "anchors": ["do_mpc/estimator/_mhe.py:MHE.make_step", "do_mpc/controller/_mpc.py:MPC.make_step", "do_mpc/simulator.py:Simulator.make_step", "do_mpc/data.py:Data.update"]}
{"id": "C82", "title": "Controller, simulator and estimator together for continuous-time models", "statement": "As C75, for a continuous-time model discretised by collocation: in the loop u = mpc.make_step(x), y = simulator.make_step(u), x = mhe.make_step(y) without noise, started with exact data, if the controller's solver returns feasible points and the estimator's solver returns global minimisers of definite costs, every estimate is the plant's state and parameters, the simulator's log follows trajectories that solve the collocation equations, and the controller's bounds and constraints hold along it. With a control invariant terminal set, feasibility of the first problem suffices for the whole loop.", "quantifier": "all models with measurements that do not depend on algebraic states, all schemes, horizons, windows, bounds, constraints, solvers and numbers of iterations", "why_tests_cant": "The estimator's window problem, its arrival cost and the controller's problem interact over arbitrarily many iterations.", "anchors": ["do_mpc/controller/_mpc.py: MPC.make_step", "do_mpc/simulator.py: Simulator.make_step", "do_mpc/estimator/_mhe.py: MHE.make_step, MHE._prepare_nlp", "do_mpc/optimizer.py: Optimizer._setup_discretization"]}
{"id": "C83", "title": "The log of a moving horizon estimator is consistent", "statement": "For every history of make_step calls, every row of the estimator's data object holds values that belong together: the auxiliary expressions in a row are those of the state, input, algebraic state, time-varying parameters and parameters in the same row; and with exact data and exact priors the log is the log of the plant.", "quantifier": "all models, horizons, costs, constraints, solvers, measurement and call histories", "why_tests_cant": "The row is put together from the previous estimate, the new solution and the parameter trajectories; whether they match depends on the data and on the whole call history.", "anchors": ["do_mpc/estimator/_mhe.py: MHE.make_step, MHE._prepare_nlp", "do_mpc/data.py: Data.update"]}
{"id": "C84", "title": "A simulator that has been set up keeps its configuration, and its log is in step with the plant", "statement": "setup() succeeds exactly if the time step and the functions the model needs were given. From then on set_param is refused, and for every sequence of calls the time between two consecutive rows of the log is the time over which the plant was simulated; calling setup() again does not disturb a running simulation.", "quantifier": "all models, all sequences of API calls, all inputs and noise, all numbers of steps", "why_tests_cant": "The integrator is built once while the time step is read at every call; whether the two agree depends on the whole sequence of calls.", "anchors": ["do_mpc/simulator.py: Simulator.setup, Simulator.set_param, Simulator.settings, Simulator.make_step"]}
{"id": "C85", "title": "init_algebraic_variables gives a consistent start", "statement": "After setup(), for all x0, u0, t0, z0, parameters and time-varying parameters: init_algebraic_variables() leaves a z0 that solves the algebraic equations if they have a solution, and the first row logged by the next make_step(u0) holds exactly this value together with the auxiliary expressions that belong to it. Before setup() the call is refused.", "quantifier": "all models with algebraic states, all initial values and parameter functions", "why_tests_cant": "The claim ranges over every initial condition and every model and over how the value travels through three objects into the log.", "anchors": ["do_mpc/simulator.py: Simulator.init_algebraic_variables, Simulator.set_initial_guess, Simulator.make_step"]}
{"id": "C86", "title": "A moving horizon estimator that has been set up keeps its configuration and gets the latest measurements", "statement": "setup() succeeds exactly if the objective and the functions the model needs were given, no lower bound exceeds its upper bound and there is a source of measurements. From then on set_param, set_objective, set_nl_cons and scaling are refused; for every sequence of calls the objective and the constraints of the problem stay those of setup(), bounds (also of the estimated parameters) assigned later take effect, and every make_step hands the last n_horizon measurements to the solver.", "quantifier": "all models, configurations, sequences of API calls and measurements", "why_tests_cant": "What the solver gets depends on the whole sequence of configuration and run-time calls, and on state captured in a closure at setup.", "anchors": ["do_mpc/estimator/_mhe.py: MHE.setup, MHE._check_validity, MHE.set_param, MHE.set_objective, MHE._update_bounds, MHE.make_step", "do_mpc/optimizer.py: Optimizer.bounds, Optimizer.scaling"]}
{"id": "C87", "title": "The closed loop with an infinite-horizon LQR converges to the set point", "statement": "With n_horizon None, a positive semidefinite solution P of the Riccati equation returned by SciPy and set points that are an equilibrium of the model, the loop u = lqr.make_step(x); x = simulator.make_step(u) with a simulator of the same model runs for ever from every initial state; what was paid in the first N steps plus the value (x_N-xss)'P(x_N-xss) is constant, the value never increases, no other inputs which make the value vanish are cheaper in the long run, and with positive definite weights the logged states and inputs converge to xss and uss. In standard mode and in input-rate-penalty mode.", "quantifier": "all linear models, weights, set points, initial states, histories of calls before the loop and numbers of iterations", "why_tests_cant": "Convergence is a statement about infinite runs; all models and initial states.", "anchors": ["do_mpc/controller/_lqr.py:LQR.make_step", "do_mpc/controller/_lqr.py:LQR.setup", "do_mpc/controller/_lqr.py:LQR.discrete_gain", "do_mpc/simulator.py:Simulator.make_step"]}
{"id": "C88", "title": "Objects that exchange their results through the OPC UA server behave as if they were connected directly", "statement": "If every RTBase reads the tags that another one writes and no tag is written by two clients, then whatever order their steps are executed in, every make_step is given the last vector that the other object returned, the objects go through the states they would go through with a direct connection, and a step that raises leaves the server as it is; in particular a controller and a simulator that step in turn through the server do what the loop u = mpc.make_step(x); x = simulator.make_step(u) does.", "quantifier": "all numbers of clients, tag lists, objects, orders of steps and interleavings of requests", "why_tests_cant": "All schedules of concurrent clients and all objects; a test runs one schedule.", "anchors": ["do_mpc/opcua/_base.py:RTBase.make_step", "do_mpc/opcua/_base.py:RTBase.read_from_tags", "do_mpc/opcua/_base.py:RTBase.write_to_tags", "do_mpc/opcua/_client.py:RTClient.writeData", "do_mpc/opcua/_client.py:RTClient.readData"]}
{"id": "C89", "title": "Symbols: setup's substitution, exported variables and pickling preserve the model", "statement": "Configure a model with set_variable, set_expression, set_meas, set_rhs and set_alg, whose expressions are built from the variables that set_variable returned. setup replaces these variables by new symbols, one after the other; the functions it creates are exactly those described by the expressions (each variable stands for its entry of _x, _u, _z, _tvp or _p, each requested noise for its entry of _w or _v), and setup raises exactly when the configuration is incomplete or inconsistent. The objects returned by set_variable can be used in expressions after setup and mean the entries of the model's vectors. Expressions formed from variables before setup cannot. A model of type SX that has been set up can be pickled; the loaded model has the same functions, and its expressions (model._rhs, model._alg, ...) represent these functions in its own new symbols, after any number of saves and loads. model[a, b, ...] is the list of model[a], model[b], ...", "quantifier": "every history of configuration calls, every expression over declared variables, all vectors, any number of pickle round trips, every tuple of names", "why_tests_cant": "The substitutions run sequentially over all variables of seven structures and must neither capture nor miss a symbol for any set of names, sizes and expressions; tests check few models.", "anchors": ["do_mpc/model/_model.py: Model.setup, Model._convert2struct, Model._substitute_struct_vars, Model._substitute_exported_vars, Model.__getstate__, Model.__setstate__, Model.__getitem__"]}
{"id": "C90", "title": "Every controller, estimator and simulator has its own settings; set_param, assignments and setup treat them as documented", "statement": "Create any number of MPC, LQR, MHE and Simulator objects and configure them with set_param, assignments to obj.settings.<name>, in-place changes of containers such as nlpsol_opts, and setup. Every setting of every object is the last value given to it, or its default: a call for one object, or the construction of another one, never changes the settings of a different object. set_param sets exactly the known names that it is given and ignores unknown ones; after a successful setup of an MPC, MHE or simulator it raises and changes nothing, whatever happened in between. setup gets past the settings exactly when t_step (and, for MPC and MHE, n_horizon) has been given. MPC(model, settings=s) uses s.", "quantifier": "all numbers of objects and all histories of calls, keyword arguments, values and in-place operations", "why_tests_cant": "Aliasing between objects (class attributes, default arguments, shared dictionaries) shows only in particular histories with several objects; tests create one object at a time.", "anchors": ["do_mpc/controller/_controllersettings.py: ControllerSettings, LQRSettings, MPCSettings", "do_mpc/estimator/_estimatorsettings.py: EstimatorSettings, MHESettings", "do_mpc/simulator.py: SimulatorSettings, ContinousSimulatorSettings, Simulator.set_param, Simulator.settings", "do_mpc/controller/_mpc.py: MPC.set_param, MPC.settings, MPC.__init__", "do_mpc/estimator/_mhe.py: MHE.set_param", "do_mpc/controller/_lqr.py: LQR.set_param"]}
{"id": "C91", "title": "The status of a differentiator says what it claims", "statement": "After NLPDifferentiator.differentiate or DoMPCDifferentiator.differentiate returned: status.LICQ is true exactly if the gradients of the constraints and bounds that are active at the given solution (up to active_set_tol) are linearly independent; status.SC exactly if their multipliers are not smaller than the tolerance; status.full_rank exactly if the linearised first-order conditions determine the sensitivities; status.residuals is zero exactly if the returned matrices satisfy these conditions; status.lse_solved says whether the linear system was solved. These statements are about the NLP the user passed, not about the reduced one. A condition that was not checked is None. If LICQ is reported and the condition of second order holds, the system is solved and has full rank.", "quantifier": "all NLPs (also with unused variables and parameters), solutions, parameters, tolerances, linear solvers, settings and all histories of calls with changing settings", "why_tests_cant": "The status is computed for the reduced NLP and index lists; whether it means the same for the original one for all sizes and active sets, and what is left over from previous calls with other settings, is not visible in examples.", "anchors": ["do_mpc/differentiator/_nlpdifferentiator.py: NLPDifferentiator._check_LICQ, _check_SC, _check_rank, _track_residuals, _calculate_sensitivities, _solve_linear_system, differentiate", "do_mpc/differentiator/helper.py: NLPDifferentiatorSettings, NLPDifferentiatorStatus"]}
{"id": "C92", "title": "The documented sampling pipeline: plan, sample, load", "statement": "SamplingPlanner, Sampler and DataHandler are configured by keyword arguments, set_param and data_dir: after any sequence of assignments every parameter has the value last assigned to it (or its default), and unknown parameters are refused without effect. If Sampler and DataHandler use the same data_dir, sample_name and save_format, then for every plan, every accepted sample function and every sampler call that returns, dh[:] returns for every case of the plan its values together with the value of the function at exactly these values, under the key res. set_sample_function accepts a function if and only if it can be called with every case of the plan. Setting data_dir creates this directory with its parents and changes nothing else.", "quantifier": "all sampling plans, all sequences of configuration calls on the three objects, all Python signatures of the sample function (defaults, keyword-only arguments, **kwargs) and all initial contents of the directory", "why_tests_cant": "The three classes share nothing but file names and attribute values that can be set in any order and in several ways; a test fixes one configuration and one function signature.", "anchors": ["do_mpc/sampling/_sampler.py: Sampler.__init__, data_dir, set_param, set_sample_function, sample_data", "do_mpc/sampling/_samplingplanner.py: SamplingPlanner.__init__, data_dir, set_param", "do_mpc/sampling/_datahandler.py: DataHandler.__init__, data_dir, set_param, __getitem__"]}
{"id": "C93", "title": "The documented OPC UA set-up: every client works on its own tags", "statement": "After the namespaces of any number of clients were registered at a server with namespace_from_client, each built from the model of its client with namespace_from_model, every client has for each group (x, u, y, ...) one tag per variable of the model (without the placeholders named default), in the order of the model; all these tags exist on the server, hold zeros, and are different for different clients, groups and variables. Controller and simulator connected via these tags, exchanging the measurements and inputs over the server, produce the same trajectory as the loop x0 = simulator.make_step(mpc.make_step(x0)) without OPC UA.", "quantifier": "all numbers of clients, all models (labels), all names of clients, all numbers of steps of the loop and all solvers", "why_tests_cant": "That tags never collide depends on string concatenation of names, indices and labels for all models and numbers of clients, and the equality of trajectories on every step of the exchange.", "anchors": ["do_mpc/opcua/_server.py: RTServer.namespace_from_client, add_variable_to_node", "do_mpc/opcua/_base.py: RTBase.namespace_from_model, set_default_write_ns, set_default_read_ns, make_step, write_to_tags, read_from_tags", "do_mpc/opcua/_helper.py: Namespace, NamespaceEntry"]}
{"id": "C94", "title": "A sampling run touches only its own result files and respects overwrite", "statement": "For data_dir, sample_name and ids whose concatenation does not contain '.pkl' (needed with save_format pickle only): Sampler.sample_data writes only to files <data_dir><sample_name>_<id><ending>, where <id> is the id of a case of the plan, <sample_name> is the value of that parameter as Python prints it, and <ending> is .pkl or .mat according to save_format. Every other path keeps its content, also if the call raises. No file disappears. If overwrite is falsy (False, 0, '', ...), every file that existed before keeps its content. If the call returns, there is a result file for every case of the plan; if additionally overwrite is truthy, the sample function was called once per case, and each file holds the value of the last case with its id.", "quantifier": "all plans, sample functions, values of sample_name, save_format and overwrite of any Python type modelled (None, bool, int, str), and all initial contents of the file system", "why_tests_cant": "Whether an unrelated or old result file is touched depends on every name and content already present in the directory and on the point at which a sample function raises.", "anchors": ["do_mpc/sampling/_sampler.py: Sampler.sample_data, sample_idx, _save_name", "do_mpc/tools/_load_save.py: save_pickle"]}
{"id": "C95", "title": "Custom objective terms and constraints are solved exactly as added", "statement": "Between prepare_nlp() and create_nlp() the user may assign nlp_obj and append to nlp_cons, nlp_cons_lb and nlp_cons_ub. After any sequence of such edits with as many bounds as constraints, create_nlp() succeeds and the problem that is solved has the objective assigned last, and exactly those points are feasible that are feasible for the problem setup() would have created and satisfy all appended constraints; the constraints of do-mpc keep their positions. create_nlp() never rejects a wrong number of bounds: the first solver call raises iff the number of lower or of upper bounds is neither the number of constraints nor 0 nor 1 (CasADi takes one bound for all constraints and none for zeros). After create_nlp() the objective and the constraint functions cannot be changed by any calls other than prepare_nlp and create_nlp, a second create_nlp raises, and assigning nlp_cons_lb or nlp_cons_ub takes effect at the next solver call. The same holds for MPC and MHE.", "quantifier": "all MPC and MHE objects for which prepare_nlp succeeds, all sequences of edits in any order, all objective and constraint functions and bounds", "why_tests_cant": "The feasible set is compared for all points, for every interleaving of edits and every configured problem.", "anchors": ["do_mpc/optimizer.py: Optimizer.nlp_obj, nlp_cons, nlp_cons_lb, nlp_cons_ub, prepare_nlp, create_nlp, solve", "do_mpc/controller/_mpc.py: MPC._prepare_nlp, _create_nlp", "do_mpc/estimator/_mhe.py: MHE._prepare_nlp, _create_nlp"]}
{"id": "C96", "title": "The applied input solves the problem the user configured", "statement": "Take any sequence of configuration calls (settings, bounds, terminal bounds, scaling, objective, penalty on input changes, nonlinear constraints) on a new MPC object, a setup() that succeeds, and any later calls that assign bounds, solve, or are refused. If the solver returns a global minimiser of the problem it was given, then the input returned by make_step is the first input of an optimal policy of the multi-stage problem in physical units read off these calls (the last value given for each setting, bound, scaling and cost, all constraints), for the measured state, the last input and the parameters given; and the solver's problem is feasible iff that problem has an admissible policy. Conditions: positive scalings, distinct constraint names, robust horizon shorter than the horizon, no single slack, no constraints at collocation points, no algebraic states with branching, no user defined input penalty with scaled inputs (for these the counterexamples of C07, C08, C09, C12). For collocation the costs must not depend on the algebraic states.", "quantifier": "all sequences of configuration calls and later calls, all models, costs, constraints, horizons, scenarios, all global minimisers", "why_tests_cant": "The claim goes from arbitrary call sequences to the optimality of the returned input among all policies.", "anchors": ["do_mpc/controller/_mpc.py: MPC.set_objective, set_rterm, terminal_bounds, _prepare_nlp, _create_nlp, _update_bounds, make_step", "do_mpc/optimizer.py: Optimizer.bounds, scaling, set_nl_cons, prepare_nlp, create_nlp, setup, solve"]}
{"id": "C97", "title": "The estimate solves the estimation problem the user configured", "statement": "Take any sequence of configuration calls (settings, bounds, scaling, objective, nonlinear constraints, functions for parameters and measurements) on a new MHE object, a setup() that succeeds, and any later calls that assign bounds or functions, make steps, reset the history, or are refused. If the solver returns a global minimiser of the problem it was given, then the state returned by make_step and the parameters stored as the estimate are the last state and the parameters of a best explanation of the data, for the estimation problem in physical units read off these calls (last value given for each setting, bound and cost, all constraints); and the solver's problem is feasible iff an admissible explanation exists. Conditions: positive scalings, estimated parameters not scaled, distinct constraint names, cons_check_colloc_points on and nl_cons_check_colloc_points off (counterexamples of C24-C26, C72 otherwise); for collocation, measurements that do not depend on algebraic states.", "quantifier": "all sequences of configuration calls and later calls, all models, costs, constraints, horizons, data, all global minimisers", "why_tests_cant": "The claim goes from arbitrary call sequences to the optimality of the returned estimate among all explanations.", "anchors": ["do_mpc/estimator/_mhe.py: MHE.set_objective, set_default_objective, _prepare_nlp, _create_nlp, _update_bounds, make_step", "do_mpc/optimizer.py: Optimizer.bounds, scaling, set_nl_cons, prepare_nlp, create_nlp, setup, solve"]}
{"id": "C98", "title": "Flat solver vectors and power indices describe the same problem", "statement": "The optimisation variables opt_x and parameters opt_p of an MPC are structures, the solver works on flat vectors. A power index (entry name with one index per repeat, negative indices counting from the end, optionally followed by a variable name) is accepted iff the entry exists and all indices are in range; it selects exactly the numbers that the structure holds at that place; different places never share a position and every position of the flat vector is read by some index. Reading the flat vector of a structure gives back the structure and vice versa. Hence the problem that the solver sees in flat vectors (objective, constraints, bounds on the variables) is the problem of the structures: same feasible points, same cost, same minimisers, for discrete and collocation models, and multiplying the flat vector by the flat scaling vector gives the physical values.", "quantifier": "all structures, all indices, all MPC configurations with at least one scenario and distinct constraint names, all vectors", "why_tests_cant": "The index arithmetic has to be right for every horizon, number of scenarios, collocation degree and slack layout at once.", "anchors": ["do_mpc/controller/_mpc.py: MPC._prepare_nlp (opt_x, opt_p, opt_x_scaling), _create_nlp, make_step", "do_mpc/optimizer.py: Optimizer.lb_opt_x, ub_opt_x, solve"]}
{"id": "C99", "title": "sens_num contains the derivative of the optimal solution at the queried entries", "statement": "After differentiate() of a DoMPCDifferentiator has succeeded, with a positive tolerance, LICQ and strict complementarity reported true and the second-order condition fulfilled, and if objective and constraints are continuously differentiable with the derivatives the differentiator uses, sens_num['dxdp', indexf[qx], indexf[qp]] is the matrix of derivatives with respect to the parameters at qp of the unscaled optimal variables at qx, for every accepted pair of power indices that point to variables which occur in the problem; optimal variables are those of any choice of (global) solutions that is continuous near the present parameters. In particular sens_num['dxdp', indexf['_u',0,0], indexf['_x0']] is the Jacobian of the input returned by make_step with respect to the measured state.", "quantifier": "all MPC problems and NLPs generated from them, all solutions with the stated regularity, all power indices", "why_tests_cant": "A derivative is a limit over all perturbations of the parameters; tests compare single finite differences.", "anchors": ["do_mpc/differentiator/_nlpdifferentiator.py: DoMPCDifferentiator.sens_num, differentiate, _init_sens_sym_struct", "do_mpc/controller/_mpc.py: MPC.make_step"]}
{"id": "C100", "title": "Flat solver vectors of an estimator describe its problem", "statement": "The optimisation variables opt_x and parameters opt_p of an MHE are structures, the solver works on flat vectors. Reading the flat vector of a structure gives back the structure and vice versa, their sizes are the numbers of variables of the documented entries, and the problem that the solver sees in flat vectors (objective, constraints, bounds on the variables, w and v unbounded) is the problem of the structures: same feasible points, same cost, same minimisers, for discrete and collocation models and any split into estimated and set parameters. Multiplying the flat vector by the flat scaling vector gives the physical values, with w, v and the slacks unscaled.", "quantifier": "all MHE configurations with distinct constraint names, all vectors", "why_tests_cant": "The index arithmetic has to be right for every horizon, collocation degree, parameter split and slack layout at once.", "anchors": ["do_mpc/estimator/_mhe.py: MHE._prepare_nlp (opt_x, opt_p, opt_x_scaling), _create_nlp, make_step", "do_mpc/optimizer.py: Optimizer.lb_opt_x, ub_opt_x, solve"]}
{"id": "C101", "title": "sens_num of an estimator contains the derivative of the estimate", "statement": "After differentiate() of a DoMPCDifferentiator for an MHE has succeeded, with a positive tolerance, LICQ and strict complementarity reported true and the second-order condition fulfilled, and if objective and constraints are continuously differentiable with the derivatives the differentiator uses, sens_num['dxdp', indexf[qx], indexf[qp]] is the matrix of derivatives with respect to the parameters at qp of the unscaled optimal variables at qx, for every choice of solutions of the estimation problem that is continuous near the present parameters. In particular sens_num['dxdp', indexf['_x',-1,-1], indexf['_y_meas',k]] is the Jacobian of the estimate returned by make_step with respect to measurement k of the horizon.", "quantifier": "all MHE problems and NLPs generated from them, all solutions with the stated regularity, all power indices, all measurements on the horizon", "why_tests_cant": "A derivative is a limit over all perturbations of the measurements; tests compare single finite differences.", "anchors": ["do_mpc/differentiator/_nlpdifferentiator.py: DoMPCDifferentiator.sens_num, differentiate, _init_sens_sym_struct", "do_mpc/estimator/_mhe.py: MHE.make_step"]}
{"id": "C102", "title": "Nominal MPC with a terminal cost is asymptotically stable", "statement": "For a discrete-time model with measured states, simulated with the model of the controller, a nominal MPC (n_robust = 0) whose tvp and p predictions are consistent in time, with no rterm, nonnegative costs, a stage cost bounded below away from a set point, and a terminal cost and terminal set such that in the terminal set some input keeps the constraints and the set and lets the terminal cost decrease by at least the stage cost: with a solver that returns a global minimiser whenever there is a feasible point, every endless run of the loop u0 = mpc.make_step(x0), x0 = simulator.make_step(u0) that starts feasible converges to the set point, and the rows recorded by the simulator are the states of that run. If moreover the terminal set is a neighbourhood of the set point where the terminal cost is small, then for every eps there is a delta such that every run started closer than delta is feasible from the start and stays closer than eps for ever. Endless runs exist for every ready loop.", "quantifier": "all discrete-time models, nominal MPC configurations and endless closed-loop runs satisfying the stated conditions, all eps", "why_tests_cant": "Convergence and stability are statements about infinite runs and all initial states near the set point.", "anchors": ["do_mpc/controller/_mpc.py: MPC.make_step, set_objective, _prepare_nlp", "do_mpc/simulator.py: Simulator.make_step", "do_mpc/optimizer.py: Optimizer.solve"]}
{"id": "C103", "title": "Nominal MPC of a continuous-time model is asymptotically stable under the stated conditions", "statement": "As C102, for continuous-time models predicted by orthogonal collocation, when the integrator of the simulator ends each sampling interval where the collocation polynomials end, the stage cost does not depend on algebraic states, and either cons_check_colloc_points is off or no admissible trajectory leaves the state bounds on its way into the terminal set: every endless run of the loop that starts feasible converges to the set point, the states recorded by the simulator are those of the run, and near the set point runs are feasible from the start and stay near it for ever.", "quantifier": "all continuous-time models, collocation schemes, nominal MPC configurations and endless closed-loop runs satisfying the stated conditions, all eps", "why_tests_cant": "Convergence and stability are statements about infinite runs and all initial states near the set point.", "anchors": ["do_mpc/controller/_mpc.py: MPC.make_step, set_objective, _prepare_nlp", "do_mpc/simulator.py: Simulator.make_step", "do_mpc/optimizer.py: Optimizer._setup_discretization, solve"]}
{"id": "C104", "title": "Scaling factors change the numbers of the solver, not the problem", "statement": "Two MPC controllers set up with the same settings, and penalties on input changes that agree in physical units, but different positive scaling factors of states, inputs and algebraic states pose the same problem: a plan, in physical units, is feasible for one exactly if it is for the other, costs the same, and the inputs make_step may return as part of an optimal solution are the same. The same holds for moving horizon estimators: feasible explanations of the data, their costs and the estimates make_step may return do not depend on the scaling of states, inputs and algebraic states. (set_rterm, with factors per input, is documented as penalty r*du**2 of the input; the code weighs the change of the scaled input, so the controllers above need factors in the ratio of the squared scaling factors.)", "quantifier": "all models (discrete or continuous time with collocation), all MPC and MHE configurations, all pairs of positive scaling factors, all plans and parameter values", "why_tests_cant": "Tests compare runs with two scalings to solver tolerance; that feasibility and optimality coincide ranges over all plans and configurations.", "anchors": ["do_mpc/optimizer.py: Optimizer.scaling, _setup_discretization", "do_mpc/controller/_mpc.py: MPC._prepare_nlp, _update_bounds, set_rterm, make_step", "do_mpc/estimator/_mhe.py: MHE._prepare_nlp, _update_bounds, make_step"]}
{"id": "C105", "title": "A controller that asks for less is feasible whenever the other is", "statement": "Take two MPC controllers for the same model at the same measured state and time-varying parameters; scaling and objective may differ. If the second has no longer prediction horizon, no longer robust horizon, a subset of the realisations of the uncertain parameters, inputs that may depend on the scenario at least where those of the first may, wider bounds (at the horizon end: wider terminal bounds, or, if its horizon is shorter, wider than the state bounds), bounds at the collocation points only if the first has them, and only constraints of the first, possibly with larger upper bound, larger maximal violation or made soft, then every feasible plan of the first gives one of the second with the same first input. In particular a robust controller's input is feasible for the nominal controller of each realisation. If only bounds are widened or open_loop is switched off, the plan costs the same, so the optimal cost does not increase.", "quantifier": "all models (discrete time or collocation), all pairs of configurations related as stated, all parameter values and feasible plans", "why_tests_cant": "Ranges over all scenario trees, settings and plans; tests try a few settings with one plant.", "anchors": ["do_mpc/controller/_mpc.py: MPC._prepare_nlp, _update_bounds, set_uncertainty_values, make_step", "do_mpc/optimizer.py: Optimizer._setup_scenario_tree, set_nl_cons, _setup_nl_cons"]}
{"id": "C106", "title": "Several processes may sample one plan at the same time", "statement": "If the cases of a sampling plan are distributed over processes that share the data directory (pool.map(sampler.sample_idx, range(n)), every case given to one process, ids distinct and not containing \".pkl\", no directory in the way), then for every interleaving of their file accesses and calls, at every moment, and whichever processes are killed: no file other than the result files of the given cases changes, an existing result is never touched unless overwrite is set, only a file that some process has open at this moment is incomplete; the sample function is called at most once per case and only for cases whose result is needed; a process that has done its calls has stored, for each of its cases, the result of exactly its own call with exactly the arguments of the case; every process finishes or raises after at most five steps per case; and with a deterministic function the files and (up to order) the calls after all processes have finished are those of sample_data in one process. If two processes are given the same case the existence checks do not protect the result of the first: it is replaced although overwrite is off.", "quantifier": "every plan, every assignment of cases to processes, every schedule of the steps of the processes (a killed process makes no further step), every sample function (random, or raising), every initial directory, overwrite on or off, pickle or mat", "why_tests_cant": "the number of interleavings is exponential and a test sees a handful of them; races between the check and the write occur only in schedules the operating system rarely picks", "anchors": ["do_mpc/sampling/_sampler.py: Sampler.sample_idx, Sampler._save", "do_mpc/tools/__init__.py: save_pickle", "examples/sampling/multiprocessing"]}
{"id": "C107", "title": "User functions with memory act as functions of time", "statement": "tvp_fun, p_fun and y_fun may have memory (the documentation of Simulator.set_p_fun shows a random walk), return and overwrite one and the same template, share templates with each other, and y_fun may read the log of the estimator; the program may change the templates between the calls. Along every run of the program in which no call of make_step was refused or failed (and, for the simulator, init_algebraic_variables is not called), there are functions of time with which controller, simulator and estimator return, store and log exactly the same; their values at t0 + k*t_step are those the structures had when the functions called in step k had returned, whatever happened to the structures before or afterwards. Hence every property stated for functions of time holds for such functions; in particular the log of the simulator is a trajectory of the plant for the parameters in the log. Each make_step calls each function exactly once, with the current time. Besides, registering a function calls it at time 0 (tvp_fun and the p_fun of the simulator twice, the others once), so that a random walk does not start at the values of the template, and init_algebraic_variables calls the functions of the simulator, possibly with other values than the step at the same time.", "quantifier": "all programs (sequences of registrations, make_step calls of controller, simulator and estimator, and arbitrary changes of the program's variables in between), all user functions with arbitrary effects, all solvers", "why_tests_cant": "tests use functions of time with one template; aliasing and memory errors show only for particular sequences of calls", "anchors": ["do_mpc/optimizer.py: Optimizer.get_tvp_template, set_tvp_fun", "do_mpc/controller/_mpc.py: MPC.set_p_fun, make_step", "do_mpc/simulator.py: Simulator.set_tvp_fun, set_p_fun, init_algebraic_variables, make_step", "do_mpc/estimator/_mhe.py: MHE.set_p_fun, set_y_fun, make_step"]}
{"id": "C108", "title": "A lost OPC UA connection is reported and never leads to invented data", "statement": "RTBase.make_step reads its tags, calls the do-mpc object and writes the result, one request per tag. Whatever happens to the requests (answered, refused, failing with any exception, executed although the answer is lost) a step either does not call the object, changes nothing and raises, or calls the object exactly once with the values that its tags have on the server; then the tags hold the first k components of the result and otherwise what they held before, and if nothing raises, all of them. A step that raises nothing was undisturbed. In every history of connecting, disconnecting and steps of any number of clients: every component an object is given is the component of the same number of a vector the other client's object returned (or of the initial vector); the tags never go back to a vector older than the last one written without exception; if nothing raised, the objects are in the states they would be in if they were connected directly; a client is connected iff an attempt to connect succeeded and it was not disconnected since, and an unconnected client changes nothing.", "quantifier": "all clients and do-mpc objects, all servers, all outcomes of all requests, all histories of connect, disconnect and make_step calls, all crash points inside a step", "why_tests_cant": "tests run against a server that answers; failures at each possible request and their combinations over time cannot be enumerated", "anchors": ["do_mpc/opcua/_base.py: RTBase.connect, disconnect, make_step, write_to_tags, read_from_tags", "do_mpc/opcua/_client.py: RTClient.connect, disconnect, writeData, readData", "do_mpc/opcua/_server.py: RTServer.__init__, start"]}
{"id": "C109", "title": "A configured controller stays correct for its whole life", "statement": "Configure a new MPC object by any calls and set it up. In every later history - make_step calls (also refused ones), reset_history(), set_initial_guess(), direct calls of solve(), assignments of bounds and of x0, u0, z0, t0, refused configuration calls, in any order and number, with a different solver behaviour in every call - a make_step with a state of the right size succeeds (if the solver statistics to be stored are numbers) and, provided the solver finds a global minimiser and an admissible policy exists, returns the first input of an optimal policy of the problem that was configured before setup() with the bounds assigned so far, for the state passed, the input returned or assigned last, and the time-varying and uncertain parameters of the controller time: the value t0 was last set to (0 by setup and reset_history) plus one t_step per successful make_step since. The log lists the states and inputs of the successful steps since the last reset. Restrictions on the configuration as in C96; not covered: settings, terminal_bounds, lb_opt_x, prepare_nlp and setup after setup (C37-C40).", "quantifier": "all configurations, all histories after setup, all solver behaviours, all models and costs", "why_tests_cant": "A history is an unbounded sequence of calls of eight kinds and the claim is optimality among all policies after each of them.", "anchors": ["do_mpc/controller/_mpc.py: MPC.make_step, set_initial_guess, _update_bounds", "do_mpc/optimizer.py: Optimizer.solve, reset_history, bounds", "do_mpc/model/_iteratedvariables.py: x0, u0, z0, t0"]}
{"id": "C110", "title": "A configured estimator behaves like an ideal estimator over its whole life", "statement": "Configure an MHE by any calls, call setup(), then in any order and number: make_step, assignments to bounds, set_tvp_fun, set_p_fun, set_y_fun, reset_history, set_initial_guess, assignments to x0, u0, z0, t0 and p_est0, and calls that are refused. If the solver finds a global minimiser whenever there is one (and the statistics to be stored are numbers), every make_step with a measurement of the right size returns the last state of a best explanation, for the problem configured before setup() with the bounds assigned so far, of these data: the last n_horizon measurements since the last reset (the oldest repeated while there are fewer) or the measurement function set last, the parameter functions set last at the current time, and as priors the current p_est0 and the second state of the previous best explanation (set_initial_guess: the current x0; right after setup: zero). Afterwards x0 and p_est0 are the last state and the parameters of the explanation and the time has advanced by t_step. A measurement of another size is refused and changes nothing. Restrictions on the configuration as in C97.", "quantifier": "all configurations, all histories after setup, all models, costs, measurements and solvers", "why_tests_cant": "A history is an unbounded sequence of calls of ten kinds in which each answer becomes a prior of the next problem, and each claim is optimality among all explanations.", "anchors": ["do_mpc/estimator/_mhe.py: MHE.make_step, set_initial_guess, _update_bounds, _check_validity, set_y_fun, set_p_fun", "do_mpc/optimizer.py: Optimizer.solve, reset_history, bounds, set_tvp_fun"]}
{"id": "C111", "title": "A configured controller and a configured simulator in a loop do what the planned problem says over their whole life", "statement": "Configure an MPC and a simulator of the same model by any calls and call setup() of both; the predictions passed to the controller are right: its time-varying parameters are the simulator's, its t_step is the simulator's, and the simulator's parameters are at each time those of one realisation that the controller takes into account. Then, in any order and number: turns of the loop (u0 = mpc.make_step(x0), y = simulator.make_step(u0), x0 = y), new episodes (reset_history of both, a new x0 of both), assignments to the controller's bounds, its u0, z0 and x0, set_initial_guess of either, solve(), init_algebraic_variables, guesses u0 and z0 of the simulator, and calls that are refused. Whatever happened before, the next turn succeeds (whatever the solver found, if the statistics to be stored are numbers); if there is an admissible plan and the solver finds global minimisers, it applies the first input of an optimal policy for the problem as configured, with the bounds as assigned so far, at the state of the plant, the input given last and the time of the episode, and the plant moves to the state that the policy predicts for the realisation that occurs: in this turn inputs, algebraic states and next state respect the bounds as assigned last and the nonlinear constraints hold with the plant's own parameters (soft ones up to their maximum violation). The logs of both objects hold exactly the states and inputs of the turns of this episode, the simulator's at the times 0, t_step, 2 t_step, ... Restrictions on the configuration as in C96; the whole state is measured; for continuous-time plants the integrator solves the collocation equations exactly.", "quantifier": "all configurations, all histories of the two objects after setup, all models, costs, constraints, parameters and solvers", "why_tests_cant": "A history is an unbounded sequence of events of three kinds on two objects with separate clocks, and each claim is optimality among all policies plus what a plant outside of the controller does.", "anchors": ["do_mpc/controller/_mpc.py: MPC.make_step, _update_bounds, setup", "do_mpc/simulator.py: Simulator.setup, simulate, make_step, reset_history, set_param", "do_mpc/estimator/_base.py: StateFeedback.make_step", "do_mpc/optimizer.py: Optimizer.solve, reset_history, bounds", "do_mpc/data.py: Data.update"]}
{"id": "C112", "title": "With safe terminal bounds a configured loop keeps its constraints for ever, once a plan exists", "statement": "Configure an MPC and a simulator of the same model by any calls and call setup() of both, let the two objects live through any history (turns, new episodes, assignments to bounds, guesses, direct solves, refused calls), and suppose that then, for the bounds as assigned so far, some admissible plan exists. Let the predictions passed to the controller be right and consistent in time, the controller be nominal or robust over its whole horizon, and the terminal bounds describe a robust control invariant set inside the state bounds. From then on, whatever else is called except a new episode or another assignment of bounds, and whatever points the solver returns as long as they are feasible whenever some point is: an admissible plan exists before every later turn, every later make_step succeeds, and in each turn the input, the algebraic states and the next state of the plant are within their bounds and the nonlinear constraints hold with the parameters of the plant (soft ones up to their maximum violation). For continuous-time models (collocation, polynomials solved exactly by the simulator) the same holds; with cons_check_colloc_points also at all collocation points in between, if moreover no admitted trajectory leaves the bounds on its way into the terminal set.", "quantifier": "all configurations, all histories of the two objects before and after, all models, constraints, parameter predictions and solvers that find feasible points", "why_tests_cant": "Safety for ever along unbounded histories of two stateful objects for every solver that is only feasible; each step needs a plan for the next problem constructed from the previous one.", "anchors": ["do_mpc/controller/_mpc.py: MPC.make_step, _update_bounds, terminal_bounds, setup", "do_mpc/simulator.py: Simulator.setup, simulate, make_step", "do_mpc/estimator/_base.py: StateFeedback.make_step", "do_mpc/optimizer.py: Optimizer.solve, bounds, set_nl_cons", "do_mpc/data.py: Data.update"]}
{"id": "C113", "title": "What the turns of a configured loop cost is bounded by the cost of any plan, and the plant settles", "statement": "Configure an MPC and a simulator of the same model by any calls and call setup() of both, let the two objects live through any history, and let then some admissible plan exist for the bounds as assigned so far. Let the controller be nominal, without penalty on input changes, the terminal bounds lie inside the state bounds, and from every state inside the terminal bounds let an admissible input lead to such a state again with the terminal cost falling by at least the stage cost; let predictions be right and consistent in time and the solver find global minimisers. Then over any later history (turns, guesses, direct solves, refused calls) the sum of the stage costs lterm of all turns, evaluated along the plant, plus the cost of some admissible plan in the end, is at most the cost of any admissible plan at the beginning. With costs that are not negative the sum of stage costs is bounded by the cost of any one plan, at most cost/eta turns cost more than eta, and so the plant in the end reaches and stays in every set outside of which the stage cost is at least some eta > 0. For continuous-time models (collocation, polynomials solved exactly by the simulator, lterm without algebraic states) the cost bound holds as well.", "quantifier": "all configurations, all histories of the two objects before and after, all models, constraints, costs, parameter predictions and global solvers", "why_tests_cant": "Unbounded sums and limits over infinite histories of two stateful objects.", "anchors": ["do_mpc/controller/_mpc.py: MPC.make_step, set_objective, set_rterm, terminal_bounds, _prepare_nlp", "do_mpc/simulator.py: Simulator.simulate, make_step", "do_mpc/optimizer.py: Optimizer.solve, set_nl_cons", "do_mpc/estimator/_base.py: StateFeedback.make_step"]}
{"id": "C114", "title": "Output feedback with configured objects stays safe for ever and every estimate is the true state", "statement": "Configure an MPC, a simulator and a moving horizon estimator of the same discrete-time model by any calls and call setup() of all three; let controller, simulator and estimator live through any later calls (the estimator: measurements, resets, initial guesses, assignments), and let then, at the time of the simulator: the clocks agree; what the estimator remembers be exact (its prior, the last n_horizon - 1 measurements and its parameters are those of the plant, which moved within the bounds and constraints of the estimator); the bounds and constraints of the controller be admitted by the estimator; its costs vanish exactly for no noise and an exact prior; measurements determine the inputs; predictions be right and consistent in time; the terminal bounds of the controller lie inside its state bounds and be invariant; and some admissible plan exist. Then run the script u0 = mpc.make_step(x0); y = simulator.make_step(u0); x0 = mhe.make_step(y) for ever, with initial guesses, direct calls of solve(), refused calls and assignments to mhe.x0, u0, z0 in between, with a controller solver that finds some feasible point whenever there is one and an estimator solver that finds global minimisers: every turn succeeds, no call raises, every estimate is exactly the state of the plant, the parameters stay the true ones, and every move of the plant satisfies the input, state and algebraic bounds and the nonlinear constraints given to the controller. With a controller solver that finds global minimisers every input is the first one of an optimal policy from the true state, and the plant reaches the state which that policy predicts for the parameters it has.", "quantifier": "all configurations of the three objects, all models, constraints, costs, histories before the loop, and all later interleavings of turns and the other events", "why_tests_cant": "Feedback through three stateful objects; the claim is about unbounded histories and all solvers.", "anchors": ["do_mpc/controller/_mpc.py: MPC.make_step, setup", "do_mpc/simulator.py: Simulator.make_step, setup", "do_mpc/estimator/_mhe.py: MHE.make_step, setup", "examples/rotating_oscillating_masses_mhe_mpc/main.py"]}
{"id": "C115", "title": "Data containers and the arrays they hand out", "statement": "Let a data container be used by any calls: update with numbers, with arrays of the user or with unusable values, resets, export(), queries, while the user makes arrays and writes into any array he has. (1) If he never writes into an array that is a field of the container at that time, its contents are always those obtained from the values which the arguments had at the time of each call: later writes into arrays passed to update change nothing. (2) update raises, and queries return, what the contents say; export() has exactly the fields, with their contents. (3) An array obtained from export() or a query never changes by any later call of the library; it shows the log of the time of the export for ever, unless the user writes into it himself. (4) An exported array remains the field of the container exactly until a reset or an update that gets as far as this field. (5) A write into an array changes the contents only if the array is still a field, and then it changes exactly that entry of that field: exported results and whole-field queries are the log itself, not a copy, until the next update.", "quantifier": "all fields, all memories, all histories of calls and writes, all arguments", "why_tests_cant": "Aliasing between the arrays of the library and of the user depends on the whole history of calls.", "anchors": ["do_mpc/data.py: Data.__getitem__, init_storage, update, export"]}
{"id": "C116", "title": "Timer", "statement": "Timer(name, unit) accepts exactly the units ms, s, min and h. After any calls of tic and toc (in any order; exceptions are caught) the list of times has, in order, the time between every tic (not at the time 0) and the toc that follows it immediately, and nothing else; tic never raises; toc succeeds exactly if the last call was a tic (not at the time 0), and otherwise raises an AssertionError and changes nothing. If the clock does not run backwards every time is nonnegative and their sum is at most the time from the first to the last call. info() raises exactly while nothing was measured; the smallest and the largest time it prints are those of measurements (in the unit, rounded), bounds for all of them and for the mean, which is the sum divided by their number.", "quantifier": "all units, all sequences of calls, all clocks, all rounding functions", "why_tests_cant": "The list depends on the whole history of calls, including failed ones.", "anchors": ["do_mpc/tools/_timer.py: Timer.__init__, tic, toc, info"]}
{"id": "C117", "title": "The order of configuration calls does not matter", "statement": "Configure a new controller by calls of set_param, settings, set_objective, set_rterm, set_nl_cons, scaling, bounds and terminal_bounds. Two such histories in which, for every item (the settings, the objective, the input penalty, one scaling factor, one bound, one terminal bound), the last call is the same, and in which the calls of set_nl_cons are the same in the same order, leave the same object, so that everything done with it afterwards has the same results: if no item is set twice any order of the calls is as good as any other, and a call that is followed by another one for the same item is as good as none. If also the calls of set_nl_cons come in another order (different names), setup() succeeds for both or for none, and then both problems have the same feasible points, costs and minimisers. The same holds for a new estimator (also set_tvp_fun, set_p_fun, set_y_fun) and a new simulator (time step, functions, initial values); functions that are refused count as no calls.", "quantifier": "all configurations, all pairs of histories of configuration calls, all problems", "why_tests_cant": "The number of orders grows factorially with the number of calls; the objects keep their configuration in shared structures.", "anchors": ["do_mpc/controller/_mpc.py: MPC.set_param, set_objective, set_rterm, terminal_bounds", "do_mpc/optimizer.py: Optimizer.bounds, scaling, set_nl_cons", "do_mpc/estimator/_mhe.py: MHE.set_param, set_objective, set_p_fun, set_tvp_fun, set_y_fun", "do_mpc/simulator.py: Simulator.set_param, set_tvp_fun, set_p_fun"]}
{"id": "C118", "title": "Soft constraints cost exactly the worst planned violation", "statement": "If the solver returns a global minimiser, the slack of every component of a soft constraint (set_nl_cons with soft_constraint=True and a positive penalty_term_cons) at every node of the scenario tree is exactly the worst violation planned there, over the realisations that may occur: the cost charges penalty times this violation, and nothing where the constraint holds. A soft constraint with maximum_violation = 0 is as good as a hard one: the controllers configured with the one and with the other return first inputs of optimal policies of the same problem. Multiplying all penalties by a factor greater than one never increases the planned violation (weighted sum over the tree) and never decreases what the plan costs otherwise.", "quantifier": "all models, configurations, scenario trees, bounds assigned after setup, parameters and global minimisers of the NLP", "why_tests_cant": "The claims compare optima over continuous spaces; a test evaluates one optimum of one problem.", "anchors": ["do_mpc/optimizer.py: Optimizer.set_nl_cons, _setup_nl_cons", "do_mpc/controller/_mpc.py: MPC._prepare_nlp, make_step"]}
{"id": "C119", "title": "Slacks of an estimator are the worst violations of its window", "statement": "If the solver returns a global minimiser, the slack of every component of a soft constraint (set_nl_cons with soft_constraint=True and a positive penalty_term_cons) of an MHE is exactly the worst violation in the best explanation that is returned: in its interval, or, with nl_cons_single_slack, in the whole window. Nothing is charged where the constraint holds. Multiplying all penalties by a factor greater than one never increases the violation contained in the best explanation and never decreases what it costs otherwise.", "quantifier": "all models, configurations, windows, bounds assigned after setup, measurements and global minimisers of the NLP", "why_tests_cant": "The claims compare optima over continuous spaces; a test evaluates one optimum of one problem.", "anchors": ["do_mpc/optimizer.py: Optimizer.set_nl_cons, _setup_nl_cons", "do_mpc/estimator/_mhe.py: MHE._prepare_nlp, make_step"]}
{"id": "C120", "title": "Soft constraints never make a problem infeasible, and change it only where they are violated", "statement": "Soft constraints without a maximum_violation (the default) never make the problem of a controller infeasible: for all measured states and parameters the solver has a feasible point if and only if it has one in the controller configured by the same calls without these constraints (and setup() succeeds for both), and likewise for an estimator, its measurements and its windows. If the solver returns a global minimiser that plans no violation of any soft constraint, the returned input is the first input of an optimal policy of the problem in which all constraints are hard, and the estimate belongs to a best explanation for the problem in which all constraints are hard.", "quantifier": "all models, configurations, scenario trees, subsets of the constraints, bounds assigned after setup, parameters and solver answers", "why_tests_cant": "Feasibility and optimality range over continuous spaces and over all parameters.", "anchors": ["do_mpc/optimizer.py: Optimizer.set_nl_cons, _setup_nl_cons", "do_mpc/controller/_mpc.py: MPC._prepare_nlp, make_step"]}

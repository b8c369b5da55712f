{"id": "C01", "title": "Grouping objects by bus is a stable permutation", "statement": "When a list of objects, each assigned to a group (a bus, an appliance, ...), is turned into a grouped index, every object appears exactly once, group g contains exactly the objects assigned to g, and objects inside a group keep their original order.", "quantifier": "every number of groups and every assignment list whose entries are below the number of groups", "why_tests_cant": "there are infinitely many assignment lists; a bug in the counting sort shows only for particular multiplicities", "anchors": ["power_grid_model_c/power_grid_model/include/power_grid_model/index_mapping.hpp: build_sparse_mapping"]}
{"id": "C02", "title": "Dense grouping does not depend on the sorting algorithm chosen", "statement": "The dense index mapping gives a sorted list of the group of every object together with a permutation that explains it, and the size heuristic that selects comparison sort or counting sort never changes the answer.", "quantifier": "every assignment list and every number of groups", "why_tests_cant": "the heuristic threshold splits the input space; tests exercise only a few sizes on each side", "anchors": ["power_grid_model_c/power_grid_model/include/power_grid_model/index_mapping.hpp: build_dense_mapping, build_dense_mapping_comparison_sort, build_dense_mapping_counting_sort"]}
{"id": "C03", "title": "Sparse and dense grouped index vectors are interchangeable", "statement": "Iterating a group, asking for the group of an element, the element count and the number of groups give the same answers whichever of the two encodings holds the data; encoding and decoding are inverse to each other.", "quantifier": "every non-decreasing assignment list and every group number", "why_tests_cant": "the two encodings have independent code paths (offset arithmetic versus binary search) which must agree on empty groups at all positions", "anchors": ["power_grid_model_c/power_grid_model/include/power_grid_model/common/grouped_index_vector.hpp: sparse_encode, sparse_decode, SparseGroupedIdxVector, DenseGroupedIdxVector"]}
{"id": "C04", "title": "The component registry is a map with unique IDs", "statement": "After any sequence of component insertions, each accepted ID resolves to exactly the component that was inserted with it, an insertion with an ID already present is rejected and changes nothing, a lookup of an unknown ID is an error, and a lookup that asks for a type the component does not have is an error.", "quantifier": "every sequence of insertions over any component types, and every ID", "why_tests_cant": "the claim is about histories of unbounded length mixing types that share storage through base classes", "anchors": ["power_grid_model_c/power_grid_model/include/power_grid_model/container.hpp: Container::emplace, get_idx_by_id, get_item", "power_grid_model_c/power_grid_model/include/power_grid_model/main_core/input.hpp: add_component"]}
{"id": "C05", "title": "Sequence numbers enumerate the components of a type", "statement": "The position of a component in the output of its type is a bijection between the components deriving from that type and 0..n-1, the inverse look-up by sequence number returns the same component, and components are ordered by insertion within each concrete type.", "quantifier": "every container content and every base type", "why_tests_cant": "off-by-one errors in cumulative sizes appear only with particular combinations of empty and non-empty concrete types", "anchors": ["power_grid_model_c/power_grid_model/include/power_grid_model/container.hpp: get_seq, get_idx_2d_by_seq, get_start_idx, set_construction_complete, citer"]}
{"id": "C06", "title": "Each batch scenario is calculated exactly once", "statement": "For every batch size, every threading option (negative, zero, one, many) and every hardware concurrency, the scenarios handed to the workers form a partition of 0..n-1: no scenario is skipped, none is calculated twice; the number of workers is between one and the number of scenarios.", "quantifier": "all batch sizes, threading settings and hardware concurrency values", "why_tests_cant": "the number of (n_scenarios, n_threads) pairs is unbounded and the hardware value is not under the control of a test", "anchors": ["power_grid_model_c/power_grid_model/include/power_grid_model/job_dispatch.hpp: JobDispatch::job_dispatch, single_thread_job, n_threads"]}
{"id": "C07", "title": "Batch results do not depend on threading or on other scenarios", "statement": "The output of each scenario equals the output of an isolated calculation of the base model with only that scenario's update, whatever the number of threads, the order of scenarios and whichever other scenarios fail; the error report lists exactly the scenarios that failed, in increasing order, each with its own message.", "quantifier": "every scenario list, failure pattern and thread count", "why_tests_cant": "state leakage between scenarios depends on the history of earlier scenarios on the same worker", "anchors": ["power_grid_model_c/power_grid_model/include/power_grid_model/job_dispatch.hpp: batch_calculation, single_thread_job, call_with, scenario_exception_handler, handle_batch_exceptions", "power_grid_model_c/power_grid_model/include/power_grid_model/job_adapter.hpp: JobAdapter"]}
{"id": "C08", "title": "A batch calculation leaves the model's components unchanged", "statement": "Applying a scenario update and restoring it afterwards gives back the very same component attributes as before, for every component type and every subset of attributes in the update, so that later calculations on the model are not affected.", "quantifier": "every component state, every list of updates (with repeated targets and missing attributes)", "why_tests_cant": "restoration has to hold for every attribute, including attributes that were unset (NaN) before the scenario", "anchors": ["power_grid_model_c/power_grid_model/include/power_grid_model/main_model_impl.hpp: update_component, restore_component", "power_grid_model_c/power_grid_model/include/power_grid_model/main_core/update.hpp: update_inverse", "power_grid_model_c/power_grid_model/include/power_grid_model/component/*.hpp: inverse"]}
{"id": "C09", "title": "Updates are addressed by ID or position, and unknown IDs change nothing", "statement": "An update element with an ID changes exactly the component with that ID; if all IDs are omitted the i-th element addresses the i-th component and gives the same result as naming the IDs; an update with an unknown ID or an ID of another type is rejected before any component is changed.", "quantifier": "every model content and update list", "why_tests_cant": "position-based addressing is an optimisation that must be equivalent to ID look-up in every dataset", "anchors": ["power_grid_model_c/power_grid_model/include/power_grid_model/main_core/update.hpp: get_component_sequence_impl, check_component_independence, get_all_sequence_idx_map, update_component", "power_grid_model_c/power_grid_model/include/power_grid_model/main_model_impl.hpp: update_components"]}
{"id": "C10", "title": "Omitted attributes of an update stay unchanged", "statement": "For every component type, an attribute that is not given (NaN) in an update keeps its value, and a given attribute takes the given value.", "quantifier": "all component types, all states, all subsets of given attributes", "why_tests_cant": "the number of attribute subsets times states is unbounded; each type implements the rule by hand", "anchors": ["power_grid_model_c/power_grid_model/include/power_grid_model/component/*.hpp: update, set_status, set_power", "power_grid_model_c/power_grid_model/include/power_grid_model/common/three_phase_tensor.hpp: update_real_value"]}
{"id": "C11", "title": "Cached solver state never influences results", "statement": "After any history of permanent updates, batch scenarios and calculations of either symmetry, the topology and admittance parameters used by the next calculation equal those of a model freshly built from the current component attributes.", "quantifier": "every history of updates, restores and calculations", "why_tests_cant": "stale-cache bugs need a particular order of topology changes, parameter changes and symmetry switches", "anchors": ["power_grid_model_c/power_grid_model/include/power_grid_model/calculation_preparation.hpp: SolversCacheStatus, prepare_solvers, rebuild_topology, reset_solvers", "power_grid_model_c/power_grid_model/include/power_grid_model/main_model_impl.hpp: update_components, update_state"]}
{"id": "C12", "title": "A node is energised exactly when a closed path connects it to an active source", "statement": "The topology processing assigns a node to a solvable island if and only if there is a path of connected branches from a connected source to it; nodes in the same island are exactly those connected to each other; node positions within an island are 0..n-1 without repetition; every connected branch end, appliance and sensor is attached to the position of its own node, everything else is marked disconnected.", "quantifier": "every grid graph, every switching state", "why_tests_cant": "reachability over arbitrary graphs with arbitrary open branch sides", "anchors": ["power_grid_model_c/power_grid_model/include/power_grid_model/topology.hpp: Topology::build_topology, dfs_search, reorder_node, couple_branch, couple_all_appliance, couple_sensors"]}
{"id": "C13", "title": "The elimination ordering is a permutation with complete fill-in", "statement": "The minimum-degree ordering of a meshed island lists each vertex once, and the original edges plus the reported fill-in edges are closed under elimination in this order (eliminating a vertex never needs an edge that is not present).", "quantifier": "every undirected graph", "why_tests_cant": "a missing fill-in corrupts the factorisation only on graphs whose elimination creates that edge", "anchors": ["power_grid_model_c/power_grid_model/include/power_grid_model/sparse_ordering.hpp: minimum_degree_ordering, make_clique, check_indistguishable, remove_vertices_update_degrees"]}
{"id": "C14", "title": "The nodal admittance matrix is the sum of all element contributions", "statement": "For every island the matrix entry (i,j) equals the sum of the admittances that branches and shunts contribute to (i,j), each exactly once, with the structure in strictly increasing column order per row and the diagonal always present, also for parallel branches and fill-ins.", "quantifier": "every list of branches, shunts and fill-ins", "why_tests_cant": "counting-sort assembly with parallel branches, self-contributions and fill-ins has unbounded combinations", "anchors": ["power_grid_model_c/power_grid_model/include/power_grid_model/math_solver/y_bus.hpp: YBusStructure, counting_sort_element, update_admittance"]}
{"id": "C15", "title": "Incremental admittance updates equal a full rebuild", "statement": "Updating the admittance matrix for a list of changed branches and shunts gives the same matrix as computing it from scratch with the new parameters.", "quantifier": "every structure, parameter set and list of changed components (with duplicates)", "why_tests_cant": "an affected entry that is missed shows only for the specific parallel combination", "anchors": ["power_grid_model_c/power_grid_model/include/power_grid_model/math_solver/y_bus.hpp: update_admittance_increment, update_admittance_entries, get_affected_admittance_entries, register_admittance_entries"]}
{"id": "C16", "title": "The sparse LU solver solves the linear system", "statement": "If factorisation succeeds on a matrix whose pattern is closed under elimination, the returned vector x satisfies A x = b in exact arithmetic; the factorisation multiplies back to the matrix.", "quantifier": "every dimension, pattern and values with non-zero pivots", "why_tests_cant": "dimension and pattern are unbounded; indexing errors in the update of fill-ins depend on the pattern", "anchors": ["power_grid_model_c/power_grid_model/include/power_grid_model/math_solver/sparse_lu_solver.hpp: SparseLUSolver::prefactorize, solve_once, prefactorize_and_solve", "power_grid_model_c/power_grid_model/include/power_grid_model/math_solver/sparse_lu_solver.hpp: DenseLUFactor"]}
{"id": "C17", "title": "Power flow output satisfies Kirchhoff's current law", "statement": "In a power flow result, at every bus the reported source, load and generator currents add up to the current flowing into branches and shunts at the reported voltages, also with several sources on one bus.", "quantifier": "every admittance matrix, voltage vector and set of appliances", "why_tests_cant": "algebraic identity over all real inputs and all numbers of appliances per bus", "anchors": ["power_grid_model_c/power_grid_model/include/power_grid_model/math_solver/common_solver_functions.hpp: calculate_source_result, calculate_multiple_source_result, calculate_load_gen_result, calculate_pf_result", "power_grid_model_c/power_grid_model/include/power_grid_model/math_solver/y_bus.hpp: calculate_injection, calculate_branch_flow, calculate_shunt_flow"]}
{"id": "C18", "title": "State estimation output is consistent per bus", "statement": "The appliance powers reported by state estimation at a bus add up to the bus injection of the estimated state, appliances that are disconnected get zero, and with exactly enough measurements a measured appliance reports its measurement.", "quantifier": "every set of appliances and measurements on a bus", "why_tests_cant": "algebraic identity over all combinations of measured, unmeasured and disconnected appliances", "anchors": ["power_grid_model_c/power_grid_model/include/power_grid_model/math_solver/measured_values.hpp: combine_appliances_to_injection, calculate_non_over_determined_injection, calculate_over_determined_injection"]}
{"id": "C19", "title": "Merging measurements is order independent and inverse-variance weighted", "statement": "Several measurements of one quantity are merged to the inverse-variance weighted mean with the summed inverse variance; the result does not depend on the order of the sensors, lies between the smallest and largest measured value, and its variance is not larger than any of the inputs; infinite-variance measurements have no influence.", "quantifier": "every list of measurements with positive (possibly infinite) variances", "why_tests_cant": "permutations and convexity over all real inputs", "anchors": ["power_grid_model_c/power_grid_model/include/power_grid_model/common/statistics.hpp: statistics::combine, scale", "power_grid_model_c/power_grid_model/include/power_grid_model/math_solver/measured_values.hpp: combine_measurements"]}
{"id": "C20", "title": "Short-circuit currents balance at the faulted bus", "statement": "At a faulted bus the reported fault currents equal the net current supplied by sources and branches, the faulted phases have the voltages the fault type prescribes and the healthy phases carry no fault current, for any number of faults on a bus.", "quantifier": "every admittance matrix, fault type, phase, impedance (zero or finite), number of faults on a bus", "why_tests_cant": "algebraic identity over all numeric inputs and fault multiplicities", "anchors": ["power_grid_model_c/power_grid_model/include/power_grid_model/math_solver/short_circuit_solver.hpp: add_faults, add_fault, add_fault_with_infinite_impedance, calculate_result"]}
{"id": "C21", "title": "Reactive power is shared between voltage-regulated generators within limits", "statement": "If the required reactive power of a regulated bus can be provided within the limits of its generators, the allocation gives every generator a value within its limits and the values add up to the requirement; otherwise all are at their limit and the violation is reported.", "quantifier": "every set of limits and every requirement", "why_tests_cant": "the distribution is iterative; correctness needs a termination and conservation argument over all real inputs", "anchors": ["power_grid_model_c/power_grid_model/include/power_grid_model/math_solver/common_solver_functions.hpp: allocate_q_iterative_distribution, allocate_q_bus_limit_violated, calculate_voltage_regulator_result, distribute_q"]}
{"id": "C22", "title": "An iterative power flow returns a converged result or an error", "statement": "A power flow that returns without error performed between one and max_iter iterations and its last iteration changed no bus voltage by more than the error tolerance; otherwise an iteration-divergence error is raised after exactly max_iter iterations. The solver object itself is not modified.", "quantifier": "every iteration map, tolerance and iteration limit", "why_tests_cant": "the statement ranges over all iteration sequences, including those that produce NaN", "anchors": ["power_grid_model_c/power_grid_model/include/power_grid_model/math_solver/iterative_pf_solver.hpp: IterativePFSolver::run_power_flow", "power_grid_model_c/power_grid_model/include/power_grid_model/math_solver/iterative_current_pf_solver.hpp: iterate_unknown", "power_grid_model_c/power_grid_model/include/power_grid_model/math_solver/newton_raphson_pf_solver.hpp: iterate_unknown"]}
{"id": "C23", "title": "Voltage-controlled buses switch to reactive limit at most once", "statement": "During a Newton-Raphson power flow a voltage-regulated bus whose reactive limit is violated is switched to constant reactive power at that limit and never switched back; therefore the number of switches is at most the number of regulated buses, and the reactive power fixed for a switched bus is its limit.", "quantifier": "every sequence of iterations and every set of limits", "why_tests_cant": "the argument is over unbounded iteration histories", "anchors": ["power_grid_model_c/power_grid_model/include/power_grid_model/math_solver/newton_raphson_pf_solver.hpp: set_bus_types_and_q_limits, enforce_q_limits, violated_limit"]}
{"id": "C24", "title": "Tap positions always stay in the declared range", "statement": "After construction and any sequence of updates the tap position of every (three-winding) transformer lies between tap_min and tap_max whichever of the two is larger, and applying the same update twice equals applying it once.", "quantifier": "every input and every sequence of updates (8-bit integers)", "why_tests_cant": "histories of unbounded length and reversed ranges", "anchors": ["power_grid_model_c/power_grid_model/include/power_grid_model/component/transformer.hpp: tap_limit, set_tap, update", "power_grid_model_c/power_grid_model/include/power_grid_model/component/three_winding_transformer.hpp: tap_limit, set_tap, update"]}
{"id": "C25", "title": "Automatic tap changing terminates and its result is in band", "statement": "The any-valid-tap optimisation terminates for every grid behaviour, moves taps only one step at a time inside their range, and when it reports success every regulated transformer is either inside its voltage band or at the end of its range; the model's tap positions are restored afterwards whether it succeeded or raised an error. A calculation that fails for another reason than that it does not converge or is singular is not tried again: its error is raised.", "quantifier": "every voltage response function, tap ranges, bands and numbers of regulators", "why_tests_cant": "termination must hold against arbitrary (also discontinuous) voltage responses", "anchors": ["power_grid_model_c/power_grid_model/include/power_grid_model/optimizer/tap_position_optimizer.hpp: TapPositionOptimizerImpl::optimize, iterate, iterate_with_fallback, adjust_transformer_scan, RankIteration, one_step_tap_up, one_step_tap_down"]}
{"id": "C26", "title": "Transformers are regulated in order of distance to the sources", "statement": "The rank of a regulated transformer is the number of regulated transformers on the best path from a source; transformers of one rank are adjusted together and lower ranks first; every regulated transformer that can be reached from a source gets a rank.", "quantifier": "every grid graph", "why_tests_cant": "shortest-path correctness over arbitrary graphs", "anchors": ["power_grid_model_c/power_grid_model/include/power_grid_model/optimizer/tap_position_optimizer.hpp: build_transformer_graph, get_edge_weights, rank_transformers, process_edges_dijkstra"]}
{"id": "C27", "title": "Transformer clock validation and phase shift", "statement": "A transformer is rejected exactly when its clock is odd although both windings are of the same family (star or not star), or even although they are of different families; an accepted clock, also a negative one or one above eleven, is taken modulo twelve and gives the phase shift of the given value. The same holds for the two clocks of a three-winding transformer, whose two-winding equivalents are then always accepted and undo the given phase shifts.", "quantifier": "every clock value and winding combination", "why_tests_cant": "the clock is an 8-bit integer combined with the winding types and also flows through three-winding combinations modulo twelve", "anchors": ["power_grid_model_c/power_grid_model/include/power_grid_model/component/transformer.hpp: is_valid_clock, Transformer", "power_grid_model_c/power_grid_model/include/power_grid_model/component/three_winding_transformer.hpp: convert_to_two_winding_transformers", "power_grid_model_c/power_grid_model/include/power_grid_model/common/common.hpp: map_to_cyclic_range"]}
{"id": "C28", "title": "Branch admittances of open branches are the exact reduction of the full branch", "statement": "The admittance of a branch that is open at one side equals the two-port admittance of the closed branch with zero current forced at the open side; fully open branches contribute nothing; asymmetric parameters are the phase-domain transform of the sequence parameters and act on balanced voltages like the symmetric ones.", "quantifier": "all admittances and tap ratios", "why_tests_cant": "algebraic identity over all complex parameters", "anchors": ["power_grid_model_c/power_grid_model/include/power_grid_model/component/branch.hpp: calc_param_y_sym, calc_param_y_asym, calc_branch_param"]}
{"id": "C29", "title": "Three-winding transformers equal their star equivalent", "statement": "The short-circuit voltages and losses between each pair of windings of the generated star of three two-winding transformers equal the values given for the three-winding transformer, for every tap position.", "quantifier": "all impedance data", "why_tests_cant": "algebraic round trip over all real inputs", "anchors": ["power_grid_model_c/power_grid_model/include/power_grid_model/component/three_winding_transformer.hpp: calculate_uk, calculate_pk, tap_adjust_impedance"]}
{"id": "C30", "title": "Source impedance and short-circuit voltage factor", "statement": "The reference impedance of a source reproduces the given short-circuit power and R/X ratio in positive and zero sequence, and the short-circuit voltage factor depends only on rated voltage and the scaling option as in IEC 60909.", "quantifier": "all short-circuit powers, ratios and rated voltages", "why_tests_cant": "algebraic identity over all real inputs", "anchors": ["power_grid_model_c/power_grid_model/include/power_grid_model/component/source.hpp: Source, set_parameters, math_param"]}
{"id": "C31", "title": "Fault type and phase combinations are validated", "statement": "After construction or update a fault is accepted only with a phase that is meaningful for its type, default phases are resolved to one fixed phase of that type, and a rejected update raises an error.", "quantifier": "every fault type, phase and update history", "why_tests_cant": "histories in which type and phase are updated separately", "anchors": ["power_grid_model_c/power_grid_model/include/power_grid_model/component/fault.hpp: Fault::check_sanity, get_fault_phase, update"]}
{"id": "C32", "title": "Linked nodes form supernodes", "statement": "Nodes connected by closed links are merged to one electrical node exactly when a chain of closed links connects them, and every node belongs to exactly one supernode.", "quantifier": "every set of nodes and links", "why_tests_cant": "connectivity over arbitrary graphs", "anchors": ["power_grid_model_c/power_grid_model/include/power_grid_model/supernodes.hpp: find_link_connected_components, TopologicalNodeMapping, construct_reduced_topology"]}
{"id": "C33", "title": "Link flows satisfy Kirchhoff's current law", "statement": "The currents assigned to the links inside a supernode balance the injections at each node whenever the total injection is zero, and the choice for meshed links is the minimum-norm one.", "quantifier": "every link graph and every injection vector", "why_tests_cant": "linear algebra over graphs of unbounded size", "anchors": ["power_grid_model_c/power_grid_model/include/power_grid_model/link_solver.hpp: forward_elimination, backward_substitution, compute_loads_link_elements"]}
{"id": "C34", "title": "A sensor's output refers to the object it measures", "statement": "The residual reported for a sensor is computed from the calculated value of exactly the object and terminal the sensor is attached to, for every topology and switching state.", "quantifier": "every topology, switching state and sensor placement", "why_tests_cant": "index translation between user, topology and solver numbering differs for every switching state", "anchors": ["power_grid_model_c/power_grid_model/include/power_grid_model/main_core/output.hpp: output_result (sensors)", "power_grid_model_c/power_grid_model/include/power_grid_model/main_core/core_utils.hpp: get_topology_index"]}
{"id": "C35", "title": "Dataset buffers are partitioned over scenarios", "statement": "For every accepted dataset the spans of the scenarios of a component are consecutive, disjoint and cover the buffer; uniform datasets and the equivalent index-pointer datasets give the same spans; slicing a batch gives the same scenarios as indexing the original.", "quantifier": "every batch size, uniform or sparse layout and slice bounds", "why_tests_cant": "all index pointers and slices", "anchors": ["power_grid_model_c/power_grid_model/include/power_grid_model/auxiliary/dataset.hpp: Dataset, add_component_info, get_buffer_span, get_individual_scenario, get_slice_scenario, check_uniform_integrity, check_non_uniform_integrity"]}
{"id": "C36", "title": "Cartesian-product batches enumerate all combinations and report all failures", "statement": "With several batch dimensions, output scenario number i1*n2*...*nk + ... + ik holds the calculation of the model with the updates i1, ..., ik applied in that order; every failing combination is reported under its own scenario number and nothing else is reported; no failure is lost.", "quantifier": "every number of dimensions, every batch size per dimension and every failure pattern", "why_tests_cant": "failure patterns and dimension counts are unbounded", "anchors": ["power_grid_model_c/power_grid_model_c/src/model.cpp: calculate_multi_dimensional_impl, MDBatchExceptionHandler, get_stride_size", "power_grid_model_c/power_grid_model_c/src/handle.hpp: call_with_catch, clear_error", "power_grid_model_c/power_grid_model/include/power_grid_model/auxiliary/dataset.hpp: get_individual_scenario, get_slice_scenario"]}
{"id": "C37", "title": "Serialisation round-trips", "statement": "Deserialising a serialised dataset gives back the same elements with the same attribute values (unset values stay unset), for row or columnar buffers, compact or verbose lists, single or batch datasets.", "quantifier": "every dataset content", "why_tests_cant": "nested structure of unbounded size with optional values", "anchors": ["power_grid_model_c/power_grid_model/include/power_grid_model/auxiliary/serialization/serializer.hpp: Serializer", "power_grid_model_c/power_grid_model/include/power_grid_model/auxiliary/serialization/deserializer.hpp: Deserializer"]}
{"id": "C38", "title": "Serialiser output depends only on the requested options", "statement": "The text or binary returned for given options (compact list, indentation) is the same whatever was requested from the same serialiser before.", "quantifier": "every sequence of requests", "why_tests_cant": "caching bugs depend on the order of requests", "anchors": ["power_grid_model_c/power_grid_model/include/power_grid_model/auxiliary/serialization/serializer.hpp: get_json, get_msgpack, serialize"]}
{"id": "C39", "title": "The handle reflects the last call", "statement": "After each API call the handle's error code, message and failed scenario list describe that call only: success clears them, failure sets a non-zero code, and no exception crosses the API boundary.", "quantifier": "every sequence of API calls on a handle", "why_tests_cant": "statement about all call histories", "anchors": ["power_grid_model_c/power_grid_model_c/src/handle.hpp: call_with_catch, clear_error, DefaultExceptionHandler", "power_grid_model_c/power_grid_model_c/src/handle.cpp: PGM_error_code, PGM_n_failed_scenarios", "power_grid_model_c/power_grid_model_c/src/model.cpp: BatchExceptionHandler"]}
{"id": "C40", "title": "Accepted state-estimation inputs are observable", "statement": "A set of measurements that passes the observability check of a radial island without current/phasor information determines all branch flows and voltages; a set with fewer independent measurements than unknowns is rejected. Measurements are treated as possibly ill-conditioned exactly if a bus other than the last has no injection, no voltage phasor and no flow sensor on a branch to a bus with a higher number.", "quantifier": "every radial island and every sensor placement", "why_tests_cant": "combinatorial over trees of any size and sensor placements", "anchors": ["power_grid_model_c/power_grid_model/include/power_grid_model/math_solver/observability.hpp: scan_network_sensors, necessary_condition, assign_independent_sensors_radial, sufficient_condition_radial, sufficient_condition_meshed"]}
{"id": "C41", "title": "Voltage regulator configurations are validated", "statement": "A power flow starts only if all enabled voltage regulators on one node agree on the reference voltage, regulate only constant-power generators/loads, and no regulator shares a node with an active source; otherwise the corresponding error is raised.", "quantifier": "every set of regulators, load/generators and sources", "why_tests_cant": "pairwise conditions over sets of unbounded size", "anchors": ["power_grid_model_c/power_grid_model/include/power_grid_model/calculation_preparation.hpp: check_u_ref_per_node, check_load_gen_type, check_sources_and_voltage_regulators, check_state_validity"]}
{"id": "C42", "title": "References between components are validated when the model is built", "statement": "A model is only constructed if every referenced node or regulated/measured object exists and has an allowed type; otherwise construction fails with the ID in the error; insertion order follows the dependency order so that every reference can be resolved.", "quantifier": "every input dataset", "why_tests_cant": "all reference graphs", "anchors": ["power_grid_model_c/power_grid_model/include/power_grid_model/main_core/input.hpp: add_component", "power_grid_model_c/power_grid_model/include/power_grid_model/main_model_impl.hpp: MainModelImpl constructor", "power_grid_model_c/power_grid_model/include/power_grid_model/all_components.hpp: AllComponents"]}
{"id": "C43", "title": "Calculation options select a documented method or raise an error", "statement": "Every combination of calculation type, method, symmetry and tap strategy either runs the documented algorithm or raises an invalid-option error before any output is written; short-circuit calculations are symmetric only if all active faults are three-phase.", "quantifier": "all combinations of option values, including values outside the enumerations", "why_tests_cant": "integers outside the enumerations and all fault sets", "anchors": ["power_grid_model_c/power_grid_model_c/src/model.cpp: check_calculate_valid_options, extract_calculation_options", "power_grid_model_c/power_grid_model/include/power_grid_model/math_solver/math_solver.hpp: run_power_flow, run_state_estimation, run_short_circuit", "power_grid_model_c/power_grid_model/include/power_grid_model/main_model_impl.hpp: calculate"]}
{"id": "C44", "title": "Load and generator injections follow their type", "statement": "The power injected by a load or generator at voltage u is its specified power (with the sign of its kind) times 1, |u| or |u|^2 for constant power, current and impedance; disconnected appliances inject nothing; the three-phase form of a balanced load equals the single-phase form.", "quantifier": "all powers, voltages and types", "why_tests_cant": "algebraic identity over all real inputs", "anchors": ["power_grid_model_c/power_grid_model/include/power_grid_model/component/load_gen.hpp: GenericLoadGen, calc_param", "power_grid_model_c/power_grid_model/include/power_grid_model/math_solver/common_solver_functions.hpp: calculate_load_gen_result"]}
{"id": "C45", "title": "Tap impedance interpolation", "statement": "The short-circuit voltage and loss of a transformer are equal to the given minimum, nominal and maximum tap values at those taps and between them lie between the bounding values, for normal and reversed tap ranges.", "quantifier": "all tap ranges, positions and impedance values", "why_tests_cant": "piecewise-linear interpolation over all integers and reals, including degenerate ranges", "anchors": ["power_grid_model_c/power_grid_model/include/power_grid_model/component/transformer.hpp: tap_adjust_impedance, transformer_params"]}
{"id": "C46", "title": "Cartesian-product dimensions never form a cycle", "statement": "Linking datasets to further batch dimensions can never produce a cyclic chain: an attempt is rejected, so that the enumeration of dimensions terminates.", "quantifier": "every history of linking operations", "why_tests_cant": "cycles need particular sequences of operations over several datasets", "anchors": ["power_grid_model_c/power_grid_model/include/power_grid_model/auxiliary/dataset.hpp: set_next_cartesian_product_dimension", "power_grid_model_c/power_grid_model_c/src/model.cpp: get_batch_dimension, get_stride_size"]}
{"id": "C47", "title": "A copied model is independent of its original", "statement": "Calculating with or updating a copy of a model never reads or changes state of the original, also after the original has been used or destroyed.", "quantifier": "every history of calculations, copies, updates and destructions of models", "why_tests_cant": "shared state shows only for particular orders of copies, parameter changes and destructions", "anchors": ["power_grid_model_c/power_grid_model/include/power_grid_model/main_model.hpp: MainModel copy constructor", "power_grid_model_c/power_grid_model/include/power_grid_model/calculation_preparation.hpp: prepare_solvers", "power_grid_model_c/power_grid_model/include/power_grid_model/math_solver/y_bus.hpp: register_parameters_changed_callback"]}
{"id": "C48", "title": "A rejected permanent update changes nothing", "statement": "If a permanent update is rejected with an error, the model is the same as before the call.", "quantifier": "every model and every update dataset", "why_tests_cant": "the rejection can happen at any element of any component type", "anchors": ["power_grid_model_c/power_grid_model/include/power_grid_model/main_model_impl.hpp: update_components", "power_grid_model_c/power_grid_model/include/power_grid_model/main_core/update.hpp: update_component", "power_grid_model_c/power_grid_model/include/power_grid_model/component/fault.hpp: update, check_sanity"]}
{"id": "C49", "title": "Fast any-valid-tap search", "statement": "The fast any-valid-tap optimisation terminates for every grid behaviour, calculates only with tap positions inside their range, restores the model's tap positions, finds a position in the band when the ordinary any-valid-tap optimisation finds one, and when it reports success every regulated transformer is inside its band or at the end of its range. A transformer whose controlled side is switched off keeps its position in all calculations.", "quantifier": "all rankings, tap ranges (also inverted), control sides, start positions and all responses of the grid", "why_tests_cant": "the binary search depends on the response at every position; tests use a few response curves", "anchors": ["optimizer/tap_position_optimizer.hpp: BinarySearch, adjust_transformer_bs", "main_model_impl.hpp: calculate_with_optimizer"]}
{"id": "C50", "title": "The power reported for a node", "statement": "The active and reactive power reported for an energised node are the total reported for the sources and generators connected to it minus the total reported for the loads connected to it; shunts do not count. A node that is not energised is reported with zeros.", "quantifier": "every grid that can be built, every assignment of components to islands and every result of the solvers, symmetric and asymmetric", "why_tests_cant": "the sums run over components of five types that are numbered together, so a wrong offset only shows for particular mixes of types and nodes", "anchors": ["power_grid_model_c/power_grid_model/include/power_grid_model/main_core/topological_node_output.hpp: solve_topological_nodes, add_appliance_injection", "power_grid_model_c/power_grid_model/include/power_grid_model/main_core/output.hpp: output_result (Node)", "power_grid_model_c/power_grid_model/include/power_grid_model/component/node.hpp: get_output"]}
{"id": "C51", "title": "Output records belong to the components of the input", "statement": "The output has exactly one record for every node, branch, three-winding transformer, source, shunt, load and generator, in the order of the input and with the ID of the component. A component that takes no part in the calculation is reported as not energised with zeros; every other one is reported with the result at the place that the topology assigned to that component.", "quantifier": "every grid that can be built, every assignment of components to islands and every result of the solvers", "why_tests_cant": "components of several types share one numbering; the offsets depend on the numbers of components of all types", "anchors": ["power_grid_model_c/power_grid_model/include/power_grid_model/main_core/output.hpp: produce_output, output_result, comp_base_sequence_cbegin", "power_grid_model_c/power_grid_model/include/power_grid_model/main_core/state_queries.hpp", "power_grid_model_c/power_grid_model/include/power_grid_model/container.hpp: get_start_idx, get_seq"]}
{"id": "C52", "title": "State estimation returns weighted least squares estimates", "statement": "The iterative linear state estimation either fails with an error or returns the weighted least squares estimate of the bus voltages: all measurements with zero variance (buses without injection) are met exactly, and among all voltages that meet them the returned ones have the smallest sum of squared deviations between measured and calculated values, each divided by the variance of the sensor, with measured powers converted to currents at voltages that differ from the returned ones by at most the error tolerance. No other voltages have an equally small sum. If no angle is measured, the slack bus is reported with angle zero. If after the maximum number of iterations a voltage still moves by more than the tolerance, non-convergence is reported.", "quantifier": "every island, every set of voltage, injection, shunt, branch power and branch current measurements with any variances, symmetric and asymmetric, every tolerance and iteration limit", "why_tests_cant": "optimality compares the result with all other voltages; tests compare with a few stored results, mostly with measurements that are exact, for which wrong weights do not show", "anchors": ["math_solver/iterative_linear_se_solver.hpp: run_state_estimation, prepare_matrix, prepare_rhs, iterate_unknown", "math_solver/measured_values.hpp: combine_voltage_iteration_with_measurements, normalize_variance", "supernodes.hpp: construct_reduced_topology"]}
{"id": "C53", "title": "State estimation recovers the state from exact measurements", "statement": "If every sensor shows exactly the value that some bus voltages cause, then these voltages are a fixed point of the iterative linear state estimation; and if powers and local-angle currents are measured only where the voltage phasor is measured, the estimation returns these voltages from every start after at most two iterations.", "quantifier": "every island, every state of it and every set of sensors for which the factorisation succeeds, any variances", "why_tests_cant": "holds for every state and every choice of sensors and variances; tests check a few", "anchors": ["math_solver/iterative_linear_se_solver.hpp: run_state_estimation, prepare_rhs, iterate_unknown"]}
{"id": "C54", "title": "Newton-Raphson iterations", "statement": "The Newton-Raphson power flow starts from the solution of the linear grid in which every load and generator is a constant impedance. Every iteration changes voltage angles and magnitudes by the Newton step of the power mismatch equations of the grid, with the active power and the reference voltage at buses with voltage regulators, and this step is unique. When it reports convergence the power mismatch at every bus is small, of the order of the square of the tolerance. The only errors are divergence, a singular matrix and a regulator at a load that is not of constant power.", "quantifier": "every island, every mix of loads, generators, sources and voltage regulators, every tolerance and iteration limit, symmetric and asymmetric, every number of iterations", "why_tests_cant": "a wrong entry of the Jacobian usually still converges, only slower, to the same voltages; tests compare the voltages of a few grids", "anchors": ["math_solver/newton_raphson_pf_solver.hpp: initialize_derived_solver, prepare_matrix_and_rhs, calculate_hnml, add_loads, add_sources, apply_pv_constraints, iterate_unknown"]}
{"id": "C55", "title": "Newton-Raphson state estimation", "statement": "Every iteration of the Newton-Raphson state estimation changes voltage angles and magnitudes by the Gauss-Newton step: the least squares solution of all measurements, linearised at the current voltages, with the weights of the sensors and with injections of variance zero met exactly; and this step is unique. Voltages that explain all measurements exactly are not changed, and voltages that an iteration does not change are a stationary point of the weighted sum of squared deviations. Without angle measurements phase a of the source bus has angle zero.", "quantifier": "every island, every set of voltage, power and current sensors, every measured value and variance, symmetric and asymmetric, every number of iterations", "why_tests_cant": "a wrong derivative or weight gives voltages near the right ones when measurements are nearly consistent; tests use a few grids, mostly with exact measurements", "anchors": ["math_solver/newton_raphson_se_solver.hpp: run_state_estimation, prepare_matrix_and_rhs, process_branch_power_measurement, process_branch_global_current_measurement, process_branch_local_current_measurement, process_shunt_measurement, process_injection_row, process_voltage_measurements, transpose_multiply_weight, process_lagrange_multiplier, iterate_unknown"]}
{"id": "C56", "title": "Buffers are read and written exactly", "statement": "Setting an attribute of a range of elements of a buffer copies the values of the caller's array, with the given stride, and changes no other byte: no other attribute, no other element, nothing outside of the buffer. Getting reads them back unchanged. Setting to NaN makes all attributes of the given elements, and nothing outside of them, not available. Null pointers are reported as an error and change nothing. A created buffer has room for the requested number of elements with the right alignment, or an error is reported.", "quantifier": "every dataset, component and attribute, every number of elements, offset, size and stride, every contents of memory", "why_tests_cant": "a write that is one element or one byte too far is only seen if a test looks at that byte; offsets, sizes and strides are unbounded", "anchors": ["power_grid_model_c/src/buffer.cpp: PGM_create_buffer, PGM_buffer_set_nan, PGM_buffer_set_value, PGM_buffer_get_value", "auxiliary/meta_gen/gen_getters.hpp: get_meta_attribute, get_meta_component"]}
{"id": "C57", "title": "The meta data describe the buffers", "statement": "For every component of every dataset the reported size and alignment, and the reported offset and type of every attribute, are those of the record: attributes are aligned, inside the element and do not overlap, every member is an attribute exactly once, in the same order, and attributes that are inherited from a base record have the offset that they have there. Look-up by name or index returns exactly the entry with this name or index, or an error and a null pointer.", "quantifier": "all datasets, components and attributes, every name and index", "why_tests_cant": "an attribute forgotten in or added twice to one of the many tables is only seen by a test that uses this attribute in this dataset; names and indices are unbounded", "anchors": ["auxiliary/meta_gen/gen_getters.hpp", "auxiliary/input.hpp, update.hpp, output.hpp", "auxiliary/static_asserts", "power_grid_model_c/src/meta_data.cpp: PGM_meta_get_*"]}
{"id": "C58", "title": "Every component reaches the solver at its place", "statement": "The input that is prepared for a calculation contains exactly the components that take part in it, each once, with its own value, in the island and at the bus or object that it belongs to: loads, generators, sources, shunts and voltage sensors at energised nodes, voltage regulators with their load or generator, power and current sensors with what they measure, and active faults with their type, phase and admittance. An active fault without a type is refused with an error, and a fault whose object is not a node too.", "quantifier": "every valid grid, every number and placement of components, sensors, regulators and faults, every status, every order of IDs", "why_tests_cant": "components are renumbered per island and per kind; a shifted or swapped place gives plausible results and depends on the combination of islands, statuses and orders", "anchors": ["main_core/calculation_input_preparation.hpp: prepare_power_flow_input, prepare_state_estimation_input, prepare_short_circuit_input", "component/fault.hpp: calc_param", "container.hpp: get_seq"]}
{"id": "C59", "title": "Branches and shunts behave as their physical data say", "statement": "In volts, amperes, ohms, siemens and farads: a line is a Π circuit with the given series impedance and the capacitance and loss factor at the system frequency, in each sequence; a link is the documented small impedance; a generic branch is the Π circuit behind an ideal transformer of the given ratio and angle; an asymmetric line carries the currents of its coupled conductors, with the neutral conductor earthed at both ends; a shunt draws what its latest given values say; a transformer has the ratio of its windings at the present tap position, the phase shift of its clock, the impedance of its short-circuit test and the admittance of its no-load test, and in zero sequence the paths that its windings and groundings allow. In symmetric calculations the positive sequence of the same circuit is used. Lines between nodes of different rated voltage and transformers with an impossible vector group are refused.", "quantifier": "every value of the physical data, every rated voltage, every tap position, every winding and clock, every status of the switches, all voltages and currents, every history of updates", "why_tests_cant": "a wrong base, factor or sign is a factor for all inputs that agree with the tested ones at one rated voltage or with equal couplings; the space of continuous data, windings and taps is not finite", "anchors": ["component/line.hpp", "component/link.hpp", "component/generic_branch.hpp", "component/asym_line.hpp", "component/shunt.hpp", "component/transformer.hpp: transformer_params, asym_calc_param", "common/matrix_utils.hpp: average_of_off_diagonal_of_matrix"]}
{"id": "C60", "title": "Sensors are used with the value and the accuracy given", "statement": "In the units of the input: the state estimation uses every power sensor with the last measured active and reactive power, in the reference direction of the measured terminal, every voltage sensor with the last measured magnitude and angle (only the magnitude if an angle is missing), every current sensor with the last measured phasor. Values of a symmetric sensor in an asymmetric calculation are those of a positive-sequence system; values of an asymmetric sensor in a symmetric calculation are the total power and the positive sequence. Each is weighted with the variance that follows from the given standard deviations for the quantity that is used; the standard deviation of an apparent power is shared by active and reactive power; an infinite standard deviation disables the whole measurement.", "quantifier": "every measured value and standard deviation (missing and infinite ones included), every rated voltage, every terminal, all four combinations of symmetry of sensor and calculation, every history of updates", "why_tests_cant": "a wrong factor in a variance changes the weights only a little and no result has to differ visibly; the values, angles and histories are unbounded", "anchors": ["component/power_sensor.hpp: set_power, update, sym_calc_param, asym_calc_param", "component/voltage_sensor.hpp: update, calc_param", "component/current_sensor.hpp: update, calc_decomposed_param", "common/statistics.hpp: PolarComplexRandVar conversions"]}
{"id": "C61", "title": "A tap regulator controls the documented voltage", "statement": "During automatic tap changing a regulator judges the voltage in volt at the end of its virtual line drop impedance: the reported voltage of the node at the controlled side, plus the drop of the current that belongs to the powers that the transformer reports at that side. It is found too high, too low or in the band exactly if it lies above, below or within half the band width around the set point. Set point, band and impedance are those given last; a missing part of the impedance counts as zero. In asymmetric calculations the mean over the phases is judged.", "quantifier": "every grid that is accepted, every result of the solver, every controlled side of two- and three-winding transformers, every rated voltage, set point, band and impedance, every history of updates, symmetric and asymmetric calculations", "why_tests_cant": "a wrong base or direction of the compensation shifts the voltage by an amount that depends on the load, and most tested grids have no compensation or end at the same tap", "anchors": ["component/transformer_tap_regulator.hpp: update, calc_param", "optimizer/tap_position_optimizer.hpp: i_pu, u_pu, NodeState, VoltageBand, compute_node_state_and_param", "main_core/state_queries.hpp: get_topo_node"]}
{"id": "C62", "title": "Derived and short-circuit values belong to the state of the grid", "statement": "In every result the apparent power of a branch, a three-winding transformer or an appliance is the one of its reported active and reactive power; a power factor is active by apparent power, between -1 and 1, and 0 without power; the loading is the documented ratio: the largest current of a line to its rating, the larger total apparent power of a transformer or generic branch to its rating, the largest of the three sides' loadings of a three-winding transformer. In every short-circuit result record k belongs to component k of the input; it gives in volt and ampere, as magnitude and angle of the three phases, the solved voltage or current of that component, with symmetric results expanded to a positive-sequence system, sources by what they inject and shunts by what they draw; a component outside the solved grid is reported as not energised with zeros, and loads and generators always are.", "quantifier": "every accepted input, every placement of components in islands, every result of the solver, every rated voltage and rating, symmetric and asymmetric calculations", "why_tests_cant": "an exchanged side, phase, base or index shows only in grids where the two differ; results and grids are unbounded", "anchors": ["main_core/output.hpp: output_result", "component/branch.hpp: get_output, get_sc_output", "component/branch3.hpp: get_output, get_sc_output, get_null_output", "component/appliance.hpp: get_output, get_sc_output", "component/node.hpp: get_sc_output", "component/fault.hpp: get_sc_output", "component/line.hpp, transformer.hpp, generic_branch.hpp, link.hpp: loading"]}
{"id": "C63", "title": "Regulators report what the calculation did with them", "statement": "Every result has one record for each regulator in the order of the input. After automatic tap changing the record of a tap regulator shows the position in which its transformer was left; without tap changing, or if the regulator took no part, it shows no position. The record of a voltage regulator belongs to the load or generator it regulates: it is energised exactly if the regulator and the generator are switched on and the generator is in the solved grid, and it shows the violated limit of that generator. Regulators in short-circuit results and faults in steady-state results are always reported as not energised.", "quantifier": "every accepted input with any numbers of tap and voltage regulators, every placement of components in islands, every result of the solver and of the optimiser", "why_tests_cant": "regulators of both kinds are numbered together and find their results by the ID or the number of another component; a mixed-up index shows only in grids where the numbers differ", "anchors": ["main_core/output.hpp: output_result (regulators, fault)", "main_core/topology.hpp: register_topology_components (Regulator)", "component/transformer_tap_regulator.hpp: get_output, get_null_output", "component/voltage_regulator.hpp: get_output, get_null_output", "math_solver/common_solver_functions.hpp: calculate_pf_result, calculate_voltage_regulator_result"]}
{"id": "C64", "title": "Information about a calculation counts everything once, whatever the threads do", "statement": "When the loggers of all threads of a batch calculation are gone, the report of the common logger says for every event the total (for numbers of iterations: the largest) of the values that any thread or the caller logged, and nothing for events that nobody logged. It does not depend on how the threads were scheduled, on which thread logged which value, or on the order in which the threads ended. Every measurement that a timer starts is logged exactly once, however the timer is moved, assigned, stopped and destroyed.", "quantifier": "every number of threads, every interleaving of their logging and ending, every sequence of operations on timers", "why_tests_cant": "the number of interleavings is unbounded, and a lost or doubled value shows only in a report that nobody compares with an independent count", "anchors": ["common/calculation_info.hpp: CalculationInfo", "common/multi_threaded_logging.hpp: MultiThreadedLoggerImpl, ThreadLogger", "common/timer.hpp: Timer", "job_dispatch.hpp: single_thread_job"]}
{"id": "C65", "title": "The information about a dataset is what was successfully put into it", "statement": "After any sequence of calls on datasets through the C API, the type, kind, batch size, number of components and the name, elements per scenario and total number of elements of the i-th component that are reported for a dataset are those with which it was created and those of the buffers whose calls reported no error, in that order; a converted dataset has those of its source at the time of the conversion and is independent of it afterwards. A dataset is created, and a buffer accepted, exactly under the documented conditions. A call that reports an error changes no dataset and returns zero or a null pointer; null pointers and component numbers out of range are reported as errors; no call changes a dataset other than the one it names.", "quantifier": "every history of calls that uses no destroyed dataset and gives index pointers of sufficient length, with any arguments including null pointers and negative numbers", "why_tests_cant": "it ranges over all histories of creation, failed and successful additions, conversions and destructions of any number of datasets", "anchors": ["C/dataset.cpp: PGM_create_dataset_const, PGM_create_dataset_const_from_mutable, PGM_dataset_const_add_buffer, PGM_dataset_const_add_attribute_buffer, PGM_dataset_info_*", "C/input_sanitization.hpp: safe_ptr, safe_str_view, safe_bool", "auxiliary/dataset.hpp: Dataset"]}
{"id": "C66", "title": "The C++ API turns every error into its exception and has value semantics", "statement": "In every program that uses objects of the C++ API, a member function or constructor whose function of the core fails throws the exception for this error, with the class, code and message of the error and, for batch errors, every failed scenario with its message; one that succeeds throws nothing and returns its value. A failed constructor leaves no object. Copies are independent of their source, moves transfer the value, self assignment changes nothing, and after an exception the object can be used as if the error had not occurred.", "quantifier": "every sequence of constructions, copies, moves, assignments, calls and destructions of any number of objects that does not use the value of a moved-from object, with any errors of the core", "why_tests_cant": "it ranges over all programs; an error that is lost shows only when the error occurs after a particular combination of moves and assignments", "anchors": ["power_grid_model_cpp/include/power_grid_model_cpp/handle.hpp: Handle::check_error, Handle::call_with", "power_grid_model_cpp/include/power_grid_model_cpp/model.hpp: Model", "C/handle.cpp: PGM_error_code, PGM_batch_errors"]}
{"id": "C67", "title": "A dataset for results has a place for exactly the results of the calculation", "statement": "The dataset that the C++ API makes for the results of a calculation is of the type of the calculation and its symmetry, and has exactly those components of the input that have results of this kind of calculation (sensors only for state estimation, faults only for short circuit calculations, regulators only for power flow) and that the user's filter selects (all if there is no filter), in the order of the input. Each has as many elements per scenario as the input, in one buffer, or in one buffer for each attribute that the filter selects. Every element of every scenario has a place inside of memory of the dataset itself, made for this component and attribute and used for nothing else. It is refused exactly if such a component has a number of elements that differs between scenarios, or the number of scenarios is not possible.", "quantifier": "every input dataset that a program can make, every kind of calculation, symmetry, number of scenarios and filter, and every way to allocate memory for no elements", "why_tests_cant": "it ranges over all datasets and filters; an overlap or a missing place shows only with a particular combination of components, sizes and filters", "anchors": ["power_grid_model_cpp/include/power_grid_model_cpp/dataset.hpp: OwningDataset, get_output_type, get_irrelevant_components", "P/auxiliary/dataset.hpp: add_buffer, add_attribute_buffer, get_span_impl"]}
{"id": "C68", "title": "Accepted messages are what they declare", "statement": "Every message that the deserialiser accepts is a map with the keys version, type, is_batch, attributes and data, in any order and possibly with others. The dataset is the known one that type names. It is a batch exactly if is_batch says so; data is then a list and the number of scenarios is its length, and otherwise data is a map and there is one scenario. A message whose is_batch contradicts its data is refused, whichever of them comes first. Of a repeated key the last value counts.", "quantifier": "every sequence of msgpack tokens, whoever wrote it, and all meta data", "why_tests_cant": "messages are arbitrary: orders, repetitions and unknown keys with nested values of any depth", "anchors": ["power_grid_model_c/power_grid_model/include/power_grid_model/auxiliary/serialization/deserializer.hpp: pre_parse_impl, pre_count_data, pre_count_scenario, read_predefined_attributes, parse_skip"]}

{
 "claims": [
  {
   "property": "C01",
   "status": "proved",
   "theorems": [
    "PGM.Index.sparse_mapping_groups",
    "PGM.Index.sparse_mapping_out_of_range"
   ],
   "note": "unbounded; out-of-range groups are an explicit undefined-behaviour outcome"
  },
  {
   "property": "C02",
   "status": "proved",
   "theorems": [
    "PGM.Index.dense_mapping_sorted",
    "PGM.Index.dense_mapping_heuristic_irrelevant"
   ],
   "note": "holds for every size heuristic"
  },
  {
   "property": "C03",
   "status": "proved",
   "theorems": [
    "PGM.Index.sparse_decode_encode",
    "PGM.Index.sparse_encode_decode",
    "PGM.Index.grouped_vectors_agree",
    "PGM.Index.dense_range_meaning",
    "PGM.Index.dense_from_sparse",
    "PGM.Index.dense_iter_increment",
    "PGM.Index.dense_iter_advance",
    "PGM.Index.dense_iter_decrement"
   ],
   "note": ""
  },
  {
   "property": "C04",
   "status": "proved",
   "theorems": [
    "PGM.Container.registry_refinement",
    "PGM.Container.accepted_components_resolve",
    "PGM.Container.duplicate_rejected"
   ],
   "note": "refinement to a finite map, for every list of insertions"
  },
  {
   "property": "C05",
   "status": "proved",
   "theorems": [
    "PGM.Container.seq_of_idx",
    "PGM.Container.idx_of_seq",
    "PGM.Container.seq_injective",
    "PGM.Container.iter_eq",
    "PGM.Container.iter_lists_insertions",
    "PGM.Container.start_idx_offset"
   ],
   "note": ""
  },
  {
   "property": "C06",
   "status": "proved",
   "theorems": [
    "PGM.Batch.nThreads_bounds",
    "PGM.Batch.scenarios_partitioned",
    "PGM.Batch.scenarios_exactly_once"
   ],
   "note": ""
  },
  {
   "property": "C07",
   "status": "proved",
   "theorems": [
    "PGM.Batch.batch_equals_isolated",
    "PGM.Batch.batch_report",
    "PGM.Batch.batch_threading_irrelevant",
    "PGM.Batch.batch_can_finish",
    "PGM.Batch.empty_message_lost"
   ],
   "note": "arbitrary interleavings of workers; the adapter's set-up/wind-down contract is the named hypothesis Faithful (met by exAdapter; instantiated for component updates under C08). batch_report is about exceptions with a non-empty text; empty_message_lost shows that others are not reported"
  },
  {
   "property": "C08",
   "status": "partial",
   "theorems": [
    "PGM.Update.scenario_restored_partial",
    "PGM.Update.scenario_restored",
    "PGM.Update.nan_value_not_restored",
    "PGM.Update.regulator_not_restored",
    "PGM.Update.adapter_faithful",
    "PGM.Update.batch_of_updates"
   ],
   "note": "scenario_restored_partial is the exact statement for arbitrary scenarios that name the status of regulators: everything is restored except attributes that had no value in the model; nan_value_not_restored and regulator_not_restored prove that the exceptions really occur in the code. scenario_restored and batch_of_updates: full restoration and independence of all scenarios under the hypotheses Restorable and StatusGiven"
  },
  {
   "property": "C09",
   "status": "proved",
   "theorems": [
    "PGM.Update.permanent_update_effect",
    "PGM.Update.permanent_update_pending",
    "PGM.Update.permanent_update_unknown_id",
    "PGM.Update.permanent_update_accepted",
    "PGM.Update.positional_equals_named",
    "PGM.Update.scenario_effect",
    "PGM.Update.scenario_rejected_unchanged",
    "PGM.Update.scenario_defined",
    "PGM.Update.permanent_update_bad_shape_undefined"
   ],
   "note": "permanent_update_bad_shape_undefined is a finding: the permanent update does not validate the shape of the IDs and then reads outside an array"
  },
  {
   "property": "C10",
   "status": "partial",
   "theorems": [
    "PGM.Update.update_sets_given_partial",
    "PGM.Update.update_sets_given",
    "PGM.Update.update_nothing",
    "PGM.Update.tapRegulator_omitted_status",
    "PGM.Update.voltageRegulator_omitted_status",
    "PGM.Update.omitted_attributes_unchanged_false"
   ],
   "note": "proved in full for all component types except the two regulators, for which the code violates the property (negation proved)"
  },
  {
   "property": "C11",
   "status": "proved",
   "theorems": [
    "PGM.Cache.calculation_history_irrelevant",
    "PGM.Cache.calculation_uses_current_attributes",
    "PGM.Cache.calculation_keeps_components"
   ],
   "note": "the topology builder and the parameter functions are abstract (Env), with the named hypothesis Env.Sound that components have different places (instantiated by exEnv); the update flags, the changed-component lists and the per-symmetry caches are the code's"
  },
  {
   "property": "C12",
   "status": "proved",
   "theorems": [
    "PGM.Topology.build_total",
    "PGM.Topology.energised_iff",
    "PGM.Topology.same_island_iff",
    "PGM.Topology.numbering",
    "PGM.Topology.slack_source",
    "PGM.Topology.phase_shift",
    "PGM.Topology.phase_shift_consistent",
    "PGM.Topology.radial_iff",
    "PGM.Topology.branches_coupled",
    "PGM.Topology.branch3s_coupled",
    "PGM.Topology.branch_slots",
    "PGM.Topology.appliances_coupled",
    "PGM.Topology.components_coupled",
    "PGM.Topology.power_sensors_coupled",
    "PGM.Topology.current_sensors_coupled",
    "PGM.Topology.measured_in_range",
    "PGM.Topology.island_valid",
    "PGM.Topology.island_closed",
    "PGM.Topology.grid_structure",
    "PGM.Topology.grid_linear"
   ],
   "note": "for every grid whose references are in range. Also: every island meets the conditions of C13, C14 and C16, so that those results hold for every grid (grid_structure, grid_linear)"
  },
  {
   "property": "C13",
   "status": "proved",
   "theorems": [
    "PGM.Ordering.ordering_correct",
    "PGM.Ordering.fills_new",
    "PGM.Ordering.pattern_closed",
    "PGM.Ordering.isolated_undefined",
    "PGM.Ordering.loop_undefined"
   ],
   "note": "for every graph in which no vertex is connected to itself and every vertex has an edge, which holds for the meshed part of an island; without these conditions the behaviour is undefined (proved)"
  },
  {
   "property": "C14",
   "status": "proved",
   "theorems": [
    "PGM.YBus.structure_correct",
    "PGM.YBus.elements_in_range",
    "PGM.YBus.entry_is_nodal",
    "PGM.YBus.matrix_is_nodal",
    "PGM.YBus.nodal_zero",
    "PGM.YBus.busCurrent_eq"
   ],
   "note": "for every island that meets Topo.Valid (indices in range, fill-ins new and off-diagonal, every bus has a branch or shunt unless it is alone). structure_correct also covers the LU pattern, the map between both and the transposed entries"
  },
  {
   "property": "C15",
   "status": "proved",
   "theorems": [
    "PGM.YBus.increment_equals_rebuild",
    "PGM.YBus.increment_params",
    "PGM.YBus.matrix_is_nodal"
   ],
   "note": "any number of increments, with duplicates, from any previous content"
  },
  {
   "property": "C16",
   "status": "proved",
   "theorems": [
    "PGM.Lu.solve_exact",
    "PGM.Lu.solve_total",
    "PGM.Lu.factorizeAndSolve_exact",
    "PGM.Lu.singular_reported",
    "PGM.Lu.scalar_accepted_iff",
    "PGM.Lu.solve_perturbed",
    "PGM.Lu.solve_refined",
    "PGM.Lu.factorizeAndSolve_accurate",
    "PGM.Lu.regular_rejected",
    "PGM.Lu.solve_unperturbed",
    "PGM.Lu.block_accepted",
    "PGM.Lu.factorize_two",
    "PGM.Lu.factorize_conditioned",
    "PGM.PowerFlow.structure_valid"
   ],
   "note": "exact arithmetic over the real or complex numbers; rounding is not modelled"
  },
  {
   "property": "C17",
   "status": "partial",
   "theorems": [
    "PGM.PowerFlow.kirchhoff_source_bus",
    "PGM.PowerFlow.kirchhoff_other_bus",
    "PGM.PowerFlow.reported_powers",
    "PGM.PowerFlow.reported_flow_powers",
    "PGM.PowerFlow.linear_kirchhoff",
    "PGM.PowerFlow.iterative_residual",
    "PGM.PowerFlow.load_change",
    "PGM.PowerFlow.iterative_kirchhoff_bound",
    "PGM.PowerFlow.linear_total",
    "PGM.PowerFlow.linear_results",
    "PGM.PowerFlow.current_total",
    "PGM.PowerFlow.current_results",
    "PGM.YBus.busCurrent_is_flow",
    "PGM.NewtonPf.newton_results_partial"
   ],
   "note": "exact at every bus with sources; at other buses it holds exactly for whatever the linear method returns and up to a proved bound proportional to the tolerance for whatever the iterative current method returns, including the sparse solver; for Newton-Raphson the error is proved to be quadratic in the tolerance when the last step turned no angle by more than half a turn and kept the signs of the magnitudes. Missing: floating point, and Newton-Raphson runs that end with other steps"
  },
  {
   "property": "C18",
   "status": "partial",
   "theorems": [
    "PGM.Measured.flows_add_up_partial",
    "PGM.Measured.flows_disconnected",
    "PGM.Measured.flows_without_connected",
    "PGM.Measured.flows_measured_reported",
    "PGM.Measured.flows_consistent_reported",
    "PGM.Measured.flows_optimal",
    "PGM.Measured.slot_finite",
    "PGM.Measured.bus_measured_iff",
    "PGM.StateEst.estimation_balances_partial",
    "PGM.StateEst.merged_valid",
    "PGM.StateEst.injectionOf_dead",
    "PGM.StateEst.exInput_valid",
    "PGM.StateEst.exInput_merged"
   ],
   "note": "estimation_balances_partial is about the whole iterative linear estimation, from the sensors to the reported powers: at every bus, also at those without a connected appliance, the appliances add up to the injection, which is the power into branches and shunts. Missing: estimations whose factorisation was perturbed, which meet zero injections only approximately, and the Newton-Raphson estimation, for which the sum is proved for buses with a connected appliance"
  },
  {
   "property": "C19",
   "status": "partial",
   "theorems": [
    "PGM.Measured.combine_weighted_mean",
    "PGM.Measured.combine_unmeasured",
    "PGM.Measured.combine_perm",
    "PGM.Measured.combine_between",
    "PGM.Measured.combine_variance_le",
    "PGM.Measured.combine_infinite_irrelevant",
    "PGM.Measured.combine_infinite_component",
    "PGM.Measured.combine_scale",
    "PGM.Measured.combineDecomposed_perm",
    "PGM.Measured.combineDecomposed_parts",
    "PGM.Measured.combineVoltage_perm",
    "PGM.Measured.combineVoltage_infinite_irrelevant_partial",
    "PGM.Measured.infinite_voltage_sensor_drops_angle",
    "PGM.Measured.infinite_current_sensor_conflicts",
    "PGM.Measured.combineCurrent_iff"
   ],
   "note": "proved in full for the merging function; infinite-variance sensors do have influence through the presence of an angle and through the current angle type (two proved witnesses)"
  },
  {
   "property": "C20",
   "status": "partial",
   "theorems": [
    "PGM.ShortCircuit.shortCircuit_total",
    "PGM.ShortCircuit.supplied_law",
    "PGM.ShortCircuit.reported_currents",
    "PGM.ShortCircuit.voltages_unique",
    "PGM.ShortCircuit.fault_laws",
    "PGM.ShortCircuit.fault_balance_partial",
    "PGM.ShortCircuit.two_solid_unbalanced",
    "PGM.ShortCircuit.coupled_source_unbalanced",
    "PGM.ShortCircuit.two_ground_unbalanced"
   ],
   "note": "for any number of faults: every reported fault obeys the law of its type, phases and impedance, and the net current supplied by sources, shunts and branches obeys the law of all faults in parallel; the balance with the sum of the reported fault currents is proved for regular buses and is false of the code otherwise, with three proved witnesses"
  },
  {
   "property": "C21",
   "status": "partial",
   "theorems": [
    "PGM.PowerFlow.allocate_terminates",
    "PGM.PowerFlow.allocate_any_limits_partial",
    "PGM.PowerFlow.allocate_correct_partial",
    "PGM.PowerFlow.allocate_equal_share",
    "PGM.PowerFlow.allocate_single",
    "PGM.PowerFlow.violated_at_limit",
    "PGM.PowerFlow.bus_reactive_power_partial",
    "PGM.PowerFlow.bus_violation_reported",
    "PGM.PowerFlow.feasible_requirement_missed",
    "PGM.PowerFlow.spurious_error",
    "PGM.PowerFlow.zero_requirement_ignores_limits",
    "PGM.PowerFlow.phase_requirement_missed"
   ],
   "note": "proved for limits that contain zero (allocate_correct_partial); false of the code otherwise: four proved witnesses"
  },
  {
   "property": "C22",
   "status": "partial",
   "theorems": [
    "PGM.PowerFlow.converged_contract",
    "PGM.PowerFlow.diverge_contract",
    "PGM.PowerFlow.run_terminates",
    "PGM.PowerFlow.run_leaves_solver",
    "PGM.PowerFlow.maxDev_bounds",
    "PGM.PowerFlow.converged_changes_small_partial",
    "PGM.PowerFlow.nan_counts_as_converged",
    "PGM.PowerFlow.nan_forgets",
    "PGM.PowerFlow.nan_result_returned",
    "PGM.PowerFlow.negative_limit_never_ends"
   ],
   "note": "false of the code when a bus voltage becomes NaN (counts as converged) and when max_iter is negative (proved witnesses)"
  },
  {
   "property": "C23",
   "status": "proved",
   "theorems": [
    "PGM.PowerFlow.Newton.initial_control",
    "PGM.PowerFlow.Newton.never_switched_back",
    "PGM.PowerFlow.Newton.switches_at_most_once",
    "PGM.PowerFlow.Newton.total_switches_le",
    "PGM.PowerFlow.Newton.switched_only_on_violation",
    "PGM.PowerFlow.Newton.switched_at_limit",
    "PGM.PowerFlow.Newton.converged_within_limits",
    "PGM.NewtonPf.newton_voltage_control"
   ],
   "note": "for every sequence of mismatches and deviations the numerical part may produce"
  },
  {
   "property": "C24",
   "status": "proved",
   "theorems": [
    "PGM.Component.constructed_tap_inRange",
    "PGM.Component.constructed_tap",
    "PGM.Component.taps_stay_in_range",
    "PGM.Component.transformer_update_idem",
    "PGM.Component.transformer3_update_idem",
    "PGM.Component.update_moves_tap"
   ],
   "note": "invariant over all histories of updates, batches and calculations"
  },
  {
   "property": "C25",
   "status": "proved",
   "theorems": [
    "PGM.TapOpt.optimize_terminates",
    "PGM.TapOpt.optimize_restores",
    "PGM.TapOpt.optimize_in_range",
    "PGM.TapOpt.optimize_result",
    "PGM.TapOpt.success_settled",
    "PGM.TapOpt.any_walks",
    "PGM.TapOpt.any_one_step",
    "PGM.TapOpt.example_ready",
    "PGM.TapOpt.disconnected_stays",
    "PGM.TapOpt.other_error_ends"
   ],
   "note": "for every calculator, also one that fails or depends on its history. A transformer whose controlled node is not part of the calculation, or has no voltage, is left where it is"
  },
  {
   "property": "C26",
   "status": "partial",
   "theorems": [
    "PGM.TapRank.rank_total",
    "PGM.TapRank.rank_unique",
    "PGM.TapRank.ranks_correct_partial",
    "PGM.TapRank.wrong_side_reported_partial",
    "PGM.TapRank.reached_ranked_partial",
    "PGM.TapRank.insertionSort_sorts",
    "PGM.TapRank.exampleGrid_valid",
    "PGM.TapRank.exampleGrid_regular",
    "PGM.TapRank.behind_generic_branch_unranked",
    "PGM.TapRank.behind_asym_line_unranked",
    "PGM.TapRank.second_source_hides",
    "PGM.TapOpt.any_walks"
   ],
   "note": "false of the code behind generic branches and asymmetric lines, and when a source that is switched off is the last one at its node: three proved witnesses. For all other grids the ranks, their uniqueness, their order and completeness are proved; any_walks proves that ranks are adjusted together and in order"
  },
  {
   "property": "C27",
   "status": "proved",
   "theorems": [
    "PGM.Component.clock_accepted_iff",
    "PGM.Component.clock_stored",
    "PGM.Component.clock_phase",
    "PGM.Component.clock3_accepted_iff",
    "PGM.Component.clock3_star"
   ],
   "note": ""
  },
  {
   "property": "C28",
   "status": "partial",
   "theorems": [
    "PGM.Component.branch_exact",
    "PGM.Component.branch_dead",
    "PGM.Component.tiny_shunt_error",
    "PGM.Component.tiny_shunt_inexact",
    "PGM.Component.branch3_sequences",
    "PGM.Component.transformer3_sequences",
    "PGM.Component.transformer3_open",
    "PGM.Component.transformer_zero_sequence",
    "PGM.Component.transformer_zero_sequence_ynyn",
    "PGM.Component.asymLine_exact_partial",
    "PGM.Component.asymLine_diagonal_shunt_lost"
   ],
   "note": "exact for every shunt that is zero or not below the tolerance 1e-8; smaller shunts are dropped (error bound tiny_shunt_error, witness tiny_shunt_inexact). A line with an unbalanced shunt matrix is exact only if no entry is below the tolerance; asymLine_diagonal_shunt_lost is the proved negation"
  },
  {
   "property": "C29",
   "status": "partial",
   "theorems": [
    "PGM.Component.star_losses",
    "PGM.Component.star_uk_additive_partial",
    "PGM.Component.star_short_circuit_voltage_partial",
    "PGM.Component.star_short_circuit_voltage_wrong",
    "PGM.Component.star_ratios",
    "PGM.Component.series_reproduces",
    "PGM.Component.shunt_reproduces"
   ],
   "note": "losses proved in full; the short-circuit voltages are wrong when the loss ratios of the windings differ (proved witness), right when they are equal"
  },
  {
   "property": "C30",
   "status": "proved",
   "theorems": [
    "PGM.Component.source_positive_sequence",
    "PGM.Component.source_zero_sequence",
    "PGM.Component.source_defaults",
    "PGM.Component.source_short_circuit",
    "PGM.Component.source_power_flow"
   ],
   "note": "exact reals"
  },
  {
   "property": "C31",
   "status": "proved",
   "theorems": [
    "PGM.Component.fault_constructed_iff",
    "PGM.Component.fault_update_rejected_iff",
    "PGM.Component.fault_param_meaningful",
    "PGM.Component.fault_history_acceptable",
    "PGM.Component.rejected_update_is_kept"
   ],
   "note": "rejected_update_is_kept is a finding: the rejected combination raises an error but stays in the model"
  },
  {
   "property": "C32",
   "status": "proved",
   "theorems": [
    "PGM.Supernode.reduce_total",
    "PGM.Supernode.supernode_iff",
    "PGM.Supernode.supernode_places",
    "PGM.Supernode.links_coupled",
    "PGM.Supernode.reduced_valid",
    "PGM.Supernode.user_energised_iff",
    "PGM.Supernode.user_same_island_iff"
   ],
   "note": "for every grid whose references are in range, including links from a node to itself"
  },
  {
   "property": "C33",
   "status": "partial",
   "theorems": [
    "PGM.LinkSolver.link_flows_violate_kirchhoff",
    "PGM.LinkSolver.link_flows_balance_partial",
    "PGM.LinkSolver.link_flows_minimal_partial",
    "PGM.LinkSolver.tree_unhindered",
    "PGM.LinkSolver.fresh_unhindered"
   ],
   "note": "false of the code: link_flows_violate_kirchhoff is a proved witness with three links. Kirchhoff's law and minimality are proved for all link graphs in which, when a link joins two groups of nodes, no redundant link lies in the group of its second node (Unhindered), which covers all trees"
  },
  {
   "property": "C34",
   "status": "partial",
   "theorems": [
    "PGM.Output.power_sensor_residual",
    "PGM.Output.power_sensor_terminal_reported",
    "PGM.Output.voltage_sensor_residual_partial",
    "PGM.Output.sym_voltage_sensor_angle_wrong",
    "PGM.Output.current_sensor_residual_partial",
    "PGM.Output.current_sensor_terminal_reported",
    "PGM.Output.current_sensor_off",
    "PGM.Output.current_sensor_local_partial",
    "PGM.Output.current_sensor_angle_of_other_node",
    "PGM.Output.current_sensor_angle_wrong",
    "PGM.Output.current_sensor_branch3_undefined",
    "PGM.Output.current_sensor_open_end_undefined",
    "PGM.Output.ex_build",
    "PGM.Output.ex_fits"
   ],
   "note": "proved for power sensors. False of the code for symmetric voltage sensors with an angle in asymmetric calculations, and for current sensors at three-winding transformers, at open ends and with local angles: proved witnesses, and the positive statement for all other sensors"
  },
  {
   "property": "C35",
   "status": "partial",
   "theorems": [
    "PGM.Datasets.addBuffer_iff",
    "PGM.Datasets.scenarios_partition",
    "PGM.Datasets.absent_empty",
    "PGM.Datasets.individual_span",
    "PGM.Datasets.slice_span_partial",
    "PGM.Datasets.slice_empty",
    "PGM.Datasets.uniform_as_indptr",
    "PGM.Datasets.isUniform_iff",
    "PGM.Datasets.slice_indptr_wrong"
   ],
   "note": "all clauses are proved for every dataset that can be made; the slice clause for batches with equal numbers per scenario, because the release build does not check the assertion that there is no index pointer (proved witness)"
  },
  {
   "property": "C36",
   "status": "partial",
   "theorems": [
    "PGM.CApi.md_outputs",
    "PGM.CApi.flat_injective",
    "PGM.CApi.md_report_partial",
    "PGM.CApi.md_failures_lost",
    "PGM.CApi.md_update_failure_misnumbered"
   ],
   "note": "outputs proved in full; the reporting half is false of the code (md_failures_lost, md_update_failure_misnumbered are proved negations), md_report_partial states exactly what is reported"
  },
  {
   "property": "C37",
   "status": "proved",
   "theorems": [
    "PGM.Serial.round_trip",
    "PGM.Serial.round_trip_json",
    "PGM.Serial.serialize_succeeds",
    "PGM.Serial.Example.name_of_infinity",
    "PGM.Serial.Example.data_wellFormed",
    "PGM.Serial.Example.data_message"
   ],
   "note": "for every well-formed dataset, row-based or columnar sources and targets, compact or verbose lists, single or batch, msgpack tokens and JSON text with any indentation. The byte encoding of msgpack tokens and the decimal text of one float are trusted; JSON needs that no dataset or attribute name is the text of an infinity"
  },
  {
   "property": "C38",
   "status": "partial",
   "theorems": [
    "PGM.Serial.msgpack_history",
    "PGM.Serial.json_reply",
    "PGM.Serial.json_history_partial",
    "PGM.Serial.json_history_restores",
    "PGM.Serial.Example.json_history_false",
    "PGM.Serial.error_then_truncated",
    "PGM.Serial.Example.data_fits"
   ],
   "note": "proved for msgpack and for JSON with an indentation other than -1; with indentation -1 it is false of the code after a request with another indentation (proved witness), and json_reply says exactly which text is returned. The text is always one of the same dataset. After an exception the same request returns the truncated buffer"
  },
  {
   "property": "C39",
   "status": "proved",
   "theorems": [
    "PGM.CApi.handle_describes_last_call",
    "PGM.CApi.return_value"
   ],
   "note": ""
  },
  {
   "property": "C40",
   "status": "proved",
   "theorems": [
    "PGM.Observability.radial_accepts",
    "PGM.Observability.ill_conditioned_iff",
    "PGM.Observability.accepted_determines_state",
    "PGM.Observability.island_radial",
    "PGM.Observability.radial_island_accepts",
    "PGM.Observability.no_voltage_throws",
    "PGM.Observability.no_reference_throws",
    "PGM.Observability.radial_two_phasors_unsound",
    "PGM.Observability.exTopo_valid",
    "PGM.Observability.exTopo_radial",
    "PGM.Observability.exTopo_proper",
    "PGM.Observability.exMeas_accepted",
    "PGM.StateEst.estimation_refused_iff"
   ],
   "note": "for radial islands with at most one voltage phasor sensor: accepted exactly if the measurements determine the state, for every numbering the topology gives to an island it reports as radial. With two phasors acceptance is unsound (proved witness). Parallel branches whose admittances cancel are excluded"
  },
  {
   "property": "C41",
   "status": "proved",
   "theorems": [
    "PGM.Prepare.accepted_iff",
    "PGM.Prepare.rejected_reason",
    "PGM.Prepare.no_regulators"
   ],
   "note": "that the regulated objects resolve (Resolved) is what C42 guarantees"
  },
  {
   "property": "C42",
   "status": "proved",
   "theorems": [
    "PGM.Input.build_iff_valid",
    "PGM.Input.build_error_explained",
    "PGM.Input.build_contents",
    "PGM.Input.references_resolve"
   ],
   "note": ""
  },
  {
   "property": "C43",
   "status": "partial",
   "theorems": [
    "PGM.Options.invalid_options_rejected",
    "PGM.Options.error_no_output",
    "PGM.Options.success_runs_documented_partial",
    "PGM.Options.undocumented_method_rejected_partial",
    "PGM.Options.documented_accepted",
    "PGM.Options.undocumented_method_accepted",
    "PGM.Options.regulators_need_newton_raphson",
    "PGM.Options.short_circuit_symmetric",
    "PGM.Options.inactive_fault_counts"
   ],
   "note": "false of the code when no subgrid has a load that is not of constant-impedance type (witness proved): the method option is then not checked"
  },
  {
   "property": "C44",
   "status": "proved",
   "theorems": [
    "PGM.Component.load_power_sym",
    "PGM.Component.load_power_sym3",
    "PGM.Component.load_power_asym",
    "PGM.Component.load_power_asym3",
    "PGM.Component.load_disconnected",
    "PGM.Component.load_current",
    "PGM.Component.load_balanced"
   ],
   "note": ""
  },
  {
   "property": "C45",
   "status": "partial",
   "theorems": [
    "PGM.Component.value_at_nominal",
    "PGM.Component.value_at_max",
    "PGM.Component.value_at_min_partial",
    "PGM.Component.value_at_min_false",
    "PGM.Component.value_towards_max",
    "PGM.Component.value_towards_min_partial"
   ],
   "note": "false of the code when the nominal tap lies outside the tap range (value_at_min_false); proved otherwise"
  },
  {
   "property": "C46",
   "status": "proved",
   "theorems": [
    "PGM.Dimension.never_cyclic",
    "PGM.Dimension.link_outcome",
    "PGM.Dimension.dimensions_enumerable"
   ],
   "note": ""
  },
  {
   "property": "C47",
   "status": "partial",
   "theorems": [
    "PGM.Copy.copies_calculate_fresh_partial",
    "PGM.Copy.no_copies_no_sharing_partial",
    "PGM.Copy.copy_accesses_destroyed_original",
    "PGM.Copy.copy_signals_original"
   ],
   "note": "false of the code: the callbacks of a copied Y bus still refer to the solvers of the original (two proved witnesses); proved: results are not affected as long as no destroyed solver is accessed, and without copies there is no sharing"
  },
  {
   "property": "C48",
   "status": "partial",
   "theorems": [
    "PGM.Update.rejected_update_unchanged_partial",
    "PGM.Update.rejected_update_unchanged_false"
   ],
   "note": "false of the code for fault updates (witness proved); holds for all rejections because of IDs"
  },
  {
   "property": "C49",
   "status": "partial",
   "theorems": [
    "PGM.TapOpt.optimize_terminates",
    "PGM.TapOpt.optimize_restores",
    "PGM.TapOpt.optimize_in_range",
    "PGM.TapOpt.optimize_result",
    "PGM.TapOpt.fast_misses_valid_tap",
    "PGM.TapOpt.fast_succeeds_out_of_band",
    "PGM.TapOpt.disconnected_stays",
    "PGM.TapOpt.other_error_ends"
   ],
   "note": "termination, range, restoration and the origin of the result are proved; the last two clauses are false of the code, with two proved witnesses"
  },
  {
   "property": "C50",
   "status": "proved",
   "theorems": [
    "PGM.Output.node_power",
    "PGM.Output.ex_build",
    "PGM.Output.ex_fits"
   ],
   "note": "removal of links from the calculation is dormant in this version and not part of the model"
  },
  {
   "property": "C51",
   "status": "proved",
   "theorems": [
    "PGM.Output.branch_records",
    "PGM.Output.branch3_records",
    "PGM.Output.appliance_records",
    "PGM.Output.node_records",
    "PGM.Output.ex_build",
    "PGM.Output.ex_fits"
   ],
   "note": "steady-state results; the places assigned by the topology are assumed to exist in the results (Fits)"
  },
  {
   "property": "C52",
   "status": "partial",
   "theorems": [
    "PGM.StateEst.iteration_estimate_partial",
    "PGM.StateEst.run_returns_partial",
    "PGM.StateEst.run_normalized_partial",
    "PGM.StateEst.run_diverges",
    "PGM.StateEst.normalize_estimate",
    "PGM.StateEst.normalize_smallest",
    "PGM.StateEst.loop_counted_twice",
    "PGM.StateEst.exFactors",
    "PGM.StateEst.exObservable",
    "PGM.StateEst.estimation_refused_iff"
   ],
   "note": "exact arithmetic; for islands without branches that have both ends on one bus. Such branches occur parallel to closed links, and the code counts their measured value twice (proved witness). The case that the factorisation was perturbed, and a zero estimate at the slack bus without measured angle, are excluded"
  },
  {
   "property": "C53",
   "status": "partial",
   "theorems": [
    "PGM.StateEst.exact_stays_partial",
    "PGM.StateEst.linear_solved_partial",
    "PGM.StateEst.exact_recovered_partial",
    "PGM.StateEst.loop_counted_twice",
    "PGM.StateEst.exFactors",
    "PGM.StateEst.exExact",
    "PGM.StateEst.exLinear"
   ],
   "note": "as C52; convergence from any start is proved where no voltage has to be assumed for the conversion of powers"
  },
  {
   "property": "C54",
   "status": "partial",
   "theorems": [
    "PGM.NewtonPf.newton_iteration",
    "PGM.NewtonPf.newton_start",
    "PGM.NewtonPf.newton_mismatch_partial",
    "PGM.NewtonPf.newton_voltage_control",
    "PGM.NewtonPf.newton_results_partial",
    "PGM.NewtonPf.newton_total",
    "PGM.NewtonPf.nr_converges",
    "PGM.NewtonPf.spurious_convergence"
   ],
   "note": "exact arithmetic. Start, iterations and errors are proved in full; the bound at convergence needs that the last step turned no angle by more than half a turn and changed the sign of no magnitude. Without that condition it is false of the code (proved witness: a step by full turns)"
  },
  {
   "property": "C55",
   "status": "partial",
   "theorems": [
    "PGM.NewtonSe.step_gaussNewton_partial",
    "PGM.NewtonSe.run_returns_step_partial",
    "PGM.NewtonSe.run_path_partial",
    "PGM.NewtonSe.exact_readings_fixed_partial",
    "PGM.NewtonSe.fixed_point_stationary_partial",
    "PGM.NewtonSe.exStep",
    "PGM.NewtonSe.exRun",
    "PGM.NewtonSe.half_open_sensor_not_used",
    "PGM.NewtonSe.coupled_phases_not_optimal"
   ],
   "note": "exact arithmetic. Proved for all grids whose measured branches and shunts do not couple the phases (always so in symmetric calculations), without the sensors of half-open branches. Both restrictions are needed: the code violates the property without them (proved witnesses)"
  },
  {
   "property": "C56",
   "status": "partial",
   "theorems": [
    "PGM.Buffer.set_value_exact",
    "PGM.Buffer.set_value_others",
    "PGM.Buffer.get_value_exact",
    "PGM.Buffer.set_get",
    "PGM.Buffer.no_elements",
    "PGM.Buffer.null_pointer",
    "PGM.Buffer.null_component",
    "PGM.Buffer.set_nan_exact",
    "PGM.Buffer.set_nan_all_nan",
    "PGM.Buffer.create_buffer_partial",
    "PGM.Buffer.create_buffer_too_small",
    "PGM.Buffer.create_buffer_silent"
   ],
   "note": "all functions on buffers are proved in full except for the creation: the number of bytes wraps around modulo 2^64 and a failing allocation is not reported (proved witnesses)"
  },
  {
   "property": "C57",
   "status": "proved",
   "theorems": [
    "PGM.Buffer.attribute_layout",
    "PGM.Buffer.attributes_complete",
    "PGM.Buffer.base_view",
    "PGM.Buffer.tables_ok",
    "PGM.Buffer.metaData_struct",
    "PGM.Buffer.names_unique",
    "PGM.Buffer.attribute_names",
    "PGM.Buffer.attributeByName_spec",
    "PGM.Buffer.componentByName_spec",
    "PGM.Buffer.null_name",
    "PGM.Buffer.byIdx_spec"
   ],
   "note": "the records and lists of attributes are transcribed mechanically from the headers; sizes and alignments are those of the usual 64-bit platforms"
  },
  {
   "property": "C58",
   "status": "partial",
   "theorems": [
    "PGM.CalcInput.power_flow_input",
    "PGM.CalcInput.state_estimation_input",
    "PGM.CalcInput.short_circuit_input_partial",
    "PGM.CalcInput.short_circuit_type_required",
    "PGM.CalcInput.fault_object_unchecked"
   ],
   "note": "power flow and state estimation are proved in full. Short circuit is proved for active faults whose object is a node; an update to any other object is accepted and makes the calculation undefined (proved witness)"
  },
  {
   "property": "C59",
   "status": "partial",
   "theorems": [
    "PGM.Physical.reported_units",
    "PGM.Physical.line_voltages",
    "PGM.Physical.line_physical",
    "PGM.Physical.link_physical",
    "PGM.Physical.link_physical3",
    "PGM.Physical.link_not_as_documented",
    "PGM.Physical.generic_physical",
    "PGM.Physical.shunt_physical",
    "PGM.Physical.asymLine_physical_partial",
    "PGM.Physical.asymLine_sym_partial",
    "PGM.Physical.asymLine_sym_wrong",
    "PGM.Physical.transformer_physical",
    "PGM.Physical.transformer_refused",
    "PGM.Physical.transformer_zero_physical",
    "PGM.Physical.transformer_zero_physical_ynyn"
   ],
   "note": "proved in real units for lines, generic branches, shunts and transformers. Links are proved with the admittance of the code, the documented one is disproved. Asymmetric lines are proved in three phases (with one side open if all capacitance entries are above the threshold); in symmetric calculations only if two of the couplings are equal, otherwise the code is wrong (proved witness)"
  },
  {
   "property": "C60",
   "status": "partial",
   "theorems": [
    "PGM.Sensor.power_active",
    "PGM.Sensor.power_reactive",
    "PGM.Sensor.power_accuracy_partial",
    "PGM.Sensor.power_apparent_partial",
    "PGM.Sensor.power_accuracy_wrong",
    "PGM.Sensor.power_disabled",
    "PGM.Sensor.power_apparent_disabled",
    "PGM.Sensor.voltage_phasor",
    "PGM.Sensor.voltage_magnitude",
    "PGM.Sensor.voltage_missing",
    "PGM.Sensor.voltage_accuracy_partial",
    "PGM.Sensor.voltage_accuracy_wrong",
    "PGM.Sensor.voltage_disabled",
    "PGM.Sensor.current_used",
    "PGM.Sensor.current_second_order"
   ],
   "note": "values are proved for all sensors and calculations. Variances are proved for current sensors in all calculations and for power and voltage sensors unless an asymmetric sensor takes part in a symmetric calculation, where the code uses three times the variance (proved for all inputs). Standard deviations of current sensors are finite in the model"
  },
  {
   "property": "C61",
   "status": "partial",
   "theorems": [
    "PGM.TapVoltage.control_symmetric",
    "PGM.TapVoltage.control3_symmetric",
    "PGM.TapVoltage.control_asymmetric_partial",
    "PGM.TapVoltage.control3_asymmetric_partial",
    "PGM.TapVoltage.control_asymmetric_third",
    "PGM.TapVoltage.control_asymmetric_wrong",
    "PGM.TapVoltage.control_unique",
    "PGM.TapVoltage.control_plain"
   ],
   "note": "proved for symmetric calculations, and for asymmetric ones without line drop compensation. With compensation asymmetric calculations use a third of the impedance: proved for all inputs, with a witness that violates the property. That the power of a branch is voltage times conjugated current is a hypothesis about the result of the solver; the voltage is not zero"
  },
  {
   "property": "C62",
   "status": "partial",
   "theorems": [
    "PGM.Reports.branch_reports",
    "PGM.Reports.branch3_reports",
    "PGM.Reports.branch3_side_loadings_missing",
    "PGM.Reports.appliance_reports",
    "PGM.Reports.sc_nodes",
    "PGM.Reports.sc_branches",
    "PGM.Reports.sc_branch3s",
    "PGM.Reports.sc_sources",
    "PGM.Reports.sc_shunts",
    "PGM.Reports.sc_loads",
    "PGM.Reports.sc_faults"
   ],
   "note": "proved except that a three-winding transformer that is not energised has no loadings of its sides (proved for all inputs). Ratings of lines and transformers are not zero; the two nodes of a line have equal rated voltages"
  },
  {
   "property": "C63",
   "status": "proved",
   "theorems": [
    "PGM.Reports.tap_regulators",
    "PGM.Reports.tap_regulator_position",
    "PGM.Reports.voltage_regulators",
    "PGM.Reports.voltage_regulator_state",
    "PGM.Reports.voltage_regulator_calculation",
    "PGM.Reports.idle_records"
   ],
   "note": "voltage_regulator_calculation covers the way from the input over the preparation and the entries of the solver to the record; which limit of a bus is violated is the decision of the solver and a parameter. tap_regulators is for every result of the optimiser that lists a transformer at most once, tap_regulator_position for the results that the model of the optimiser makes"
  },
  {
   "property": "C64",
   "status": "proved",
   "theorems": [
    "PGM.Logging.thread_reports",
    "PGM.Logging.report_of_schedule",
    "PGM.Logging.timers_once",
    "PGM.Logging.copy_counts_twice"
   ],
   "note": "exact numbers; a maximum is at least 0, which numbers of iterations are. Copies of thread loggers, which the library does not make, are excluded: copy_counts_twice shows why"
  },
  {
   "property": "C65",
   "status": "proved",
   "theorems": [
    "PGM.DatasetApi.info_of_history",
    "PGM.DatasetApi.create_exactly",
    "PGM.DatasetApi.add_buffer_exactly",
    "PGM.DatasetApi.failed_call",
    "PGM.DatasetApi.other_datasets",
    "PGM.DatasetApi.null_pointers",
    "PGM.DatasetApi.Example.other_negative_reported"
   ],
   "note": "the documentation asks the caller for -1 elements per scenario if a component is not uniform; the code does not check this and reports any other negative number as it was given (other_negative_reported). Addresses of destroyed datasets are not used again in the model; writable datasets are not modelled"
  },
  {
   "property": "C66",
   "status": "partial",
   "theorems": [
    "PGM.CppApi.program_as_intended_partial",
    "PGM.CppApi.clean_after_call",
    "PGM.CppApi.revived_object_hides_errors"
   ],
   "note": "proved for all programs that do not assign a copy to a variable that was moved from; with such an assignment the code loses every error of the object (proved for all values and errors). Batch errors are taken to have one message per failed scenario, as the core makes them"
  },
  {
   "property": "C67",
   "status": "proved",
   "theorems": [
    "PGM.ResultSet.result_exactly",
    "PGM.ResultSet.result_places",
    "PGM.ResultSet.size_refused"
   ],
   "note": "the constructor of OwningDataset for results; memory never runs out, and addresses of memory are blocks that are not used for anything else. Filters name attributes by name; the constructor from a dataset of the deserialiser is not modelled"
  },
  {
   "property": "C68",
   "status": "proved",
   "theorems": [
    "PGM.Serial.accepted_says"
   ],
   "note": "over msgpack tokens; JSON reaches the same code through the conversion modelled for C37"
  }
 ]
}
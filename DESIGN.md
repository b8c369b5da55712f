# Formal model of power-grid-model in Lean 4

Source under study: `/repo` (PowerGridModel/power-grid-model, C++ core and C API).
In this document and in the Lean comments `P/` abbreviates
`power_grid_model_c/power_grid_model/include/power_grid_model/` and `C/` abbreviates
`power_grid_model_c/power_grid_model_c/src/`.

## Layout

* `properties.jsonl` – the list of properties (C01 ...).
* `lean/Verif/<Area>/Model.lean` – the model of the code, function by function; every definition cites
  file and lines.
* `lean/Verif/<Area>/Lemmas.lean` (optional) – helper lemmas.
* `lean/Verif/<Area>/Props.lean` – the property theorems, with small independent specifications and
  non-vacuity examples beside them.
* `MANIFEST.json` – property → theorem names and status.
* `seeded/LOG.jsonl` – mutation experiments: edits of the model that mimic realistic bugs and the theorems
  that stopped proving.

## Trusted base

* Lean 4.33.0's kernel. Every property theorem depends at most on the axioms `propext`,
  `Classical.choice`, `Quot.sound`. There are no axioms of our own, no `sorry`, no `native_decide`,
  no `bv_decide`.
* The reading of the C++ source by the authors of the model. The code was not compiled or run.
* Mathlib (selected modules) is used as a library of proved facts; it adds nothing to the trusted base beyond
  the kernel.

General simplifications, valid for every module unless the definition says otherwise:

* `Idx`/`int64_t` arithmetic is unbounded (`Nat`/`Int`). 8-bit quantities (`IntS`: taps, clocks, statuses)
  are modelled with their real range where the property depends on it.
* Floating point numbers are modelled as elements of a field (`ℚ`, `ℝ`, `ℂ` or an arbitrary field); rounding
  is not modelled. NaN ("not available") is modelled as `none` where the code branches on it.
* Out-of-range accesses, broken preconditions and other undefined behaviour are explicit outcomes
  (`Option.none`, `Except.error`), never silently totalised, or the precondition is a named hypothesis.
* Concurrency: workers own a copy of the model and write to disjoint outputs; the model proves the
  disjointness and the independence of results of the partition, it does not model the C++ memory model.

## Which parts of the code are modelled

Every file of the core (`P/`) and of the C API (`C/`). "Area" is the directory below `lean/Verif`. The comments of the definitions
give the lines. Code that only a "not modelled" remark mentions is outside of every theorem.

| file | area | not modelled |
|---|---|---|
| `P/all_components.hpp`, `P/common/component_list.hpp`, `P/container_fwd.hpp` | the list of components in `Update`, `Input`, `Output`, `Buffer` | template machinery |
| `P/auxiliary/input.hpp`, `update.hpp`, `output.hpp`, `meta_gen/*`, `static_asserts/*`, `meta_data.hpp`, `meta_data_gen.hpp` | `Buffer` (records, offsets, tables of attributes) | `compare_value` of attributes; the tables are generated from the source text by a script, the kernel checks what is proved about them |
| `P/auxiliary/dataset.hpp`, `C/dataset.cpp` | `Dataset`, `DatasetApi` | writable datasets and their `set_buffer`, attribute indications |
| `P/auxiliary/serialization/*` | `Serial` | the libraries for JSON and msgpack, parsing of text to tokens, printing of numbers |
| `P/common/common.hpp`, `three_phase_tensor.hpp`, `matrix_utils.hpp`, `enum.hpp`, `typing.hpp` | `Common` and where used | expression templates |
| `P/common/exception.hpp` | errors as values | texts of messages |
| `P/common/grouped_index_vector.hpp`, `P/index_mapping.hpp`, `P/common/counting_iterator.hpp` | `Index` | iterators as objects |
| `P/common/statistics.hpp` | `Measured`, `Sensor` | |
| `P/common/{calculation_info,logging,multi_threaded_logging,timer}.hpp` | `Logging` | time itself, events without a value, move assignment of thread loggers |
| `P/common/{maybe_owning_view,iterator_facade,dummy_logging,text_logger}.hpp` | – | all: views, iterators, texts of logs |
| `P/component/{line,link,generic_branch,asym_line,shunt,line_utils}.hpp` | `Physical`, `Component/Branch` | |
| `P/component/{transformer,transformer_utils,three_winding_transformer}.hpp` | `Physical/Transformer`, `Component/{Branch,Clock,Tap,ThreeWinding}` | |
| `P/component/{branch,branch3,appliance,node,component,base}.hpp` | `Component`, `Update`, `Output`, `Reports` | – |
| `P/component/{source,load_gen,fault}.hpp` | `Component`, `CalcInput`, `ShortCircuit` | |
| `P/component/{sensor,power_sensor,voltage_sensor,current_sensor}.hpp` | `Update`, `Output`, `Measured`, `Sensor` | |
| `P/component/{regulator,voltage_regulator,transformer_tap_regulator}.hpp` | `Update`, `Input`, `TapOpt`, `TapVoltage`, `Reports` | |
| `P/container.hpp` | `Container` | cached iterators |
| `P/batch_parameter.hpp`, `P/job_dispatch.hpp`, `P/job_adapter.hpp`, `P/job_interface.hpp` | `Batch`, `Update` | threads as such, logging, the interface as a CRTP class |
| `P/calculation.hpp`, `P/calculation_parameters.hpp`, `P/calculation_preparation.hpp` | `CApi/Options`, `Topology`, `Prepare`, `Cache` | |
| `P/link_solver.hpp` | `LinkSolver` | |
| `P/main_core/calculation_input_preparation.hpp` | `CalcInput` | |
| `P/main_core/{input,container_queries}.hpp` | `Input` | |
| `P/main_core/{output,state_queries,math_output_queries,topological_node_output}.hpp` | `Output`, `Reports` | |
| `P/main_core/{topology,core_utils,state}.hpp` | `Topology`, `CalcInput` | |
| `P/main_core/{update,main_model_type}.hpp` | `Update` | |
| `P/main_core/{y_bus,math_state}.hpp`, `P/main_model.hpp`, `P/main_model_impl.hpp`, `P/main_model_fwd.hpp` | `Cache`, `Prepare`, `Update`, `TapOpt` | copy-on-write pointers are values |
| `P/math_solver/block_matrix.hpp`, `common_solver_functions.hpp`, `linear_pf_solver.hpp`, `iterative_pf_solver.hpp`, `iterative_current_pf_solver.hpp` | `PowerFlow` | views into blocks of memory |
| `P/math_solver/newton_raphson_pf_solver.hpp` | `Newton` | |
| `P/math_solver/iterative_linear_se_solver.hpp` | `StateEst` | |
| `P/math_solver/newton_raphson_se_solver.hpp` | `NewtonSe` | |
| `P/math_solver/measured_values.hpp` | `Measured`, `StateEst` | |
| `P/math_solver/observability.hpp` | `Observability` | |
| `P/math_solver/short_circuit_solver.hpp` | `ShortCircuit` | |
| `P/math_solver/sparse_lu_solver.hpp` | `Lu` | rounding; the threshold of pivot perturbation is modelled exactly, its numerical justification is not |
| `P/math_solver/y_bus.hpp` | `YBus`, `Cache` | |
| `P/math_solver/math_solver.hpp`, `math_solver_dispatch.hpp`, `C/math_solver.*` | `Cache`, `CApi` | the table of function pointers |
| `P/optimizer/*` | `TapRank`, `TapOpt` | the graph library (boost): its Dijkstra queue is modelled |
| `P/sparse_ordering.hpp` | `Ordering` | |
| `P/supernodes.hpp` | `Supernode` | |
| `P/topology.hpp` | `Topology` | the graph library: depth-first search is modelled |
| `C/{handle,model,serialization}.*`, `input_sanitization.hpp`, `options.*` | `CApi` | |
| `C/buffer.cpp`, `meta_data.cpp`, `get_meta_data.hpp` | `Buffer` | |
| `C/{dataset_definitions.cpp,forward_declarations.hpp,safe_memory_handling.hpp}` | – | all: constants for the names of attributes, declarations, an allocator |
| `power_grid_model_cpp`: `handle.hpp`, `model.hpp`, and the common pattern of the other classes | `CppApi` | `load_dataset` and `save_dataset` (files), conversion of strings |
| `power_grid_model_cpp`: `dataset.hpp`, datasets for results (`OwningDataset`, `get_output_type`, `get_irrelevant_components`) | `ResultSet` | the constructor from a writable dataset; contents of the memory (`AttributeBuffer` fills it with the value for "not given") |
| the Python package | – | all |

## Plan per property

| id | modelled | proof |
|---|---|---|
| C01 | `build_sparse_mapping` counting sort over lists | loop invariants of the two passes; result = filter by group |
| C02 | both dense algorithms and the size heuristic | both equal the unique stable sort |
| C03 | `sparse_encode/decode`, both vector classes | count / lower-bound lemmas |
| C04 | `Container` as vectors + hash map, `emplace`, look-ups | invariant by induction over insertions |
| C05 | `cum_size`, `get_seq`, `get_idx_2d_by_seq` | prefix-sum arithmetic |
| C06 | strided loops, `n_threads` | arithmetic modulo n_threads, permutation of range |
| C07 | `batch_calculation` with adapter operations as state transformers that may fail | refinement to a map over scenarios |
| C08 | per-type `update`, `inverse`, restore | per-type algebra, induction over update lists; negations for NaN originals and regulators |
| C09 | `get_update_ids_match`, sequence computation, `update_components` | equality of index sequences; atomicity |
| C10 | per-type `update` | attribute-wise statement; negation for regulators |
| C11 | cache flags state machine, abstract topology/parameter functions | invariant by induction over operations |
| C12 | `Verif/Topology`: the sparse graph, `boost::depth_first_visit` with its stack, the visitor, the reordering with the minimum degree ordering, bus numbers, coupling of branches, branches with three sides and appliances | invariant of the stack (gray vertices are the path), tree and back edges, closure of the pattern of an elimination order; compared with reachability, walks and cycles defined without the search. `Topology/Grid`: every island meets the hypotheses of C14, C16, C17 |
| C13 | `minimum_degree_ordering` on adjacency maps (`Ordering/*`) | invariant over the elimination loop; the result is compared with an inductive definition of the entries that elimination creates |
| C14 | `YBusStructure`, `update_admittance` | counting-sort correctness, sums over fibres |
| C15 | `update_admittance_increment` | entries not affected keep their value, affected are recomputed |
| C16 | `Verif/Lu`: block factorisation with full pivoting, sparse block LU on the CSR structure with all index arithmetic, pivot perturbation, substitution, iterative refinement; `Verif/PowerFlow/EndToEnd`: the solver on the structure of the admittance matrix | invariant over the pivots `P A Q + E = L U + remainder`, refinement of the stored data to it; substitution as inverse of the factors; exact fields ℝ and ℂ |
| C17 | `Verif/PowerFlow/{Result,Kirchhoff,Linear}`: results of sources (one or several per bus, both calculation types), loads, regulated generators, branches, shunts; equations of the linear and the iterative current method | linear algebra over the complex numbers: law exact at source buses, equivalence elsewhere, exact for a solution of the linear equations, bound for the iterative method |
| C18 | bus injection distribution (`Measured/Values`); the constructor of `MeasuredValues` and the whole `run_state_estimation` (`StateEst/Sensors`) | algebra over finite lists; buses without connected appliances are zero-variance constraints, which the estimate (C52) meets exactly |
| C19 | `combine`, scaling | algebra over lists, permutation invariance |
| C20 | fault matrix construction, sparse solve and results of `ShortCircuitSolver` | the edited system is equivalent to the network equations plus the law of all faults in parallel (algebra per fault type, any number of faults); results per fault; three negations for the sum of the reported currents |
| C21 | `allocate_q_iterative_distribution` | conservation invariant; negation for the spurious error |
| C22 | iteration loop over an abstract iteration | induction on fuel; NaN negation |
| C23 | bus type switching | monotone measure |
| C24 | `tap_limit`, `set_tap`, update | bounded integers, induction over histories |
| C25 | `Verif/TapOpt`: the whole optimiser for all strategies: scan, binary search, rank iteration with its counters, fallback to the linear method, pilot run, neighbourhood search, caching and restoring of the positions; the calculator is an arbitrary function of the call number, the method and the positions | counters as a number in mixed radix; invariants on ranges; the positions of the calculations are a walk of single adjustments; an error that is neither divergence nor a singular matrix ends the run (`other_error_ends`). Not proved: which end of the band the minimum and maximum strategies find; `success_settled` only says that they end in the band or at the end of the range |
| C26 | `Verif/TapRank`: regulators, transformer graph, sources, Dijkstra search with its priority queue, edge weights, grouping | invariant of Dijkstra's algorithm for several sources; the distance of a node is the least number of regulated transformers on a path. False of the code in three cases, see Findings |
| C27 | clock validation, cyclic range | integer arithmetic |
| C28 | `calc_param_y_sym`, asym | field algebra |
| C29 | uk/pk delta-wye | field algebra |
| C30 | source parameters | algebra |
| C31 | fault sanity tables | case analysis + histories |
| C32 | `Verif/Supernode`: the graph of closed links, `boost::connected_components` as repeated depth-first visits, the check of the mapping, the coupling of nodes and links, the reduced grid | invariant over the vertices with the proved search of C12; supernodes compared with chains of closed links, and with C12: a node is calculated exactly if closed branches and closed links lead to it from a source |
| C33 | `Verif/LinkSolver`: forward elimination with reattachment of edges, backward substitution, degrees of freedom, normal equations, Gauss elimination without pivoting; the order of the unordered sets is arbitrary | each row is the balance of a group of merged nodes; the substitution is a sequence of row operations; Schur complements of a positive definite matrix. Kirchhoff's law is false of the code (witness), proved where no redundant link is reattached |
| C34 | sequence numbers, registration of components, records of the sensors (`Output`) | power sensors for all inputs; voltage and current sensors partial, with proved witnesses of the failures |
| C35 | constructor, acceptance checks, spans, individual scenarios, slices and conversions of `Dataset`; pointers as allocation and offset | invariant over all ways to make a dataset; spans concatenate to the buffer |
| C36 | recursion over dimensions with handle | induction over dimensions; negations (lost failures, missing offset) |
| C37 | serialiser and deserialiser over msgpack tokens, conversion to JSON text (lexical pieces) and back with a SAX parser | round trip by induction over the message; JSON by mutual induction over trees |
| C38 | the buffers that a serialiser keeps between requests | exact reply after every history by induction; negation for indentation −1 |
| C39 | `call_with_catch` | induction over call histories |
| C40 | all of `observability.hpp` over the structure of the admittance matrix | `Observability/`: invariant of the re-assignment of sensors (each branch keeps an own equation, or a bus is lost), against `Determined`: only equal voltages make all readings zero, over any field; the numbering is that of the topology's radial islands; negation for two phasors; the flag for ill-conditioning against `Sensed`, also for meshed islands; for the measured values of an estimation in `StateEst/Refused.lean` |
| C41 | validity checks | decision-procedure equivalence |
| C42 | `add_component` | induction over input |
| C43 | option decoding and dispatch | case analysis |
| C44 | load/gen parameters | algebra |
| C45 | `tap_adjust_impedance` | piecewise linear algebra |
| C46 | dataset linking | acyclicity invariant over histories |
| C47 | solver objects with addresses, callbacks, copies | invariants over histories; negation with witness |
| C48 | permanent update | exactness for rejected IDs; negation for faults |
| C49 | `Verif/TapOpt`, strategy `fastAny` | as C25; two clauses are false of the code, see Findings |
| C50 | injections of the nodes over sources, loads and generators (`Output`) | fold over the numbered components equals the sum over the input at the node |
| C51 | `produce_output` with offsets of types in base classes (`Output`) | numbering lemma for containers built from input; one theorem per kind of component |
| C52 | `run_state_estimation` of `iterative_linear_se_solver.hpp`: gain matrix, right-hand side, normalisation of variances, iteration and stopping (`StateEst`) | the block system is the stationarity condition of the Lagrangian (`Normal`, `Optimal`); a stationary point of a convex quadratic cost with linear constraints is its minimum; uniqueness from that of the LU solution (C16); negation for branches with both ends on one bus |
| C53 | the same | exact values make the cost zero, so the unique minimum is the state |
| C54 | `newton_raphson_pf_solver.hpp` without simplification of the numerical part: linear start, Jacobian, right-hand side, regulated buses, block solve, update (`Newton`) | the rows of the matrix applied to a step are the derivative of the mismatch along it (`HasDerivAt`); uniqueness from C16; second-order expansion of the mismatch for the bound at convergence; negation for steps that turn an angle by a full turn |
| C55 | `newton_raphson_se_solver.hpp` without simplification of the numerical part: start, the four Jacobian blocks of every sensor, gain matrix, constraints and multipliers, block solve, update (`NewtonSe`); the memory that is reused between iterations is left open | the rows of the equations tested against a direction are the derivatives (`HasDerivAt`) of the readings; a solution of the saddle point system is the constrained minimiser; uniqueness from C16; negations for coupled phases and for half-open branches |
| C56 | memory as bytes with the addresses that may be accessed; the functions of `buffer.cpp` and the attribute functions of `gen_getters.hpp` (`Buffer/Model`) | invariant of a sequence of copies whose places do not overlap (`copy_all`), from the layout of C57; negation for sizes that do not fit in 64 bits and failing allocation |
| C57 | all records of input, update and output data with their lists of attributes, generated from the headers (`Buffer/Tables`), standard layout of records, look-ups of `meta_data.cpp` | layout for every record by induction over its members; the finite tables are checked as a whole by the kernel |
| C58 | `calculation_input_preparation.hpp` on the topology and couplings of C12 (`CalcInput`); what `calc_param` returns is given except for faults; out of range access and a missing ID are undefined | invariant of filling vectors along an injective coupling (`prepare_delivers`), then composition with the coupling theorems of C12; negation for a fault whose object is not a node |
| C59 | constructors and `calc_param` of line, link, generic_branch, asym_line, shunt and transformer in real units (`Physical`) | scaling of the circuit of C28 by the bases of voltage and current, then by cases; Kron reduction as elimination of the neutral conductor; histories of shunt updates by induction; negations for the symmetric form of asymmetric lines and for the documented admittance of a link |
| C60 | constructors, updates and `calc_param` of power, voltage and current sensors, conversions of polar random variables (`Sensor`) | histories by induction; variances against the Taylor expansion of first and second order with derivatives from Mathlib, `propagated`; negations for asymmetric power and voltage sensors in symmetric calculations |
| C61 | construction, updates and `calc_param` of tap regulators, selection of the controlled node and current, comparison with the band (`TapVoltage`), on the records of C51 | rotation of the phasors of one phase to the angle of the node (`phase_eq`), histories by induction, then the record theorems of C51; negation for line drop compensation in asymmetric calculations |
| C62 | apparent powers, power factors and loadings of all components, short-circuit records of nodes, branches, three-winding transformers, appliances and faults (`Reports`), on the records and the numbering of C51 | record `k` is made from component `k` and its own place (`produce_eq`), then polar form and norms of complex numbers; negation for the side loadings of three-winding transformers that are not energised |
| C63 | registration of the regulated objects, output of tap regulators from the result of `TapOpt`, of voltage regulators, and of regulators and faults that take no part (`Reports/Regulator`); the entries of voltage regulators in the result of a solver (`Reports/RegulatorSolve`), and their input (C58) | the regulated object of an accepted input exists and has its number (C42, `seq_position`), then `produce_eq` and uniqueness of IDs in the searched lists; induction over the loops of the solver, in which every regulator is written at its own bus only |
| C64 | `CalculationInfo`, thread loggers with their merge as operations in any order, `Timer` with moves and assignments (`Logging`) | invariant: every logger reports the values logged to it and together they hold all values; a merge is a permutation of values; the same for pending measurements |
| C65 | the functions of `C/dataset.cpp` on constant and mutable datasets with null pointers, error handle and destruction (`DatasetApi`), on top of `Dataset` and `CApi` | invariant over histories of calls: the datasets that exist agree with the list of calls that were seen to succeed; exact conditions of acceptance |
| C66 | handles, exceptions, and objects with copies and moves as variables of a program (`CppApi`), on top of `CApi` | simulation of an intended semantics without handles, by induction over programs |
| C67 | the constructor of the dataset for results, with its memory as numbered blocks (`ResultSet`), on top of `Dataset` | induction over the components and the attributes, with the invariant that blocks are numbered in the order of allocation |
| C68 | `pre_parse_impl` and what it calls, over tokens (`Serial/Model.lean`) | `Serial/Accepted.lean`: every parser takes whole objects (`Objects`), so the message is a list of entries; invariant over the entries read so far, against `lastOf`. |


## Findings: where the code and the intended property disagree

Each is stated in Lean as a theorem about the model with a concrete witness (name in parentheses), beside the part of the
property that does hold.

* Regulators have no "omitted" treatment of the status: an update without a status switches the regulator on
  (`Update.tapRegulator_omitted_status`, `Update.voltageRegulator_omitted_status`), and a batch scenario leaks this into
  the following scenarios (`Update.regulator_not_restored`).
* An attribute that has no value in the model and gets one in a batch scenario keeps it after the scenario
  (`Update.nan_value_not_restored`).
* A permanent update with partly omitted IDs, or with all IDs omitted and a wrong number of elements, is not validated and
  reads outside of an array (`Update.permanent_update_bad_shape_undefined`); batches validate (`Update.scenario_defined`).
* A permanent update that is refused by the check of a fault leaves the model partly updated
  (`Update.rejected_update_unchanged_false`).
* A failing scenario whose exception has an empty text is not reported (`Batch.empty_message_lost`).
* In cartesian-product batches failures of earlier outer scenarios are lost and a failing outer update is reported under
  the wrong number (`CApi.md_failures_lost`, `CApi.md_update_failure_misnumbered`).
* The callbacks of a copied Y bus still refer to the solvers of the original model: a parameter change of the copy signals the
  original, and after its destruction accesses a destroyed object (`Copy.copy_accesses_destroyed_original`,
  `Copy.copy_signals_original`). Results are not affected because the stored flag is never reset
  (`Copy.copies_calculate_fresh_partial`).
* The interpolation of uk and pk over the taps is wrong when the nominal tap lies outside of the tap range
  (`Component.value_at_min_false`).
* A branch that is open at one side loses its charging current if the shunt admittance is below 1e-8 p.u.
  (`Component.tiny_shunt_inexact`); a line with an unbalanced capacitance matrix loses all of it as soon as any single entry
  is below that value, in particular when there is no mutual capacitance (`Component.asymLine_diagonal_shunt_lost`).
* The star equivalent of a three-winding transformer combines absolute values of impedances; the short-circuit voltages of the
  star differ from the given ones when the loss ratios differ (`Component.star_short_circuit_voltage_wrong`).
* A fault update that is refused because of its type and phase stays in the model, and the next short-circuit calculation uses
  it (`Component.rejected_update_is_kept`).
* The method option is not checked where it is not used: power flow in subgrids with only constant-impedance loads runs the
  linear method for any value, and with no energised subgrid any method is accepted for every calculation type
  (`Options.undocumented_method_accepted`). Inactive faults count for the choice between symmetric and asymmetric
  short-circuit calculations (`Options.inactive_fault_counts`). With voltage regulators the default method, which is
  Newton-Raphson, is rejected (`Options.regulators_need_newton_raphson`).
* Sensors with infinite variance do have an influence: a voltage sensor without angle of infinite variance drops the angle
  information of all other sensors on the bus (`Measured.infinite_voltage_sensor_drops_angle`), and a current sensor of infinite
  variance with another angle type makes the calculation fail (`Measured.infinite_current_sensor_conflicts`).
* The allocation of reactive power over the regulating generators of a bus is right when all ranges contain zero. Otherwise a
  feasible requirement can be missed without an error (`PowerFlow.feasible_requirement_missed`), a calculation error is possible
  for a feasible requirement (`PowerFlow.spurious_error`), a requirement of zero ignores the limits
  (`PowerFlow.zero_requirement_ignores_limits`), and in asymmetric calculations only the sum over the phases is right, not the
  phases (`PowerFlow.phase_requirement_missed`).
* A NaN voltage change of the last bus counts as convergence (`PowerFlow.nan_counts_as_converged`,
  `PowerFlow.nan_result_returned`), and a NaN of an earlier bus is forgotten (`PowerFlow.nan_forgets`). With a negative
  iteration limit a diverging calculation never ends (`PowerFlow.negative_limit_never_ends`).
* The sparse solver exchanges rows only inside a block. Without perturbation a regular matrix with a singular leading part is reported as
  singular (`Lu.regular_rejected`; for scalar entries `Lu.scalar_accepted_iff` gives the exact condition). After a perturbation
  the solution that is returned contains a last correction whose residual is not checked; `Lu.solve_refined` states what is
  known about it.
* `minimum_degree_ordering` has undefined behaviour for a graph with a self-loop or with isolated vertices only
  (`Ordering.loop_undefined`, `Ordering.isolated_undefined`); the topology never passes such a graph (`Topology.build_total`).
  Two parallel branches between the same nodes do not make an island meshed (`Topology.radial_iff`).
* The link solver does not obey Kirchhoff's law for every link graph (`LinkSolver.link_flows_violate_kirchhoff`): with two parallel
  links 0-1 and a link from 2 to 0 it reports currents that leave a third of the current unaccounted for. A redundant link that has
  become a self-loop stays in the adjacency of its node; when that node is merged as the second node of a later link, the loop is
  reattached on one side only and gets a coefficient in an equation it does not belong to. The function is not called by the
  calculation in this version.
* C26: the transformer graph has no edges for asymmetric lines and generic branches, so that a regulated transformer that is fed
  through one of them gets no rank and is silently not regulated (`behind_generic_branch_unranked`,
  `behind_asym_line_unranked`). If two sources are connected to one node, the last one in the input decides whether the node is
  a source, also if it is switched off (`second_source_hides`). A suspicion that a three-winding transformer could get two ranks,
  because duplicates are only removed within a group, is refuted by `rank_unique`.
* C49: the fast any-valid-tap strategy can raise `MaxIterationReached` although a valid tap position exists and the ordinary
  strategy finds it (`fast_misses_valid_tap`), and it can report success with a voltage out of the band in the middle of the
  range (`fast_succeeds_out_of_band`). Both need a single transformer only.
* C20: several faults on one bus. With two faults without impedance each of them reports the full fault current, because the solver leaves the
  loop over the faults at the first one and counts one (`ShortCircuit.two_solid_unbalanced`). Two two-phase-to-ground faults with impedance
  overwrite each other's constraint row and report wrong currents (`ShortCircuit.two_ground_unbalanced`).
* C20: a single-phase or two-phase-to-ground fault without impedance at the bus of a source with `z01_ratio` other than 1: the current that the
  source feeds through the coupling of the phases is left out of the fault current (`ShortCircuit.coupled_source_unbalanced`).
* C35: `get_slice_scenario` relies on the assertion `is_dense()`. In a release build a batch with an index pointer of unequal steps is sliced
  as if every scenario had the size of the first one (`Datasets.slice_indptr_wrong`). It is reached by a multi-dimensional batch calculation
  with such an output dataset. `PGM_calculate` does not compare the batch sizes of output and update data either.
* C38: `json_indent_` is compared but never assigned, so it stays −1. After `get_string(compact, 2)` a request with indentation −1 and the same
  list option (also `get_binary_buffer` of a JSON serialiser) returns the indented text (`Serial.Example.json_history_false`).
* C38: when packing throws, the buffer keeps what was packed before. The same request made again returns this truncated message without an
  error (`Serial.error_then_truncated`). It needs a count of at least 2³².
* C37: the text of JSON is not escaped, and a string `"inf"` is read back as infinity, also where a name is expected
  (`Serial.Example.name_of_infinity`). The names of the meta data avoid it. The text of −0.0 is `-0`, which is read back as the integer 0: the sign
  of zero is lost (not modelled, the numbers are exact).
* C37: the deserialiser rejects predefined attributes of a component that is absent from the data; for a columnar target that has none of the
  predefined attributes the lengths of the list elements are not checked.
* C37: `check_uniform` reads `dataset_handler_.batch_size()` while `dataset_handler_` is being initialised. It works because the returned handler
  is constructed in place (named return value optimisation, which the standard does not guarantee); the model reads the announced batch size.
* C34: the output of a current sensor looks up the nodes of its branch with `get_topology_index<Branch>(components, obj_math_id)`, which takes the place of
  the branch in the solver's result as if it were a place in the component container. The magnitude and a global angle do not depend on it, but a local angle is
  compared with the voltage of another node as soon as an earlier branch is not part of the calculation or there is more than one island
  (`Output.current_sensor_angle_wrong`). For three-winding transformers the index is usually past the end of the list of branches, an undefined read
  (`Output.current_sensor_branch3_undefined`).
* C34: a current sensor at the open end of a branch, where the node is not energised, reads the voltage at index −1
  (`Output.current_sensor_open_end_undefined`).
* C34: a symmetric voltage sensor with an angle is compared in asymmetric calculations with the same angle in all three phases, while the state estimation
  uses a positive-sequence system. The reported angle residuals of phases b and c are off by 120 degrees (`Output.sym_voltage_sensor_angle_wrong`).
* C34: a power sensor of a node is compared with the injection computed by the solver for the bus, while the power in the record of the node is summed from the
  appliances (C50). They agree if the solver's result balances (C17).
* C40: with more than one voltage phasor sensor in a radial island, a branch without a measurement may take the phasor of the bus with the *next number*
  (`bus + 1`, line 155) instead of that of the bus at its other end. A grid is accepted although a bus is not measured at all
  (`Observability.radial_two_phasors_unsound`).
* C40: `total_injections` is an `int8_t`: with 128 or more measured injections it wraps. It is only used to skip the sufficient condition, so nothing
  is accepted wrongly (`radial_accepts` is proved with the wrapping counter).
* C52: branches that are parallel to a closed link get both ends on the same bus in the reduced topology (`supernodes.hpp`). In `prepare_rhs` of the
  iterative linear state estimation the elements of a diagonal entry are taken to be "either ff or tt"; for such a branch all four are there, and its measured
  value is added twice to the right-hand side while the gain matrix is right. The estimate is that for twice the measured current
  (`StateEst.loop_counted_twice`: with exact measurements of a voltage of 1 it returns 1.5).
* C52: if no angle is measured and the estimate at the slack bus is zero, the rotation to angle zero divides by zero; the theorems exclude it.
* C52: `process_one_object` of `measured_values.hpp` drops merged power and voltage measurements with infinite variance but not current measurements. A current
  sensor with infinite sigma counts as a measurement in the observability check although its weight is zero.
* C54, C17: `iterate_unknown` of `newton_raphson_pf_solver.hpp` measures the change of the voltage phasors, not of the angles. A step that turns the angles
  by full turns changes no phasor, and the run reports convergence although the power mismatch is not zero (`NewtonPf.spurious_convergence`: 2 and 4 pi
  after the linear start, any tolerance). The theorem about the mismatch at convergence therefore needs a last step of at most half a turn.
* C54: the unknown magnitude of a bus may become negative in an iteration. The Jacobian uses it with its sign for loads of constant current, while the reported
  powers use the absolute value; `newton_results_partial` excludes it.
* C55: `transpose_multiply_weight` of `newton_raphson_se_solver.hpp` (lines 703-714) exchanges the off-diagonal tensors of a Jacobian but does not transpose the
  3x3 tensors themselves. In asymmetric calculations with coupled phases the equations are not those of the least squares problem
  (`NewtonSe.coupled_phases_not_optimal`). The theorems assume that measured branches and shunts do not couple the phases, which always holds in
  symmetric calculations.
* C55: for local current sensors and coupled phases `dot(hm, abs_u_chi_inv)` scales the columns instead of the rows, so that the predicted current is wrong
  if the magnitudes of the phases differ; for shunts `sum_row(nl)` has the same flaw. Both are covered by the same assumption.
* C55: sensors of a branch that is connected at one side only are ignored (`NewtonSe.half_open_sensor_not_used`), while the iterative linear estimation and
  the observability check use them.
* C55: `process_lagrange_multiplier` adds the product with the multipliers where the equations need its negative. The voltages are not affected, because the
  multipliers that are solved for absorb it; the stored multipliers grow with every iteration. The theorems hold for any stored multipliers.
* C55: if no angle is measured, asymmetric calculations assume the angles of all three phases at the reference bus as measured, which is more than fixing the
  free rotation: it pulls the estimate towards a symmetric voltage there. The specification (`measuredAngle`) says so.
* C55: the difference of a measured and an estimated angle is not wrapped to half a turn.
* C55, C17: the loop over the deviations uses `std::max(dev, max_dev)`, which loses a NaN as in C22.
* C16: `MathSolver::clear_solver` (`math_solver.hpp` lines 101-106) does not reset the solvers of the Newton-Raphson state estimation and of the short-circuit
  calculation. A fresh solver and a kept one give the same results where the model covers them, because every iteration rebuilds the matrix.
* C58: an update may set the object of an active fault to an ID that does not exist or that is not a node, without an error; the next short-circuit
  calculation then reads outside of arrays, as `get_seq<Node>(ID)` only has an assertion that the ID exists and ignores the type
  (`CalcInput.fault_object_unchecked`).
* C56: `PGM_create_buffer` computes the number of bytes modulo 2⁶⁴ and returns a buffer that is too small for huge sizes, e.g. of no bytes for 2⁶⁰ nodes
  (`Buffer.create_buffer_too_small`). If the allocation fails it returns `NULL` without an error in the handle, which the documentation promises
  (`Buffer.create_buffer_silent`). A negative size is undefined behaviour in `PGM_buffer_set_nan` but accepted without any effect when values are set or read
  (`Buffer.no_elements`).
* C59: `average_of_off_diagonal_of_matrix` (`common/matrix_utils.hpp` lines 16-18) adds the entry (1, 2) twice and leaves out (0, 2). In symmetric
  calculations an `asym_line` whose couplings differ gets a wrong positive sequence admittance, which changes when the phases are renamed
  (`Physical.asymLine_sym_wrong`).
* C59: the documentation gives a link 10 ^ 6 per unit and 10 ^ 7 siemens at 10 kV; the code gives it 10 ^ 8 per unit, i.e. 10 ^ 6 siemens at 10 kV
  (`Physical.link_not_as_documented`).
* C59: `AsymLine` looks only at `r_na` and `x_na` to find out whether there is a neutral conductor; if another of its values is missing the impedances
  are NaN. Given both `c0`, `c1` and a matrix of capacitances, the matrix is ignored.
* C59: the tap direction is −1 if `tap_min` = `tap_max`, so that a tap position away from the nominal one acts in the opposite direction.
* C59: the header of `generic_branch.hpp` draws the full shunt admittance at both ends, the code and the documentation use half of it at each end.
  A `generic_branch` with `sn` = 0, the documented default, divides by zero in the loading; only a missing `sn` gives loading 0.
* C59: lines between nodes whose rated voltages differ by up to 1e-8 V are accepted and use the rated voltage of the from side.
* C60: in symmetric calculations asymmetric power and voltage sensors are used with three times the variance that the total power and the mean voltage of
  the three phases have (`Sensor.power_accuracy_wrong`, `Sensor.voltage_accuracy_wrong`): `mean_val` of the variances instead of their mean divided by 3.
  Current sensors are converted correctly, so that their weight relative to power and voltage sensors depends on the symmetry of the sensors.
* C60: a measured power that is never given counts as 0 W (`Sensor.power_active`), while a missing measured voltage stays missing. A standard deviation of zero, or
  a vector of standard deviations that is given for some phases only, disables the measurement without a message (`Sensor.power_disabled`).
* C60: the documentation gives the variances of the parts of a current to first order, the code adds the terms of second order
  (`Sensor.current_second_order`).

* C61: line drop compensation uses a third of the given impedance in asymmetric calculations (`TapVoltage.control_asymmetric_wrong`): `calc_param` divides by
  `u_rated² / base_power<sym>`, where the base power is that of one phase but the voltage is between lines. Symmetric calculations are right
  (`TapVoltage.control_symmetric`), so the same grid can be regulated to different taps by the two kinds of calculation.
* C61: the documented formula adds a current times an impedance to the voltage between lines; the code, rightly, does so for the voltage between line and ground
  and compares √3 times the result.
* C62: a three-winding transformer that is not energised is reported with loading 0, but `loading_1` to `loading_3` are NaN (`Reports.branch3_side_loadings_missing`):
  `Branch3::get_null_output` does not set them.
* C62: a line without `i_n` (or any line or transformer without a rating) is documented to have loading NaN; if it is not energised its loading is 0.
* C62: `HasLoading` for lines compares currents by the base of the from side, which is that of the to side since both nodes have the same rated voltage up to the tolerance 1e-8; `sc_branches` assumes equality.
* C63: a tap regulator that takes part is reported as energised even if its transformer is not energised or its status is 0; the latter does not happen because regulators
  that are switched off are left out by the optimiser. Without tap changing every tap regulator is reported as not energised.
* C64: a copied thread logger adds its values twice (`copy_counts_twice`). The library makes no copies. Move assignment sets the parent of the source to a null pointer, which its destructor then uses; this is not modelled and does not happen in the library either.
* C65: `dataset.h` says that a component that is not uniform is added with -1 elements per scenario and reports -1. The code accepts any negative number together with an index pointer and reports that number (`other_negative_reported`).
* C66: a `Model` of the C++ API that was moved from has no handle, and copy assignment gives it a new model but no new handle. From then on every error of this object is lost: `calculate` returns normally although the calculation failed (`revived_object_hides_errors`).

Smaller observations, without a theorem of their own:

* `Fault::update` asserts the type of the new object without a test for "not given"; `Dataset`'s conversion to a constant dataset drops the link to the
  next dimension; `DenseGroupedIdxVector` checks less in its assertion than it relies on.
* `set_tap` reports a change when the requested tap is limited to the present one.
* A reference to an ID of a component type that is created later is reported as an ID that was not found.
* `is_normal` of a complex number rejects a number with one subnormal part.
* A negative `max_iter` lets the loops of the state estimation end without an error.
* `prepare_short_circuit_input` uses a user node index for the coupling of topological nodes; both numberings agree as long as short-circuit
  calculations do not merge nodes.

import Verif.Props.Absorb
import Verif.Props.AlsLoop
import Verif.Props.AlsOptimal
import Verif.Props.Backend
import Verif.Props.Benchmark
import Verif.Props.BondFrame
import Verif.Props.BondStore
import Verif.Props.Boundary
import Verif.Props.BuiltIn
import Verif.Props.BuiltInSession
import Verif.Props.Checkpoint
import Verif.Props.CholeskyError
import Verif.Props.CholeskyReturns
import Verif.Props.Cluster
import Verif.Props.Config
import Verif.Props.Conjugate
import Verif.Props.Converged
import Verif.Props.Cooling
import Verif.Props.DefaultState
import Verif.Props.Descent
import Verif.Props.DistSave
import Verif.Props.DistSession
import Verif.Props.Distributed
import Verif.Props.Dtype
import Verif.Props.EnergyDescent
import Verif.Props.EnergyShift
import Verif.Props.EnergyUnits
import Verif.Props.Equivalent
import Verif.Props.EvolveSchedule
import Verif.Props.EvolveSplit
import Verif.Props.FreeSession
import Verif.Props.FreeSites
import Verif.Props.FreshRdm
import Verif.Props.FullEnv
import Verif.Props.FullGauge
import Verif.Props.FullRun
import Verif.Props.FullStep
import Verif.Props.FullUpdateComplex
import Verif.Props.FullUpdateExact
import Verif.Props.GateDescent
import Verif.Props.GateExp
import Verif.Props.GateHeap
import Verif.Props.Gather
import Verif.Props.Gauge
import Verif.Props.GroundState
import Verif.Props.Hermitian
import Verif.Props.Hooks
import Verif.Props.IsingDescent
import Verif.Props.LambdaRegistry
import Verif.Props.Lattice
import Verif.Props.LatticeError
import Verif.Props.LatticeErrorComplex
import Verif.Props.LatticeState
import Verif.Props.MeanField
import Verif.Props.MeanRanks
import Verif.Props.MeanSession
import Verif.Props.MeanTheory
import Verif.Props.Measure
import Verif.Props.MeasureAverages
import Verif.Props.MeasurePrint
import Verif.Props.Models
import Verif.Props.MoveComplex
import Verif.Props.MoveExact
import Verif.Props.Native
import Verif.Props.NativeAls
import Verif.Props.NeelSession
import Verif.Props.Network
import Verif.Props.Patch
import Verif.Props.PatchTrial
import Verif.Props.Pauli
import Verif.Props.PinvSolver
import Verif.Props.Plaquette
import Verif.Props.PosFallback
import Verif.Props.PositiveApprox
import Verif.Props.ProcessGroup
import Verif.Props.Product
import Verif.Props.Projectors
import Verif.Props.QuasiOptimal
import Verif.Props.RandomDraw
import Verif.Props.RandomRun
import Verif.Props.RanksExact
import Verif.Props.RanksTheory
import Verif.Props.Rdm
import Verif.Props.Registry
import Verif.Props.Reversal
import Verif.Props.Rsvd
import Verif.Props.Samples
import Verif.Props.SamplingError
import Verif.Props.Session
import Verif.Props.SessionChi
import Verif.Props.Settings
import Verif.Props.Shapes
import Verif.Props.SimpleGauge
import Verif.Props.SimpleUpdate
import Verif.Props.SiteTensor
import Verif.Props.SmallSteps
import Verif.Props.Split
import Verif.Props.Startup
import Verif.Props.Stationary
import Verif.Props.SvdChoice
import Verif.Props.Sweep
import Verif.Props.Symmetry
import Verif.Props.TensorUpdate
import Verif.Props.Timing
import Verif.Props.Trotter
import Verif.Props.TrotterOrder
import Verif.Props.Truncation

/-! Axioms of every theorem named in MANIFEST.json (generated by scripts/manifest.py). -/

#print axioms AceTN.C01_site_list
#print axioms AceTN.C02_bond_list
#print axioms AceTN.C02_bond_ends_in_cell
#print axioms AceTN.C03_unique_bond_per_side
#print axioms AceTN.C03_bond_reaches_neighbour
#print axioms AceTN.C03_weight_lookup
#print axioms AceTN.C03_both_ends
#print axioms AceTN.C04_evolved_hamiltonian_partial
#print axioms AceTN.C04_evolved_eq_measured_partial
#print axioms AceTN.C04_violated_mixed_terms
#print axioms AceTN.C05_schedule
#print axioms AceTN.C05_list_invariant
#print axioms AceTN.C05_history
#print axioms AceTN.C05_each_bond_once
#print axioms AceTN.C05_exception
#print axioms AceTN.C06_split_partial
#print axioms AceTN.C06_full
#print axioms AceTN.C06_loop_partial
#print axioms AceTN.C06_violated
#print axioms AceTN.C06_violated_states
#print axioms AceTN.C07_schedule
#print axioms AceTN.C07_refresh
#print axioms AceTN.C08_bulk_unchanged
#print axioms AceTN.C08_frame
#print axioms AceTN.C09_order_independent
#print axioms AceTN.C09_left_reads_before
#print axioms AceTN.C09_right_reads_before
#print axioms AceTN.C09_up_reads_before
#print axioms AceTN.C09_down_reads_before
#print axioms AceTN.C10_no_size_mismatch
#print axioms AceTN.C10_check
#print axioms AceTN.C11_links_capped
#print axioms AceTN.C12_left_right_eq_serial
#print axioms AceTN.C12_up_down_eq_serial
#print axioms AceTN.C12_ctmrg_eq_serial
#print axioms AceTN.C12_bond_update_eq_serial
#print axioms AceTN.C13_left_right_completes_iff_partial
#print axioms AceTN.C13_up_down_completes_iff_partial
#print axioms AceTN.C13_error_kind_partial
#print axioms AceTN.C13_renormalize_completes_partial
#print axioms AceTN.C13_violated
#print axioms AceTN.C14_stays_in_sync_partial
#print axioms AceTN.C14_violated_disagreement_persists
#print axioms AceTN.C15_violated_shared
#print axioms AceTN.C15_violated_everywhere
#print axioms AceTN.C15_violated_stale
#print axioms AceTN.C15_same_cell_partial
#print axioms AceTN.C15_read_over_write_partial
#print axioms AceTN.C16_violated
#print axioms AceTN.C16_copy_reads_same_partial
#print axioms AceTN.C17_violated_original
#print axioms AceTN.C17_violated_device_zero
#print axioms AceTN.C17_to_converts_partial
#print axioms AceTN.C18_violated_device_zero
#print axioms AceTN.C18_violated_start
#print axioms AceTN.C18_round_trip_partial
#print axioms AceTN.C18_save_keeps_tensors_partial
#print axioms AceTN.C18_load_missing_partial
#print axioms AceTN.C19_violated
#print axioms AceTN.C19_crash_keeps_values_partial
#print axioms AceTN.C20_violated_given
#print axioms AceTN.C20_new_starts_from_product_state_partial
#print axioms AceTN.C20_continues_partial
#print axioms AceTN.C20_first_evolve_partial
#print axioms AceTN.ST.C21_read_over_write
#print axioms AceTN.ST.C21_unknown_key
#print axioms AceTN.ST.C21_copy_reads_same
#print axioms AceTN.ST.C21_copy_unaffected
#print axioms AceTN.ST.C21_original_unaffected
#print axioms AceTN.ST.C21_list_store_aliases
#print axioms AceTN.ST.C21_to
#print axioms AceTN.Reg.C22_violated_default_name
#print axioms AceTN.Reg.C22_model_kept_partial
#print axioms AceTN.Reg.C22_params_update_partial
#print axioms AceTN.Reg.C22_errors_partial
#print axioms AceTN.Cfg.C23_backend
#print axioms AceTN.Cfg.C23_dtype
#print axioms AceTN.Cfg.C23_device_partial
#print axioms AceTN.Cfg.C23_defaults_partial
#print axioms AceTN.Cfg.C23_kept_partial
#print axioms AceTN.Cfg.C23_unknown_setting
#print axioms AceTN.Cfg.C23_progressbar
#print axioms AceTN.Cfg.C23_violated
#print axioms AceTN.Cfg.C23_model_dim
#print axioms AceTN.Reg.C24_violated_shared_chi
#print axioms AceTN.Reg.C24_violated_shared_params
#print axioms AceTN.Reg.C24_violated_caller
#print axioms AceTN.Reg.C24_setters_partial
#print axioms AceTN.Reg.C24_fresh_dims_partial
#print axioms AceTN.Pauli.C25_complex
#print axioms AceTN.Pauli.C25_real_partial
#print axioms AceTN.Pauli.C25_phase_partial
#print axioms AceTN.Pauli.C25_imul_partial
#print axioms AceTN.Pauli.C25_violated
#print axioms AceTN.Pauli.C25_violated_imul
#print axioms AceTN.Pauli.C26_ising_site
#print axioms AceTN.Pauli.C26_ising_bond
#print axioms AceTN.Pauli.C26_heisenberg
#print axioms AceTN.Pauli.C26_heisenberg_swap
#print axioms AceTN.Pauli.C26_hermitian
#print axioms AceTN.Pauli.C26_violated_default
#print axioms AceTN.C27_bond_gate_posDef
#print axioms AceTN.C27_bond_gate_inverse
#print axioms AceTN.C27_bond_gate_zero
#print axioms AceTN.C27_bond_gate_add
#print axioms AceTN.C27_bond_gate_generator
#print axioms AceTN.C27_site_gate
#print axioms AceTN.GH.C28_violated_hamiltonian
#print axioms AceTN.GH.C28_violated_shared
#print axioms AceTN.GH.C28_violated_drift
#print axioms AceTN.GH.C28_hamiltonian_kept_partial
#print axioms AceTN.GH.C28_other_gates_kept_partial
#print axioms AceTN.C29_permute_spec
#print axioms AceTN.C29_round_trip
#print axioms AceTN.C29_round_trip'
#print axioms AceTN.C29_bond_frame
#print axioms AceTN.C30_recompose
#print axioms AceTN.C30_isometric
#print axioms AceTN.C30_gate
#print axioms AceTN.C31_core
#print axioms AceTN.C31_recomposed
#print axioms AceTN.C31_environment
#print axioms AceTN.C31_network
#print axioms AceTN.C31_trial
#print axioms AceTN.C32_bond_rdm
#print axioms AceTN.C32_norm_tensor
#print axioms AceTN.C33_terminates
#print axioms AceTN.C33_result
#print axioms AceTN.C33_unchanged
#print axioms AceTN.C34_cost
#print axioms AceTN.C34_invertible
#print axioms AceTN.C34_gauge_fix
#print axioms AceTN.C35_cost_is_distance
#print axioms AceTN.C35_first_partial
#print axioms AceTN.C35_second_partial
#print axioms AceTN.C35_monotone_partial
#print axioms AceTN.C35_solver_partial
#print axioms AceTN.C35_first_regularised_partial
#print axioms AceTN.C35_second_regularised_partial
#print axioms AceTN.C35_increase_bound_partial
#print axioms AceTN.C35_succeeds
#print axioms AceTN.C35_violated_every_epsilon
#print axioms AceTN.C35_violated
#print axioms AceTN.C35_first_pinv_partial
#print axioms AceTN.C35_second_pinv_partial
#print axioms AceTN.Als.C36_backends_agree
#print axioms AceTN.Als.C36_stopping_rule
#print axioms AceTN.C37_real_partial
#print axioms AceTN.C37_violated_complex
#print axioms AceTN.C37_violated
#print axioms AceTN.C38_finalize
#print axioms AceTN.C39_real_partial
#print axioms AceTN.C39_returns
#print axioms AceTN.C39_identity_gate
#print axioms AceTN.C39_violated_complex
#print axioms AceTN.C39_violated
#print axioms AceTN.C40_partial
#print axioms AceTN.C40_exact
#print axioms AceTN.C40_one_site
#print axioms AceTN.C40_run
#print axioms AceTN.C40_violated_complex
#print axioms AceTN.C41_partial
#print axioms AceTN.C41_defect
#print axioms AceTN.C41_violated
#print axioms AceTN.C41_violated_complex
#print axioms AceTN.C41_violated_complex'
#print axioms AceTN.C42_store_partial
#print axioms AceTN.C42_self_bond
#print axioms AceTN.C42_full_partial
#print axioms AceTN.C42_simple_partial
#print axioms AceTN.C42_violated
#print axioms AceTN.C43_projected
#print axioms AceTN.C43_exact
#print axioms AceTN.C43_captures_exists
#print axioms AceTN.C44_fused
#print axioms AceTN.C44_fused3
#print axioms AceTN.C44_fused3_exact
#print axioms AceTN.C45_half
#print axioms AceTN.C45_full
#print axioms AceTN.C45_full_rsvd_partial
#print axioms AceTN.C45_violated_complex
#print axioms AceTN.C46_site_core
#print axioms AceTN.C46_bond_core
#print axioms AceTN.C46_site
#print axioms AceTN.C46_bond
#print axioms AceTN.C47_site_identity
#print axioms AceTN.C47_bond_identity
#print axioms AceTN.C47_site_linear
#print axioms AceTN.C47_bond_linear
#print axioms AceTN.C47_site_shift
#print axioms AceTN.C47_bond_shift
#print axioms AceTN.C47_site_scale
#print axioms AceTN.C47_bond_scale
#print axioms AceTN.Meas.C48_partial
#print axioms AceTN.Meas.C48_order_partial
#print axioms AceTN.Meas.C48_violated_site_dependent
#print axioms AceTN.Meas.C48_violated_energy_name
#print axioms AceTN.Meas.C48_violated_same_name
#print axioms AceTN.C49_partial
#print axioms AceTN.C49_symmetric
#print axioms AceTN.C49_real
#print axioms AceTN.C49_real_state
#print axioms AceTN.C49_violated_complex
#print axioms AceTN.C50_patch
#print axioms AceTN.C50_posSemidef
#print axioms AceTN.C50_norm
#print axioms AceTN.C50_bounds
#print axioms AceTN.C50_nonneg
#print axioms AceTN.C50_initial
#print axioms AceTN.C50_violated_zero_norm
#print axioms AceTN.C51_bond_symmetric
#print axioms AceTN.C52_corner1
#print axioms AceTN.C52_corner2
#print axioms AceTN.C52_edge
#print axioms AceTN.C53_site
#print axioms AceTN.C53_product
#print axioms AceTN.C53_too_long
#print axioms AceTN.C53_corner
#print axioms AceTN.C53_edge
#print axioms AceTN.C53_default
#print axioms AceTN.PG.C54_violated
#print axioms AceTN.PG.C54_violated_failed_construction
#print axioms AceTN.PG.C54_alive_partial
#print axioms AceTN.PG.C54_serial_partial
#print axioms AceTN.PG.C54_rejected_construction_partial
#print axioms AceTN.Native.C55_strides
#print axioms AceTN.Native.C55_offset_lt
#print axioms AceTN.Native.C55_offset_injective
#print axioms AceTN.Native.C55_offset_surjective
#print axioms AceTN.Native.C55_parse_accepts
#print axioms AceTN.Native.C55_parse_rejects_text
#print axioms AceTN.Native.C55_parse_rejects_partial
#print axioms AceTN.Native.C55_violated_scalar_output
#print axioms AceTN.Native.C55_violated_repeated_label
#print axioms AceTN.Native.C55_violated_three_operands
#print axioms AceTN.Pauli.C56_neel_iff
#print axioms AceTN.Pauli.C56_violated
#print axioms AceTN.Pauli.C56_neel_partial
#print axioms AceTN.Pauli.C56_staggered
#print axioms AceTN.Tm.C57_violated_swapped
#print axioms AceTN.Tm.C57_violated_full
#print axioms AceTN.Tm.C57_violated_simple
#print axioms AceTN.Tm.C57_bookkeeping_partial
#print axioms AceTN.Tm.C57_quiet_partial
#print axioms AceTN.C58_update_type
#print axioms AceTN.Set.C58_projectors
#print axioms AceTN.Set.C58_projectors_evolve
#print axioms AceTN.Set.C58_violated_update_type
#print axioms AceTN.Set.C58_update_type_partial
#print axioms AceTN.Set.C58_violated_svd_type
#print axioms AceTN.Als.C58_solver_method
#print axioms AceTN.Als.C58_violated_solver_method
#print axioms AceTN.C59_exact
#print axioms AceTN.C59_half
#print axioms AceTN.C59_full
#print axioms AceTN.C59_full_rsvd_partial
#print axioms AceTN.C59_violated_complex
#print axioms AceTN.C60_absorption
#print axioms AceTN.C60_distributed
#print axioms AceTN.Native.C61_pinv
#print axioms AceTN.Native.C61_cholesky_partial
#print axioms AceTN.Native.C61_never_raises
#print axioms AceTN.Native.C61_violated
#print axioms AceTN.C62_frame
#print axioms AceTN.C62_pair
#print axioms AceTN.Set.C63_order
#print axioms AceTN.Set.C63_works_partial
#print axioms AceTN.Set.C63_violated
#print axioms AceTN.Set.C63_errors
#print axioms AceTN.PG.C64_accepts
#print axioms AceTN.PG.C64_violated
#print axioms AceTN.PG.C64_own_gpu_partial
#print axioms AceTN.C65_quarter
#print axioms AceTN.C65_block
#print axioms AceTN.C65_sites
#print axioms AceTN.C66_moves
#print axioms AceTN.C66_sweeps
#print axioms AceTN.C66_real
#print axioms AceTN.C66_values
#print axioms AceTN.C67_fresh
#print axioms AceTN.C67_moves
#print axioms AceTN.C67_sweeps
#print axioms AceTN.C67_real
#print axioms AceTN.C67_posSemidef
#print axioms AceTN.C67_bounds
#print axioms AceTN.C68_product
#print axioms AceTN.C68_real
#print axioms AceTN.C68_values
#print axioms AceTN.Pauli.C69_honeycomb_lattice
#print axioms AceTN.Pauli.C69_kagome_lattice
#print axioms AceTN.Pauli.C69_honeycomb_complete
#print axioms AceTN.Pauli.C69_kagome_complete
#print axioms AceTN.Pauli.C69_honeycomb_site
#print axioms AceTN.Pauli.C69_honeycomb_bond
#print axioms AceTN.Pauli.C69_kagome_site
#print axioms AceTN.Pauli.C69_kagome_bond
#print axioms AceTN.Pauli.C69_unknown_direction
#print axioms AceTN.Pauli.C69_honeycomb_observables
#print axioms AceTN.Pauli.C69_kagome_observables
#print axioms AceTN.Pauli.C69_compass
#print axioms AceTN.Pauli.C69_compass_observables
#print axioms AceTN.C70_second_order
#print axioms AceTN.C70_hamiltonian
#print axioms AceTN.C70_covering
#print axioms AceTN.C71_never
#print axioms AceTN.C71_terminates
#print axioms AceTN.C71_passes
#print axioms AceTN.C71_result
#print axioms AceTN.C71_unchanged
#print axioms AceTN.C71_violated_shift
#print axioms AceTN.C72_convention
#print axioms AceTN.C72_descent
#print axioms AceTN.C72_full_update
#print axioms AceTN.C72_simple_update
#print axioms AceTN.C73_moves
#print axioms AceTN.C73_sweeps
#print axioms AceTN.C73_values
#print axioms AceTN.C74_hermitian
#print axioms AceTN.C74_values
#print axioms AceTN.C75_equivalent
#print axioms AceTN.C75_values
#print axioms AceTN.C76_bond
#print axioms AceTN.C76_run
#print axioms AceTN.C76_imaginary_time
#print axioms AceTN.C76_full_update
#print axioms AceTN.C76_simple_update
#print axioms AceTN.C76_full_evolution
#print axioms AceTN.C76_simple_evolution
#print axioms AceTN.C77_captured
#print axioms AceTN.C77_only_low_rank
#print axioms AceTN.C77_sampled
#print axioms AceTN.C77_svd
#print axioms AceTN.C77_fused
#print axioms AceTN.C77_half
#print axioms AceTN.C78_bound
#print axioms AceTN.C78_tail
#print axioms AceTN.C78_fused
#print axioms AceTN.C78_half
#print axioms AceTN.C78_converges
#print axioms AceTN.C78_fused_converges
#print axioms AceTN.C78_half_converges
#print axioms AceTN.C79_moves
#print axioms AceTN.C79_sweeps
#print axioms AceTN.C79_oversampling
#print axioms AceTN.Meas.C80_refines
#print axioms AceTN.Meas.C80_sites_partial
#print axioms AceTN.Meas.C80_bonds_partial
#print axioms AceTN.Meas.C80_averages
#print axioms AceTN.Meas.C80_violated_order
#print axioms AceTN.Meas.C80_violated_long_names
#print axioms AceTN.Startup.C81_level
#print axioms AceTN.Startup.C81_debug_mode
#print axioms AceTN.Startup.C81_import_partial
#print axioms AceTN.Startup.C81_no_file
#print axioms AceTN.Startup.C81_repeated
#print axioms AceTN.Startup.C81_extension_partial
#print axioms AceTN.Startup.C81_violated_import
#print axioms AceTN.Startup.C81_violated_log_file
#print axioms AceTN.Startup.C81_violated_strict
#print axioms AceTN.Bench.C82_once
#print axioms AceTN.Bench.C82_average
#print axioms AceTN.Bench.C82_zero
#print axioms AceTN.Bench.C82_violated_no_grad
#print axioms AceTN.C83_full
#print axioms AceTN.C83_simple
#print axioms AceTN.C84_state
#print axioms AceTN.C84_evolution
#print axioms AceTN.C84_evolved_state
#print axioms AceTN.C84_decompositions
#print axioms AceTN.C85_run
#print axioms AceTN.C85_decompositions
#print axioms AceTN.C85_gates
#print axioms AceTN.C85_regularisation
#print axioms AceTN.C86_returns
#print axioms AceTN.C86_evolution
#print axioms AceTN.C86_ground
#print axioms AceTN.C86_step
#print axioms AceTN.C86_one_site
#print axioms AceTN.C87_truncation
#print axioms AceTN.C87_exact
#print axioms AceTN.C87_simple
#print axioms AceTN.C87_full
#print axioms AceTN.C87_ground_full
#print axioms AceTN.C87_ground_simple
#print axioms AceTN.C88_returns
#print axioms AceTN.C88_simple
#print axioms AceTN.C88_chi
#print axioms AceTN.C88_settings
#print axioms AceTN.C88_evolution
#print axioms AceTN.C88_ground
#print axioms AceTN.C89_returns
#print axioms AceTN.C89_round_trip
#print axioms AceTN.C89_evolution
#print axioms AceTN.C89_resume
#print axioms AceTN.C90_returns
#print axioms AceTN.C90_half_serial
#print axioms AceTN.C90_errors
#print axioms AceTN.C90_evolution
#print axioms AceTN.C90_ground
#print axioms AceTN.C91_moves
#print axioms AceTN.C91_sweeps
#print axioms AceTN.C91_real
#print axioms AceTN.C91_posSemidef
#print axioms AceTN.C91_cost
#print axioms AceTN.C91_update
#print axioms AceTN.C91_regularised
#print axioms AceTN.C91_overlap
#print axioms AceTN.PG.C92_cuda_partial
#print axioms AceTN.PG.C92_cpu_accepted
#print axioms AceTN.PG.C92_cpu_raises
#print axioms AceTN.PG.C92_violated_cpu
#print axioms AceTN.PG.C92_violated_after_cpu
#print axioms AceTN.PG.C92_cuda_later_partial
#print axioms AceTN.C93_measured
#print axioms AceTN.C93_gates_partial
#print axioms AceTN.C93_raises
#print axioms AceTN.C93_forgotten
#print axioms AceTN.C93_violated_tensor
#print axioms AceTN.C94_exact_partial
#print axioms AceTN.C94_bond_partial
#print axioms AceTN.C94_run_partial
#print axioms AceTN.C94_patch
#print axioms AceTN.C94_violated_truncation
#print axioms AceTN.C94_violated_complex
#print axioms AceTN.C95_reduced
#print axioms AceTN.C95_bond
#print axioms AceTN.C95_not_exact
#print axioms AceTN.C95_pinv
#print axioms AceTN.C96_reduced
#print axioms AceTN.C96_reduced_returns
#print axioms AceTN.C96_real_partial
#print axioms AceTN.C96_returns
#print axioms AceTN.C96_violated
#print axioms AceTN.C97_local
#print axioms AceTN.C97_full_partial
#print axioms AceTN.C97_real_partial
#print axioms AceTN.C97_violated
#print axioms AceTN.C97_simple_partial
#print axioms AceTN.C98_bond_partial
#print axioms AceTN.C98_full_partial
#print axioms AceTN.C98_simple_partial
#print axioms AceTN.C98_violated
#print axioms AceTN.C99_simple
#print axioms AceTN.C99_sweeps
#print axioms AceTN.C99_full
#print axioms AceTN.C99_site_operator
#print axioms AceTN.DistSave.C100_violated
#print axioms AceTN.DistSave.C100_own_partial
#print axioms AceTN.DistSave.C100_barrier_partial
#print axioms AceTN.DistSave.C100_turns_partial
#print axioms AceTN.DistSave.C100_names_partial
#print axioms AceTN.C101_period
#print axioms AceTN.C101_converged
#print axioms AceTN.C101_values
#print axioms AceTN.C101_product
#print axioms AceTN.C102_back
#print axioms AceTN.C102_parts
#print axioms AceTN.C102_diagonal
#print axioms AceTN.C102_simple_back
#print axioms AceTN.C102_full_back
#print axioms AceTN.C103_gates
#print axioms AceTN.C103_simple
#print axioms AceTN.C103_simple_same
#print axioms AceTN.C103_full
#print axioms AceTN.Meas.C103_measure
#print axioms AceTN.C104_simple
#print axioms AceTN.C104_full
#print axioms AceTN.C104_eigenstate
#print axioms AceTN.C105_session_partial
#print axioms AceTN.C105_library
#print axioms AceTN.C105_gates
#print axioms AceTN.C105_any_library
#print axioms AceTN.C105_violated_simple
#print axioms AceTN.C105_violated
#print axioms AceTN.C106_session
#print axioms AceTN.C106_library
#print axioms AceTN.C106_any_library
#print axioms AceTN.C106_odd_session
#print axioms AceTN.C106_odd_sweeps
#print axioms AceTN.C107_gates
#print axioms AceTN.C107_session
#print axioms AceTN.C107_measure
#print axioms AceTN.C107_couplings
#print axioms AceTN.Session.C108_session
#print axioms AceTN.Session.C108_pinv
#print axioms AceTN.Full.C108_bond
#print axioms AceTN.Full.C108_never_raises
#print axioms AceTN.Full.C108_violated
#print axioms AceTN.C109_evolution_partial
#print axioms AceTN.C109_states_partial
#print axioms AceTN.C109_violated_complex
#print axioms AceTN.C110_values
#print axioms AceTN.C110_returns
#print axioms AceTN.C110_energy
#print axioms AceTN.C110_variational
#print axioms AceTN.C111_refines
#print axioms AceTN.C111_unique
#print axioms AceTN.C111_settings
#print axioms AceTN.C111_small
#print axioms AceTN.C111_settings_small
#print axioms AceTN.C112_simple
#print axioms AceTN.C112_full
#print axioms AceTN.C112_simple_measured
#print axioms AceTN.C113_gate
#print axioms AceTN.C113_commuting
#print axioms AceTN.C113_full
#print axioms AceTN.C113_ground
#print axioms AceTN.C113_session
#print axioms AceTN.C114_ising_terms
#print axioms AceTN.C114_heisenberg_terms
#print axioms AceTN.C114_ising_bound
#print axioms AceTN.C114_ising_sharp
#print axioms AceTN.C114_paramagnet
#print axioms AceTN.C114_heisenberg_bound
#print axioms AceTN.C114_neel
#print axioms AceTN.C114_neel_even
#print axioms AceTN.C115_serial
#print axioms AceTN.C115_processes
#print axioms AceTN.C115_energy
#print axioms AceTN.C115_neel
#print axioms AceTN.C116_full
#print axioms AceTN.C116_session
#print axioms AceTN.C116_reaches
#print axioms AceTN.C117_refines
#print axioms AceTN.C117_values
#print axioms AceTN.C117_processes
#print axioms AceTN.C117_energy
#print axioms AceTN.C118_processes
#print axioms AceTN.C118_free
#print axioms AceTN.C118_cooling
#print axioms AceTN.C118_reaches
#print axioms AceTN.C118_bounds
#print axioms AceTN.C118_paramagnet
#print axioms AceTN.C118_neel
#print axioms AceTN.C119_rate
#print axioms AceTN.C119_run
#print axioms AceTN.C119_before
#print axioms AceTN.C119_measured
#print axioms AceTN.C119_descent
#print axioms AceTN.C119_ising
#print axioms AceTN.C119_ising_rate

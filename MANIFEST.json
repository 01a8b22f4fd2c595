{
 "claims": [
  {
   "property": "C01",
   "status": "proved",
   "theorems": [
    "AceTN.C01_site_list"
   ],
   "note": "All nx, ny."
  },
  {
   "property": "C02",
   "status": "proved",
   "theorems": [
    "AceTN.C02_bond_list",
    "AceTN.C02_bond_ends_in_cell"
   ],
   "note": "All nx, ny."
  },
  {
   "property": "C03",
   "status": "proved",
   "theorems": [
    "AceTN.C03_unique_bond_per_side",
    "AceTN.C03_bond_reaches_neighbour",
    "AceTN.C03_weight_lookup",
    "AceTN.C03_both_ends"
   ],
   "note": "Every lattice, every permutation of the bond list, every history of weight assignments."
  },
  {
   "property": "C04",
   "status": "partial",
   "theorems": [
    "AceTN.C04_evolved_hamiltonian_partial",
    "AceTN.C04_evolved_eq_measured_partial",
    "AceTN.C04_violated_mixed_terms"
   ],
   "note": "Holds when all sites or no sites carry a one-site term; violated (witness proved) when only some sites do, because a one-site term is added only if both ends of the bond have one."
  },
  {
   "property": "C05",
   "status": "proved",
   "theorems": [
    "AceTN.C05_schedule",
    "AceTN.C05_list_invariant",
    "AceTN.C05_history",
    "AceTN.C05_each_bond_once",
    "AceTN.C05_exception"
   ],
   "note": "All step counts, any updater."
  },
  {
   "property": "C06",
   "status": "partial",
   "theorems": [
    "AceTN.C06_split_partial",
    "AceTN.C06_full",
    "AceTN.C06_loop_partial",
    "AceTN.C06_violated",
    "AceTN.C06_violated_states"
   ],
   "note": "Holds for updaters whose state lives in the network (full and fast-full update), with or without exceptions. Violated for the simple update: unit bond weights are created in every call; concrete 2x2 witness for every SVD where evolve(1);evolve(1) and evolve(2) end in physically different tensors."
  },
  {
   "property": "C07",
   "status": "proved",
   "theorems": [
    "AceTN.C07_schedule",
    "AceTN.C07_refresh"
   ],
   "note": "All lattices, any number of sweeps, both projector types, arbitrary tensors (ghost write counter)."
  },
  {
   "property": "C08",
   "status": "proved",
   "theorems": [
    "AceTN.C08_bulk_unchanged",
    "AceTN.C08_frame"
   ],
   "note": "All lattices and moves, arbitrary tensor operations."
  },
  {
   "property": "C09",
   "status": "proved",
   "theorems": [
    "AceTN.C09_order_independent",
    "AceTN.C09_left_reads_before",
    "AceTN.C09_right_reads_before",
    "AceTN.C09_up_reads_before",
    "AceTN.C09_down_reads_before"
   ],
   "note": "Includes one-wide cells, where source and target column coincide."
  },
  {
   "property": "C10",
   "status": "proved",
   "theorems": [
    "AceTN.C10_no_size_mismatch",
    "AceTN.C10_check"
   ],
   "note": "Any history of moves, sweeps, bond updates and chi changes from a fresh network; truncation dimensions arbitrary in [1,chi] per computation. C10_check: the shape check used is that of torch.einsum without broadcasting, i.e. it passes exactly if the index names can be given sizes."
  },
  {
   "property": "C11",
   "status": "proved",
   "theorems": [
    "AceTN.C11_links_capped"
   ],
   "note": "Every boundary link between 1 and chi after any history followed by at least one sweep."
  },
  {
   "property": "C12",
   "status": "proved",
   "theorems": [
    "AceTN.C12_left_right_eq_serial",
    "AceTN.C12_up_down_eq_serial",
    "AceTN.C12_ctmrg_eq_serial",
    "AceTN.C12_bond_update_eq_serial"
   ],
   "note": "Half-system projectors, any number of ranks for which the move completes (see C13), same random draws per cut in both runs."
  },
  {
   "property": "C13",
   "status": "partial",
   "theorems": [
    "AceTN.C13_left_right_completes_iff_partial",
    "AceTN.C13_up_down_completes_iff_partial",
    "AceTN.C13_error_kind_partial",
    "AceTN.C13_renormalize_completes_partial",
    "AceTN.C13_violated"
   ],
   "note": "Violated: the move completes exactly for 2 ranks, or rows = ceil(ranks/2), or an even number of ranks with rows = ranks/2+1; otherwise KeyError or UnboundLocalError (all proved)."
  },
  {
   "property": "C14",
   "status": "partial",
   "theorems": [
    "AceTN.C14_stays_in_sync_partial",
    "AceTN.C14_violated_disagreement_persists"
   ],
   "note": "Ranks that agree stay in agreement through renormalizations and full updates, with per-rank randomness; violated at construction because initial noise is drawn per rank and renormalize does not repair it."
  },
  {
   "property": "C15",
   "status": "partial",
   "theorems": [
    "AceTN.C15_violated_shared",
    "AceTN.C15_violated_everywhere",
    "AceTN.C15_violated_stale",
    "AceTN.C15_same_cell_partial",
    "AceTN.C15_read_over_write_partial"
   ],
   "note": "The code violates the property: the dictionary of site tensors is a class attribute. Negations proved; ValueError behaviour proved for processes whose networks share the cell size."
  },
  {
   "property": "C16",
   "status": "partial",
   "theorems": [
    "AceTN.C16_violated",
    "AceTN.C16_copy_reads_same_partial"
   ],
   "note": "Violated (shared class dictionary). Partial: at the moment of copying every site reads the same."
  },
  {
   "property": "C17",
   "status": "partial",
   "theorems": [
    "AceTN.C17_violated_original",
    "AceTN.C17_violated_device_zero",
    "AceTN.C17_to_converts_partial"
   ],
   "note": "Violated: the original is converted too, device=0 is ignored. Partial: conversion of the returned network for every type and every device other than the integer 0."
  },
  {
   "property": "C18",
   "status": "partial",
   "theorems": [
    "AceTN.C18_violated_device_zero",
    "AceTN.C18_violated_start",
    "AceTN.C18_round_trip_partial",
    "AceTN.C18_save_keeps_tensors_partial",
    "AceTN.C18_load_missing_partial"
   ],
   "note": "Round trip proved for all histories; violated for device index 0 and through the initialisation flag."
  },
  {
   "property": "C19",
   "status": "partial",
   "theorems": [
    "AceTN.C19_violated",
    "AceTN.C19_crash_keeps_values_partial"
   ],
   "note": "Violated for networks not on the cpu. Partial: values and types survive every crash point; networks on the cpu are untouched."
  },
  {
   "property": "C20",
   "status": "partial",
   "theorems": [
    "AceTN.C20_violated_given",
    "AceTN.C20_new_starts_from_product_state_partial",
    "AceTN.C20_continues_partial",
    "AceTN.C20_first_evolve_partial"
   ],
   "note": "Violated for Ipeps(config, ipeps=prev): the given tensors are overwritten by the product state. Proved for new, evolved and loaded networks over all histories, and that the first evolve works on exactly the sites of the object's own cell."
  },
  {
   "property": "C21",
   "status": "proved",
   "theorems": [
    "AceTN.ST.C21_read_over_write",
    "AceTN.ST.C21_unknown_key",
    "AceTN.ST.C21_copy_reads_same",
    "AceTN.ST.C21_copy_unaffected",
    "AceTN.ST.C21_original_unaffected",
    "AceTN.ST.C21_list_store_aliases",
    "AceTN.ST.C21_to"
   ],
   "note": "Object model of SiteTensor with list-valued components; the aliasing of lists handed in by the caller is characterised separately."
  },
  {
   "property": "C22",
   "status": "partial",
   "theorems": [
    "AceTN.Reg.C22_violated_default_name",
    "AceTN.Reg.C22_model_kept_partial",
    "AceTN.Reg.C22_params_update_partial",
    "AceTN.Reg.C22_errors_partial"
   ],
   "note": "The full statement is false: the default name 'custom' is global, a second set_model on another Ipeps replaces the first one's model. Proved for histories in which nobody re-registers the name."
  },
  {
   "property": "C23",
   "status": "partial",
   "theorems": [
    "AceTN.Cfg.C23_backend",
    "AceTN.Cfg.C23_dtype",
    "AceTN.Cfg.C23_device_partial",
    "AceTN.Cfg.C23_defaults_partial",
    "AceTN.Cfg.C23_kept_partial",
    "AceTN.Cfg.C23_unknown_setting",
    "AceTN.Cfg.C23_progressbar",
    "AceTN.Cfg.C23_violated",
    "AceTN.Cfg.C23_model_dim"
   ],
   "note": "The full statement is false of the code (C23_violated): cuda:0 without CUDA is kept, partial dims lose the chi default, and an interactive SLURM job overrides an explicit disable_progressbar. The _partial theorems prove the claim outside these cases."
  },
  {
   "property": "C24",
   "status": "partial",
   "theorems": [
    "AceTN.Reg.C24_violated_shared_chi",
    "AceTN.Reg.C24_violated_shared_params",
    "AceTN.Reg.C24_violated_caller",
    "AceTN.Reg.C24_setters_partial",
    "AceTN.Reg.C24_fresh_dims_partial"
   ],
   "note": "The full statement is false when configurations share dictionaries with the caller or with each other; proved for objects whose dictionaries are not shared."
  },
  {
   "property": "C25",
   "status": "partial",
   "theorems": [
    "AceTN.Pauli.C25_complex",
    "AceTN.Pauli.C25_real_partial",
    "AceTN.Pauli.C25_phase_partial",
    "AceTN.Pauli.C25_imul_partial",
    "AceTN.Pauli.C25_violated",
    "AceTN.Pauli.C25_violated_imul"
   ],
   "note": "Complex dtype proved for all expressions; real dtype refuted for (Y+Y)*Y and for in-place products, proved when operands of sums have an even number of Y."
  },
  {
   "property": "C26",
   "status": "partial",
   "theorems": [
    "AceTN.Pauli.C26_ising_site",
    "AceTN.Pauli.C26_ising_bond",
    "AceTN.Pauli.C26_heisenberg",
    "AceTN.Pauli.C26_heisenberg_swap",
    "AceTN.Pauli.C26_hermitian",
    "AceTN.Pauli.C26_violated_default"
   ],
   "note": "All operator identities proved; the documented default J=1.0 is refuted (an omitted J raises TypeError)."
  },
  {
   "property": "C27",
   "status": "proved",
   "theorems": [
    "AceTN.C27_bond_gate_posDef",
    "AceTN.C27_bond_gate_inverse",
    "AceTN.C27_bond_gate_zero",
    "AceTN.C27_bond_gate_add",
    "AceTN.C27_bond_gate_generator",
    "AceTN.C27_site_gate"
   ],
   "note": "Exact real/complex arithmetic; matrix_exp is the mathematical exponential."
  },
  {
   "property": "C28",
   "status": "partial",
   "theorems": [
    "AceTN.GH.C28_violated_hamiltonian",
    "AceTN.GH.C28_violated_shared",
    "AceTN.GH.C28_violated_drift",
    "AceTN.GH.C28_hamiltonian_kept_partial",
    "AceTN.GH.C28_other_gates_kept_partial"
   ],
   "note": "The full statement is false: Gate._gate is a class-level dict and bond_ham += mutates a cached Hamiltonian. Proved for models computing fresh matrices or without one-site pairs."
  },
  {
   "property": "C29",
   "status": "proved",
   "theorems": [
    "AceTN.C29_permute_spec",
    "AceTN.C29_round_trip",
    "AceTN.C29_round_trip'",
    "AceTN.C29_bond_frame"
   ],
   "note": "Every integer k; the shared-leg statement is for every bond of every lattice's bond list."
  },
  {
   "property": "C30",
   "status": "proved",
   "theorems": [
    "AceTN.C30_recompose",
    "AceTN.C30_isometric",
    "AceTN.C30_gate"
   ],
   "note": "Exact arithmetic, every library meeting the QR contract."
  },
  {
   "property": "C31",
   "status": "proved",
   "theorems": [
    "AceTN.C31_core",
    "AceTN.C31_recomposed",
    "AceTN.C31_environment",
    "AceTN.C31_network",
    "AceTN.C31_trial"
   ],
   "note": "Bond density matrix before the normalisation by its trace. C31_network and C31_trial are about networks with boundary tensors of run-time dimensions, including that one computation raises exactly if the other does."
  },
  {
   "property": "C32",
   "status": "proved",
   "theorems": [
    "AceTN.C32_bond_rdm",
    "AceTN.C32_norm_tensor"
   ],
   "note": "Every size and every content of the uninitialised buffers."
  },
  {
   "property": "C33",
   "status": "proved",
   "theorems": [
    "AceTN.C33_terminates",
    "AceTN.C33_result",
    "AceTN.C33_unchanged"
   ],
   "note": "Exact arithmetic; for an eigensolver that does not raise (C71 covers the fallback)."
  },
  {
   "property": "C34",
   "status": "proved",
   "theorems": [
    "AceTN.C34_cost",
    "AceTN.C34_invertible",
    "AceTN.C34_gauge_fix"
   ],
   "note": "Invertibility of the gauge factors is proved for the norm returned by the positive approximation when atol < sqrt(cutoff*nD), which the defaults meet."
  },
  {
   "property": "C35",
   "status": "partial",
   "theorems": [
    "AceTN.C35_cost_is_distance",
    "AceTN.C35_first_partial",
    "AceTN.C35_second_partial",
    "AceTN.C35_monotone_partial",
    "AceTN.C35_solver_partial",
    "AceTN.C35_first_regularised_partial",
    "AceTN.C35_second_regularised_partial",
    "AceTN.C35_increase_bound_partial",
    "AceTN.C35_succeeds",
    "AceTN.C35_violated_every_epsilon",
    "AceTN.C35_violated",
    "AceTN.C35_first_pinv_partial",
    "AceTN.C35_second_pinv_partial"
   ],
   "note": "The cost is the distance in the norm minus a constant. With epsilon = 0 (or, for pinv, no discarded nonzero eigenvalue) each half-step is a minimiser and the solver never increases the cost. With epsilon > 0 a half-step minimises the regularised cost, the cost increases by at most the regularisation term, and it does increase for a concrete 1-dimensional problem, for every epsilon > 0. With pinv and any cutoff the cost exceeds the least one by at most a multiple of epsilon."
  },
  {
   "property": "C36",
   "status": "proved",
   "theorems": [
    "AceTN.Als.C36_backends_agree",
    "AceTN.Als.C36_stopping_rule"
   ],
   "note": "Loop structure of the python and C++ solvers, with the numerical kernels as parameters."
  },
  {
   "property": "C37",
   "status": "partial",
   "theorems": [
    "AceTN.C37_real_partial",
    "AceTN.C37_violated_complex",
    "AceTN.C37_violated"
   ],
   "note": "Holds for real dtypes. For complex dtypes the right factor is conjugated: a rank-one target is not reproduced, whatever SVD is returned."
  },
  {
   "property": "C38",
   "status": "proved",
   "theorems": [
    "AceTN.C38_finalize"
   ],
   "note": "Real and complex; the factor is the inverse of the Frobenius norm of the product."
  },
  {
   "property": "C39",
   "status": "partial",
   "theorems": [
    "AceTN.C39_real_partial",
    "AceTN.C39_returns",
    "AceTN.C39_identity_gate",
    "AceTN.C39_violated_complex",
    "AceTN.C39_violated"
   ],
   "note": "Proved for real tensors with a zero regulariser: whenever the gated two-site tensor fits into the bond dimension, the full update returns tensors whose product is a positive multiple of it, for both ALS solvers, with and without gauge fixing. For complex tensors the claim is false (C39_violated): the initial guess conjugates the right factor (C37), for a concrete state it is orthogonal to the target even with the identity gate, and Cholesky raises and the pseudo-inverse returns zero tensors."
  },
  {
   "property": "C40",
   "status": "partial",
   "theorems": [
    "AceTN.C40_partial",
    "AceTN.C40_exact",
    "AceTN.C40_one_site",
    "AceTN.C40_run",
    "AceTN.C40_violated_complex"
   ],
   "note": "Proved for real-dtype weights of at least 1e-12 around the bond (real and complex tensors): normalised sorted weights, optimal truncation, exactness without truncation, and the weight invariant along runs of any length. Complex networks raise at the first bond update (C40_violated_complex); weights below the cut-off are not taken out (C41_violated)."
  },
  {
   "property": "C41",
   "status": "partial",
   "theorems": [
    "AceTN.C41_partial",
    "AceTN.C41_defect",
    "AceTN.C41_violated",
    "AceTN.C41_violated_complex",
    "AceTN.C41_violated_complex'"
   ],
   "note": "Holds for real-dtype weights of at least 1e-12; C41_defect gives the exact factor lost otherwise. False for smaller positive weights and for complex dtypes (clamp raises)."
  },
  {
   "property": "C42",
   "status": "partial",
   "theorems": [
    "AceTN.C42_store_partial",
    "AceTN.C42_self_bond",
    "AceTN.C42_full_partial",
    "AceTN.C42_simple_partial",
    "AceTN.C42_violated"
   ],
   "note": "Holds on lattices with at least two rows and columns, for the simple and the fast full update. False on lattices with a single row or column, where a bond connects a site to itself and the first tensor is overwritten."
  },
  {
   "property": "C43",
   "status": "proved",
   "theorems": [
    "AceTN.C43_projected",
    "AceTN.C43_exact",
    "AceTN.C43_captures_exists"
   ],
   "note": "For every random draw: orthonormal factors, sorted nonnegative values and an SVD of the projection onto the sampled subspace; exact whenever the draw captures the range, which is possible whenever q is at least the rank. The probability that a random draw captures the range is not modelled."
  },
  {
   "property": "C44",
   "status": "proved",
   "theorems": [
    "AceTN.C44_fused",
    "AceTN.C44_fused3",
    "AceTN.C44_fused3_exact"
   ],
   "note": "The two-matrix routine equals svd_lowrank of the product for the same draw. The four-matrix routine orthogonalises twice per iteration, so it is specified by the same contract rather than by equality."
  },
  {
   "property": "C45",
   "status": "partial",
   "theorems": [
    "AceTN.C45_half",
    "AceTN.C45_full",
    "AceTN.C45_full_rsvd_partial",
    "AceTN.C45_violated_complex"
   ],
   "note": "Half-system projectors (both SVD types, both dtypes) and full-rank full-system projectors proved. Randomised full-system projectors proved for real tensors and refuted for complex ones: projectors.py 208 uses .mH where its comment derives .T. The environment must be nonzero and not annihilated by the draw."
  },
  {
   "property": "C46",
   "status": "proved",
   "theorems": [
    "AceTN.C46_site_core",
    "AceTN.C46_bond_core",
    "AceTN.C46_site",
    "AceTN.C46_bond"
   ],
   "note": "Density matrices before normalisation."
  },
  {
   "property": "C47",
   "status": "proved",
   "theorems": [
    "AceTN.C47_site_identity",
    "AceTN.C47_bond_identity",
    "AceTN.C47_site_linear",
    "AceTN.C47_bond_linear",
    "AceTN.C47_site_shift",
    "AceTN.C47_bond_shift",
    "AceTN.C47_site_scale",
    "AceTN.C47_bond_scale"
   ],
   "note": "For every network with nonzero norm; linear over real coefficients (the code reports real parts)."
  },
  {
   "property": "C48",
   "status": "partial",
   "theorems": [
    "AceTN.Meas.C48_partial",
    "AceTN.Meas.C48_order_partial",
    "AceTN.Meas.C48_violated_site_dependent",
    "AceTN.Meas.C48_violated_energy_name",
    "AceTN.Meas.C48_violated_same_name"
   ],
   "note": "Averages, energy per site and order independence proved when names agree on all sites and bonds, are not shared between one- and two-site observables and differ from Energy; each of these conditions is shown necessary by a counterexample."
  },
  {
   "property": "C49",
   "status": "partial",
   "theorems": [
    "AceTN.C49_partial",
    "AceTN.C49_symmetric",
    "AceTN.C49_real",
    "AceTN.C49_real_state",
    "AceTN.C49_violated_complex"
   ],
   "note": "The measured value is the expectation of the transposed operator; correct for symmetric operators, real tensors and real states, wrong for complex states (witness)."
  },
  {
   "property": "C50",
   "status": "partial",
   "theorems": [
    "AceTN.C50_patch",
    "AceTN.C50_posSemidef",
    "AceTN.C50_norm",
    "AceTN.C50_bounds",
    "AceTN.C50_nonneg",
    "AceTN.C50_initial",
    "AceTN.C50_violated_zero_norm"
   ],
   "note": "Positive semidefinite, expectation values bounded; strict positivity of the trace holds for non-negative nonzero states and fails for some tensors (witness)."
  },
  {
   "property": "C51",
   "status": "proved",
   "theorems": [
    "AceTN.C51_bond_symmetric"
   ],
   "note": "All networks whose boundary legs share one index type."
  },
  {
   "property": "C52",
   "status": "proved",
   "theorems": [
    "AceTN.C52_corner1",
    "AceTN.C52_corner2",
    "AceTN.C52_edge"
   ],
   "note": "For every move, given a nonzero contraction (a zero one is NaN in the code)."
  },
  {
   "property": "C53",
   "status": "proved",
   "theorems": [
    "AceTN.C53_site",
    "AceTN.C53_product",
    "AceTN.C53_too_long",
    "AceTN.C53_corner",
    "AceTN.C53_edge",
    "AceTN.C53_default"
   ],
   "note": "Random draws are a parameter; a site state longer than the physical dimension is an IndexError."
  },
  {
   "property": "C54",
   "status": "partial",
   "theorems": [
    "AceTN.PG.C54_violated",
    "AceTN.PG.C54_violated_failed_construction",
    "AceTN.PG.C54_alive_partial",
    "AceTN.PG.C54_serial_partial",
    "AceTN.PG.C54_rejected_construction_partial"
   ],
   "note": "False of the code when two networks share the process group, or when construction fails after setup; proved for the remaining histories."
  },
  {
   "property": "C55",
   "status": "partial",
   "theorems": [
    "AceTN.Native.C55_strides",
    "AceTN.Native.C55_offset_lt",
    "AceTN.Native.C55_offset_injective",
    "AceTN.Native.C55_offset_surjective",
    "AceTN.Native.C55_parse_accepts",
    "AceTN.Native.C55_parse_rejects_text",
    "AceTN.Native.C55_parse_rejects_partial",
    "AceTN.Native.C55_violated_scalar_output",
    "AceTN.Native.C55_violated_repeated_label",
    "AceTN.Native.C55_violated_three_operands"
   ],
   "note": "Strides, offsets and the parser; the parser rejects scalar outputs and mishandles repeated labels and three operands, so the full claim is refuted and the rest proved."
  },
  {
   "property": "C56",
   "status": "partial",
   "theorems": [
    "AceTN.Pauli.C56_neel_iff",
    "AceTN.Pauli.C56_violated",
    "AceTN.Pauli.C56_neel_partial",
    "AceTN.Pauli.C56_staggered"
   ],
   "note": "Exact characterisation: true iff both cell dimensions are even; refuted for odd cells."
  },
  {
   "property": "C57",
   "status": "partial",
   "theorems": [
    "AceTN.Tm.C57_violated_swapped",
    "AceTN.Tm.C57_violated_full",
    "AceTN.Tm.C57_violated_simple",
    "AceTN.Tm.C57_bookkeeping_partial",
    "AceTN.Tm.C57_quiet_partial"
   ],
   "note": "The reported timings are swapped or incomplete; the bookkeeping that does hold is proved."
  },
  {
   "property": "C58",
   "status": "partial",
   "theorems": [
    "AceTN.C58_update_type",
    "AceTN.Set.C58_projectors",
    "AceTN.Set.C58_projectors_evolve",
    "AceTN.Set.C58_violated_update_type",
    "AceTN.Set.C58_update_type_partial",
    "AceTN.Set.C58_violated_svd_type",
    "AceTN.Als.C58_solver_method",
    "AceTN.Als.C58_violated_solver_method"
   ],
   "note": "Unknown projector types are rejected; unknown update, solver and SVD types are not always rejected."
  },
  {
   "property": "C59",
   "status": "partial",
   "theorems": [
    "AceTN.C59_exact",
    "AceTN.C59_half",
    "AceTN.C59_full",
    "AceTN.C59_full_rsvd_partial",
    "AceTN.C59_violated_complex"
   ],
   "note": "C59_exact for any projectors that resolve the identity; C59_half (both SVD types), C59_full (full-rank SVD) and C59_full_rsvd_partial (real) for the projectors the code computes. Violated for complex tensors with the default full-system projectors and randomised SVD (witness: density matrix becomes zero)."
  },
  {
   "property": "C60",
   "status": "proved",
   "theorems": [
    "AceTN.C60_absorption",
    "AceTN.C60_distributed"
   ],
   "note": "Tensor operations and the bond update itself are arbitrary parameters. The distributed theorem is for half-system projectors, as C12."
  },
  {
   "property": "C61",
   "status": "partial",
   "theorems": [
    "AceTN.Native.C61_pinv",
    "AceTN.Native.C61_cholesky_partial",
    "AceTN.Native.C61_never_raises",
    "AceTN.Native.C61_violated"
   ],
   "note": "Agreement proved down to row-major memory for the pseudo-inverse (every input) and for Cholesky whenever the PyTorch solver returns (positive semidefinite norm). Refuted for singular systems: the status of the native factorisation is never read. cuTENSOR and cuSOLVER behave as documented, exact arithmetic."
  },
  {
   "property": "C62",
   "status": "proved",
   "theorems": [
    "AceTN.C62_frame",
    "AceTN.C62_pair"
   ],
   "note": "For TensorUpdater.update with any subclass tensor update; the simple update, which does not use it, has the same through C40."
  },
  {
   "property": "C63",
   "status": "partial",
   "theorems": [
    "AceTN.Set.C63_order",
    "AceTN.Set.C63_works_partial",
    "AceTN.Set.C63_violated",
    "AceTN.Set.C63_errors"
   ],
   "note": "False for a model whose params are None (the default): the start message raises AttributeError after the site tensors were initialised. Proved for models with parameters."
  },
  {
   "property": "C64",
   "status": "partial",
   "theorems": [
    "AceTN.PG.C64_accepts",
    "AceTN.PG.C64_violated",
    "AceTN.PG.C64_own_gpu_partial"
   ],
   "note": "False if the first Ipeps of the process is on the CPU: it joins the group without selecting the GPU of the rank. Proved for processes that only use GPUs."
  },
  {
   "property": "C65",
   "status": "proved",
   "theorems": [
    "AceTN.C65_quarter",
    "AceTN.C65_block",
    "AceTN.C65_sites",
    "AceTN.C09_left_reads_before",
    "AceTN.C09_right_reads_before",
    "AceTN.C09_up_reads_before",
    "AceTN.C09_down_reads_before"
   ],
   "note": "Boundary legs of one common dimension in C65_quarter and C65_block. Excludes a quarter tensor that is identically zero (python then divides by zero). That the moves use these projectors for the cuts of the absorbed line is C09_*_reads_before."
  },
  {
   "property": "C66",
   "status": "proved",
   "theorems": [
    "AceTN.C66_moves",
    "AceTN.C66_sweeps",
    "AceTN.C66_real",
    "AceTN.C66_values"
   ],
   "note": "All cell sizes, tensors, sequences of moves and SVD routines; hypothesis LooseRun says that no cut on the way truncates, and is shown to hold for ever on a 2x3 network with non-trivial boundary bonds."
  },
  {
   "property": "C67",
   "status": "proved",
   "theorems": [
    "AceTN.C67_fresh",
    "AceTN.C67_moves",
    "AceTN.C67_sweeps",
    "AceTN.C67_real",
    "AceTN.C67_posSemidef",
    "AceTN.C67_bounds"
   ],
   "note": "Exact arithmetic. Complex tensors: half-system projectors, or full-system projectors with full-rank SVD; real tensors: all kinds."
  },
  {
   "property": "C68",
   "status": "proved",
   "theorems": [
    "AceTN.C68_product",
    "AceTN.C68_real",
    "AceTN.C68_values"
   ],
   "note": "Exact arithmetic; values of the transposed operator (C49)."
  },
  {
   "property": "C69",
   "status": "proved",
   "theorems": [
    "AceTN.Pauli.C69_honeycomb_lattice",
    "AceTN.Pauli.C69_kagome_lattice",
    "AceTN.Pauli.C69_honeycomb_complete",
    "AceTN.Pauli.C69_kagome_complete",
    "AceTN.Pauli.C69_honeycomb_site",
    "AceTN.Pauli.C69_honeycomb_bond",
    "AceTN.Pauli.C69_kagome_site",
    "AceTN.Pauli.C69_kagome_bond",
    "AceTN.Pauli.C69_unknown_direction",
    "AceTN.Pauli.C69_honeycomb_observables",
    "AceTN.Pauli.C69_kagome_observables",
    "AceTN.Pauli.C69_compass",
    "AceTN.Pauli.C69_compass_observables"
   ],
   "note": "samples 04-06; couplings given as parameters"
  },
  {
   "property": "C70",
   "status": "proved",
   "theorems": [
    "AceTN.C70_second_order",
    "AceTN.C70_hamiltonian",
    "AceTN.C70_covering"
   ],
   "note": "exact bond updates; constants explicit in Lemmas/TrotterOrder.lean"
  },
  {
   "property": "C71",
   "status": "partial",
   "theorems": [
    "AceTN.C71_never",
    "AceTN.C71_terminates",
    "AceTN.C71_passes",
    "AceTN.C71_result",
    "AceTN.C71_unchanged",
    "AceTN.C71_violated_shift"
   ],
   "note": "Termination, positivity and the unchanged case are proved for every pattern of failures. Only adding a multiple of the identity is false: when eigh raises, the SVD replaces negative eigenvalues by their moduli."
  },
  {
   "property": "C72",
   "status": "proved",
   "theorems": [
    "AceTN.C72_convention",
    "AceTN.C72_descent",
    "AceTN.C72_full_update",
    "AceTN.C72_simple_update"
   ],
   "note": "For all networks, dims, Hermitian models, dtau >= 0, with a positive measured density matrix as hypothesis (C67 gives it for fresh/untruncated environments). The updates are those of C39 (real) and C40."
  },
  {
   "property": "C73",
   "status": "proved",
   "theorems": [
    "AceTN.C73_moves",
    "AceTN.C73_sweeps",
    "AceTN.C73_values"
   ],
   "note": "Full-rank SVD or captured environments at every cut of both runs; the drop of the singular values at every cut of the first run is a hypothesis, as stated. Captured environments with full-system projectors: real tensors."
  },
  {
   "property": "C74",
   "status": "proved",
   "theorems": [
    "AceTN.C74_hermitian",
    "AceTN.C74_values"
   ],
   "note": "Full-rank SVD or captured environments and the drop of the singular values at every cut are hypotheses, as stated."
  },
  {
   "property": "C75",
   "status": "proved",
   "theorems": [
    "AceTN.C75_equivalent",
    "AceTN.C75_values"
   ],
   "note": "Uniform bases on horizontal and on vertical bonds, full-rank SVD or captured environments and the drop of the singular values at every cut, as stated."
  },
  {
   "property": "C76",
   "status": "proved",
   "theorems": [
    "AceTN.C76_bond",
    "AceTN.C76_run",
    "AceTN.C76_imaginary_time",
    "AceTN.C76_full_update",
    "AceTN.C76_simple_update",
    "AceTN.C76_full_evolution",
    "AceTN.C76_simple_evolution"
   ],
   "note": "For all finite lattices covering the cell and all runs without truncation; uses C39 (real dtypes, als_epsilon = 0) for the full update and C40 for the simple update."
  },
  {
   "property": "C77",
   "status": "proved",
   "theorems": [
    "AceTN.C77_captured",
    "AceTN.C77_only_low_rank",
    "AceTN.C77_sampled",
    "AceTN.C77_svd",
    "AceTN.C77_fused",
    "AceTN.C77_half"
   ],
   "note": "Any sigma-finite distribution of the entries without atoms, real or complex; examples instantiate the real and the complex normal distribution. One call of the routine at a time."
  },
  {
   "property": "C78",
   "status": "proved",
   "theorems": [
    "AceTN.C78_bound",
    "AceTN.C78_tail",
    "AceTN.C78_fused",
    "AceTN.C78_half",
    "AceTN.C78_converges",
    "AceTN.C78_fused_converges",
    "AceTN.C78_half_converges"
   ],
   "note": "The bound holds for every draw with a right inverse of the sample, which exists with probability one. The limit statements hold for every matrix and every spectrum, and the number of iterations needed does not depend on the library."
  },
  {
   "property": "C79",
   "status": "proved",
   "theorems": [
    "AceTN.C79_moves",
    "AceTN.C79_sweeps",
    "AceTN.C79_oversampling"
   ],
   "note": "Ranks and the drop of the singular values are hypotheses about the deterministic full-rank run, as stated. Draws of one move are independent of those of other moves; draws within a move need not be."
  },
  {
   "property": "C80",
   "status": "partial",
   "theorems": [
    "AceTN.Meas.C80_refines",
    "AceTN.Meas.C80_sites_partial",
    "AceTN.Meas.C80_bonds_partial",
    "AceTN.Meas.C80_averages",
    "AceTN.Meas.C80_violated_order",
    "AceTN.Meas.C80_violated_long_names"
   ],
   "note": "Proved for observables in the same order on all sites whose names differ in the first ten characters; violated otherwise (two witnesses). Printing never changes the returned averages."
  },
  {
   "property": "C81",
   "status": "partial",
   "theorems": [
    "AceTN.Startup.C81_level",
    "AceTN.Startup.C81_debug_mode",
    "AceTN.Startup.C81_import_partial",
    "AceTN.Startup.C81_no_file",
    "AceTN.Startup.C81_repeated",
    "AceTN.Startup.C81_extension_partial",
    "AceTN.Startup.C81_violated_import",
    "AceTN.Startup.C81_violated_log_file",
    "AceTN.Startup.C81_violated_strict"
   ],
   "note": "Known levels work; any other value raises TypeError at import, and no log file is ever kept. Loading the extension fails only if interrupted or if warnings are exceptions."
  },
  {
   "property": "C82",
   "status": "partial",
   "theorems": [
    "AceTN.Bench.C82_once",
    "AceTN.Bench.C82_average",
    "AceTN.Bench.C82_zero",
    "AceTN.Bench.C82_violated_no_grad"
   ],
   "note": "Transparency proved for every function; the gradient mode is that of the caller, not disabled."
  },
  {
   "property": "C83",
   "status": "proved",
   "theorems": [
    "AceTN.C83_full",
    "AceTN.C83_simple"
   ],
   "note": "For runs in which the gate-applied two-site tensors fit in the bond dimension (the statement of the property); nothing is claimed about truncating runs. Full update: real dtypes, als_epsilon = 0."
  },
  {
   "property": "C84",
   "status": "proved",
   "theorems": [
    "AceTN.C84_state",
    "AceTN.C84_evolution",
    "AceTN.C84_evolved_state",
    "AceTN.C84_decompositions"
   ],
   "note": "Unitary changes of basis on every bond and site, complex conjugation and different decompositions; networks, exceptions and lattice states of simple-update runs. The unambiguous-cut condition is part of the claim; met by untruncated runs and by an entangling gate with truncation."
  },
  {
   "property": "C85",
   "status": "proved",
   "theorems": [
    "AceTN.C85_run",
    "AceTN.C85_decompositions",
    "AceTN.C85_gates",
    "AceTN.C85_regularisation"
   ],
   "note": "Whole runs of fresh boundaries, sweeps, full update with absorbing moves, sweeps; real tensors. The unambiguous-cut conditions are part of the claim; met for runs of any length with bond dimension one and product gates. C85_regularisation shows why the Cholesky solver with epsilon > 0 is restricted to signs."
  },
  {
   "property": "C86",
   "status": "proved",
   "theorems": [
    "AceTN.C86_returns",
    "AceTN.C86_evolution",
    "AceTN.C86_ground",
    "AceTN.C86_step",
    "AceTN.C86_one_site"
   ],
   "note": "Returning and single updates: all dtypes and settings. Evolution and ground state: real dtypes, als_epsilon = 0, as stated (C39 has the violation for complex dtypes)."
  },
  {
   "property": "C87",
   "status": "proved",
   "theorems": [
    "AceTN.C87_truncation",
    "AceTN.C87_exact",
    "AceTN.C87_simple",
    "AceTN.C87_full",
    "AceTN.C87_ground_full",
    "AceTN.C87_ground_simple"
   ],
   "note": "All dtypes and settings; the state of the lattice is the one of C76. The bound is in terms of the errors of the single bond updates."
  },
  {
   "property": "C88",
   "status": "proved",
   "theorems": [
    "AceTN.C88_returns",
    "AceTN.C88_simple",
    "AceTN.C88_chi",
    "AceTN.C88_settings",
    "AceTN.C88_evolution",
    "AceTN.C88_ground"
   ],
   "note": "Any list of set_chi, renormalize and evolve calls, full and simple updates mixed, on one process. Simple updates with a complex dtype may raise (C41), and full updates with Cholesky may raise; a script that catches these exceptions goes on with an object for which the theorem holds."
  },
  {
   "property": "C89",
   "status": "proved",
   "theorems": [
    "AceTN.C89_returns",
    "AceTN.C89_round_trip",
    "AceTN.C89_evolution",
    "AceTN.C89_resume"
   ],
   "note": "Same lattice, dtype and dimensions in all processes; one object per process. Files of another lattice or dtype are in C18."
  },
  {
   "property": "C90",
   "status": "proved",
   "theorems": [
    "AceTN.C90_returns",
    "AceTN.C90_half_serial",
    "AceTN.C90_errors",
    "AceTN.C90_evolution",
    "AceTN.C90_ground"
   ],
   "note": "All sharing rank counts, scripts of any length, random numbers per rank, libraries as parameters. The proviso that all ranks create the same site tensors is necessary (C14). Half-system: equality with a single process; both kinds: accuracy as in C88."
  },
  {
   "property": "C91",
   "status": "proved",
   "theorems": [
    "AceTN.C91_moves",
    "AceTN.C91_sweeps",
    "AceTN.C91_real",
    "AceTN.C91_posSemidef",
    "AceTN.C91_cost",
    "AceTN.C91_update",
    "AceTN.C91_regularised",
    "AceTN.C91_overlap"
   ],
   "note": "Norm tensors, positivity and the cost for all moves without truncation; what the solver returns for als_epsilon = 0 with both solvers, and for the Cholesky method with any als_epsilon for the second tensor."
  },
  {
   "property": "C92",
   "status": "partial",
   "theorems": [
    "AceTN.PG.C92_cuda_partial",
    "AceTN.PG.C92_cpu_accepted",
    "AceTN.PG.C92_cpu_raises",
    "AceTN.PG.C92_violated_cpu",
    "AceTN.PG.C92_violated_after_cpu",
    "AceTN.PG.C92_cuda_later_partial"
   ],
   "note": "Proved for cuda, also for objects constructed after any history of objects on cuda. The code violates it for cpu: the set-up succeeds and every exchange raises, and for cuda after cpu in the same processes; both negations are proved for all machines and numbers of ranks."
  },
  {
   "property": "C93",
   "status": "partial",
   "theorems": [
    "AceTN.C93_measured",
    "AceTN.C93_gates_partial",
    "AceTN.C93_raises",
    "AceTN.C93_forgotten",
    "AceTN.C93_violated_tensor"
   ],
   "note": "Proved for measurements, and for gates of models whose hooks return Pauli expressions. Violated: gate.py reads .mat without the hasattr test of measure.py, so a model that returns a torch.Tensor as documented can be measured, but every evolve raises AttributeError (after the site tensors have been initialised and renormalized)."
  },
  {
   "property": "C94",
   "status": "partial",
   "theorems": [
    "AceTN.C94_exact_partial",
    "AceTN.C94_bond_partial",
    "AceTN.C94_run_partial",
    "AceTN.C94_patch",
    "AceTN.C94_violated_truncation",
    "AceTN.C94_violated_complex"
   ],
   "note": "Finding: false. The update raises exactly if no pair with the second tensor of the initial guess is nearer to the gated pair than zero (C94_patch). This happens for a real pair that is truncated and a positive definite norm tensor (C94_violated_truncation), and for complex pairs even without truncation because of the conjugated initial guess (C94_violated_complex). Proved for real pairs that fit into the bond dimension."
  },
  {
   "property": "C95",
   "status": "proved",
   "theorems": [
    "AceTN.C95_reduced",
    "AceTN.C95_bond",
    "AceTN.C95_not_exact",
    "AceTN.C95_pinv"
   ],
   "note": "C95_bond for whole bonds in any network, C95_reduced for the reduced tensors, C95_pinv for the method pinv; C95_not_exact shows that the error is there for every als_epsilon and library."
  },
  {
   "property": "C96",
   "status": "partial",
   "theorems": [
    "AceTN.C96_reduced",
    "AceTN.C96_reduced_returns",
    "AceTN.C96_real_partial",
    "AceTN.C96_returns",
    "AceTN.C96_violated"
   ],
   "note": "Proved for real dtypes (C96_real_partial is the property in full over the reals, C96_returns its last sentence; C96_reduced and C96_reduced_returns the same for the reduced tensors and an arbitrary norm tensor). False for complex dtypes: C96_violated, the initial guess is conjugated, and for a product pair that fits exactly, with the identity as gate, the update returns zero tensors."
  },
  {
   "property": "C97",
   "status": "partial",
   "theorems": [
    "AceTN.C97_local",
    "AceTN.C97_full_partial",
    "AceTN.C97_real_partial",
    "AceTN.C97_violated",
    "AceTN.C97_simple_partial"
   ],
   "note": "C97_local is complete: for any update of the two sites, real and complex, the error of the lattice is at most a factor times the local error. With the actual updates the property holds for full updates with real dtypes (both methods, any als_epsilon; C97_real_partial is the statement for every scalar type at the reals) and for simple updates, real and complex, with weights of at least 1e-12 of a real dtype. The code violates it otherwise: C97_violated shows that for complex full updates no factor exists (a product state of bond dimension one, updated with the identity, is lost although it could be kept exactly); for other weights see C41_violated, C40_violated_complex."
  },
  {
   "property": "C98",
   "status": "partial",
   "theorems": [
    "AceTN.C98_bond_partial",
    "AceTN.C98_full_partial",
    "AceTN.C98_simple_partial",
    "AceTN.C98_violated"
   ],
   "note": "Real dtypes for full updates; real and complex ones for simple updates with weights of at least 1e-12. C98_violated: with a complex dtype a full update with time step zero can return zero tensors (finding of C39)."
  },
  {
   "property": "C99",
   "status": "proved",
   "theorems": [
    "AceTN.C99_simple",
    "AceTN.C99_sweeps",
    "AceTN.C99_full",
    "AceTN.C99_site_operator"
   ],
   "note": "Simple update: real and complex tensors, unitary and antiunitary symmetries. Full update: real tensors, as C85. The unambiguous-cut conditions are part of the claim."
  },
  {
   "property": "C100",
   "status": "partial",
   "theorems": [
    "AceTN.DistSave.C100_violated",
    "AceTN.DistSave.C100_own_partial",
    "AceTN.DistSave.C100_barrier_partial",
    "AceTN.DistSave.C100_turns_partial",
    "AceTN.DistSave.C100_names_partial"
   ],
   "note": "Violated for two or more ranks with one file name: save writes and then reads the file on every rank without a barrier, and a rank that reads while another has just opened the file for writing raises (C100_violated, for every state, format and number of ranks from two on). Proved: no error and a complete file if no rank opens the file after the rank in question has (C100_own_partial), with a barrier between writing and reading (C100_barrier_partial), one rank after another (C100_turns_partial), with a file name per rank (C100_names_partial)."
  },
  {
   "property": "C101",
   "status": "proved",
   "theorems": [
    "AceTN.C101_period",
    "AceTN.C101_converged",
    "AceTN.C101_values",
    "AceTN.C101_product"
   ],
   "note": "Convergence is stated for the tensors up to positive factors and unitaries on the boundary bonds; that is what a decomposition leaves open. A sweep that leaves only a few measured values unchanged does not suffice. The condition that kept and discarded singular values differ is needed for the sweep(s) that are checked only; exactness of the decomposition (full rank, or draws that capture the environment) along the whole run."
  },
  {
   "property": "C102",
   "status": "proved",
   "theorems": [
    "AceTN.C102_back",
    "AceTN.C102_parts",
    "AceTN.C102_diagonal",
    "AceTN.C102_simple_back",
    "AceTN.C102_full_back"
   ],
   "note": "C102_back, C102_parts and C102_diagonal hold for any updaters whose bond updates are exact up to positive factors; C102_simple_back and C102_full_back are the two updates of the code with the conditions of C76 (weights can be divided out, gate-applied tensors fit in the bond dimension; full update: real dtypes, als_epsilon = 0)."
  },
  {
   "property": "C103",
   "status": "proved",
   "theorems": [
    "AceTN.C103_gates",
    "AceTN.C103_simple",
    "AceTN.C103_simple_same",
    "AceTN.C103_full",
    "AceTN.Meas.C103_measure"
   ],
   "note": "Simple update: any libraries, under the drop of the singular values of C84. Full update: libraries for which the decompositions of a positive multiple are the multiples, and a stopping rule of the ALS loop that depends on the ratio of the costs only. The moves between the full updates are arbitrary. Sites without a one-site term get no constant."
  },
  {
   "property": "C104",
   "status": "proved",
   "theorems": [
    "AceTN.C104_simple",
    "AceTN.C104_full",
    "AceTN.C104_eigenstate"
   ],
   "note": "Hypothesis `Spec.LocalEigen`: real eigenvalue per bond, for all values of the outer legs. Simple update: the weights can be divided out along the run (C41); met for instance with bond dimension one, where they stay one. Full update: real dtypes, als_epsilon = 0, gauge_fix_atol below the square root of the cutoff; exceptions leave the tensors where they are. The energy theorem needs one-site terms everywhere or nowhere (C04)."
  },
  {
   "property": "C105",
   "status": "partial",
   "theorems": [
    "AceTN.C105_session_partial",
    "AceTN.C105_library",
    "AceTN.C105_gates",
    "AceTN.C105_any_library",
    "AceTN.C105_violated_simple",
    "AceTN.C105_violated"
   ],
   "note": "Sessions without simple updates, for every library of the complex dtype that follows the real one; boundary moves for every library. The simple update raises a RuntimeError in a complex dtype for the same real data on which the real dtype returns, so the statement for all sessions is refuted (C105_violated)."
  },
  {
   "property": "C106",
   "status": "proved",
   "theorems": [
    "AceTN.C106_session",
    "AceTN.C106_library",
    "AceTN.C106_any_library",
    "AceTN.C106_odd_session",
    "AceTN.C106_odd_sweeps"
   ],
   "note": "All sessions for libraries that follow conjugation; boundary moves (full-rank SVD) for every library. In a complex dtype the simple update raises (C40), in both sessions."
  },
  {
   "property": "C107",
   "status": "proved",
   "theorems": [
    "AceTN.C107_gates",
    "AceTN.C107_session",
    "AceTN.C107_measure",
    "AceTN.C107_couplings"
   ],
   "note": "One process. The energy theorem assumes the conditions of C48 on the names of the observables."
  },
  {
   "property": "C108",
   "status": "partial",
   "theorems": [
    "AceTN.Session.C108_session",
    "AceTN.Session.C108_pinv",
    "AceTN.Full.C108_bond",
    "AceTN.Full.C108_never_raises",
    "AceTN.Full.C108_violated"
   ],
   "note": "Proved for all scripts that run to their end with the torch backend (same final state with cutensor in any of the calls), and for all scripts with als_method = pinv, exceptions included. False for exceptions with Cholesky: the extension does not look at the status of the factorisation, so where torch raises it carries on with whatever the factorisation left (C108_violated: positive definite norm tensor, positive regulariser)."
  },
  {
   "property": "C109",
   "status": "partial",
   "theorems": [
    "AceTN.C109_evolution_partial",
    "AceTN.C109_states_partial",
    "AceTN.C109_violated_complex"
   ],
   "note": "Proved for real dtypes, for whole runs of evolve, all boundary tensors and both solvers, when along the run of the simple update the gated pairs are not zero and their largest singular value is simple. In a complex dtype the claim is false: the simple update raises on its first bond (clamp on complex weights) while the full update returns (C109_violated_complex)."
  },
  {
   "property": "C110",
   "status": "proved",
   "theorems": [
    "AceTN.C110_values",
    "AceTN.C110_returns",
    "AceTN.C110_energy",
    "AceTN.C110_variational"
   ],
   "note": "Every one-site and nearest-neighbour value after any script of calls is the one of the product of the present site tensors (C110_values); calls with known names do not raise (C110_returns); the energy of measure is the energy of the lattice state per site for every finite covering of the cell (C110_energy), so at least the lowest energy per site (C110_variational). Real dtype; projector cutoff in [0,1), nonzero sketches, solver settings as in C109, nonzero starting tensors."
  },
  {
   "property": "C111",
   "status": "proved",
   "theorems": [
    "AceTN.C111_refines",
    "AceTN.C111_unique",
    "AceTN.C111_settings",
    "AceTN.C111_small",
    "AceTN.C111_settings_small"
   ],
   "note": "The states are those of `Spec.MeanField` (Spec/MeanTheory.lean: vectors on the sites and nearest products, no tensors, environments or decompositions), for every script of sensible calls whose settings name projectors and updates that exist. Mean-field theory has one result up to factors wherever the nearest products are unique (C111_unique), which they are for small time steps of any model (C111_small). C111_settings and C111_settings_small compare the results of two scripts with the same calls of `evolve` up to settings: bond lists, all site and bond values and the dictionary `measure` returns are equal. With larger time steps uniqueness of the nearest products is a hypothesis (NoChoice)."
  },
  {
   "property": "C112",
   "status": "proved",
   "theorems": [
    "AceTN.C112_simple",
    "AceTN.C112_full",
    "AceTN.C112_simple_measured"
   ],
   "note": "Expectation value of exp(-dtau h) in the pair is non-decreasing under an optimally truncated bond update, strictly increasing unless the pair is unchanged up to a factor. Simple update: every bond dimension, real and complex, weights from 1e-12 (C40). Both updates at bond dimension one, real dtype: in terms of the measured values, after any script. Says nothing about the full update above bond dimension one, where the solver finds a local optimum."
  },
  {
   "property": "C113",
   "status": "proved",
   "theorems": [
    "AceTN.C113_gate",
    "AceTN.C113_commuting",
    "AceTN.C113_full",
    "AceTN.C113_ground",
    "AceTN.C113_session"
   ],
   "note": "Models with vanishing two-site terms and a one-site term on every site. Gates are products, bond terms commute on every covering lattice. Full update: any bond dimension, real dtype, pseudo-inverse solver with als_epsilon = 0, no truncation hypothesis, result exp(-n dtau H) exactly up to a positive factor; ground state reached for every time step. Bond dimension one: both updates, every script with sensible arguments, all measured one- and two-site values."
  },
  {
   "property": "C114",
   "status": "proved",
   "theorems": [
    "AceTN.C114_ising_terms",
    "AceTN.C114_heisenberg_terms",
    "AceTN.C114_ising_bound",
    "AceTN.C114_ising_sharp",
    "AceTN.C114_paramagnet",
    "AceTN.C114_heisenberg_bound",
    "AceTN.C114_neel",
    "AceTN.C114_neel_even"
   ],
   "note": "Model definitions of the hooks as evolve and measure read them (Model/BuiltIn), composed with the sessions of C88/C110/C111. The terms theorems evaluate the Pauli expressions of the two models to explicit matrices. The bounds hold for every script, also one that evolves with other models. The Neel state is kept because the nearest product to cosh|01> - sinh|10> is unique. Real dtypes only (complex Y is covered by C26)."
  },
  {
   "property": "C115",
   "status": "proved",
   "theorems": [
    "AceTN.C115_serial",
    "AceTN.C115_processes",
    "AceTN.C115_energy",
    "AceTN.C115_neel"
   ],
   "note": "Through C90_half_serial; half-system projectors, as the quantifier says."
  },
  {
   "property": "C116",
   "status": "proved",
   "theorems": [
    "AceTN.C116_full",
    "AceTN.C116_session",
    "AceTN.C116_reaches"
   ],
   "note": "Full update: energy of the lattice state on every finite covering, any bond dimension, pseudo-inverse solver with als_epsilon = 0. Bond dimension one: the energy that measure returns, any two scripts; strict if the start is not an eigenvector. Real dtype, projector cutoff and solver settings as in C110."
  },
  {
   "property": "C117",
   "status": "proved",
   "theorems": [
    "AceTN.C117_refines",
    "AceTN.C117_values",
    "AceTN.C117_processes",
    "AceTN.C117_energy"
   ],
   "note": "Both kinds of projectors; the invariant of C110 is proved directly for the shared moves with stale projectors. Complements C115 (half-system) and C90 (refinement, which fails for full-system projectors at larger bond dimension)."
  },
  {
   "property": "C118",
   "status": "proved",
   "theorems": [
    "AceTN.C118_processes",
    "AceTN.C118_free",
    "AceTN.C118_cooling",
    "AceTN.C118_reaches",
    "AceTN.C118_bounds",
    "AceTN.C118_paramagnet",
    "AceTN.C118_neel"
   ],
   "note": "Both kinds of projectors, through C117; no condition on the size of the time steps."
  },
  {
   "property": "C119",
   "status": "proved",
   "theorems": [
    "AceTN.C119_rate",
    "AceTN.C119_run",
    "AceTN.C119_before",
    "AceTN.C119_measured",
    "AceTN.C119_descent",
    "AceTN.C119_ising",
    "AceTN.C119_ising_rate"
   ],
   "note": "Real dtype, bond dimension one. C119_rate and C119_run are about every run of mean-field theory, C119_measured and C119_descent about sessions and teams of processes, C119_before says what is measured before, C119_ising and C119_ising_rate are about the built-in Ising model from spins up. The bound on the time step exists but is not computed; the calls of evolve share one model and their time steps are in fixed ratios."
  }
 ]
}
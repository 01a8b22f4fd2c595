import json
P=[]
def p(title,statement,quantifier,why,anchors):
    P.append(dict(id="C%02d"%(len(P)+1),title=title,statement=statement,quantifier=quantifier,why_tests_cant=why,anchors=anchors))
TN="acetn/ipeps/tensor_network.py"
p("Every unit-cell coordinate is a site exactly once",
 "For a network built with lattice nx by ny, `site_list` contains every coordinate (x, y) with 0 <= x < nx and 0 <= y < ny exactly once and nothing else.",
 "all lattice sizes nx, ny",
 "A test fixes a handful of lattice sizes; the claim is about every size, including the one-wide cells.",
 [TN+":build_site_list"])
p("Every nearest-neighbour bond of the periodic lattice is listed exactly once",
 "For an nx by ny network `bond_list` has 2*nx*ny entries, no entry is repeated, and it holds exactly the bonds from each site to its right neighbour (direction 2) and to its upper neighbour (direction 1), coordinates wrapping around the cell.",
 "all lattice sizes nx, ny",
 "Needs all sizes; wrap-around and one-wide cells are exactly the cases a sample misses.",
 [TN+":build_bond_list","acetn/ipeps/bond.py:Bond"])
p("Each side of each site belongs to exactly one bond, and both ends of a bond see the same weight",
 "On any lattice every (site, direction) pair is an end of exactly one bond, so every site touches exactly four bond ends; the simple-update bond weight looked up from a site and direction always exists, is unique whatever the current order of the bond list, and is the same object when looked up from the two ends of a bond.",
 "all lattice sizes, sites, directions and all orders of the bond list",
 "Ranges over all lattice sizes and over the bond-list order left behind by any previous evolution.",
 ["acetn/evolution/lambda_tensors.py:get","acetn/evolution/lambda_tensors.py:absorb",TN+":build_bond_list"])
p("Evolution and measurement use the same Hamiltonian",
 "The bond generators exponentiated by `evolve` add up over the unit cell to the sum of all two-site terms plus the sum of all one-site terms, i.e. to the same operator whose expectation value `measure` reports as nx*ny*Energy: no one-site term is lost or double counted.",
 "all lattice sizes, all Hamiltonians (one-site terms given on some, all or no sites), all ways of placing local operators on the lattice",
 "The identity is a sum over a lattice of arbitrary size for arbitrary operators; tests evaluate a few models with a uniform field.",
 ["acetn/evolution/gate.py:build_two_site_gates","acetn/measurement/measure.py:measure_bond_energy"])
p("Each evolution step updates every bond exactly once, in alternating order",
 "During `evolve(dtau, steps)` step i visits every bond of the lattice exactly once, in list order on odd steps and in the reverse order on even steps counted from the current order; after any number of steps the bond list is the original or its reverse according to parity, and never loses or duplicates a bond.",
 "all lattice sizes, numbers of steps and histories of evolve calls",
 "The list is mutated in place across calls, so the claim is about arbitrary call histories.",
 ["acetn/evolution/evolve.py:evolve",TN+":build_bond_list"])
p("Splitting an evolution into several calls does not change the result",
 "Calling `evolve` with n steps and then with m steps performs the same sequence of bond updates on the same state as one call with n+m steps, apart from the boundary renormalizations requested in between.",
 "all step counts, lattices, update types, states and bond-update behaviours",
 "Quantifies over all splits of all histories; auxiliary state such as bond weights has to survive the call boundary.",
 ["acetn/evolution/evolve.py:evolve","acetn/ipeps/ipeps.py:evolve","acetn/evolution/simple_update.py:__init__","acetn/evolution/lambda_tensors.py"])
p("One boundary sweep refreshes every boundary tensor",
 "One step of `renormalize` performs, for each column, exactly one left and one right move and, for each row, exactly one up and one down move; hence every site's four edge tensors are rewritten exactly once and its four corner tensors exactly twice per sweep.",
 "all lattice sizes and numbers of sweeps",
 "The wrap-around index arithmetic has to be a bijection for every size.",
 ["acetn/renormalization/ctmrg.py:ctmrg","acetn/renormalization/directional_mover.py:renormalize_boundary"])
p("Renormalization only touches the boundary it is supposed to touch",
 "`renormalize` never changes a site's bulk tensor; a left (up, right, down) move changes only the three left (up, right, down) boundary tensors of the sites in the one column (row) it targets.",
 "all lattices, states, projector settings, numbers of sweeps",
 "A frame condition over all states and schedules; a test can only spot-check tensors.",
 ["acetn/renormalization/directional_mover.py","acetn/renormalization/ctmrg.py"])
p("A boundary move is a simultaneous update",
 "The result of a left/up/right/down move does not depend on the order in which the rows (columns) of the cell are processed, and every new boundary tensor is computed from the tensors as they were before the move, also when the source and target column coincide (one-wide cell).",
 "all lattices, states, move directions, processing orders",
 "Requires reasoning about every interleaving of reads and in-place writes.",
 ["acetn/renormalization/directional_mover.py:left_move","acetn/renormalization/directional_mover.py:renormalize_boundary"])
p("Boundary dimensions always fit together",
 "Starting from a freshly built network, after any sequence of boundary moves, sweeps, bond updates and changes of chi, no contraction in renormalization, norm-tensor construction or density-matrix construction fails with a size mismatch: neighbouring corner and edge tensors always agree on the dimension of the link they share, even though each cut may be truncated to a different dimension.",
 "all lattices, bond/physical dimensions, chi values, truncation outcomes and histories",
 "Truncated dimensions vary from cut to cut and run to run; consistency is an inductive invariant.",
 ["acetn/renormalization/directional_mover.py","acetn/renormalization/projectors.py","acetn/measurement/rdm.py","acetn/evolution/full_update.py:build_norm_tensor"])
p("Boundary bond dimension is capped by chi after one sweep",
 "After `renormalize` with at least one sweep, every boundary link dimension in the network is at most the configured chi (and at least one), whatever it was before.",
 "all lattices, prior states and prior chi values, truncation outcomes",
 "Needs every link of every lattice to be visited; larger initial dimensions (D*D > chi) are the interesting case.",
 ["acetn/renormalization/projectors.py:calculate_projectors","acetn/renormalization/ctmrg.py"])
p("The distributed boundary move equals the serial one",
 "With half-system projectors a distributed left+right (up+down) move produces on every rank exactly the boundary tensors the serial left-then-right (up-then-down) moves produce.",
 "all lattices, states, world sizes for which the move completes, column/row choices",
 "The parallel version computes both sets of projectors from the old state; equality is a non-interference argument over all states.",
 ["acetn/renormalization/directional_mover.py:left_right_move_dist","acetn/renormalization/directional_mover.py:up_down_move_dist","acetn/evolution/fast_full_update.py:absorb_bond_dist"])
p("The distributed boundary move completes for every number of processes",
 "For every world size greater than one and every lattice, the distributed move computes a projector for every row (column) of the cell: it neither looks up a projector no rank computed nor uses one before it was assigned.",
 "all world sizes and lattice sizes",
 "Work-sharing arithmetic has to be right for every pair (world size, lattice size); tests on a multi-GPU box try one.",
 ["acetn/renormalization/directional_mover.py:left_right_move_dist","acetn/renormalization/directional_mover.py:up_down_move_dist"])
p("All ranks hold the same network",
 "In a distributed run every rank holds the same tensors after construction and after every renormalize and evolve call.",
 "all lattices, ranks, histories of evolve/renormalize calls, random initial noise",
 "Agreement between processes is an invariant over all histories and random draws.",
 ["acetn/evolution/fast_full_update.py:bond_update","acetn/evolution/simple_update.py:bond_update","acetn/ipeps/site_tensor.py:initialize_site_tensor","acetn/utils/distributed.py"])
p("Two networks do not share tensors",
 "Assigning a site tensor in one network never changes what another network returns for any site, and reading a site that a network does not have raises ValueError.",
 "all sequences of constructing, assigning and reading on any number of networks",
 "Isolation is a property of all interleavings of operations on several objects.",
 [TN+":TensorNetwork"])
p("copy() is a deep copy",
 "After `b = a.copy()` any sequence of assignments through one of the two leaves the tensors visible through the other unchanged.",
 "all networks and all operation sequences after the copy",
 "Aliasing shows only for particular sequences of operations after the copy.",
 [TN+":copy",TN+":copy_from","acetn/ipeps/site_tensor.py:copy"])
p("to() leaves the original network alone and honours its arguments",
 "`a.to(dtype, device)` returns a network whose tensors all have the requested type and device and does not change the type, device or values of the tensors of `a`.",
 "all networks, target types and devices",
 "Quantifies over all targets (including device index 0) and over the original's later observable state.",
 [TN+":to","acetn/ipeps/site_tensor.py:to"])
p("Saving and loading round-trips the state and saving is transparent",
 "After `save(f)` and, on any later state, `load(f)`, every site of the lattice holds the tensor it held when saved, converted to the loader's type and device; and `save` itself changes nothing an API user can observe afterwards.",
 "all states, histories before and after the save, types and devices",
 "Transparency is a statement about every continuation after the save.",
 [TN+":save",TN+":load","acetn/ipeps/ipeps.py:evolve"])
p("An interrupted save does not damage the live network",
 "If `save` is interrupted at any point (disk full, exception, kill of the write) the in-memory network still has its original tensors, type and device.",
 "all crash points inside save, all states",
 "Quantifies over crash points.",
 [TN+":save"])
p("evolve starts from the right state",
 "The first `evolve` of an Ipeps starts from the model's initial product state if the network is new, and from the given tensors if the network was constructed from an existing one or loaded; later calls continue from the current state.",
 "all histories of construct, load, save, assign, evolve, renormalize, measure",
 "Depends on a flag whose value is a function of the whole call history.",
 ["acetn/ipeps/ipeps.py:__init__","acetn/ipeps/ipeps.py:evolve",TN+":initialize_site_tensors",TN+":load"])
p("Site tensors behave like a checked record and copies are independent",
 "Reading a component returns the value last assigned converted to the tensor's type and device, other components are unaffected, an unknown key raises ValueError and changes nothing, and a copied site tensor is unaffected by later changes to the original and vice versa. to(dtype, device) gives a new site tensor with the converted components and leaves the original unchanged.",
 "all keys, values and operation sequences",
 "A read-over-write law over all operation sequences.",
 ["acetn/ipeps/site_tensor.py:SiteTensor"])
p("The model selected on an Ipeps is the model it uses",
 "After `set_model(cls, params, name)` on an Ipeps, its later evolve and measure calls build that class with those parameters until it is told otherwise; unknown names raise KeyError, a missing name ValueError, and a class that is not a Model is rejected with TypeError without being registered.",
 "all sequences of set_model / set_model_params / evolve / measure on any number of Ipeps objects",
 "The registry is global, so the claim quantifies over what every other object in the process does.",
 ["acetn/ipeps/ipeps.py:set_model","acetn/ipeps/ipeps.py:set_model_params","acetn/model/model_factory.py"])
p("Configuration fallbacks are safe and respect the user",
 "For every configuration the resulting dtype, device and backend are usable on the machine (no CUDA device without CUDA, no cuTENSOR backend without the extension), unspecified settings take their documented defaults, and explicitly given settings are kept.",
 "all configurations and machine capabilities",
 "A decision table over all combinations of inputs and environment.",
 ["acetn/ipeps/ipeps_config.py"])
p("Changing chi or parameters on one Ipeps affects only that Ipeps",
 "`set_chi` and `set_model_params` change the setting of the object they are called on and leave the caller's configuration dictionary and every other Ipeps unchanged.",
 "all sequences of construction from shared or separate configurations and setter calls",
 "Aliasing through shared dictionaries depends on how all objects were constructed.",
 ["acetn/ipeps/ipeps.py:set_chi","acetn/ipeps/ipeps.py:set_model_params","acetn/ipeps/ipeps_config.py:__post_init__"])
p("Pauli algebra is the same in real and complex arithmetic",
 "An operator expression built from Pauli matrices with products, sums, scalar multiples and negation denotes the same operator in a real dtype as in a complex one, whenever that operator is real; products denote the Kronecker product.",
 "all expressions built from I, X, Y, Z with the overloaded operators",
 "An infinite family of expressions; the real representation of Y makes sign bookkeeping global.",
 ["acetn/model/pauli_matrix.py:PauliMatrix"])
p("Built-in models are the documented Hamiltonians",
 "For every coupling the Ising model's terms are -hx X on sites and -jz Z Z on bonds and the Heisenberg model's bond term is J (SxSx+SySy+SzSz), all Hermitian, in real and complex dtypes; the Heisenberg bond term is J/4 (2 SWAP - 1); omitted couplings take the documented defaults.",
 "all real couplings, both dtypes",
 "Operator identities over all couplings.",
 ["acetn/model/models/heisenberg.py","acetn/model/models/ising.py","acetn/model/pauli_matrix.py"])
p("Time-evolution gates are the exponentials they should be",
 "For Hermitian terms each gate is Hermitian and positive definite (hence invertible), is the identity for dtau = 0, and gates for dtau1 and dtau2 compose to the gate for dtau1+dtau2.",
 "all dimensions, Hermitian terms and time steps",
 "Analytic statement over all matrices and real time steps.",
 ["acetn/evolution/gate.py:calculate_gate","acetn/evolution/gate.py:build_two_site_gates"])
p("Building gates has no side effects",
 "Building the gates for an evolution does not change the Hamiltonian the model returns, and building a second set of gates does not change the first.",
 "all models (including those that cache their matrices), bond lists, and sequences of gate constructions",
 "Depends on object identity inside user models and on the sequence of constructions.",
 ["acetn/evolution/gate.py:Gate"])
p("Rotating into the bond frame and back is the identity",
 "The leg permutation applied before a bond update and the one applied after it are mutually inverse for each direction, and in the bond frame the shared leg of the first tensor is its left leg and of the second its right leg.",
 "all integers k, all tensors",
 "All directions and all tensors.",
 ["acetn/evolution/tensor_update.py:permute_bond_tensors","acetn/ipeps/site_tensor.py:bond_permute"])
p("Reducing a bond to small tensors loses nothing",
 "Decomposing the two tensors of a bond into isometric and reduced parts and recomposing gives the original tensors; applying the gate to the reduced parts and recomposing gives the gate applied to the full two-site tensor.",
 "all bond and physical dimensions, tensors and gates, any QR routine meeting its contract",
 "Algebraic identity over all dimensions and values.",
 ["acetn/evolution/tensor_update.py:decompose_site_tensors","acetn/evolution/tensor_update.py:recompose_site_tensors","acetn/evolution/full_update.py:update_reduced_tensors"])
p("The full-update environment is the measured environment",
 "The norm tensor built for a bond, contracted with the bond's reduced tensors and their conjugates, equals the unnormalised bond density matrix that measurement computes for the same network. With other reduced tensors attached it equals the one measured after writing the corresponding site tensors, and the one computation raises on boundary tensors whose shapes do not fit exactly if the other does.",
 "all dimensions, all boundary and site tensors, all directions",
 "Two independently coded contractions of about twenty indices have to agree for all values.",
 ["acetn/evolution/full_update.py:build_norm_tensor","acetn/measurement/rdm.py:build_bond_rdm"])
p("Blocked contractions equal the unblocked ones",
 "The memory-saving blocked versions of the norm-tensor and bond-density-matrix contractions return the same tensor as the unblocked versions for every size, including sizes not divisible by the block size.",
 "all dimensions and tensors",
 "Boundary cases of the block partition for every size.",
 ["acetn/evolution/full_update.py:build_norm_tensor_core_blocked","acetn/measurement/rdm.py:build_bond_rdm_core_blocked"])
p("The regularised norm is positive and the regularisation loop ends",
 "The positive approximation terminates after at most one shift, returns a Hermitian norm tensor whose eigenvalues are all at least the cutoff, and leaves an already positive norm unchanged.",
 "all norm tensors, dimensions and cutoffs, any Hermitian eigensolver meeting its contract",
 "Termination and positivity for every input matrix.",
 ["acetn/evolution/full_update.py:positive_approx"])
p("Gauge fixing does not change the optimisation problem",
 "Whenever the gauge factors are invertible, gauge fixing the norm and the target leaves the cost of every candidate pair unchanged under the corresponding change of variables, and undoing the gauge at the end returns to the original variables.",
 "all norms, targets, candidate pairs and dimensions",
 "Invariance over all candidates.",
 ["acetn/evolution/full_update.py:gauge_fix","acetn/evolution/full_update.py:finalize_reduced_tensors"])
p("Each ALS half-step is optimal and the cost never increases",
 "Each half-step of the alternating solver returns a minimiser of the cost over the tensor being solved for, so the cost reported along the iteration never increases.",
 "all positive norms, targets, starting points, iteration counts, regularisation strengths",
 "Optimality is against every competitor; monotonicity over every iteration.",
 ["acetn/evolution/als_solver.py:solve_a1r","acetn/evolution/als_solver.py:solve_a2r","acetn/evolution/als_solver.py:calculate_cost"])
p("The ALS loop stops when documented and both backends stop at the same iteration",
 "The solver performs at least three iterations (if allowed) and at most als_niter, stops early only when the relative cost change is below als_tol, and the PyTorch and cuTENSOR loops return the same pair when their linear algebra agrees.",
 "all iteration limits, tolerances, cost sequences",
 "Quantifies over all cost histories, including zero and negative costs.",
 ["acetn/evolution/als_solver.py:solve_torch","csrc/evolution/als_solve.cpp"])
p("The ALS starting point is the truncated SVD of the target",
 "The initial pair multiplies to the best rank-bD truncation of the gate-applied tensor, up to a positive factor, in real and complex dtypes.",
 "all targets, dimensions and dtypes",
 "Identity over all tensors, complex ones in particular.",
 ["acetn/evolution/als_solver.py:initialize_reduced_tensors"])
p("Finalising a bond update preserves the two-site tensor",
 "The final rebalancing of the reduced tensors leaves their product unchanged up to a positive factor and makes both factors carry the same weights on the bond.",
 "all reduced tensors, dimensions and dtypes",
 "Identity over all values.",
 ["acetn/evolution/full_update.py:finalize_reduced_tensors"])
p("A bond update is exact when nothing has to be truncated",
 "If the gate-applied two-site tensor still fits in the bond dimension (in particular for dtau = 0) the full update returns tensors whose two-site product is the gate-applied one up to a positive factor.",
 "all tensors, gates, positive norms and dimensions",
 "Universally quantified fixed-point statement.",
 ["acetn/evolution/full_update.py:tensor_update","acetn/evolution/als_solver.py"])
p("A simple update is an optimally truncated, normalised split",
 "Without truncation a simple update multiplies back to the gate-applied tensor up to a positive factor; the new bond weights are non-negative, sorted, at most one and have unit fourth-power sum; the environment weights put in are taken out again.",
 "all tensors, gates, weights and dimensions",
 "Identity over all values.",
 ["acetn/evolution/simple_update.py:tensor_update"])
p("Absorbing and stripping bond weights is the identity",
 "Absorbing the environment weights into a site tensor and stripping them again returns the same tensor.",
 "all tensors, weights and directions",
 "Fails only for extreme weights no test would choose.",
 ["acetn/evolution/lambda_tensors.py:absorb","acetn/evolution/lambda_tensors.py:strip"])
p("A bond update stores both updated tensors",
 "After a bond update the first site of the bond holds the first updated tensor and the second site the second one.",
 "all lattices and bonds",
 "Breaks only on lattices where the two ends of a bond are the same site.",
 ["acetn/evolution/fast_full_update.py:bond_update","acetn/evolution/simple_update.py:bond_update"])
p("Randomised SVD is a projected SVD and is exact on captured matrices",
 "The randomised SVD returns orthonormal factors and non-negative singular values whose product is the orthogonal projection of the input onto the sampled subspace; if the random sample captures the range the result is an exact SVD, whatever the number of power iterations.",
 "all matrices, target ranks, iteration counts and random draws",
 "Holds for every random draw; tests sample a few.",
 ["acetn/linalg/svd_lowrank.py"])
p("Fused randomised SVDs agree with the unfused one",
 "The fused two-matrix routine returns exactly what the plain routine returns on the product matrix for the same random draw; the fused four-matrix routine returns a projected SVD of the product.",
 "all matrices, sizes, random draws and iteration counts",
 "Equality over all inputs and draws.",
 ["acetn/linalg/fused_matmul_svd_lowrank.py","acetn/linalg/fused_3matmul_svd_lowrank.py"])
p("Boundary projectors resolve the identity on the kept subspace",
 "The two projectors of a cut are biorthogonal up to one common positive factor, inserting them in the cut reproduces the truncated environment, and reproduces it exactly when its rank does not exceed chi; this holds for half- and full-system projectors, full-rank and randomised, real and complex dtypes.",
 "all environments, chi, dtypes and SVD routines meeting their contract",
 "Identity over all environments.",
 ["acetn/renormalization/projectors.py"])
p("Density matrices are the contraction of the whole network",
 "The site and bond density matrices equal the single sum over all internal indices of the product of all tensors around the site or bond, regardless of the contraction order used.",
 "all dimensions and tensors, all directions",
 "Equality of contraction orders for all values.",
 ["acetn/measurement/rdm.py"])
p("Expectation values are normalised, linear and independent of tensor scale",
 "The expectation value of the identity is one, expectation values are linear in the operator, adding a constant to a Hamiltonian term shifts its energy by that constant, and rescaling any site or boundary tensor by a positive factor changes nothing.",
 "all networks, operators and scale factors",
 "Universally quantified algebraic laws.",
 ["acetn/measurement/measure.py:measure_one_site","acetn/measurement/measure.py:measure_two_site","acetn/measurement/rdm.py"])
p("measure reports per-site averages under the requested names",
 "`measure` returns the energy per site and, for every observable name, its average over all sites (or bonds); results do not depend on the order of the bond list, and no observable overwrites another result.",
 "all lattices, models, observable dictionaries, bond orders",
 "Name collisions and site-dependent dictionaries are unbounded input choices.",
 ["acetn/measurement/measure.py"])
p("Product states have the expected expectation values",
 "For a network that is a product of site states, measuring a one-site operator O on a site in state s gives <s|O|s>/<s|s> whatever the boundary tensors are, as long as the norm is nonzero.",
 "all site states, operators and boundary tensors",
 "Quantifies over all states, complex ones included.",
 ["acetn/measurement/measure.py:measure_one_site","acetn/measurement/rdm.py:build_site_rdm","acetn/ipeps/site_tensor.py:initialize_site_tensor"])
p("A freshly initialised network has positive density matrices",
 "Before any renormalization the site density matrices of a network are Hermitian positive semidefinite with positive trace, so measuring is well defined and expectation values of Hermitian operators are real and bounded by the operator's extremal values.",
 "all site tensors and dimensions",
 "Positivity over all tensors.",
 ["acetn/ipeps/site_tensor.py:initialize_corner_tensors","acetn/ipeps/site_tensor.py:initialize_edge_tensors","acetn/measurement/rdm.py:build_site_rdm"])
p("A bond looks the same from both of its ends",
 "The bond density matrix computed from the first site in direction k equals the one computed from the second site in the opposite direction with the two sites exchanged.",
 "all networks, bonds and directions",
 "Equality of two contractions for all values.",
 ["acetn/measurement/rdm.py:build_bond_rdm"])
p("Renormalised boundary tensors are normalised",
 "Every boundary tensor written by a move has Frobenius norm one provided the contraction is nonzero, and equals the contraction up to a positive factor.",
 "all tensors and projectors",
 "Holds for all values.",
 ["acetn/renormalization/directional_mover.py:renormalize_cj1","acetn/renormalization/directional_mover.py:renormalize_cj2","acetn/renormalization/directional_mover.py:renormalize_ej"])
p("Initial site tensors are normalised product states with noise",
 "A newly initialised site tensor has unit norm, with zero noise it is exactly the normalised product state, and initial boundary tensors have unit norm.",
 "all dimensions, site states and random draws",
 "Holds for all draws and states.",
 ["acetn/ipeps/site_tensor.py:initialize_site_tensor"])
p("The process group lives as long as someone needs it",
 "In a distributed run collective operations of an Ipeps keep working as long as that Ipeps exists, whatever other Ipeps objects are created and destroyed.",
 "all sequences of creating and destroying Ipeps objects",
 "Object-lifetime interleavings.",
 ["acetn/ipeps/ipeps.py:__del__","acetn/utils/distributed.py"])
p("The native contraction planner parses expressions correctly",
 "For every expression 'm1,m2->m3' the native parser returns the three mode lists, rejects malformed expressions, and the strides it computes address row-major tensors: distinct in-range index tuples map to distinct offsets below the element count.",
 "all strings, all shapes",
 "All strings and all shapes.",
 ["csrc/linalg/contraction.h","csrc/linalg/contraction.cpp"])
p("The Neel initial state is antiferromagnetic",
 "The Heisenberg model's initial state puts opposite states at the two ends of every bond of the lattice.",
 "all lattice sizes",
 "Parity argument over all sizes; odd cells are the exception.",
 ["acetn/model/models/heisenberg.py:initial_site_state",TN+":build_bond_list"])
p("Reported timings are attributed to the right phase",
 "The per-phase run times logged by evolve attribute tensor-update time to the update and boundary-renormalization time to the boundary.",
 "all runs",
 "Labels are swapped consistently so no numeric test notices.",
 ["acetn/evolution/evolve.py:evolve","acetn/evolution/fast_full_update.py:bond_update","acetn/utils/benchmarking.py:record_runtime"])
p("Invalid settings are rejected when used",
 "An unknown update type, projector type, SVD type, or solver method raises an error at the latest when the corresponding computation starts and leaves the network unchanged.",
 "all setting strings",
 "All strings.",
 ["acetn/evolution/evolve.py:create_tensor_updater","acetn/renormalization/projectors.py:set_calculate","acetn/evolution/als_solver.py:solve_ar"])
p("A boundary move that truncates nothing is exact",
 "If the environment bond dimension is large enough for both cuts of a move (invertible half environments, no singular value at or below the cut-off), the density matrix measured on the receiving site after the move equals, up to a positive factor, the two-site density matrix measured before the move with the absorbed site traced out.",
 "all networks, directions, sites, SVD routines",
 "Equality of two contractions of arbitrary tensors through data-dependent projectors; a test with truncation error cannot tell a wrong index from truncation.",
 ["acetn/renormalization/directional_mover.py:renormalize_boundary","acetn/renormalization/projectors.py","acetn/measurement/rdm.py"])
p("After a bond update the environment is rebuilt from the new tensors",
 "A fast-full bond update stores the two new site tensors and changes no other one; it rewrites, once each, exactly the boundary tensors facing each other across the line of the bond, and at the bond itself those of each site are the ones of the other site with that site's new tensor absorbed. Every rank of a distributed run ends with the same result.",
 "all bonds and directions, cell sizes, projector kinds, tensors and update results",
 "Which column is absorbed into which side is a sign convention that a symmetric test state does not see, and wrap-around cells need all sizes.",
 ["acetn/evolution/fast_full_update.py:bond_update","acetn/evolution/fast_full_update.py:absorb_bond","acetn/evolution/fast_full_update.py:absorb_bond_dist"])
p("The native solver returns what the PyTorch solver returns",
 "With backend \"cutensor\", the alternating solver of the native extension returns the same two tensors as the PyTorch implementation for the same inputs and settings, and raises when that one raises.",
 "all tensor sizes, inputs, settings, numbers of iterations, contents of uninitialised memory",
 "The native code contracts raw memory with its own strides, plans and reused buffers and needs a GPU; agreement on sample inputs does not cover singular or reordered cases.",
 ["csrc/evolution/als_solve.cpp","csrc/evolution/als_tensors.cpp","csrc/linalg/contraction.h","csrc/linalg/cholesky_solve.h","acetn/evolution/als_solver.py"])
p("A bond update acts in the orientation of its bond",
 "The update of a bond in any of the four directions applies its two-site gate to the tensor of the first site in front and the tensor of the second site behind, contracted over the leg between them, leaves every other leg on its side, and applies the separate one-site gates to the physical index of their own site.",
 "all directions, tensors, dimensions, gates and tensor-update results",
 "A wrong rotation is invisible on states that are symmetric under it, which is what test states are; the statement is for every tensor.",
 ["acetn/evolution/tensor_update.py:update","acetn/evolution/tensor_update.py:bond_permutation","acetn/ipeps/site_tensor.py:bond_permute"])
p("evolve renormalizes before and after the bond updates and stops at the first failure",
 "A call of evolve with any model initialises the site tensors if needed, renormalizes the boundary, performs the bond updates and renormalizes the boundary of the evolved network, and this is all it does; if one of the steps raises, the call raises the same exception and the later steps do not happen; if no model can be built nothing is touched.",
 "all networks, models (with or without parameters), settings and failures",
 "Quantifies over all computations and failures, including the interplay with the start message.",
 ["acetn/ipeps/ipeps.py:evolve","acetn/utils/logger.py:log_evolve_start_message"])
p("A distributed process is set up exactly when it can be served, on its own GPU",
 "With more than one process, constructing an Ipeps succeeds exactly on the devices cpu and cuda with at least as many devices as processes, otherwise it raises; an Ipeps on cuda works on the GPU whose number is the rank of the process, at any point of its life.",
 "all environments and all histories of constructions, failures and destructions",
 "Needs several GPUs and histories with several objects.",
 ["acetn/utils/distributed.py:setup_distributed","acetn/utils/distributed.py:setup_process_group","acetn/utils/distributed.py:get_device_count"])
p("The projectors of a cut are computed from the block of sites around it",
 "The quarter tensor of a site in a direction is the corner, the two edges and the ket and bra layers of the site in that part of a 2x2 block, contracted along every common leg; a projector computation of a move takes the four quarter tensors of the four sites of one 2x2 block containing the cut, each at its own position, so that their closed product is the norm of the block.",
 "all directions, sites, cell sizes (with wrap-around), tensors and dimensions",
 "A wrong corner, edge, rotation or missing conjugation still yields valid projectors, which merely converge to something else; symmetric or real test states do not see it.",
 ["acetn/renormalization/projectors.py:make_quarter_tensor","acetn/renormalization/projectors.py:calculate_full_system","acetn/renormalization/directional_mover.py:calculate_left_projectors"])
p("Renormalization without truncation is exact for whole clusters",
 "If no move of a CTMRG run truncates (full column rank of the cut environments, environment dimension at least that rank, no singular value at or below the cut-off), the density matrices of every site and bond after the run are, up to a positive factor that drops out of all measured values, those of a finite rectangle of the infinite lattice surrounded by the boundary tensors at the start of the run; after n sweeps that rectangle contains every site up to distance n. For complex tensors this is claimed for half-system projectors and for full-system projectors with full-rank SVD (see the properties on complex projectors for the remaining kind); for real tensors for all kinds.",
 "all cell sizes, tensors, dimensions, sequences of moves of any length, numbers of sweeps, SVD routines and random draws",
 "A test only sees that iterations converge to something; that what is collected is exactly the lattice, with every site once and in its place, for runs of every length, needs an invariant on arbitrary tensors.",
 ["acetn/renormalization/ctmrg.py:ctmrg","acetn/renormalization/directional_mover.py","acetn/renormalization/projectors.py","acetn/measurement/rdm.py"])
p("Fresh and untruncated environments describe a finite patch of the state",
 "With freshly initialised boundary tensors, the density matrix of a site or a bond is, up to a positive factor, the reduced density matrix of the pure state of a finite patch: the site (or bond) in a ring of copies of its neighbouring site tensors whose outer legs are left open. After moves without truncation the patch has grown by the absorbed rows and columns. Hence these density matrices are Hermitian and positive semidefinite, the norm a measurement divides by is not negative and is zero only if the patch state vanishes, and measured values of Hermitian operators lie between the smallest and the largest eigenvalue of the operator.",
 "all cell sizes, nonzero site tensors, bond and physical dimensions, sequences of moves of any length and numbers of sweeps without truncation",
 "A statement about arbitrary tensors and about patches of every size; a sampled state has positive values even if a layer or a leg is wrong.",
 ["acetn/ipeps/site_tensor.py:initialize_corner_tensors","acetn/ipeps/site_tensor.py:initialize_edge_tensors","acetn/renormalization/ctmrg.py:ctmrg","acetn/measurement/rdm.py","acetn/measurement/measure.py"])
p("Product states are measured exactly",
 "For site tensors with bond dimension one, after any number of sweeps from fresh boundary tensors and with any environment dimension, projector kind, cut-off below one and SVD setting, the run raises nothing and the one-site and two-site values are exactly the expectation values in the product of the site vectors, site and neighbour each in their place; for operators that are not symmetric matrices they are those of the transposed operator, see the property on measured operators. For complex tensors the combination of full-system projectors with the randomised SVD is excluded; draws must not vanish.",
 "all cell sizes, site vectors, physical dimensions, numbers of sweeps, settings, SVD routines and nonvanishing random draws",
 "Every state, every operator and every number of sweeps; sampled uniform states do not see which neighbour is measured.",
 ["acetn/ipeps/site_tensor.py","acetn/renormalization/ctmrg.py:ctmrg","acetn/renormalization/projectors.py","acetn/measurement/rdm.py","acetn/measurement/measure.py"])
p("The sample models are the lattice models they are named after",
 "With the spins of a cell drawn at their places in the plane, the honeycomb and kagome sample models couple exactly the nearest neighbours of the honeycomb and kagome lattice, each pair once, with strength -jz, and put the field -hx on every spin; the terms of a bond do not depend on the direction in which it is traversed; the observables are the magnetisations of the single spins. The compass sample couples x components on horizontal and z components on vertical bonds.",
 "all couplings, cells, directions, real and complex dtype",
 "A test compares matrices with matrices copied from the code; that the pattern of couplings is the lattice in the name, with no pair missing, doubled or attached to the wrong spin, is a statement about the infinite lattice.",
 ["samples/04_compass_model.py","samples/05_honeycomb_ising.py","samples/06_kagome_ising.py","acetn/model/model.py:bond_direction"])
p("Evolution is a second-order splitting of imaginary-time evolution",
 "If the bond updates apply their gates without truncation, then for a fixed total time the operator applied by evolve(dtau, steps) differs from exp(-steps*dtau*H) by at most a constant times dtau squared, for every number of steps, even or odd, and in whichever direction the bond list stands at the start; H is the Hamiltonian of the lattice (one-site terms included, for models that give them on every site or on none). The matrices of the model enter transposed, as in measurements, so for symmetric matrices H is the given Hamiltonian.",
 "all cell sizes from 2 x 2, models, finite lattices of copies of the cell, total times, step counts and time steps",
 "An order of convergence is a statement about all small time steps and about all step counts; with a bond list that is not reversed, or gates with a wrong factor on the one-site terms, a single run still looks plausible.",
 ["acetn/evolution/evolve.py:evolve","acetn/evolution/gate.py","acetn/evolution/full_update.py:update_reduced_tensors","acetn/evolution/simple_update.py"])
p("The norm is regularised in the same way when the eigensolver fails",
  "Whichever calls of the eigensolver raise, the positive approximation ends (for a Hermitian norm tensor after at most one test of the condition more than the matrix has rows, whatever the cutoff), returns a Hermitian norm tensor with eigenvalues at least the cutoff, leaves a norm tensor that was positive already unchanged, and otherwise only adds a multiple of the identity.",
  "all norm tensors, dimensions, cutoffs and patterns of failing calls",
  "eigh fails on rare ill-conditioned input that a test cannot provoke, and the number of passes must be bounded for every spectrum.",
  ["acetn/evolution/full_update.py:positive_approx"])

p("A bond update without truncation lowers the measured energy of the bond",
  "Measured operators and gates are contracted with the state in the same way: applying an operator O to a bond as the updates apply gates turns the measured density matrix rho into O^H rho O. Hence, if the density matrix of a bond is positive, the model Hermitian and dtau not negative, a bond update that loses nothing by truncation never raises the energy of that bond measured in the same boundary tensors, lowers it strictly if dtau is positive and the energy has a variance, and keeps the norm positive. This holds for the simple update (weights of a real dtype that are not below the cut-off) and for the full update of real tensors without regularisation of the solver.",
  "all networks, bonds with different ends, bond and physical dimensions, Hermitian models, time steps, linear algebra libraries and settings",
  "The decrease for every state and model is what convergence to the ground state rests on; a gate transposed relative to the measurement is invisible for the usual real symmetric Hamiltonians.",
  ["acetn/evolution/gate.py","acetn/evolution/full_update.py:tensor_update","acetn/evolution/simple_update.py:bond_update","acetn/measurement/rdm.py:build_bond_rdm","acetn/measurement/measure.py:measure_two_site"])

p("Measured values do not depend on how the SVD is computed",
 "Singular vectors are only determined up to phases and rotations among equal singular values, so libraries and devices return different ones. Two runs of the same moves or sweeps with SVD routines that make different choices (full-rank, or randomised with a draw that captures the environment) end with density matrices that agree up to a positive factor, hence with the same one-site and two-site values, also when bonds are truncated, provided that at every cut the smallest singular value that is kept is larger than the largest that is discarded.",
 "all cell sizes, tensors, bond and physical dimensions, environment dimensions, sequences of moves of any length, numbers of sweeps, projector kinds and pairs of SVD routines",
 "A test runs with one library; the statement compares all pairs of admissible choices at every cut of runs of every length.",
 ["acetn/renormalization/projectors.py:svd","acetn/renormalization/directional_mover.py","acetn/renormalization/ctmrg.py:ctmrg","acetn/measurement/measure.py"])
p("Density matrices stay exactly Hermitian through truncation",
 "Starting from fresh boundary tensors, after any sequence of moves and of writes of site tensors (so after any evolution and any number of sweeps), with full-rank SVD (or a randomised one whose draws capture the environments) and a drop of the singular values at every cut, the density matrices of all sites and bonds are Hermitian; so norms and expectation values of Hermitian operators are real and nothing is lost when measure takes real parts.",
 "all cell sizes, tensors, dimensions, environment dimensions, sequences of moves and writes of any length, projector kinds and SVD routines",
 "Nothing in the code makes the projectors symmetric between the two layers, and an error would be hidden by the real part that is taken; that the symmetry survives every truncation is an invariant over runs of all lengths.",
 ["acetn/renormalization/projectors.py","acetn/renormalization/directional_mover.py","acetn/ipeps/site_tensor.py:initialize_corner_tensors","acetn/measurement/rdm.py","acetn/measurement/measure.py"])
p("Equivalent tensors give equivalent measured values",
 "If the site tensors of two networks differ by unitary changes of basis on the horizontal and the vertical bonds, by a unitary change of the physical basis on every site, by positive factors and possibly by complex conjugation of the whole state, then after any number of truncated sweeps from fresh boundary tensors (full-rank SVD or captured environments, drop of the singular values at every cut) the density matrices differ by the change of the physical basis and positive factors only; the value of an operator in one network is the value of the turned operator in the other.",
 "all cell sizes, tensors, dimensions, environment dimensions, changes of basis, numbers of sweeps, projector kinds and SVD routines",
 "Compares two runs for every change of basis and every truncation; a dependence on the basis (a missing conjugation, a transposed projector) does not show on real symmetric test states.",
 ["acetn/ipeps/site_tensor.py","acetn/renormalization/projectors.py","acetn/renormalization/ctmrg.py:ctmrg","acetn/measurement/rdm.py","acetn/measurement/measure.py"])
p("An evolution without truncation evolves the many-body state of the lattice",
 "Consider the quantum state on a finite lattice of copies of the cell in which every copy of a site carries the site tensor of the network. If the gate-applied two-site tensors of a run fit in the bond dimension, then evolve(dtau, steps) turns this state, up to a positive factor, into exp(-steps*dtau*H) applied to it with an error of at most a constant times dtau squared, relative to the initial state; the constant depends on the model, the lattice and the total time only. This holds for the simple update (weights that can be divided out) and for the full update of real tensors without regularisation of the solver.",
 "all cell sizes from 2 x 2, finite lattices covering the cell, models with one-site terms everywhere or nowhere, tensors, bond and physical dimensions, total times, step counts, time steps, linear algebra libraries",
 "Bond updates change two tensors of the cell, but the state in all copies at once; that the local updates compose to the evolution of the whole state is a statement about exponentially large vectors for every lattice.",
 ["acetn/evolution/evolve.py:evolve","acetn/evolution/fast_full_update.py:bond_update","acetn/evolution/full_update.py:tensor_update","acetn/evolution/simple_update.py:bond_update","acetn/evolution/gate.py"])
p("Random draws are harmless with probability one for low ranks",
 "For a random matrix with independent entries of any distribution without atoms (torch.randn, real or complex) and a matrix whose rank is at most the requested number of columns, the randomised SVD routines return, with probability one, a singular value decomposition of the matrix itself, for any number of power iterations; for larger ranks no draw does. Hence with svd_type rsvd and half-system projectors the projectors are, with probability one, biorthogonal and project the environment for every nonzero environment, and are optimal if the rank of the environment is at most chi + rsvd_oversampling.",
 "all matrices, sizes, requested ranks, numbers of iterations, linear algebra libraries and distributions without atoms",
 "Tests see a few seeds; that the exceptional draws have probability zero is a statement about a null set in the space of all draws.",
 ["acetn/linalg/svd_lowrank.py","acetn/linalg/fused_matmul_svd_lowrank.py","acetn/linalg/fused_3matmul_svd_lowrank.py","acetn/renormalization/projectors.py:calculate_half_system"])
p("Power iterations make the randomised SVD and its projectors optimal",
 "The squared Frobenius error of the randomised SVD is at most that of the best approximation of rank k, for every k for which the sample of the k leading right singular vectors has a right inverse, plus a sum of terms with the factor (s_i/s_j)^(4*niter), i after and j among the first k singular values. With probability one its limit superior for growing niter is at most the best error of rank k, for every k up to the requested rank and every spectrum, also with degenerate singular values. Inserting half-system projectors made with it is as good as any truncation to the same dimension up to the error of the randomised SVD.",
 "all matrices, singular spectra, draws, numbers of iterations, requested ranks, linear algebra libraries and distributions without atoms",
 "A quantitative bound for every draw and every number of iterations, and a limit with probability one.",
 ["acetn/linalg/svd_lowrank.py","acetn/linalg/fused_matmul_svd_lowrank.py","acetn/linalg/fused_3matmul_svd_lowrank.py","acetn/renormalization/projectors.py:calculate_half_system"])
p("Runs with random numbers measure the same values with probability one",
 "A run of moves or sweeps with svd_type rsvd draws new random matrices at every cut of every move, and the environments it meets depend on the numbers drawn before. If in the run with full-rank SVD the ranks of the environments that are cut are at most chi + rsvd_oversampling and the singular values drop where they are cut off, then with probability one the run with random numbers never fails and ends with density matrices that agree with those of the full-rank run up to positive factors, hence with the same measured values. The rank condition always holds from fresh boundary tensors if chi * D^2 is at most chi + rsvd_oversampling and D^2 at most chi. (Half-system projectors, or full-system projectors of real tensors.)",
 "all cell sizes, tensors, dimensions, sequences of moves of any length, numbers of sweeps, numbers of power iterations, random distributions without atoms, linear algebra libraries",
 "Tests see a few seeds; the statement is about the null set of all sequences of draws of a run of any length, in which later matrices depend on earlier draws.",
 ["acetn/linalg/svd_lowrank.py","acetn/linalg/fused_matmul_svd_lowrank.py","acetn/linalg/fused_3matmul_svd_lowrank.py","acetn/renormalization/projectors.py","acetn/renormalization/ctmrg.py:ctmrg"])
p("The printed tables show every value under its name",
 "measure prints a table with a line for every site (and one for every bond). In the line of a site the number under the name of an observable is the value of that observable on that site, provided all sites have the same observables; the averages printed at the end are those that are returned, and printing does not change what is returned or raised.",
 "all models, names and orders of observables, lattices, values and number formats without tabs",
 "Headings come from one site and numbers from another; that they agree for all dictionaries and all names is a statement about the text for every model.",
 ["acetn/measurement/measure.py:measure","acetn/measurement/measure.py:calculate_one_site_measurements","acetn/measurement/measure.py:calculate_two_site_measurements","acetn/measurement/measure.py:measure_site_observables"])
p("The log level and the compiled extension are optional",
 "ACETN_LOG_LEVEL selects, in any letter case, the messages that are shown, INFO without it, and the timing report of evolve appears exactly with DEBUG; any other value leaves the package usable. In debug mode messages also go to the log file. The compiled extension is used exactly if it can be loaded, and importing the package never fails because of it.",
 "all values of the variable, all outcomes of loading the extension",
 "Happens once at import and depends on the environment of the process; tests run in one environment.",
 ["acetn/utils/logger.py:Logger","acetn/evolution/_extensions/__init__.py","acetn/evolution/evolve.py"])
p("Timing a function does not change what it does",
 "A function with @record_runtime is called once with the same arguments and state; an exception passes through, otherwise its values come back in order, followed by the time. A function with @record_runtime_ave is called num_warmup + num_record times up to the first exception, the values of the last call come back, followed by the mean of the times of the last num_record calls. Timed functions run without gradient tracking.",
 "all functions, states, exceptions, return values, numbers of calls and measured times",
 "The evolution runs inside these decorators; transparency has to hold for every function, side effect and exception.",
 ["acetn/utils/benchmarking.py:record_runtime","acetn/utils/benchmarking.py:record_runtime_ave"])
p("A long evolution without truncation reaches the ground state of the lattice",
 "If the state of the network on a finite lattice of copies of the cell is not orthogonal to the ground states of the Hamiltonian of the model, there is a ground state such that, for every accuracy, all runs of evolve that are long enough, have a small enough time step for their length, raise nothing and need no truncation end in a state that, normalised, is as close to this ground state as wanted, with an energy that is never below the lowest one and as close to it as wanted. This holds for the simple update (weights that can be divided out) and for the full update of real tensors without regularisation of the solver.",
 "all cell sizes from 2 x 2, finite lattices covering the cell, Hermitian models with one-site terms everywhere or nowhere, starting networks, bond and physical dimensions, accuracies, step counts, time steps, linear algebra libraries",
 "A limit of runs of any length with ever smaller time steps, on exponentially large vectors; a test sees one run whose energy it compares with a reference value.",
 ["acetn/evolution/evolve.py:evolve","acetn/evolution/fast_full_update.py:bond_update","acetn/evolution/full_update.py:tensor_update","acetn/evolution/simple_update.py:bond_update","acetn/evolution/gate.py"])
p("The simple update does not depend on bases or on the decompositions of the library",
 "evolve with the simple update, run on two networks that are the same in other bases (a unitary on every bond and on every physical index, or everything complex conjugated) with models that are the same in these physical bases, and with libraries that return different QR decompositions and SVDs, raises the same exception or none and leaves networks that are again the same in other bases, with the same physical bases. On every finite lattice of copies of the cell the two states are the same in the physical bases up to a positive factor. In particular, two libraries give the same expectation values for all operators. Provided no gate annihilates a two-site tensor and no discarded singular value equals a kept one.",
 "all cells from 2 x 2, networks, bond and physical dimensions, unitaries, models, step counts, time steps, orders of the bonds, linear algebra libraries, finite lattices covering the cell",
 "SVD phases, signs and the bases in degenerate spaces differ between libraries and devices; a test runs one library and cannot separate such differences from errors.",
 ["acetn/evolution/simple_update.py","acetn/evolution/lambda_tensors.py","acetn/evolution/evolve.py:evolve","acetn/evolution/gate.py"])
p("The full update does not depend on bases or on the decompositions of the library",
 "Two runs on real tensors, each with fresh boundary tensors, sweeps of the renormalization, evolve with the full update (every bond with the moves that absorb it) and further sweeps. The second one starts from the same state in other bases (of the bonds and of the physical indices), has the gates in these bases, and may use a library that returns other QR decompositions, SVDs and eigenvectors, and other random numbers. Then both raise the same exception or none and end with density matrices that are the same in the physical bases up to positive factors, hence with the same measured values; in particular two libraries measure the same values from the same start. Provided cutting off singular values is unambiguous along the first run, and the solver is pinv or als_epsilon is zero; with als_epsilon > 0 and Cholesky decompositions the bases may differ by signs, as those of libraries with triangular R factors do (the regularisation itself depends on the basis).",
 "all cells from 2 x 2, real tensors, bond and physical dimensions, chi, gates, settings of the solver and projectors, numbers of sweeps and steps, orders of the bonds, linear algebra libraries, random numbers that capture the environments",
 "Signs and bases of decompositions differ between devices and library versions, and enter a long chain of nonlinear steps; a test runs one library and compares with stored numbers.",
 ["acetn/evolution/fast_full_update.py:bond_update","acetn/evolution/full_update.py","acetn/evolution/als_solver.py","acetn/evolution/tensor_update.py:update","acetn/evolution/evolve.py:evolve","acetn/renormalization/directional_mover.py"])
p("Whole programs with the full update return, and evolve the state of the lattice in imaginary time",
 "A program that initialises the boundary tensors, sweeps the renormalization, evolves with the full update, where every bond update is followed by the moves that absorb the bond, sweeps again and measures can read all site and bond density matrices, even if the evolution stopped with an exception (a failed Cholesky decomposition); with the pseudo-inverse as solver nothing raises. For real tensors and als_epsilon = 0, whatever the boundary tensors, truncations of the environment and random numbers are: if the gate-applied two-site tensors fit in the bond dimension, the tensors the program leaves describe, on every finite lattice of copies of the cell, the initial state evolved for the time steps*dtau, up to a positive factor and an error of second order in dtau; long runs end as close to a ground state as wanted. Every single bond update leaves the tensors of the sites off the bond as they are, leaves all site tensors as they are if it raises, and otherwise leaves tensors of norm one (or zero) at the two sites.",
 "all cells (from 1 x 1 for returning, from 2 x 2 for the evolution), tensors, bond and physical dimensions, chi, models, settings of solver and projectors, numbers of sweeps and steps, time steps, random numbers, linear algebra libraries, finite lattices covering the cell",
 "Shapes of boundary tensors change in every move, and errors of the environment must not reach the state; a test runs one model and one set of dimensions.",
 ["acetn/evolution/fast_full_update.py:bond_update","acetn/evolution/full_update.py:tensor_update","acetn/evolution/tensor_update.py:update","acetn/evolution/evolve.py:evolve","acetn/renormalization/ctmrg.py:ctmrg","acetn/measurement/rdm.py"])
p("Truncating evolutions are off by no more than the sum of the errors of their bond updates",
 "The error of a bond update is the distance, up to positive factors, of the state after it on a finite lattice of copies of the cell from the gate of the bond, on all its copies, applied to the state before, relative to the norm of the latter. For every model and total time there are constants K and C such that every run of evolve for at most this time that raises nothing leaves a state whose distance, up to positive factors, from exp(-steps*dtau*H) applied to the start is at most K dtau^2 + C (exp(x) - 1) times the norm of the start, where x is the sum of the errors of the bond updates. This holds for every way to update bonds, hence for simple and full updates, all dtypes and all settings, and for whole programs with sweeps before and after; with the pseudo-inverse the full update never raises. Updates without truncation have no error. If the model is Hermitian and the start is not orthogonal to the ground states, long runs with a small time step and a small x end as close to a ground state as wanted.",
 "all cells from 2 x 2, finite lattices covering the cell, models with one-site terms everywhere or nowhere, starts, bond and physical dimensions, chi, settings of solver and projectors, numbers of sweeps and steps, time steps, orders of the bonds, linear algebra libraries, random numbers",
 "Says that errors of single truncations do not get amplified by later updates by more than a constant that does not depend on the run; about exponentially large vectors and runs of any length.",
 ["acetn/evolution/evolve.py:evolve","acetn/evolution/simple_update.py:bond_update","acetn/evolution/fast_full_update.py:bond_update","acetn/evolution/full_update.py:tensor_update","acetn/evolution/tensor_update.py:update","acetn/evolution/gate.py"])
p("Scripts of calls on one Ipeps object keep working, and reach the state that their evolutions aim at",
 "After any sequence of calls of set_chi, renormalize and evolve on one object, with settings, models and updates that change from call to call and exceptions that are caught, set_chi and (with projectors that exist) renormalize raise nothing, neither does evolve with the pseudo-inverse or with the simple update of a real dtype, and measure returns the energy per site and the averages of the observables for models whose dictionaries are as in C48. A script that raises nothing and evolves for given times with given models, one after the other, ends with the state of every finite lattice of copies of the cell that these evolutions give exactly, up to a positive factor and any accuracy, if its time steps and the sum of the errors of its bond updates are small enough; calls in between do not matter. The first evolve decides the start. Renormalisations with at least one sweep leave no boundary tensor with a dimension larger than the chi last asked for, and use the projectors and truncation settings of the configuration at the time of the call. With one Hermitian model and a long enough total time it ends near a ground state.",
 "all cells (from 1 x 1 for returning, from 2 x 2 for the evolution), scripts of any length, settings, models, tensors, dtypes, dimensions, random numbers, linear algebra libraries, finite lattices covering the cell",
 "Scripts go through annealing schedules, change chi and go from simple to full updates; tests run one short script. State left behind by one call (reversed bond list, boundary tensors of another chi) is read by the next.",
 ["acetn/ipeps/ipeps.py","acetn/ipeps/tensor_network.py:initialize_site_tensors","acetn/evolution/evolve.py:evolve","acetn/renormalization/ctmrg.py:ctmrg","acetn/measurement/measure.py:measure","samples/01_tf_ising.py","samples/07_simple_update.py"])
p("Checkpointed runs: files bring back the saved state, and resumed runs reach what one long run aims at",
  "In scripts that save, load and restart in new processes between their other calls, save never raises, load raises exactly if no file of that name has been saved, and everything else keeps returning as in C88. After save(f) and any further commands that do not save to f, also in another process with another boundary dimension, load(f) brings back every site tensor, corner and edge, all density matrices and the energy and averages measure gives. A script that evolves, saves, loads and restarts as intended, with time steps and a sum of the errors of its bond updates that are small enough, ends with the state of the lattice these evolutions give exactly, a load going back to the state at the save; in particular a run cut into several processes, each loading the file of the one before, reaches what the same evolutions reach in one process. A saved object counts as initialised.",
  "all cells (from 1 x 1 for returning and the round trip, from 2 x 2 for the evolution), scripts of any length, files, settings, models, tensors, dtypes, dimensions, random numbers, linear algebra libraries, finite lattices covering the cell",
  "Long simulations are cut at arbitrary points and resumed with other settings; tests save and load once. That nothing outside the file (bond order, chi, random numbers) matters is a statement about all continuations.",
  ["acetn/ipeps/tensor_network.py:save", "acetn/ipeps/tensor_network.py:load", "acetn/ipeps/ipeps.py:evolve", "acetn/ipeps/ipeps.py:__init__"])

p("Whole sessions on several ranks: the ranks stay in step, and reach what a single process reaches",
  "On every number of ranks for which the work can be shared (C13), provided the ranks create the same site tensors (same noise, C14), a script of set_chi, renormalize and evolve calls that does not raise on a single process does not raise on any rank; at the end all ranks hold the same object, and measure returns the same dictionary on all of them, although each rank draws random numbers of its own for its projectors. With the half-system projectors the ranks end with exactly the object, exceptions and measured values of a single process whose random numbers have each been drawn by one of the ranks. With both kinds of projectors a script that makes the intended evolutions with time steps and a sum of the errors of its bond updates that are small enough ends on every rank with the state of the lattice these evolutions give exactly, and, for one Hermitian model and a long enough total time, near a ground state.",
  "all numbers of ranks for which the sharing works, all cells (from 1 x 1 for returning and the comparison, from 2 x 2 for the evolution), scripts of any length, settings, models, tensors, dtypes, dimensions, random numbers per rank, linear algebra libraries, finite lattices covering the cell",
  "Runs on several GPUs cannot be part of unit tests, and ranks that drift apart show up late in long runs; that no sequence of calls lets them drift is an invariant over all scripts.",
  ["acetn/ipeps/ipeps.py","acetn/renormalization/directional_mover.py","acetn/evolution/fast_full_update.py:bond_update","acetn/evolution/fast_full_update.py:absorb_bond_dist","acetn/renormalization/ctmrg.py:ctmrg"])

p("The full update compares true states: its cost is the distance from the state of a patch after the gate",
  "With freshly initialised boundary tensors, and after any moves or sweeps that truncate nothing, the norm tensor the full update builds at a bond consists of the overlaps of the states of a finite patch of the lattice around the bond, differing in the reduced tensors of the two sites; it is Hermitian and positive semidefinite. The cost the alternating solver minimises is, up to a positive factor and a constant, the squared distance of the trial state of this patch from the state after the gate. With als_epsilon = 0 an update that returns leaves, up to normalisation, a state that is at least as close to the gated state as every trial state with the second reduced tensor of the initial guess, and whose second reduced tensor is the best one for its first (if the positive approximation shifts the norm tensor by t times the identity, t times the squared distance of the two-site tensors counts too); if it shifts nothing the overlap of this state with the gated state, relative to the norm, is at least that of all these trial states. With the Cholesky method (the default) and any als_epsilon the second reduced tensor is still the best one for its first, if als_epsilon times the largest entry of the matrix that is inverted times the squared norm of the second tensor is added to the distance.",
  "all cells, bonds and directions, tensors that are not zero, real and complex, dimensions, two-site gates (the library wraps one-site terms into them), both solvers, gauge fixing off or with a gauge_fix_atol below the square root of positive_approx_cutoff times the reduced dimension (as in the defaults), tolerances, positive numbers of iterations, linear algebra libraries, sequences of moves without truncation",
  "The norm tensor is a contraction of ten tensors with sixteen legs in four rotated frames; that it is the Gram matrix of the states of a patch, of any size, is not visible in any single number a test could compare.",
  ["acetn/evolution/full_update.py:build_norm_tensor","acetn/evolution/full_update.py:tensor_update","acetn/evolution/als_solver.py:calculate_cost","acetn/evolution/als_solver.py:solve","acetn/evolution/tensor_update.py:decompose_site_tensors","acetn/evolution/tensor_update.py:recompose_site_tensors"])

p("Distributed runs can exchange their projectors on every device the set-up accepts",
  "Once the processes of a distributed run have been set up for a device, the exchange of projectors in the moves works: every rank receives the projectors of all ranks, in the order of the ranks, with their shapes (which may differ from rank to rank) and on the device its own tensors are on. This holds for every accepted device, and also for objects constructed later in the same processes.",
  "all numbers of ranks, processors and GPUs, shapes of projectors with four legs, contents",
  "Needs several processes and GPUs; a test on one machine sees one combination of backend, device and shapes.",
  ["acetn/utils/distributed.py:all_gather_tensor","acetn/utils/distributed.py:setup_distributed","acetn/utils/distributed.py:setup_process_group","acetn/renormalization/directional_mover.py:left_right_move_dist","acetn/renormalization/directional_mover.py:up_down_move_dist"])

p("Models may return tensors or Pauli expressions",
  "The hooks one_site_hamiltonian and two_site_hamiltonian of a model may return a torch.Tensor, the type their documentation names, or an expression of Pauli matrices; a one-site term may be None. Whichever they return, measure evaluates the matrices returned and evolve builds its gates from the same matrices.",
  "all models (bond- and site-dependent terms), physical dimensions, real and complex, lists of bonds and sites, time steps",
  "Hooks are written by users and may return another kind of object at every bond; the tests only use the built-in models, which all return Pauli expressions.",
  ["acetn/model/model.py:one_site_hamiltonian","acetn/model/model.py:two_site_hamiltonian","acetn/evolution/gate.py:build_one_site_gates","acetn/evolution/gate.py:build_two_site_gates","acetn/measurement/measure.py:measure_site_energy","acetn/measurement/measure.py:measure_bond_energy"])

p("With the default solver full updates return unless the gate annihilates the pair",
  "With als_method = cholesky, the default, a positive als_epsilon, at least one iteration and boundary tensors that give a positive norm tensor, the full update of a bond returns new site tensors, and their contraction is not zero, unless the gate takes the pair of tensors to zero.",
  "all gates, tensors, real and complex, dimensions, norm tensors, settings of gauge fixing, tolerances, numbers of iterations, linear algebra libraries",
  "A Cholesky factorisation that fails aborts runs of hours; whether it can fail depends on the tensors of all iterations of all bonds, of which tests try a few.",
  ["acetn/evolution/als_solver.py:solve","acetn/evolution/als_solver.py:solve_ar","acetn/evolution/als_solver.py:initialize_reduced_tensors","acetn/evolution/full_update.py:tensor_update"])

p("With the default solver full updates that truncate nothing are exact up to an error proportional to als_epsilon",
  "With a real dtype, als_method = cholesky (the default) and at least one iteration, a full update of a bond whose gate-applied two-site tensor fits into the bond dimension and does not vanish returns, for every positive als_epsilon, site tensors whose contraction is, up to a positive factor, the gate-applied two-site tensor with a squared error of at most K times als_epsilon; K depends on the tensors, the boundary and the other settings, but not on als_epsilon, the tolerance or the rounding of the stopping criterion. The same holds with als_method = pinv for every als_epsilon below some positive bound. So the error can be made as small as desired. It is not zero in general: with cholesky, for some tensors no positive als_epsilon makes the update exact.",
  "all gates, real tensors, dimensions, boundary tensors, bonds, settings of gauge fixing (tolerance below the square root of positive_approx_cutoff times the reduced dimension, as in the defaults), tolerances, positive numbers of iterations, linear algebra libraries",
  "The regularisation acts in every half step of every iteration and scales with the tensors; that its effect on the result stays linear in als_epsilon, with one constant for all of them, is a statement about a limit, and tests run with one value.",
  ["acetn/evolution/als_solver.py:solve","acetn/evolution/als_solver.py:solve_ar","acetn/evolution/als_solver.py:initialize_reduced_tensors","acetn/evolution/full_update.py:tensor_update","acetn/evolution/full_update.py:finalize_reduced_tensors"])

p("Full updates are as good as the best truncation up to a fixed factor",
  "For every bond, pair of site tensors and boundary tensors, and settings with at least one iteration and a positive cutoff, there is a factor K such that for every gate, tolerance and als_epsilon the full update is as good as the best truncation up to K: up to a positive factor, the contraction of the returned site tensors is the gate-applied two-site tensor with a squared error of at most K times the sum of the least squared error that any two site tensors with the bond dimension can reach and als_epsilon times the squared norm. If some two site tensors come close enough to the gate-applied one (and als_epsilon is small enough for the method pinv, positive for cholesky), the update returns and the contraction of the returned tensors is not zero.",
  "all gates, tensors, dimensions, boundary tensors, bonds, als_epsilon, tolerances and roundings of the stopping criterion with one factor; all settings of gauge fixing (tolerance below the square root of positive_approx_cutoff times the reduced dimension, as in the defaults), numbers of iterations, linear algebra libraries",
  "A comparison with all tensors of the bond dimension; the alternating loop only finds local minima, and a test compares with a few candidates for a few gates.",
  ["acetn/evolution/als_solver.py:solve","acetn/evolution/als_solver.py:solve_ar","acetn/evolution/als_solver.py:initialize_reduced_tensors","acetn/evolution/full_update.py:tensor_update","acetn/evolution/full_update.py:gauge_fix","acetn/evolution/full_update.py:positive_approx","acetn/evolution/full_update.py:finalize_reduced_tensors"])

p("The error of the lattice state after an update is at most a factor times the best local error",
  "For every set of site tensors, bond of the cell and bound on the gate there is a factor D such that after every update of the bond that does not raise, with every gate within the bound, the state of the whole lattice, up to a positive factor, differs from the state with the gate applied on every copy of the bond by at most D times the least local error, the distance of the gate-applied two-site tensor from the nearest contraction of two site tensors with the bond dimension (plus the square root of als_epsilon for full updates with the regularised solver).",
  "all site tensors, dimensions, gates within the bound, bonds, cells of at least 2 x 2, finite lattices covering the cell, boundary tensors and moves after the update, tolerances, als_epsilon up to one, weights of the simple update, linear algebra libraries",
  "The copies of a bond interact through the whole lattice; that the error is linear in the local one, uniformly in all gates and truncations, is a statement about exponentially large states.",
  ["acetn/evolution/full_update.py:tensor_update","acetn/evolution/simple_update.py:tensor_update","acetn/evolution/als_solver.py:solve","acetn/evolution/tensor_update.py:update"])

p("Small time steps return and change the state by little",
  "For every bond whose two-site tensor is not zero there are a positive time step and a factor C such that an update of the bond with a shorter time step does not raise, leaves a two-site tensor that is not zero, and changes the state of the lattice, up to a positive factor, by at most C times the time step (plus the square root of als_epsilon for full updates with the regularised solver).",
  "all models, site tensors, dimensions, bonds, boundary tensors, cells of at least 2 x 2, finite lattices covering the cell, time steps below the bound, als_epsilon up to one (below the bound for the method pinv), tolerances, weights of the simple update, linear algebra libraries",
  "A statement about a limit; whether the truncation of every nearly unchanged state returns to that state depends on all tensors, and tests run with one time step.",
  ["acetn/evolution/gate.py:calculate_gate","acetn/evolution/full_update.py:tensor_update","acetn/evolution/simple_update.py:tensor_update","acetn/evolution/als_solver.py:solve"])

p("A symmetry of the model and of the initial state survives the evolution",
  "If a change of the physical basis on every site (for instance a flip of all spins, or also, for the simple update and the renormalization, complex conjugation) maps the model to itself and the initial state to itself, that is the site tensors to the same tensors in other bases of the bonds, then it maps the evolved state to itself on every finite lattice of copies of the cell after any number of steps of the simple update: an operator and its turned form have the same expectation value, and an operator that changes its sign (the magnetisation under the spin flip) has expectation value zero. For full updates of real tensors the same holds for all measured one-site and two-site values, after the evolution and after any further sweeps, and for the renormalization alone with real and complex tensors. So the program does not break a symmetry on its own. Provided no discarded singular value equals a kept one, and the other conditions of C75, C84 and C85.",
  "all cells from 2 x 2 (from 1 x 1 for the renormalization), symmetric tensors and models, dimensions, unitaries, step counts, time steps, orders of the bonds, numbers of sweeps, settings, linear algebra libraries, finite lattices covering the cell",
  "Rounding and noise break symmetries in practice, so a test cannot tell whether the algorithm does; and a bias could show up only for some models, sizes or step counts.",
  ["acetn/evolution/simple_update.py:tensor_update","acetn/evolution/evolve.py:evolve","acetn/evolution/full_update.py:tensor_update","acetn/renormalization/directional_mover.py","acetn/measurement/measure.py:measure"])

p("Saving from all ranks of a distributed run",
  "When the processes of a distributed run, which all execute the same script and hold the same state, call save, every call returns with the state unchanged, and afterwards the file holds that state, however the processes are interleaved.",
  "all states, file formats in which a complete file can be read back, numbers of processes, interleavings of the single writes and reads, earlier contents of the files",
  "The failing interleavings depend on the timing of processes; a test on one machine may never show them, and no test shows that there are none.",
  ["acetn/ipeps/tensor_network.py:save","acetn/ipeps/tensor_network.py:load","acetn/utils/distributed.py"])

p("A converged environment stays converged",
  "If a sweep of ctmrg gives the same environment, up to positive factors and a change of basis on the boundary bonds, then so does every number of further sweeps, with the same or another linear algebra library, and all measured one-site and two-site values stay exactly the same; likewise if the environment comes back after p sweeps, it does so forever with period p. Provided that in the sweeps that are checked no discarded singular value equals a kept one. So users who see that nothing changes may stop. For product states the environment is converged from the start.",
  "all site tensors, dimensions, cells, boundary dimensions, projector kinds, cutoffs, numbers of sweeps, linear algebra libraries, random draws that capture the environment",
  "The program has no convergence test, and the boundary tensors themselves change in every sweep because the decompositions leave bases open; that the freedom does not build up is a statement about all later sweeps.",
  ["acetn/renormalization/ctmrg.py:ctmrg","acetn/renormalization/directional_mover.py","acetn/renormalization/projectors.py","acetn/measurement/measure.py:measure"])

p("Evolutions without truncation compose and can be undone",
  "As long as nothing is truncated, `evolve(dtau, n)` followed by `evolve(-dtau, n)` returns the state of the lattice to where it was, up to a positive factor, and leaves the bond list as it was; `evolve(dtau, n)` followed by `evolve(dtau, n')` reaches the same state as `evolve(dtau, n + n')`; and for a model with diagonal matrices there is no error of the time step at all.",
  "all finite lattices covering the cell, models, time steps, numbers of steps, networks and boundary tensors; simple update with real and complex tensors, full update with real dtypes and als_epsilon = 0",
  "Cancellation over a whole run depends on the order of the bonds in every step and on the list left behind by the call before; a test sees one model, one lattice and rounding.",
  ["acetn/evolution/evolve.py:evolve", "acetn/evolution/gate.py:Gate", "acetn/evolution/simple_update.py:SimpleUpdater", "acetn/evolution/fast_full_update.py:FastFullUpdater"])

p("Constants added to the Hamiltonian change nothing but the energy",
  "If two models have the same terms except for multiples of the identity added to the two-site and one-site terms, with any real constant for every bond and site, then `evolve` leads to the same state (up to a positive factor) with both, raises the same exception or none and leaves the same bond list; and `measure` of one network gives the same observables for both and energies per site that differ by the sum of the constants divided by the number of sites.",
  "all models, constants of either sign and any size, time steps, step counts, networks, boundary tensors and moves, dimensions, orders of the bonds; for the simple update all linear algebra libraries, provided no discarded singular value equals a kept one; for the full update libraries whose decompositions of a positive multiple are the multiples, and a stopping rule that depends on the ratio of the costs",
  "A constant multiplies every gate with another number; whether an absolute tolerance, cutoff or regularisation anywhere in the update notices the scale cannot be seen by trying some constants.",
  ["acetn/evolution/gate.py:calculate_gate", "acetn/evolution/simple_update.py:tensor_update", "acetn/evolution/full_update.py:tensor_update", "acetn/evolution/als_solver.py:solve", "acetn/measurement/measure.py:measure"])

p("States that every bond Hamiltonian leaves alone do not move",
  "If the two-site tensor of every bond is an eigenvector of the Hamiltonian of the bond (as in a frustration-free ground state), the network describes an eigenstate of the lattice Hamiltonian whose energy is the sum of the eigenvalues, and `evolve` leaves it there: after any number of steps with any time step the network describes the same state up to a positive factor, with the same expectation values of all operators, and its two-site tensors are again such eigenvectors; with the full update this holds even if the solver raises in the middle of the run.",
  "all finite lattices covering the cell, models, eigenvalues that may differ from bond to bond, time steps of either sign, numbers of steps, orders of the bonds, dimensions, environments, linear algebra libraries; simple update with real and complex tensors and weights that can be divided out, full update with real dtypes and als_epsilon = 0",
  "Every update rewrites both tensors in a basis the library chooses, so the arrays do change; that the changes are confined to the leg between the two sites, so that the eigenvectors of all other bonds survive, is a statement about whole runs.",
  ["acetn/evolution/evolve.py:evolve", "acetn/evolution/simple_update.py:tensor_update", "acetn/evolution/full_update.py:tensor_update", "acetn/evolution/fast_full_update.py:FastFullUpdater", "acetn/evolution/gate.py:Gate"])

p("Real data in a complex dtype give the real results",
  "A session whose tensors, Hamiltonian terms and observables are real does not depend on whether they are stored in a real or in a complex dtype: after any sequence of calls (`evolve`, renormalising the boundaries, changing the boundary dimension) the complex session has raised what the real one raised, its tensors are the real ones, its bond order and number of moves are the same, and `measure` returns the same averages.",
  "all cells, tensors, models, observables, settings, call sequences, dimensions and random numbers; linear algebra libraries of the complex dtype that return on real matrices what those of the real dtype return, and for the boundary moves every library of the complex dtype as long as the singular values drop where they are cut off",
  "The two dtypes run through other branches (conjugations, real parts, guards on the dtype) in every update, move and measurement; a test compares two runs of one model up to rounding, where the freedom of the decompositions hides a difference.",
  ["acetn/ipeps/ipeps.py:Ipeps.evolve", "acetn/evolution/full_update.py:FullUpdater", "acetn/evolution/als_solver.py:ALSSolver", "acetn/evolution/simple_update.py:SimpleUpdater", "acetn/renormalization/projectors.py:ProjectorCalculator", "acetn/measurement/measure.py:measure"])

p("Conjugated data give conjugated results, and real states have no imaginary averages",
  "If the tensors, the Hamiltonian and the observables of a session are replaced by their complex conjugates, every call raises what it raised before, the tensors of the network are the conjugated ones and `measure` returns the same averages; in particular the averages of observables with imaginary entries (like the Pauli matrix Y, or X times Y on a bond) are zero for states built from real tensors by a real Hamiltonian, on every site and bond.",
  "all cells, tensors, models, observables, settings, sequences of calls with both kinds of updates, dimensions and random numbers; linear algebra libraries that treat conjugated matrices alike, and for the boundary moves all libraries, even ones that return complex factors for real matrices, as long as the singular values drop where they are cut off",
  "A conjugation too many or too few in one of the many contractions cancels on most test states; that none is misplaced for any complex state and any sequence of calls cannot be seen from samples, and a broken symmetry shows up at the level of rounding only.",
  ["acetn/ipeps/ipeps.py:Ipeps.evolve", "acetn/evolution/full_update.py:FullUpdater", "acetn/evolution/simple_update.py:SimpleUpdater", "acetn/renormalization/projectors.py:ProjectorCalculator", "acetn/measurement/rdm.py:RDM", "acetn/measurement/measure.py:measure"])

p("Only the product of the time step and the Hamiltonian matters",
  "The couplings of a model and the time step only enter through their product: two scripts of calls on one `Ipeps` whose calls of `evolve` use models that differ by a factor and time steps that differ by the inverse factor (the factor may change from call to call), and that are otherwise equal, leave the same object behind, to the last tensor, and raise the same exception or none. `measure` with the Hamiltonian multiplied by a number gives the same observables and the energy multiplied by the number. Multiplying `jz` and `hx` of the Ising model or `J` of the Heisenberg model multiplies their Hamiltonian.",
  "all scripts, models, factors of either sign, time steps, dimensions, updates, solvers, libraries, random numbers; real and complex dtypes; all couplings, including missing ones",
  "The claim relates pairs of whole programs for all inputs; tests run a few models with one unit of energy, and rounding hides whether the results are equal or only close.",
  ["acetn/evolution/gate.py:calculate_gate", "acetn/ipeps/ipeps.py:Ipeps.evolve", "acetn/measurement/measure.py:measure", "acetn/model/models/ising.py:IsingModel", "acetn/model/models/heisenberg.py:HeisenbergModel"])

p("The choice of the backend does not change the results",
  "Setting `backend = \"cutensor\"` instead of `\"torch\"` in any of the calls of `evolve` of a script changes nothing but the speed: every call raises what it raised before, and the tensors, the order of the bonds, the boundary dimension and the flags are the same after every call, whatever the uninitialised buffers of the extension contain.",
  "all scripts, models, settings with nonnegative als_epsilon, dimensions, numbers of steps, libraries, contents of uninitialised memory; real and complex dtypes",
  "The two backends are separate programs, one in Python and one in C++ with hand-written contractions over raw buffers; a comparison needs a GPU and shows a few inputs up to rounding.",
  ["acetn/evolution/als_solver.py:ALSSolver.solve", "csrc/evolution/als_solve.cpp:als_solve", "acetn/evolution/full_update.py:FullUpdater", "acetn/ipeps/ipeps.py:Ipeps.evolve"])

p("At bond dimension one the simple and the full update give the same states",
  "With bond dimension one the environment of a bond is a number, so the two updates are the same mean-field theory: `evolve` with the simple update and `evolve` with the full update, started from the same product state with the same model and time step, both return normally and leave the bond list in the same order and site tensors that agree up to factors, so that all expectation values on every lattice agree, whatever the boundary tensors, the boundary dimension and the settings of the full update.",
  "all cells with at least two rows and columns, local dimensions, gates, numbers of steps, product states, boundary tensors, projectors, random numbers, settings of the solver with a sensible regulariser, libraries; as long as the largest singular value of a gated pair is not degenerate",
  "The two updates share no code beyond the gates: one has weights and a singular value decomposition, the other reduced tensors, a gauge-fixed norm tensor, an iterative solver with a regulariser and boundary moves; a test compares them on one model after a few steps up to rounding.",
  ["acetn/evolution/simple_update.py:SimpleUpdater", "acetn/evolution/full_update.py:FullUpdater", "acetn/evolution/als_solver.py:ALSSolver", "acetn/evolution/fast_full_update.py:FastFullUpdater", "acetn/evolution/evolve.py:evolve"])

p("At bond dimension one everything a session measures is exact and the energy is variational",
  "With bond dimension one the state is a product and needs no approximation of its environment: after any sequence of calls of `set_chi`, `renormalize` and `evolve`, with either update, no call raises unless its settings name projectors or an update that do not exist, the site tensors are not zero, every one-site and nearest-neighbour expectation value is exactly the one of the product of the present site tensors, and the energy that `measure` returns is exactly the energy per site of that state on every finite lattice made of copies of the cell; in particular it is never below the lowest energy per site of such a lattice.",
  "real dtypes; all cells with at least two rows and columns, local dimensions, models, sequences of calls, boundary dimensions, numbers of steps and sweeps, projectors, both kinds of SVD, random numbers that are not all zero, libraries, solver settings with a sensible regulariser, nonzero starting tensors, finite coverings of the cell",
  "The environment is built by boundary moves with truncations and random numbers after every bond update; a test looks at a few models after a few steps, and energies slightly below the true one are what a faulty environment gives and what rounding hides.",
  ["acetn/ipeps/ipeps.py:Ipeps.evolve", "acetn/renormalization/ctmrg.py:ctmrg", "acetn/evolution/fast_full_update.py:FastFullUpdater", "acetn/evolution/simple_update.py:SimpleUpdater", "acetn/measurement/measure.py:measure", "acetn/measurement/rdm.py:RDM"])

p("At bond dimension one a session is mean-field theory, and no setting matters",
  "With bond dimension one and a real dtype, the states a session goes through are those of time-dependent mean-field theory: every bond update of `evolve`, with the full or the simple update, replaces the pair of vectors on the bond by a product of two vectors that is nearest to the pair after the gate, in the documented order of the bonds, and no other call changes the state. When the time steps are small (|dtau| times the norm of what is exponentiated is at most 1/3 on every bond) each nearest product is unique. Then everything the user measures at the end of a script depends on the models, time steps, numbers of steps and initial states only. The update type, projectors, method of decomposition, solver, tolerances, linear algebra library, random numbers, boundary dimensions and the number and place of `renormalize` and `set_chi` calls do not change it.",
  "all cells from 2 x 2, physical dimensions, models, scripts of any length with sensible arguments, machines and settings",
  "Comparing two sessions with different settings on one model shows agreement up to a tolerance for that model and those settings. The claim is about all pairs of scripts and settings, and about being the solution of an optimisation problem over all products at every step.",
  ["acetn/ipeps/ipeps.py:60-115", "acetn/evolution/evolve.py:21-59", "acetn/evolution/fast_full_update.py:20-125", "acetn/evolution/simple_update.py:17-76", "acetn/evolution/gate.py:84-125", "acetn/measurement/measure.py:5-170"])

p("A bond update never lowers the expectation value of its gate",
  "For a model with Hermitian terms and a time step of either sign, a bond update that truncates optimally replaces the pair of site tensors by one in which the expectation value of the gate exp(-dtau h) of the bond is at least as large as before, although the update truncates. The value is the same only if the pair has not changed but for a factor. For the simple update this holds at every bond dimension in the environment made of the weights around the bond; with bond dimension one it holds for both updates and for the values that can be measured on the bond before and after.",
  "for all Hermitian models, time steps, bonds, site tensors (real and complex for the simple update), weights of at least 1e-12, decomposition libraries and random draws; for the measured values all sessions in a real dtype with bond dimension one",
  "Tests look at the energy at the end of a run and cannot tell whether single updates go in the wrong direction for some tensors; the claim is about all of them and includes the truncation error.",
  ["acetn/evolution/simple_update.py", "acetn/evolution/full_update.py", "acetn/evolution/als_solver.py", "acetn/evolution/gate.py", "acetn/measurement/measure.py"])

p("Without interactions the evolution is exact for every time step",
  "If the two-site terms of a model vanish and every site has a one-site term, the sites evolve independently and there is nothing to approximate: the gate of a bond is the product of the exponentials of a quarter of the terms of its two sites, every site gets four such factors per step, and n steps of dtau are exp(-n dtau H), not only up to an error of the time step. With the full update (pseudoinverse, no regularisation) and any bond dimension `evolve` returns normally, truncates nothing and leaves the state exp(-n dtau H) applied to the state at the start, up to a factor; for Hermitian terms it comes as close to the ground state as one likes when n dtau is large, with every dtau. With bond dimension one the same holds for both updates and all settings, and every one-site and two-site value measured at the end of any script is the one of the independently evolved sites.",
  "all cells from 2 x 2, fields that differ from site to site, physical dimensions, time steps, numbers of steps, finite coverings of the cell, boundary dimensions, projectors, random draws, libraries; bond dimension arbitrary for the full update; scripts of any length at bond dimension one; real dtypes",
  "A test in a field compares a few numbers after a few steps with a tolerance in which an error of the order of the time step or a term counted three or five times instead of four at one site of a larger cell can hide.",
  ["acetn/evolution/gate.py:84-125", "acetn/evolution/evolve.py:21-59", "acetn/evolution/full_update.py:FullUpdater", "acetn/evolution/simple_update.py:SimpleUpdater", "acetn/ipeps/ipeps.py:Ipeps.evolve", "acetn/ipeps/tensor_network.py:build_bond_list"])

p("The built-in models give the textbook mean-field results at bond dimension one",
  "A session with bond dimension one and a real dtype that uses a built-in model returns the numbers known from mean-field theory, from the parameters in the configuration to the dictionary returned by `measure`. For the Ising model the energy per site is never below the lowest one of product states, -(2|jz| + hx^2/(8|jz|)) if |hx| <= 4|jz| and -|hx| otherwise, which is reached for ferromagnetic couplings; without coupling, from spins up, after a total imaginary time T it is exactly -hx tanh(2 hx T), with sx = tanh(2 hx T) and sz = 1/cosh(2 hx T). For the Heisenberg model the energy is between -|J|/2 and |J|/2; its own initial state, the Neel state, is kept by every evolution with any couplings and time steps, so that sz stays one, sx zero and in cells of even width and height the energy -J/2. For both models the averages sx and sz stay in the unit disc.",
  "all cells from 2 x 2, parameters of either sign, scripts of any length with sensible arguments, both updates, numbers of steps, time steps, boundary dimensions, projectors, solvers, libraries and random draws",
  "Tests compare the energy of one parameter set after one schedule with a reference up to a tolerance; a sign in an observable of one sublattice, a factor in the field term or a bond counted twice can cancel in the values tested, and bounds are about all scripts.",
  ["acetn/model/models/ising.py:IsingModel", "acetn/model/models/heisenberg.py:HeisenbergModel", "acetn/model/pauli_matrix.py", "acetn/evolution/gate.py:84-125", "acetn/ipeps/ipeps.py:Ipeps.evolve", "acetn/measurement/measure.py:measure"])

p("At bond dimension one the number of processes does not matter",
  "A script of `set_chi`, `renormalize` and `evolve` calls at bond dimension one, run on several processes whose number allows the work to be shared, raises on no rank; all ranks end with the object of a single process that runs the same script with the random numbers of the ranks, and `measure` returns the same dictionary on all of them. The energy it contains is that of the state the ranks hold, never below the lowest one of a lattice made of copies of the cell. With small time steps the dictionary is that of any single process that makes the same calls of `evolve`, whatever its update, projectors, solver, library, random numbers and boundary dimensions. In particular the built-in Heisenberg model measures its Neel state on every rank.",
  "real dtypes; all cells from 2 x 2, numbers of ranks for which the sharing of moves works (C13), ranks that create the same site tensors, half-system projectors, nonzero random numbers that may differ from rank to rank, models, local dimensions, libraries, scripts of any length with sensible arguments",
  "Runs on several processes are tested, if at all, on one number of ranks and one model; a claim about all numbers of ranks, all scripts and all settings on both sides cannot be tested.",
  ["acetn/renormalization/ctmrg.py", "acetn/renormalization/directional_mover.py", "acetn/evolution/fast_full_update.py:FastFullUpdater", "acetn/utils/distributed.py", "acetn/ipeps/ipeps.py:Ipeps.evolve", "acetn/measurement/measure.py:measure"])

p("Cooling: without interactions the energy never rises with time, whatever the time step",
  "For a Hermitian model whose two-site terms vanish and which has a one-site term on every site, the energy after `evolve` only depends on the total imaginary time and never rises with it, for every time step, also large ones: of two programs that start with the same state, the one with the longer total time has the lower energy, or the same one if the start is an eigenvector. With the full update (pseudoinverse, no regularisation) this holds for the energy of the state with any bond dimension. At bond dimension one it holds for the energy that `measure` returns, for scripts of any length, with updates, settings, libraries, boundary dimensions and random numbers that differ between the two programs; if no site starts orthogonal to the ground states of its term, the measured energy comes as close to the lowest one as one likes and is never below it.",
  "all cells from 2 x 2, fields that differ from site to site, physical dimensions, time steps, numbers of steps and of calls, projectors, settings, libraries, random draws, finite coverings of the cell; bond dimension arbitrary for the full update; real dtypes",
  "A test sees the energy fall in one run; that it falls for all fields, starts, time steps and settings, also between runs with different settings, is a statement about all of them.",
  ["acetn/evolution/evolve.py:evolve", "acetn/evolution/gate.py:Gate", "acetn/evolution/fast_full_update.py:FastFullUpdater", "acetn/evolution/simple_update.py:SimpleUpdater", "acetn/ipeps/ipeps.py:Ipeps.evolve", "acetn/measurement/measure.py:measure"])

p("At bond dimension one every team of processes does mean-field theory, with both kinds of projectors",
  "With several processes and full-system projectors, the default, the second half of every pair of moves uses projectors computed from the tensors before the first half, so that the ranks do not do what one process does (C90). At bond dimension one this has no consequence that can be observed: a script of `set_chi`, `renormalize` and `evolve` calls raises on no rank, all ranks end with the same tensors, the states they go through are those of time-dependent mean-field theory, and every one-site and two-site value measured on a rank is the one of the product of the site tensors it holds. Where the theory leaves no choice, as with small time steps, every rank measures the dictionary a single process returns that makes the same calls of `evolve` with any other settings. The energy is that of the state, on every finite lattice made of copies of the cell, and never below the lowest one.",
  "real dtypes; all cells from 2 x 2, numbers of ranks for which the sharing of moves works (C13), ranks that create the same site tensors, both kinds of projectors, nonzero random numbers that may differ from rank to rank, models, local dimensions, libraries, scripts of any length with sensible arguments",
  "The claim quantifies over all numbers of ranks, scripts and settings, and compares programs whose boundary tensors differ at every intermediate point.",
  ["acetn/renormalization/directional_mover.py:183-271", "acetn/renormalization/ctmrg.py:15-31", "acetn/evolution/fast_full_update.py:FastFullUpdater", "acetn/ipeps/ipeps.py:Ipeps.evolve", "acetn/measurement/measure.py:measure"])

p("What mean-field theory knows exactly is measured by every team of processes",
  "At bond dimension one and with a real dtype, whenever mean-field theory determines the state after a script, every rank of every team of processes, with either kind of projectors, returns from `measure` the dictionary of a single process that makes the same calls of `evolve`. So it is for models without interactions, for every time step: the values are those of independently evolved sites, and of two teams with different numbers of ranks and different settings the one with the longer total imaginary time measures the lower energy, which comes as close to the lowest one as one likes if no site starts orthogonal to the ground states of its term. The built-in Ising model without coupling gives -hx tanh(2 hx T) on every rank, and the built-in Heisenberg model keeps its Neel state. After any script at all, every rank measures for the built-in Ising model at least the lowest energy of product states, for the Heisenberg model an energy between -|J|/2 and |J|/2, and averages sx and sz in the unit disc.",
  "all cells from 2 x 2, numbers of ranks for which the sharing of moves works (C13), ranks that create the same site tensors, both kinds of projectors, nonzero random numbers that may differ from rank to rank, parameters of either sign, time steps, numbers of steps, libraries, scripts of any length with sensible arguments",
  "Results of runs on several processes are compared with those of one process for one model and one schedule at best, and up to a tolerance.",
  ["acetn/renormalization/directional_mover.py:183-271", "acetn/evolution/evolve.py:evolve", "acetn/evolution/gate.py:84-125", "acetn/model/models/ising.py:IsingModel", "acetn/model/models/heisenberg.py:HeisenbergModel", "acetn/ipeps/ipeps.py:Ipeps.evolve", "acetn/measurement/measure.py:measure"])

p("Small time steps lower the measured energy, unless it is stationary",
  "Imaginary-time evolution is used because it lowers the energy. At bond dimension one and with a real dtype this holds although the gates of the bonds do not commute and every bond update truncates: for a Hermitian model, initial site tensors and any calls of `evolve` with that model, given by their numbers of steps and the ratios of their time steps, there is a time step such that these calls with any shorter time step are followed by a smaller `Energy` from `measure` than before, unless no change of the vector of a single site changes the energy to first order. To first order in the time step the fall is the total imaginary time of the calls times a rate that depends on the model and the initial vectors only and vanishes exactly in the stationary case. For the built-in Ising model in any transverse field, spins up are not stationary: `measure` returns -2 jz before and less after, and the rate is 2 hx^2. The bound on the time step depends on the model, the initial vectors, the numbers of steps and the ratios only, not on the update, the settings, the boundary dimension, the library, the random numbers or the number of processes.",
  "real dtypes; all cells from 2 x 2, physical dimensions, Hermitian models with one-site terms everywhere or nowhere, initial vectors, numbers of steps, time steps below the bound, both updates and kinds of projectors, settings, boundary dimensions, libraries, random draws, teams for which the sharing of moves works (C13); scripts with any calls of `evolve` with one model, `set_chi` and `renormalize`",
  "A test sees the energy fall for one model and one time step. The claim is about all models and starts, excludes only stationary ones, and has one bound for all settings.",
  ["acetn/evolution/evolve.py:evolve", "acetn/evolution/gate.py:84-125", "acetn/evolution/fast_full_update.py:FastFullUpdater", "acetn/evolution/simple_update.py:SimpleUpdater", "acetn/ipeps/ipeps.py:Ipeps.evolve", "acetn/measurement/measure.py:measure"])

with open("/verif/properties.jsonl","w") as f:
    for x in P: f.write(json.dumps(x)+"\n")
for x in P: print(x["id"],x["title"])

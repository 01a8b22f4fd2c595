# Formal model of ace-tn in Lean 4

Source: `/repo` (python, plus the C++ extension text), read as text.  All citations in the model are to files under
`/repo/acetn/…` with line numbers.  Nothing of the project is executed.

## Trusted base

* Lean 4.33.0's kernel, and the three standard axioms `propext`, `Classical.choice`, `Quot.sound`.  No axioms of our
  own, no `sorry`, no `native_decide`, no `bv_decide`.  `lean/Verif/Audit.lean` prints the axioms of every theorem
  named in `MANIFEST.json`.
* The reading of the code recorded in the model.  Every model definition cites file and lines and says what was
  simplified.
* Arithmetic is exact: real dtypes are modelled by `ℝ`, complex dtypes by `ℂ` (most numeric theorems are stated for
  `RCLike 𝕜`, i.e. for both at once).  Floating-point rounding, overflow and NaN are not modelled; a division whose
  denominator can be zero is guarded by an explicit hypothesis in each theorem, or modelled as an explicit error.
* Library routines (`torch.linalg.qr/svd/eigh/pinv/cholesky/solve`, `torch.rand/randn`, pickling, collectives) are
  parameters constrained only by their mathematical contract (see `Model/LinAlg.lean`): QR: `A = QR`, `QᴴQ = 1`;
  SVD: `A = U diag(s) Vᴴ`, orthonormal columns, `s` sorted and non-negative; eigh: spectral decomposition of the
  Hermitian matrix given by the lower triangle; pinv: inverse on the singular values above the threshold, zero on the
  rest; Cholesky solve: solves positive definite systems and raises on every other Hermitian one; solve: solves and
  raises exactly on singular matrices.  Theorems hold for every `la : Lapack 𝕜`.  A contract is never an axiom: it is
  a field of a structure taken as argument, and `nonempty_lapack` (`Lemmas/Svd.lean`) constructs an instance, so that
  it can be met.  `Native.Cusolver` is the same for `potrf`/`potrs` (only positive definite systems are specified).
  The retry through an SVD when `eigh` raises is modelled with an oracle for the failing calls (`Model/PosFallback.lean`, C71).
* `einsum` is a macro (`Model/Einsum.lean`): `einsum% "ab,bc->ac" A B` elaborates to
  `fun a c => ∑ b, A a b * B b c`; the strings in the model are the strings in the source.  `reshape` of adjacent
  axes is a product index type (row-major merging of adjacent axes is a bijection of index sets; contractions do not
  see the numbering).

## Method

Control code (lattice, bond list, sweep schedules, work sharing between ranks, object graph, configuration) is a
shallow model: python loops are folds or recursions over lists, dictionaries are association lists or option-valued
functions, exceptions are values of `Except`.  Tensor arithmetic inside control code is a *parameter* (an arbitrary
type `T` with arbitrary operations), so those theorems hold whatever the tensors are.  Tensor arithmetic itself is
modelled function by function with `einsum%`.

Layout of `lean/Verif`:

* `Model/*`  – definitions mirroring the code, with citations;
* `Spec/*`   – small independent specifications used in statements, where a statement needs vocabulary;
* `Lemmas/*` – helper lemmas;
* `Props/*`  – the property theorems, one file per group, each followed by a non-vacuity witness.

When the code violates a property, the intended statement is kept as a `def Spec.X : Prop`, its negation is proved
on a concrete witness (`…_violated…`), and the part that does hold is proved under a name ending in `_partial`.

Equalities of contractions are proved with `einsum_ring` (`Lemmas/SumTac.lean`), a tactic that multiplies out, moves
all sums to the front, orders them and compares summands with `ring`.

## What is modelled

| Source | Model | Simplifications |
|--------|-------|-----------------|
| `ipeps/tensor_network.py`, `ipeps/bond.py` (lattice) | `Lattice` | none |
| `ipeps/tensor_network.py`, `ipeps/ipeps.py`, `ipeps/site_tensor.py` (objects) | `SiteTensor`, `Network`, `Registry` | heap of buffers with device and dtype tags; file format abstract; crash points between writes |
| `ipeps/ipeps_config.py` | `Config` | environment, CUDA availability are inputs |
| `model/*.py`, `model/pauli_matrix.py`, `model/models/*` | `Pauli`, `BuiltIn`, `Registry`, `Settings` | `BuiltIn` has real dtypes only |
| `evolution/gate.py` | `Gate` (values), `GateHeap` (aliasing), `Hooks` (kinds of returned values) | `matrix_exp` is the exponential |
| `samples/04`, `05`, `06` | `Samples` | only the model classes |
| `ipeps/ipeps.py` (scripts of calls, as in `samples/01`, `02`, `03`, `07`) | `Session` | one process; printing dropped |
| `ipeps/ipeps.py` (scripts of calls on several ranks) | `DistSession` | ranks in lockstep |
| `ipeps/tensor_network.py` `save` on several ranks at once | `DistSave` | POSIX files; reading is one step; format abstract |
| `ipeps/tensor_network.py` `save`/`load` between calls, new processes | `Checkpoint` | one object per process; dtype and device conversions in `Network` (C18) |
| `evolution/evolve.py`, `utils/benchmarking.py` | `Evolve`, `Timing` | clock is a stream of readings; log text dropped |
| `evolution/tensor_update.py`, `full_update.py`, `als_solver.py` | `TensorUpdate`, `FullUpdate`, `FullUpdateBond`, `AlsLoop`, `Blocks`, `PosFallback` | |
| `evolution/fast_full_update.py` | `Mover`, `Dist`, `FullUpdateBond` | |
| `evolution/simple_update.py`, `lambda_tensors.py` | `SimpleUpdate`, `Lambda` | |
| `renormalization/ctmrg.py`, `directional_mover.py` | `Mover` (control), `Boundary` (tensors), `Shapes` (dimensions), `Dist` (ranks) | in the control model the tensor operations are arbitrary functions |
| `renormalization/projectors.py`, `linalg/*.py` | `Projectors`, `Rsvd` | random draws are arguments |
| `measurement/*.py` | `Rdm`, `Measure` | boundary legs of a network share one index type in `NetT`; `siteRdmAfterMove` has its own leg types |
| `utils/distributed.py` | `ProcessGroup`, `Dist` | collectives are perfect |
| `csrc/linalg/contraction.*`, `cholesky_solve.h`, `csrc/evolution/*` | `Native`, `NativeAls` | vendor routines as documented; streams, handles, workspaces dropped |
| `als_solver.py` `solve`, `solve_cutensor` with `backend = "cutensor"` inside `evolve` | `Backend` | tensors on the GPU; ranks of `linalg.svd` as in the torch backend |

Not modelled: logging (`utils/logger.py`), progress bars, CUDA kernels, pickling formats, network transport, wall-clock
time, the distribution of random draws, floating point.  The scripts in `benchmarking/` are not modelled either;
`benchmarking_full_update.py` calls `ALSSolver(n12, a12g, bD, pD, nD, config)`, but the constructor takes
`(n12, a12g, ar_shape, config)`, so it raises `TypeError`.

## Per property

| Id | What is modelled, how it is proved |
|----|------------------------------------|
| C01 | `build_site_list` as nested loops over ranges; membership and `Nodup` by list lemmas, all nx, ny. |
| C02 | `build_bond_list` as two nested loops; length, `Nodup`, membership characterised by the neighbour relation. |
| C03 | `LambdaTensors.__init__` as a fold over the bond list into a dictionary keyed by (site, direction); totality, uniqueness, both-ends agreement for every permutation of the bond list. |
| C04 | `set_two_site_gates` with optional one-site terms; sum over bonds in an arbitrary additive group with arbitrary placement maps; **violated** when only some sites carry a one-site term. |
| C05 | `evolve` loop with in-place reversal; trace of visited bonds by induction on steps; `C05_exception`: the first failing bond update ends the run. |
| C06 | `evolve` over an abstract updater with auxiliary state; holds for the full update (no auxiliary state), also when an update raises (`C06_full`), and would hold if the auxiliary state were kept (`C06_loop_partial`). Violated for the simple update: the weights start from one in every call. Witness on a 2 × 2 cell with bond dimension two and gate `1 + X⊗X/100`, for every SVD: two calls with one step keep a physical state at every site that one call with two steps truncates away at site (1,0) (`C06_violated_states`). The singular vectors are determined by `Sparse.top` (`Lemmas/DiagSvd.lean`), the weight ratios are followed as powers of 4/5 (`Lemmas/GhzRun.lean`). |
| C07 | `ctmrg` schedule as list of moves; bijectivity of the wrap-around index; counts of writes per tensor (ghost counter). |
| C08, C09 | `DirectionalMover` over abstract tensors, state = site ↦ (A, C₀..₃, E₀..₃); frame conditions; permutation invariance of the row loop; pre-state semantics. |
| C10, C11 | the same state machine instantiated with shapes (einsum shape checking with the source strings); link-dimension invariant by induction over histories; bound by chi after a sweep. |
| C12, C13 | SPMD model of the two distributed moves; equality with the serial composition by read/write disjointness; exact characterisation of (world size, ny) for which all projectors exist; C13 **violated** otherwise. |
| C14 | product of per-rank states; invariant under broadcast and gathered moves; **violated** at construction by unseeded noise. |
| C15–C20 | object model: class-level dictionary shared by all networks, per-object fields, file system, crash points; operational model of construct/copy/to/save/load/evolve over arbitrary histories; all **violated** in some case, the rest proved as `_partial`. |
| C21 | `SiteTensor` record with clone-on-set, heap of tensor buffers. |
| C22, C24 | registry of model names and heap of dictionaries with references held by configurations and networks; both **violated** by sharing. |
| C23 | decision functions of `ipeps_config.py`, `get_env_device`, progress-bar default; **violated** in three corner cases. |
| C25, C26 | `PauliMatrix` expression semantics over `ℝ` and `ℂ`; invariant relating the number of Y factors and the phase; C25 **violated** for real dtype, C26 for the default coupling. |
| C27 | gate = `NormedSpace.exp`; Mathlib's matrix exponential. |
| C28 | heap of matrices with in-place `+=`, class-level gate dictionary; **violated**. |
| C29 | index permutations. |
| C30, C31, C46, C51 | `einsum%` models of the contractions; equality by re-association of finite sums. C31_network and C31_trial are about `numNorm` and `numBondRdm` (boundary tensors of run-time dimensions, exceptions included). |
| C32 | block partition of an index range; pointwise equality, whatever the uninitialised buffer held. |
| C33 | termination proof of the shift loop through the spectrum; fuel bound explicit. |
| C34 | gauge factors are invertible on the returned norm; change of variables in the cost. |
| C35 | quadratic forms over `RCLike`; half-steps minimise the regularised cost; **violated** for the plain cost for every `epsilon > 0`; with the pseudo-inverse the cost exceeds the least one by at most a multiple of `epsilon` (`C35_first_pinv_partial`, `C35_second_pinv_partial`). |
| C36 | loop over an abstract step and cost; refinement between the python and the C++ loop. |
| C37, C39 | real tensors proved; **violated** for complex tensors (conjugation of the right factor; conjugate norm in the second half-step). |
| C38 | QR/SVD contracts. |
| C40, C41 | `SimpleUpdater.bond_update` with weights; Eckart–Young from the SVD contract; **violated** for complex dtype (`clamp` raises) and for weights below 1e-12. |
| C42 | store semantics of `bond_update`; **violated** for one-wide cells. |
| C43, C44 | QR/SVD contracts; every random draw. |
| C45 | biorthogonality, projection and optimality of the projectors; **violated** for complex tensors with full-system projectors and the randomised SVD (projectors.py 208 uses `.mH` where its comment derives `.T`). |
| C47, C49 | measured values; C49 **violated** for complex states (the transposed operator is measured). |
| C48 | accumulation into the result dictionary; **violated** for colliding names. |
| C50 | fresh boundary: density matrices are Gram matrices; **violated** for tensors of zero norm. |
| C52, C53 | Frobenius norms. |
| C54 | process-group life cycle; **violated** for two networks. |
| C55 | character-level parser model; strides; **violated** for scalar outputs, repeated labels, three operands. |
| C56 | parity; **violated** for odd cells. |
| C57, C58 | control-flow model of `evolve`/`bond_update`/`record_runtime` and of the dispatchers; **violated**. |
| C59 | a move without truncation: projectors inserted between double-layer half environments; **violated** for complex tensors as C45. |
| C60 | order and frame of the moves of `absorb_bond`, abstract tensors; serial and distributed. |
| C61 | the native solver on flat memory, plan by plan; refinement to the PyTorch solver; **violated** for singular systems. |
| C62 | `TensorUpdater.update` with any tensor update: legs addressed by lattice direction; two-site tensor of the bond on the lattice. |
| C63 | `Ipeps.evolve` as a sequence of calls that may raise; **violated** for models whose params are `None`. |
| C64 | `setup_distributed` over all histories, with the current CUDA device; **violated** when the first object is on the CPU. |
| C65 | `make_quarter_tensor` against leg-by-leg formulas of the four parts of a 2 × 2 block (`Spec/Plaquette.lean`); the closed product of the four quarters; site selection of the four `calculate_*_projectors`. |
| C66 | The directional moves with numbers in place of labels (`Model/NumMover.lean`): one network of numeric tensors of varying dimensions, moves as in `directional_mover.py`, shape errors as exceptions. Spec: a rectangle of the lattice with a ring of boundary tensors as one sum over labelings of all its bonds (`Spec/Cluster.lean`, `Spec/ClusterNet.lean`) and how a move enlarges it (`Spec/ClusterGrow.lean`). One move exchanges the resolved identity across a whole line of a cluster (`Lemmas/ClusterMove.lean`); induction over moves (`ClusterRun`), sweeps reach distance n (`ClusterSweep`). `LooseRun` (`Spec/Loose.lean`) says that no cut on the way truncates; `Regular` networks (`Lemmas/Regular.lean`) meet it for ever. |
| C67 | `Spec/Patch.lean`: the patch state is written down as one sum over the inner bonds of a rectangle in a ring of copies of the nearest site tensors, the outer legs being indices of the state (`patchAmp`), and the overlap of two such states (`patchOverlap`). A cluster of a fresh network is a positive number times this overlap (`Lemmas/Patch.lean: cluster_fresh`: the double layer of every bond splits into a ket and a bra label); combined with C66. Positivity and bounds are then those of a Gram matrix. For bond dimension above one and cells wider than one site, whole sweeps from fresh boundaries always truncate, so there the statement is about the moves up to the first truncation; nothing is claimed after it. |
| C68 | Bond dimension one makes every cut `Regular` with one singular value (`Props/Product.lean: product_regular`), so the hypotheses of C66 hold for any number of sweeps without being assumed; the cluster then factorises into site vectors (`product_cluster`). Complex tensors with full-system projectors and randomised SVD are excluded (C45's violation). |
| C69 | `Model/Samples.lean` transcribes the three sample models and `bond_direction`. The specification draws the spins in the plane (coordinates in the triangular lattice, integer squared distances) and defines `Z Z` and `X` on spins by their action on bit strings; the theorems say that positions are distinct and fill the lattice, that the site and bond terms are the sums over pairs at distance one, and that no pair at distance one is left out. |
| C70 | `evolveLoop` with the exact gate as bond update (`Spec.exactUpdate`), in any Banach algebra with placements of two-site operators (`LatticeOps`), and concretely for the matrix algebra of any finite lattice covering the cell (`coveringOps`, operator norm). `Lemmas/TrotterOrder.lean` expands products of exponentials to second order with a third-order remainder by induction on the list; the palindromic double step has the second-order term of the exponential of the sum; powers by telescoping. Truncation and environment errors of the real updates are not part of this statement. |
| C71 | `positive_approx` with an oracle for the calls of `eigh` that raise. Termination by counting the eigenvalues below the cutoff: a failing pass moves at least one of them above it, a succeeding pass all. Result: the flipped SVD is an eigendecomposition of the positive root of `N Nᴴ`; positive roots are unique. Violated: on an indefinite norm tensor the fallback replaces negative eigenvalues by their moduli instead of shifting (`C71_violated_shift`, eigenvalues `-1,1,1,1`). |
| C72 | `buildBondRdm` is written as the boundary tensors contracted around the two-site tensor and its conjugate, so an operator applied with the updaters' convention gives `Oᴴ ρ O` (`C72_convention`, any operator). Energy descent for `calculateGate` by diagonalising `bondHam` and the weighted Chebyshev inequality, with strictness from the variance (`C72_descent`). Combined with C39 (real full update), C40 (simple update, weights on the outer legs divided out) and C42 (storing). The positivity of the density matrix is a hypothesis: C67 shows it for fresh and untruncated environments. |
| C73 | `Spec/LinkChange`: two networks are *related* if corners and edges differ by a matrix with orthonormal columns and rows on every bond and positive factors. The singular values of a matrix are unique (`svd_values`) and so is the space of the leading ones when they drop (`Drop`), hence the two pairs of projectors differ by one matrix on the cut (`ProjEquiv`, `LinkCut`); a move keeps related networks related (`LinkMove.related_after`), and density matrices are closed contractions (`LinkRead`). `runDrawn`/`ctmrgDrawn`; every cut is either of full rank or made with a draw that captures the environment (`SvdCut`; for full-system projectors only with real tensors, see C45); a shorter decomposition is completed with zeros (`Lemmas/SvdPad`). Division by a norm of zero is zero in the model and NaN in python. The `example` has truncation from `chi D²` to one at every cut (`Lemmas/Factored`). |
| C74 | The same relation, between a network and itself: ket and bra legs exchanged on every bond, complex conjugate entries, bra and ket exchanged on the physical index. Fresh boundary tensors satisfy it (`related_swap`), moves keep it, writing a site tensor keeps it because a ket layer and its conjugate bra layer do. The density matrix is a positive multiple of its conjugate transpose; the factor is one (`star_of_scale`). `Model/NumSteps`: programs of writes and moves. |
| C75 | The same relation with unitary matrices `X`, `Y` on bonds (complex conjugate on the other end), `U s` on physical indices, positive factors, and the identity or complex conjugation on scalars. `X` and `Y` are uniform because a fresh boundary tensor is made of the site itself, with the basis of its own bonds. |
| C76 | `Spec/LatticeState.lean` defines the state of a network on a graph (`netState`: all edges summed, physical indices open) and on a lattice of `N` copies of the cell in which the bond `b` leads from copy `c` to copy `σ b c` (`latticeState`). An edge is split off the sum (`Lemmas/EdgeState.lean`), the copies of a bond are updated one after the other with an inhomogeneous network in between (`netState_partly`), and the run follows by induction over the schedule; C70 gives the order. The real updaters are `Full.evolve` (any treatment of the boundary that leaves the site tensors, C39) and `Simple.evolve` (C40). That the gate-applied tensors fit, and for the simple update that the weights are not below the cut-off, is a hypothesis about the run; it holds for all runs with product gates. Nothing is said about truncating runs. |
| C77 | The draw is a point of a product space with the product of one measure without atoms (`Spec/RandomDraw.lean`); `torch.randn` is assumed to have independent normal entries. A nonzero polynomial vanishes on a null set of such a product (`Lemmas/RandomDraw.lean`, induction over the variables with Fubini), and the determinant of the sample of the leading right singular vectors is such a polynomial. The statement is about one call; over a run the environment depends on earlier draws. |
| C78 | `Lemmas/RsvdError.lean`: `(A Aᴴ)ᵖ A Ω` is written in the basis of singular vectors and a matrix with columns in its range is compared with `A`. `Lemmas/RsvdLimit.lean`: in the limit the range contains the image of a matrix that commutes with the squared singular values, and projecting on that image has the best error; no gap after the k-th singular value is needed. |
| C79 | `Spec/RandomRun.lean`: `Generates` says that the random matrix of each call has independent entries with a distribution without atoms, `Almost μ n` that a statement about `n` successive draws holds with probability one (nested: the exceptional set of a move may depend on the earlier draws). By C77 the draws of one move capture the environments almost surely, because these are related (C73) to those of the full-rank run and so have the same ranks; then the two networks are again related. `Lemmas/SmallNet`: all dimensions of a network from fresh boundary tensors stay at most `chi`, so ranks are at most `chi D²`. |
| C80 | `Model/MeasurePrint`: the texts passed to `tqdm.write` as lists of characters, number formats are parameters. A reader splits lines at tabs and looks up headings (`Spec/MeasurePrint`). Violated: headings are those of the site (0, 0), so that another order of the dictionary on another site prints values under wrong names, and headings are cut to ten characters. Output of calls that raise is not modelled. |
| C81 | `Model/Startup`. Violated: an unknown level is `setLevel(None)`, a `TypeError` at import; no log file is kept at any level because a name is compared with a number; with warnings turned into exceptions a broken extension makes the import fail. |
| C82 | `Model/Benchmark`: functions act on a state and may raise, times are parameters. Violated as to gradients: `@torch.no_grad()` stands before the decorators themselves, so it acts while a function is decorated. |
| C83 | Energies and ground states are defined in `Spec/GroundState.lean` for any Hermitian matrix. `exp(-t(H-E))` converges to the projector on the lowest energy (`exists_ground_projector`, by diagonalisation), and a state close to the evolved one is close to a ground state (`ground_reached`); the runs are those of C76. Real update functions as in C76; that nothing is truncated is part of the statement, nothing is said about truncating runs. Shown non-vacuous for both updates with runs of any length in a field. |
| C84 | `Spec/Gauge.lean` defines networks and models in other bases. One bond: the gate-applied two-site tensors are the same matrix between other bases (`gated_turn`), so singular values agree and the singular vectors agree up to a unitary that commutes with the weights (`svd_weighted`, `svd_turned`); that unitary is the new change of basis on the bond (`splitBond_turn`, `bondTensors_turn`). Invariant of runs: same weights, changes of basis that commute with them (`Spec.SameState`, `bondStep_turn`, `evolveLoop_rel`). Gates: `exp` of a matrix in another basis (`twoSiteGate_turn`). States: summing over an edge joins its two ends (`latticeState_turn`). The hypothesis that cutting off is unambiguous (`ClearCut`) also asks that the gate-applied tensor is not zero, where the program would divide by zero; it holds for runs without truncation (`along_clear`) and for an entangling gate with truncation. |
| C85 | `Model/FullRun.lean` puts `bond_update`, `tensor_update`, `evolve` of the full update on networks with boundary tensors of run-time dimensions. Real tensors only (`∀ a, star a = a`): for complex ones the code omits conjugations (C39). Parameter `sgn`: `false` allows all unitary changes of basis and needs a solver that does not depend on the basis (`EvenSolver`: pinv or epsilon zero), `true` allows diagonal ones (signs) and any solver, with libraries whose QR factors are triangular (`Triangular`, exists by `exists_triangular`). One update of reduced tensors (`TurnLinAlg`, `TurnQr`, `TurnAls`, `TurnSolve`, `TurnInit`, `TurnGauge`, `TurnUpdate`): each decomposition is unique up to a change of basis, each contraction carries it on, the loops of the solver and of `positive_approx` take the same branches because norms, costs and eigenvalues agree. Networks: the relation of C73-C75 with a matrix of its own on every bond (`Spec.SameNet`); between writing the tensors and absorbing them the boundary tensors still have the old basis of the updated bond, and the moves replace exactly those (`FullStale`, `FullMoves.absorb_related`). Norms of boundary tensors (`NormalNet`) make factors one, so that costs agree and not only up to a factor. Random numbers and cuts as in C73. `ClearRun`/`DrawsRun` are hypotheses about the run; shown for runs of any length with bond dimension one and product gates. A regularisation loop that does not end is an exception in the model (excluded by C33/C71). |
| C86 | The model of C85 (`Model/FullRun.lean`) tied to the results of C76 and C83. `Wired` (the boundary tensors fit together, C66) is kept by moves (`wired_after`), by writing site tensors, hence by bond updates (`FullWired.fullBondStep_wired`), so that `numNorm`, `numSiteRdm` and `numBondRdm` never meet shapes that do not fit. The two tensors of a bond update are those of `recomposed_exact` (the part of C39 that holds for every norm tensor), so the environment enters only through the norm tensor, which does not matter if nothing has to be truncated. `Spec.bare` reads the site tensors of a network. `Spec.RunFits` is a hypothesis about the run, shown for runs of any length in a field, from which the closing example concludes that every program reaches the ground state. `C86_step` is about single bond updates; `C86_one_site` is about separate one-site gates, which the code reaches only with `wrap_one_site = False` (set nowhere). |
| C87 | C76 without the hypothesis that nothing is truncated. `Spec.rayDist` is the distance up to positive factors; `Spec.bondError` compares the state of the lattice after an update with the gate applied to the state before, `Spec.totalError` adds these numbers up along `schedule n bl` (the order in which `evolve` visits the bonds). `C87_truncation` is about `evolveLoop` with any function that updates bonds: by induction over the schedule (`foldl_error`) with the norm of the exponential of a bond term as the amplification of one update, which over the whole run is at most `exp(T h)`, a constant. `C87_exact`: exact updates have error zero, so that C76 is the case `x = 0`. `C87_simple`, `C87_full`: the programs; `C87_ground_*` use the spectral part of C83. That the errors of single updates are small is not claimed (it depends on the state); C39 and C40 say what the updates minimise. |
| C88 | `Model/Session.lean` runs lists of calls on one object: the control flow of `Ipeps.evolve` is `Set.evolve` (C63) and its computations are those of C86 (sweeps on boundary tensors of run-time dimensions), C85 (full update) and of the simple update on the same networks. What one call leaves to the next is in `State`: tensors, chi, the order of the bond list, `site_states_initialized`, the position in the random numbers. `Sound` (tensors fit together, the bond list is the one of the lattice or reversed) is an invariant of all calls, also of those that raise; from it `C88_returns`, with the values of `measure` stated as averages over the lists of the lattice. `C88_evolution` is by induction over the plan, with the bound of C87 for every call and `rayDist_step` to go from the state at hand to the ideal one; `Spec.callError` adds up `bondError` along the loop the call runs, from the state its first `renormalize` leaves. `C88_ground` by `ground_reached` (C83), the exponentials of one Hamiltonian being added up. Hypotheses met: `field_script`, scripts of any length in a field raise nothing and have no errors. `C88_simple`: the simple update of a session (`Simple.numBondStep`, on networks with boundary tensors) is the one of `Model/SimpleEvolve.lean`, by a simulation of the loop. Not covered: `copy_from`, `ipeps[site] = …` between calls (C18, C20; `save` and `load` are in C89), several ranks (C90), site states that are too long (C53). `C88_chi`: `newDim` (the dimensions after a move) is at most `chi` on the links a move visits, and a sweep visits all of them (C11). `C88_settings` writes out which settings, sweeps and gates a call uses, independently of `Config.proj` and `Set.svdKind`. |
| C89 | `Model/Checkpoint.lean` adds files and new processes to the sessions of C88: `save` writes the tensors and loads them back (tensor_network.py 94-109), `load` replaces the tensors of the sites in the file and sets the flag, a new process has a new object and new random numbers but the old files. Files have the dtype of the object (conversions are in C18) and there is one object per process (several objects share their tensors, C17). `SoundShell` (object and files fit together) is an invariant; `C89_round_trip` follows as density matrices read only tensors of the cell, and `measure` is determined by them (`measure_of_rdms`, from C48). `C89_evolution`: `Spec.Aim` are the evolutions, saves, loads and restarts intended, `Spec.Ideal` the state of the lattice they ask for together with the states in the files; by induction over the aims a tolerance is found backwards from the accuracy, with the bound of C87 for every evolution. `C89_resume` computes what a relay of processes is asked for. Hypotheses met: an example in a field with two processes. That `save` marks a new object as initialised, so that the first `evolve` does not start from the product state of the model, is the violation of C18 and C20; here it is part of `Spec.Ideal`. |
| C90 | `Model/DistSession.lean` is the session of C88 on several ranks, in lockstep as in `Model/Dist.lean`: every rank has its network and its random numbers, the moves are the distributed ones with run-time dimensions, rank 0 computes the bond updates of the full update and broadcasts them, the simple update is done on every rank by itself. `Sync` (all networks equal, `Sound` as in C88) is an invariant of all calls: `distMove_ok` follows the gathered projectors back to the ranks that computed them (`ownerOf`, from the loop of C13) and puts their random numbers together (`mixDraws`); the loops over the boundary tensors then run with given projectors (`wired_given`). For the half-system projectors the two directions of a move do not see each other (C12), so that the move is a pair of serial ones with the mixed random numbers, and whole scripts are simulated by one process (`Ranks.alone`; C90_half_serial, C90_errors). For the full-system projectors the right (down) projectors are computed from the old left (up) boundary, which is different from the serial program (C12), so there the accuracy is proved directly: `ScriptRules` collects what the proofs of C88 use, and both the object of one process and the ranks meet it. Hypotheses met: two ranks on every lattice, four on 2 x 3; scripts in a field without errors. Without `Works`: C13 (exceptions) and C14 (drifting apart). Simplification: an exception on rank 0 alone in the full update, after which the other ranks would wait in `broadcast`, is an exception on all ranks; with the pseudo-inverse there is none. |
| C91 | No new model: `numNorm`, `decompose`, `cost`, `updateReduced` and `numUpdate` are those of C30-C36 and C85. `Spec/PatchTrial.lean` has the states of a patch with other tensors at the two sites of a bond (`trialAmp`, `trialState`), the state after the gate (`gatedState`) and their distance. The cluster lemmas behind C66 and C67 are stated for arbitrary double layers (`clusterWith`, `turnLayer`), so that the six outer tensors and two empty places around a bond are a patch with a hole; `norm_patch` fills the hole. `C91_moves` and `C91_sweeps` give the overlaps for the networks after moves and sweeps that truncate nothing (`LooseRun`, as in C67), `C91_real` the case of real tensors and default projectors, `C91_posSemidef` and `C91_cost` follow from the overlaps alone. `C91_update` and `C91_overlap` follow one update through gauge fixing, positive approximation, initial guess (`startPair`), alternating loop and `finalize` (`updateReduced_best`). They ask for als_epsilon = 0, as the property does: a solver with a positive epsilon does not minimise the cost (C35). If the positive approximation has to shift the norm tensor by a multiple `t` of the identity, the first theorem has `t` times the distance of the two-site tensors in addition; `t` is zero if no eigenvalue is below the cutoff. `C91_regularised` has the Cholesky method with any als_epsilon: each half step then minimises the cost plus als_epsilon times a multiple of the squared norm (`Lemmas/SolveRegularised.lean`), so the second tensor is the best one for its first with this term added. One-site gates are left out: `Gate` sets `wrap_one_site = True` (gate.py 27), so all gates the library builds are two-site gates. |
| C92 | `Model/Gather.lean`: `all_gather_tensor` and its use in a move, on all ranks in lockstep, with the device and the shape of every tensor. What torch does is assumed there: nccl gathers tensors on GPUs, one per rank, of any shapes; gloo gathers tensors in main memory of one shape; buffers must have the sizes of what is sent and be on the device of the tensor; `.to(rank)` with an integer is GPU number rank and raises if there is none. The set-up is that of C64. Proved for `cuda` (C92_cuda_partial), negated for `cpu` for every machine and number of ranks the set-up accepts (C92_violated_cpu), and for `cuda` after `cpu` (C92_violated_after_cpu). C13, C14 and C90 (`Model/Dist.lean`) have the values that are exchanged, without devices, so they are about runs on GPUs. |
| C93 | `Model/Hooks.lean`: a returned value is `None`, a tensor or an object with an attribute `mat`; how `measure.py` (with `hasattr`) and `gate.py` (without) take the matrix out of it, and the gates built from it. Measurements take all kinds (C93_measured); gates are those of the returned terms if no tensor is returned (C93_gates_partial); one tensor among them makes `Gate` raise AttributeError (C93_raises), so the property is negated (C93_violated_tensor). The other models begin with the matrices. |
| C94 | No new model: `alsSolve`, `updateReduced`, `numUpdate` with the Cholesky method, whose contract is that it returns exactly if the matrix is invertible (`solve_ar` falls back to `torch.linalg.solve`). The regularisation adds als_epsilon times the largest entry of the matrix to its diagonal, so it is invertible unless the tensor held fixed is zero. A half step gives zero, and the next one raises, exactly if the right-hand side is zero; that is the case exactly if no pair with the tensor held fixed is better than zero, and half steps that return keep this (`alsSolve_cholesky`, `updateReduced_cholesky`). `C94_patch` states the resulting criterion for whole bonds in terms of patch states. It is met if nothing is truncated and the dtype is real (`C94_exact_partial`, `C94_bond_partial`, `C94_run_partial`). The property itself is false: `C94_violated_truncation` (real, positive definite norm tensor, two singular values 2 and 1: all pairs with the leading singular vector are orthogonal to the gated pair, so every library raises) and `C94_violated_complex` (initial guess conjugated, as in C39). |
| C95 | No new model. Each half step with the Cholesky method minimises the cost plus als_epsilon times (largest entry of the matrix) times (squared norm of the new tensor) (C35). The largest entry is, up to constants that depend on the norm tensor only, the squared norm of the tensor held fixed (`absMax_r1_le`, `size3_le_r1`; the lower bound uses that the norm tensor is positive definite after the positive approximation and the gauge, `rootInj_bound`). So the quantity (cost minus least cost) + als_epsilon times (strength times size) grows by a constant factor per half step at most, and the first half step starts from a pair that could be exact (`start_proportional`); after all iterations the cost is the least one up to als_epsilon times a constant (`alsSolve_close` in `Lemmas/PinvError.lean`), and the positive norm tensor turns this into a distance (`C95_reduced`, `C95_bond`). `C95_not_exact`: with the norm tensor diag(1, 2) on the first leg, the regularisation tilts the first tensor in every pass, for every als_epsilon and library. `C95_pinv`: the pseudo-inverse drops the modes with eigenvalues up to als_epsilon times the largest one; on them the cost loses at most als_epsilon times the largest eigenvalue times the squared size of any comparison tensor, on the others the size is bounded in the same way (`pinvH_near`), so the same quantity grows by a constant factor at most (`first_near`, `second_near` for both methods). |
| C96 | No new model. The solver starts from the truncated singular value decomposition of the gate-applied pair, which is the best pair for the plain norm (as in C40); the positive norm tensor is between two multiples of the identity (`cost_between`, `rootDist`), and for real dtypes the second tensor of the start can be completed to that best pair (`start_completes`; with gauge fixing the legs are changed by invertible matrices, `legs_le`, `rootDist_gauged`). `alsSolve_near` (in `Lemmas/PinvError.lean`) carries this through all half steps, with the regularisation of the Cholesky method or the cutoff of the pseudo-inverse: the cost minus its least value grows by at most a factor. `reduced_nearer`: passing from site tensors to reduced ones loses nothing, so the comparison is with all site tensors. `C96_returns`: a start that could be completed to a small error cannot be orthogonal to the target, so that the criterion of C94 is met. False for complex dtypes (`C96_violated`: the conjugated start of C39, a pair that fits exactly and the identity as gate, gives zero tensors). |
| C97 | No new model. The state of the lattice is a sum over bond indices of products of the two-site tensors of all copies of the bond (`pairState`, `netState_pairs`, `latticeState_pairs`; other legs and sites as spectators); a product of bounded factors is Lipschitz (`norm_prod_sub_le`, `pairState_close`), so `latticeState_close`, `C97_local`: the error of the lattice is at most a factor times the local error, for real and complex tensors and any update of the two sites. `fullBondStep_recomposed` says what a full update in a run with moves does to the site tensors; with the local bound of C96 this gives `C97_full_partial` (real dtypes). `simple_quasi`: weights that can be divided out change the distances of C40 by at most a factor; `C97_simple_partial` for real and complex dtypes. `Spec.LatticeErrorBounded 𝕜` is the statement for any scalars, true for the reals (`C97_real_partial`) and false for the complex numbers (`C97_violated`: updating a product state with the identity gives zero tensors). Not true either for complex full updates in the local form (`C96_violated`) and weights that cannot be divided out (`C41_violated`). |
| C98 | No new model. `exp(-dtau h)` is within a multiple of `dtau` of the identity (`calculateGate_close`, `twoSiteGate_close`), so the unchanged tensors are a good truncation; C96 gives the existence and the error of the returned ones (`recomposed_small`, `C98_bond_partial`) and C97 (`state_close`) the lattice (`C98_full_partial`, `C98_simple_partial`). False for complex full updates, even with time step zero (`C98_violated`). The time step and the factor depend on the tensors: nothing is claimed uniformly along a run. |
| C99 | No new model. A symmetry is a change of basis that maps the start and the model to themselves, so C84 (`C99_simple`), C75 (`C99_sweeps`) and C85 (`C99_full`) compare a run with itself; unitarity fixes the factor to one (`symmetricState_of`). `C99_site_operator` gives the turned form of one-site operators of the lattice. The example for the simple update is the Ising model with bond dimension one for any number of steps, where every update truncates (`zz_clear`). The no-tie conditions are needed: with a tie at the cut the library chooses the vector that is kept. |
| C100 | `Model/DistSave`: the ranks as processes that open, write byte by byte, close and read back, interleaved by any schedule. **Violated** for two or more ranks with the same file name (`C100_violated`): `save` ends with `self.load(filename)`, and a rank that reads while another one has just opened the file finds it empty and raises. It holds if no rank opens the file after another has begun and before it is through (`C100_own_partial`: the rank that opens last always gets its state, and then the file holds it), if all ranks have closed the file before the first one reads, as with a barrier before the `load` (`C100_barrier_partial`), if the ranks save in turns (`C100_turns_partial`), or with different file names (`C100_names_partial`). |
| C101 | `SameEnvironment`: related by `Spec/LinkChange` with the identity on the sites. `related_run` (two runs of the same moves from related networks stay related) is applied to the converged network and to the network after any number of sweeps; with transitivity (`Lemmas/LinkTrans`) every further sweep stays in the class (`C101_period`, `C101_converged`), and `C73_values` gives the measured values (`C101_values`). Only the sweep in which convergence is seen needs the drop of the singular values. `C101_product` shows a class of converged networks: with bond dimension one all boundary tensors are positive numbers up to phases that cancel on every bond (`Lemmas/Phased`). |
| C102 | The schedule of a run that starts from the list left behind is the schedule of the run before backwards (`schedule_back`), so by `C76_run` the accumulated gates of the two runs cancel factor by factor (`C102_back`); `C102_parts` compares two runs with one (at the level of the lattice state this holds also where C06 fails for the tensors); for diagonal matrices all generators commute and the product is one exponential (`C102_diagonal`). `C102_simple_back`, `C102_full_back` are the two updates of the code; between the calls the boundary tensors may be anything, as `Ipeps.evolve` renormalizes there. |
| C103 | Every gate is multiplied with a positive number (`C103_gates`). `Lemmas/Scale` follows such a factor through every function of the two updates: the singular values are divided by their norm or by the largest one, the cost and the regularisation by the largest entry scale along, so the factor drops out. Simple update with any routines and any choice among the decompositions: `C103_simple` (through C84, with the clear drop of the singular values). If the decompositions of a multiple are the multiples (`Spec.Homogeneous`; such routines exist, `exists_homogeneous`), the results are identical (`C103_simple_same`, `C103_full`). `als_tol` is compared with a ratio of costs: `Spec.RatioTest` says this is evaluated independently of the scale, as in exact arithmetic. `Meas.C103_measure` is the energy. |
| C104 | A gate acts on an eigenvector as a positive number (`vecMul_calculateGate`), so nothing is truncated and C39/C40/C76 say the new pair of tensors is a multiple of the old one. That alone does not say what the two tensors are: `Lemmas/Tight` shows that each of the new tensors is the two-site tensor contracted with something on the other side (the singular values are divided out; a vector with singular value zero contributes nothing), so each tensor is the old one with a matrix on the leg of the bond (`Spec.LegMul`). Other bonds use other legs (C03), so their two-site tensors are eigenvectors still (`LocalEigen.still`). `C104_simple`, `C104_full` (whole programs with environments, whether they raise or not), `C104_eigenstate` (energy; derivative of the exponential). |
| C105 | The conversion of the dtype is a homomorphism of star algebras φ (`ofRealHom`); the lemmas `Lemmas/FieldMap*` carry φ through every definition of the full update, the moves, the gates (`hom_exp`: φ is continuous) and the measurements, `Lemmas/FieldSession` through sessions. A library of the complex dtype follows the real one if it returns the converted factors on converted matrices (`Spec.LibraryFollows`); one exists for every real library (`exists_follows`, `C105_library`). `C105_session_partial`: sessions without simple updates. `C105_any_library`: boundary moves with any complex library (from C73). Found: the simple update raises in a complex dtype whatever the data (C40), so the statement for all sessions is false: `C105_violated_simple`, `C105_violated`. |
| C106 | The lemmas behind C105 with conjugation (`Spec.conjHom`) as φ; `Lemmas/FieldSimple` adds the simple update, so that all sessions are covered (`C106_session`; a following library exists, `C106_library`). `C106_odd_session`: all tensors of a session with real data are real, so the contraction of a density matrix with an imaginary operator has no real part. `C106_any_library` and `C106_odd_sweeps`: boundary moves with any library: the network is its own conjugate and C73 says that two runs from it measure the same. |
| C107 | No new model. `Spec.ScaledTerms`: the terms of one model are a multiple of those of another. `bondHam` is linear in the terms, so the gates are equal (`C107_gates`); the gates are the only place where sessions see the model and the time step, so runs are equal as states (`C107_session`, `Spec.SameUpToUnits` for pairs of calls). `C107_measure`: values are linear in the operators, whatever the norms are (no hypothesis on them). `C107_couplings`: the terms of the built-in models are multiples, in real and complex dtypes, with missing couplings raising on both sides. |
| C108 | `Model/Backend`: the full update and the sessions of `Session` with the solver replaced by the model of the native one (`Native.alsSolve` on contiguous buffers with arbitrary content of fresh memory), per call of `evolve`. `C108_bond`, `C108_session`: a script that runs to its end with torch runs to its end with the same state when any of its calls use cutensor (C61 per solve; regulariser nonnegative if the method is Cholesky). `C108_pinv`: with the pseudo-inverse both backends do the same for every script, exceptions included. Exceptions differ with Cholesky: the extension ignores the status of the factorisation and never raises (`C108_never_raises`), and `C108_violated` has a positive definite norm tensor and a positive regulariser for which the torch backend raises. |
| C109 | `Model/SimpleEvolve` and `Model/FullRun` side by side at bond dimension one (`Lemmas/RankOne`, `Lemmas/MeanField`): the norm tensor is a positive number whatever the boundary is, every pass of the least-squares solver keeps the pair on the leading singular vectors of the gated pair for either solver and any number of passes, and the weights of the simple update stay one. `C109_evolution_partial` (bond list, exceptions, site tensors up to nonzero factors), `C109_states_partial` (states and expectation values on every finite lattice). Partial: real dtypes; the largest singular value must not be degenerate (else the best product is not unique), the regulariser must be nonnegative (Cholesky) or below one (pseudo-inverse) and the gauge-fixing threshold below the root of the cutoff, as for the defaults. `C109_violated_complex`: in a complex dtype the simple update raises on its first bond and the full update does not. |
| C110 | `Model/Session` at bond dimension one (`Lemmas/MeanSession`, `Lemmas/ProductEnergy`). The invariant of a session: the boundary tensors are the site tensors contracted up to nonzero numbers (the notion of C68 and C91), the boundary dimension is positive and no site tensor is zero; kept by every directional move for every kind of SVD and projector as one singular value is nonzero and never cut off, by every bond update of either kind because the best product approximation of a nonzero pair is not zero, and by every call. `C110_values`, `C110_returns` (with C33/C88 this drops the restriction to the pseudo-inverse), `C110_energy` (the energy per site equals `energyOf` the lattice Hamiltonian of C83 in `latticeState`, divided by the number of sites, for every covering), `C110_variational`. Hypotheses: real dtype, projector cutoff in [0, 1), sketches that are not zero (with probability one they are not), solver settings as in C109, nonzero starting tensors. |
| C111 | `Spec/MeanTheory` (time-dependent mean-field theory: vectors and nearest products), `Lemmas/MeanTheory` (runs are unique up to factors where nearest products are), `Lemmas/MeanSmall` (they are after small time steps, by Eckart–Young and a bound on the exponential), `Props/MeanTheory`. Refinement: each bond update of either kind is one `MeanStep` on the vectors of the network (`MeanNet.fullStep_mean`, `MeanNet.simpleStep_mean`), the loops are `MeanRun`s over the schedule of C05, sweeps and `set_chi` are steps that change nothing. `C111_refines`, `C111_unique`, `C111_settings` (hypothesis: no step has a choice), `C111_small` and `C111_settings_small` (small time steps, no such hypothesis). Other hypotheses as in C110. The gates are those of the model of gate.py, whose meaning is C27. |
| C112 | Variational argument on top of C40 and C111. `Lemmas/GateMean.lean`: in an inner product space, with `S` symmetric and injective, a multiple of `x'` at least as close to `S²x` as all multiples of `x` has `‖Sx'‖/‖x'‖ ≥ ‖Sx‖/‖x‖` (Cauchy–Schwarz twice), with equality only for multiples of `x`. `C112_simple`: the square root of the gate is the gate of half the time step, and the old pair is one of the pairs the update could have returned, so C40 gives the hypothesis; all bond dimensions, real and complex. `C112_full`, `C112_simple_measured`: the same for the measured values at bond dimension one after any script, from the mean-field steps of C111 and the exact values of C110. For the full update at larger bond dimensions the alternating least squares stop at a local optimum (C35), so the claim is not made there. |
| C113 | `Props/FreeSites`, `Props/FreeSession`. `C113_gate`: `exp(A⊗1 + 1⊗B) = exp A ⊗ exp B`, so gates are products and a gated pair always fits in the bond dimension (`fits_product`). `C113_commuting`: whenever the bond terms commute on the lattice a run of exact updates has no Trotter error (this contains the diagonal models of C102). `C113_full`: both together with `runFits_exact` of C86, no hypothesis about truncation is left. `C113_ground`: C83 without the condition on the time step. `C113_session`: at bond dimension one, from the mean-field theory of C111: the nearest product to a product is that product, each site is an end of four bonds (`touches_sum`, from `sum_bond_ends`), and the values are those of C110. Settings of the full update at larger bond dimension: pseudo-inverse with `als_epsilon = 0`; real dtype. |
| C114 | `Model/BuiltIn`, `Props/BuiltIn`, `Props/BuiltInSession`, `Props/NeelSession`. The hooks of the two built-in models are evaluated to explicit matrices (`C114_*_terms`). `measured_vectors` turns `measure` after any script at bond dimension one into averages of `polX`, `polZ`, the expectation values of the spin components in the vectors of the sites. Bounds: each site is in four bonds, `polX² + polZ² = 1`, one quadratic inequality per site (`ising_site`); sharp by `C114_ising_sharp`. Paramagnet: C113 and the flow of `(cosh a, sinh a)`. Néel state: triplet and singlet are eigenvectors of the gate, and the nearest product to `c|01⟩ + d|10⟩` with `|d| < |c|` is `|01⟩` alone (`bestProduct_antiparallel`). |
| C115 | `Props/MeanRanks`. The refinement of C90 (ranks with half-system projectors behave like one process with their random numbers) composed with C110, C111 and C114; sensible scripts never raise at bond dimension one (`run_mean`), so scripts with and without `try` agree. Full-system projectors on several ranks are left out: there the ranks do not refine one process (C90); C117 treats them in another way. |
| C116 | `Props/Cooling`. C113 (exact evolution of independent sites) composed with the descent of the energy under `exp(-tH)` (`Lemmas/EnergyDescent`, an inequality of Chebyshev in the eigenbasis), with the measured energy of C110 and with `ground_reached` of C83 for every site. |
| C117 | `Lemmas/MeanRanks`, `Props/RanksTheory`. The network after a pair of moves shared between ranks is computed explicitly (`staleAfter` in `Lemmas/DistMove`: the second half with the projectors of the network before the first). At bond dimension one all boundary tensors are numbers times fixed vectors; a move with any projectors whose cuts are numbers of opposite phases keeps this form (`Phased.after_cuts`), so the invariant of C110 holds on every rank although the ranks refine no single process. Mean-field theory and its uniqueness (C111) then compare ranks and processes. |
| C118 | `Props/RanksExact`. `Spec.Determined`: any two solutions of mean-field theory from the same start agree up to factors; shown for independent sites (C113) and for the Néel state (C114). With it and C117 the results of C113, C114 and C116 hold on every rank; the bounds of C114 hold for any object with the invariant of C110 (`ising_bound_of`, `heisenberg_bound_of`), hence on ranks without any condition on the script. |
| C119 | `Props/Descent`, `Lemmas/FirstOrder`. Spec: `Spec.meanEnergy` (energy of the cell in a product of vectors, written with the terms of the model) and `Spec.StationaryEnergy` (derivative zero along every change of one vector). A nearest product of a pair after a gate `1 - τK` is, up to factors, the pair minus `τ` times the contractions of the bond Hamiltonian (`near_step`); by induction over the bonds of a run and over the calls of `evolve` the vectors move against the sum of these forces (`near_run`, `near_field`), and the slope of the energy is minus twice the total time of the calls (numbers of steps times time steps, in units of `τ`) times the squared norm of the forces orthogonal to the vectors (`energy_slope`, `across_self`). They vanish exactly if the energy is stationary (`stationary_of_forces`, `forces_of_stationary`). So the energy changes by `-TτR + o(τ)` with `Tτ` the total time and `R` zero exactly in the stationary case (`C119_rate`, for sessions and ranks `C119_measured`), and falls otherwise (`C119_run`, `C119_descent`). C111 and C117 carry it to sessions and ranks. The bound on the time step is not explicit. One-site terms must be everywhere or nowhere, since the gates leave some out otherwise (C70). Scripts may call `evolve` any number of times with the same model, the time steps in fixed ratios (`Spec.Scaled`). Example: Ising interactions with a field along them, from spins in the plane. `Props/IsingDescent`: the built-in Ising model from spins up (`C119_ising`); the derivative along a tilt of one spin is that of the odd part, which only the field has. The pull on every spin is the field, so the rate is `2 hx²` per site (`C119_ising_rate`). |

## Mutation testing

`seeded/LOG.jsonl` has one line per wrong program: the definition edited in a scratch copy of the model, the edit, the
claim it breaks, which declarations stopped compiling, and which theorems were tightened as a consequence.  Edits are
realistic slips (swapped index, wrong neighbour, missing conjugate, wrong loop bound, exchanged branch, off-by-one,
missing wrap-around).  Theorems strengthened or added after a surviving mutant are named in `theorems_tightened`; examples
are `C05_exception` (an exception swallowed inside a step) and `C23_progressbar` (a default flipped).

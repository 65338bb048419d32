# Design of the formal model of SlowQuant

Everything is in Lean 4 (`/verif/lean`), built with `lake build`; no dependency besides Mathlib.

## Layout

* `Verif/Spec/*`  – small specifications that do not mention the model: Fock space, determinants, qubit states
  and gates, Gaussian integrals, trigonometric polynomials, and so on.
* `Verif/Model/*` – the model: total functions mirroring the Python functions branch by branch; each definition
  cites the file and lines it models and states its simplifications.
* `Verif/Lemmas/*` – helper lemmas.
* `Verif/Props/*` – the property theorems, named after the property (`C01_...`), each followed by an `example`
  in which the hypotheses are met by a concrete non-trivial case.
  * `..._partial`: a restricted form of the property; its comment says what is missing.
  * `..._disagree` (also `..._violated`, `..._raises`): a witness that the program does not do what one expects.
* `properties.jsonl` – the properties in English. `MANIFEST.json` – property, status, theorem names.
* `seeded/LOG.jsonl` – the wrong programs the theorems were tried against.
  * `failed_first`: the declarations Lean reported. `theorems_failed`: theorems of the claim that are among these or
    whose proof uses one of them. `theorems_not_built`: theorems of the claim that were not reached, as their module or
    one that it imports did not build; whether they would fail is not known. Only modules named for the test were built.
  * Versions of the log before 591 lines gave both kinds as `theorems_failed`, which overstated it in 498 lines, and
    named the wrong definition in seven. Four rejections had stopped at a lemma that the claim does not use; they were
    repeated past it. Six lines also named the declaration before the one that failed. One test (m403) ran into the
    time limit; it was repeated as m466.

## Trusted base

1. Lean's kernel (4.33.0) and the definitions of Mathlib that occur in the statements.
2. Axioms: no theorem uses more than `propext`, `Classical.choice` and `Quot.sound`; nothing is added.
   `AXIOMS.txt` lists the axioms of every theorem named in `MANIFEST.json` (output of `#print axioms`).
   There is no `sorry`, `admit`, `native_decide` or `bv_decide`. `decide +kernel` is used for a few finite
   tables that are complete (not samples), and in examples.
3. The reading of /repo that produced `Verif/Model`. /repo was read as text and never executed.
4. The specifications in `Verif/Spec`: they fix what words such as "determinant", "exponential", "post-selected
   distribution" mean.
5. Idealisations used throughout (repeated where they matter):
   * Floating-point numbers are elements of a field (ℚ, ℝ, ℂ or any commutative ring). Rounding is not modelled.
   * Cut-offs such as `abs(x) < 1e-14` are modelled literally where the property is about them (C02, C26's
     `effAngle`, C42, C66, C88). Elsewhere they are a parameter `tiny`/`big` assumed to drop exact zeros only
     (`ExactTiny`, `ExactBig`), since otherwise exact statements are false.
   * `int64` bit masks are natural numbers; `C20_no_overflow` gives the range in which no overflow happens.
   * Exceptions are values (`Except PyErr`); dictionaries are association lists in insertion order; generators are
     the lists of what they yield; in-place updates return the new value, and aliasing is modelled where a
     property is about it (C03, C58).
   * `while` loops are bounded recursions; that the bound is never reached is proved (C04, C43, C52), or its
     failure is (C53).
   * Library calls are their documented exact meaning, or parameters with explicit hypotheses:
     `np.linalg.eigh`/`solve` (`LibOK`), `scipy.linalg.eig` (`LRLibOK`), `expm_multiply` (matrix exponential),
     `np.einsum` (its sum), `math.erf` (the error function), SciPy minimizers (any sequence of callback calls and
     any result), Qiskit primitives (a function returning a distribution), numba `prange` (any schedule that runs
     every iteration once).
   * Qubits: qubit `i` is component `i` of a basis label; measured integers and Pauli labels have qubit 0 last.

## What is modelled

| file (slowquant/) | modelled | not modelled |
|---|---|---|
| unitary_coupled_cluster/fermionic_operator.py | all arithmetic, normal ordering, dagger, folding, text forms (FermionicOperator, FermionicInplace, FermionicFold, FermionicText) | `__init__` type checks, copying |
| unitary_coupled_cluster/operators.py | all builders, including the property and Hamiltonian operators (Operators) | – |
| unitary_coupled_cluster/ci_spaces.py | all (CISpaces) | numba containers |
| unitary_coupled_cluster/operator_state_algebra.py | bit counting, operator application (serial, threaded, state-averaged), matrices, expectation values, UCC and unitary product states, gradients' helper expansion on the Hartree-Fock determinant (StateAlgebra, UccState, Ansatz, UpsGradient, QuantumTransfer) | |
| unitary_coupled_cluster/util.py | all iterators and both structure classes (Iterators, Structures) | printing |
| unitary_coupled_cluster/density_matrix.py | all (Density) | |
| unitary_coupled_cluster/ups_wavefunction.py, ucc_, sa_ups_ | constructor's orbital spaces, parameter setters, caches, RDM1 to RDM4, energies, gradient, callbacks, `check_orthonormality` (OrthoCheck), both optimization drivers, choice of the ansatz by name, energies and transition properties of averaged states (OrbitalSpaces, WaveFunction, Density, HigherDensity, UpsGradient, AnsatzChoice, StateAverage, SaStates) | printing |
| unitary_coupled_cluster/optimizers.py | RotoSolve (Optimizers), the evaluators it is given (RotoEvaluator), several states (StatesRoto, SaCircRoto), circuits (CircRoto) | SciPy minimizers themselves, printing |
| unitary_coupled_cluster/integral_manager.py | all (IntegralCache) | PySCF object |
| unitary_coupled_cluster/linear_response/lr_baseclass.py | operator lists of the constructor (Response), roots, norms, oscillator strengths (LinearResponse) | |
| unitary_coupled_cluster/linear_response/naive.py, projected.py, allprojected.py, statetransfer.py, projected_statetransfer.py, selfconsistent.py, allstatetransfer.py, allselfconsistent.py | constructors (Response, ResponseProjected, ResponseTransfer, ResponseExtended), transition dipoles (ResponseDipole, ResponseExtended) | printing, timers |
| qiskit_interface/util.py | cliques, flags, layouts, routing, post-selection, determinant circuits, `f2q`, reordering sign, `layout_conserving_compose` (Cliques, Layout, Determinants, QiskitOrder, TranspileCsf) | the Qiskit transpiler |
| qiskit_interface/interface.py | shot settings, saver, pooling, variance, CSF expectation values, saved and fresh evaluation of operators, read-out correction of a distribution, calibration and mitigation without layout, choice of the ansatz by name, settings of transpilation, placing of measurements and of CSF circuits (Interface, Variance, Determinants, Layout, Sampler, ReadOut, AnsatzChoice, Transpile, TranspileCsf) | the pass managers themselves, samplers, calibration with a custom circuit or with a layout, printing |
| qiskit_interface/operators_circuits.py | Jordan-Wigner excitation circuits and `upslayout2circuit` (Circuits); evolutions for other mappers (Trotter) | mappers that drop qubits; the operator mapping of qiskit_nature itself (contract `PauliMapper`) |
| qiskit_interface/circuit_wavefunction.py | parameter-shift gradient, orbital spaces, rdm1 to rdm4, energy, parameters, cached quantities, optimization drivers, `precalc_rdm_paulis` (Optimizers, OrbitalSpaces, CircuitWave, HigherDensity, CircuitCache, CircEnv, Precalc), `check_orthonormality` (OrthoCheck) | rebuilding of the circuit after a change of the primitive, counting, printing |
| qiskit_interface/sa_circuit_wavefunction.py | rdm1, rdm2, energies, states, transition properties, averages used in optimizations, parameters, cached quantities, optimization drivers (StateAverage, CircuitCache, SaCircEnv), energies of all states for RotoSolve (SaCircRoto), `check_orthonormality` (OrthoCheck) | rebuilding of the circuit after a change of the primitive, printing |
| qiskit_interface/circuit_wavefunction_from_ups.py | `circuit_wavefunction_from_ups` with the constructors it uses (FromUps, SaStates) | settings of the sampler |
| qiskit_interface/linear_response/* | constructor and roots of the base class, `run` and transition dipoles of naive.py, projected.py, allprojected.py, statetransfer.py, selfconsistent.py (QuantumResponse, QuantumDipole, QuantumTransfer, LinearResponse); `run_std` of naive.py, projected.py and allprojected.py (QuantumStd, ProjStd); `_get_qbitmap` of these and the counts of lr_baseclass.py (QubitMap); the analysis of deviations, trends and contributions of lr_baseclass.py (StdAnalysis); `get_operator_info` (OperatorInfo) | `run_std` and `_get_qbitmap` of the other classes, condition numbers and formatting of what is printed |
| molecularintegrals/*.py | all recursions, drivers, screening, Boys function, transforms, caches (Integrals, MolIntegrals, Transforms, IntegralCache) | |
| molecule/moleculeclass.py, basis_reader.py, moleculefunctions.py | shells, numbering, electron counts, repulsion, basis files from the level of lines (Molecule, Integrals); reading of coordinates from strings and xyz files (MoleculeInput) | parsing of a number, opening of a file, characters outside ASCII |
| molecule/constants.py | names, charges and masses (MoleculeInput) | |
| hartreefock/*.py | DIIS, RHF, UHF, properties (HartreeFock) | logging |
| SlowQuant.py | the facade's caches (IntegralCache), sharing of objects and Hartree-Fock objects (Session) | |
| logger.py | `_Logger` (Session) | |

## Where the program does not do what one expects

Each item is proved (theorem named) or, without a name, a remark from reading.

* C05, C06: normal ordering drops the constant of a full contraction (`C05_violated`, `C06_violated`).
* C03: `x -= x` raises `RuntimeError` for nonempty `x`, since the dictionary shrinks while it is iterated.
* C07: the dagger of a one-operator string raises `IndexError` (`C07_single_raises`).
* C13: folding is wrong for strings that do not conserve the particle number in the inactive space, and for
  indices outside the partition (`C13_nonconserving`, `C13_range_needed`).
* C17, C18: no active orbitals raises `ValueError`; excitation orders 0 and below act as 1.
* C20, C21: the serial kernel assumes number-conserving strings (`C20_nonconserving`); the threaded kernel drops
  amplitudes silently or raises when the serial one does not (`C21_threaded_disagrees`).
* C35: generalised spin-orbital doubles contain vanishing excitations and miss others
  (`C35_generalized_doubles_disagree`).
* C36: SDSfUCC with `pD` emits an entry no ansatz function accepts (`C36_sds_pair_doubles_disagree`).
* C38: odd numbers of inactive electrons and active spaces larger than the molecule are accepted.
* C39: `rdm3`/`rdm4` of a fresh `WaveFunctionUPS` raise `AttributeError`; the number of orbital parameters is not
  checked.
* C40, C41, C78: `WaveFunctionUCC` keeps stale orbital parameters after a two-step optimization; the minimizer's
  orbital result is not used; a second one-step optimization raises `ValueError`. With `maxiter=0` the two-step
  driver reads an unbound `e_new`.
* C42, C44: convergence within the threshold may miss the best visited point; with several states the
  reconstruction divides by the wrong number; at angles a nonzero multiple of 2π from a sample it divides 0 by 0.
* C47: the flag constructor does not validate. `get_empty_heads` reads an attribute that does not exist.
* C50, C51, C53: a longer reference list is accepted; the first version of the layout correction is wrong for
  cycles; the routing loop never ends on a ring; the documented direction of the permutation is inverted.
* C54: the parity mapping post-selects the sector with alpha and beta exchanged, and is wrong for odd numbers and
  for the unreduced mapping.
* C56, C58, C76: reversed CSF order can raise; writing into the list returned by `parameters` keeps old data;
  `no_coeffs` is ignored in the grouped branch. Also: `update_pass_manager`, the ISA setter and
  `construct_circuit` rebuild the circuit without clearing saved data; the key of a superposition circuit
  collides with that of a determinant when the bra is the vacuum string.
* C57: a maximum of 0 shots raises `ZeroDivisionError`; raising the maximum later does not restore a request.
* C89, C90: `double_excitation` accepts excitations from or to one spin orbital twice and fails in qiskit; the option
  `GD` of `create_fUCC` asks for them, so it has no circuit (`C90_generalized_doubles_disagree`). The docstring of
  `sa_single_excitation` has a factor 1/√2 that the circuit does not have.
* C64, C66, C81, C82: negative electron numbers are accepted; odd numbers lose an electron in RHF, small bases drop
  electrons; UHF raises `IndexError` when all orbitals are filled; the mixed LUMO of the UHF guess is computed from
  the overwritten HOMO (a numpy view), without effect on the density (`C81_lumo_disagree`); spin contamination for
  more beta than alpha electrons has an offset.
* C65: two equal error matrices make the DIIS system singular.
* C95, C99: the mixed blocks of projected and all-projected linear response leave out terms with the orbital gradient.
* C104: without density matrices the quantum class mirrors lower triangles that are not symmetric; the difference is
  the orbital gradient (`C104_mirror`).
* C105: in the quantum classes nothing bounds the left-out gradient terms of the mixed blocks. The cost estimate
  `_get_qbitmap` of allprojected.py overwrites its sum (`=` for `+=`) and needs `run` to have been called; that of
  naive.py uses another truncation of the Hamiltonian than `run`.
* C109: without active operators the circuit classes raise `IndexError` when normalising the excitation vectors
  (`self._Z_G[0]`); the classical classes do not (`C109_orbital_only_disagree`).
* C111: the Hessian blocks are the nested commutators mirrored, not the symmetric double commutators of the classical
  class (C100); they differ by half of `<[H, [X_i^+, X_j]]>` (C104), so at states that are not stationary the two
  classes give different matrices.
* C112: with `skip_orbital_rotations` the matrices have the size of the active operators, but eigenvectors are cut at the
  number of orbital rotations plus that of active operators; normalising raises (`C112_skip_disagree`).
* C113: with `do_pp` the initial circuit prepares the perfect-pairing determinant, but data are filed under the
  Hartree-Fock determinant, so a later evaluation of that determinant reads them (`C113_pairing_disagree`); the same
  happens for unequal numbers of alpha and beta electrons. The vacuum string in a superposition gives a wrong value
  (`C113_vacuum_disagree`).
* C110, C111: at least one active electron is assumed, since the interface is exact for such determinants only.
* C115: `WaveFunctionUPS` accepts fUCCpD and SAfUCCSD, but tests for the misspelt `fuccspd` and `safuccspd` when setting
  their excitations, so both raise `ValueError` (`C115_names_disagree`). The dictionary of options is changed in place:
  used again for another ansatz it adds excitations or raises (`C115_shared_disagree`). For QNP the option `do_pp`
  changes the reference of the interface but not that of the classical class (`C115_pairing_disagree`). Letters of
  `WaveFunctionUCC` that name no excitation are ignored silently.
* C116: `_do_state_ci` uses `scipy.linalg.eig`, whose vectors for a repeated energy need not be orthogonal; orthogonality
  is therefore claimed for different energies only.
* C119: the `kappa` setter and `change_primitive` of `WaveFunctionSACircuit` do not reset `_state_ci_coeffs`
  (sa_circuit_wavefunction.py 220-234, 300-339), so transition properties asked for before `energy_states` use the states
  of the old orbitals or primitive; `get_oscillator_strenghts` combines them with the new energies, and calling it twice
  gives two results (`C119_stale_disagree`). The class that works with vectors resets them for `kappa`
  (sa_ups_wavefunction.py 311).
* C119: `_state_ci_coeffs` is not set in the constructor; on a new object both methods raise `AttributeError`
  (`C119_fresh_disagree`). sa_ups_wavefunction.py does not set it in its constructor either.
* C78: `run_wf_optimization_1step` with orbitals cannot be repeated on circuits either (`C78_circuit_disagree`).
* C121: `WaveFunctionSAUPS` assigns coefficients instead of adding them (sa_ups_wavefunction.py 235), so a determinant
  that is given twice for a state keeps its last coefficient, and such a state can be accepted as normalised although it is
  not; the circuit class adds the coefficients (`C121_duplicate_disagree`). A determinant with a wrong number of
  electrons raises `KeyError` without a message.
* C124: the masses of 34 elements, technetium among them, are `False` in constants.py, which counts as 0; the center of mass
  of such an atom divides by zero (C124_mass_disagree). A molecule of one atom cannot be given as a string without ";". A
  blank line at the end of an xyz file raises an IndexError, while blank pieces of a string are skipped. Words after the
  third number are ignored without notice.
* C125: set_basis_set changes the shared molecule in place. A Hartree-Fock object made before it keeps its integral object,
  whose arrays are then of the old basis set if they had been read and of the new one if not (C125_mixed_disagree). When
  set_molecule fails in reading the basis set, the new molecule stays together with the integral object of the old one, and
  init_hartree_fock accepts the pair (C125_failed_disagree).
* C126: add_to_log calls `self.log.join(content)` and drops the result, so `log` is always empty (C126_log_disagree).
* C132: update_mitigation_flags(do_M_ansatz0=True) keeps the matrix measured without the ansatz and uses it
  (C132_stale_disagree). redo_M_mitigation measures a new matrix, but saved data corrected with the old one stay in use
  (C132_again). The calibration with the ansatz uses the parameters 1e-8, not 0.
* C137: `ISA = False` after a transpilation keeps the transpiled circuit, which is then measured as if it had no layout
  (C137_isa_off_disagree; with read-out mitigation a ValueError is raised). update_pass_manager puts the options into the
  settings before it checks their names, so that a refused name makes every later update fail
  (C137_unknown_option_disagree). A change of layout keeps the read-out matrix of the old qubits; _check_layout_conflict
  compares the circuit with the new layout and finds nothing (C137_matrix_disagree). update_pass_manager switches ISA on.
  The dictionary given to the constructor is kept and changed, so that two interfaces made with the same one share it.
* C138: ISA_csfs_option 3 and 4 read `pass_manager_options.get("backend").coupling_map` and so raise an AttributeError
  for a transpilation without a backend (C138_no_backend_disagree), although layout_conserving_compose has a branch for
  circuits without a layout.
* C139: `run_std` of projected and all-projected linear response reports the deviations on the diagonal of the active
  blocks too small: `Var(G^2)` is computed as `(g^2 + v)^2 - g^4`, the variance of a product of two independent copies
  of `G` (for a symmetric two-point distribution the true value is `4 g^2 v`, the reported one `2 g^2 v + v^2`).
  For mixed entries of `B` the weight is `1/2` where `1/4` would be exact, so these are reported too large.
* C140: `_get_qbitmap` of allprojected.py assigns `val` twice for `B` (`=` for `+=`, lines 193-194), so that the labels of
  `H G_i` are not listed for entry `i`, `j` with `i` not `j` (`C140_active_disagree`: with one occupied and two unoccupied
  active orbitals the entry is not fixed by what is listed). It needs `H_2i_2a`, which only `run` sets: before `run` it
  raises `AttributeError` when there are orbital rotations. Without parameters all maps raise `IndexError` when counting.
  The map of naive.py uses `H_1i_1a` where `run` uses `H_0i_0a`; this does not matter (`C140_naive`).
* C141: `run_std` ends with `_analyze_std`, which reads `self.hessian`: before `get_excitation_energies` all measurements
  are made and then `AttributeError` is raised. With exactly one response parameter it raises `IndexError`
  (lr_baseclass.py:177). `_get_CV_trend` raises `AttributeError` when the analysis per operator was "not possible"
  (line 266 returns before the rows are kept), and gives nan when a row of a matrix has only small entries.
* C143: `_calc_energy_rotosolve_optimization` stores the shift in `np.asarray(parameters)`: with `thetas = [0, 0]` (all
  Python ints) the first sweep of RotoSolve samples at shifts rounded towards zero. The one of `WaveFunctionSAUPS` adds
  `num_states` to the number of energy evaluations whatever the number of shifts (line 1080).
* C146: the docstrings of `check_orthonormality` give `C S C^T = I`; the code checks `C^T S C = I`, which is the
  orthonormality of the orbitals. The two differ (`C146_formula_disagree`).
* C96: state-transfer linear response assumes the closed-shell reference. For tUPS with `do_pp` an excitation that
  kills the perfect-pairing determinant gets norm 1 and diagonal element `-E` (C96_pairing_disagree).
* C67: the norm routine leaves out a coupling block of the metric.
* C68: changing the screening threshold does not invalidate cached integrals; replacing the molecule through the
  facade can leave stale ones.
* C74: probability assigned to outcomes that were not measured is dropped.
* C79: shells beyond f are dropped silently.
* C88: from order 12 on only the first term of the Boys series is kept below 25 (factor 2.8 at z = 25).
* The docstring of the repulsion driver states the Cauchy–Schwarz inequality in the wrong direction.
* `circuit_wavefunction.py`: `_get_hamiltonian(qiskit_form=True)` passes the number of all orbitals where the
  number of active ones is meant.
* `get_orbital_response_hessian_block` allocates a square array; the two index lists must have equal length.

## How the properties are proved

| properties | method |
|---|---|
| C01–C03 | operators as insertion-ordered dictionaries; denotation into endomorphisms of the Fock space; coefficient-wise lemmas for dictionary updates; a heap of objects for aliasing |
| C04–C06 | queue and bubble passes of the ordering loop; inversion-count measure for termination; invariant 'value emitted + value of queue' by anticommutation relations |
| C07–C12, C14, C69 | corollaries through the denotation; parsing back of rendered keys; vanishing of matrix elements by index class |
| C13, C15 | sign of moving pairs through a string; parity of crossing pairs; intertwining by induction over the string |
| C16–C19 | list lemmas on combinations and interleavings; injectivity of binary encoding |
| C20–C25 | refinement of bit-level kernels to the Fock action; schedules as permutations of the loop range |
| C26–C28, C70–C73 | T³ = -T from the operator algebra, exponential series summed exactly; induction over the layout; closure of the space |
| C29–C34 | linear functionals on operators; commutation relations; sums over index classes |
| C35–C38 | list induction, counting by membership and Nodup |
| C39–C41, C77, C78 | object as state machine; invariant over arbitrary histories, the minimizer being any sequence of callback calls |
| C42–C45 | loop invariants over an arbitrary objective; finite Fourier sums (Dirichlet kernel) |
| C46–C58, C74–C76 | invariants over histories of calls; linear algebra on qubit states; breadth-first-search invariant |
| C59–C61, C83–C88 | induction over tables filled in place; Gaussian integrals in ℝ³ (Fubini, Fourier-type representation of 1/r); Cauchy–Schwarz for the Coulomb form; alternating series for the Boys function |
| C62–C68, C79–C82 | matrix algebra, spectral facts from the library hypotheses, invariants over call histories |
| C89–C92 | gates as signed permutations and Givens rotations of amplitudes; conjugation by CNOT ladders; change to blocked order (C15); induction over the layout; finite Fourier sums |
| C93 | which index tuples can have a matrix element between states with bounded holes and particles, by counting electrons per class |
| C94–C97 | commutator algebra and adjoints; truncated Hamiltonians (C93); which entries each loop writes, by induction over the loops |
| C98 | the loops compute bilinear forms in Z and Y (linearity of the expectation value); the truncated dipole operators lose nothing (active states); the norm is the metric of C94–C97 with its zero blocks |
| C99 | the projected orbital rotations are q|0><0| (the expectation value of q vanishes), so the orbital block is that of C97 and the active block that of C95; dipoles as in C98 |
| C100 | an operator with one excitation out of inactive or into virtual orbitals keeps the extended space; the dressed operators U G U† act as active operators; loops as in C96; realisation: the active unitary lifts to the whole orbital space (uniqueness of the exponential chain) |
| C101 | orthonormality of the excited determinants, orthogonality of U; the truncated Hamiltonian H_1i_1a has the same matrix elements between near-active states |
| C102 | as C100 in the space with two moved electrons; commutators of excitation operators out of the same reference vanish |
| C103 | as C98: rows of the loop are sums of commutator expectation values; the de-excitation operators annihilate the wave function; dipole operators keep the extended space |
| C104 | folded products on an exact interface are expectation values in all orbitals (getFolded_sem); the truncated Hamiltonians agree with the full one between active and near-active states; loop lemmas of C94 |
| C105 | as C104 with the case analysis of C95 |
| C106 | as C104 with the case analysis of C99 |
| C107 | loop lemmas of C29 with the measured expectation values; C12 for the energy |
| C108 | Wick's theorem for E_pq times a normal-ordered excitation operator (any order); the loops of writes cover every element up to permutation of the pairs and reversal |
| C109 | as C98 with folded products on an exact interface (C104); the metric blocks between orbital and active operators are zero along all loops |
| C110 | the dictionary of states is described by an invariant (each key holds a good expansion of a Fock state); matrix elements move through U by orthogonality; loops by the lemmas of C96 |
| C111 | as C110, with U G U^+ on the state written as U on an expansion and polarisation of the mixed elements |
| C112 | slices with no rotations coincide with those of C109, then C98; in the other case the numpy shapes clash at the first vector |
| C113 | an invariant on the saver (every entry holds exact distributions of the circuit its key stands for, at the current parameters), preserved by every call including failing ones; labels are summed to the observable, which the mapping makes the operator |
| C114 | C113 with C91 (circuit and state vector agree) and, for gradients, C92 and C45 |
| C115 | case analysis over the names with an algebra of dictionary updates; contents through C36, circuits through C90, order of parameter names through C90_order |
| C116 | spectral theorem for the real symmetric matrix, applied to any solver that returns every root as often as it occurs (EigOK, satisfiable); matrix elements through C16, C20 and C27 |
| C117 | matrix elements through C113 and C91; averages through the loops of C29; gradient through C43 |
| C118 | invariant relating the attributes to a reference without caches, kept by every method whether it returns or raises; induction over histories and over the calls of minimizers |
| C119 | the invariant of C118, by which the coefficients of the states are right if the energies of the states are present; exact description of what is used otherwise |
| C120 | symbolic execution of both constructors; layouts as calls of the create methods, for which the circuits are known (C90, C91); reference determinants as bit strings on the register; a weaker invariant of the cached measurements for interfaces that start from another determinant |
| C121 | induction over the determinants of a state with the invariant that unassigned amplitudes vanish; integers of strings decode to their occupied orbitals |
| C122 | singlet excitation operators commute with S+, S-, Sz; an exponential of an operator commuting with a symmetric operator keeps its eigenspaces; case analysis of the entries of every structure method |
| C123 | entrywise derivative of exp(-t K) at 0, product rule over the four coefficients, mean value of the commutator of the Hamiltonian with a singlet excitation (C18/C22), invariant of the object's history |
| C124 | characterisation of splitting at spaces and semicolons, induction on the lines in both directions |
| C125 | invariant of a heap of shared molecule and integral objects, induction on the steps; concrete sessions for the disagreements |
| C126 | induction on the messages |
| C127 | the functions of the object model (C39, C41) are filled with the models of the functions they call; composition of C26, C29, C108, C27/C28, C123, C36 and C38 through the invariant of the object's history |
| C128 | as C127, for the state-averaged object; composition of C26, C29, C30, C108, C27/C28, C116, C121, C123, C36 and C38 |
| C129 | as C127; the finite difference by the integral form of the derivative of the matrix exponential and its second-order remainder for antisymmetric exponents (Lemmas/ExpPerturb), with the norms of the excitation operators from the anticommutation relations (Lemmas/FockNorm) |
| C130 | composition of C90, C107, C108, C118, C120, C123 and the parameter-shift rule C45; the state of the circuit is found as a vector of the determinant space by transporting each exponential (Lemmas/CircEnv) |
| C131 | composition of C112, C113, C116, C118, C120, C123 and the parameter-shift rule C45; the state vectors are found by transporting each exponential to the determinant space, where they stay orthonormal (Lemmas/SaCircEnv) |
| C132 | the calibration circuits prepare the basis states in the order of the columns, so the matrix is M; histories of the saver as in C113, with the statement that raw data are the distribution read and corrected data have the exact outcome probabilities, for every matrix kept (Lemmas/ReadOut, Lemmas/ReadOutRun) |
| C133 | histories of the cliques of an entry on any device: labels once filed stay filed with their head and data, so an evaluation whose labels are all filed adds nothing; labels of each element are among the cumulated ones; induction over the elements read since (Lemmas/Precalc) |
| C134 | both sides equal the same commutators (C94, C95, C99 against C104, C105, C106); the solver is the same function of the matrices; the dipoles are determined by C98, C99, C109 |
| C135 | the generator lies in the real span of i times products of the Majorana labels of an odd number of second kind; these commute and are Hermitian, so every label of the mapped operator commutes with the others (labels are told apart by signs under conjugation with X and Z on one qubit); both sides solve the same linear differential equation in theta |
| C136 | both functions visit the same positions with the same operators, so a relation between the random matrix and the reported one is carried through the loops entry by entry; the bounds are sums of squares of random variables, e.g. 2(Vx + Vy/2 + Vz/2) - V(x - y/2 - z/2) = V(x + y/2 + z/2) + V(y - z)/2 |
| C137 | two invariants over call sequences: one for all calls (the circuit present is the original or a transpiled one, the latter only with ISA) and one for proper calls (circuit, pass manager, measurement gates and indices belong to the current options); placed gates commute with putting a state on some qubits of a larger register |
| C138 | invariant of C137 extended by the ansatz circuit, its indices and the pass manager with a fixed layout; the swaps of add_permutation_gate (C53_on_return) take the state from the final to the initial qubits; correction through C51_v2 and C74_measured_partial |
| C139 | the loops of run and run_std are paired entry by entry as for C136; a product of independent square-integrable numbers has the variance of the formula in the code; a sum of numbers with variances p_k s_k has at most the variance (sum p_k)(sum s_k), with weights chosen so that the reported value appears; for the diagonal a coin gives a counterexample for every wave function with an active operator |
| C140 | Pauli strings are orthogonal under the trace, so the coefficient of a label in an operator does not depend on how the operator is written down; the loops of run and of the map are paired entry by entry, each value of run with the labels it reads |
| C141 | The analysis is followed branch by branch; masks are counted row by row, and the order of argsort is only assumed to sort |
| C142 | The table is the list of positions in sorted order, cut and filtered; what is left out follows from the order |
| C143 | The chain of unitaries is split at the parameter; each row of the stacked array is followed through the part behind it; RotoSolve with the evaluator is simulated step by step by RotoSolve without it |
| C144 | The optimization of several energies is simulated step by step by one of the mean; the reconstructed function is the mean times a positive constant; the energies of the circuit class are trigonometric polynomials by the chain of exponentials |
| C145 | The energy is in each parameter a trigonometric polynomial of the degree in grad_param_R; the reconstruction is exact and periodic; steps of an unchanged sweep are unchanged, and minima along the parameters have zero derivatives |
| C146 | The maximum of a list is a largest member; for every method, returning or raising, the stored orbitals stay the initial ones times an orthogonal matrix |
| C147 | The dictionary of a spin-adapted single excitation is computed; the terms of number-conserving operators are those of C69 |

## Status of each property

| id | property | status | theorems | remark |
|---|---|---|---|---|
| C01 | Sums, differences, negatives and scalar multiples of operators mean what they say | proved | 1 | Exact zero test; floating point idealised as a commutative ring. |
| C02 | The 1e-14 cancellation rule never moves a coefficient by 1e-14 or more | proved | 1 | Literal threshold over any linearly ordered field. |
| C03 | In-place operator arithmetic equals out-of-place arithmetic | proved | 2 | Includes the aliased cases: x -= x raises RuntimeError for nonempty x. |
| C04 | Products and daggers always come back in extended normal order, and the ordering loop stops | proved | 3 | Termination by an iteration budget proved never to be exhausted. |
| C05 | Normal ordering preserves the operator | partial | 2 | Violated in general (constant of a full contraction is dropped): witness C05_violated; proved for strings that keep at least two operators under all contractions. |
| C06 | The product of two operators is their composition | partial | 3 | Violated in general: witness C06_violated; proved for number-conserving operators and for safe strings. |
| C07 | The dagger is the adjoint | proved | 2 | One-operator strings raise IndexError (C07_single_raises). |
| C08 | Commutator helpers are commutators | proved | 2 |  |
| C09 | Excitation operators are the textbook operators | proved | 4 |  |
| C10 | All excitation operators conserve the number of alpha and of beta electrons | proved | 4 |  |
| C11 | The full-space Hamiltonian is Hermitian and has the textbook form | proved | 2 |  |
| C12 | The energy Hamiltonian gives the full-space energy | proved | 1 |  |
| C13 | Folding an operator into the active space keeps its active-space matrix elements | proved | 3 | For index range within the partition; number conservation and range are needed (C13_nonconserving, C13_range_needed). |
| C14 | The Qiskit form renumbers spin orbitals one-to-one and never merges two terms | proved | 2 | Keys as character lists; n>0 not needed. |
| C15 | Spin-blocked reordering with get_reordering_sign is the right change of basis | proved | 2 | Signed renumbering intertwines every string; also an isometry. |
| C16 | Spin strings: all of them, once each | proved | 4 |  |
| C17 | The determinant list and its index map are inverse to each other and complete | proved | 3 | Without active orbitals the code raises ValueError (C17_no_orbitals_raises). |
| C18 | The extended determinant space is exactly the advertised one | proved | 4 | Orders 0 and below behave as order 1 (C18_low_orders). |
| C19 | bitcount counts ones | proved | 2 |  |
| C20 | Applying an operator to a CI vector is the Fock-space action | proved | 5 | Serial kernel needs number conservation of each term (C20_nonconserving); zero test on amplitudes exact. |
| C21 | Leaving the determinant space raises, unless asked to ignore it | partial | 3 | Holds for the serial kernel; the threaded kernel disagrees (C21_threaded_disagrees), where only the do_unsafe direction is proved. |
| C22 | Threaded and serial application agree for every schedule | proved | 2 | For every schedule that processes each index once. |
| C23 | Operator matrix times vector equals operator application | proved | 2 |  |
| C24 | State-averaged propagation is row-by-row propagation | proved | 3 |  |
| C25 | A list of operators is applied right to left | proved | 2 |  |
| C26 | The ansatz state is the chain of exponentials of its excitation operators | proved | 6 | Angles below the code's cut-off 1e-28 are skipped (effAngle). |
| C27 | The ansatz is orthogonal: norms are preserved and 'Ud' undoes 'U' | proved | 2 |  |
| C28 | Stepwise propagation with propagate_unitary composes to the ansatz | proved | 2 |  |
| C29 | Active 1- and 2-RDM arrays contain the defining expectation values at every index | proved | 3 | WaveFunctionUPS, WaveFunctionUCC and WaveFunctionSAUPS; complete active spaces, exact zero tests. |
| C30 | Full-space RDM elements are rebuilt correctly from active ones | proved | 2 | For states with filled inactive and empty virtual orbitals, normalised on average (C30_reference). |
| C31 | The RDM energy is the Hamiltonian expectation value | proved | 2 |  |
| C32 | The orbital gradient is the commutator expectation value | proved | 2 | Integrals with electron-exchange and real-orbital symmetry. |
| C33 | Response metric and property gradient are their commutator definitions | proved | 3 | The norm formula needs non-redundant pairs (no active-active rotation). |
| C34 | The orbital Hessian block is the double commutator | proved | 1 | The result array is square in the code, so the two index lists must have equal length. |
| C35 | Excitation iterators list every excitation of their kind exactly once | proved | 6 | Generalised spin-orbital doubles include vanishing excitations and list only i<=j<a<=b (C35_generalized_doubles_disagree). |
| C36 | Ansatz layouts are internally consistent | proved | 7 | SDSfUCC with option pD is excluded: it emits an entry no ansatz function accepts (C36_sds_pair_doubles_disagree). |
| C37 | Option dictionaries are validated before anything is built | proved | 3 |  |
| C38 | Orbital spaces partition the orbitals and the orbital-rotation list is complete and non-redundant | proved | 6 | Active spaces with an even number of inactive electrons that fit the molecule; odd or oversized ones disagree (C38_odd_electrons_disagree, C38_oversized_disagree). |
| C39 | Derived quantities are never stale | proved | 3 | All three classes. Outside the claim: rdm3 and rdm4 of a WaveFunctionUPS raise AttributeError before the first assignment (C39_fresh_disagree) and the number of orbital parameters is not checked (C39_length_disagree). |
| C40 | After optimizations the orbitals match the integrals and the energy read is the one reported | partial | 3 | Proved for the UPS and state-averaged classes. False for WaveFunctionUCC after a two-step orbital optimization: C40_ucc_disagree. |
| C41 | The optimizer's energy/gradient callbacks compute one objective | proved | 4 | Orbital parameters: with commuting rotations; false otherwise, C41_path_disagree. A call may leave the wave function elsewhere, C41_memo_disagree, and the orbital part of the minimizer's result is not used, C41_result_ignored. Parameters are assumed to have an entry below 1e19 in size. |
| C42 | RotoSolve reports the best point it visited | proved | 3 | Exact minimality fails by less than the threshold when converged: C42_threshold_disagree. The SciPy step enters as the hypothesis FindsMinimum. |
| C43 | Wrapped angles stay equivalent and end in (-pi, pi] | proved | 2 | The loops terminate for every real angle. |
| C44 | RotoSolve's reconstruction of a parameter dependence is exact | proved | 5 | Several states: the code divides by 2R+1 instead of the number of states (C44_states_disagree); the minimizer is unaffected. At angles a nonzero multiple of 2 pi away from a sample the code divides 0 by 0. |
| C45 | The parameter-shift gradient is exact | proved | 1 | For R > 0. |
| C46 | Pauli grouping: one measured head per Pauli, heads never conflict, and data always belong to the current head | proved | 5 | For every sequence of add_paulis / update_distr calls (failing ones included); get_groups too. In-place changes of a distribution object by the caller are not modelled. |
| C47 | Mitigation flags stay consistent | proved | 5 | Invariant under update_flags / all_to_false for flags constructed from Booleans; C47_constructor_disagree shows that the constructor itself does not validate. |
| C48 | The sign of a measured bit string is the Pauli eigenvalue | proved | 3 | Sign as a product over measured qubits, and the exact expectation value of a covered Pauli string for every state vector. |
| C49 | swap_indices permutes the basis by exchanging two bits, and is its own inverse | proved | 2 | Any register size; positions outside raise IndexError. |
| C50 | find_swaps turns one layout into the other | proved | 3 | Lists of one length: returns iff a rearrangement; a shorter reference raises. C50_longer_disagree: a longer reference is accepted. |
| C51 | Layout-corrected readout mitigation acts in the reference layout | partial | 4 | Version 2 (the one in use): full statement proved. Relabelled-matrix version: proved equal for layouts related by an involution; C51_v1_disagree proves it wrong for a three-cycle. |
| C52 | find_best_path returns a shortest path, or raises exactly when there is none | proved | 1 | Breadth-first search: shortest route, raises iff unreachable, and terminates. |
| C53 | add_permutation_gate realizes the permutation with allowed swaps | partial | 5 | Correctness on return proved for all inputs; termination proved for all connected devices without cycles. C53_ring_disagree proves that the loop runs forever on a five-qubit ring; C53_docstring_disagree: the documented direction of the permutation is the inverse of what is done. |
| C54 | Post-selection keeps exactly the outcomes with the right electron numbers and renormalizes | partial | 7 | Proved for Jordan-Wigner in full and for the two-qubit-reduced parity mapping with equal electron numbers. The parity branch is wrong otherwise: C54_parity_exchanged shows it keeps the sector with alpha and beta exchanged for every even electron number, and the _disagree theorems give concrete failures for odd numbers and the unreduced mapping. |
| C55 | The two-determinant circuit prepares the equal superposition | proved | 3 | Exact state on the register, success iff a suitable orbital exists, ValueError otherwise, TypeError for other mappers. MAnsatz0 variant modelled, no theorem. |
| C56 | Off-diagonal elements from superposition circuits are exact | proved | 3 | For a Hermitian operator the value is the real part of the matrix element, which is the element itself for a real operator (C56_real). Expectation values are taken as exact; circuit composition and transpilation are not modelled. With reverse_csfs_order and different electron numbers the call can raise (C56_reverse_disagree). |
| C57 | Shot settings are consistent | proved | 3 | Every history of setters and evaluations from the constructor with positive maxima. With a maximum of 0 the setter raises ZeroDivisionError (C57_max). |
| C58 | Changing circuit parameters discards measurements made with the old ones | proved | 3 | Every history of API calls from the constructor. Outside the claim: false for writes through the list the parameters getter returns (C58_alias_disagree): the saved data stay. |
| C59 | The Gaussian-product expansion coefficients are exact | proved | 1 |  |
| C60 | The Hermite Coulomb table equals its recursion | proved | 2 |  |
| C61 | The two-electron integral tensor is completely filled with its eight-fold symmetry | proved | 4 | The bound on screened integrals is for the exact Boys function; filling and symmetry hold for any. |
| C62 | Integral transformation is a change of basis | proved | 4 |  |
| C63 | Basis functions are numbered consecutively without gaps | proved | 1 |  |
| C64 | Electron counts add up | proved | 2 | Negative electron counts are not rejected (C64_negative_disagree). |
| C65 | DIIS keeps at most the configured number of matrices and extrapolates with weights summing to one | proved | 3 | When two stored error matrices agree the linear system is singular and the call raises (C65_singular_disagree); a limit of zero keeps one matrix. |
| C66 | Restricted Hartree-Fock density represents the electrons | proved | 8 | Odd electron numbers lose an electron and too small bases drop electrons without an error (C66_odd_disagree, C66_small_disagree); one basis function with DIIS raises (C66_one_function_disagree). |
| C67 | Response roots come in pairs | proved | 7 | The norm routine leaves out a coupling block of the metric (C67_norm_disagree); no response class assembles such a block. |
| C68 | Integrals are computed once and always for the current molecule | partial | 6 | Cached integrals ignore a later change of the screening threshold (C68_threshold_disagree); the facade keeps stale integrals when the molecule is replaced without a basis set (C68_facade_disagree). The _partial theorem covers every other call sequence. |
| C69 | Readable keys never collide and get_info reads every term back | proved | 2 |  |
| C70 | Energies are expectation values of the full Hamiltonian | proved | 3 | Complete spaces (get_indexing); zero tests on coefficients exact. |
| C71 | The analytic theta gradient is the derivative of the energy | proved | 2 | Derivative of the mathematical energy for every angle; of the program's energy for angles beyond the 1e-28 cut-off (C71_program). |
| C72 | The UCC state is one exponential of the summed excitation operators | proved | 4 | scipy's expm_multiply is modelled as the exact matrix exponential. |
| C73 | Reference determinant and perfect pairing | proved | 3 | Closed-shell active spaces with at least one orbital. |
| C74 | Readout correction returns the corrected distribution | partial | 2 | Exact on measured outcomes; C74_disagree proves that probability assigned to outcomes that were not measured is dropped. |
| C75 | Shots split over several runs are pooled exactly | proved | 2 | Average of every function of the outcome; with counts, the relative frequencies over all shots. |
| C76 | quantum_variance is the variance of what is measured | proved | 4 | All three option branches. The option no_coeffs is ignored in the grouped branch (C76_no_coeffs_disagree). |
| C77 | Orbital rotations keep the orbitals orthonormal | proved | 1 |  |
| C78 | A one-step optimization can be repeated | partial | 3 | False: the second optimization raises ValueError (C78_array_disagree, C78_twice_disagree, for circuits C78_circuit_disagree), since the orbital parameters are then an array and + adds element-wise. A repetition without orbital optimization is covered by C40_history_partial. |
| C79 | Reading a basis set returns exactly the listed shells | partial | 2 | Proved for files whose shells are s, p, d or f; shells with other letters are dropped silently (C79_dropped_disagree). |
| C80 | Nuclear repulsion counts every pair of atoms once | proved | 2 |  |
| C81 | Unrestricted Hartree-Fock densities represent the electrons of each spin | proved | 6 | The Fock-matrix statements are for runs without DIIS. The starting guess: the alpha density after mixing is a proper density (C81_start); the mixed LUMO row is computed from the already overwritten HOMO row and is not orthonormal (C81_lumo_disagree), but is never used. Raises IndexError when every orbital is doubly occupied (C81_full_disagree). |
| C82 | Spin contamination is non-negative and zero only for a spin-pure determinant | proved | 2 | With more beta than alpha electrons the value is at least N_beta - N_alpha (C82_minority_disagree). |
| C83 | Overlap and multipole matrices hold the integrals of the basis functions | proved | 2 |  |
| C84 | The kinetic-energy matrix holds the integrals of the Laplacian | proved | 1 |  |
| C85 | Basis functions are normalised contractions of the listed primitives | proved | 3 | For a contraction that is identically zero the normalization divides by zero; excluded by hypothesis. |
| C86 | The nuclear-attraction matrix holds the attraction integrals | proved | 2 | For exact Boys-function values; C88 bounds the difference of the code's values. |
| C87 | The electron-repulsion tensor holds the repulsion integrals | proved | 2 | For exact Boys-function values; C88 bounds the difference of the code's values. |
| C88 | The Boys function is accurate to a stated absolute error | proved | 4 | With an exact math.erf. The relative error is not controlled: from order 12 on only the first series term is kept (C88_cutoff_disagree, C88_factor_disagree). |
| C89 | Excitation circuits apply the exponential of the excitation generator | proved | 4 | For different indices. Excitations from or to one spin orbital twice pass the checks of double_excitation but raise in qiskit. |
| C90 | The circuit of a structure is the product of its exponentials, in order | proved | 5 | The option GD of create_fUCC has no circuit for two or more orbitals (C90_generalized_doubles_disagree). |
| C91 | Circuit and state-vector code prepare the same state | proved | 1 |  |
| C92 | Energies along one angle are trigonometric polynomials of the stored degree | proved | 4 |  |
| C93 | Truncated Hamiltonians agree with the full one where they are used | proved | 4 |  |
| C94 | Naive linear response builds the response matrices of its operators | proved | 3 | The wave function object enters through the fields the class reads; C94_proper shows that the objects the constructors build satisfy the hypothesis. |
| C95 | Projected linear response builds the response matrices of its projected operators | proved | 2 | The hypothesis on the energy is what the wave function class stores (C95_energy). The mixed blocks leave out terms with the orbital gradient, which is below 1e-3 where the constructor does not raise; the theorem states these terms exactly. |
| C96 | State-transfer linear response builds the response matrices of its operators | proved | 4 | C96_rotates shows that the objects the constructors build (unitary product state ansatz, Hartree-Fock reference) satisfy the hypotheses. For the perfect-pairing reference of tUPS the norm and diagonal elements are wrong (C96_pairing_disagree). |
| C97 | Projected state-transfer linear response builds the response matrices of its operators | proved | 1 | The hypotheses are those of C96. For the perfect-pairing reference the loop over active operators has the same defect as in C96. |
| C98 | Transition dipole moments and oscillator strengths are those of the normalised excitation operators | proved | 5 | The eigenvalue routine is a parameter; the theorems hold for whatever it returns, as long as it returns one pair per row. The matrices are those of C94-C97. |
| C99 | All-projected linear response builds the matrices and transition dipoles of the operators T|0><0| - <0|T|0> | proved | 2 | The terms left out of the mixed blocks are part of the statement. Hypotheses as in C95 and C98. |
| C100 | Self-consistent linear response builds the matrices of the operators q and U G U^+ | proved | 2 | C100_rotates shows that the objects the constructors build satisfy the hypotheses of C100-C102. Kernels with one thread (the program's default setting). |
| C101 | All-state-transfer linear response builds the matrices of the operators U q|ref><0| and U G|ref><0| | proved | 2 | Hypotheses as in C100, and the energy stored by the wave function. |
| C102 | All-self-consistent linear response builds the matrices of the operators U q U^+ and U G U^+ | proved | 1 | Hypotheses as in C100. |
| C103 | Transition dipoles of linear response in extended determinant spaces | proved | 3 | Hypotheses as in C98 and C100. Oscillator strengths: C98_strengths holds for these dipoles too. |
| C104 | Naive linear response with a quantum computer builds the response matrices | proved | 2 | The interface is a parameter assumed exact (an ideal simulator); C107_proper shows that the objects of the program satisfy the other hypotheses. Without density matrices the upper triangles of the orbital-orbital blocks are mirror images; C104_mirror states the difference. |
| C105 | Projected linear response with a quantum computer builds the response matrices | proved | 1 | As C104. Unlike the classical class nothing raises for a large gradient, so the left-out terms of the mixed blocks are not bounded. |
| C106 | All-projected linear response with a quantum computer builds the response matrices | proved | 1 | As C104. |
| C107 | Density matrices and energy of the circuit wave function | proved | 2 | The interface is a parameter assumed exact. |
| C108 | Three- and four-electron reduced density matrices | proved | 4 | For the circuit the interface is a parameter assumed exact. |
| C109 | Transition dipole moments of linear response with a quantum computer | proved | 5 | The interface and the eigenvalue routine are parameters. For orbital rotations only, see C109_orbital_only_disagree. |
| C110 | State-transfer linear response with a quantum computer | proved | 4 | The interface is a parameter that is exact for symmetric operators (ExactCsfs); C110_met shows the program's objects meet the hypotheses. |
| C111 | Self-consistent linear response with a quantum computer | proved | 1 | As C110. The mirrored nested commutators differ from the classical class, see DESIGN.md. |
| C112 | Transition dipoles of transferred-state linear response with a quantum computer | proved | 3 | The dipole statement needs the absence of orbital rotations; with rotations skipped see C112_skip_disagree. |
| C113 | Values from the quantum interface do not depend on what was measured before | proved | 5 | Device and mapping are parameters with documented exact behaviour (Ideal, JWMapper; both exist). For do_pp and the vacuum determinant see the disagree theorems. |
| C114 | Measured values and gradients are those of the state vector code | proved | 4 | As C113, for interfaces as the wave function class builds them without do_pp. |
| C115 | An ansatz name means the same to the classical and the quantum classes | proved | 8 | For names and options where the classes differ see the disagree theorems. |
| C116 | State-averaged classes solve the subspace problem exactly | proved | 8 | scipy.linalg.eig is a parameter: normalised eigenvectors for every root of the characteristic polynomial, counted (EigOK; exists_eigOK shows it can be met). |
| C117 | State-averaged circuits give the state-averaged values of the state vector code | proved | 5 | Device and mapping as in C113. |
| C118 | What is read from a circuit wave function fits its orbitals, parameters and primitive | proved | 4 | Quantities obtained from measurements are functions of primitive, parameters and arguments (ideal devices: C113). Parameters are assigned through the setters; writing into the list that thetas hands out is C58_alias_disagree. |
| C119 | Transition properties of a state-averaged circuit fit its orbitals, parameters and primitive | partial | 6 | False: stale or missing coefficients of the states (C119_stale, C119_stale_primitive, C119_stale_disagree, C119_fresh_disagree). Proved after reading energy_states or assigning thetas. |
| C120 | Converting a UPS wave function to a circuit keeps the wave function | proved | 7 | Angles below the cutoff of the state-vector code, which it drops (effAngle), are excluded by hypothesis. Layouts with excitations that have no circuit raise (C90, C115). States without repeated determinants. With perfect pairing, expectation values after calls other than quantum_expectation_value_csfs (C113_pairing_disagree). |
| C121 | States given to a state-averaged wave function are checked and stored as given | proved | 4 | For states without repeated determinants; false otherwise (C121_duplicate_disagree). |
| C122 | Spin-adapted ansatzes keep the total spin | proved | 8 | That a spin-orbital single is not spin-keeping is C122_single_needed. Closed-shell references; other references keep the spin they start with (C122_ups). |
| C123 | The orbital gradient is the derivative of the energy | proved | 3 | Integrals with the symmetry of real orbitals. Objects: derivative at the current point (the expansion point is moved as in C41); C123_objective gives it at every point for commuting rotations. State-averaged and circuit objects use the same function. |
| C124 | Molecules are read from text as they are written | proved | 8 | Parsing of a number and opening of a file are parameters. The 34 elements whose mass is missing in the table are C124_mass_disagree. |
| C125 | A Hartree-Fock run gets the molecule and basis set of the session | proved | 3 | Changing molecule or basis set after Hartree-Fock was initialised is outside the claim and goes wrong: C125_mixed_disagree, C125_failed_disagree. Storage flags at their initial values. |
| C126 | What is logged is printed and kept | partial | 2 | What is printed is proved; the log attribute stays empty whatever is logged (C126_log_disagree). |
| C127 | The unitary product state class as a whole | proved | 5 | Composition: the functions of the object are the models of the called functions, not parameters. Cut-offs exact as elsewhere; parameters below 1e-28 count as zero (effAngle). create_SDSfUCC with pair doubles is excluded (C36). Integrals with the symmetry of real orbitals. |
| C128 | The state-averaged class as a whole | proved | 5 | Composition, as C127. The states are orthonormal exactly (the constructor tests it to 1e-10) and no determinant is listed twice (C121). return_all_states and the counters of evaluations are not modelled; create_SDSfUCC with pair doubles is excluded (C36). |
| C129 | The UCC class as a whole | proved | 5 | Composition, as C127. Real arithmetic: the bound is the truncation error of the forward difference with step 2^-26; rounding is not modelled. scipy's expm_multiply is the matrix exponential (C72). The constants 2^-20 = 2^-26 * 8^2 come from the bound 8 on the norm of each excitation operator. |
| C130 | The circuit wave function class as a whole | proved | 6 | Composition. The state of the interface at each evaluation is arbitrary among those reached by construction and any calls with the device (calls for superpositions apart, see C113); no mitigation; the device is ideal: distributions are exact. Energies read after an optimization: see C118/C119. |
| C131 | The state-averaged circuit wave function class as a whole | proved | 7 | Composition. The state of the interface at each evaluation is arbitrary among those reached by construction and any calls with determinants that have an electron (see C113); no mitigation; the device is ideal; the eigenvalue solver is exact. The objective is stated for a point that differs from the one evaluated last by at least 1e-14 somewhere, since the class returns the remembered value otherwise (C119). |
| C132 | Read-out mitigation removes read-out errors | proved | 5 | The matrix of read-out errors is the same in all runs, has a non-zero diagonal and is invertible; probabilities are exact (unlimited shots). The calibration without the ansatz, without circuit_M and without a layout is modelled. A failing calibration leaves the previous matrix in Python and the failing one in the model; it cannot fail under the hypotheses with at most 8 qubits. The two defects are C132_stale_disagree and the second part of C132_again. |
| C133 | Measuring for density matrices in advance | proved | 5 | With a sampler; the TypeError for other primitives is not modelled. The order in which Python takes the elements out of the set is a parameter. Without active orbitals the code raises TypeError (len(None)); modelled. That the values are exact on an ideal device follows from C133_reached and C113_expectation. |
| C134 | Linear response on a quantum computer agrees with linear response of state vectors | proved | 7 | The state vector classes refuse large gradients, so the statements begin where they have been built. Without do_rdm the upper triangle of the orbital block is the mirror image in the quantum class (C104). The eigenvalue solver is a parameter, the same on both sides. |
| C135 | The Trotter circuits used with other mappers have no Trotter error | proved | 6 | The mapper of qiskit_nature is a parameter with the contract PauliMapper (Spec/Trotter.lean), shown to be satisfiable for the Jordan-Wigner and the parity encoding. Mappers that drop qubits (the two-qubit reduction of the parity mapper, tapered mappers) are not covered, nor excitations that change the spin, nor index lists with repeated indices (the operator is zero there). PauliEvolutionGate is exp(-i t P). |
| C136 | Reported deviations of naive linear response bound the scatter of its matrices | proved | 2 | quantum_variance is a parameter, the variance of the estimate (C76 says what it computes). A single measurement per operator and run: the estimate of an operator that occurs twice is the same number. The matrices of run with density matrices come from other measurements and are not covered, nor is no_coeffs=True, which returns other numbers on purpose. |
| C137 | How circuits are transpiled does not change what is measured | partial | 8 | Proved for all histories that do not switch ISA off (C137_transparent, C137_calls, C137_current, C137_options). False: ISA = False after a transpilation keeps the transpiled circuit and reads it in the wrong order (C137_isa_off_disagree); a refused option stays and makes every later update fail (C137_unknown_option_disagree); a new layout keeps the read-out matrix of the old qubits and the layout check passes (C137_matrix_disagree), proved if shots are set after each change (C137_matrix_partial). That pass managers keep the meaning of circuits is a hypothesis (FaithfulManagers); superposition circuits are treated in C138. |
| C138 | CSF circuits on a transpiled ansatz measure what the untranspiled ones do | proved | 6 | The contract of the pass managers is the hypothesis FaithfulStages. Options 3 and 4 raise an AttributeError without a backend (C138_no_backend_disagree) and may run forever on devices with cycles (C53_ring_disagree). Circuits with do_M_ansatz0_plus on a layout are not covered. |
| C139 | Reported deviations of projected linear response bound the scatter of its matrices | partial | 4 | Violated by the code on the diagonal of the active blocks: the variance of the square of a measured number is reported as if its two factors were independent (C139_diagonal_disagree gives, for every wave function with an active operator, independent estimates for which the diagonal of the metric scatters more than reported). Proved for all other entries. For A and B of two active operators the products in an entry are correlated and the code adds their variances; the proved bounds are four and two times the reported variance. The values of run_std are taken at the true means; with measured means they scatter themselves. |
| C140 | The qubit maps of linear response list the Pauli strings that the matrices need | partial | 4 | Proved for naive and projected linear response, and for all-projected linear response but for entries of B with two different active operators. For these allprojected.py:194 assigns where it should add, so that the labels of the Hamiltonian times the first operator are lost; C140_active_disagree shows that such an entry is then not fixed by the labels listed for it. |
| C141 | Analysing the deviations of linear response does not get in the way of returning them | partial | 10 | Violated by the code with exactly one response parameter: the analysis prints the four largest of one entry and run_std raises IndexError after all measurements (C141_one_parameter_disagree); proved for two or more. The trend of coefficients of variation raises AttributeError when a matrix has fewer entries that are not small than rows (C141_cv_missing_disagree), and is nan when one row has none (C141_cv_nan_disagree), as B has in all-projected linear response for every orbital rotation. Condition numbers and the formatting of what is printed are not modelled; a metric is singular here if its determinant is zero. |
| C142 | The table of contributions lists the operators that dominate an excited state | proved | 3 | argsort is a parameter that sorts; equal values may come in any order. Headers and the formatting of numbers are not modelled. |
| C143 | RotoSolve's fast energies are the energies at the shifted parameters | partial | 7 | Proved for parameters given as floats. Violated if all parameters are Python ints (thetas = [0, 0]): the shift is stored in an array of integers, and the energies are those at the shifts rounded towards zero (C143_integers, C143_rounds_disagree). The state-averaged evaluator counts one evaluation per state however many shifts there are (C143_sa_count_disagree). Exact cut-offs and arithmetic; the minimization along one parameter is that of C42. |
| C144 | RotoSolve over several states never raises the averaged energy | proved | 7 | The minimization along one parameter is a parameter of the model, asked to find a lowest point in the period (one exists: findsLowest_exists); SciPy's is not modelled. The derivative is exact away from the cut-off 1e-12 of the sinc derivative. The reconstructed function is the mean times number of states over number of sampled points (C44_states_disagree), which leaves the lowest points where they are. |
| C145 | RotoSolve on circuit wave functions minimizes exactly along each parameter | proved | 6 | The minimization along one parameter is a parameter of the model, asked to find a lowest point in the period (one exists: findsMinimum_exists); SciPy's is not modelled. The energy at the start is below 10**20, the value RotoSolve starts from. Exact cut-offs and arithmetic. |
| C146 | check_orthonormality reports the largest deviation, and no use of the object changes whether it is zero | proved | 4 | It holds for WaveFunctionUCC although its two-step optimization leaves orbital parameters behind (C40). The formula in the docstrings is another one than the code's (C146_formula_disagree). Exact arithmetic: printed zeros are exact zeros. |
| C147 | get_operator_info lists the response operators as they are, with the right kind of orbital rotation | proved | 3 | The printed lines are data: layout and rounding of the coefficients to three digits are left out. C147_active: the lists of the constructor meet the hypothesis on the active spin orbitals; C107_proper: the objects meet the other ones. |

{"id": "C01", "title": "Sums, differences, negatives and scalar multiples of operators mean what they say", "statement": "For operators A and B and a number c, the operators A+B, A-B, -A, c*A and A*c act on every Fock-space state as the sum, difference, negative and scalar multiple of the actions of A and B (coefficients exact, cancellation deletes a term only when its combined coefficient is zero).", "quantifier": "all operators (any number of terms, any strings, any indices), all scalars, all states", "why_tests_cant": "Dictionaries can hold any set of strings; a dropped or overwritten key only shows for particular overlaps of keys.", "anchors": ["slowquant/unitary_coupled_cluster/fermionic_operator.py: FermionicOperator.__add__, __sub__, __neg__, __mul__ (scalar), __rmul__"]}
{"id": "C02", "title": "The 1e-14 cancellation rule never moves a coefficient by 1e-14 or more", "statement": "After A+B or A-B the coefficient of every string differs from the exact sum/difference of its two coefficients by less than 1e-14 in absolute value, and it differs at all only if the string was present in both operands.", "quantifier": "all operators with real coefficients, all strings", "why_tests_cant": "Tests use well separated coefficients; the threshold branch is only met by near-cancelling inputs.", "anchors": ["slowquant/unitary_coupled_cluster/fermionic_operator.py: FermionicOperator.__add__, __sub__"]}
{"id": "C03", "title": "In-place operator arithmetic equals out-of-place arithmetic", "statement": "A += B, A -= B, A *= B and A *= c leave A with exactly the contents (same strings, same coefficients, same order) that A+B, A-B, A*B and A*c would have, and leave B unchanged; with the same object on both sides, A -= A raises instead of giving zero as soon as a term is deleted during iteration.", "quantifier": "all operators, including an operator combined with itself", "why_tests_cant": "The two code paths are separate copies; a divergence would show only for the inputs on which they differ, and aliasing is never exercised.", "anchors": ["slowquant/unitary_coupled_cluster/fermionic_operator.py: __iadd__, __isub__, __imul__"]}
{"id": "C04", "title": "Products and daggers always come back in extended normal order, and the ordering loop stops", "statement": "Multiplying operators or taking a dagger terminates for every input and either raises IndexError (certainly when a string of length one has to be ordered, never when all lengths are even) or returns an operator in which each string has all creation operators first, indices strictly descending within the creation block and within the annihilation block, with no string listed twice.", "quantifier": "all operators, any string length", "why_tests_cant": "Termination and the shape of the output over all strings cannot be sampled; a cycle-sort that loops or leaves one pair unsorted appears on specific permutations only.", "anchors": ["slowquant/unitary_coupled_cluster/fermionic_operator.py: do_extended_normal_ordering, __mul__, dagger"]}
{"id": "C05", "title": "Normal ordering preserves the operator", "statement": "Reordering a string does not change the operator it stands for: the returned sum of strings acts on every state like the input.", "quantifier": "all operator strings and all Fock-space states", "why_tests_cant": "Sign and contraction errors depend on the index pattern; there are unboundedly many patterns.", "anchors": ["slowquant/unitary_coupled_cluster/fermionic_operator.py: do_extended_normal_ordering"]}
{"id": "C06", "title": "The product of two operators is their composition", "statement": "(A*B) acts on every state as A applied after B.", "quantifier": "all pairs of operators and all states", "why_tests_cant": "Same as C05, and products of sums mix many strings.", "anchors": ["slowquant/unitary_coupled_cluster/fermionic_operator.py: __mul__, __imul__"]}
{"id": "C07", "title": "The dagger is the adjoint", "statement": "For every operator A whose strings are in extended normal order and have at least two operators, A.dagger is the adjoint of A: <x|A y> = <A.dagger x|y> for all states, and taking the dagger twice gives back an operator with the same action. A string with a single operator raises IndexError instead.", "quantifier": "all normal-ordered operators, all pairs of states", "why_tests_cant": "Sign of the reversal depends on the string; tests look at a few strings.", "anchors": ["slowquant/unitary_coupled_cluster/fermionic_operator.py: dagger"]}
{"id": "C08", "title": "Commutator helpers are commutators", "statement": "commutator(A,B) acts as AB-BA; double_commutator(A,B,C) acts as [A,[B,C]]; its symmetrized form acts as ([A,[B,C]]+[[A,B],C])/2.", "quantifier": "all number-conserving operators A, B, C and all states", "why_tests_cant": "An algebraic law over all operators.", "anchors": ["slowquant/unitary_coupled_cluster/operators.py: commutator, double_commutator"]}
{"id": "C09", "title": "Excitation operators are the textbook operators", "statement": "Epq(p,q) acts as the sum over spin of a\u2020_p a_q; epqrs(p,q,r,s) acts as E_pq E_rs - delta_qr E_ps and is symmetric under (pq)<->(rs); the adjoint of E_pq is E_qp; Eminuspq(p,q) is anti-Hermitian; G1..G6 act as a\u2020_a a\u2020_b ... a_j a_i, are zero when an index is repeated in a block, and the anti-Hermitian variant is op - op\u2020; a spin other than alpha/beta is rejected.", "quantifier": "all orbital indices, all states", "why_tests_cant": "Index coincidences (p=q, q=r, repeated indices) multiply; only few are ever sampled.", "anchors": ["slowquant/unitary_coupled_cluster/operators.py: a_op, Epq, epqrs, Eminuspq, G1, G2, G3, G4, G5, G6"]}
{"id": "C10", "title": "All excitation operators conserve the number of alpha and of beta electrons", "statement": "Applying E_pq, e_pqrs, the Hamiltonians, G1_sa and G2_sa to a determinant with Na alpha and Nb beta electrons gives only determinants with Na alpha and Nb beta electrons; G_k conserve the total number of electrons.", "quantifier": "all indices, all integrals, all determinants", "why_tests_cant": "Ranges over all determinants and integrals.", "anchors": ["slowquant/unitary_coupled_cluster/operators.py: Epq, epqrs, hamiltonian_full_space, G1_sa, G2_sa, G1..G6"]}
{"id": "C11", "title": "The full-space Hamiltonian is Hermitian and has the textbook form", "statement": "hamiltonian_full_space(h,g,n) acts as sum h_pq E_pq + 1/2 sum g_pqrs e_pqrs (terms below the threshold ignored), and it is self-adjoint whenever h_pq=h_qp and g_pqrs=g_qpsr.", "quantifier": "all n and all integrals with those symmetries", "why_tests_cant": "All sizes and integrals.", "anchors": ["slowquant/unitary_coupled_cluster/operators.py: hamiltonian_full_space, one_elec_op_full_space"]}
{"id": "C12", "title": "The energy Hamiltonian gives the full-space energy", "statement": "For states in which the inactive orbitals are doubly occupied and the virtual orbitals empty, hamiltonian_0i_0a and one_elec_op_0i_0a have the same matrix elements as the full-space operators.", "quantifier": "all integrals, all splittings of the orbitals into inactive/active/virtual, all pairs of such states", "why_tests_cant": "Depends on which index classes are kept for every integral tensor and partition.", "anchors": ["slowquant/unitary_coupled_cluster/operators.py: hamiltonian_0i_0a, one_elec_op_0i_0a"]}
{"id": "C13", "title": "Folding an operator into the active space keeps its active-space matrix elements", "statement": "For a number-conserving normal-ordered operator O, get_folded_operator gives the operator O_A on the (renumbered) active orbitals with <I,x|O|I,y> = <x|O_A|y> for all active states x,y (inactive filled, virtual empty).", "quantifier": "all such operators, all partitions, all active states", "why_tests_cant": "The sign depends on how the string is distributed over the spaces.", "anchors": ["slowquant/unitary_coupled_cluster/fermionic_operator.py: get_folded_operator"]}
{"id": "C14", "title": "The Qiskit form renumbers spin orbitals one-to-one and never merges two terms", "statement": "get_qiskit_form maps alpha orbital k to k and beta orbital k to n+k, a bijection of 0..2n-1; different strings get different keys so no coefficient is overwritten; an index >= 2n raises.", "quantifier": "all operators and all n", "why_tests_cant": "Collision freedom of textual keys is a statement about all keys.", "anchors": ["slowquant/unitary_coupled_cluster/fermionic_operator.py: get_qiskit_form, operator_to_qiskit_key"]}
{"id": "C15", "title": "Spin-blocked reordering with get_reordering_sign is the right change of basis", "statement": "Mapping each determinant |S> (interleaved order) to get_reordering_sign(S) times the determinant with spin orbitals renumbered to blocked order intertwines every operator string with its renumbered string.", "quantifier": "all determinants of any length, all creation/annihilation strings", "why_tests_cant": "A sign that is wrong only for some occupations passes small tests.", "anchors": ["slowquant/qiskit_interface/util.py: get_reordering_sign, f2q", "slowquant/unitary_coupled_cluster/fermionic_operator.py: get_qiskit_form"]}
{"id": "C16", "title": "Spin strings: all of them, once each", "statement": "generate_spin_strings(n,k) yields exactly the 0/1 lists of length n with k ones, each once, hence C(n,k) of them; none for negative k.", "quantifier": "all n, k", "why_tests_cant": "All sizes.", "anchors": ["slowquant/unitary_coupled_cluster/ci_spaces.py: generate_spin_strings"]}
{"id": "C17", "title": "The determinant list and its index map are inverse to each other and complete", "statement": "get_indexing returns idx2det listing each determinant with the requested alpha and beta counts exactly once (C(n,na)*C(n,nb) entries) and det2idx is its inverse.", "quantifier": "all orbital and electron counts", "why_tests_cant": "All sizes; collisions of the integer encoding would merge determinants silently.", "anchors": ["slowquant/unitary_coupled_cluster/ci_spaces.py: get_indexing, CI_Info"]}
{"id": "C18", "title": "The extended determinant space is exactly the advertised one", "statement": "get_indexing_extended(\u2026,order) lists without repetition exactly the determinants with the right total alpha and beta counts whose inactive holes and virtual particles number at most `order` per the documented classes, contains the unextended space first, det2idx inverts idx2det, and order>2 raises.", "quantifier": "all partitions, electron counts and orders", "why_tests_cant": "Many classes are generated by separate loops; a missed or doubled class depends on the partition.", "anchors": ["slowquant/unitary_coupled_cluster/ci_spaces.py: get_indexing_extended, generate_singles, generate_doubles"]}
{"id": "C19", "title": "bitcount counts ones", "statement": "bitcount(x) is the number of one bits of x for every non-negative x (and it terminates).", "quantifier": "all non-negative integers", "why_tests_cant": "All integers.", "anchors": ["slowquant/unitary_coupled_cluster/operator_state_algebra.py: bitcount"]}
{"id": "C20", "title": "Applying an operator to a CI vector is the Fock-space action", "statement": "For a number-conserving operator whose strings are in normal order, propagate_state without folding maps the CI vector of a state to the CI vector of the operator applied to that state (projected on the determinant space when do_unsafe is set).", "quantifier": "all operators, all determinant spaces with mutually inverse maps, all coefficient vectors", "why_tests_cant": "Sign bookkeeping with bit masks must be right for every determinant.", "anchors": ["slowquant/unitary_coupled_cluster/operator_state_algebra.py: apply_operator_serial, propagate_state"]}
{"id": "C21", "title": "Leaving the determinant space raises, unless asked to ignore it", "statement": "If some determinant with non-negligible amplitude is mapped outside the determinant list, propagate_state raises a key error with do_unsafe=False and drops exactly that contribution with do_unsafe=True.", "quantifier": "all operators, spaces, vectors", "why_tests_cant": "Error branch depends on space and operator.", "anchors": ["slowquant/unitary_coupled_cluster/operator_state_algebra.py: apply_operator_serial, apply_operator_threaded, propagate_state"]}
{"id": "C22", "title": "Threaded and serial application agree for every schedule", "statement": "The threaded kernel gives the same vector as the serial kernel, whatever order its loop iterations are executed in.", "quantifier": "all operators, spaces, vectors, iteration orders", "why_tests_cant": "A schedule-dependent result cannot be ruled out by running some schedules.", "anchors": ["slowquant/unitary_coupled_cluster/operator_state_algebra.py: apply_operator_threaded, apply_operator_serial"]}
{"id": "C23", "title": "Operator matrix times vector equals operator application", "statement": "build_operator_matrix(op) @ v equals propagate_state([op], v).", "quantifier": "all operators, spaces, vectors", "why_tests_cant": "All sizes.", "anchors": ["slowquant/unitary_coupled_cluster/operator_state_algebra.py: build_operator_matrix, add_operator_matrix"]}
{"id": "C24", "title": "State-averaged propagation is row-by-row propagation", "statement": "propagate_state_SA acts on each state of the ensemble exactly like propagate_state on that state alone, and expectation_value_SA is the average of the single-state expectation values.", "quantifier": "all ensembles, operators", "why_tests_cant": "Cross-talk between rows (shared skip test) appears for particular zero patterns.", "anchors": ["slowquant/unitary_coupled_cluster/operator_state_algebra.py: apply_operator_SA_serial, apply_operator_SA_threaded, propagate_state_SA, expectation_value_SA"]}
{"id": "C25", "title": "A list of operators is applied right to left", "statement": "propagate_state([O1,...,Ok], v) equals applying Ok, then ..., then O1; an empty list returns the vector; a string other than 'U'/'Ud' raises.", "quantifier": "all operator lists", "why_tests_cant": "All list lengths.", "anchors": ["slowquant/unitary_coupled_cluster/operator_state_algebra.py: propagate_state, expectation_value"]}
{"id": "C26", "title": "The ansatz state is the chain of exponentials of its excitation operators", "statement": "construct_ups_state applies, first layout entry first, the exponential exp(theta*T) of the anti-Hermitian excitation operator of every entry (singles to sextuples, spin-adapted singles and the five kinds of spin-adapted doubles), and with dagger the inverse exponentials in opposite order; unknown excitation names or a wrong number of indices raise ValueError; the state-averaged variant does the same to every state.", "quantifier": "all layouts of valid excitations, all angles, all determinant spaces of get_indexing and get_indexing_extended, all vectors, all thread schedules", "why_tests_cant": "Continuous parameters, unbounded layouts and index sets; the code uses closed trigonometric formulas whose frequencies must match the spectrum of each operator.", "anchors": ["slowquant/unitary_coupled_cluster/operator_state_algebra.py: construct_ups_state, construct_ups_state_SA", "slowquant/unitary_coupled_cluster/operators.py: G1..G6, G1_sa, G2_sa"]}
{"id": "C27", "title": "The ansatz is orthogonal: norms are preserved and 'Ud' undoes 'U'", "statement": "construct_ups_state preserves the norm of every vector and construct_ups_state(dagger=True) inverts it, for every layout and every set of angles.", "quantifier": "all layouts, angles, vectors", "why_tests_cant": "Continuous parameters, all layouts.", "anchors": ["slowquant/unitary_coupled_cluster/operator_state_algebra.py: construct_ups_state"]}
{"id": "C28", "title": "Stepwise propagation with propagate_unitary composes to the ansatz", "statement": "Applying propagate_unitary for idx=0,1,...,len-1 gives construct_ups_state.", "quantifier": "all layouts, angles, vectors", "why_tests_cant": "All layouts.", "anchors": ["slowquant/unitary_coupled_cluster/operator_state_algebra.py: propagate_unitary, construct_ups_state"]}
{"id": "C29", "title": "Active 1- and 2-RDM arrays contain the defining expectation values at every index", "statement": "The rdm1/rdm2 arrays filled by loops over a subset of indices and copied by symmetry hold <E_pq> and <e_pqrs> at every index quadruple.", "quantifier": "all numbers of active orbitals, all real states", "why_tests_cant": "Coverage of the restricted loops for all sizes; a missed index leaves a zero.", "anchors": ["slowquant/unitary_coupled_cluster/ups_wavefunction.py: rdm1, rdm2", "slowquant/unitary_coupled_cluster/ucc_wavefunction.py: rdm1, rdm2"]}
{"id": "C30", "title": "Full-space RDM elements are rebuilt correctly from active ones", "statement": "RDM1 and RDM2 return <E_pq> and <e_pqrs> of the full-space state (inactive doubly occupied, virtual empty) for every index combination.", "quantifier": "all index combinations, partitions, active states", "why_tests_cant": "Many index classes; all partitions.", "anchors": ["slowquant/unitary_coupled_cluster/density_matrix.py: RDM1, RDM2"]}
{"id": "C31", "title": "The RDM energy is the Hamiltonian expectation value", "statement": "get_electronic_energy equals <0|H|0> with the full-space Hamiltonian.", "quantifier": "all integrals, partitions, states", "why_tests_cant": "All integrals and states.", "anchors": ["slowquant/unitary_coupled_cluster/density_matrix.py: get_electronic_energy"]}
{"id": "C32", "title": "The orbital gradient is the commutator expectation value", "statement": "get_orbital_gradient returns <0|[E_mn - E_nm, H]|0> for each listed pair.", "quantifier": "all integrals with the usual symmetries, pairs, partitions, states", "why_tests_cant": "Algebraic identity over all integrals.", "anchors": ["slowquant/unitary_coupled_cluster/density_matrix.py: get_orbital_gradient, get_orbital_gradient_response"]}
{"id": "C33", "title": "Response metric and property gradient are their commutator definitions", "statement": "get_orbital_response_metric_sigma returns <0|[q_i\u2020,q_j]|0>, and get_orbital_response_property_gradient / get_orbital_response_vector_norm equal their commutator definitions.", "quantifier": "all pairs, partitions, states, response vectors", "why_tests_cant": "Algebraic identity over all inputs.", "anchors": ["slowquant/unitary_coupled_cluster/density_matrix.py: get_orbital_response_metric_sigma, get_orbital_response_property_gradient, get_orbital_response_vector_norm"]}
{"id": "C34", "title": "The orbital Hessian block is the double commutator", "statement": "get_orbital_response_hessian_block returns <0|[q_tu,[H,q_mn]]|0>.", "quantifier": "all integrals with the usual symmetries, index lists, partitions, states", "why_tests_cant": "Sixteen index-permuted terms; an error in one term is invisible for many integrals.", "anchors": ["slowquant/unitary_coupled_cluster/density_matrix.py: get_orbital_response_hessian_block"]}
{"id": "C35", "title": "Excitation iterators list every excitation of their kind exactly once", "statement": "iterate_t1..iterate_t6 and the spin-adapted/pair/generalized variants yield exactly the documented spin-conserving excitations, without repetition.", "quantifier": "all occupied/unoccupied lists (any length)", "why_tests_cant": "All sizes.", "anchors": ["slowquant/unitary_coupled_cluster/util.py: iterate_t1, iterate_t2, iterate_t3, iterate_t4, iterate_t5, iterate_t6, iterate_t1_sa, iterate_t2_sa, iterate_pair_t2"]}
{"id": "C36", "title": "Ansatz layouts are internally consistent", "statement": "After any sequence of create_tiled / create_fUCC / create_SDSfUCC calls on an UpsStructure, or add_* calls on a UccStructure, the parallel lists have n_params entries, parameter names are unique, grad_param_R has only these names as keys, every entry is an excitation among the active orbitals with the right number of indices, and grad_param_R holds the value belonging to its type. create_fUCC adds exactly the excitations the options ask for; a tUPS (QNP) ansatz has 3 (2) parameters per neighbouring orbital pair and layer, less the skipped singles.", "quantifier": "all options, sizes and call sequences", "why_tests_cant": "All histories and sizes.", "anchors": ["slowquant/unitary_coupled_cluster/util.py: UpsStructure, UccStructure"]}
{"id": "C37", "title": "Option dictionaries are validated before anything is built", "statement": "create_tiled, create_fUCC and create_SDSfUCC succeed exactly if every option is known, n_layers is given and a kind of excitation (exactly one kind of tiling) is chosen; in all other cases they raise ValueError and leave the structure unchanged.", "quantifier": "all option dictionaries and prior structures", "why_tests_cant": "All dictionaries.", "anchors": ["slowquant/unitary_coupled_cluster/util.py: UpsStructure.create_tiled, create_fUCC, create_SDSfUCC"]}
{"id": "C38", "title": "Orbital spaces partition the orbitals and the orbital-rotation list is complete and non-redundant", "statement": "The inactive, active and virtual index lists are disjoint and cover all orbitals, and kappa_idx contains each non-redundant pair p<q exactly once and no inactive-inactive, virtual-virtual (or, unless asked, active-active) pair.", "quantifier": "all active-space choices", "why_tests_cant": "All sizes.", "anchors": ["slowquant/unitary_coupled_cluster/ups_wavefunction.py: WaveFunctionUPS.__init__", "slowquant/unitary_coupled_cluster/ucc_wavefunction.py: WaveFunctionUCC.__init__"]}
{"id": "C39", "title": "Derived quantities are never stale", "statement": "After any sequence of assignments to orbital and ansatz parameters and reads of energies, density matrices, integrals and coefficients, each read returns the value belonging to the current parameters.", "quantifier": "all histories of reads and writes", "why_tests_cant": "Histories are unbounded; a missing invalidation shows only in particular orders.", "anchors": ["slowquant/unitary_coupled_cluster/ups_wavefunction.py: kappa, thetas, ci_coeffs, rdm1, rdm2, rdm3, rdm4, h_mo, g_mo, energy_elec", "slowquant/unitary_coupled_cluster/ucc_wavefunction.py", "slowquant/unitary_coupled_cluster/sa_ups_wavefunction.py"]}
{"id": "C40", "title": "After optimizations the orbitals match the integrals and the energy read is the one reported", "statement": "After any history of assignments, reads and one- or two-step optimizations, the MO coefficients reported by the wave function are those from which its integrals are computed, the density matrices belong to its ansatz parameters, and the energy read right after an optimization is the value the minimizer returned.", "quantifier": "all histories and all behaviours of the minimizer", "why_tests_cant": "Depends on numerical optimizer output and on the order of operations.", "anchors": ["slowquant/unitary_coupled_cluster/ucc_wavefunction.py: run_wf_optimization_2step, run_wf_optimization_1step, kappa, c_mo", "slowquant/unitary_coupled_cluster/ups_wavefunction.py: run_wf_optimization_2step, run_wf_optimization_1step", "slowquant/unitary_coupled_cluster/sa_ups_wavefunction.py: run_wf_optimization_2step, run_wf_optimization_1step"]}
{"id": "C41", "title": "The optimizer's energy/gradient callbacks compute one objective", "statement": "In any sequence of energy and gradient calls made by a minimizer, each energy returned is that of parameters within 1e-14 of those of the call and each gradient is that of the call's parameters, where energy and gradient are functions of the parameters alone, whatever calls came before. With orbital parameters this is for rotations that commute; in general the orbitals depend on the path.", "quantifier": "all call sequences", "why_tests_cant": "Depends on the order in which a minimizer evaluates.", "anchors": ["slowquant/unitary_coupled_cluster/ups_wavefunction.py: _calc_energy_optimization, _calc_gradient_optimization, kappa", "slowquant/unitary_coupled_cluster/ucc_wavefunction.py", "slowquant/unitary_coupled_cluster/sa_ups_wavefunction.py"]}
{"id": "C42", "title": "RotoSolve reports the best point it visited", "statement": "RotoSolve stops after at most maxiter sweeps. The returned value is the objective at the returned parameters, which were reached after some sweep (unless no sweep ended below 1e20). Without convergence it is the smallest value seen after a sweep; with convergence it exceeds the smallest by less than the tolerance. If the objective is a trigonometric polynomial of degree R in each parameter and the one-dimensional search finds the lowest point, the objective never rises from sweep to sweep, and the returned value is the smallest seen.", "quantifier": "all objective functions, settings and starting points", "why_tests_cant": "All objective functions.", "anchors": ["slowquant/unitary_coupled_cluster/optimizers.py: RotoSolve.minimize"]}
{"id": "C43", "title": "Wrapped angles stay equivalent and end in (-pi, pi]", "statement": "The parameter-wrapping loop terminates and returns an angle congruent to the input modulo 2 pi in (-pi, pi].", "quantifier": "all real angles", "why_tests_cant": "Continuous.", "anchors": ["slowquant/unitary_coupled_cluster/optimizers.py: RotoSolve.minimize"]}
{"id": "C44", "title": "RotoSolve's reconstruction of a parameter dependence is exact", "statement": "If the objective is a trigonometric polynomial of degree at most R in one parameter, reconstructed_f from the 2R+1 sampled values returns the objective at every angle between -pi and pi, and reconstructed_f_derivative returns the derivative of reconstructed_f. With several states the result is a fixed positive multiple of the state average.", "quantifier": "all R, all such functions, all angles", "why_tests_cant": "Continuous, all R.", "anchors": ["slowquant/unitary_coupled_cluster/optimizers.py: reconstructed_f, reconstructed_f_derivative, get_energy_evals"]}
{"id": "C45", "title": "The parameter-shift gradient is exact", "statement": "For an energy that is a trigonometric polynomial of degree at most R in a parameter, the shift rule used for circuit gradients returns the exact derivative.", "quantifier": "all R, all such functions", "why_tests_cant": "Continuous, all R.", "anchors": ["slowquant/qiskit_interface/circuit_wavefunction.py: _calc_gradient_optimization, _get_energy_evals_for_grad"]}
{"id": "C46", "title": "Pauli grouping: one measured head per Pauli, heads never conflict, and data always belong to the current head", "statement": "After any sequence of add_paulis/update_distr calls on strings of one length: heads are pairwise incompatible, every Pauli ever added is covered by exactly the head that a later lookup finds, a lookup never changes a head, and a stored distribution was measured for the present head. update_distr never replaces stored data: data for a head that already has a distribution raise ValueError.", "quantifier": "all histories of added Pauli strings and measurement updates", "why_tests_cant": "Histories unbounded; stale data after a head grows shows only in certain orders.", "anchors": ["slowquant/qiskit_interface/util.py: Clique, CliqueHead, CliqueSaver, fit_in_clique"]}
{"id": "C47", "title": "Mitigation flags stay consistent", "statement": "After any sequence of constructor/update_flags/all_to_false calls, ansatz0 implies M mitigation and ansatz0_plus implies ansatz0 (and so M mitigation); a rejected update changes nothing; to_int identifies the flag set.", "quantifier": "all update histories", "why_tests_cant": "All histories.", "anchors": ["slowquant/qiskit_interface/util.py: MitigationFlags"]}
{"id": "C48", "title": "The sign of a measured bit string is the Pauli eigenvalue", "statement": "get_bitstring_sign(P, b) is the product over qubits of the eigenvalue of the (rotated) Pauli letter on the measured bit.", "quantifier": "all Pauli strings and outcomes of any length", "why_tests_cant": "All lengths.", "anchors": ["slowquant/qiskit_interface/util.py: get_bitstring_sign"]}
{"id": "C49", "title": "swap_indices permutes the basis by exchanging two bits, and is its own inverse", "statement": "swap_indices(n,(i,j)) is the permutation of 0..2^n-1 exchanging bits i and j (counted from the most significant), and indexing twice with it is the identity.", "quantifier": "all n, i, j", "why_tests_cant": "All sizes.", "anchors": ["slowquant/qiskit_interface/util.py: swap_indices"]}
{"id": "C50", "title": "find_swaps turns one layout into the other", "statement": "Applying the swaps returned by find_swaps(new, ref) to new yields ref whenever new is a rearrangement of ref; for lists of one length, or a shorter ref, it raises otherwise.", "quantifier": "all lists", "why_tests_cant": "All lists and lengths.", "anchors": ["slowquant/qiskit_interface/util.py: find_swaps"]}
{"id": "C51", "title": "Layout-corrected readout mitigation acts in the reference layout", "statement": "correct_distribution_with_layout_v2 equals: relabel the qubits from the new to the reference layout, multiply by the mitigation matrix, relabel back; and the variant that relabels the matrix gives the same result.", "quantifier": "all matrices, distributions, layouts", "why_tests_cant": "Layouts that differ by a 3-cycle behave differently from those differing by a swap.", "anchors": ["slowquant/qiskit_interface/util.py: correct_distribution_with_layout_v2, correct_distribution_with_layout"]}
{"id": "C52", "title": "find_best_path returns a shortest path, or raises exactly when there is none", "statement": "The returned list starts at start, ends at target, each consecutive pair is coupled, no shorter such list exists; it raises iff target is unreachable.", "quantifier": "all coupling maps", "why_tests_cant": "All graphs.", "anchors": ["slowquant/qiskit_interface/util.py: find_best_path"]}
{"id": "C53", "title": "add_permutation_gate realizes the permutation with allowed swaps", "statement": "When it returns, the emitted swaps use coupled qubit pairs only and move the qubits into the requested arrangement; it returns for every permutation on a connected device.", "quantifier": "all coupling maps and permutations", "why_tests_cant": "Termination and result over all graphs.", "anchors": ["slowquant/qiskit_interface/util.py: add_permutation_gate"]}
{"id": "C54", "title": "Post-selection keeps exactly the outcomes with the right electron numbers and renormalizes", "statement": "Under Jordan-Wigner the result contains exactly the outcomes with num_elec alpha and beta ones with probabilities proportional to the input and summing to one; under parity mapping it keeps exactly the outcomes that decode to the right alpha and beta numbers.", "quantifier": "all distributions, qubit and electron numbers", "why_tests_cant": "All distributions; unequal alpha/beta numbers are rarely tested.", "anchors": ["slowquant/qiskit_interface/util.py: postselection"]}
{"id": "C55", "title": "The two-determinant circuit prepares the equal superposition", "statement": "get_determinant_superposition_reference(det1,det2) prepares (|det1>+|det2>)/sqrt2 (qubit order by f2q), and raises iff det2 has no occupied orbital that is empty in det1.", "quantifier": "all pairs of determinants of any length", "why_tests_cant": "All pairs.", "anchors": ["slowquant/qiskit_interface/util.py: get_determinant_superposition_reference, f2q, get_determinant_reference"]}
{"id": "C56", "title": "Off-diagonal elements from superposition circuits are exact", "statement": "The combination of three expectation values used for bra and ket states built from determinants equals the bilinear form <bra|O|ket> for a real symmetric operator.", "quantifier": "all coefficient lists and operators", "why_tests_cant": "Algebraic identity over all CSF expansions.", "anchors": ["slowquant/qiskit_interface/interface.py: quantum_expectation_value_csfs"]}
{"id": "C57", "title": "Shot settings are consistent", "statement": "After any sequence of assignments to shots and max_shots_per_run, the number of shots per run never exceeds the maximum, total shots equals runs times shots per run, and stored measurement data are discarded when the shot setting changes.", "quantifier": "all assignment histories", "why_tests_cant": "All histories.", "anchors": ["slowquant/qiskit_interface/interface.py: shots, max_shots_per_run"]}
{"id": "C58", "title": "Changing circuit parameters discards measurements made with the old ones", "statement": "After any history of assigning shots, maxima, parameters and mitigation flags and of evaluations, an expectation value that is returned uses only distributions measured with the parameters, shots and circuit now in force, and mitigated according to the present flags.", "quantifier": "all histories of assignments and evaluations", "why_tests_cant": "All histories.", "anchors": ["slowquant/qiskit_interface/interface.py: parameters, shots, max_shots_per_run, _sampler_quantum_expectation_value"]}
{"id": "C59", "title": "The Gaussian-product expansion coefficients are exact", "statement": "expansion_coefficients returns coefficients with (x-A)^i exp(-a(x-A)^2) (x-B)^j exp(-b(x-B)^2) = sum_t E_t^{ij} Lambda_t(x), Lambda_t the t-th derivative of exp(-(a+b)(x-P)^2) with respect to P, for all angular momenta up to the requested ones, and E_t^{ij}=0 for t>i+j.", "quantifier": "all centers, all exponents with a+b different from 0, all angular momenta, all x", "why_tests_cant": "Continuous and all angular momenta.", "anchors": ["slowquant/molecularintegrals/integralfunctions.py: expansion_coefficients"]}
{"id": "C60", "title": "The Hermite Coulomb table equals its recursion", "statement": "hermite_coulomb_integral's in-place table returns at order zero the values defined by the recursions, for every (t,u,v) in range and every Boys function; with the exact Boys function these are the integrals over s in [0,1] of the (t,u,v) derivative of exp(-p s^2 R^2).", "quantifier": "all ranges and inputs", "why_tests_cant": "Truncated table entries must never be used; depends on all index combinations.", "anchors": ["slowquant/molecularintegrals/integralfunctions.py: hermite_coulomb_integral"]}
{"id": "C61", "title": "The two-electron integral tensor is completely filled with its eight-fold symmetry", "statement": "electron_repulsion_integral_driver visits, up to permutational symmetry, every shell quadruple, so every tensor element is assigned the integral of its four functions; screening with the Cauchy-Schwarz matrix drops only integrals below the threshold; the tensor has the eight-fold symmetry.", "quantifier": "all molecules and basis sets with positive exponents, all elements, all thresholds", "why_tests_cant": "The pair index used for skipping is not the usual triangular index, and that a screened integral is small is an inequality of integrals.", "anchors": ["slowquant/molecularintegrals/electronrepulsion.py: electron_repulsion_integral_driver, get_cauchy_schwarz_matrix"]}
{"id": "C62", "title": "Integral transformation is a change of basis", "statement": "one_/two_electron_integral_transform compose (transforming with C then D equals transforming with CD), are the identity for C=1, and keep the permutational symmetries.", "quantifier": "all matrices and tensors", "why_tests_cant": "All sizes.", "anchors": ["slowquant/molecularintegrals/integralfunctions.py: one_electron_integral_transform, two_electron_integral_transform"]}
{"id": "C63", "title": "Basis functions are numbered consecutively without gaps", "statement": "After setting a basis set the shells' basis-function indices are consecutive, disjoint and cover 0..number_bf-1.", "quantifier": "all molecules and basis sets", "why_tests_cant": "All inputs.", "anchors": ["slowquant/molecule/moleculeclass.py: _Molecule._set_basis_set, Shell"]}
{"id": "C64", "title": "Electron counts add up", "statement": "number_electrons_alpha + number_electrons_beta = number_electrons and they differ by at most one.", "quantifier": "all molecules and charges (including negative counts)", "why_tests_cant": "All inputs.", "anchors": ["slowquant/molecule/moleculeclass.py: number_electrons_alpha, number_electrons_beta"]}
{"id": "C65", "title": "DIIS keeps at most the configured number of matrices and extrapolates with weights summing to one", "statement": "Over any sequence of calls the history length never exceeds the limit, holds the most recent matrices, and the returned matrix is a combination with coefficients summing to one.", "quantifier": "all call histories", "why_tests_cant": "All histories.", "anchors": ["slowquant/hartreefock/diis.py: DIIS.get_extrapolated_fock_matrix"]}
{"id": "C66", "title": "Restricted Hartree-Fock density represents the electrons", "statement": "For orthonormal orbitals the returned density D satisfies D S D = 2 D and tr(D S) equals the number of electrons.", "quantifier": "all even electron numbers, all orthonormal orbital sets", "why_tests_cant": "All sizes and inputs.", "anchors": ["slowquant/hartreefock/hartreefock_in_memory.py: run_hartree_fock"]}
{"id": "C67", "title": "Response roots come in pairs", "statement": "For the assembled response matrices, if (w,(Z,Y)) is a solution then (-w,(Y,Z)) is one, and normalized vectors have unit metric norm.", "quantifier": "all response matrices of the block form", "why_tests_cant": "All sizes.", "anchors": ["slowquant/unitary_coupled_cluster/linear_response/lr_baseclass.py: calc_excitation_energies"]}
{"id": "C68", "title": "Integrals are computed once and always for the current molecule", "statement": "Over any sequence of reads the integral objects return the driver's value, and recompute only when never computed, when storing is off or when forced.", "quantifier": "all read histories", "why_tests_cant": "All histories.", "anchors": ["slowquant/molecularintegrals/integralclass.py: _Integral", "slowquant/unitary_coupled_cluster/integral_manager.py"]}
{"id": "C69", "title": "Readable keys never collide and get_info reads every term back", "statement": "operators_readable gives every term of an operator its own key; get_info of a number-conserving normal-ordered operator returns, term by term and in order, exactly the annihilation indices, the creation indices and the coefficient.", "quantifier": "all operators, indices of any number of digits", "why_tests_cant": "The keys run decimal numerals together and are parsed back with a regular expression; collisions would only show for particular index combinations.", "anchors": ["slowquant/unitary_coupled_cluster/fermionic_operator.py: operators_readable, get_info"]}
{"id": "C70", "title": "Energies are expectation values of the full Hamiltonian", "statement": "Applying a folded number- and spin-conserving operator gives, through overlaps, the matrix elements of the unfolded operator with the inactive orbitals filled; the energy of the UPS wave function is the expectation value of the full electronic Hamiltonian in the state produced by the chain of exponentials.", "quantifier": "all integrals, orbital partitions, electron counts, layouts, angles, reference vectors", "why_tests_cant": "Composition of Hamiltonian truncation, folding, kernels and ansatz for all sizes.", "anchors": ["slowquant/unitary_coupled_cluster/ups_wavefunction.py: energy_elec, ci_coeffs", "slowquant/unitary_coupled_cluster/operator_state_algebra.py: propagate_state, expectation_value", "slowquant/unitary_coupled_cluster/operators.py: hamiltonian_0i_0a"]}
{"id": "C71", "title": "The analytic theta gradient is the derivative of the energy", "statement": "The reverse-propagation loop of _calc_gradient_optimization returns a list with one entry per parameter and entry i is the partial derivative of the energy with respect to theta_i.", "quantifier": "all integrals with the symmetry of real orbitals, layouts, angles, reference vectors", "why_tests_cant": "Continuous parameters; a finite-difference test has a tolerance and a sample.", "anchors": ["slowquant/unitary_coupled_cluster/ups_wavefunction.py: _calc_gradient_optimization", "slowquant/unitary_coupled_cluster/operator_state_algebra.py: propagate_unitary, get_grad_action"]}
{"id": "C72", "title": "The UCC state is one exponential of the summed excitation operators", "statement": "construct_ucc_state returns the exact exponential of the sum over all listed excitations of theta times the antihermitian excitation operator, applied to the given vector (of minus that sum for dagger=True). It preserves norms and overlaps, dagger=True undoes dagger=False, and an unknown excitation type or a wrong number of indices raises ValueError.", "quantifier": "all layouts, angles, input vectors, complete determinant spaces", "why_tests_cant": "Continuous angles and arbitrary layouts; a test compares a few states to tolerance.", "anchors": ["slowquant/unitary_coupled_cluster/operator_state_algebra.py: construct_ucc_state"]}
{"id": "C73", "title": "Reference determinant and perfect pairing", "statement": "The starting vector of a closed-shell active space is the Hartree-Fock determinant. With do_pp the perfect-pairing search always ends without an exception, yields filled-empty pairs followed by all filled or all empty orbitals with the right numbers of orbitals and electrons, and the accompanying exchange of orbital columns is an involution inside the active space that puts exactly the Hartree-Fock occupied columns where the perfect-pairing determinant is filled.", "quantifier": "all closed-shell active spaces and orbital coefficient matrices", "why_tests_cant": "All sizes; the loop and its consistency check run for any (electrons, orbitals).", "anchors": ["slowquant/unitary_coupled_cluster/ups_wavefunction.py: WaveFunctionUPS.__init__ (lines 214-262)"]}
{"id": "C74", "title": "Readout correction returns the corrected distribution", "statement": "correct_distribution(dist, M) returns the distribution M p where p is the distribution in the computational basis: every outcome with a corrected probability is in the result, with that probability.", "quantifier": "all matrices and distributions", "why_tests_cant": "The loss of probability shows only for outcomes that were not measured.", "anchors": ["slowquant/qiskit_interface/util.py: correct_distribution"]}
{"id": "C75", "title": "Shots split over several runs are pooled exactly", "statement": "When the requested shots exceed the maximum per run and the circuits are run several times, the distribution returned for each Pauli string and circuit averages the runs: every outcome gets its number of occurrences over all runs divided by the total number of shots.", "quantifier": "all numbers of runs, Pauli strings, circuits and all outcomes", "why_tests_cant": "Needs every interleaving of outcomes over runs.", "anchors": ["slowquant/qiskit_interface/interface.py: _one_call_sampler_distributions"]}
{"id": "C76", "title": "quantum_variance is the variance of what is measured", "statement": "quantum_variance returns, over the number of shots, the sum over the groups measured together of the statistical variance of the part of the observable in the group (or, with the labels treated as independent, the sum of squared coefficients times the variances of the labels); it is never negative for probability distributions.", "quantifier": "all observables, saved data and probability distributions", "why_tests_cant": "All distributions and groupings.", "anchors": ["slowquant/qiskit_interface/interface.py: quantum_variance"]}
{"id": "C77", "title": "Orbital rotations keep the orbitals orthonormal", "statement": "If the MO coefficients given to a wave function are orthonormal with respect to an overlap matrix, then so are the coefficients read after any sequence of assignments and reads.", "quantifier": "all coefficients, overlap matrices and histories", "why_tests_cant": "Needs the matrix exponential of arbitrary antisymmetric matrices and unbounded histories.", "anchors": ["slowquant/unitary_coupled_cluster/ups_wavefunction.py: c_mo, kappa"]}
{"id": "C78", "title": "A one-step optimization can be repeated", "statement": "run_wf_optimization_1step with orbital optimization can be called again on the same wave function object: it starts from the current parameters.", "quantifier": "all wave functions with orbital and ansatz parameters, all behaviours of the minimizer", "why_tests_cant": "Every sequence of two optimizations and every minimizer.", "anchors": ["slowquant/unitary_coupled_cluster/ups_wavefunction.py: run_wf_optimization_1step", "slowquant/unitary_coupled_cluster/ucc_wavefunction.py: run_wf_optimization_1step", "slowquant/unitary_coupled_cluster/sa_ups_wavefunction.py: run_wf_optimization_1step"]}
{"id": "C79", "title": "Reading a basis set returns exactly the listed shells", "statement": "For a basis-set file in the usual layout, read_basis returns for the requested element every listed shell once, with its letter turned into the angular momentum, its exponents and its coefficients in the order listed.", "quantifier": "all files consisting of an element block with any number of shells of any length", "why_tests_cant": "Every file layout and shell length; a shell letter that is not recognised is skipped without an error.", "anchors": ["slowquant/molecule/basisset.py: read_basis"]}
{"id": "C80", "title": "Nuclear repulsion counts every pair of atoms once", "statement": "nuclear_repulsion equals the sum over unordered pairs of atoms of Z_A Z_B / R_AB, and does not depend on the order in which the atoms are listed.", "quantifier": "all molecules", "why_tests_cant": "Every number of atoms and every order.", "anchors": ["slowquant/molecule/moleculeclass.py: nuclear_repulsion"]}
{"id": "C81", "title": "Unrestricted Hartree-Fock densities represent the electrons of each spin", "statement": "Whenever run_unrestricted_hartree_fock returns, the orbitals of each spin are orthonormal, each spin density satisfies D S D = D, rdm1_charge and rdm1_spin hold N_alpha + N_beta and N_alpha - N_beta electrons, and the energy is the trace formula with the returned Fock matrices. Without DIIS the returned Fock matrices are h + J[D_alpha + D_beta] - K[D_sigma] of spin densities within the density threshold of the returned ones unless a warning was printed, and at self-consistency the energy is the unrestricted energy functional of the returned densities. The starting alpha density after mixing HOMO and LUMO is a proper density.", "quantifier": "all integrals with positive definite overlap, all electron numbers, all thresholds and iteration limits", "why_tests_cant": "Every input, converged or not.", "anchors": ["slowquant/hartreefock/unrestricted_hartreefock_in_memory.py: run_unrestricted_hartree_fock", "slowquant/hartreefock/hartreefockclass.py: rdm1_charge, rdm1_spin"]}
{"id": "C82", "title": "Spin contamination is non-negative and zero only for a spin-pure determinant", "statement": "spin_contamination lies between zero and the number of beta electrons and is zero exactly when the occupied beta orbitals lie in the space of the occupied alpha orbitals.", "quantifier": "all results of an unrestricted calculation", "why_tests_cant": "A statement about every pair of orbital sets.", "anchors": ["slowquant/hartreefock/hartreefockclass.py: spin_contamination"]}
{"id": "C83", "title": "Overlap and multipole matrices hold the integrals of the basis functions", "statement": "Element (a,b) of get_multipole_matrix(order) is the integral over space of chi_a chi_b times the powers of the distance from the center of mass, where chi_a is the function get_basis_function_amplitude evaluates; overlap_matrix is order (0,0,0).", "quantifier": "all molecules, basis sets with positive exponents, orders, elements", "why_tests_cant": "An identity between a finite table computation and an integral, for all real coordinates and exponents.", "anchors": ["slowquant/molecularintegrals/multipole.py", "slowquant/molecularintegrals/integralfunctions.py: hermite_multipole_integral", "slowquant/molecularintegrals/integralclass.py: overlap_matrix, get_multipole_matrix"]}
{"id": "C84", "title": "The kinetic-energy matrix holds the integrals of the Laplacian", "statement": "Element (a,b) of kinetic_energy_matrix is minus one half of the integral of chi_a times the Laplacian of chi_b; the matrix is symmetric.", "quantifier": "all molecules, basis sets with positive exponents, elements", "why_tests_cant": "As C83; and symmetry of the Laplacian needs integration by parts.", "anchors": ["slowquant/molecularintegrals/kineticenergy.py", "slowquant/molecularintegrals/integralclass.py: kinetic_energy_matrix"]}
{"id": "C85", "title": "Basis functions are normalised contractions of the listed primitives", "statement": "Every basis function evaluated by get_basis_function_amplitude is a positive multiple of the listed contraction of normalised Cartesian Gaussians on its center, and its square integrates to 1; the diagonal of the overlap matrix is 1.", "quantifier": "all molecules and basis sets with positive, pairwise different exponents in a shell and a nonzero coefficient", "why_tests_cant": "Integrals over space for all exponents, coefficients and angular momenta.", "anchors": ["slowquant/molecule/moleculeclass.py: Shell, get_basis_function_amplitude", "slowquant/molecule/moleculefunctions.py"]}
{"id": "C86", "title": "The nuclear-attraction matrix holds the attraction integrals", "statement": "With exact Boys-function values, element (a,b) of nuclear_attraction_matrix is minus the sum over nuclei of the charge times the integral of chi_a chi_b over the distance to the nucleus; the matrix is symmetric with any Boys function.", "quantifier": "all molecules, basis sets with positive exponents, elements", "why_tests_cant": "Singular integrals over space for all coordinates and exponents.", "anchors": ["slowquant/molecularintegrals/nuclearattraction.py", "slowquant/molecularintegrals/integralclass.py: nuclear_attraction_matrix"]}
{"id": "C87", "title": "The electron-repulsion tensor holds the repulsion integrals", "statement": "With exact Boys-function values, element (a,b,c,d) of electron_repulsion_tensor is the integral of chi_a chi_b (r) chi_c chi_d (r') / |r-r'|, or it is 0 and the integral is smaller than the threshold; at the default threshold no element is off by 1e-12 or more.", "quantifier": "all molecules, basis sets with positive exponents, elements, thresholds", "why_tests_cant": "Singular six-dimensional integrals, for all inputs.", "anchors": ["slowquant/molecularintegrals/electronrepulsion.py", "slowquant/molecularintegrals/integralclass.py: electron_repulsion_tensor"]}
{"id": "C88", "title": "The Boys function is accurate to a stated absolute error", "statement": "For orders n up to 13 and z >= 0, boys_function(n, z) differs from the integral of s^(2n) exp(-z s^2) over [0,1] by at most 1e-10 + (2n-1)!! 50/(2n+3) 1e-12; for n <= 4 by at most 1e-9.", "quantifier": "all real z >= 0, all branches", "why_tests_cant": "The four branches meet at cut-offs in a continuous argument; the number of series terms depends on the argument.", "anchors": ["slowquant/molecularintegrals/integralfunctions.py: boys_function"]}
{"id": "C89", "title": "Excitation circuits apply the exponential of the excitation generator", "statement": "Under Jordan-Wigner, the gates appended by single_excitation, double_excitation and sa_single_excitation, applied to any superposition of determinants on the register, give exp(theta T) of it with T the anti-Hermitian generator of the excitation (in the qubit order alpha then beta, with its signs); excitations in the wrong order, with an odd number of alpha indices, of another type or with the wrong number of indices raise ValueError.", "quantifier": "all register sizes, indices accepted by the functions, angles and input states", "why_tests_cant": "The ladders of controlled gates depend on the distance and order of the indices; signs show only on particular determinants.", "anchors": ["slowquant/qiskit_interface/operators_circuits.py: _single_excitation_efficient, _double_excitation_efficient, _sa_single_excitation_efficient"]}
{"id": "C90", "title": "The circuit of a structure is the product of its exponentials, in order", "statement": "upslayout2circuit applies the exponentials of the entries of the structure in order, names the parameters so that their alphabetical order (in which values are assigned) is the order of the entries, and stores for each the highest frequency of its type; structures made by create_tiled, create_fUCC and create_SDSfUCC with excitations up to doubles are translated without error.", "quantifier": "all structures, angles and input states; all sequences of create_ calls and options with circuits", "why_tests_cant": "Arbitrary sequences of excitations of any number; the alphabetical order matters from the tenth parameter on.", "anchors": ["slowquant/qiskit_interface/operators_circuits.py: upslayout2circuit", "slowquant/qiskit_interface/interface.py: construct_circuit"]}
{"id": "C91", "title": "Circuit and state-vector code prepare the same state", "statement": "For the same structure and angles (outside the range |theta| < 1e-28 that the state-vector code treats as 0), the circuit from upslayout2circuit maps the register state of a CI vector to the register state of the vector construct_ups_state computes from it.", "quantifier": "all complete active spaces, structures with circuits, angles, CI vectors", "why_tests_cant": "Two unrelated implementations, compared on all inputs.", "anchors": ["slowquant/qiskit_interface/operators_circuits.py", "slowquant/unitary_coupled_cluster/operator_state_algebra.py: construct_ups_state"]}
{"id": "C92", "title": "Energies along one angle are trigonometric polynomials of the stored degree", "statement": "For every entry of a structure with a number R in grad_param_R, the expectation value of any observable as a function of this angle, all others fixed, is a trigonometric polynomial of degree at most R; hence the parameter-shift gradient and the RotoSolve reconstruction of the energies of circuits are exact.", "quantifier": "all structures, observables, start states, angles and parameters", "why_tests_cant": "A wrong R gives plausible but wrong gradients for some structures only; the statement is about all values of all angles.", "anchors": ["slowquant/qiskit_interface/operators_circuits.py: upslayout2circuit", "slowquant/unitary_coupled_cluster/util.py: UpsStructure", "slowquant/unitary_coupled_cluster/optimizers.py: RotoSolve", "slowquant/qiskit_interface/interface.py"]}
{"id": "C93", "title": "Truncated Hamiltonians agree with the full one where they are used", "statement": "Between a state of the active space and any state that differs by moving one electron out of the inactive orbitals and one electron into the virtual orbitals, hamiltonian_1i_1a gives the matrix elements of the full-space Hamiltonian, in either order; hamiltonian_2i_2a does so between two such states, and one_elec_op_1i_1a between an active state and any state. Every singlet excitation operator E_pq takes active states to such states.", "quantifier": "all orbital-space sizes, all one- and two-electron integrals (no symmetry needed), all such pairs of states", "why_tests_cant": "The loops skip index quadruples by counting inactive and virtual indices; a wrong bound drops terms only for particular index patterns and sizes, and the response matrices still look plausible.", "anchors": ["slowquant/unitary_coupled_cluster/operators.py: hamiltonian_1i_1a", "slowquant/unitary_coupled_cluster/operators.py: hamiltonian_2i_2a", "slowquant/unitary_coupled_cluster/operators.py: one_elec_op_1i_1a"]}
{"id": "C94", "title": "Naive linear response builds the response matrices of its operators", "statement": "The linear response classes use the orbital rotations E_nm/sqrt(2) of all non-redundant pairs and the spin-adapted or plain excitations of the active space named by the letters of excitations; the latter commute with each other. The constructor of the naive class raises ValueError exactly when an element of the gradient <[H, X]> exceeds 1e-3. Otherwise Sigma_ij = <[Xi^+, Xj]>, Delta_ij = <[Xi^+, Xj^+]>, A_ij = <[Xi^+, [H, Xj]]> and B_ij = <[Xi^+, [H, Xj^+]]> for two orbital rotations and the symmetric double commutators whenever an active-space excitation is involved, all with the full-space Hamiltonian; every element of the matrices is set.", "quantifier": "all active spaces, all strings of excitation letters, all real integrals, all normalised states of the active space", "why_tests_cant": "Tests compare a few excitation energies of small molecules; an error in one commutator term, in one block or a missing factor cancels by symmetry or vanishes for those molecules, and the truncated Hamiltonians and propagated vectors hide which operator is really evaluated.", "anchors": ["slowquant/unitary_coupled_cluster/linear_response/lr_baseclass.py: LinearResponseBaseClass.__init__", "slowquant/unitary_coupled_cluster/linear_response/naive.py: LinearResponse.__init__"]}
{"id": "C95", "title": "Projected linear response builds the response matrices of its projected operators", "statement": "The constructor of the projected class raises ValueError exactly when an element of the gradient <[H, X]> of its operators (orbital rotations q, and G|0><0| - <0|G|0> for the excitations G of the active space) exceeds 1e-3. Otherwise Sigma_ij = <[Xi^+, Xj]>, Delta_ij = <[Xi^+, Xj^+]>; A_ij = <[Xi^+, [H, Xj]]> and B_ij = <[Xi^+, [H, Xj^+]]> for two orbital rotations; the symmetric double commutators for two active operators. In the blocks that couple rotations and active operators the code leaves out terms proportional to the orbital gradient: A differs from the double commutator by 1/2<G><[H, q]>, B by -<G><[H, q]>; the blocks are symmetric.", "quantifier": "all active spaces, all strings of excitation letters, all real integrals, all normalised states of the active space", "why_tests_cant": "Tests compare a few excitation energies at converged orbitals, where the omitted terms vanish; a wrong projector term in one block cancels for the tested molecules.", "anchors": ["slowquant/unitary_coupled_cluster/linear_response/projected.py: LinearResponse.__init__"]}
{"id": "C96", "title": "State-transfer linear response builds the response matrices of its operators", "statement": "For a wave function started from the closed-shell determinant, the states U G|ref> of the excitations G are orthonormal and orthogonal to the wave function |0>. The constructor of the state-transfer class raises ValueError exactly when an element of the gradient <[H, X]> of its operators (orbital rotations q, and U G|ref><0|) exceeds 1e-3. Otherwise Sigma_ij = <[Xi^+, Xj]>, Delta_ij = <[Xi^+, Xj^+]>; A and B are the nested commutators for two orbital rotations and the symmetric double commutators for all other pairs. With another reference (perfect pairing) an excitation that kills the reference keeps norm 1 and diagonal element -E.", "quantifier": "all active spaces, all layouts and angles, all strings of excitation letters, all real integrals", "why_tests_cant": "Tests compare excitation energies of a few molecules with tabulated numbers; the shortcut Sigma = 1 and the dropped terms are justified by orthogonality for every list of excitations and every unitary, which no finite set of molecules shows.", "anchors": ["slowquant/unitary_coupled_cluster/linear_response/statetransfer.py: LinearResponse.__init__"]}
{"id": "C97", "title": "Projected state-transfer linear response builds the response matrices of its operators", "statement": "For a wave function started from the closed-shell determinant the constructor raises ValueError exactly when an element of the gradient <[H, X]> of the operators q|0><0| and U G|ref><0| exceeds 1e-3. Otherwise for all pairs A_ij = <[Xi^+, H, Xj]>, B_ij = <[Xi^+, H, Xj^+]> (symmetric double commutators), Sigma_ij = <[Xi^+, Xj]>, Delta_ij = <[Xi^+, Xj^+]>.", "quantifier": "all active spaces, all layouts and angles, all strings of excitation letters, all real integrals", "why_tests_cant": "Tests compare excitation energies of a few molecules; that the truncated Hamiltonians lose nothing and that the zero blocks are exactly zero has to hold for every orbital pair and every state.", "anchors": ["slowquant/unitary_coupled_cluster/linear_response/projected_statetransfer.py: LinearResponse.__init__"]}
{"id": "C98", "title": "Transition dipole moments and oscillator strengths are those of the normalised excitation operators", "statement": "After the excited states have been calculated, get_transition_dipole returns one vector per excitation energy, in the same order. Let O = sum_l Z_l X_l + Y_l X_l^+ be the excitation operator of the normalised response vector, X being the operators of the chosen linear response class (C94-C97). Then the vector has the components <[O, mu_x]>, <[O, mu_y]>, <[O, mu_z]> with the dipole operators of the integrals. The normalised vector is a non-negative multiple of the eigenvector with <[O^+, O]> = 1, or zero if the norm of the eigenvector is below 1e-10. The oscillator strength is 2/3 E |<[O, mu]>|^2. Calling it raises nothing.", "quantifier": "all wave functions and integrals for which the constructor returned, all solutions of the eigenvalue routine, all symmetric dipole integrals; classes naive, projected, statetransfer, projected_statetransfer", "why_tests_cant": "Tests compare a few oscillator strengths with stored numbers, where the relative sign of the orbital and active parts, the order of the Z and Y halves and the truncation of the dipole operators are only seen through one molecule.", "anchors": ["slowquant/unitary_coupled_cluster/linear_response/naive.py: LinearResponse.get_transition_dipole", "slowquant/unitary_coupled_cluster/linear_response/projected.py: LinearResponse.get_transition_dipole", "slowquant/unitary_coupled_cluster/linear_response/statetransfer.py: LinearResponse.get_transition_dipole", "slowquant/unitary_coupled_cluster/linear_response/projected_statetransfer.py: LinearResponse.get_transition_dipole", "slowquant/unitary_coupled_cluster/linear_response/lr_baseclass.py: LinearResponseBaseClass.get_oscillator_strength"]}
{"id": "C99", "title": "All-projected linear response builds the matrices and transition dipoles of the operators T|0><0| - <0|T|0>", "statement": "LinearResponse of allprojected.py with the orbital rotations q and active operators G of C94 uses the operators X = T|0><0| - <0|T|0> for T in q and G. Constructing it raises ValueError exactly when some |<[H, X]>| exceeds 1e-3. Otherwise Sigma and Delta contain <[X_i^+, X_j]> and <[X_i^+, X_j^+]> for all pairs, and A and B contain the symmetric double commutators of the pairs of two orbital rotations and of two active operators. For an orbital rotation and an active operator A and B are symmetric and differ from the double commutators by +/- 1/2 <G> <[H, q]>, which vanishes for optimised orbitals. The transition dipole moments are <[O, mu]> of the normalised excitation operators O, as in C98.", "quantifier": "all wave functions with real coefficients normalised to one, all real symmetric integrals, all excitation letters, all dipole integrals and all solutions of the eigenvalue routine", "why_tests_cant": "Tests compare excitation energies of a few optimised molecules, where the orbital gradient vanishes and <G> is zero, so the omitted terms and the terms with <G> are not seen.", "anchors": ["slowquant/unitary_coupled_cluster/linear_response/allprojected.py: LinearResponse.__init__", "slowquant/unitary_coupled_cluster/linear_response/allprojected.py: LinearResponse.get_transition_dipole"]}
{"id": "C100", "title": "Self-consistent linear response builds the matrices of the operators q and U G U^+", "statement": "LinearResponse of selfconsistent.py uses the orbital rotations q and the operators U G U^+, with U the unitary of the wave function and G the active operators of C94. Constructing it raises ValueError exactly when some |<[H, X]>| exceeds 1e-3. Otherwise Sigma and Delta contain <[X_i^+, X_j]> and <[X_i^+, X_j^+]> for all pairs; A and B contain <[X_i^+, [H, X_j]]> and <[X_i^+, [H, X_j^+]]> for two orbital rotations and the symmetric double commutators for all other pairs. The working equations are evaluated in the determinant space extended by one electron moved out of the inactive or into the virtual orbitals; nothing is lost by this.", "quantifier": "all wave functions of the unitary product state or unitary coupled cluster classes with closed-shell reference, all layouts and angles, all real symmetric integrals, all excitation letters; single-threaded kernels", "why_tests_cant": "Tests compare a few excitation energies of H2 and LiH; whether the extended determinant space contains every intermediate state that contributes is a statement about all active spaces and all layouts.", "anchors": ["slowquant/unitary_coupled_cluster/linear_response/selfconsistent.py: LinearResponse.__init__", "slowquant/unitary_coupled_cluster/ci_spaces.py: get_indexing_extended"]}
{"id": "C101", "title": "All-state-transfer linear response builds the matrices of the operators U q|ref><0| and U G|ref><0|", "statement": "LinearResponse of allstatetransfer.py uses the state transfer operators of the orbital excitations q out of the reference determinant and of the active operators G. The states U q|ref> and U G|ref> are orthonormal and orthogonal to the wave function. Constructing it raises ValueError exactly when |<[H, X]>| exceeds 1e-3 for an active operator; the gradient of the orbital excitations is not looked at. Otherwise Sigma, Delta, A and B contain <[X_i^+, X_j]>, <[X_i^+, X_j^+]> and the symmetric double commutators with H for all pairs.", "quantifier": "as C100", "why_tests_cant": "As C100; in addition the unit metric and the zero B block are assumed by the code, not computed, so that a test of energies does not show whether they belong to the operators.", "anchors": ["slowquant/unitary_coupled_cluster/linear_response/allstatetransfer.py: LinearResponse.__init__", "slowquant/unitary_coupled_cluster/ci_spaces.py: get_indexing_extended"]}
{"id": "C102", "title": "All-self-consistent linear response builds the matrices of the operators U q U^+ and U G U^+", "statement": "LinearResponse of allselfconsistent.py uses the operators U q U^+ for orbital excitations q out of the reference determinant and U G U^+ for the active operators G. Constructing it raises ValueError exactly when |<[H, X]>| exceeds 1e-3 for an active operator; the gradient of the orbital excitations is not looked at. Otherwise Sigma, Delta, A and B contain <[X_i^+, X_j]>, <[X_i^+, X_j^+]> and the symmetric double commutators with H for all pairs. The working equations are evaluated in the determinant space with up to two electrons moved; nothing is lost by this.", "quantifier": "as C100", "why_tests_cant": "As C100; the double commutator of two orbital excitations passes through doubly excited states, and one missing determinant would change only some elements for some active spaces.", "anchors": ["slowquant/unitary_coupled_cluster/linear_response/allselfconsistent.py: LinearResponse.__init__", "slowquant/unitary_coupled_cluster/ci_spaces.py: get_indexing_extended"]}
{"id": "C103", "title": "Transition dipoles of linear response in extended determinant spaces", "statement": "get_transition_dipole of the self-consistent, all-state-transfer and all-self-consistent LinearResponse classes returns, for every excitation found by calc_excitation_energies and each of the directions x, y and z, <0|[O, mu]|0>, where O is the excitation operator with the normalised coefficients of that excitation in the operators of the class (C100, C101, C102). One row per excitation energy is returned, and the terms set to zero in the code are zero.", "quantifier": "as C100; symmetric dipole integrals; whatever the eigenvalue routine returns, as long as it returns as many pairs as the dimension", "why_tests_cant": "Tests compare oscillator strengths of a few molecules; the code drops the half of each commutator in which the de-excitation acts on the wave function and truncates the intermediate states to the extended space, and that this is exact is a statement about all wave functions and all active spaces.", "anchors": ["slowquant/unitary_coupled_cluster/linear_response/selfconsistent.py: LinearResponse.get_transition_dipole", "slowquant/unitary_coupled_cluster/linear_response/allstatetransfer.py: LinearResponse.get_transition_dipole", "slowquant/unitary_coupled_cluster/linear_response/allselfconsistent.py: LinearResponse.get_transition_dipole"]}
{"id": "C104", "title": "Naive linear response with a quantum computer builds the response matrices", "statement": "On an interface that returns exact expectation values, run of the naive quantumLR class never raises, for all settings of do_rdm and do_gradients, and leaves the same matrices as the classical class (C94): Sigma_ij = <[X_i^+, X_j]>, Delta_ij = <[X_i^+, X_j^+]>, symmetric double commutators when an active excitation is involved, and nested commutators for two orbital rotations. Without density matrices the orbital-orbital blocks are the lower triangles and their mirror images, which differ from the nested commutators only by elements of the orbital gradient.", "quantifier": "exact arithmetic; every active space, every wave function whose density matrices and orbital rotations are those of the program (C107), every excitation string, every interface that returns exact expectation values", "why_tests_cant": "Tests compare a few molecules at optimised orbitals, where the discarded terms are small; that the products of three folded operators with truncated Hamiltonians give the full commutators is a statement about all states.", "anchors": ["slowquant/qiskit_interface/linear_response/naive.py: quantumLR.run", "slowquant/qiskit_interface/linear_response/lr_baseclass.py: quantumLRBaseClass.__init__"]}
{"id": "C105", "title": "Projected linear response with a quantum computer builds the response matrices", "statement": "On an interface that returns exact expectation values, run of the projected quantumLR class never raises and leaves the matrices of the orbital rotations and the operators G|0><0| - <0|G|0>, as the classical class (C95) does, including the terms with the orbital gradient left out of the mixed blocks; no check bounds these terms here. The stored lists hold <0|G|0> and <0|HG|0>.", "quantifier": "exact arithmetic; every active space, every wave function whose density matrices and orbital rotations are those of the program (C107), every excitation string, every interface that returns exact expectation values; the energy stored by the wave function is its energy (C107)", "why_tests_cant": "Tests compare excitation energies of a few molecules with an optimised wave function; the identities hold for every state and operator list.", "anchors": ["slowquant/qiskit_interface/linear_response/projected.py: quantumLR.run"]}
{"id": "C106", "title": "All-projected linear response with a quantum computer builds the response matrices", "statement": "On an interface that returns exact expectation values, run of the all-projected quantumLR class never raises, for both settings of do_gradients, and leaves the matrices of the operators T|0><0| - <0|T|0> as the classical class (C99) does, whatever the size of the gradient.", "quantifier": "exact arithmetic; every active space, every wave function whose density matrices and orbital rotations are those of the program (C107), every excitation string, every interface that returns exact expectation values; the energy stored by the wave function is its energy (C107)", "why_tests_cant": "As C105.", "anchors": ["slowquant/qiskit_interface/linear_response/allprojected.py: quantumLR.run"]}
{"id": "C107", "title": "Density matrices and energy of the circuit wave function", "statement": "On an interface that returns exact expectation values, rdm1 and rdm2 of WaveFunctionCircuit are the one- and two-electron density matrices of the prepared state, all elements filled, and energy_elec is the expectation value of the full electronic Hamiltonian in it although only the folded active Hamiltonian is measured.", "quantifier": "every active space, every prepared state, all integrals, every interface that returns exact expectation values of number-conserving operators on the active orbitals", "why_tests_cant": "Tests compare energies of a few molecules; that the loops with their reduced ranges fill all elements and that folding loses nothing is a statement about all sizes and states.", "anchors": ["slowquant/qiskit_interface/circuit_wavefunction.py: WaveFunctionCircuit.rdm1, rdm2, _calc_energy_elec, energy_elec"]}
{"id": "C108", "title": "Three- and four-electron reduced density matrices", "statement": "rdm3 and rdm4 of WaveFunctionUPS, WaveFunctionUCC and WaveFunctionCircuit never raise and return the three- and four-electron density matrices of the wave function, every element filled with the expectation value of the normal-ordered excitation operator, although only a part of the index range is computed and the rest is copied by symmetry. Their traces are N(N-1)(N-2) and N(N-1)(N-2)(N-3), as the docstrings say.", "quantifier": "every active space, every state vector, every number of threads, every index; for the circuit every interface that returns exact expectation values", "why_tests_cant": "Tests check traces or energies of a few small molecules; a missing contraction term or an index range that leaves out an element of a larger active space shows only for particular indices.", "anchors": ["slowquant/unitary_coupled_cluster/ups_wavefunction.py: WaveFunctionUPS.rdm3, rdm4", "slowquant/unitary_coupled_cluster/ucc_wavefunction.py: WaveFunctionUCC.rdm3, rdm4", "slowquant/qiskit_interface/circuit_wavefunction.py: WaveFunctionCircuit.rdm3, rdm4"]}
{"id": "C109", "title": "Transition dipole moments of linear response with a quantum computer", "statement": "On an interface that returns exact expectation values, get_transition_dipole of the naive, projected and all-projected quantumLR classes never raises and returns <[O, mu]> for the normalised excitation operator O of each root, as the classical classes do (C98, C99): vectors are scaled so that <[O^+, O]> = 1, or set to zero when that norm is below 1e-10. Without active operators (orbital rotations only) the circuit classes raise IndexError when normalising, unlike the classical ones.", "quantifier": "exact arithmetic; every active space, wave function, excitation string, symmetric dipole integrals, every eigenvalue routine that returns one pair per row, every exact interface, all settings of do_rdm and do_gradients", "why_tests_cant": "Tests compare oscillator strengths of one or two molecules with stored numbers.", "anchors": ["slowquant/qiskit_interface/linear_response/naive.py: quantumLR.get_transition_dipole", "slowquant/qiskit_interface/linear_response/projected.py: quantumLR.get_transition_dipole", "slowquant/qiskit_interface/linear_response/allprojected.py: quantumLR.get_transition_dipole", "slowquant/qiskit_interface/linear_response/lr_baseclass.py: quantumLRBaseClass.get_excitation_energies, get_normed_excitation_vectors, _get_excited_state_norm"]}
{"id": "C110", "title": "State-transfer linear response with a quantum computer", "statement": "get_determinant_expansion_from_operator_on_HF returns the coefficients and occupation strings of an operator applied to the Hartree-Fock determinant. On an interface that measures matrix elements between such superpositions exactly, the quantum state-transfer class builds Sigma, Delta, A and B of the operators U G |ref><0|, the same matrices as the classical class (C96), whether or not gradients are computed. With orbital rotations that are not skipped it raises NotImplementedError.", "quantifier": "exact arithmetic; every active space with at least one orbital, closed-shell Hartree-Fock reference with an electron, ansatz, excitation string, both settings of skip_orbital_rotations and do_gradients, every interface exact for symmetric operators", "why_tests_cant": "Tests run one or two molecules with a simulator and compare energies with stored numbers.", "anchors": ["slowquant/unitary_coupled_cluster/operator_state_algebra.py: get_determinant_expansion_from_operator_on_HF", "slowquant/qiskit_interface/linear_response/statetransfer.py: quantumLR.run", "slowquant/qiskit_interface/linear_response/lr_baseclass.py: quantumLRBaseClass.__init__"]}
{"id": "C111", "title": "Self-consistent linear response with a quantum computer", "statement": "On an interface that measures matrix elements between superpositions of determinants exactly, the quantum self-consistent class builds the metric <[X_i^+, X_j]>, <[X_i^+, X_j^+]> of the operators X = U G U^+ and symmetric Hessian blocks whose lower triangles are the nested commutators <[X_i^+, [H, X_j]]> and <[X_i^+, [H, X_j^+]]>. With orbital rotations that are not skipped it raises NotImplementedError.", "quantifier": "exact arithmetic; every active space with at least one orbital, closed-shell Hartree-Fock reference with an electron, ansatz, excitation string, both settings of skip_orbital_rotations and do_gradients, every interface exact for symmetric operators", "why_tests_cant": "The states are kept in a dictionary under string or pair keys, with sums U+U G added by polarisation; tests see a few excitation energies only.", "anchors": ["slowquant/unitary_coupled_cluster/operator_state_algebra.py: get_determinant_expansion_from_operator_on_HF", "slowquant/qiskit_interface/linear_response/selfconsistent.py: quantumLR.run", "slowquant/qiskit_interface/linear_response/lr_baseclass.py: quantumLRBaseClass.__init__"]}
{"id": "C112", "title": "Transition dipoles of transferred-state linear response with a quantum computer", "statement": "Without orbital rotations, get_transition_dipole of the quantum state-transfer and self-consistent classes returns <[O, mu]> for the normalised excitation operator O of each root on an exact interface. With orbital rotations present and skipped, the vectors are cut at wrong positions and normalising raises ValueError or IndexError unless the sizes happen to fit.", "quantifier": "exact arithmetic; as C110 and C111, symmetric dipole integrals, every eigenvalue routine that returns one pair per row; for the failure every number q of rotations and g of active operators other than q = g = 1 and g = 2q + 1", "why_tests_cant": "Tests compare oscillator strengths of small full-space cases with stored numbers; none asks for dipoles after skipping rotations.", "anchors": ["slowquant/qiskit_interface/linear_response/statetransfer.py: quantumLR.get_transition_dipole", "slowquant/qiskit_interface/linear_response/selfconsistent.py: quantumLR.get_transition_dipole", "slowquant/qiskit_interface/linear_response/lr_baseclass.py: quantumLRBaseClass.get_excitation_energies, get_normed_excitation_vectors, _get_excited_state_norm"]}
{"id": "C113", "title": "Values from the quantum interface do not depend on what was measured before", "statement": "On a device that returns exact distributions, with mitigation off and the Jordan-Wigner mapping, quantum_expectation_value returns <psi|A|psi> for the state that the initial circuit and the ansatz prepare with the current (or custom) parameters, and quantum_expectation_value_csfs returns 1/2(<b|A|k> + <k|A|b>) for the prepared bra and ket, after any sequence of evaluations, parameter, shot and mitigation changes, with or without saving and grouping. A repeated evaluation returns the same number without measuring. The initial circuit must prepare the determinant that the data are filed under, and determinants must contain an electron; otherwise values of other states are returned.", "quantifier": "exact arithmetic and sampling; every number of orbitals, ansatz, operator within the orbitals, expansion in determinants, history of calls including failing ones, settings of saving and grouping; for repetition every later device", "why_tests_cant": "What a saver returns depends on the whole history of calls, parameters and options; tests run a handful of calls in one order with a simulator.", "anchors": ["slowquant/qiskit_interface/interface.py: QuantumInterface.quantum_expectation_value, quantum_expectation_value_csfs, _sampler_quantum_expectation_value, _sampler_quantum_expectation_value_nosave, op_to_qbit", "slowquant/qiskit_interface/util.py: Clique, get_determinant_reference, get_determinant_superposition_reference"]}
{"id": "C114", "title": "Measured values and gradients are those of the state vector code", "statement": "For the same ansatz structure and parameters the interface, in any reachable state with mitigation off and an exact device, returns the expectation values and matrix elements of the state that construct_ups_state computes, so it meets the exactness assumed by the circuit wave function and quantum linear response (C104 to C112). The parameter-shift gradient from its energies is the derivative of the energy of the ansatz.", "quantifier": "exact arithmetic and sampling; every closed-shell active space with at least one orbital, layout with a circuit, parameters outside the range the state vector code skips, operator conserving the spins, history of the interface", "why_tests_cant": "Tests compare single energies of both classes for a few molecules to a tolerance.", "anchors": ["slowquant/qiskit_interface/interface.py: QuantumInterface.quantum_expectation_value, quantum_expectation_value_csfs, construct_circuit", "slowquant/qiskit_interface/circuit_wavefunction.py: WaveFunctionCircuit._calc_gradient_optimization, _get_energy_evals_for_grad", "slowquant/unitary_coupled_cluster/operator_state_algebra.py: construct_ups_state"]}
{"id": "C115", "title": "An ansatz name means the same to the classical and the quantum classes", "statement": "For tUPS, QNP, fUCC, fUCCSD, kSAfUpCCGSD, SDSfUCCSD and kSASDSfUpCCGSD with any options (do_pp with tUPS only) WaveFunctionUPS and QuantumInterface.construct_circuit choose the same reference determinant and ansatz structure, raise in the same cases and leave the same options. Whenever the interface accepts a name and options with circuits, the structure has a circuit, its operators are those of the state vector code, and the parameter checks pass with the parameters in the order of the structure. fUCCD, fUCCSD, fUCCpD and kSAfUpCCGSD consist of exactly the excitations they are named after. Constructing again with the options left behind changes nothing. WaveFunctionUCC depends only on which excitation letters occur.", "quantifier": "all names, option dictionaries with integer or boolean values, numbers of orbitals and electrons, lists of orbital indices (ordered, disjoint where a circuit is claimed), up to 10^9 parameters", "why_tests_cant": "Tests use a few names with fixed options for a few molecules; two accepted names have never been run without options.", "anchors": ["slowquant/unitary_coupled_cluster/ups_wavefunction.py: WaveFunctionUPS.__init__", "slowquant/unitary_coupled_cluster/ucc_wavefunction.py: WaveFunctionUCC.__init__", "slowquant/qiskit_interface/interface.py: QuantumInterface.__init__, construct_circuit", "slowquant/unitary_coupled_cluster/util.py: UpsStructure.create_tiled, create_fUCC, create_SDSfUCC"]}
{"id": "C116", "title": "State-averaged classes solve the subspace problem exactly", "statement": "For orthonormal states and real integrals, energy_states of a state-averaged wave function are ascending, one for each state, and belong to normalised superpositions of the states that are stationary for the full electronic Hamiltonian within their span; states of different energies are orthogonal, no normalised superposition lies below the first, and their mean is sa_energy. excitation_energies are the differences to the first, none negative. get_transition_property returns the matrix elements of the operator between these superpositions, and get_oscillator_strenghts 2/3 of the energy times the squared transition dipole, none negative. The unitary ansatz keeps the states orthonormal.", "quantifier": "all numbers of states, orthonormal states, active spaces, real symmetric integrals, ansatz parameters; both the state vector and the circuit class with exact matrix elements", "why_tests_cant": "Tests compare energies of two or three states for one molecule at converged parameters; variational and orthogonality properties are not visible in single numbers.", "anchors": ["slowquant/unitary_coupled_cluster/sa_ups_wavefunction.py: _do_state_ci, energy_states, excitation_energies, get_transition_property, get_oscillator_strenghts", "slowquant/qiskit_interface/sa_circuit_wavefunction.py: _do_state_ci, excitation_energies, get_transition_property, get_oscillator_strenghts"]}
{"id": "C117", "title": "State-averaged circuits give the state-averaged values of the state vector code", "statement": "With an ideal device and no error mitigation, WaveFunctionSACircuit computes every matrix element between its states exactly, where the states are what the ansatz of the state vector code makes of the given superpositions of determinants, whatever the interface evaluated before. rdm1, rdm2 and sa_energy are then the averages over the states and agree with WaveFunctionSAUPS for the same orbitals and parameters. The parameter-shift gradient is the derivative of the state-averaged energy.", "quantifier": "all numbers of states (at least one), superpositions of determinants with the electrons of the active space, ansatz structures with circuits, parameters, integrals, histories of the interface", "why_tests_cant": "Tests compare one molecule with two states; states with several determinants go through interference circuits that differ for every pair.", "anchors": ["slowquant/qiskit_interface/sa_circuit_wavefunction.py: rdm1, rdm2, sa_energy, _calc_energy_optimization, _calc_gradient_optimization", "slowquant/unitary_coupled_cluster/sa_ups_wavefunction.py: sa_energy, rdm1, rdm2", "slowquant/qiskit_interface/interface.py: quantum_expectation_value_csfs"]}
{"id": "C118", "title": "What is read from a circuit wave function fits its orbitals, parameters and primitive", "statement": "After any sequence of assignments of kappa and thetas (those with a wrong number of ansatz parameters are refused with ValueError), changes of the primitive (an estimator is refused with ValueError, other objects with TypeError) and reads, c_mo, h_mo, g_mo, the reduced density matrices, the energy and the energies of the states of WaveFunctionCircuit and WaveFunctionSACircuit are those for the orbitals, parameters and primitive in force. With optimizations in between, integrals, rdm1, rdm2 and energies of the states still belong to c_mo, thetas and the primitive, whatever the minimizer did; the energy read after an optimization is the value a minimizer returned.", "quantifier": "all orbital rotations, numbers of parameters, parameter values, primitives, sequences of operations, minimizers (any calls, any results), failing calls included; both classes", "why_tests_cant": "Staleness shows only for particular orders of assignments and reads; tests read quantities once after an optimization.", "anchors": ["slowquant/qiskit_interface/circuit_wavefunction.py: kappa, c_mo, h_mo, g_mo, thetas, change_primitive, rdm1, rdm2, rdm3, rdm4, energy_elec, run_wf_optimization_1step, run_wf_optimization_2step", "slowquant/qiskit_interface/sa_circuit_wavefunction.py: the same and sa_energy, energy_states"]}
{"id": "C119", "title": "Transition properties of a state-averaged circuit fit its orbitals, parameters and primitive", "statement": "At any time get_transition_property and get_oscillator_strenghts of WaveFunctionSACircuit use the states for the orbitals, parameters and primitive in force.", "quantifier": "all orbital rotations, parameters, primitives, sequences of operations and optimizations, property integrals", "why_tests_cant": "Tests ask for oscillator strengths once, after an optimization that has just computed the states.", "anchors": ["slowquant/qiskit_interface/sa_circuit_wavefunction.py: __init__, kappa, thetas, change_primitive, _do_state_ci, get_transition_property, get_oscillator_strenghts"]}
{"id": "C120", "title": "Converting a UPS wave function to a circuit keeps the wave function", "statement": "circuit_wavefunction_from_ups turns a WaveFunctionUPS or WaveFunctionSAUPS object, with whatever orbitals and parameters it holds, into a circuit wave function with the same orbital spaces, orbital rotations, orbitals (the permutation of perfect pairing is not applied a second time), parameters and states. On an ideal device its expectation values, matrix elements, energies and density matrices are those of the state vector of the original. Other objects raise TypeError.", "quantifier": "all orbital spaces that fit, ansatz names and options with circuits, perfect pairing on or off, orbitals, parameters, states, operators; ideal devices with Jordan-Wigner mapping; any earlier calls on the interface", "why_tests_cant": "Tests convert a few molecules and compare one energy with a tolerance.", "anchors": ["slowquant/qiskit_interface/circuit_wavefunction_from_ups.py: circuit_wavefunction_from_ups", "slowquant/unitary_coupled_cluster/ups_wavefunction.py: WaveFunctionUPS.__init__", "slowquant/unitary_coupled_cluster/sa_ups_wavefunction.py: WaveFunctionSAUPS.__init__", "slowquant/qiskit_interface/circuit_wavefunction.py: WaveFunctionCircuit.__init__", "slowquant/qiskit_interface/sa_circuit_wavefunction.py: WaveFunctionSACircuit.__init__", "slowquant/qiskit_interface/interface.py: construct_circuit"]}
{"id": "C121", "title": "States given to a state-averaged wave function are checked and stored as given", "statement": "The constructor of WaveFunctionSAUPS accepts states (coefficients and occupation strings) exactly if lengths match, the strings describe determinants of the active space with the right numbers of alpha and beta electrons, and the states are orthonormal up to 1e-10; every row of csf_coeffs is then the superposition that was given. Otherwise it raises ValueError, or KeyError for wrong numbers of electrons.", "quantifier": "all active spaces, numbers of states, coefficients and strings", "why_tests_cant": "Tests use a few hand-written singlet and triplet states.", "anchors": ["slowquant/unitary_coupled_cluster/sa_ups_wavefunction.py: WaveFunctionSAUPS.__init__"]}
{"id": "C122", "title": "Spin-adapted ansatzes keep the total spin", "statement": "tUPS and QNP, the factorized UCC and SDSfact ansatzes without spin-orbital excitations other than pair excitations, and UCC with spin-adapted singles and doubles turn every state of total spin s and projection m into one of the same spin, for all parameters; started from the Hartree-Fock or the perfect-pairing determinant they give singlets. The Hamiltonian of hamiltonian_full_space does not couple states of different total spin.", "quantifier": "all active spaces, sequences of structure calls, numbers of layers, options, parameters, states, values of the spin", "why_tests_cant": "Tests compare energies of a few molecules and never look at the spin; a contamination would be a slightly lower or higher energy.", "anchors": ["slowquant/unitary_coupled_cluster/util.py: UpsStructure", "slowquant/unitary_coupled_cluster/util.py: UccStructure", "slowquant/unitary_coupled_cluster/operator_state_algebra.py: construct_ups_state", "slowquant/unitary_coupled_cluster/operator_state_algebra.py: construct_ucc_state", "slowquant/unitary_coupled_cluster/operators.py: hamiltonian_full_space"]}
{"id": "C123", "title": "The orbital gradient is the derivative of the energy", "statement": "The orbital part of the gradient that the optimizers are given is the derivative of the energy: along every direction d, the energy of the same state with orbitals rotated by kappa + t d has at t = 0 the derivative sum_i d_i G_i, where G is what get_orbital_gradient returns. This holds for wave function objects after any sequence of reads, assignments and energy evaluations.", "quantifier": "all active spaces, real symmetric integrals, states, lists of rotations, directions, sequences of calls", "why_tests_cant": "A finite difference checks one molecule to a few digits; a wrong factor for a class of pairs of orbitals (inactive-active, active-virtual) only slows down or misleads the optimizer elsewhere.", "anchors": ["slowquant/unitary_coupled_cluster/density_matrix.py: get_orbital_gradient", "slowquant/unitary_coupled_cluster/ups_wavefunction.py: _calc_gradient_optimization", "slowquant/unitary_coupled_cluster/ups_wavefunction.py: c_mo", "slowquant/unitary_coupled_cluster/ucc_wavefunction.py: _calc_gradient_optimization"]}
{"id": "C124", "title": "Molecules are read from text as they are written", "statement": "A string with ';' between atoms or an xyz file gives a molecule exactly when every non-blank piece (every line after the second) names a known element followed by three numbers, and then atoms, order, charges, masses of the table and coordinates times the factor of the unit are as written; other inputs raise the error of their first fault. An unknown unit is refused.", "quantifier": "all texts, files, units, number parsers", "why_tests_cant": "Tests read a handful of well-formed molecules; spacing, letter case, missing numbers, unknown names and trailing lines are not covered.", "anchors": ["slowquant/molecule/moleculeclass.py: _Molecule.__init__", "slowquant/molecule/constants.py: atom_to_properties"]}
{"id": "C125", "title": "A Hartree-Fock run gets the molecule and basis set of the session", "statement": "In every session, after a basis set was set without an exception and Hartree-Fock was initialised, each Hartree-Fock run gets the current molecule and the integrals of that molecule in that basis set, whatever is read or run in between, as long as molecule and basis set are left alone.", "quantifier": "all sequences of calls of the facade, molecules, basis sets, integral drivers, failures", "why_tests_cant": "The molecule object is shared and changed in place and integrals are cached; which arrays a run sees depends on the order of all earlier calls, tests use one order.", "anchors": ["slowquant/SlowQuant.py: set_molecule", "slowquant/SlowQuant.py: set_basis_set", "slowquant/SlowQuant.py: init_hartree_fock", "slowquant/hartreefock/hartreefockclass.py: run_restricted_hartree_fock", "slowquant/molecularintegrals/integralclass.py: _Integral"]}
{"id": "C126", "title": "What is logged is printed and kept", "statement": "Everything logged is printed, in order and with warnings marked, when output is on; only the warnings are when output is off and warnings are on; nothing otherwise. The log attribute contains what was logged.", "quantifier": "all sequences of messages and settings", "why_tests_cant": "No test reads the log; a message that is lost is not noticed.", "anchors": ["slowquant/logger.py: _Logger.add_to_log", "slowquant/hartreefock/hartreefockclass.py: log"]}
{"id": "C127", "title": "The unitary product state class as a whole", "statement": "A WaveFunctionUPS as its constructor makes it, after any sequence of assignments, reads and energy or gradient evaluations: nothing it calls raises, the energy read is <psi|H|psi> with psi the reference transformed by the chain of exponentials of the ansatz at the current parameters and H the Hamiltonian over the current orbitals, the density matrices are those of psi, and every entry of the gradient it gives to the optimizer, orbital or ansatz, is the partial derivative of that energy.", "quantifier": "all molecules, active spaces, ansatzes and options, sequences of calls, parameter values", "why_tests_cant": "Each part (constructor, caches, state, density matrices, energy, gradients) may be right for itself while the object combines them wrongly; tests run the object from one start along one path.", "anchors": ["slowquant/unitary_coupled_cluster/ups_wavefunction.py: WaveFunctionUPS.__init__", "slowquant/unitary_coupled_cluster/ups_wavefunction.py: kappa", "slowquant/unitary_coupled_cluster/ups_wavefunction.py: thetas", "slowquant/unitary_coupled_cluster/ups_wavefunction.py: rdm1", "slowquant/unitary_coupled_cluster/ups_wavefunction.py: rdm2", "slowquant/unitary_coupled_cluster/ups_wavefunction.py: energy_elec", "slowquant/unitary_coupled_cluster/ups_wavefunction.py: _calc_energy_optimization", "slowquant/unitary_coupled_cluster/ups_wavefunction.py: _calc_gradient_optimization"]}
{"id": "C128", "title": "The state-averaged class as a whole", "statement": "A WaveFunctionSAUPS made from any orthonormal states, after any sequence of assignments, reads and energy or gradient evaluations: nothing it calls raises, the energy read is the mean of <psi_a|H|psi_a> with psi_a the given states transformed by the chain of exponentials of the ansatz at the current parameters and H the Hamiltonian over the current orbitals, the density matrices are those of the average, the excited states are the eigenstates of H in the span of the psi_a, and every entry of the gradient it gives to the optimizer is the partial derivative of the averaged energy.", "quantifier": "all molecules, active spaces, lists of states, ansatzes and options, sequences of calls, parameter values", "why_tests_cant": "Each part may be right for itself while the object combines them wrongly, for example with a stale state, a wrong weight or a gradient of one state instead of the mean; tests run the object from one start along one path.", "anchors": ["slowquant/unitary_coupled_cluster/sa_ups_wavefunction.py: WaveFunctionSAUPS.__init__", "slowquant/unitary_coupled_cluster/sa_ups_wavefunction.py: ci_coeffs", "slowquant/unitary_coupled_cluster/sa_ups_wavefunction.py: kappa", "slowquant/unitary_coupled_cluster/sa_ups_wavefunction.py: thetas", "slowquant/unitary_coupled_cluster/sa_ups_wavefunction.py: rdm1", "slowquant/unitary_coupled_cluster/sa_ups_wavefunction.py: rdm2", "slowquant/unitary_coupled_cluster/sa_ups_wavefunction.py: sa_energy", "slowquant/unitary_coupled_cluster/sa_ups_wavefunction.py: _do_state_ci", "slowquant/unitary_coupled_cluster/sa_ups_wavefunction.py: _calc_energy_optimization", "slowquant/unitary_coupled_cluster/sa_ups_wavefunction.py: _calc_gradient_optimization"]}
{"id": "C129", "title": "The UCC class as a whole", "statement": "WaveFunctionUCC can be made for every molecule, active space and choice of excitations. After any sequence of assignments, reads and energy or gradient evaluations: nothing it calls raises, the energy read is <psi|H|psi> with psi = exp(T) of the Hartree-Fock determinant, T the UCC operator at the current parameters and H the Hamiltonian over the current orbitals, the density matrices are those of psi, every orbital entry of the gradient it gives to the optimizer is the partial derivative of the energy, and every ansatz entry, a finite difference, is within 2^-20 |H psi| of the partial derivative.", "quantifier": "all molecules, active spaces, choices of excitations, sequences of calls, parameter values", "why_tests_cant": "The excitations do not commute, so the derivative of exp(T) has no closed form to compare with and a numerical test compares two finite differences; a missing factor, a perturbation that is not undone or a stale state shows only at points away from zero.", "anchors": ["slowquant/unitary_coupled_cluster/ucc_wavefunction.py: WaveFunctionUCC.__init__", "slowquant/unitary_coupled_cluster/ucc_wavefunction.py: ci_coeffs", "slowquant/unitary_coupled_cluster/ucc_wavefunction.py: kappa", "slowquant/unitary_coupled_cluster/ucc_wavefunction.py: thetas", "slowquant/unitary_coupled_cluster/ucc_wavefunction.py: rdm1", "slowquant/unitary_coupled_cluster/ucc_wavefunction.py: rdm2", "slowquant/unitary_coupled_cluster/ucc_wavefunction.py: energy_elec", "slowquant/unitary_coupled_cluster/ucc_wavefunction.py: _calc_energy_optimization", "slowquant/unitary_coupled_cluster/ucc_wavefunction.py: _calc_gradient_optimization"]}
{"id": "C130", "title": "The circuit wave function class as a whole", "statement": "WaveFunctionCircuit with a layout ansatz can be used for every molecule and active space, on any ideal device, with an interface that has measured anything before. After any sequence of assignments, reads and changes of the primitive: nothing it calls raises, the energy read is <psi|H|psi> with psi the reference determinant (Hartree-Fock or perfect pairing) transformed by the exponentials of the layout at the current parameters and H the Hamiltonian over the current orbitals, the one- to four-body density matrices are those of psi, what was measured before has no influence, the objective given to the optimizers is that energy, and every entry of the gradient given to them (orbital part and parameter-shift part) is the partial derivative of the energy read.", "quantifier": "all molecules, active spaces, layouts, ideal devices, histories of the interface and of the object, parameter values", "why_tests_cant": "A test runs a few circuits with noise-free sampling at chosen parameters; errors that need a cached measurement, a change of device or a generator with three eigenvalues together with an orbital rotation appear only for particular histories.", "anchors": ["slowquant/qiskit_interface/circuit_wavefunction.py: WaveFunctionCircuit.__init__", "slowquant/qiskit_interface/circuit_wavefunction.py: kappa", "slowquant/qiskit_interface/circuit_wavefunction.py: thetas", "slowquant/qiskit_interface/circuit_wavefunction.py: change_primitive", "slowquant/qiskit_interface/circuit_wavefunction.py: rdm1", "slowquant/qiskit_interface/circuit_wavefunction.py: rdm2", "slowquant/qiskit_interface/circuit_wavefunction.py: rdm3", "slowquant/qiskit_interface/circuit_wavefunction.py: rdm4", "slowquant/qiskit_interface/circuit_wavefunction.py: energy_elec", "slowquant/qiskit_interface/circuit_wavefunction.py: _calc_energy_elec", "slowquant/qiskit_interface/circuit_wavefunction.py: _calc_energy_optimization", "slowquant/qiskit_interface/circuit_wavefunction.py: _calc_gradient_optimization", "slowquant/qiskit_interface/circuit_wavefunction.py: _get_energy_evals_for_grad", "slowquant/qiskit_interface/interface.py: quantum_expectation_value"]}
{"id": "C131", "title": "The state-averaged circuit wave function class as a whole", "statement": "WaveFunctionSACircuit with a layout ansatz and orthonormal states made of determinants with the right numbers of electrons can be used for every molecule and active space, on any ideal device, with an interface that has measured anything before. After any sequence of assignments, reads, changes of the primitive and optimizations: nothing it calls raises; the energy read is the mean over the states of <psi_a|H|psi_a>, with psi_a the given states transformed by the exponentials of the layout at the current parameters and H the Hamiltonian over the current orbitals; the density matrices are the averaged ones; the energies of the states are eigenvalues of H in the span of the psi_a, and transition properties and oscillator strengths read afterwards are those of these eigenstates; the objective of the optimizers is the averaged energy and every entry of their gradient is its partial derivative; what was measured before has no influence.", "quantifier": "all molecules, active spaces, layouts, lists of states, ideal devices, histories of the interface and of the object, parameter values", "why_tests_cant": "Tests average two states of one molecule at a few parameters; a wrong sign between superposed circuits, a cached element of another device or a missing division by the number of states in one of the places where averages are taken shows only for other states, histories or numbers of states.", "anchors": ["slowquant/qiskit_interface/sa_circuit_wavefunction.py: WaveFunctionSACircuit.__init__", "slowquant/qiskit_interface/sa_circuit_wavefunction.py: kappa", "slowquant/qiskit_interface/sa_circuit_wavefunction.py: thetas", "slowquant/qiskit_interface/sa_circuit_wavefunction.py: rdm1", "slowquant/qiskit_interface/sa_circuit_wavefunction.py: rdm2", "slowquant/qiskit_interface/sa_circuit_wavefunction.py: sa_energy", "slowquant/qiskit_interface/sa_circuit_wavefunction.py: _calc_energy_elec", "slowquant/qiskit_interface/sa_circuit_wavefunction.py: _do_state_ci", "slowquant/qiskit_interface/sa_circuit_wavefunction.py: excitation_energies", "slowquant/qiskit_interface/sa_circuit_wavefunction.py: get_transition_property", "slowquant/qiskit_interface/sa_circuit_wavefunction.py: get_oscillator_strenghts", "slowquant/qiskit_interface/sa_circuit_wavefunction.py: _calc_energy_optimization", "slowquant/qiskit_interface/sa_circuit_wavefunction.py: _calc_gradient_optimization", "slowquant/qiskit_interface/sa_circuit_wavefunction.py: get_energy_evals_for_grad", "slowquant/qiskit_interface/interface.py: quantum_expectation_value_csfs"]}
{"id": "C132", "title": "Read-out mitigation removes read-out errors", "statement": "On a primitive with perfect gates and unlimited shots that misreads outcomes with an invertible matrix M of probabilities, the calibration of QuantumInterface (_make_Minv) yields exactly the inverse of M, or raises for more than 8 qubits; and with do_M_mitigation on, quantum_expectation_value and quantum_expectation_value_csfs return the exact expectation value and matrix element, also together with do_postselection when the state has the electrons selected, and with saving on or off. This holds whatever was evaluated, saved, calibrated, recalibrated or switched before, as long as the variants of the calibration with the ansatz were off. With saving on, evaluating the same thing again gives the same value. Not so: changing do_M_ansatz0 through update_mitigation_flags does not measure a new matrix, and redo_M_mitigation leaves values already corrected in place.", "quantifier": "all matrices of read-out errors, circuits, ans\u00e4tze, operators, determinants, histories of the interface", "why_tests_cant": "Tests run on noiseless simulators or one noise model with sampling noise larger than a wrong bit order; a transposed matrix, a reversed order of the calibration bits or a saved distribution corrected with another matrix shows only for asymmetric errors and particular histories.", "anchors": ["slowquant/qiskit_interface/interface.py: QuantumInterface._make_Minv", "slowquant/qiskit_interface/interface.py: QuantumInterface._apply_M_mitigation", "slowquant/qiskit_interface/interface.py: QuantumInterface._apply_postselection", "slowquant/qiskit_interface/interface.py: QuantumInterface.redo_M_mitigation", "slowquant/qiskit_interface/interface.py: QuantumInterface.update_mitigation_flags", "slowquant/qiskit_interface/interface.py: QuantumInterface.quantum_expectation_value", "slowquant/qiskit_interface/interface.py: QuantumInterface.quantum_expectation_value_csfs", "slowquant/qiskit_interface/util.py: MitigationFlags"]}
{"id": "C133", "title": "Measuring for density matrices in advance", "statement": "When precalc_rdm_paulis(k) of WaveFunctionCircuit has returned on an interface with saving on, every expectation value asked for by rdm1 up to the density matrix of order k is determined by the data saved: it is the same number whenever it is read, whichever of them have been read in between, and whatever the device does by then, with or without mitigation; so reading the density matrices does not raise and always gives the same arrays. On an ideal device with mitigation off the call returns for the orders 1 to 4 and changes neither parameters nor flags; other orders raise ValueError. The call leaves the interface in a state like any other use of it, so values evaluated later are as right as without it (C113, C132).", "quantifier": "all orders, active spaces, circuits, devices, histories of the interface, orders in which the set of Paulis is taken out", "why_tests_cant": "A test compares the density matrices with and without the call on a noiseless simulator, where a label left out is simply measured again with the same result; only the count of device calls would differ. That no label is missing depends on loop bounds and folding for every number of orbitals.", "anchors": ["slowquant/qiskit_interface/circuit_wavefunction.py: WaveFunctionCircuit.precalc_rdm_paulis", "slowquant/qiskit_interface/circuit_wavefunction.py: WaveFunctionCircuit.rdm1", "slowquant/qiskit_interface/circuit_wavefunction.py: WaveFunctionCircuit.rdm2", "slowquant/qiskit_interface/circuit_wavefunction.py: WaveFunctionCircuit.rdm3", "slowquant/qiskit_interface/circuit_wavefunction.py: WaveFunctionCircuit.rdm4", "slowquant/qiskit_interface/interface.py: QuantumInterface._sampler_quantum_expectation_value", "slowquant/qiskit_interface/clique.py: Clique.add_paulis"]}
{"id": "C134", "title": "Linear response on a quantum computer agrees with linear response of state vectors", "statement": "When both classes are built for the same state, orbitals and excitations, and the interface measures exactly, the naive, projected and all-projected quantum linear response classes hold the same metric as their state vector counterparts and the same A and B (with do_rdm all elements; without, the lower triangle of the orbital block and everything else), so with do_rdm (and always for all-projected) the excitation energies, response vectors, transition dipoles and oscillator strengths are the same. In particular for an interface with an ideal device that runs the ansatz of the wave function, whatever was measured, saved or changed on it before.", "quantifier": "all active spaces, integrals, states, ans\u00e4tze, excitation lists, histories of the interface, dipole integrals", "why_tests_cant": "The two implementations share almost no code for the matrix elements (folded operators on a circuit against propagation of CI vectors); tests compare a few molecules at converged points, where terms with gradients vanish.", "anchors": ["slowquant/qiskit_interface/linear_response/naive.py: quantumLR.run", "slowquant/qiskit_interface/linear_response/projected.py: quantumLR.run", "slowquant/qiskit_interface/linear_response/allprojected.py: quantumLR.run", "slowquant/qiskit_interface/linear_response/lr_baseclass.py: quantumLRBaseClass.get_excitation_energies", "slowquant/unitary_coupled_cluster/linear_response/naive.py: LinearResponseUPS", "slowquant/unitary_coupled_cluster/linear_response/projected.py: LinearResponseUPS", "slowquant/unitary_coupled_cluster/linear_response/allprojected.py: LinearResponseUPS", "slowquant/unitary_coupled_cluster/linear_response/lr_baseclass.py: LinearResponseBaseClass.calc_excitation_energies"]}
{"id": "C135", "title": "The Trotter circuits used with other mappers have no Trotter error", "statement": "For a mapper that is not Jordan-Wigner the ansatz is a circuit of exponentials of single Pauli labels, sorted by label (one Trotter step). For every single, double and spin-adapted single excitation that conserves spin (up or down, in any order of the indices) this circuit applies exactly exp(theta T) to every state; a layout applies its exponentials one after the other, first entry first, with the parameter names and grad_param_R of the layout. So the state of the electrons does not depend on the mapper, and with a Jordan-Wigner mapper it is the state the gate circuits of C89 and C90 prepare. This covers the structures made by create_tiled, create_fUCC and create_SDSfUCC with the options of C90.", "quantifier": "all mappers that send ladder operators to pairs of Pauli labels (Jordan-Wigner, parity), numbers of orbitals, excitations, layouts, angles, states", "why_tests_cant": "A test compares a few angles and molecules; that no step size or order of the labels matters is a statement about all angles and about the commutation of eight Pauli labels per double excitation with strings of any length between them.", "anchors": ["slowquant/qiskit_interface/operators_circuits.py: _single_excitation_trotter", "slowquant/qiskit_interface/operators_circuits.py: _double_excitation_trotter", "slowquant/qiskit_interface/operators_circuits.py: _sa_single_excitation_trotter", "slowquant/qiskit_interface/operators_circuits.py: single_excitation", "slowquant/qiskit_interface/operators_circuits.py: double_excitation", "slowquant/qiskit_interface/operators_circuits.py: sa_single_excitation", "slowquant/qiskit_interface/operators_circuits.py: upslayout2circuit"]}
{"id": "C136", "title": "Reported deviations of naive linear response bound the scatter of its matrices", "statement": "Let every measured expectation value be a random variable with a finite variance, and let quantum_variance return that variance. Then computing the deviations of run_std of naive linear response does not raise, and neither does run without density matrices (what the printed analysis at the end of run_std does is C141). The entries of the metric, of B for two operators of the same kind, and of A for two operators of the active space scatter with exactly the standard deviation that run_std returns. The variance of every other entry is at most twice the reported one however the measurements are correlated (for example because results are kept and used again), and at most the reported one when measurements of different operators are not correlated. If the measured values are right on average, every entry of the matrices is right on average.", "quantifier": "all probability spaces and estimates with finite variance, wave functions (as in C104), operator lists, with and without gradients", "why_tests_cant": "A test can look at one set of samples; that the reported numbers bound the scatter for every distribution and every correlation between the estimates cannot be sampled.", "anchors": ["slowquant/qiskit_interface/linear_response/naive.py: quantumLR.run_std", "slowquant/qiskit_interface/linear_response/naive.py: quantumLR.run"]}
{"id": "C137", "title": "How circuits are transpiled does not change what is measured", "statement": "Assume that the pass managers of Qiskit keep the meaning of circuits up to a phase, given their initial and final layout. Then after any sequence of assigning ISA, update_pass_manager, change_primitive, assigning parameters or shots and measuring read-out matrices, with V1 and V2 samplers, whether or not calls fail: a circuit that is run for a Pauli label gives every outcome with the probability that the state circuit and the ansatz circuit themselves, without transpilation, give. With known options no call fails, parameters are kept, V2 samplers always have ISA, and the circuit is the one that the pass manager with the current options makes; options that are given are in force, others stay, missing ones get their defaults. The read-out matrix used is the one of the qubits that are read. (False as it stands for switching ISA off after a transpilation, for options with unknown names, and for the read-out matrix after a change of layout.)", "quantifier": "all sequences of calls, options, primitives with and without backend, ansatz and state circuits, layouts with ancillas and routing, parameters, labels and outcomes", "why_tests_cant": "Tests transpile a few circuits with one or two settings; that no order of changing settings leads to a circuit read on the wrong qubits is a statement about all histories and layouts.", "anchors": ["slowquant/qiskit_interface/interface.py: QuantumInterface.ISA", "slowquant/qiskit_interface/interface.py: QuantumInterface.update_pass_manager", "slowquant/qiskit_interface/interface.py: QuantumInterface.circuit", "slowquant/qiskit_interface/interface.py: QuantumInterface._transpile_circuit", "slowquant/qiskit_interface/interface.py: QuantumInterface._one_call_sampler_distributions", "slowquant/qiskit_interface/interface.py: QuantumInterface._check_layout_conflict", "slowquant/qiskit_interface/interface.py: QuantumInterface._apply_M_mitigation", "slowquant/qiskit_interface/util.py: to_CBS_measurement", "slowquant/qiskit_interface/circuit_wavefunction.py: WaveFunctionCircuit.change_primitive"]}
{"id": "C138", "title": "CSF circuits on a transpiled ansatz measure what the untranspiled ones do", "statement": "Assume that the pass managers of Qiskit keep the meaning of circuits, use a given initial layout and report their routing. Then after any calls with known options that do not switch ISA off, in quantum_expectation_value_csfs: the circuit of every determinant is made, placed on the qubits of the ansatz, and gives every outcome of every label with the probability that the untranspiled circuits give; so does the circuit of every superposition of two determinants, with any ISA_csfs_option for which one is made. Without ISA and with the options 1 and 2 one is always made; with 3 and 4 if the options have a backend whose coupling map is connected and without cycles; other numbers raise a ValueError. Options 3 and 4 (layout_conserving_compose) keep the order of the qubits, so that the check of layouts finds no conflict. With read-out mitigation every circuit that passes the check gets exactly the probabilities of the untranspiled circuits back, also if its qubits are read in another order than those of the ansatz.", "quantifier": "all sequences of calls, options, state circuits, ansatz circuits, layouts with ancillas and routing, coupling maps, read-out matrices that can be inverted, parameters, labels and outcomes", "why_tests_cant": "Tests compare a few expectation values of small molecules with one layout; that routing is undone in the right direction for every layout and that the relabelled read-out matrix is right for every order cannot be sampled.", "anchors": ["slowquant/qiskit_interface/interface.py: QuantumInterface.quantum_expectation_value_csfs", "slowquant/qiskit_interface/interface.py: QuantumInterface._transpile_circuit", "slowquant/qiskit_interface/interface.py: QuantumInterface._check_layout_conflict", "slowquant/qiskit_interface/interface.py: QuantumInterface._apply_M_mitigation", "slowquant/qiskit_interface/util.py: layout_conserving_compose", "slowquant/qiskit_interface/util.py: add_permutation_gate", "slowquant/qiskit_interface/util.py: correct_distribution_with_layout_v2"]}
{"id": "C139", "title": "Reported deviations of projected linear response bound the scatter of its matrices", "statement": "Let every measured expectation value (the energy included) be a random variable with a finite variance and let quantum_variance return that variance. Then computing the deviations of run_std of projected and all-projected linear response does not raise, and neither does run (for projected without density matrices); the printed analysis at the end of run_std is C141. Evaluated at the true means, the numbers of run_std bound the scatter of the matrices of run: the metric and the mixed entries of A scatter with exactly the reported deviation, the mixed entries of B with a variance of half the reported one, the entries for orbital rotations as in C136 (all-projected: A with at most twice the reported variance if the estimates of metric and energy are independent), and the entries of A and B for two active operators with at most four and two times the reported variance if the estimates entering them are independent. For the metric of active operators this includes the diagonal. Calling run before run_std changes nothing when the measurements give the same values.", "quantifier": "all probability spaces and estimates with finite variance, wave functions (as in C105 and C106), operator lists, with and without gradients", "why_tests_cant": "A test can look at one set of samples; that the reported numbers bound the scatter for every distribution, and where they do not, cannot be sampled.", "anchors": ["slowquant/qiskit_interface/linear_response/projected.py: quantumLR.run_std", "slowquant/qiskit_interface/linear_response/projected.py: quantumLR.run", "slowquant/qiskit_interface/linear_response/allprojected.py: quantumLR.run_std", "slowquant/qiskit_interface/linear_response/allprojected.py: quantumLR.run"]}
{"id": "C140", "title": "The qubit maps of linear response list the Pauli strings that the matrices need", "statement": "_get_qbitmap of the circuit-based linear response classes lists, for each entry of A, B and Sigma, Pauli strings (with cliques: heads of cliques). Whatever values the Pauli strings have been found to have, the entry that run computes is fixed by what is known from the strings listed for it: two tables of values that agree on them (with cliques, on all strings their heads cover) give the same entry. With response parameters the map does not raise, with or without cliques; without any it raises IndexError; for all-projected linear response with orbital rotations it raises AttributeError before run.", "quantifier": "all wave functions (as in C104 to C106), excitations, Jordan-Wigner mappers, tables of values, entries, with and without cliques, density matrices and gradients", "why_tests_cant": "A test can compare one list with one expected list; that nothing an entry depends on is left out, for any values of the strings, is a statement about all tables of values.", "anchors": ["slowquant/qiskit_interface/linear_response/naive.py: quantumLR._get_qbitmap", "slowquant/qiskit_interface/linear_response/projected.py: quantumLR._get_qbitmap", "slowquant/qiskit_interface/linear_response/allprojected.py: quantumLR._get_qbitmap", "slowquant/qiskit_interface/linear_response/lr_baseclass.py: get_num_nonCBS", "slowquant/qiskit_interface/linear_response/lr_baseclass.py: get_num_CBS_elements"]}
{"id": "C141", "title": "Analysing the deviations of linear response does not get in the way of returning them", "statement": "Once get_excitation_energies was called and the metric can be inverted, run_std returns the deviations it computed. It names the positions of four largest deviations of each matrix and their blocks. With save it keeps the means of the rows; with coefficients of variation it also keeps their means over the entries that are not small. _get_std_trend gives for each excited state the mean deviations of the operators weighted with the squared components of the response vector, which lies between the smallest and the largest deviation for a vector of length one; _get_CV_trend does the same for the coefficients of variation. Before get_excitation_energies run_std raises AttributeError, with a singular metric LinAlgError.", "quantifier": "all deviations, matrices, metrics, response vectors, numbers of orbital rotations and active operators, options, and orders that argsort may give equal values", "why_tests_cant": "Whether the analysis can fail depends on the number of parameters and on which entries vanish; a test sees single molecules.", "anchors": ["slowquant/qiskit_interface/linear_response/lr_baseclass.py: quantumLRBaseClass._analyze_std", "slowquant/qiskit_interface/linear_response/lr_baseclass.py: quantumLRBaseClass._get_std_trend", "slowquant/qiskit_interface/linear_response/lr_baseclass.py: quantumLRBaseClass._get_CV_trend", "slowquant/qiskit_interface/linear_response/naive.py: quantumLR.run_std"]}
{"id": "C142", "title": "The table of contributions lists the operators that dominate an excited state", "statement": "get_excited_state_contributions prints for each excited state exactly the operators whose squared component of the response vector reaches the cutoff, each once, with its value, its position and its name (q and G, with ^d for de-excitations), largest first. With num_contr it prints at most that many; an operator that reaches the cutoff is left out only for ones that are at least as large. num_contr above the number of components raises IndexError; without excitation vectors the call raises ValueError.", "quantifier": "all response vectors, numbers of orbital rotations and active operators, cutoffs, limits, and orders that argsort may give equal values", "why_tests_cant": "The position of an operator in the vector and its name depend on both numbers of operators; a test sees one table.", "anchors": ["slowquant/qiskit_interface/linear_response/lr_baseclass.py: quantumLRBaseClass.get_excited_state_contributions"]}
{"id": "C143", "title": "RotoSolve's fast energies are the energies at the shifted parameters", "statement": "_calc_energy_rotosolve_optimization(parameters, shifts, k), which the wave functions hand to RotoSolve, does not raise and gives for each shift the energy of the wave function with the k-th parameter replaced by the shift: for WaveFunctionUPS that energy, for WaveFunctionSAUPS the averaged energy times the number of states. RotoSolve started by WaveFunctionUPS therefore ends in exactly the same result as it does when it evaluates the energy itself, and started by WaveFunctionSAUPS it never raises the averaged energy from sweep to sweep. The energy evaluations are counted.", "quantifier": "all determinant spaces, layouts, reference states, numbers of states, integrals, orbitals, parameters, lists of shifts, and positions of the parameter", "why_tests_cant": "The states are propagated in pieces and in a stacked array; a wrong piece or row shows only for particular layouts, positions and numbers of states, and a wrong energy only slows the optimization down.", "anchors": ["slowquant/unitary_coupled_cluster/ups_wavefunction.py: WaveFunctionUPS._calc_energy_rotosolve_optimization", "slowquant/unitary_coupled_cluster/sa_ups_wavefunction.py: WaveFunctionSAUPS._calc_energy_rotosolve_optimization", "slowquant/unitary_coupled_cluster/optimizers.py: RotoSolve.minimize", "slowquant/unitary_coupled_cluster/optimizers.py: get_energy_evals_optimized"]}
{"id": "C144", "title": "RotoSolve over several states never raises the averaged energy", "statement": "When the objective gives one energy per state, as WaveFunctionSACircuit does for RotoSolve, the optimization returns without raising and ends in the start or in the point at the end of a sweep, with the mean energy of that point, no mean energy seen being lower up to the threshold. The derivative used along one parameter is the derivative of the reconstructed function. If the minimization along one parameter finds the lowest point of the reconstructed function, the mean energy never rises from one sweep to the next. For a WaveFunctionSACircuit with an ideal device the energies given to RotoSolve exist for all parameters, their mean is the averaged energy, and so the averaged energy never rises.", "quantifier": "all numbers of states, energies that are trigonometric polynomials of the degrees given, parameters, numbers of sweeps and thresholds; for the circuit class all active spaces, layouts with circuits, states, integrals, orbitals, ideal devices and histories of the interface", "why_tests_cant": "The rule for several states mixes the energies of all sampled points; that it lowers the mean for every layout, number of states and starting point cannot be seen from runs that converge.", "anchors": ["slowquant/unitary_coupled_cluster/optimizers.py: RotoSolve.minimize", "slowquant/unitary_coupled_cluster/optimizers.py: get_energy_evals", "slowquant/unitary_coupled_cluster/optimizers.py: reconstructed_f", "slowquant/unitary_coupled_cluster/optimizers.py: reconstructed_f_derivative", "slowquant/qiskit_interface/sa_circuit_wavefunction.py: WaveFunctionSACircuit._calc_energy_optimization", "slowquant/qiskit_interface/sa_circuit_wavefunction.py: WaveFunctionSACircuit.run_wf_optimization_1step"]}
{"id": "C145", "title": "RotoSolve on circuit wave functions minimizes exactly along each parameter", "statement": "On an ideal device, each step of RotoSolve run by WaveFunctionCircuit or WaveFunctionSACircuit ends in a global minimum of the (averaged) energy along its parameter, if the minimization of the reconstructed function finds its lowest point. For WaveFunctionCircuit the optimization returns, the energy never rises from one sweep to the next, and after at least one sweep the result is a point at the end of a sweep together with the energy of the object there, no energy at the start or at the end of a sweep being lower. A sweep that leaves the parameters unchanged has found a stationary point: the gradient that the object computes there is zero.", "quantifier": "all active spaces, layouts with circuits, reference determinants or states, integrals, orbitals, parameters, numbers of sweeps, thresholds, ideal devices and histories of the interface", "why_tests_cant": "That a few sampled energies determine the whole curve, for each type of excitation, and that the chosen point is the global minimum can be tried for single circuits only.", "anchors": ["slowquant/qiskit_interface/circuit_wavefunction.py: WaveFunctionCircuit._calc_energy_optimization", "slowquant/qiskit_interface/circuit_wavefunction.py: WaveFunctionCircuit.run_wf_optimization_1step", "slowquant/qiskit_interface/circuit_wavefunction.py: WaveFunctionCircuit.run_wf_optimization_2step", "slowquant/qiskit_interface/sa_circuit_wavefunction.py: WaveFunctionSACircuit._calc_energy_optimization", "slowquant/unitary_coupled_cluster/optimizers.py: RotoSolve.minimize"]}
{"id": "C146", "title": "check_orthonormality reports the largest deviation, and no use of the object changes whether it is zero", "statement": "check_orthonormality(S) prints the largest absolute difference between an overlap of two molecular orbitals, in the present coefficients, and the overlap of orthonormal ones. The number is zero exactly if the present orbitals are orthonormal in S, and exactly if the orbitals that the object was made with are, whatever was assigned, read and optimized before. The check does not change the object. Without orbitals it raises ValueError.", "quantifier": "all wave function classes, numbers of orbitals, coefficients, overlap matrices and histories of assignments, reads and optimizations with any minimizers, also ones that raise", "why_tests_cant": "A test follows one sequence of rotations of one molecule; that no history of an object makes orthonormal orbitals fail the check, nor hides orbitals that never were orthonormal, is a statement about all of them.", "anchors": ["slowquant/unitary_coupled_cluster/ups_wavefunction.py: WaveFunctionUPS.check_orthonormality", "slowquant/unitary_coupled_cluster/ucc_wavefunction.py: WaveFunctionUCC.check_orthonormality", "slowquant/unitary_coupled_cluster/sa_ups_wavefunction.py: WaveFunctionSAUPS.check_orthonormality", "slowquant/qiskit_interface/circuit_wavefunction.py: WaveFunctionCircuit.check_orthonormality", "slowquant/qiskit_interface/sa_circuit_wavefunction.py: WaveFunctionSACircuit.check_orthonormality"]}
{"id": "C147", "title": "get_operator_info lists the response operators as they are, with the right kind of orbital rotation", "statement": "For every quantum linear response object, get_operator_info() prints without an exception one numbered block for every orbital rotation and every active operator, in the order of q_ops and G_ops, and no title for an empty list. The block of a rotation has one row for each spin, with the spin orbital that is emptied, the one that is filled, the coefficient 1/sqrt(2), and the names of the two spaces that the orbitals are in. The rows of an active operator add up to the operator, keep the number of electrons and name active spin orbitals only.", "quantifier": "all active spaces, all lists of non-redundant rotations, all strings of excitations", "why_tests_cant": "A test prints one molecule. The indices are recovered from the printed names of the terms, and the kind of a rotation from its first index only; that this is right for every active space and excitation order is a statement about all of them.", "anchors": ["slowquant/qiskit_interface/linear_response/lr_baseclass.py: quantumLRBaseClass.get_operator_info", "slowquant/unitary_coupled_cluster/fermionic_operator.py: FermionicOperator.get_info"]}

{
 "claims": [
  {
   "property": "C01",
   "status": "proved",
   "theorems": [
    "SQ.C01_linear"
   ],
   "note": "Exact zero test; floating point idealised as a commutative ring."
  },
  {
   "property": "C02",
   "status": "proved",
   "theorems": [
    "SQ.C02_threshold"
   ],
   "note": "Literal threshold over any linearly ordered field."
  },
  {
   "property": "C03",
   "status": "proved",
   "theorems": [
    "SQ.C03_inplace",
    "SQ.C03_put"
   ],
   "note": "Includes the aliased cases: x -= x raises RuntimeError for nonempty x."
  },
  {
   "property": "C04",
   "status": "proved",
   "theorems": [
    "SQ.C04_normalOrder",
    "SQ.C04_mul",
    "SQ.C04_dagger"
   ],
   "note": "Termination by an iteration budget proved never to be exhausted."
  },
  {
   "property": "C05",
   "status": "partial",
   "theorems": [
    "SQ.C05_violated",
    "SQ.C05_partial"
   ],
   "note": "Violated in general (constant of a full contraction is dropped): witness C05_violated; proved for strings that keep at least two operators under all contractions."
  },
  {
   "property": "C06",
   "status": "partial",
   "theorems": [
    "SQ.C06_violated",
    "SQ.C06_partial",
    "SQ.C06_safe_partial"
   ],
   "note": "Violated in general: witness C06_violated; proved for number-conserving operators and for safe strings."
  },
  {
   "property": "C07",
   "status": "proved",
   "theorems": [
    "SQ.C07_dagger",
    "SQ.C07_single_raises"
   ],
   "note": "One-operator strings raise IndexError (C07_single_raises)."
  },
  {
   "property": "C08",
   "status": "proved",
   "theorems": [
    "SQ.C08_commutators",
    "SQ.C08_symmetrized"
   ],
   "note": ""
  },
  {
   "property": "C09",
   "status": "proved",
   "theorems": [
    "SQ.C09_spinfree",
    "SQ.C09_aOp",
    "SQ.C09_G",
    "SQ.C09_excite"
   ],
   "note": ""
  },
  {
   "property": "C10",
   "status": "proved",
   "theorems": [
    "SQ.C10_spin",
    "SQ.C10_case_rejected",
    "SQ.C10_hamiltonians",
    "SQ.C10_number"
   ],
   "note": ""
  },
  {
   "property": "C11",
   "status": "proved",
   "theorems": [
    "SQ.C11_form",
    "SQ.C11_hermitian"
   ],
   "note": ""
  },
  {
   "property": "C12",
   "status": "proved",
   "theorems": [
    "SQ.C12_active"
   ],
   "note": ""
  },
  {
   "property": "C13",
   "status": "proved",
   "theorems": [
    "SQ.C13_fold",
    "SQ.C13_nonconserving",
    "SQ.C13_range_needed"
   ],
   "note": "For index range within the partition; number conservation and range are needed (C13_nonconserving, C13_range_needed)."
  },
  {
   "property": "C14",
   "status": "proved",
   "theorems": [
    "SQ.C14_qiskit_form",
    "SQ.C14_out_of_range"
   ],
   "note": "Keys as character lists; n>0 not needed."
  },
  {
   "property": "C15",
   "status": "proved",
   "theorems": [
    "SQ.C15_intertwines",
    "SQ.C15_isometry"
   ],
   "note": "Signed renumbering intertwines every string; also an isometry."
  },
  {
   "property": "C16",
   "status": "proved",
   "theorems": [
    "SQ.C16_strings",
    "SQ.C16_nodup",
    "SQ.C16_count",
    "SQ.C16_negative"
   ],
   "note": ""
  },
  {
   "property": "C17",
   "status": "proved",
   "theorems": [
    "SQ.C17_space",
    "SQ.C17_count",
    "SQ.C17_no_orbitals_raises"
   ],
   "note": "Without active orbitals the code raises ValueError (C17_no_orbitals_raises)."
  },
  {
   "property": "C18",
   "status": "proved",
   "theorems": [
    "SQ.C18_space",
    "SQ.C18_prefix",
    "SQ.C18_order_raises",
    "SQ.C18_low_orders"
   ],
   "note": "Orders 0 and below behave as order 1 (C18_low_orders)."
  },
  {
   "property": "C19",
   "status": "proved",
   "theorems": [
    "SQ.C19_bitcount",
    "SQ.C19_all_bits"
   ],
   "note": ""
  },
  {
   "property": "C20",
   "status": "proved",
   "theorems": [
    "SQ.C20_apply",
    "SQ.C20_apply_threaded",
    "SQ.C20_expectation",
    "SQ.C20_nonconserving",
    "SQ.C20_no_overflow"
   ],
   "note": "Serial kernel needs number conservation of each term (C20_nonconserving); zero test on amplitudes exact."
  },
  {
   "property": "C21",
   "status": "partial",
   "theorems": [
    "SQ.C21_raises",
    "SQ.C21_threaded_disagrees",
    "SQ.C21_threaded_unsafe_partial"
   ],
   "note": "Holds for the serial kernel; the threaded kernel disagrees (C21_threaded_disagrees), where only the do_unsafe direction is proved."
  },
  {
   "property": "C22",
   "status": "proved",
   "theorems": [
    "SQ.C22_threads",
    "SQ.C22_schedules"
   ],
   "note": "For every schedule that processes each index once."
  },
  {
   "property": "C23",
   "status": "proved",
   "theorems": [
    "SQ.C23_matrix",
    "SQ.C23_entries"
   ],
   "note": ""
  },
  {
   "property": "C24",
   "status": "proved",
   "theorems": [
    "SQ.C24_rows",
    "SQ.C24_mean",
    "SQ.C24_with_ansatz"
   ],
   "note": ""
  },
  {
   "property": "C25",
   "status": "proved",
   "theorems": [
    "SQ.C25_right_to_left",
    "SQ.C25_names"
   ],
   "note": ""
  },
  {
   "property": "C26",
   "status": "proved",
   "theorems": [
    "SQ.C26_spaces",
    "SQ.C26_factor",
    "SQ.C26_state",
    "SQ.C26_unique",
    "SQ.C26_errors",
    "SQ.C26_ensemble"
   ],
   "note": "Angles below the code's cut-off 1e-28 are skipped (effAngle)."
  },
  {
   "property": "C27",
   "status": "proved",
   "theorems": [
    "SQ.C27_norm",
    "SQ.C27_inverse"
   ],
   "note": ""
  },
  {
   "property": "C28",
   "status": "proved",
   "theorems": [
    "SQ.C28_stepwise",
    "SQ.C28_range"
   ],
   "note": ""
  },
  {
   "property": "C29",
   "status": "proved",
   "theorems": [
    "SQ.C29_ups",
    "SQ.C29_ucc",
    "SQ.C29_sa"
   ],
   "note": "WaveFunctionUPS, WaveFunctionUCC and WaveFunctionSAUPS; complete active spaces, exact zero tests."
  },
  {
   "property": "C30",
   "status": "proved",
   "theorems": [
    "SQ.C30_reference",
    "SQ.C30_full"
   ],
   "note": "For states with filled inactive and empty virtual orbitals, normalised on average (C30_reference)."
  },
  {
   "property": "C31",
   "status": "proved",
   "theorems": [
    "SQ.C31_ups",
    "SQ.C31_energy"
   ],
   "note": ""
  },
  {
   "property": "C32",
   "status": "proved",
   "theorems": [
    "SQ.C32_gradient",
    "SQ.C32_response"
   ],
   "note": "Integrals with electron-exchange and real-orbital symmetry."
  },
  {
   "property": "C33",
   "status": "proved",
   "theorems": [
    "SQ.C33_metric",
    "SQ.C33_norm",
    "SQ.C33_property"
   ],
   "note": "The norm formula needs non-redundant pairs (no active-active rotation)."
  },
  {
   "property": "C34",
   "status": "proved",
   "theorems": [
    "SQ.C34_hessian"
   ],
   "note": "The result array is square in the code, so the two index lists must have equal length."
  },
  {
   "property": "C35",
   "status": "proved",
   "theorems": [
    "SQ.C35_spin",
    "SQ.C35_sa_singles_pairs",
    "SQ.C35_sa_doubles",
    "SQ.C35_generalized_singles",
    "SQ.C35_generalized_doubles",
    "SQ.C35_generalized_doubles_disagree"
   ],
   "note": "Generalised spin-orbital doubles include vanishing excitations and list only i<=j<a<=b (C35_generalized_doubles_disagree)."
  },
  {
   "property": "C36",
   "status": "proved",
   "theorems": [
    "SQ.C36_ups_consistent",
    "SQ.C36_ups_layout",
    "SQ.C36_wave_function_lists",
    "SQ.C36_fucc_content",
    "SQ.C36_tiled_count",
    "SQ.C36_sds_pair_doubles_disagree",
    "SQ.C36_ucc"
   ],
   "note": "SDSfUCC with option pD is excluded: it emits an entry no ansatz function accepts (C36_sds_pair_doubles_disagree)."
  },
  {
   "property": "C37",
   "status": "proved",
   "theorems": [
    "SQ.C37_tiled",
    "SQ.C37_fucc",
    "SQ.C37_sds"
   ],
   "note": ""
  },
  {
   "property": "C38",
   "status": "proved",
   "theorems": [
    "SQ.C38_spin_orbitals",
    "SQ.C38_orbitals",
    "SQ.C38_errors",
    "SQ.C38_kappa",
    "SQ.C38_odd_electrons_disagree",
    "SQ.C38_oversized_disagree"
   ],
   "note": "Active spaces with an even number of inactive electrons that fit the molecule; odd or oversized ones disagree (C38_odd_electrons_disagree, C38_oversized_disagree)."
  },
  {
   "property": "C39",
   "status": "proved",
   "theorems": [
    "SQ.C39_reads",
    "SQ.C39_fresh_disagree",
    "SQ.C39_length_disagree"
   ],
   "note": "All three classes. Outside the claim: rdm3 and rdm4 of a WaveFunctionUPS raise AttributeError before the first assignment (C39_fresh_disagree) and the number of orbital parameters is not checked (C39_length_disagree)."
  },
  {
   "property": "C40",
   "status": "partial",
   "theorems": [
    "SQ.C40_history_partial",
    "SQ.C40_reported",
    "SQ.C40_ucc_disagree"
   ],
   "note": "Proved for the UPS and state-averaged classes. False for WaveFunctionUCC after a two-step orbital optimization: C40_ucc_disagree."
  },
  {
   "property": "C41",
   "status": "proved",
   "theorems": [
    "SQ.C41_calls",
    "SQ.C41_memo_disagree",
    "SQ.C41_path_disagree",
    "SQ.C41_result_ignored"
   ],
   "note": "Orbital parameters: with commuting rotations; false otherwise, C41_path_disagree. A call may leave the wave function elsewhere, C41_memo_disagree, and the orbital part of the minimizer's result is not used, C41_result_ignored. Parameters are assumed to have an entry below 1e19 in size."
  },
  {
   "property": "C42",
   "status": "proved",
   "theorems": [
    "SQ.C42_best",
    "SQ.C42_threshold_disagree",
    "SQ.C42_descent"
   ],
   "note": "Exact minimality fails by less than the threshold when converged: C42_threshold_disagree. The SciPy step enters as the hypothesis FindsMinimum."
  },
  {
   "property": "C43",
   "status": "proved",
   "theorems": [
    "SQ.C43_wrap",
    "SQ.C43_wrap_only"
   ],
   "note": "The loops terminate for every real angle."
  },
  {
   "property": "C44",
   "status": "proved",
   "theorems": [
    "SQ.C44_exact",
    "SQ.C44_period",
    "SQ.C44_states",
    "SQ.C44_states_disagree",
    "SQ.C44_derivative"
   ],
   "note": "Several states: the code divides by 2R+1 instead of the number of states (C44_states_disagree); the minimizer is unaffected. At angles a nonzero multiple of 2 pi away from a sample the code divides 0 by 0."
  },
  {
   "property": "C45",
   "status": "proved",
   "theorems": [
    "SQ.C45_gradient"
   ],
   "note": "For R > 0."
  },
  {
   "property": "C46",
   "status": "proved",
   "theorems": [
    "SQ.C46_fit",
    "SQ.C46_history",
    "SQ.C46_measure",
    "SQ.C46_overwrite",
    "SQ.C46_groups"
   ],
   "note": "For every sequence of add_paulis / update_distr calls (failing ones included); get_groups too. In-place changes of a distribution object by the caller are not modelled."
  },
  {
   "property": "C47",
   "status": "proved",
   "theorems": [
    "SQ.C47_consistent",
    "SQ.C47_update",
    "SQ.C47_single",
    "SQ.C47_to_int",
    "SQ.C47_constructor_disagree"
   ],
   "note": "Invariant under update_flags / all_to_false for flags constructed from Booleans; C47_constructor_disagree shows that the constructor itself does not validate."
  },
  {
   "property": "C48",
   "status": "proved",
   "theorems": [
    "SQ.C48_sign",
    "SQ.C48_expectation",
    "SQ.C48_errors"
   ],
   "note": "Sign as a product over measured qubits, and the exact expectation value of a covered Pauli string for every state vector."
  },
  {
   "property": "C49",
   "status": "proved",
   "theorems": [
    "SQ.C49_swap_indices",
    "SQ.C49_out_of_range"
   ],
   "note": "Any register size; positions outside raise IndexError."
  },
  {
   "property": "C50",
   "status": "proved",
   "theorems": [
    "SQ.C50_find_swaps",
    "SQ.C50_short",
    "SQ.C50_longer_disagree"
   ],
   "note": "Lists of one length: returns iff a rearrangement; a shorter reference raises. C50_longer_disagree: a longer reference is accepted."
  },
  {
   "property": "C51",
   "status": "partial",
   "theorems": [
    "SQ.C51_v2",
    "SQ.C51_outcomes",
    "SQ.C51_v1_partial",
    "SQ.C51_v1_disagree"
   ],
   "note": "Version 2 (the one in use): full statement proved. Relabelled-matrix version: proved equal for layouts related by an involution; C51_v1_disagree proves it wrong for a three-cycle."
  },
  {
   "property": "C52",
   "status": "proved",
   "theorems": [
    "SQ.C52_best_path"
   ],
   "note": "Breadth-first search: shortest route, raises iff unreachable, and terminates."
  },
  {
   "property": "C53",
   "status": "partial",
   "theorems": [
    "SQ.C53_on_return",
    "SQ.C53_size",
    "SQ.C53_tree_partial",
    "SQ.C53_ring_disagree",
    "SQ.C53_docstring_disagree"
   ],
   "note": "Correctness on return proved for all inputs; termination proved for all connected devices without cycles. C53_ring_disagree proves that the loop runs forever on a five-qubit ring; C53_docstring_disagree: the documented direction of the permutation is the inverse of what is done."
  },
  {
   "property": "C54",
   "status": "partial",
   "theorems": [
    "SQ.C54_jw",
    "SQ.C54_parity_partial",
    "SQ.C54_mapper",
    "SQ.C54_parity_exchanged",
    "SQ.C54_parity_odd_disagree",
    "SQ.C54_parity_even_disagree",
    "SQ.C54_parity_full_disagree"
   ],
   "note": "Proved for Jordan-Wigner in full and for the two-qubit-reduced parity mapping with equal electron numbers. The parity branch is wrong otherwise: C54_parity_exchanged shows it keeps the sector with alpha and beta exchanged for every even electron number, and the _disagree theorems give concrete failures for odd numbers and the unreduced mapping."
  },
  {
   "property": "C55",
   "status": "proved",
   "theorems": [
    "SQ.C55_superposition",
    "SQ.C55_determinant",
    "SQ.C55_mapper"
   ],
   "note": "Exact state on the register, success iff a suitable orbital exists, ValueError otherwise, TypeError for other mappers. MAnsatz0 variant modelled, no theorem."
  },
  {
   "property": "C56",
   "status": "proved",
   "theorems": [
    "SQ.C56_bilinear",
    "SQ.C56_real",
    "SQ.C56_reverse_disagree"
   ],
   "note": "For a Hermitian operator the value is the real part of the matrix element, which is the element itself for a real operator (C56_real). Expectation values are taken as exact; circuit composition and transpilation are not modelled. With reverse_csfs_order and different electron numbers the call can raise (C56_reverse_disagree)."
  },
  {
   "property": "C57",
   "status": "proved",
   "theorems": [
    "SQ.C57_consistent",
    "SQ.C57_request",
    "SQ.C57_max"
   ],
   "note": "Every history of setters and evaluations from the constructor with positive maxima. With a maximum of 0 the setter raises ZeroDivisionError (C57_max)."
  },
  {
   "property": "C58",
   "status": "proved",
   "theorems": [
    "SQ.C58_fresh",
    "SQ.C58_parameters",
    "SQ.C58_alias_disagree"
   ],
   "note": "Every history of API calls from the constructor. Outside the claim: false for writes through the list the parameters getter returns (C58_alias_disagree): the saved data stay."
  },
  {
   "property": "C59",
   "status": "proved",
   "theorems": [
    "SQ.C59_expansion"
   ],
   "note": ""
  },
  {
   "property": "C60",
   "status": "proved",
   "theorems": [
    "SQ.C60_table",
    "SQ.C60_exact"
   ],
   "note": ""
  },
  {
   "property": "C61",
   "status": "proved",
   "theorems": [
    "SQ.C61_filled",
    "SQ.C61_numbers",
    "SQ.C61_symmetric",
    "SQ.C61_screened"
   ],
   "note": "The bound on screened integrals is for the exact Boys function; filling and symmetry hold for any."
  },
  {
   "property": "C62",
   "status": "proved",
   "theorems": [
    "SQ.C62_compose",
    "SQ.C62_identity",
    "SQ.C62_symmetry",
    "SQ.C62_contract"
   ],
   "note": ""
  },
  {
   "property": "C63",
   "status": "proved",
   "theorems": [
    "SQ.C63_numbering"
   ],
   "note": ""
  },
  {
   "property": "C64",
   "status": "proved",
   "theorems": [
    "SQ.C64_counts",
    "SQ.C64_negative_disagree"
   ],
   "note": "Negative electron counts are not rejected (C64_negative_disagree)."
  },
  {
   "property": "C65",
   "status": "proved",
   "theorems": [
    "SQ.C65_history",
    "SQ.C65_weights",
    "SQ.C65_singular_disagree"
   ],
   "note": "When two stored error matrices agree the linear system is singular and the call raises (C65_singular_disagree); a limit of zero keeps one matrix."
  },
  {
   "property": "C66",
   "status": "proved",
   "theorems": [
    "SQ.C66_density",
    "SQ.C66_odd_disagree",
    "SQ.C66_small_disagree",
    "SQ.C66_orbitals",
    "SQ.C66_converged",
    "SQ.C66_energy",
    "SQ.C66_total",
    "SQ.C66_one_function_disagree"
   ],
   "note": "Odd electron numbers lose an electron and too small bases drop electrons without an error (C66_odd_disagree, C66_small_disagree); one basis function with DIIS raises (C66_one_function_disagree)."
  },
  {
   "property": "C67",
   "status": "proved",
   "theorems": [
    "SQ.C67_pairs",
    "SQ.C67_check",
    "SQ.C67_energies",
    "SQ.C67_norm",
    "SQ.C67_norm_disagree",
    "SQ.C67_orthogonal",
    "SQ.C67_strengths"
   ],
   "note": "The norm routine leaves out a coupling block of the metric (C67_norm_disagree); no response class assembles such a block."
  },
  {
   "property": "C68",
   "status": "partial",
   "theorems": [
    "SQ.C68_reads",
    "SQ.C68_threshold_disagree",
    "SQ.C68_facade_partial",
    "SQ.C68_facade_disagree",
    "SQ.C68_manager",
    "SQ.C68_manager_unknown"
   ],
   "note": "Cached integrals ignore a later change of the screening threshold (C68_threshold_disagree); the facade keeps stale integrals when the molecule is replaced without a basis set (C68_facade_disagree). The _partial theorem covers every other call sequence."
  },
  {
   "property": "C69",
   "status": "proved",
   "theorems": [
    "SQ.C69_readable",
    "SQ.C69_get_info"
   ],
   "note": ""
  },
  {
   "property": "C70",
   "status": "proved",
   "theorems": [
    "SQ.C70_folded",
    "SQ.C70_hamiltonian",
    "SQ.C70_energy"
   ],
   "note": "Complete spaces (get_indexing); zero tests on coefficients exact."
  },
  {
   "property": "C71",
   "status": "proved",
   "theorems": [
    "SQ.C71_gradient",
    "SQ.C71_program"
   ],
   "note": "Derivative of the mathematical energy for every angle; of the program's energy for angles beyond the 1e-28 cut-off (C71_program)."
  },
  {
   "property": "C72",
   "status": "proved",
   "theorems": [
    "SQ.C72_exponential",
    "SQ.C72_norm",
    "SQ.C72_inverse",
    "SQ.C72_errors"
   ],
   "note": "scipy's expm_multiply is modelled as the exact matrix exponential."
  },
  {
   "property": "C73",
   "status": "proved",
   "theorems": [
    "SQ.C73_hartree_fock",
    "SQ.C73_perfect_pairing",
    "SQ.C73_columns"
   ],
   "note": "Closed-shell active spaces with at least one orbital."
  },
  {
   "property": "C74",
   "status": "partial",
   "theorems": [
    "SQ.C74_measured_partial",
    "SQ.C74_disagree"
   ],
   "note": "Exact on measured outcomes; C74_disagree proves that probability assigned to outcomes that were not measured is dropped."
  },
  {
   "property": "C75",
   "status": "proved",
   "theorems": [
    "SQ.C75_average",
    "SQ.C75_counts"
   ],
   "note": "Average of every function of the outcome; with counts, the relative frequencies over all shots."
  },
  {
   "property": "C76",
   "status": "proved",
   "theorems": [
    "SQ.C76_separate",
    "SQ.C76_groups",
    "SQ.C76_uncorrelated",
    "SQ.C76_no_coeffs_disagree"
   ],
   "note": "All three option branches. The option no_coeffs is ignored in the grouped branch (C76_no_coeffs_disagree)."
  },
  {
   "property": "C77",
   "status": "proved",
   "theorems": [
    "SQ.C77_orthonormal"
   ],
   "note": ""
  },
  {
   "property": "C78",
   "status": "partial",
   "theorems": [
    "SQ.C78_array_disagree",
    "SQ.C78_twice_disagree",
    "SQ.C78_circuit_disagree"
   ],
   "note": "False: the second optimization raises ValueError (C78_array_disagree, C78_twice_disagree, for circuits C78_circuit_disagree), since the orbital parameters are then an array and + adds element-wise. A repetition without orbital optimization is covered by C40_history_partial."
  },
  {
   "property": "C79",
   "status": "partial",
   "theorems": [
    "SQ.C79_read_partial",
    "SQ.C79_dropped_disagree"
   ],
   "note": "Proved for files whose shells are s, p, d or f; shells with other letters are dropped silently (C79_dropped_disagree)."
  },
  {
   "property": "C80",
   "status": "proved",
   "theorems": [
    "SQ.C80_pairs",
    "SQ.C80_invariant"
   ],
   "note": ""
  },
  {
   "property": "C81",
   "status": "proved",
   "theorems": [
    "SQ.C81_densities",
    "SQ.C81_full_disagree",
    "SQ.C81_fock",
    "SQ.C81_energy",
    "SQ.C81_start",
    "SQ.C81_lumo_disagree"
   ],
   "note": "The Fock-matrix statements are for runs without DIIS. The starting guess: the alpha density after mixing is a proper density (C81_start); the mixed LUMO row is computed from the already overwritten HOMO row and is not orthonormal (C81_lumo_disagree), but is never used. Raises IndexError when every orbital is doubly occupied (C81_full_disagree)."
  },
  {
   "property": "C82",
   "status": "proved",
   "theorems": [
    "SQ.C82_contamination",
    "SQ.C82_minority_disagree"
   ],
   "note": "With more beta than alpha electrons the value is at least N_beta - N_alpha (C82_minority_disagree)."
  },
  {
   "property": "C83",
   "status": "proved",
   "theorems": [
    "SQ.C83_multipole",
    "SQ.C83_overlap"
   ],
   "note": ""
  },
  {
   "property": "C84",
   "status": "proved",
   "theorems": [
    "SQ.C84_kinetic"
   ],
   "note": ""
  },
  {
   "property": "C85",
   "status": "proved",
   "theorems": [
    "SQ.C85_functions",
    "SQ.C85_overlap_diagonal",
    "SQ.C85_files"
   ],
   "note": "For a contraction that is identically zero the normalization divides by zero; excluded by hypothesis."
  },
  {
   "property": "C86",
   "status": "proved",
   "theorems": [
    "SQ.C86_attraction",
    "SQ.C86_symmetric"
   ],
   "note": "For exact Boys-function values; C88 bounds the difference of the code's values."
  },
  {
   "property": "C87",
   "status": "proved",
   "theorems": [
    "SQ.C87_repulsion",
    "SQ.C87_default"
   ],
   "note": "For exact Boys-function values; C88 bounds the difference of the code's values."
  },
  {
   "property": "C88",
   "status": "proved",
   "theorems": [
    "SQ.C88_accuracy",
    "SQ.C88_low_orders",
    "SQ.C88_cutoff_disagree",
    "SQ.C88_factor_disagree"
   ],
   "note": "With an exact math.erf. The relative error is not controlled: from order 12 on only the first series term is kept (C88_cutoff_disagree, C88_factor_disagree)."
  },
  {
   "property": "C89",
   "status": "proved",
   "theorems": [
    "SQ.C89_excitation",
    "SQ.C89_unique",
    "SQ.C89_overlap",
    "SQ.C89_rejected"
   ],
   "note": "For different indices. Excitations from or to one spin orbital twice pass the checks of double_excitation but raise in qiskit."
  },
  {
   "property": "C90",
   "status": "proved",
   "theorems": [
    "SQ.C90_layout",
    "SQ.C90_order",
    "SQ.C90_structures",
    "SQ.C90_wave_function_lists",
    "SQ.C90_generalized_doubles_disagree"
   ],
   "note": "The option GD of create_fUCC has no circuit for two or more orbitals (C90_generalized_doubles_disagree)."
  },
  {
   "property": "C91",
   "status": "proved",
   "theorems": [
    "SQ.C91_same_state"
   ],
   "note": ""
  },
  {
   "property": "C92",
   "status": "proved",
   "theorems": [
    "SQ.C92_degree",
    "SQ.C92_circuit",
    "SQ.C92_gradient",
    "SQ.C92_rotosolve"
   ],
   "note": ""
  },
  {
   "property": "C93",
   "status": "proved",
   "theorems": [
    "SQ.C93_single",
    "SQ.C93_property",
    "SQ.C93_double",
    "SQ.C93_reach"
   ],
   "note": ""
  },
  {
   "property": "C94",
   "status": "proved",
   "theorems": [
    "SQ.C94_operators",
    "SQ.C94_naive",
    "SQ.C94_proper"
   ],
   "note": "The wave function object enters through the fields the class reads; C94_proper shows that the objects the constructors build satisfy the hypothesis."
  },
  {
   "property": "C95",
   "status": "proved",
   "theorems": [
    "SQ.C95_projected",
    "SQ.C95_energy"
   ],
   "note": "The hypothesis on the energy is what the wave function class stores (C95_energy). The mixed blocks leave out terms with the orbital gradient, which is below 1e-3 where the constructor does not raise; the theorem states these terms exactly."
  },
  {
   "property": "C96",
   "status": "proved",
   "theorems": [
    "SQ.C96_states",
    "SQ.C96_transfer",
    "SQ.C96_rotates",
    "SQ.C96_pairing_disagree"
   ],
   "note": "C96_rotates shows that the objects the constructors build (unitary product state ansatz, Hartree-Fock reference) satisfy the hypotheses. For the perfect-pairing reference of tUPS the norm and diagonal elements are wrong (C96_pairing_disagree)."
  },
  {
   "property": "C97",
   "status": "proved",
   "theorems": [
    "SQ.C97_projected_transfer"
   ],
   "note": "The hypotheses are those of C96. For the perfect-pairing reference the loop over active operators has the same defect as in C96."
  },
  {
   "property": "C98",
   "status": "proved",
   "theorems": [
    "SQ.C98_naive",
    "SQ.C98_projected",
    "SQ.C98_transfer",
    "SQ.C98_projected_transfer",
    "SQ.C98_strengths"
   ],
   "note": "The eigenvalue routine is a parameter; the theorems hold for whatever it returns, as long as it returns one pair per row. The matrices are those of C94-C97."
  },
  {
   "property": "C99",
   "status": "proved",
   "theorems": [
    "SQ.C99_all_projected",
    "SQ.C99_dipoles"
   ],
   "note": "The terms left out of the mixed blocks are part of the statement. Hypotheses as in C95 and C98."
  },
  {
   "property": "C100",
   "status": "proved",
   "theorems": [
    "SQ.C100_rotates",
    "SQ.C100_selfconsistent"
   ],
   "note": "C100_rotates shows that the objects the constructors build satisfy the hypotheses of C100-C102. Kernels with one thread (the program's default setting)."
  },
  {
   "property": "C101",
   "status": "proved",
   "theorems": [
    "SQ.C101_states",
    "SQ.C101_all_transfer"
   ],
   "note": "Hypotheses as in C100, and the energy stored by the wave function."
  },
  {
   "property": "C102",
   "status": "proved",
   "theorems": [
    "SQ.C102_all_selfconsistent"
   ],
   "note": "Hypotheses as in C100."
  },
  {
   "property": "C103",
   "status": "proved",
   "theorems": [
    "SQ.C103_selfconsistent",
    "SQ.C103_all_transfer",
    "SQ.C103_all_selfconsistent"
   ],
   "note": "Hypotheses as in C98 and C100. Oscillator strengths: C98_strengths holds for these dipoles too."
  },
  {
   "property": "C104",
   "status": "proved",
   "theorems": [
    "SQ.C104_naive",
    "SQ.C104_mirror"
   ],
   "note": "The interface is a parameter assumed exact (an ideal simulator); C107_proper shows that the objects of the program satisfy the other hypotheses. Without density matrices the upper triangles of the orbital-orbital blocks are mirror images; C104_mirror states the difference."
  },
  {
   "property": "C105",
   "status": "proved",
   "theorems": [
    "SQ.C105_projected"
   ],
   "note": "As C104. Unlike the classical class nothing raises for a large gradient, so the left-out terms of the mixed blocks are not bounded."
  },
  {
   "property": "C106",
   "status": "proved",
   "theorems": [
    "SQ.C106_all_projected"
   ],
   "note": "As C104."
  },
  {
   "property": "C107",
   "status": "proved",
   "theorems": [
    "SQ.C107_circuit",
    "SQ.C107_proper"
   ],
   "note": "The interface is a parameter assumed exact."
  },
  {
   "property": "C108",
   "status": "proved",
   "theorems": [
    "SQ.C108_ups",
    "SQ.C108_ucc",
    "SQ.C108_circuit",
    "SQ.C108_trace"
   ],
   "note": "For the circuit the interface is a parameter assumed exact."
  },
  {
   "property": "C109",
   "status": "proved",
   "theorems": [
    "SQ.C109_naive",
    "SQ.C109_projected",
    "SQ.C109_all_projected",
    "SQ.C109_solves",
    "SQ.C109_orbital_only_disagree"
   ],
   "note": "The interface and the eigenvalue routine are parameters. For orbital rotations only, see C109_orbital_only_disagree."
  },
  {
   "property": "C110",
   "status": "proved",
   "theorems": [
    "SQ.C110_start",
    "SQ.C110_met",
    "SQ.C110_expansion",
    "SQ.C110_transfer"
   ],
   "note": "The interface is a parameter that is exact for symmetric operators (ExactCsfs); C110_met shows the program's objects meet the hypotheses."
  },
  {
   "property": "C111",
   "status": "proved",
   "theorems": [
    "SQ.C111_selfconsistent"
   ],
   "note": "As C110. The mirrored nested commutators differ from the classical class, see DESIGN.md."
  },
  {
   "property": "C112",
   "status": "proved",
   "theorems": [
    "SQ.C112_transfer",
    "SQ.C112_selfconsistent",
    "SQ.C112_skip_disagree"
   ],
   "note": "The dipole statement needs the absence of orbital rotations; with rotations skipped see C112_skip_disagree."
  },
  {
   "property": "C113",
   "status": "proved",
   "theorems": [
    "SQ.C113_expectation",
    "SQ.C113_csfs",
    "SQ.C113_again",
    "SQ.C113_pairing_disagree",
    "SQ.C113_vacuum_disagree"
   ],
   "note": "Device and mapping are parameters with documented exact behaviour (Ideal, JWMapper; both exist). For do_pp and the vacuum determinant see the disagree theorems."
  },
  {
   "property": "C114",
   "status": "proved",
   "theorems": [
    "SQ.C114_sound",
    "SQ.C114_gradient",
    "SQ.C114_expectation",
    "SQ.C114_csfs"
   ],
   "note": "As C113, for interfaces as the wave function class builds them without do_pp."
  },
  {
   "property": "C115",
   "status": "proved",
   "theorems": [
    "SQ.C115_agree",
    "SQ.C115_circuit",
    "SQ.C115_content",
    "SQ.C115_twice",
    "SQ.C115_ucc",
    "SQ.C115_names_disagree",
    "SQ.C115_shared_disagree",
    "SQ.C115_pairing_disagree"
   ],
   "note": "For names and options where the classes differ see the disagree theorems."
  },
  {
   "property": "C116",
   "status": "proved",
   "theorems": [
    "SQ.C116_states",
    "SQ.C116_excitations",
    "SQ.C116_transition",
    "SQ.C116_strengths",
    "SQ.C116_average",
    "SQ.C116_vectors",
    "SQ.C116_orthonormal",
    "SQ.C116_class"
   ],
   "note": "scipy.linalg.eig is a parameter: normalised eigenvectors for every root of the characteristic polynomial, counted (EigOK; exists_eigOK shows it can be met)."
  },
  {
   "property": "C117",
   "status": "proved",
   "theorems": [
    "SQ.C117_averages",
    "SQ.C117_interface",
    "SQ.C117_energy",
    "SQ.C117_same",
    "SQ.C117_gradient"
   ],
   "note": "Device and mapping as in C113."
  },
  {
   "property": "C118",
   "status": "proved",
   "theorems": [
    "SQ.C118_reads",
    "SQ.C118_refused",
    "SQ.C118_history",
    "SQ.C118_reported"
   ],
   "note": "Quantities obtained from measurements are functions of primitive, parameters and arguments (ideal devices: C113). Parameters are assigned through the setters; writing into the list that thetas hands out is C58_alias_disagree."
  },
  {
   "property": "C119",
   "status": "partial",
   "theorems": [
    "SQ.C119_transition_partial",
    "SQ.C119_thetas_partial",
    "SQ.C119_stale",
    "SQ.C119_stale_primitive",
    "SQ.C119_fresh_disagree",
    "SQ.C119_stale_disagree"
   ],
   "note": "False: stale or missing coefficients of the states (C119_stale, C119_stale_primitive, C119_stale_disagree, C119_fresh_disagree). Proved after reading energy_states or assigning thetas."
  },
  {
   "property": "C120",
   "status": "proved",
   "theorems": [
    "SQ.C120_expectation",
    "SQ.C120_ups",
    "SQ.C120_energy",
    "SQ.C120_sa",
    "SQ.C120_sa_energy",
    "SQ.C120_refused",
    "SQ.C120_length"
   ],
   "note": "Angles below the cutoff of the state-vector code, which it drops (effAngle), are excluded by hypothesis. Layouts with excitations that have no circuit raise (C90, C115). States without repeated determinants. With perfect pairing, expectation values after calls other than quantum_expectation_value_csfs (C113_pairing_disagree)."
  },
  {
   "property": "C121",
   "status": "proved",
   "theorems": [
    "SQ.C121_rows",
    "SQ.C121_accepts",
    "SQ.C121_refused",
    "SQ.C121_duplicate_disagree"
   ],
   "note": "For states without repeated determinants; false otherwise (C121_duplicate_disagree)."
  },
  {
   "property": "C122",
   "status": "proved",
   "theorems": [
    "SQ.C122_ups",
    "SQ.C122_ucc",
    "SQ.C122_structures",
    "SQ.C122_ucc_structures",
    "SQ.C122_closed_shell",
    "SQ.C122_singlet",
    "SQ.C122_hamiltonian",
    "SQ.C122_single_needed"
   ],
   "note": "That a spin-orbital single is not spin-keeping is C122_single_needed. Closed-shell references; other references keep the spin they start with (C122_ups)."
  },
  {
   "property": "C123",
   "status": "proved",
   "theorems": [
    "SQ.C123_gradient",
    "SQ.C123_object",
    "SQ.C123_objective"
   ],
   "note": "Integrals with the symmetry of real orbitals. Objects: derivative at the current point (the expansion point is moved as in C41); C123_objective gives it at every point for commuting rotations. State-averaged and circuit objects use the same function."
  },
  {
   "property": "C124",
   "status": "proved",
   "theorems": [
    "SQ.C124_elements",
    "SQ.C124_masses",
    "SQ.C124_text",
    "SQ.C124_xyz",
    "SQ.C124_refused",
    "SQ.C124_line_errors",
    "SQ.C124_units",
    "SQ.C124_mass_disagree"
   ],
   "note": "Parsing of a number and opening of a file are parameters. The 34 elements whose mass is missing in the table are C124_mass_disagree."
  },
  {
   "property": "C125",
   "status": "proved",
   "theorems": [
    "SQ.C125_session",
    "SQ.C125_mixed_disagree",
    "SQ.C125_failed_disagree"
   ],
   "note": "Changing molecule or basis set after Hartree-Fock was initialised is outside the claim and goes wrong: C125_mixed_disagree, C125_failed_disagree. Storage flags at their initial values."
  },
  {
   "property": "C126",
   "status": "partial",
   "theorems": [
    "SQ.C126_printed_partial",
    "SQ.C126_log_disagree"
   ],
   "note": "What is printed is proved; the log attribute stays empty whatever is logged (C126_log_disagree)."
  },
  {
   "property": "C127",
   "status": "proved",
   "theorems": [
    "SQ.C127_total",
    "SQ.C127_physical",
    "SQ.C127_values",
    "SQ.C127_gradient",
    "SQ.C127_constructed"
   ],
   "note": "Composition: the functions of the object are the models of the called functions, not parameters. Cut-offs exact as elsewhere; parameters below 1e-28 count as zero (effAngle). create_SDSfUCC with pair doubles is excluded (C36). Integrals with the symmetry of real orbitals."
  },
  {
   "property": "C128",
   "status": "proved",
   "theorems": [
    "SQ.C128_total",
    "SQ.C128_physical",
    "SQ.C128_values",
    "SQ.C128_gradient",
    "SQ.C128_constructed"
   ],
   "note": "Composition, as C127. The states are orthonormal exactly (the constructor tests it to 1e-10) and no determinant is listed twice (C121). return_all_states and the counters of evaluations are not modelled; create_SDSfUCC with pair doubles is excluded (C36)."
  },
  {
   "property": "C129",
   "status": "proved",
   "theorems": [
    "SQ.C129_constructed",
    "SQ.C129_total",
    "SQ.C129_physical",
    "SQ.C129_values",
    "SQ.C129_gradient"
   ],
   "note": "Composition, as C127. Real arithmetic: the bound is the truncation error of the forward difference with step 2^-26; rounding is not modelled. scipy's expm_multiply is the matrix exponential (C72). The constants 2^-20 = 2^-26 * 8^2 come from the bound 8 on the norm of each excitation operator."
  },
  {
   "property": "C130",
   "status": "proved",
   "theorems": [
    "SQ.C130_total",
    "SQ.C130_history",
    "SQ.C130_values",
    "SQ.C130_gradient",
    "SQ.C130_objective",
    "SQ.C130_constructed"
   ],
   "note": "Composition. The state of the interface at each evaluation is arbitrary among those reached by construction and any calls with the device (calls for superpositions apart, see C113); no mitigation; the device is ideal: distributions are exact. Energies read after an optimization: see C118/C119."
  },
  {
   "property": "C131",
   "status": "proved",
   "theorems": [
    "SQ.C131_total",
    "SQ.C131_history",
    "SQ.C131_values",
    "SQ.C131_states",
    "SQ.C131_gradient",
    "SQ.C131_objective",
    "SQ.C131_constructed"
   ],
   "note": "Composition. The state of the interface at each evaluation is arbitrary among those reached by construction and any calls with determinants that have an electron (see C113); no mitigation; the device is ideal; the eigenvalue solver is exact. The objective is stated for a point that differs from the one evaluated last by at least 1e-14 somewhere, since the class returns the remembered value otherwise (C119)."
  },
  {
   "property": "C132",
   "status": "proved",
   "theorems": [
    "SQ.C132_matrix",
    "SQ.C132_expectation",
    "SQ.C132_csfs",
    "SQ.C132_again",
    "SQ.C132_stale_disagree"
   ],
   "note": "The matrix of read-out errors is the same in all runs, has a non-zero diagonal and is invertible; probabilities are exact (unlimited shots). The calibration without the ansatz, without circuit_M and without a layout is modelled. A failing calibration leaves the previous matrix in Python and the failing one in the model; it cannot fail under the hypotheses with at most 8 qubits. The two defects are C132_stale_disagree and the second part of C132_again."
  },
  {
   "property": "C133",
   "status": "proved",
   "theorems": [
    "SQ.C133_orders",
    "SQ.C133_reached",
    "SQ.C133_elements",
    "SQ.C133_matrices",
    "SQ.C133_runs"
   ],
   "note": "With a sampler; the TypeError for other primitives is not modelled. The order in which Python takes the elements out of the set is a parameter. Without active orbitals the code raises TypeError (len(None)); modelled. That the values are exact on an ideal device follows from C133_reached and C113_expectation."
  },
  {
   "property": "C134",
   "status": "proved",
   "theorems": [
    "SQ.C134_naive",
    "SQ.C134_projected",
    "SQ.C134_all_projected",
    "SQ.C134_naive_dipoles",
    "SQ.C134_projected_dipoles",
    "SQ.C134_all_projected_dipoles",
    "SQ.C134_interface"
   ],
   "note": "The state vector classes refuse large gradients, so the statements begin where they have been built. Without do_rdm the upper triangle of the orbital block is the mirror image in the quantum class (C104). The eigenvalue solver is a parameter, the same on both sides."
  },
  {
   "property": "C135",
   "status": "proved",
   "theorems": [
    "SQ.C135_excitation",
    "SQ.C135_layout",
    "SQ.C135_mappers",
    "SQ.C135_agree",
    "SQ.C135_structures",
    "SQ.C135_rejected"
   ],
   "note": "The mapper of qiskit_nature is a parameter with the contract PauliMapper (Spec/Trotter.lean), shown to be satisfiable for the Jordan-Wigner and the parity encoding. Mappers that drop qubits (the two-qubit reduction of the parity mapper, tapered mappers) are not covered, nor excitations that change the spin, nor index lists with repeated indices (the operator is zero there). PauliEvolutionGate is exp(-i t P)."
  },
  {
   "property": "C136",
   "status": "proved",
   "theorems": [
    "SQ.C136_deviation",
    "SQ.C136_unbiased"
   ],
   "note": "quantum_variance is a parameter, the variance of the estimate (C76 says what it computes). A single measurement per operator and run: the estimate of an operator that occurs twice is the same number. The matrices of run with density matrices come from other measurements and are not covered, nor is no_coeffs=True, which returns other numbers on purpose."
  },
  {
   "property": "C137",
   "status": "partial",
   "theorems": [
    "SQ.C137_transparent",
    "SQ.C137_calls",
    "SQ.C137_current",
    "SQ.C137_options",
    "SQ.C137_matrix_partial",
    "SQ.C137_unknown_option_disagree",
    "SQ.C137_isa_off_disagree",
    "SQ.C137_matrix_disagree"
   ],
   "note": "Proved for all histories that do not switch ISA off (C137_transparent, C137_calls, C137_current, C137_options). False: ISA = False after a transpilation keeps the transpiled circuit and reads it in the wrong order (C137_isa_off_disagree); a refused option stays and makes every later update fail (C137_unknown_option_disagree); a new layout keeps the read-out matrix of the old qubits and the layout check passes (C137_matrix_disagree), proved if shots are set after each change (C137_matrix_partial). That pass managers keep the meaning of circuits is a hypothesis (FaithfulManagers); superposition circuits are treated in C138."
  },
  {
   "property": "C138",
   "status": "proved",
   "theorems": [
    "SQ.C138_determinants",
    "SQ.C138_superpositions",
    "SQ.C138_available",
    "SQ.C138_fixed_order",
    "SQ.C138_corrected",
    "SQ.C138_no_backend_disagree"
   ],
   "note": "The contract of the pass managers is the hypothesis FaithfulStages. Options 3 and 4 raise an AttributeError without a backend (C138_no_backend_disagree) and may run forever on devices with cycles (C53_ring_disagree). Circuits with do_M_ansatz0_plus on a layout are not covered."
  },
  {
   "property": "C139",
   "status": "partial",
   "theorems": [
    "SQ.C139_projected_partial",
    "SQ.C139_all_projected_partial",
    "SQ.C139_after_run",
    "SQ.C139_diagonal_disagree"
   ],
   "note": "Violated by the code on the diagonal of the active blocks: the variance of the square of a measured number is reported as if its two factors were independent (C139_diagonal_disagree gives, for every wave function with an active operator, independent estimates for which the diagonal of the metric scatters more than reported). Proved for all other entries. For A and B of two active operators the products in an entry are correlated and the code adds their variances; the proved bounds are four and two times the reported variance. The values of run_std are taken at the true means; with measured means they scatter themselves."
  },
  {
   "property": "C140",
   "status": "partial",
   "theorems": [
    "SQ.C140_naive",
    "SQ.C140_projected",
    "SQ.C140_all_projected_partial",
    "SQ.C140_active_disagree"
   ],
   "note": "Proved for naive and projected linear response, and for all-projected linear response but for entries of B with two different active operators. For these allprojected.py:194 assigns where it should add, so that the labels of the Hamiltonian times the first operator are lost; C140_active_disagree shows that such an entry is then not fixed by the labels listed for it."
  },
  {
   "property": "C141",
   "status": "partial",
   "theorems": [
    "SQ.C141_returns_partial",
    "SQ.C141_largest_partial",
    "SQ.C141_stops",
    "SQ.C141_one_parameter_disagree",
    "SQ.C141_naive_partial",
    "SQ.C141_trend_partial",
    "SQ.C141_trend_between",
    "SQ.C141_cv_missing_disagree",
    "SQ.C141_cv_nan_disagree",
    "SQ.C141_all_projected_disagree"
   ],
   "note": "Violated by the code with exactly one response parameter: the analysis prints the four largest of one entry and run_std raises IndexError after all measurements (C141_one_parameter_disagree); proved for two or more. The trend of coefficients of variation raises AttributeError when a matrix has fewer entries that are not small than rows (C141_cv_missing_disagree), and is nan when one row has none (C141_cv_nan_disagree), as B has in all-projected linear response for every orbital rotation. Condition numbers and the formatting of what is printed are not modelled; a metric is singular here if its determinant is zero."
  },
  {
   "property": "C142",
   "status": "proved",
   "theorems": [
    "SQ.C142_all",
    "SQ.C142_limit",
    "SQ.C142_states"
   ],
   "note": "argsort is a parameter that sorts; equal values may come in any order. Headers and the formatting of numbers are not modelled."
  },
  {
   "property": "C143",
   "status": "partial",
   "theorems": [
    "SQ.C143_ups_partial",
    "SQ.C143_integers",
    "SQ.C143_rounds_disagree",
    "SQ.C143_sa_partial",
    "SQ.C143_sa_count_disagree",
    "SQ.C143_ups_roto_partial",
    "SQ.C143_sa_roto_partial"
   ],
   "note": "Proved for parameters given as floats. Violated if all parameters are Python ints (thetas = [0, 0]): the shift is stored in an array of integers, and the energies are those at the shifts rounded towards zero (C143_integers, C143_rounds_disagree). The state-averaged evaluator counts one evaluation per state however many shifts there are (C143_sa_count_disagree). Exact cut-offs and arithmetic; the minimization along one parameter is that of C42."
  },
  {
   "property": "C144",
   "status": "proved",
   "theorems": [
    "SQ.C144_derivative",
    "SQ.C144_returns",
    "SQ.C144_best",
    "SQ.C144_descent",
    "SQ.C144_objective",
    "SQ.C144_circuit_returns",
    "SQ.C144_circuit"
   ],
   "note": "The minimization along one parameter is a parameter of the model, asked to find a lowest point in the period (one exists: findsLowest_exists); SciPy's is not modelled. The derivative is exact away from the cut-off 1e-12 of the sinc derivative. The reconstructed function is the mean times number of states over number of sampled points (C44_states_disagree), which leaves the lowest points where they are."
  },
  {
   "property": "C145",
   "status": "proved",
   "theorems": [
    "SQ.C145_objective",
    "SQ.C145_line",
    "SQ.C145_sa_line",
    "SQ.C145_circuit",
    "SQ.C145_stationary",
    "SQ.C145_sa_stationary"
   ],
   "note": "The minimization along one parameter is a parameter of the model, asked to find a lowest point in the period (one exists: findsMinimum_exists); SciPy's is not modelled. The energy at the start is below 10**20, the value RotoSolve starts from. Exact cut-offs and arithmetic."
  },
  {
   "property": "C146",
   "status": "proved",
   "theorems": [
    "SQ.C146_classical",
    "SQ.C146_circuit",
    "SQ.C146_empty",
    "SQ.C146_formula_disagree"
   ],
   "note": "It holds for WaveFunctionUCC although its two-step optimization leaves orbital parameters behind (C40). The formula in the docstrings is another one than the code's (C146_formula_disagree). Exact arithmetic: printed zeros are exact zeros."
  },
  {
   "property": "C147",
   "status": "proved",
   "theorems": [
    "SQ.C147_lines",
    "SQ.C147_active",
    "SQ.C147_empty"
   ],
   "note": "The printed lines are data: layout and rounding of the coefficients to three digits are left out. C147_active: the lists of the constructor meet the hypothesis on the active spin orbitals; C107_proper: the objects meet the other ones."
  }
 ]
}
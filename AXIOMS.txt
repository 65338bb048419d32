C01_linear: [propext, Classical.choice, Quot.sound]
C02_threshold: [propext, Classical.choice, Quot.sound]
C03_inplace: [propext, Classical.choice, Quot.sound]
C03_put: [propext]
C04_normalOrder: [propext, Classical.choice, Quot.sound]
C04_mul: [propext, Classical.choice, Quot.sound]
C04_dagger: [propext, Classical.choice, Quot.sound]
C05_violated: [propext, Classical.choice, Quot.sound]
C05_partial: [propext, Classical.choice, Quot.sound]
C06_violated: [propext, Classical.choice, Quot.sound]
C06_partial: [propext, Classical.choice, Quot.sound]
C06_safe_partial: [propext, Classical.choice, Quot.sound]
C07_dagger: [propext, Classical.choice, Quot.sound]
C07_single_raises: [propext, Classical.choice, Quot.sound]
C08_commutators: [propext, Classical.choice, Quot.sound]
C08_symmetrized: [propext, Classical.choice, Quot.sound]
C09_spinfree: [propext, Classical.choice, Quot.sound]
C09_aOp: [propext, Classical.choice, Quot.sound]
C09_G: [propext, Classical.choice, Quot.sound]
C09_excite: [propext, Classical.choice, Quot.sound]
C10_spin: [propext, Classical.choice, Quot.sound]
C10_case_rejected: [propext, Classical.choice, Quot.sound]
C10_hamiltonians: [propext, Classical.choice, Quot.sound]
C10_number: [propext, Classical.choice, Quot.sound]
C11_form: [propext, Classical.choice, Quot.sound]
C11_hermitian: [propext, Classical.choice, Quot.sound]
C12_active: [propext, Classical.choice, Quot.sound]
C13_fold: [propext, Classical.choice, Quot.sound]
C13_nonconserving: [propext, Classical.choice, Quot.sound]
C13_range_needed: [propext]
C14_qiskit_form: [propext, Classical.choice, Quot.sound]
C14_out_of_range: [propext, Classical.choice, Quot.sound]
C15_intertwines: [propext, Classical.choice, Quot.sound]
C15_isometry: [propext, Classical.choice, Quot.sound]
C16_strings: [propext, Classical.choice, Quot.sound]
C16_nodup: [propext, Quot.sound]
C16_count: [propext, Quot.sound]
C16_negative: none
C17_space: [propext, Classical.choice, Quot.sound]
C17_count: [propext, Classical.choice, Quot.sound]
C17_no_orbitals_raises: none
C18_space: [propext, Classical.choice, Quot.sound]
C18_prefix: [propext, Classical.choice, Quot.sound]
C18_order_raises: [propext, Quot.sound]
C18_low_orders: [propext, Quot.sound]
C19_bitcount: [propext, Classical.choice, Quot.sound]
C19_all_bits: [propext, Classical.choice, Quot.sound]
C20_apply: [propext, Classical.choice, Quot.sound]
C20_apply_threaded: [propext, Classical.choice, Quot.sound]
C20_expectation: [propext, Classical.choice, Quot.sound]
C20_nonconserving: [propext, Classical.choice, Quot.sound]
C20_no_overflow: [propext, Classical.choice, Quot.sound]
C21_raises: [propext, Classical.choice, Quot.sound]
C21_threaded_disagrees: [propext, Quot.sound]
C21_threaded_unsafe_partial: [propext, Quot.sound]
C22_threads: [propext, Classical.choice, Quot.sound]
C22_schedules: [propext, Classical.choice, Quot.sound]
C23_matrix: [propext, Classical.choice, Quot.sound]
C23_entries: [propext, Classical.choice, Quot.sound]
C24_rows: [propext, Classical.choice, Quot.sound]
C24_mean: [propext, Classical.choice, Quot.sound]
C24_with_ansatz: [propext, Classical.choice, Quot.sound]
C25_right_to_left: [propext, Quot.sound]
C25_names: [propext, Classical.choice, Quot.sound]
C26_spaces: [propext, Classical.choice, Quot.sound]
C26_factor: [propext, Classical.choice, Quot.sound]
C26_state: [propext, Classical.choice, Quot.sound]
C26_unique: [propext, Classical.choice, Quot.sound]
C26_errors: [propext, Classical.choice, Quot.sound]
C26_ensemble: [propext, Classical.choice, Quot.sound]
C27_norm: [propext, Classical.choice, Quot.sound]
C27_inverse: [propext, Classical.choice, Quot.sound]
C28_stepwise: [propext, Classical.choice, Quot.sound]
C28_range: [propext, Classical.choice, Quot.sound]
C29_ups: [propext, Classical.choice, Quot.sound]
C29_ucc: [propext, Classical.choice, Quot.sound]
C29_sa: [propext, Classical.choice, Quot.sound]
C30_reference: [propext, Classical.choice, Quot.sound]
C30_full: [propext, Classical.choice, Quot.sound]
C31_ups: [propext, Classical.choice, Quot.sound]
C31_energy: [propext, Classical.choice, Quot.sound]
C32_gradient: [propext, Classical.choice, Quot.sound]
C32_response: [propext, Classical.choice, Quot.sound]
C33_metric: [propext, Classical.choice, Quot.sound]
C33_norm: [propext, Classical.choice, Quot.sound]
C33_property: [propext, Classical.choice, Quot.sound]
C34_hessian: [propext, Classical.choice, Quot.sound]
C35_spin: [propext, Classical.choice, Quot.sound]
C35_sa_singles_pairs: [propext, Classical.choice, Quot.sound]
C35_sa_doubles: [propext, Classical.choice, Quot.sound]
C35_generalized_singles: [propext, Classical.choice, Quot.sound]
C35_generalized_doubles: [propext, Classical.choice, Quot.sound]
C35_generalized_doubles_disagree: [propext, Classical.choice, Quot.sound]
C36_ups_consistent: [propext, Classical.choice, Quot.sound]
C36_ups_layout: [propext, Classical.choice, Quot.sound]
C36_wave_function_lists: [propext, Classical.choice, Quot.sound]
C36_fucc_content: [propext, Classical.choice, Quot.sound]
C36_tiled_count: [propext, Classical.choice, Quot.sound]
C36_sds_pair_doubles_disagree: [propext, Classical.choice, Quot.sound]
C36_ucc: [propext, Classical.choice, Quot.sound]
C37_tiled: [propext, Classical.choice, Quot.sound]
C37_fucc: [propext, Classical.choice, Quot.sound]
C37_sds: [propext, Classical.choice, Quot.sound]
C38_spin_orbitals: [propext, Classical.choice, Quot.sound]
C38_orbitals: [propext, Classical.choice, Quot.sound]
C38_errors: [propext, Classical.choice, Quot.sound]
C38_kappa: [propext, Classical.choice, Quot.sound]
C38_odd_electrons_disagree: [propext, Quot.sound]
C38_oversized_disagree: [propext, Quot.sound]
C39_reads: [propext, Classical.choice, Quot.sound]
C39_fresh_disagree: [propext, Classical.choice, Quot.sound]
C39_length_disagree: [propext, Classical.choice, Quot.sound]
C40_history_partial: [propext, Classical.choice, Quot.sound]
C40_reported: [propext, Classical.choice, Quot.sound]
C40_ucc_disagree: [propext, Classical.choice, Quot.sound]
C41_calls: [propext, Classical.choice, Quot.sound]
C41_memo_disagree: [propext, Classical.choice, Quot.sound]
C41_path_disagree: [propext, Classical.choice, Quot.sound]
C41_result_ignored: [propext, Classical.choice, Quot.sound]
C42_best: [propext, Classical.choice, Quot.sound]
C42_threshold_disagree: [propext, Classical.choice, Quot.sound]
C42_descent: [propext, Classical.choice, Quot.sound]
C43_wrap: [propext, Classical.choice, Quot.sound]
C43_wrap_only: [propext, Classical.choice, Quot.sound]
C44_exact: [propext, Classical.choice, Quot.sound]
C44_period: [propext, Classical.choice, Quot.sound]
C44_states: [propext, Classical.choice, Quot.sound]
C44_states_disagree: [propext, Classical.choice, Quot.sound]
C44_derivative: [propext, Classical.choice, Quot.sound]
C45_gradient: [propext, Classical.choice, Quot.sound]
C46_fit: [propext, Classical.choice, Quot.sound]
C46_history: [propext, Classical.choice, Quot.sound]
C46_measure: [propext, Classical.choice, Quot.sound]
C46_overwrite: [propext, Classical.choice, Quot.sound]
C46_groups: [propext, Classical.choice, Quot.sound]
C47_consistent: [propext, Quot.sound]
C47_update: [propext, Quot.sound]
C47_single: [propext]
C47_to_int: [propext]
C47_constructor_disagree: [propext]
C48_sign: [propext, Classical.choice, Quot.sound]
C48_expectation: [propext, Classical.choice, Quot.sound]
C48_errors: [propext, Quot.sound]
C49_swap_indices: [propext, Classical.choice, Quot.sound]
C49_out_of_range: [propext, Quot.sound]
C50_find_swaps: [propext, Classical.choice, Quot.sound]
C50_short: [propext, Classical.choice, Quot.sound]
C50_longer_disagree: [propext]
C51_v2: [propext, Classical.choice, Quot.sound]
C51_outcomes: [propext, Classical.choice, Quot.sound]
C51_v1_partial: [propext, Classical.choice, Quot.sound]
C51_v1_disagree: [propext, Classical.choice, Quot.sound]
C52_best_path: [propext, Classical.choice, Quot.sound]
C53_on_return: [propext, Classical.choice, Quot.sound]
C53_size: [propext]
C53_tree_partial: [propext, Classical.choice, Quot.sound]
C53_ring_disagree: [propext, Classical.choice, Quot.sound]
C53_docstring_disagree: [propext, Classical.choice, Quot.sound]
C54_jw: [propext, Classical.choice, Quot.sound]
C54_parity_partial: [propext, Classical.choice, Quot.sound]
C54_mapper: [propext, Classical.choice, Quot.sound]
C54_parity_exchanged: [propext, Classical.choice, Quot.sound]
C54_parity_odd_disagree: [propext, Classical.choice, Quot.sound]
C54_parity_even_disagree: [propext, Classical.choice, Quot.sound]
C54_parity_full_disagree: [propext, Classical.choice, Quot.sound]
C55_superposition: [propext, Classical.choice, Quot.sound]
C55_determinant: [propext, Classical.choice, Quot.sound]
C55_mapper: none
C56_bilinear: [propext, Classical.choice, Quot.sound]
C56_real: [propext, Classical.choice, Quot.sound]
C56_reverse_disagree: [propext, Classical.choice, Quot.sound]
C57_consistent: [propext, Classical.choice, Quot.sound]
C57_request: [propext, Classical.choice, Quot.sound]
C57_max: [propext, Classical.choice, Quot.sound]
C58_fresh: [propext, Classical.choice, Quot.sound]
C58_parameters: [propext, Classical.choice, Quot.sound]
C58_alias_disagree: [propext, Classical.choice, Quot.sound]
C59_expansion: [propext, Classical.choice, Quot.sound]
C60_table: [propext, Classical.choice, Quot.sound]
C60_exact: [propext, Classical.choice, Quot.sound]
C61_filled: [propext, Classical.choice, Quot.sound]
C61_numbers: [propext, Classical.choice, Quot.sound]
C61_symmetric: [propext, Classical.choice, Quot.sound]
C61_screened: [propext, Classical.choice, Quot.sound]
C62_compose: [propext, Classical.choice, Quot.sound]
C62_identity: [propext, Classical.choice, Quot.sound]
C62_symmetry: [propext, Classical.choice, Quot.sound]
C62_contract: [propext, Classical.choice, Quot.sound]
C63_numbering: [propext, Classical.choice, Quot.sound]
C64_counts: [propext, Classical.choice, Quot.sound]
C64_negative_disagree: [propext, Classical.choice, Quot.sound]
C65_history: [propext, Classical.choice, Quot.sound]
C65_weights: [propext, Classical.choice, Quot.sound]
C65_singular_disagree: [propext, Classical.choice, Quot.sound]
C66_density: [propext, Classical.choice, Quot.sound]
C66_odd_disagree: [propext, Classical.choice, Quot.sound]
C66_small_disagree: [propext, Classical.choice, Quot.sound]
C66_orbitals: [propext, Classical.choice, Quot.sound]
C66_converged: [propext, Classical.choice, Quot.sound]
C66_energy: [propext, Classical.choice, Quot.sound]
C66_total: [propext, Classical.choice, Quot.sound]
C66_one_function_disagree: [propext, Classical.choice, Quot.sound]
C67_pairs: [propext, Classical.choice, Quot.sound]
C67_check: [propext, Classical.choice, Quot.sound]
C67_energies: [propext, Classical.choice, Quot.sound]
C67_norm: [propext, Classical.choice, Quot.sound]
C67_norm_disagree: [propext, Classical.choice, Quot.sound]
C67_orthogonal: [propext, Classical.choice, Quot.sound]
C67_strengths: [propext, Classical.choice, Quot.sound]
C68_reads: [propext, Classical.choice, Quot.sound]
C68_threshold_disagree: [propext, Classical.choice, Quot.sound]
C68_facade_partial: [propext, Classical.choice, Quot.sound]
C68_facade_disagree: [propext, Classical.choice, Quot.sound]
C68_manager: [propext, Classical.choice, Quot.sound]
C68_manager_unknown: [propext, Classical.choice, Quot.sound]
C69_readable: [propext, Classical.choice, Quot.sound]
C69_get_info: [propext, Classical.choice, Quot.sound]
C70_folded: [propext, Classical.choice, Quot.sound]
C70_hamiltonian: [propext, Classical.choice, Quot.sound]
C70_energy: [propext, Classical.choice, Quot.sound]
C71_gradient: [propext, Classical.choice, Quot.sound]
C71_program: [propext, Classical.choice, Quot.sound]
C72_exponential: [propext, Classical.choice, Quot.sound]
C72_norm: [propext, Classical.choice, Quot.sound]
C72_inverse: [propext, Classical.choice, Quot.sound]
C72_errors: [propext, Classical.choice, Quot.sound]
C73_hartree_fock: [propext, Classical.choice, Quot.sound]
C73_perfect_pairing: [propext, Classical.choice, Quot.sound]
C73_columns: [propext, Classical.choice, Quot.sound]
C74_measured_partial: [propext, Classical.choice, Quot.sound]
C74_disagree: [propext, Classical.choice, Quot.sound]
C75_average: [propext, Classical.choice, Quot.sound]
C75_counts: [propext, Classical.choice, Quot.sound]
C76_separate: [propext, Classical.choice, Quot.sound]
C76_groups: [propext, Classical.choice, Quot.sound]
C76_uncorrelated: [propext, Classical.choice, Quot.sound]
C76_no_coeffs_disagree: [propext, Classical.choice, Quot.sound]
C77_orthonormal: [propext, Classical.choice, Quot.sound]
C78_array_disagree: [propext, Classical.choice, Quot.sound]
C78_twice_disagree: [propext, Classical.choice, Quot.sound]
C78_circuit_disagree: [propext, Classical.choice, Quot.sound]
C79_read_partial: [propext, Classical.choice, Quot.sound]
C79_dropped_disagree: [propext, Classical.choice, Quot.sound]
C80_pairs: [propext, Classical.choice, Quot.sound]
C80_invariant: [propext, Classical.choice, Quot.sound]
C81_densities: [propext, Classical.choice, Quot.sound]
C81_full_disagree: [propext, Classical.choice, Quot.sound]
C81_fock: [propext, Classical.choice, Quot.sound]
C81_energy: [propext, Classical.choice, Quot.sound]
C81_start: [propext, Classical.choice, Quot.sound]
C81_lumo_disagree: [propext, Classical.choice, Quot.sound]
C82_contamination: [propext, Classical.choice, Quot.sound]
C82_minority_disagree: [propext, Classical.choice, Quot.sound]
C83_multipole: [propext, Classical.choice, Quot.sound]
C83_overlap: [propext, Classical.choice, Quot.sound]
C84_kinetic: [propext, Classical.choice, Quot.sound]
C85_functions: [propext, Classical.choice, Quot.sound]
C85_overlap_diagonal: [propext, Classical.choice, Quot.sound]
C85_files: [propext, Classical.choice, Quot.sound]
C86_attraction: [propext, Classical.choice, Quot.sound]
C86_symmetric: [propext, Classical.choice, Quot.sound]
C87_repulsion: [propext, Classical.choice, Quot.sound]
C87_default: [propext, Classical.choice, Quot.sound]
C88_accuracy: [propext, Classical.choice, Quot.sound]
C88_low_orders: [propext, Classical.choice, Quot.sound]
C88_cutoff_disagree: [propext, Classical.choice, Quot.sound]
C88_factor_disagree: [propext, Classical.choice, Quot.sound]
C89_excitation: [propext, Classical.choice, Quot.sound]
C89_unique: [propext, Classical.choice, Quot.sound]
C89_overlap: [propext, Classical.choice, Quot.sound]
C89_rejected: [propext, Classical.choice, Quot.sound]
C90_layout: [propext, Classical.choice, Quot.sound]
C90_order: [propext, Classical.choice, Quot.sound]
C90_structures: [propext, Classical.choice, Quot.sound]
C90_wave_function_lists: [propext, Classical.choice, Quot.sound]
C90_generalized_doubles_disagree: [propext, Classical.choice, Quot.sound]
C91_same_state: [propext, Classical.choice, Quot.sound]
C92_degree: [propext, Classical.choice, Quot.sound]
C92_circuit: [propext, Classical.choice, Quot.sound]
C92_gradient: [propext, Classical.choice, Quot.sound]
C92_rotosolve: [propext, Classical.choice, Quot.sound]
C93_single: [propext, Classical.choice, Quot.sound]
C93_property: [propext, Classical.choice, Quot.sound]
C93_double: [propext, Classical.choice, Quot.sound]
C93_reach: [propext, Classical.choice, Quot.sound]
C94_operators: [propext, Classical.choice, Quot.sound]
C94_naive: [propext, Classical.choice, Quot.sound]
C94_proper: [propext, Classical.choice, Quot.sound]
C95_projected: [propext, Classical.choice, Quot.sound]
C95_energy: [propext, Classical.choice, Quot.sound]
C96_states: [propext, Classical.choice, Quot.sound]
C96_transfer: [propext, Classical.choice, Quot.sound]
C96_rotates: [propext, Classical.choice, Quot.sound]
C96_pairing_disagree: [propext, Classical.choice, Quot.sound]
C97_projected_transfer: [propext, Classical.choice, Quot.sound]
C98_naive: [propext, Classical.choice, Quot.sound]
C98_projected: [propext, Classical.choice, Quot.sound]
C98_transfer: [propext, Classical.choice, Quot.sound]
C98_projected_transfer: [propext, Classical.choice, Quot.sound]
C98_strengths: [propext, Classical.choice, Quot.sound]
C99_all_projected: [propext, Classical.choice, Quot.sound]
C99_dipoles: [propext, Classical.choice, Quot.sound]
C100_rotates: [propext, Classical.choice, Quot.sound]
C100_selfconsistent: [propext, Classical.choice, Quot.sound]
C101_states: [propext, Classical.choice, Quot.sound]
C101_all_transfer: [propext, Classical.choice, Quot.sound]
C102_all_selfconsistent: [propext, Classical.choice, Quot.sound]
C103_selfconsistent: [propext, Classical.choice, Quot.sound]
C103_all_transfer: [propext, Classical.choice, Quot.sound]
C103_all_selfconsistent: [propext, Classical.choice, Quot.sound]
C104_naive: [propext, Classical.choice, Quot.sound]
C104_mirror: [propext, Classical.choice, Quot.sound]
C105_projected: [propext, Classical.choice, Quot.sound]
C106_all_projected: [propext, Classical.choice, Quot.sound]
C107_circuit: [propext, Classical.choice, Quot.sound]
C107_proper: [propext, Classical.choice, Quot.sound]
C108_ups: [propext, Classical.choice, Quot.sound]
C108_ucc: [propext, Classical.choice, Quot.sound]
C108_circuit: [propext, Classical.choice, Quot.sound]
C108_trace: [propext, Classical.choice, Quot.sound]
C109_naive: [propext, Classical.choice, Quot.sound]
C109_projected: [propext, Classical.choice, Quot.sound]
C109_all_projected: [propext, Classical.choice, Quot.sound]
C109_solves: [propext, Classical.choice, Quot.sound]
C109_orbital_only_disagree: [propext, Classical.choice, Quot.sound]
C110_start: [propext, Classical.choice, Quot.sound]
C110_met: [propext, Classical.choice, Quot.sound]
C110_expansion: [propext, Classical.choice, Quot.sound]
C110_transfer: [propext, Classical.choice, Quot.sound]
C111_selfconsistent: [propext, Classical.choice, Quot.sound]
C112_transfer: [propext, Classical.choice, Quot.sound]
C112_selfconsistent: [propext, Classical.choice, Quot.sound]
C112_skip_disagree: [propext, Classical.choice, Quot.sound]
C113_expectation: [propext, Classical.choice, Quot.sound]
C113_csfs: [propext, Classical.choice, Quot.sound]
C113_again: [propext, Classical.choice, Quot.sound]
C113_pairing_disagree: [propext, Classical.choice, Quot.sound]
C113_vacuum_disagree: [propext, Classical.choice, Quot.sound]
C114_sound: [propext, Classical.choice, Quot.sound]
C114_gradient: [propext, Classical.choice, Quot.sound]
C114_expectation: [propext, Classical.choice, Quot.sound]
C114_csfs: [propext, Classical.choice, Quot.sound]
C115_agree: [propext, Classical.choice, Quot.sound]
C115_circuit: [propext, Classical.choice, Quot.sound]
C115_content: [propext, Classical.choice, Quot.sound]
C115_twice: [propext, Classical.choice, Quot.sound]
C115_ucc: [propext, Classical.choice, Quot.sound]
C115_names_disagree: [propext, Classical.choice, Quot.sound]
C115_shared_disagree: [propext, Classical.choice, Quot.sound]
C115_pairing_disagree: [propext, Classical.choice, Quot.sound]
C116_states: [propext, Classical.choice, Quot.sound]
C116_excitations: [propext, Classical.choice, Quot.sound]
C116_transition: [propext, Classical.choice, Quot.sound]
C116_strengths: [propext, Classical.choice, Quot.sound]
C116_average: [propext, Classical.choice, Quot.sound]
C116_vectors: [propext, Classical.choice, Quot.sound]
C116_orthonormal: [propext, Classical.choice, Quot.sound]
C116_class: [propext, Classical.choice, Quot.sound]
C117_averages: [propext, Classical.choice, Quot.sound]
C117_interface: [propext, Classical.choice, Quot.sound]
C117_energy: [propext, Classical.choice, Quot.sound]
C117_same: [propext, Classical.choice, Quot.sound]
C117_gradient: [propext, Classical.choice, Quot.sound]
C118_reads: [propext, Classical.choice, Quot.sound]
C118_refused: [propext, Classical.choice, Quot.sound]
C118_history: [propext, Classical.choice, Quot.sound]
C118_reported: [propext, Classical.choice, Quot.sound]
C119_transition_partial: [propext, Classical.choice, Quot.sound]
C119_thetas_partial: [propext, Classical.choice, Quot.sound]
C119_stale: [propext, Classical.choice, Quot.sound]
C119_stale_primitive: [propext, Classical.choice, Quot.sound]
C119_fresh_disagree: [propext, Classical.choice, Quot.sound]
C119_stale_disagree: [propext, Classical.choice, Quot.sound]
C120_expectation: [propext, Classical.choice, Quot.sound]
C120_ups: [propext, Classical.choice, Quot.sound]
C120_energy: [propext, Classical.choice, Quot.sound]
C120_sa: [propext, Classical.choice, Quot.sound]
C120_sa_energy: [propext, Classical.choice, Quot.sound]
C120_refused: [propext, Classical.choice, Quot.sound]
C120_length: [propext, Classical.choice, Quot.sound]
C121_rows: [propext, Classical.choice, Quot.sound]
C121_accepts: [propext, Classical.choice, Quot.sound]
C121_refused: [propext, Classical.choice, Quot.sound]
C121_duplicate_disagree: [propext, Classical.choice, Quot.sound]
C122_ups: [propext, Classical.choice, Quot.sound]
C122_ucc: [propext, Classical.choice, Quot.sound]
C122_structures: [propext, Classical.choice, Quot.sound]
C122_ucc_structures: [propext, Classical.choice, Quot.sound]
C122_closed_shell: [propext, Classical.choice, Quot.sound]
C122_singlet: [propext, Classical.choice, Quot.sound]
C122_hamiltonian: [propext, Classical.choice, Quot.sound]
C122_single_needed: [propext, Classical.choice, Quot.sound]
C123_gradient: [propext, Classical.choice, Quot.sound]
C123_object: [propext, Classical.choice, Quot.sound]
C123_objective: [propext, Classical.choice, Quot.sound]
C124_elements: none
C124_masses: [propext, Classical.choice, Quot.sound]
C124_text: [propext, Classical.choice, Quot.sound]
C124_xyz: [propext, Classical.choice, Quot.sound]
C124_refused: [propext, Classical.choice, Quot.sound]
C124_line_errors: [propext, Classical.choice, Quot.sound]
C124_units: [propext, Classical.choice, Quot.sound]
C124_mass_disagree: [propext, Classical.choice, Quot.sound]
C125_session: [propext, Classical.choice, Quot.sound]
C125_mixed_disagree: [propext, Classical.choice, Quot.sound]
C125_failed_disagree: [propext, Classical.choice, Quot.sound]
C126_printed_partial: [propext, Quot.sound]
C126_log_disagree: [propext]
C127_total: [propext, Classical.choice, Quot.sound]
C127_physical: [propext, Classical.choice, Quot.sound]
C127_values: [propext, Classical.choice, Quot.sound]
C127_gradient: [propext, Classical.choice, Quot.sound]
C127_constructed: [propext, Classical.choice, Quot.sound]
C128_total: [propext, Classical.choice, Quot.sound]
C128_physical: [propext, Classical.choice, Quot.sound]
C128_values: [propext, Classical.choice, Quot.sound]
C128_gradient: [propext, Classical.choice, Quot.sound]
C128_constructed: [propext, Classical.choice, Quot.sound]
C129_constructed: [propext, Classical.choice, Quot.sound]
C129_total: [propext, Classical.choice, Quot.sound]
C129_physical: [propext, Classical.choice, Quot.sound]
C129_values: [propext, Classical.choice, Quot.sound]
C129_gradient: [propext, Classical.choice, Quot.sound]
C130_total: [propext, Classical.choice, Quot.sound]
C130_history: [propext, Classical.choice, Quot.sound]
C130_values: [propext, Classical.choice, Quot.sound]
C130_gradient: [propext, Classical.choice, Quot.sound]
C130_objective: [propext, Classical.choice, Quot.sound]
C130_constructed: [propext, Classical.choice, Quot.sound]
C131_total: [propext, Classical.choice, Quot.sound]
C131_history: [propext, Classical.choice, Quot.sound]
C131_values: [propext, Classical.choice, Quot.sound]
C131_states: [propext, Classical.choice, Quot.sound]
C131_gradient: [propext, Classical.choice, Quot.sound]
C131_objective: [propext, Classical.choice, Quot.sound]
C131_constructed: [propext, Classical.choice, Quot.sound]
C132_matrix: [propext, Classical.choice, Quot.sound]
C132_expectation: [propext, Classical.choice, Quot.sound]
C132_csfs: [propext, Classical.choice, Quot.sound]
C132_again: [propext, Classical.choice, Quot.sound]
C132_stale_disagree: [propext, Classical.choice, Quot.sound]
C133_orders: [propext, Classical.choice, Quot.sound]
C133_reached: [propext, Classical.choice, Quot.sound]
C133_elements: [propext, Classical.choice, Quot.sound]
C133_matrices: [propext, Classical.choice, Quot.sound]
C133_runs: [propext, Classical.choice, Quot.sound]
C134_naive: [propext, Classical.choice, Quot.sound]
C134_projected: [propext, Classical.choice, Quot.sound]
C134_all_projected: [propext, Classical.choice, Quot.sound]
C134_naive_dipoles: [propext, Classical.choice, Quot.sound]
C134_projected_dipoles: [propext, Classical.choice, Quot.sound]
C134_all_projected_dipoles: [propext, Classical.choice, Quot.sound]
C134_interface: [propext, Classical.choice, Quot.sound]
C135_excitation: [propext, Classical.choice, Quot.sound]
C135_layout: [propext, Classical.choice, Quot.sound]
C135_mappers: [propext, Classical.choice, Quot.sound]
C135_agree: [propext, Classical.choice, Quot.sound]
C135_structures: [propext, Classical.choice, Quot.sound]
C135_rejected: [propext, Classical.choice, Quot.sound]
C136_deviation: [propext, Classical.choice, Quot.sound]
C136_unbiased: [propext, Classical.choice, Quot.sound]
C137_transparent: [propext, Classical.choice, Quot.sound]
C137_calls: [propext, Classical.choice, Quot.sound]
C137_current: [propext, Classical.choice, Quot.sound]
C137_options: [propext, Classical.choice, Quot.sound]
C137_matrix_partial: [propext, Classical.choice, Quot.sound]
C137_unknown_option_disagree: [propext, Classical.choice, Quot.sound]
C137_isa_off_disagree: [propext, Classical.choice, Quot.sound]
C137_matrix_disagree: [propext, Classical.choice, Quot.sound]
C138_determinants: [propext, Classical.choice, Quot.sound]
C138_superpositions: [propext, Classical.choice, Quot.sound]
C138_available: [propext, Classical.choice, Quot.sound]
C138_fixed_order: [propext, Classical.choice, Quot.sound]
C138_corrected: [propext, Classical.choice, Quot.sound]
C138_no_backend_disagree: [propext, Classical.choice, Quot.sound]
C139_projected_partial: [propext, Classical.choice, Quot.sound]
C139_all_projected_partial: [propext, Classical.choice, Quot.sound]
C139_after_run: [propext, Classical.choice, Quot.sound]
C139_diagonal_disagree: [propext, Classical.choice, Quot.sound]
C140_naive: [propext, Classical.choice, Quot.sound]
C140_projected: [propext, Classical.choice, Quot.sound]
C140_all_projected_partial: [propext, Classical.choice, Quot.sound]
C140_active_disagree: [propext, Classical.choice, Quot.sound]
C141_returns_partial: [propext, Classical.choice, Quot.sound]
C141_largest_partial: [propext, Classical.choice, Quot.sound]
C141_stops: [propext, Classical.choice, Quot.sound]
C141_one_parameter_disagree: [propext, Classical.choice, Quot.sound]
C141_naive_partial: [propext, Classical.choice, Quot.sound]
C141_trend_partial: [propext, Classical.choice, Quot.sound]
C141_trend_between: [propext, Classical.choice, Quot.sound]
C141_cv_missing_disagree: [propext, Classical.choice, Quot.sound]
C141_cv_nan_disagree: [propext, Classical.choice, Quot.sound]
C141_all_projected_disagree: [propext, Classical.choice, Quot.sound]
C142_all: [propext, Classical.choice, Quot.sound]
C142_limit: [propext, Classical.choice, Quot.sound]
C142_states: [propext, Classical.choice, Quot.sound]
C143_ups_partial: [propext, Classical.choice, Quot.sound]
C143_integers: [propext, Classical.choice, Quot.sound]
C143_rounds_disagree: [propext, Classical.choice, Quot.sound]
C143_sa_partial: [propext, Classical.choice, Quot.sound]
C143_sa_count_disagree: [propext, Classical.choice, Quot.sound]
C143_ups_roto_partial: [propext, Classical.choice, Quot.sound]
C143_sa_roto_partial: [propext, Classical.choice, Quot.sound]
C144_derivative: [propext, Classical.choice, Quot.sound]
C144_returns: [propext, Classical.choice, Quot.sound]
C144_best: [propext, Classical.choice, Quot.sound]
C144_descent: [propext, Classical.choice, Quot.sound]
C144_objective: [propext, Classical.choice, Quot.sound]
C144_circuit_returns: [propext, Classical.choice, Quot.sound]
C144_circuit: [propext, Classical.choice, Quot.sound]
C145_objective: [propext, Classical.choice, Quot.sound]
C145_line: [propext, Classical.choice, Quot.sound]
C145_sa_line: [propext, Classical.choice, Quot.sound]
C145_circuit: [propext, Classical.choice, Quot.sound]
C145_stationary: [propext, Classical.choice, Quot.sound]
C145_sa_stationary: [propext, Classical.choice, Quot.sound]
C146_classical: [propext, Classical.choice, Quot.sound]
C146_circuit: [propext, Classical.choice, Quot.sound]
C146_empty: [propext, Classical.choice, Quot.sound]
C146_formula_disagree: [propext, Classical.choice, Quot.sound]
C147_lines: [propext, Classical.choice, Quot.sound]
C147_active: [propext, Classical.choice, Quot.sound]
C147_empty: [propext, Quot.sound]

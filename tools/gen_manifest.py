#!/usr/bin/env python3
"""Writes MANIFEST.json.  One row per property: id, status, theorems, note."""
import json, os
ROWS = []
def row(pid, status, thms, note=""):
    ROWS.append({"property": pid, "status": status, "theorems": ["CE." + t for t in thms.split()], "note": note})

row("C01", "proved", "C01_lagrange_cardinal C01_empty_rejected")
row("C02", "proved", "C02_interpolationMatrix C02_repeated_node_rejected C02_no_points")
row("C03", "proved", "C03_differentiation_matrix")
row("C04", "proved", "C04_compose C04_too_many_columns")
row("C05", "proved", "C05_interpolators_agree", "the linear solver is a parameter that returns a solution of every nonsingular system")
row("C06", "proved", "C06_chebyshev_points C06_other_schemes")
row("C07", "proved", "C07_cheb C07_docstring_fails_for_zero", "for N=0 the docstring (t[-1]==tf) is refuted")
row("C08", "proved", "C08_butcher_exact C08_butcher_exact_real")
row("C09", "proved", "C09_butcher_consistent")
row("C10", "proved", "C10_quadrature_order")
row("C11", "proved", "C11_tableau_ctor")
row("C12", "proved", "C12_interval_selection C12_interior_bound C12_invalid_mode C12_ctor C12_total")
row("C13", "proved", "C13_reproduces_data")
row("C14", "proved", "C14_derivative")
row("C15", "partial", "C15_poly_partial C15_low_degree_raises C15_refuted_witness C15_negative C15_out_of_range",
    "false for data of degree below the basis order: numpy trims the polynomial and the division raises; proved for full degree; also false for negative n: the polynomial of the interval counted from the end comes with the length of the next interval")
row("C16", "proved", "C16_discretize C16_nonpositive_step")
row("C17", "proved", "C17_ctor C17_grid C17_no_intervals chebyshev_goodScheme")
row("C18", "partial", "C18_derivative_partial C18_derivative_chebyshev C18_last_row C18_shape C18_refuted_legendre",
    "false for schemes whose last point is not 1 (legendre) with two or more intervals: witness C18_refuted_legendre; proved for all others")
row("C19", "proved", "C19_derivative_of_integral C19_integral_of_derivative C19_columns",
    "cs.solve is a parameter with the contract IsSolver; surplus dy columns are ignored silently (C19_columns)")
row("C20", "proved", "C20_expandInput")
row("C21", "proved", "C21_both C21_right C21_errors")
row("C22", "partial", "C22_left_last_interval_raises C22_left_shifted_partial",
    "false: every query in the last interval raises IndexError, elsewhere the data are shifted by one column")
row("C23", "proved", "C23_ctor C23_reproduces")
row("C24", "proved", "C24_state_integration", "cs.Function and cs.collocation_points are parameters; hypotheses SchemePre (well-formed implicit model, column p/tdp/quad, at least one interval)")
row("C25", "proved", "C25_equations C25_semi_explicit")
row("C26", "proved", "C26_constructed C26_points_and_inputs")
row("C27", "proved", "C27_quadrature")
row("C28", "proved", "C28_square_system")
row("C29", "proved", "C29_polynomial_solutions_exact C29_global_polynomial")
row("C30", "proved", "C30_piecewisePolyX")
row("C31", "partial", "C31_integrator_outputs_partial C31_integrate_partial C31_refuted",
    "false for models with parameters and quadratures: the integrator function has a free variable and cannot be constructed; proved for all others")
row("C32", "proved", "C32_accepts C32_errors C32_missing_alg_accepted")
row("C33", "partial", "C33_makeImplicit_partial C33_implicit_identity C33_refuted_missing_alg C33_missing_alg_raises",
    "false for accepted models with algebraic states whose alg was omitted: makeImplicit raises ValueError; proved for all others")
row("C34", "partial", "C34_parallel_partial C34_refuted C34_implicit_raises",
    "false: the result is a plain Dae without ode and alg; stacking of x,z,u,p,quad proved")
row("C62", "proved", "C62_implicit_accepts")
row("C38", "proved", "St.C38_partition")
row("C39", "proved", "St.C39_size")
row("C40", "proved", "St.C40_primitive St.C40_nested St.C40_nested_position")
row("C41", "proved", "St.C41_intersperse St.C41_group")
row("C42", "partial", "St.C42_partial St.C42_refuted St.C42_refuted_sparse",
    "false for sparse elements (extraMode 1) and for extraMode 2 (row and column exchanged): witnesses; proved for dense elements with extraMode 1")
row("C43", "proved", "St.C43_write_read St.C43_extra", "entries of type 'symm' are the subject of C55")
row("C44", "proved", "St.C44_shape St.C44_symm")
row("C45", "proved", "St.C45_negative St.C45_slice St.C45_slice_positive St.C45_slice_negative St.C45_list St.C45_all St.C45_out_of_range St.C45_index_select St.C45_index_all",
    "out of range: for the complete list of repeat indices of an entry (an out-of-range index followed by an empty selection returns an empty list)")
row("C46", "proved", "St.C46_list St.C46_short St.C46_value St.C46_all St.C46_effect")
row("C60", "partial", "St.C60_partial St.C60_refuted",
    "false: a list assignment that fails at the second element has changed the first; proved for assignments to a single part")
row("C55", "partial", "St.C55_read_symmetric St.C55_write_read_partial St.C55_element St.C55_size St.C55_refuted",
    "False for single elements below the diagonal: C55_refuted reads 0 there. Reading, writing symmetric matrices and the size are proved for all symm entries with a symmetric pattern; values must satisfy x+x-x=x.")
row("C47", "proved", "St.C47_cat St.C47_read St.C47_symm St.C47_keys")
row("C48", "partial", "St.C48_scalar_partial St.C48_column St.C48_wrong St.C48_not_a_value St.C48_empty St.C48_refuted",
    "false for symbolic scalars: struct(a) raises unless the struct has one element; proved for DM and numbers")
row("C49", "proved", "St.C49_rows St.C49_stack St.C49_one_row St.C49_wrong",
    "also nested entries; data with a single row are silently repeated (C49_one_row)")
row("C59", "proved", "St.C59_concat St.C59_node")
row("C50", "partial", "St.C50_repeated_partial St.C50_column St.C50_wrong St.C50_MX_column St.C50_refuted_MX",
    "for DM and SX data and MX columns; for MX data with a number of columns other than one the code raises (C50_refuted_MX)")
row("C53", "partial", "St.C53_stale St.C53_refuted St.C53_partial",
    "false of the code: whole elements of a struct_MX_mutable read as at construction; C53_partial: .cat and reads with a further index see assignments")
row("C54", "proved", "St.C54_read St.C54_positions")
row("C52", "proved", "St.C52_assemble St.C58_veccat_cat St.C58_veccat_read_partial St.C52_cat St.C52_read St.C52_assign St.C52_reject St.C52_empty",
    "every list of named expressions and every reachable state; C52_empty: a struct with an empty nested struct is never completed")
row("C58", "partial", "St.C58_entry St.C58_heads St.C58_veccat_cat St.C58_veccat_read_partial St.C58_SX_cat St.C58_SX_read_partial St.C58_MX St.C58_short St.C58_refuted",
    "proved for rectangular nested lists; lists that are too short raise; false for lists that are too long: the surplus expressions are silently dropped")
row("C57", "partial", "St.C57_duplicate St.C57_unknown St.C57_tuple St.C57_valid_partial St.C57_refuted_omit St.C57_refuted_repeat",
    "false: an order argument that omits an entry, or names one twice, is accepted; the other claims are proved")
row("C35", "proved", "St.C35_succeeds St.C35_result St.C35_free St.C35_empty St.C35_bounded", "all shapes; arguments: matrices, numbers, lists of numbers, DM structs")
row("C36", "partial", "St.C36_list St.C36_void St.C36_columns St.C36_dict St.C36_dict_dense_partial St.C36_refuted_sparse",
    "lists: any common number of columns; dicts: alignment for all expressions, conjunction for dense expressions; false for dicts of expressions with structural zeros")
row("C37", "proved", "St.C37_list St.C37_dict", "lists and dicts")
row("C51", "partial", "St.C51_product St.C51_squared St.C51_squared_repeated St.C51_keys St.C51_wrong St.C51_squared_scalar St.C51_product_scalar_partial St.C51_refuted",
    "for DM and SX data; also squared_repeated; false: product with a scalar raises if only the first struct has size 1")
row("C56", "partial", "St.C56_list_partial St.C56_single St.C56_shared St.C56_refuted St.C56_refuted_nested",
    "False for lists of objects sharing a struct: the second object gets the data of the first (C56_shared, C56_refuted), and an object over a struct that is nested in the struct of an earlier object cannot be unpickled (C56_refuted_nested). Proved for a single object and for lists in which no struct is used by an earlier object.")
row("C61", "partial", "St.C61_all_partial St.C61_nested St.C61_nested_node St.C61_empty St.C61_refuted_empty St.C61_refuted_symm",
    "false when a nested struct is empty (s[...] raises) and for symm entries with an unsymmetric pattern: witnesses; proved for all other structs with ... and dict, and (also with empty nested structs, at any depth) with nesteddict; values must satisfy x+x-x=x")
row("C63", "proved", "St.C63_read_ellipsis St.C63_read_dict St.C63_read_set St.C63_write_ellipsis St.C63_write_value St.C63_short St.C63_write_dict St.C63_write_set St.C63_write_all St.C63_read_nested St.C63_read_nested_repeated St.C63_read_nested_leaf St.C63_write_nested St.C63_write_nested_repeated St.C63_write_nested_leaf")
row("C64", "proved", "St.C64_read St.C64_write St.C64_raise St.C64_out_of_range")
row("C65", "proved", "St.C65_accept St.C65_reject St.C65_result", "patterns given as arguments are assumed canonical in C65_result")
row("C66", "partial", "St.C66_read_partial St.C66_symm_partial St.C66_reject St.C66_reject_MX St.C66_refuted_symm", "false for sym together with type='symm': an unsymmetric symbol is accepted and never read back; proved for entries without type and for symmetric symbols; elements of type symm read symmetric matrices of fresh symbols (values with x+x-x=x)")
row("C67", "partial", "St.C67_indices St.C67_indices_default St.C67_labels_partial St.C67_refuted", "false for names with commas: entries a (repeat=1) and 'a,0' both have the label [a,0,0]; proved for all structs whose names, also in nested structs, have no comma")
row("C68", "proved", "St.C68_flat St.C68_all St.C68_range St.C68_sparse St.C68_group")
row("C69", "proved", "St.C69_getStruct St.C69_block")
row("C70", "proved", "C70_rejects", "collocation_points is assumed to return as many points as asked for")
row("C71", "proved", "C71_combine")
row("C72", "partial", "St.C72_new St.C72_shared_partial St.C72_alias_partial St.C72_separate St.C72_copy_partial St.C72_refuted_stale St.C72_refuted_lost", "false for repeated and squared_repeated: they read a copy made at construction and write all of it back, so they do not see other changes and undo them; proved for the other kinds, and for these two while only the object itself changes the matrix")
row("C73", "proved", "C73_linear_balance", "the law is a hypothesis on the model")
row("C74", "proved", "C74_quadratic_balance", "the law is a hypothesis on the model; that casadi's legendre points are Gauss nodes is not proved")
row("C75", "proved", "C75_symplectic")
row("C76", "proved", "C76_tableau C76_reverse")
row("C77", "proved", "C77_split")
row("C78", "proved", "C78_exists C78_unique", "exact arithmetic over the reals; Newton's method of the rootfinder is not modelled")
row("C79", "partial", "St.C79_read St.C79_element St.C79_index St.C79_write_partial St.C79_refuted_list",
    "the claim about writing is false for list values, which are also handed down to the positions below the callable; proved for matrices and numbers")
row("C80", "proved", "C80_initial_point")
row("C81", "proved", "C81_dissipation C81_contractive C81_unique", "the inequality is a hypothesis on the model; that casadi's points are Gauss or Radau nodes is not proved")
row("C82", "proved", "C82_right_end C82_left_end")
row("C83", "proved", "C83_convergence C83_quadrature", "exact arithmetic over the reals; the higher order at the grid points with Gauss and Radau nodes is C87 and C91")
row("C84", "proved", "C84_unique_root C84_accuracy C84_quadrature", "the root finder is assumed to return roots only; that Newton's method converges is not proved")
row("C85", "proved", "C85_interpolator_both C85_interpolator_right C85_derivative C85_integral C85_piecewise", "exact arithmetic over the reals")
row("C86", "proved", "C86_tableau C86_piecewise C86_call C86_grid C86_trajectory C86_dae_base C86_dae_implicit C86_scheme C86_scheme_times C86_scheme_tdp C86_integrator St.C86_getitem St.C86_i St.C86_setitem St.C86_setitem_veccat St.C86_data St.C86_call St.C86_entry St.C86_define St.C86_inequality St.C86_inequality_shape", "RuntimeError stands for the classes that CasADi raises, NotImplementedError among them; a struct with an order that leaves out entries is not covered")
row("C87", "proved", "C87_order_conditions C87_superconvergence C87_integrator", "exact arithmetic over the reals; nonlinear models are C91")
row("C88", "proved", "C88_unique C88_exists C88_semi C88_convergence C88_quadrature C88_integrator", "exact arithmetic over the reals; the integrator theorem for models without parameter or without quadratures, as others cannot be constructed (C31)")
row("C89", "partial", "St.C89_product_partial St.C89_squared St.C89_squared_repeated_partial St.C89_refuted", "false of the code: the whole matrix reads as before the writes, and squared_repeated raises for a number of blocks other than one; proved for squared and product, and squared_repeated with one block, except reads of the whole matrix after writes")
row("C90", "partial", "St.C90_list_partial St.C90_single St.C90_layouts St.C90_mutable St.C90_lost St.C90_mixed St.C90_stale St.C90_refuted", "false of the code: struct_SX and struct_MX_mutable cannot be unpickled, struct_MX loses its expressions, and lists that share structs between classes or contain a nested struct cannot be unpickled or get old data; proved for lists without shared structs")
row("C91", "proved", "C91_superconvergence C91_integrator C91_order_le", "exact arithmetic over the reals; models with algebraic states: C92")
row("C92", "proved", "C92_superconvergence C92_quadrature C92_integrator", "exact arithmetic over the reals; the algebraic states themselves have the order of C88")
row("C93", "proved", "St.C93_text St.C93_compact St.C93_object St.C93_order_hidden", "the texts of Prefixer, PrefixConstructor and index[...] are not modelled")
row("C94", "proved", "C94_gauss C94_radau C94_gauss_unique C94_radau_unique C94_inside C94_weights C94_symmetric C94_exact", "exact arithmetic over the reals; cs.collocation_points itself is a parameter")
row("C95", "proved", "C95_exists C95_unique C95_contractivity_needed", "exact arithmetic over the reals; existence for models without algebraic states (with them: C98)")
row("C96", "proved", "C96_norm C96_components C96_integrator", "exact arithmetic over the reals")
row("C97", "proved", "C97_semi C97_inexact C97_integrator C97_contractive", "the tolerance bounds the residual in exact arithmetic; rounding in the evaluation of the residual is not modelled")
row("C98", "proved", "C98_exists C98_unique_root C98_integrator", "exact arithmetic over the reals; that Newton's method finds the solution is not claimed")
row("C99", "proved", "C99_trajectory C99_integrate C99_contractive", "exact arithmetic over the reals; nodes other than 0; root finders that return exact roots")
row("C100", "proved", "St.C100_read St.C100_local", "entries that are not symmetric; objects without a priority_object_map; callables that commute with every renaming of positions and do the same to values")
row("C101", "proved", "St.C101_plan St.C101_program St.C101_again", "an element that CasADi makes structurally zero has the value 0 in the model")
row("C102", "proved", "St.C102_frame St.C102_commute", "callables that commute with every renaming of positions")
row("C103", "partial", "St.C103_last_partial St.C103_where_partial St.C103_refuted_dict", "values without dicts; for dicts the claim is false (C103_refuted_dict); callables must make genuine matrices of genuine matrices (as many values as structural nonzeros)")
row("C104", "partial", "St.C104_write_read_partial St.C104_read_write_partial St.C104_lens_partial St.C104_refuted", "selections of repetitions from the first one without gaps (otherwise false: C104_refuted); no callables, objects without symbols of their own; entries of type 'symm' only as a whole and with a symmetric pattern (otherwise false: C61_refuted_symm)")
row("C105", "proved", "St.C105_frame St.C105_commute St.C105_read St.C105_symm", "entries that are not symmetric (otherwise false: C105_symm); callables that commute with renaming positions; indices that can be read")
row("C106", "proved", "C106_transfer C106_stiff C106_factor", "exact arithmetic; stiff components over the reals")
row("C107", "proved", "St.C107_matrix St.C107_matrix_write St.C107_matrix_raise St.C107_index St.C107_index_raise St.C107_cast St.C107_cast_write")
row("C108", "proved", "St.C108_ignored St.C108_shape St.C108_half_written")
row("C109", "partial", "St.C109_views St.C109_prefix_partial St.C109_shape St.C109_refuted",
    "proved for the views; false for prefixes: s.prefix[p] has the attributes of s.cat, so its shape is that of s.prefix[p]() only if this is a column as long as s.cat")
row("C110", "proved", "C110_tolerance C110_contractive", "exact arithmetic over the reals; nodes other than 0; the tolerance bounds the absolute values of all residuals")
row("C111", "proved", "Flt.C111_interpolation Flt.C111_exact", "no overflow, underflow, inf or NaN; the order of the additions and multiplications of a reduction is arbitrary")
row("C112", "proved", "Flt.C112_differentiation", "no overflow, underflow, inf or NaN")
row("C113", "proved", "Flt.C113_call Flt.C113_ends Flt.C113_forward", "no overflow, underflow, inf or NaN; the attribute poly of the basis is not used")
row("C114", "partial", "Flt.C114_discretize_partial Flt.C114_end_refuted Flt.C114_exact",
    "proved except for the right ends; false: with doubles the last sample of the interval from -1 to 0.1 is 0.10000000000000009, beyond the interval and after the next sample")
row("C115", "proved", "Flt.C115_evaluation Flt.C115_constants Flt.C115_integrate Flt.C115_contractive", "no overflow, underflow, inf or NaN; the errors of the coefficients, which CasADi computes, are given by a bound")
row("C116", "proved", "FltC.C116_lagrange FltC.C116_tableau FltC.C116_rows", "no overflow, underflow, inf or NaN; the nodes are the given floating point numbers")
row("C117", "partial", "Flt.C117_ctor Flt.C117_grid_partial Flt.C117_separated Flt.C117_cheb_partial Flt.C117_end_refuted Flt.C117_ctor_refuted Flt.C117_cheb_refuted", "no overflow, underflow, inf or NaN; the nodes in [0, 1] are a parameter; false of the code: ends at t[-1] (and at tf for cheb), succeeds for every ascending grid")
row("C118", "proved", "FltC.C118_constructed FltC.C118_times FltC.C118_states FltC.C118_accuracy FltC.C118_end_refuted", "no overflow, underflow, inf or NaN; the nodes are a parameter; rounding in the evaluation of the expressions by CasADi is part of the tolerance")
row("C119", "proved", "C119_sensitivity C119_inexact C119_contractive C119_contractive_integrator FltC.C119_rounded FltC.C119_accuracy", "no overflow, underflow, inf or NaN; rounding in the evaluation of the expressions by CasADi is part of the tolerance for the equations, and is not modelled for the quadratures")
row("C120", "partial", "St.C120_flat St.C120_flat_partial St.C120_dict St.C120_set St.C120_callable St.C120_refuted", "the full claim is false of the code: for indices with {}, nesteddict or a set the result is a dict (witness C120_refuted)")
row("C121", "proved", "C121_bind C121_type C121_simulator C121_simulate C121_integrator C121_props", "signatures and attribute lists are transcribed by hand; what follows the failing call in the constructor of the simulator is a parameter")
row("C122", "proved", "St.C122_pack St.C122_unpack St.C122_combine St.C122_parallel St.C122_integrator", "expressions are evaluated under an assignment of values to the symbols; the integrator is that of a valid model without parameters or without quadratures (it cannot be constructed otherwise)")
row("C123", "proved", "Flt.C123_derivative Flt.C123_near Flt.C123_values Flt.C123_exact Flt.C123_pdq Flt.C123_constant_refuted", "no overflow, underflow, NaN; Pdq.derivative for numeric values (dense product); the grid is one whose constructor succeeds")
row("C124", "proved", "Flt.C124_interpolator Flt.C124_left_raises Flt.C124_errors Flt.C124_exact", "no overflow, underflow, NaN; numeric values; the points of the grid ascend (C117_separated gives a condition; the constructor does not check the last point of an interval against the next interval)")
row("C125", "partial", "FltC.C125_compose FltC.C125_compose_values FltC.C125_compose_index FltP.C125_poly FltP.C125_poly_partial FltP.C125_constant FltP.C125_full_degree_refuted", "no overflow, underflow, NaN; missing: poly returns for all data, which is false (C15, C125_full_degree_refuted)")
row("C126", "proved", "Flt.C126_integral Flt.C126_returns Flt.C126_exact", "no overflow, underflow, NaN; residuals of the solver as assumed in Flt.Solves")
row("C127", "proved", "Flt.C127_barycentric Flt.C127_columns FltP.C127_polynomial FltP.C127_returns FltP.C127_exact", "no overflow, underflow, NaN; residuals of the solver as assumed in Flt.Solves; powers as assumed in FltP; u 2-D")
row("C128", "partial", "C128_basis_partial C128_consecutive C128_zero C128_refuted C128_vandermonde_partial C128_vandermonde_refuted C128_poly_partial C128_poly_refuted C128_type", "the full claim is false of the code (overflow of 64-bit integers, TypeError); floating point numbers are elements of a field")
row("C129", "partial", "St.C129_read_partial St.C129_index St.C129_flat St.C129_write_partial St.C129_write_value_partial St.C129_repeated St.C129_symm St.C129_rest St.C129_refuted", "the full claim is false of the code (repeated entries and further indices raise, symm entries lose their lower triangle)")
row("C130", "proved", "C130_change C130_shift C130_clock C130_parallel")
row("C131", "proved", "C131_tangent")
row("C132", "proved", "C132_small_steps C132_contractive C132_integrator C132_exists C132_integrator_exists")
row("C133", "proved", "C133_scheme C133_integrator C133_law C133_hamiltonian C133_radau")
row("C134", "proved", "C134_adjoint C134_regular C134_integrator C134_law C134_radau")
row("C135", "proved", "St.C135_prefix St.C135_layout St.C135_constructor St.C135_index St.C135_cast", "functions, matrices and nesteddict inside prefixes are excluded: their texts contain addresses or are made by CasADi; sets are shown in a given order of iteration")
row("C136", "proved", "C136_gradient C136_optimal C136_bounds C136_adjoint_exists C136_explicit")
row("C137", "proved", "C137_even C137_odd C137_quadratic C137_reversal", "exact arithmetic; C137_quadratic assumes that the matrix E(0) of the step (C106) is invertible")
row("C138", "proved", "C138_root C138_determined C138_flow C138_back C138_contractive_determined C138_contractive_flow", "exact arithmetic; the root finder is assumed to return roots only; the integrators are constructed with the same identities of symbols")
row("C139", "proved", "C139_values C139_equations C139_solutions C139_sizes")
row("C140", "proved", "C140_small_steps C140_contractive C140_contractive_quadrature C140_continuous C140_exists C140_contractive_continuous C140_contractive_exists C140_tolerance C140_tolerance_small_steps", "exact arithmetic; optimal means globally optimal; C140_contractive is for costs without quadratures, C140_contractive_quadrature and C140_tolerance for models without algebraic states")
row("C141", "proved", "C141_scheme C141_quadrature C141_integrator C141_contractive C141_contractive_quadrature C141_contractive_integrator C141_contractive_integrator_quadrature", "exact arithmetic")
row("C142", "partial", "St.C142_write St.C142_success_partial St.C142_symm St.C142_refuted St.C142_prefix",
    "false for entries of type symm: matrices cannot be assigned after unpickling")
row("C143", "partial", "St.C143_entry St.C143_SX_partial St.C143_MX St.C143_MX_refuted St.C143_assign St.C143_read St.C143_roundtrip_refuted",
    "false of struct_MX: only upper triangular expressions are accepted")
row("C144", "partial", "St.C144_write_ellipsis St.C144_write_dict St.C144_copy_partial St.C144_entry_partial St.C144_copy",
    "false for entries of type 'symm' with an element above the diagonal: C144_copy says exactly when s[...] can be copied")
row("C145", "partial", "St.C145_save St.C145_load St.C145_refuted St.C145_roundtrip_partial",
    "false of the code with Python 3: NameError; the names exported by CasADi are a parameter, those of the module are transcribed")
#--
root = os.path.dirname(os.path.dirname(os.path.abspath(__file__)))
with open(os.path.join(root, "MANIFEST.json"), "w") as f:
    f.write('{"claims": [\n' + ",\n".join(json.dumps(r) for r in ROWS) + "\n]}\n")

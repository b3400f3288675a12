{"claims": [
{"property": "C01", "status": "proved", "theorems": ["CE.C01_lagrange_cardinal", "CE.C01_empty_rejected"], "note": ""},
{"property": "C02", "status": "proved", "theorems": ["CE.C02_interpolationMatrix", "CE.C02_repeated_node_rejected", "CE.C02_no_points"], "note": ""},
{"property": "C03", "status": "proved", "theorems": ["CE.C03_differentiation_matrix"], "note": ""},
{"property": "C04", "status": "proved", "theorems": ["CE.C04_compose", "CE.C04_too_many_columns"], "note": ""},
{"property": "C05", "status": "proved", "theorems": ["CE.C05_interpolators_agree"], "note": "the linear solver is a parameter that returns a solution of every nonsingular system"},
{"property": "C06", "status": "proved", "theorems": ["CE.C06_chebyshev_points", "CE.C06_other_schemes"], "note": ""},
{"property": "C07", "status": "proved", "theorems": ["CE.C07_cheb", "CE.C07_docstring_fails_for_zero"], "note": "for N=0 the docstring (t[-1]==tf) is refuted"},
{"property": "C08", "status": "proved", "theorems": ["CE.C08_butcher_exact", "CE.C08_butcher_exact_real"], "note": ""},
{"property": "C09", "status": "proved", "theorems": ["CE.C09_butcher_consistent"], "note": ""},
{"property": "C10", "status": "proved", "theorems": ["CE.C10_quadrature_order"], "note": ""},
{"property": "C11", "status": "proved", "theorems": ["CE.C11_tableau_ctor"], "note": ""},
{"property": "C12", "status": "proved", "theorems": ["CE.C12_interval_selection", "CE.C12_interior_bound", "CE.C12_invalid_mode", "CE.C12_ctor", "CE.C12_total"], "note": ""},
{"property": "C13", "status": "proved", "theorems": ["CE.C13_reproduces_data"], "note": ""},
{"property": "C14", "status": "proved", "theorems": ["CE.C14_derivative"], "note": ""},
{"property": "C15", "status": "partial", "theorems": ["CE.C15_poly_partial", "CE.C15_low_degree_raises", "CE.C15_refuted_witness", "CE.C15_negative", "CE.C15_out_of_range"], "note": "false for data of degree below the basis order: numpy trims the polynomial and the division raises; proved for full degree; also false for negative n: the polynomial of the interval counted from the end comes with the length of the next interval"},
{"property": "C16", "status": "proved", "theorems": ["CE.C16_discretize", "CE.C16_nonpositive_step"], "note": ""},
{"property": "C17", "status": "proved", "theorems": ["CE.C17_ctor", "CE.C17_grid", "CE.C17_no_intervals", "CE.chebyshev_goodScheme"], "note": ""},
{"property": "C18", "status": "partial", "theorems": ["CE.C18_derivative_partial", "CE.C18_derivative_chebyshev", "CE.C18_last_row", "CE.C18_shape", "CE.C18_refuted_legendre"], "note": "false for schemes whose last point is not 1 (legendre) with two or more intervals: witness C18_refuted_legendre; proved for all others"},
{"property": "C19", "status": "proved", "theorems": ["CE.C19_derivative_of_integral", "CE.C19_integral_of_derivative", "CE.C19_columns"], "note": "cs.solve is a parameter with the contract IsSolver; surplus dy columns are ignored silently (C19_columns)"},
{"property": "C20", "status": "proved", "theorems": ["CE.C20_expandInput"], "note": ""},
{"property": "C21", "status": "proved", "theorems": ["CE.C21_both", "CE.C21_right", "CE.C21_errors"], "note": ""},
{"property": "C22", "status": "partial", "theorems": ["CE.C22_left_last_interval_raises", "CE.C22_left_shifted_partial"], "note": "false: every query in the last interval raises IndexError, elsewhere the data are shifted by one column"},
{"property": "C23", "status": "proved", "theorems": ["CE.C23_ctor", "CE.C23_reproduces"], "note": ""},
{"property": "C24", "status": "proved", "theorems": ["CE.C24_state_integration"], "note": "cs.Function and cs.collocation_points are parameters; hypotheses SchemePre (well-formed implicit model, column p/tdp/quad, at least one interval)"},
{"property": "C25", "status": "proved", "theorems": ["CE.C25_equations", "CE.C25_semi_explicit"], "note": ""},
{"property": "C26", "status": "proved", "theorems": ["CE.C26_constructed", "CE.C26_points_and_inputs"], "note": ""},
{"property": "C27", "status": "proved", "theorems": ["CE.C27_quadrature"], "note": ""},
{"property": "C28", "status": "proved", "theorems": ["CE.C28_square_system"], "note": ""},
{"property": "C29", "status": "proved", "theorems": ["CE.C29_polynomial_solutions_exact", "CE.C29_global_polynomial"], "note": ""},
{"property": "C30", "status": "proved", "theorems": ["CE.C30_piecewisePolyX"], "note": ""},
{"property": "C31", "status": "partial", "theorems": ["CE.C31_integrator_outputs_partial", "CE.C31_integrate_partial", "CE.C31_refuted"], "note": "false for models with parameters and quadratures: the integrator function has a free variable and cannot be constructed; proved for all others"},
{"property": "C32", "status": "proved", "theorems": ["CE.C32_accepts", "CE.C32_errors", "CE.C32_missing_alg_accepted"], "note": ""},
{"property": "C33", "status": "partial", "theorems": ["CE.C33_makeImplicit_partial", "CE.C33_implicit_identity", "CE.C33_refuted_missing_alg", "CE.C33_missing_alg_raises"], "note": "false for accepted models with algebraic states whose alg was omitted: makeImplicit raises ValueError; proved for all others"},
{"property": "C34", "status": "partial", "theorems": ["CE.C34_parallel_partial", "CE.C34_refuted", "CE.C34_implicit_raises"], "note": "false: the result is a plain Dae without ode and alg; stacking of x,z,u,p,quad proved"},
{"property": "C62", "status": "proved", "theorems": ["CE.C62_implicit_accepts"], "note": ""},
{"property": "C38", "status": "proved", "theorems": ["CE.St.C38_partition"], "note": ""},
{"property": "C39", "status": "proved", "theorems": ["CE.St.C39_size"], "note": ""},
{"property": "C40", "status": "proved", "theorems": ["CE.St.C40_primitive", "CE.St.C40_nested", "CE.St.C40_nested_position"], "note": ""},
{"property": "C41", "status": "proved", "theorems": ["CE.St.C41_intersperse", "CE.St.C41_group"], "note": ""},
{"property": "C42", "status": "partial", "theorems": ["CE.St.C42_partial", "CE.St.C42_refuted", "CE.St.C42_refuted_sparse"], "note": "false for sparse elements (extraMode 1) and for extraMode 2 (row and column exchanged): witnesses; proved for dense elements with extraMode 1"},
{"property": "C43", "status": "proved", "theorems": ["CE.St.C43_write_read", "CE.St.C43_extra"], "note": "entries of type 'symm' are the subject of C55"},
{"property": "C44", "status": "proved", "theorems": ["CE.St.C44_shape", "CE.St.C44_symm"], "note": ""},
{"property": "C45", "status": "proved", "theorems": ["CE.St.C45_negative", "CE.St.C45_slice", "CE.St.C45_slice_positive", "CE.St.C45_slice_negative", "CE.St.C45_list", "CE.St.C45_all", "CE.St.C45_out_of_range", "CE.St.C45_index_select", "CE.St.C45_index_all"], "note": "out of range: for the complete list of repeat indices of an entry (an out-of-range index followed by an empty selection returns an empty list)"},
{"property": "C46", "status": "proved", "theorems": ["CE.St.C46_list", "CE.St.C46_short", "CE.St.C46_value", "CE.St.C46_all", "CE.St.C46_effect"], "note": ""},
{"property": "C60", "status": "partial", "theorems": ["CE.St.C60_partial", "CE.St.C60_refuted"], "note": "false: a list assignment that fails at the second element has changed the first; proved for assignments to a single part"},
{"property": "C55", "status": "partial", "theorems": ["CE.St.C55_read_symmetric", "CE.St.C55_write_read_partial", "CE.St.C55_element", "CE.St.C55_size", "CE.St.C55_refuted"], "note": "False for single elements below the diagonal: C55_refuted reads 0 there. Reading, writing symmetric matrices and the size are proved for all symm entries with a symmetric pattern; values must satisfy x+x-x=x."},
{"property": "C47", "status": "proved", "theorems": ["CE.St.C47_cat", "CE.St.C47_read", "CE.St.C47_symm", "CE.St.C47_keys"], "note": ""},
{"property": "C48", "status": "partial", "theorems": ["CE.St.C48_scalar_partial", "CE.St.C48_column", "CE.St.C48_wrong", "CE.St.C48_not_a_value", "CE.St.C48_empty", "CE.St.C48_refuted"], "note": "false for symbolic scalars: struct(a) raises unless the struct has one element; proved for DM and numbers"},
{"property": "C49", "status": "proved", "theorems": ["CE.St.C49_rows", "CE.St.C49_stack", "CE.St.C49_one_row", "CE.St.C49_wrong"], "note": "also nested entries; data with a single row are silently repeated (C49_one_row)"},
{"property": "C59", "status": "proved", "theorems": ["CE.St.C59_concat", "CE.St.C59_node"], "note": ""},
{"property": "C50", "status": "partial", "theorems": ["CE.St.C50_repeated_partial", "CE.St.C50_column", "CE.St.C50_wrong", "CE.St.C50_MX_column", "CE.St.C50_refuted_MX"], "note": "for DM and SX data and MX columns; for MX data with a number of columns other than one the code raises (C50_refuted_MX)"},
{"property": "C53", "status": "partial", "theorems": ["CE.St.C53_stale", "CE.St.C53_refuted", "CE.St.C53_partial"], "note": "false of the code: whole elements of a struct_MX_mutable read as at construction; C53_partial: .cat and reads with a further index see assignments"},
{"property": "C54", "status": "proved", "theorems": ["CE.St.C54_read", "CE.St.C54_positions"], "note": ""},
{"property": "C52", "status": "proved", "theorems": ["CE.St.C52_assemble", "CE.St.C58_veccat_cat", "CE.St.C58_veccat_read_partial", "CE.St.C52_cat", "CE.St.C52_read", "CE.St.C52_assign", "CE.St.C52_reject", "CE.St.C52_empty"], "note": "every list of named expressions and every reachable state; C52_empty: a struct with an empty nested struct is never completed"},
{"property": "C58", "status": "partial", "theorems": ["CE.St.C58_entry", "CE.St.C58_heads", "CE.St.C58_veccat_cat", "CE.St.C58_veccat_read_partial", "CE.St.C58_SX_cat", "CE.St.C58_SX_read_partial", "CE.St.C58_MX", "CE.St.C58_short", "CE.St.C58_refuted"], "note": "proved for rectangular nested lists; lists that are too short raise; false for lists that are too long: the surplus expressions are silently dropped"},
{"property": "C57", "status": "partial", "theorems": ["CE.St.C57_duplicate", "CE.St.C57_unknown", "CE.St.C57_tuple", "CE.St.C57_valid_partial", "CE.St.C57_refuted_omit", "CE.St.C57_refuted_repeat"], "note": "false: an order argument that omits an entry, or names one twice, is accepted; the other claims are proved"},
{"property": "C35", "status": "proved", "theorems": ["CE.St.C35_succeeds", "CE.St.C35_result", "CE.St.C35_free", "CE.St.C35_empty", "CE.St.C35_bounded"], "note": "all shapes; arguments: matrices, numbers, lists of numbers, DM structs"},
{"property": "C36", "status": "partial", "theorems": ["CE.St.C36_list", "CE.St.C36_void", "CE.St.C36_columns", "CE.St.C36_dict", "CE.St.C36_dict_dense_partial", "CE.St.C36_refuted_sparse"], "note": "lists: any common number of columns; dicts: alignment for all expressions, conjunction for dense expressions; false for dicts of expressions with structural zeros"},
{"property": "C37", "status": "proved", "theorems": ["CE.St.C37_list", "CE.St.C37_dict"], "note": "lists and dicts"},
{"property": "C51", "status": "partial", "theorems": ["CE.St.C51_product", "CE.St.C51_squared", "CE.St.C51_squared_repeated", "CE.St.C51_keys", "CE.St.C51_wrong", "CE.St.C51_squared_scalar", "CE.St.C51_product_scalar_partial", "CE.St.C51_refuted"], "note": "for DM and SX data; also squared_repeated; false: product with a scalar raises if only the first struct has size 1"},
{"property": "C56", "status": "partial", "theorems": ["CE.St.C56_list_partial", "CE.St.C56_single", "CE.St.C56_shared", "CE.St.C56_refuted", "CE.St.C56_refuted_nested"], "note": "False for lists of objects sharing a struct: the second object gets the data of the first (C56_shared, C56_refuted), and an object over a struct that is nested in the struct of an earlier object cannot be unpickled (C56_refuted_nested). Proved for a single object and for lists in which no struct is used by an earlier object."},
{"property": "C61", "status": "partial", "theorems": ["CE.St.C61_all_partial", "CE.St.C61_nested", "CE.St.C61_nested_node", "CE.St.C61_empty", "CE.St.C61_refuted_empty", "CE.St.C61_refuted_symm"], "note": "false when a nested struct is empty (s[...] raises) and for symm entries with an unsymmetric pattern: witnesses; proved for all other structs with ... and dict, and (also with empty nested structs, at any depth) with nesteddict; values must satisfy x+x-x=x"},
{"property": "C63", "status": "proved", "theorems": ["CE.St.C63_read_ellipsis", "CE.St.C63_read_dict", "CE.St.C63_read_set", "CE.St.C63_write_ellipsis", "CE.St.C63_write_value", "CE.St.C63_short", "CE.St.C63_write_dict", "CE.St.C63_write_set", "CE.St.C63_write_all", "CE.St.C63_read_nested", "CE.St.C63_read_nested_repeated", "CE.St.C63_read_nested_leaf", "CE.St.C63_write_nested", "CE.St.C63_write_nested_repeated", "CE.St.C63_write_nested_leaf"], "note": ""},
{"property": "C64", "status": "proved", "theorems": ["CE.St.C64_read", "CE.St.C64_write", "CE.St.C64_raise", "CE.St.C64_out_of_range"], "note": ""},
{"property": "C65", "status": "proved", "theorems": ["CE.St.C65_accept", "CE.St.C65_reject", "CE.St.C65_result"], "note": "patterns given as arguments are assumed canonical in C65_result"},
{"property": "C66", "status": "partial", "theorems": ["CE.St.C66_read_partial", "CE.St.C66_symm_partial", "CE.St.C66_reject", "CE.St.C66_reject_MX", "CE.St.C66_refuted_symm"], "note": "false for sym together with type='symm': an unsymmetric symbol is accepted and never read back; proved for entries without type and for symmetric symbols; elements of type symm read symmetric matrices of fresh symbols (values with x+x-x=x)"},
{"property": "C67", "status": "partial", "theorems": ["CE.St.C67_indices", "CE.St.C67_indices_default", "CE.St.C67_labels_partial", "CE.St.C67_refuted"], "note": "false for names with commas: entries a (repeat=1) and 'a,0' both have the label [a,0,0]; proved for all structs whose names, also in nested structs, have no comma"},
{"property": "C68", "status": "proved", "theorems": ["CE.St.C68_flat", "CE.St.C68_all", "CE.St.C68_range", "CE.St.C68_sparse", "CE.St.C68_group"], "note": ""},
{"property": "C69", "status": "proved", "theorems": ["CE.St.C69_getStruct", "CE.St.C69_block"], "note": ""},
{"property": "C70", "status": "proved", "theorems": ["CE.C70_rejects"], "note": "collocation_points is assumed to return as many points as asked for"},
{"property": "C71", "status": "proved", "theorems": ["CE.C71_combine"], "note": ""},
{"property": "C72", "status": "partial", "theorems": ["CE.St.C72_new", "CE.St.C72_shared_partial", "CE.St.C72_alias_partial", "CE.St.C72_separate", "CE.St.C72_copy_partial", "CE.St.C72_refuted_stale", "CE.St.C72_refuted_lost"], "note": "false for repeated and squared_repeated: they read a copy made at construction and write all of it back, so they do not see other changes and undo them; proved for the other kinds, and for these two while only the object itself changes the matrix"},
{"property": "C73", "status": "proved", "theorems": ["CE.C73_linear_balance"], "note": "the law is a hypothesis on the model"},
{"property": "C74", "status": "proved", "theorems": ["CE.C74_quadratic_balance"], "note": "the law is a hypothesis on the model; that casadi's legendre points are Gauss nodes is not proved"},
{"property": "C75", "status": "proved", "theorems": ["CE.C75_symplectic"], "note": ""},
{"property": "C76", "status": "proved", "theorems": ["CE.C76_tableau", "CE.C76_reverse"], "note": ""},
{"property": "C77", "status": "proved", "theorems": ["CE.C77_split"], "note": ""},
{"property": "C78", "status": "proved", "theorems": ["CE.C78_exists", "CE.C78_unique"], "note": "exact arithmetic over the reals; Newton's method of the rootfinder is not modelled"},
{"property": "C79", "status": "partial", "theorems": ["CE.St.C79_read", "CE.St.C79_element", "CE.St.C79_index", "CE.St.C79_write_partial", "CE.St.C79_refuted_list"], "note": "the claim about writing is false for list values, which are also handed down to the positions below the callable; proved for matrices and numbers"},
{"property": "C80", "status": "proved", "theorems": ["CE.C80_initial_point"], "note": ""},
{"property": "C81", "status": "proved", "theorems": ["CE.C81_dissipation", "CE.C81_contractive", "CE.C81_unique"], "note": "the inequality is a hypothesis on the model; that casadi's points are Gauss or Radau nodes is not proved"},
{"property": "C82", "status": "proved", "theorems": ["CE.C82_right_end", "CE.C82_left_end"], "note": ""},
{"property": "C83", "status": "proved", "theorems": ["CE.C83_convergence", "CE.C83_quadrature"], "note": "exact arithmetic over the reals; the higher order at the grid points with Gauss and Radau nodes is C87 and C91"},
{"property": "C84", "status": "proved", "theorems": ["CE.C84_unique_root", "CE.C84_accuracy", "CE.C84_quadrature"], "note": "the root finder is assumed to return roots only; that Newton's method converges is not proved"},
{"property": "C85", "status": "proved", "theorems": ["CE.C85_interpolator_both", "CE.C85_interpolator_right", "CE.C85_derivative", "CE.C85_integral", "CE.C85_piecewise"], "note": "exact arithmetic over the reals"},
{"property": "C86", "status": "proved", "theorems": ["CE.C86_tableau", "CE.C86_piecewise", "CE.C86_call", "CE.C86_grid", "CE.C86_trajectory", "CE.C86_dae_base", "CE.C86_dae_implicit", "CE.C86_scheme", "CE.C86_scheme_times", "CE.C86_scheme_tdp", "CE.C86_integrator", "CE.St.C86_getitem", "CE.St.C86_i", "CE.St.C86_setitem", "CE.St.C86_setitem_veccat", "CE.St.C86_data", "CE.St.C86_call", "CE.St.C86_entry", "CE.St.C86_define", "CE.St.C86_inequality", "CE.St.C86_inequality_shape"], "note": "RuntimeError stands for the classes that CasADi raises, NotImplementedError among them; a struct with an order that leaves out entries is not covered"},
{"property": "C87", "status": "proved", "theorems": ["CE.C87_order_conditions", "CE.C87_superconvergence", "CE.C87_integrator"], "note": "exact arithmetic over the reals; nonlinear models are C91"},
{"property": "C88", "status": "proved", "theorems": ["CE.C88_unique", "CE.C88_exists", "CE.C88_semi", "CE.C88_convergence", "CE.C88_quadrature", "CE.C88_integrator"], "note": "exact arithmetic over the reals; the integrator theorem for models without parameter or without quadratures, as others cannot be constructed (C31)"},
{"property": "C89", "status": "partial", "theorems": ["CE.St.C89_product_partial", "CE.St.C89_squared", "CE.St.C89_squared_repeated_partial", "CE.St.C89_refuted"], "note": "false of the code: the whole matrix reads as before the writes, and squared_repeated raises for a number of blocks other than one; proved for squared and product, and squared_repeated with one block, except reads of the whole matrix after writes"},
{"property": "C90", "status": "partial", "theorems": ["CE.St.C90_list_partial", "CE.St.C90_single", "CE.St.C90_layouts", "CE.St.C90_mutable", "CE.St.C90_lost", "CE.St.C90_mixed", "CE.St.C90_stale", "CE.St.C90_refuted"], "note": "false of the code: struct_SX and struct_MX_mutable cannot be unpickled, struct_MX loses its expressions, and lists that share structs between classes or contain a nested struct cannot be unpickled or get old data; proved for lists without shared structs"},
{"property": "C91", "status": "proved", "theorems": ["CE.C91_superconvergence", "CE.C91_integrator", "CE.C91_order_le"], "note": "exact arithmetic over the reals; models with algebraic states: C92"},
{"property": "C92", "status": "proved", "theorems": ["CE.C92_superconvergence", "CE.C92_quadrature", "CE.C92_integrator"], "note": "exact arithmetic over the reals; the algebraic states themselves have the order of C88"},
{"property": "C93", "status": "proved", "theorems": ["CE.St.C93_text", "CE.St.C93_compact", "CE.St.C93_object", "CE.St.C93_order_hidden"], "note": "the texts of Prefixer, PrefixConstructor and index[...] are not modelled"},
{"property": "C94", "status": "proved", "theorems": ["CE.C94_gauss", "CE.C94_radau", "CE.C94_gauss_unique", "CE.C94_radau_unique", "CE.C94_inside", "CE.C94_weights", "CE.C94_symmetric", "CE.C94_exact"], "note": "exact arithmetic over the reals; cs.collocation_points itself is a parameter"},
{"property": "C95", "status": "proved", "theorems": ["CE.C95_exists", "CE.C95_unique", "CE.C95_contractivity_needed"], "note": "exact arithmetic over the reals; existence for models without algebraic states (with them: C98)"},
{"property": "C96", "status": "proved", "theorems": ["CE.C96_norm", "CE.C96_components", "CE.C96_integrator"], "note": "exact arithmetic over the reals"},
{"property": "C97", "status": "proved", "theorems": ["CE.C97_semi", "CE.C97_inexact", "CE.C97_integrator", "CE.C97_contractive"], "note": "the tolerance bounds the residual in exact arithmetic; rounding in the evaluation of the residual is not modelled"},
{"property": "C98", "status": "proved", "theorems": ["CE.C98_exists", "CE.C98_unique_root", "CE.C98_integrator"], "note": "exact arithmetic over the reals; that Newton's method finds the solution is not claimed"},
{"property": "C99", "status": "proved", "theorems": ["CE.C99_trajectory", "CE.C99_integrate", "CE.C99_contractive"], "note": "exact arithmetic over the reals; nodes other than 0; root finders that return exact roots"},
{"property": "C100", "status": "proved", "theorems": ["CE.St.C100_read", "CE.St.C100_local"], "note": "entries that are not symmetric; objects without a priority_object_map; callables that commute with every renaming of positions and do the same to values"},
{"property": "C101", "status": "proved", "theorems": ["CE.St.C101_plan", "CE.St.C101_program", "CE.St.C101_again"], "note": "an element that CasADi makes structurally zero has the value 0 in the model"},
{"property": "C102", "status": "proved", "theorems": ["CE.St.C102_frame", "CE.St.C102_commute"], "note": "callables that commute with every renaming of positions"},
{"property": "C103", "status": "partial", "theorems": ["CE.St.C103_last_partial", "CE.St.C103_where_partial", "CE.St.C103_refuted_dict"], "note": "values without dicts; for dicts the claim is false (C103_refuted_dict); callables must make genuine matrices of genuine matrices (as many values as structural nonzeros)"},
{"property": "C104", "status": "partial", "theorems": ["CE.St.C104_write_read_partial", "CE.St.C104_read_write_partial", "CE.St.C104_lens_partial", "CE.St.C104_refuted"], "note": "selections of repetitions from the first one without gaps (otherwise false: C104_refuted); no callables, objects without symbols of their own; entries of type 'symm' only as a whole and with a symmetric pattern (otherwise false: C61_refuted_symm)"},
{"property": "C105", "status": "proved", "theorems": ["CE.St.C105_frame", "CE.St.C105_commute", "CE.St.C105_read", "CE.St.C105_symm"], "note": "entries that are not symmetric (otherwise false: C105_symm); callables that commute with renaming positions; indices that can be read"},
{"property": "C106", "status": "proved", "theorems": ["CE.C106_transfer", "CE.C106_stiff", "CE.C106_factor"], "note": "exact arithmetic; stiff components over the reals"},
{"property": "C107", "status": "proved", "theorems": ["CE.St.C107_matrix", "CE.St.C107_matrix_write", "CE.St.C107_matrix_raise", "CE.St.C107_index", "CE.St.C107_index_raise", "CE.St.C107_cast", "CE.St.C107_cast_write"], "note": ""},
{"property": "C108", "status": "proved", "theorems": ["CE.St.C108_ignored", "CE.St.C108_shape", "CE.St.C108_half_written"], "note": ""},
{"property": "C109", "status": "partial", "theorems": ["CE.St.C109_views", "CE.St.C109_prefix_partial", "CE.St.C109_shape", "CE.St.C109_refuted"], "note": "proved for the views; false for prefixes: s.prefix[p] has the attributes of s.cat, so its shape is that of s.prefix[p]() only if this is a column as long as s.cat"},
{"property": "C110", "status": "proved", "theorems": ["CE.C110_tolerance", "CE.C110_contractive"], "note": "exact arithmetic over the reals; nodes other than 0; the tolerance bounds the absolute values of all residuals"},
{"property": "C111", "status": "proved", "theorems": ["CE.Flt.C111_interpolation", "CE.Flt.C111_exact"], "note": "no overflow, underflow, inf or NaN; the order of the additions and multiplications of a reduction is arbitrary"},
{"property": "C112", "status": "proved", "theorems": ["CE.Flt.C112_differentiation"], "note": "no overflow, underflow, inf or NaN"},
{"property": "C113", "status": "proved", "theorems": ["CE.Flt.C113_call", "CE.Flt.C113_ends", "CE.Flt.C113_forward"], "note": "no overflow, underflow, inf or NaN; the attribute poly of the basis is not used"},
{"property": "C114", "status": "partial", "theorems": ["CE.Flt.C114_discretize_partial", "CE.Flt.C114_end_refuted", "CE.Flt.C114_exact"], "note": "proved except for the right ends; false: with doubles the last sample of the interval from -1 to 0.1 is 0.10000000000000009, beyond the interval and after the next sample"},
{"property": "C115", "status": "proved", "theorems": ["CE.Flt.C115_evaluation", "CE.Flt.C115_constants", "CE.Flt.C115_integrate", "CE.Flt.C115_contractive"], "note": "no overflow, underflow, inf or NaN; the errors of the coefficients, which CasADi computes, are given by a bound"},
{"property": "C116", "status": "proved", "theorems": ["CE.FltC.C116_lagrange", "CE.FltC.C116_tableau", "CE.FltC.C116_rows"], "note": "no overflow, underflow, inf or NaN; the nodes are the given floating point numbers"},
{"property": "C117", "status": "partial", "theorems": ["CE.Flt.C117_ctor", "CE.Flt.C117_grid_partial", "CE.Flt.C117_separated", "CE.Flt.C117_cheb_partial", "CE.Flt.C117_end_refuted", "CE.Flt.C117_ctor_refuted", "CE.Flt.C117_cheb_refuted"], "note": "no overflow, underflow, inf or NaN; the nodes in [0, 1] are a parameter; false of the code: ends at t[-1] (and at tf for cheb), succeeds for every ascending grid"},
{"property": "C118", "status": "proved", "theorems": ["CE.FltC.C118_constructed", "CE.FltC.C118_times", "CE.FltC.C118_states", "CE.FltC.C118_accuracy", "CE.FltC.C118_end_refuted"], "note": "no overflow, underflow, inf or NaN; the nodes are a parameter; rounding in the evaluation of the expressions by CasADi is part of the tolerance"},
{"property": "C119", "status": "proved", "theorems": ["CE.C119_sensitivity", "CE.C119_inexact", "CE.C119_contractive", "CE.C119_contractive_integrator", "CE.FltC.C119_rounded", "CE.FltC.C119_accuracy"], "note": "no overflow, underflow, inf or NaN; rounding in the evaluation of the expressions by CasADi is part of the tolerance for the equations, and is not modelled for the quadratures"},
{"property": "C120", "status": "partial", "theorems": ["CE.St.C120_flat", "CE.St.C120_flat_partial", "CE.St.C120_dict", "CE.St.C120_set", "CE.St.C120_callable", "CE.St.C120_refuted"], "note": "the full claim is false of the code: for indices with {}, nesteddict or a set the result is a dict (witness C120_refuted)"},
{"property": "C121", "status": "proved", "theorems": ["CE.C121_bind", "CE.C121_type", "CE.C121_simulator", "CE.C121_simulate", "CE.C121_integrator", "CE.C121_props"], "note": "signatures and attribute lists are transcribed by hand; what follows the failing call in the constructor of the simulator is a parameter"},
{"property": "C122", "status": "proved", "theorems": ["CE.St.C122_pack", "CE.St.C122_unpack", "CE.St.C122_combine", "CE.St.C122_parallel", "CE.St.C122_integrator"], "note": "expressions are evaluated under an assignment of values to the symbols; the integrator is that of a valid model without parameters or without quadratures (it cannot be constructed otherwise)"},
{"property": "C123", "status": "proved", "theorems": ["CE.Flt.C123_derivative", "CE.Flt.C123_near", "CE.Flt.C123_values", "CE.Flt.C123_exact", "CE.Flt.C123_pdq", "CE.Flt.C123_constant_refuted"], "note": "no overflow, underflow, NaN; Pdq.derivative for numeric values (dense product); the grid is one whose constructor succeeds"},
{"property": "C124", "status": "proved", "theorems": ["CE.Flt.C124_interpolator", "CE.Flt.C124_left_raises", "CE.Flt.C124_errors", "CE.Flt.C124_exact"], "note": "no overflow, underflow, NaN; numeric values; the points of the grid ascend (C117_separated gives a condition; the constructor does not check the last point of an interval against the next interval)"},
{"property": "C125", "status": "partial", "theorems": ["CE.FltC.C125_compose", "CE.FltC.C125_compose_values", "CE.FltC.C125_compose_index", "CE.FltP.C125_poly", "CE.FltP.C125_poly_partial", "CE.FltP.C125_constant", "CE.FltP.C125_full_degree_refuted"], "note": "no overflow, underflow, NaN; missing: poly returns for all data, which is false (C15, C125_full_degree_refuted)"},
{"property": "C126", "status": "proved", "theorems": ["CE.Flt.C126_integral", "CE.Flt.C126_returns", "CE.Flt.C126_exact"], "note": "no overflow, underflow, NaN; residuals of the solver as assumed in Flt.Solves"},
{"property": "C127", "status": "proved", "theorems": ["CE.Flt.C127_barycentric", "CE.Flt.C127_columns", "CE.FltP.C127_polynomial", "CE.FltP.C127_returns", "CE.FltP.C127_exact"], "note": "no overflow, underflow, NaN; residuals of the solver as assumed in Flt.Solves; powers as assumed in FltP; u 2-D"},
{"property": "C128", "status": "partial", "theorems": ["CE.C128_basis_partial", "CE.C128_consecutive", "CE.C128_zero", "CE.C128_refuted", "CE.C128_vandermonde_partial", "CE.C128_vandermonde_refuted", "CE.C128_poly_partial", "CE.C128_poly_refuted", "CE.C128_type"], "note": "the full claim is false of the code (overflow of 64-bit integers, TypeError); floating point numbers are elements of a field"},
{"property": "C129", "status": "partial", "theorems": ["CE.St.C129_read_partial", "CE.St.C129_index", "CE.St.C129_flat", "CE.St.C129_write_partial", "CE.St.C129_write_value_partial", "CE.St.C129_repeated", "CE.St.C129_symm", "CE.St.C129_rest", "CE.St.C129_refuted"], "note": "the full claim is false of the code (repeated entries and further indices raise, symm entries lose their lower triangle)"},
{"property": "C130", "status": "proved", "theorems": ["CE.C130_change", "CE.C130_shift", "CE.C130_clock", "CE.C130_parallel"], "note": ""},
{"property": "C131", "status": "proved", "theorems": ["CE.C131_tangent"], "note": ""},
{"property": "C132", "status": "proved", "theorems": ["CE.C132_small_steps", "CE.C132_contractive", "CE.C132_integrator", "CE.C132_exists", "CE.C132_integrator_exists"], "note": ""},
{"property": "C133", "status": "proved", "theorems": ["CE.C133_scheme", "CE.C133_integrator", "CE.C133_law", "CE.C133_hamiltonian", "CE.C133_radau"], "note": ""},
{"property": "C134", "status": "proved", "theorems": ["CE.C134_adjoint", "CE.C134_regular", "CE.C134_integrator", "CE.C134_law", "CE.C134_radau"], "note": ""},
{"property": "C135", "status": "proved", "theorems": ["CE.St.C135_prefix", "CE.St.C135_layout", "CE.St.C135_constructor", "CE.St.C135_index", "CE.St.C135_cast"], "note": "functions, matrices and nesteddict inside prefixes are excluded: their texts contain addresses or are made by CasADi; sets are shown in a given order of iteration"},
{"property": "C136", "status": "proved", "theorems": ["CE.C136_gradient", "CE.C136_optimal", "CE.C136_bounds", "CE.C136_adjoint_exists", "CE.C136_explicit"], "note": ""},
{"property": "C137", "status": "proved", "theorems": ["CE.C137_even", "CE.C137_odd", "CE.C137_quadratic", "CE.C137_reversal"], "note": "exact arithmetic; C137_quadratic assumes that the matrix E(0) of the step (C106) is invertible"},
{"property": "C138", "status": "proved", "theorems": ["CE.C138_root", "CE.C138_determined", "CE.C138_flow", "CE.C138_back", "CE.C138_contractive_determined", "CE.C138_contractive_flow"], "note": "exact arithmetic; the root finder is assumed to return roots only; the integrators are constructed with the same identities of symbols"},
{"property": "C139", "status": "proved", "theorems": ["CE.C139_values", "CE.C139_equations", "CE.C139_solutions", "CE.C139_sizes"], "note": ""},
{"property": "C140", "status": "proved", "theorems": ["CE.C140_small_steps", "CE.C140_contractive", "CE.C140_contractive_quadrature", "CE.C140_continuous", "CE.C140_exists", "CE.C140_contractive_continuous", "CE.C140_contractive_exists", "CE.C140_tolerance", "CE.C140_tolerance_small_steps"], "note": "exact arithmetic; optimal means globally optimal; C140_contractive is for costs without quadratures, C140_contractive_quadrature and C140_tolerance for models without algebraic states"},
{"property": "C141", "status": "proved", "theorems": ["CE.C141_scheme", "CE.C141_quadrature", "CE.C141_integrator", "CE.C141_contractive", "CE.C141_contractive_quadrature", "CE.C141_contractive_integrator", "CE.C141_contractive_integrator_quadrature"], "note": "exact arithmetic"},
{"property": "C142", "status": "partial", "theorems": ["CE.St.C142_write", "CE.St.C142_success_partial", "CE.St.C142_symm", "CE.St.C142_refuted", "CE.St.C142_prefix"], "note": "false for entries of type symm: matrices cannot be assigned after unpickling"},
{"property": "C143", "status": "partial", "theorems": ["CE.St.C143_entry", "CE.St.C143_SX_partial", "CE.St.C143_MX", "CE.St.C143_MX_refuted", "CE.St.C143_assign", "CE.St.C143_read", "CE.St.C143_roundtrip_refuted"], "note": "false of struct_MX: only upper triangular expressions are accepted"},
{"property": "C144", "status": "partial", "theorems": ["CE.St.C144_write_ellipsis", "CE.St.C144_write_dict", "CE.St.C144_copy_partial", "CE.St.C144_entry_partial", "CE.St.C144_copy"], "note": "false for entries of type 'symm' with an element above the diagonal: C144_copy says exactly when s[...] can be copied"},
{"property": "C145", "status": "partial", "theorems": ["CE.St.C145_save", "CE.St.C145_load", "CE.St.C145_refuted", "CE.St.C145_roundtrip_partial"], "note": "false of the code with Python 3: NameError; the names exported by CasADi are a parameter, those of the module are transcribed"}
]}

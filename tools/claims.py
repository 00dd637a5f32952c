G = "Verif.GA.Props."
def g(names): return " ".join(G + n for n in names.split())

claim("C01", "proved", g("C01_population_size C01_constructed"))
claim("C02", "partial", g("C02_pairing_partial C02_two_parents_lost C02_odd_rejected"),
      "Holds for every even number of genotypes except 2, where no pair is produced.")
claim("C05", "proved", g("C05_champion_is_best C05_champion_monotone C05_best_candidate C05_best_candidate_returns") + " Verif.BGA.Props.C05_bga")
claim("C06", "proved", g("C06_age"))
claim("C07", "proved", g("C07_terminates C07_stops_first C07_iteration_limits C07_default_criterion C07_criterion_needs_champion C07_maxiter_zero_still_iterates"))
claim("C08", "proved", g("C08_evaluations"))
claim("C12", "proved", g("C12_honest_record C12_reraises C12_objective_failure"))
claim("C13", "partial", g("C13_accepted_parameters_partial C13_rejected_call_changes_parameters"),
      "A rejected call leaves the new parameters in force: the first half of the property is false.")
claim("C15", "proved", g("C15_genom_order C15_genom_equality"))

B = "Verif.BGA.Props."
def b(names): return " ".join(B + n for n in names.split())

claim("C03", "partial", b("C03_generation_partial C03_small_population_fails C10_too_short"),
      "Holds from nPop=8 and dim*length=3 on for the elitism settings that work (C14); false for nPop=4, for fewer than three bits and for the failing elitism settings.")
claim("C04", "proved", b("C04_elite_survives C04_best_monotone"),
      "nPop >= 8 and dim*length >= 3: below, no generation can be produced (C03).")
claim("C09", "proved", b("C09_formula C09_grid"))
claim("C10", "proved", b("C10_crossover C10_skipped C10_bits C10_too_short"))
claim("C11", "proved", b("C11_divide C11_select"))
claim("C14", "partial", b("C14_elitism_partial C14_fails C14_none_fails C14_one_fails") + " " + " ".join("Verif.EliteShare.Props." + n for n in "C14_share C14_share_written C14_share_violated C14_share_one_fails C14_refused_stays".split()),
      "The settings that work are characterised exactly; None, 1.0 and odd elites above nPop/2 fail; fractions lose an individual to rounding.")

def u(names): return " ".join("Verif.Utils.Props." + n for n in names.split())

claim("C31", "proved", " ".join("Verif.ASO.Props." + n for n in "C31_unique2d C31_unique2d_jagged C31_dense_kernel C31_flat_kernel C31_dense C31_awkward C31_jagged".split()))
claim("C32", "partial", u("C32_clip_partial C32_integer_array_fails"),
      "Holds whenever the bounds are representable in the array; integer arrays with fractional bounds store truncated bounds.")
claim("C33", "partial", u("C33_flattenC C33_flattenF C33_flatten2d C33_flatten2d_other_order C33_bool_to_float C33_repeat C33_repeat1d C33_tile C33_tile1d C33_repeat_diagonal C33_bin_centers_partial C33_bin_centers_integer_edges"),
      "bin_centers of integer edges are truncated; tile stores in the dtype of its first argument.")
claim("C34", "proved", u("C34_schedule_independent C34_equal_rows C34_count_cols"))
claim("C35", "partial", u("C35_to_range_partial C35_degenerate C35_defaults C35_integer_values_fail"),
      "Integer arrays are truncated.")
claim("C36", "partial", u("C36_find1d_partial C36_find2d_partial C36_missing_element_unnoticed"),
      "An element that does not occur is not reported: the compiled code reads beyond an empty array.")
claim("C37", "partial", u("C37_float_partial C37_integer_rectangular_partial C37_integer_square_diagonal C37_integer_square_fails C37_mixed_dtypes_fail C37_ordered"),
      "False for integer arrays with equally many rows and for an integer array against a float array.")
claim("C38", "partial", u("C38_counts_partial C38_one_entry_too_many C38_wrong_count"),
      "The property is false: wrong length and wrong counts; only a degenerate case is right.")
claim("C39", "proved", u("C39_atleastnd C39_number C39_matrixform C39_matrixform_zero_dim"),
      "A zero-dimensional array passes matrixform unchanged.")

def s(names): return " ".join("Verif.Sparse.Props." + n for n in names.split())
claim("C27", "proved", s("C27_dense_round_trip C27_rows_are_stored_entries C27_taken_over C27_eye C27_row_out_of_range C27_row_below_range C27_negative_row C27_missing_shape"),
      "Findings: negative row indices are accepted but wrong; without a shape the number of columns is the largest row count.")
claim("C28", "proved", s("C28_jagged_to_csr C28_no_rows C28_to_csr"))
claim("C29", "proved", s("C29_round_trip C29_bad_cuts C29_refused C29_rows C29_topology C29_shape C29_vstack C29_concatenate_ignores_axis"),
      "Finding: concatenate ignores the axis.")
claim("C30", "proved", s("C30_lower_upper C30_cover"))
claim("C61", "partial", s("C61_fallback_partial C61_list_of_arrays_fails"),
      "Only the branch that the constructor never takes stacks the rows.")

def rl(names): return " ".join("Verif.Rel.Props." + n for n in names.split())
def lp(names): return " ".join("Verif.LP.Props." + n for n in names.split())
claim("C16", "partial", lp("C16_feasible_set C16_strict_partial C16_violation_strict_rounding C16_nonlinear_terms_dropped C16_missing_variable_raises"),
      "Equalities and non-strict inequalities: proved. Strict inequalities: proved in exact arithmetic, false under rounding that absorbs the shift.")
claim("C17", "partial", lp("C17_optimizers C17_value_partial C17_solve_ok C17_violation_order"),
      "The optimizers are proved; the reported value is wrong if the objective lists its variables in another order than the problem.")
claim("C18", "proved", lp("C18_sparse_dense"))
claim("C19", "proved", lp("C19_rows C19_integrality"))
claim("C20", "partial", rl("C20_white C20_strip_spec C20_split C20_accepted C20_no_operator C20_more_operators_partial C20_violation_line_feed C20_blank_sides_accepted"),
      "Strings with more than one operator are rejected unless a line feed hides the rest of the text.")
claim("C21", "proved", rl("C21_text C21_text_relation C21_text_alone C21_relate C21_class_mismatch C21_grammar C21_unambiguous C21_unbalanced_sides_accepted"))
claim("C22", "partial", lp("C22_honoured_partial C22_violation_dropped C22_violation_reversed"),
      "False for plain relations with a callable (dropped) and for callables other than <= (translated as <=).")
claim("C23", "partial", rl("C23_substitute C23_order C23_remaining C23_function_partial C23_call C23_partial_subs_unusable C23_violation"),
      "The expression level is proved; a Function after partial substitution cannot be called.")

def tf(names): return " ".join("Verif.TestFn.Props." + n for n in names.split())
def ls(names): return " ".join("Verif.Solve.Props." + n for n in names.split())
def gr(names): return " ".join("Verif.Graph.Props." + n for n in names.split())
claim("C24", "partial", tf("C24_optimums C24_rosenbrock_partial C24_rosenbrock_minimum C24_rosenbrock_violation C24_himmelblau_partial C24_himmelblau_decimals C24_himmelblau_violation C24_goldstein_price C24_beale C24_matyas"),
      "Beale, Matyas and Goldstein-Price are proved; the Rosenbrock optimum is wrong for a other than 1 and three of the Himmelblau optima are given to six decimals (C24_himmelblau_decimals: the function has exactly four global minima and the list gives each of them up to less than 1e-6 in each coordinate).")
claim("C25", "partial", ls("C25_minors C25_whole_numbers C25_none_prescribed C25_constrained_partial C25_solution_partial C25_jordan_finite C25_violation_skipped C25_violation_integer"),
      "Holds if no bordered minor of the matrix is negligible without being zero (in particular for whole-number entries with minors up to 1/tol, stored as floats); false otherwise and for integer matrices.")
claim("C26", "partial", ls("C26_minors C25_whole_numbers C26_jordan_partial C26_gauss_partial C26_incomplete_prescription C26_violation_no_pivoting C26_violation_small C26_violation_last_pivot C26_violation_skipped"),
      "The code detects vanishing leading minors, not singularity: there is no pivoting and the last pivot of Gauss-Jordan is not checked.")
claim("C40", "proved", gr("C40_levels C40_graph_of_matrix C40_partition C40_unique C40_disconnected_never_returns"),
      "Finding: the loop never ends on a disconnected graph.")
claim("C41", "proved", gr("C41_pseudo_peripheral C41_undirected"))

def fr(names): return " ".join("Verif.Frames.Props." + n for n in names.split())
claim("C42", "partial", fr("C42_objectivity_partial C42_exact_partial C42_setFrame C42_setFrame_total C42_setAxes C42_setAxes_singular C42_cartesian_violated C42_item_violated"),
      "Proved for every sequence of operations that leaves the axes of Cartesian frames orthonormal; the axes setter of a Cartesian frame does not check this, and then the property is false.")
claim("C43", "proved", fr("C43_round_trip C43_compose C43_dcm_agree C43_succeeds C43_total C43_ambient"))
claim("C44", "proved", fr("C44_biorthogonal C44_involution C44_gram C44_volume C44_volume_not_signed C44_dual_exists C44_total"),
      "Finding: the volume is documented as signed but is the absolute value.")
claim("C45", "partial", fr("C45_vector_vector C45_tensor_vector C45_vector_tensor_partial C45_vector_tensor_violated C45_tensor_tensor C45_contraction C45_succeeds C45_total C45_contraction_total"),
      "The product of a vector and a tensor (in this order) is wrong in frames that are not orthonormal; the other products are proved for all frames.")
claim("C46", "partial", fr("C46_vector_vector_partial C46_cross_only_rotations C46_scaled_frame_violated C46_tensor_vector C46_vector_tensor C46_total C46_frames"),
      "True exactly for right-handed orthonormal frames.")
claim("C47", "partial", fr("C47_add C47_sub C47_scale C47_divide C47_neg C47_inplace_tensor C47_restore_tensor C47_isub_number_violated C47_operators_violated C47_mixed_refused C47_scale_refused C47_total"),
      "Tensor operands are proved; x -= number adds the number, reflected operators and in-place arrays behave differently from the binary ones.")
claim("C48", "partial", fr("C48_copy_copy C48_copy_deepcopy C48_method_copy_partial C48_method_copy_violated"),
      "The methods copy and deepcopy drop the frame.")
claim("C50", "partial", fr("C50_is_rectangular_partial C50_is_rectangular_exact C50_is_cartesian_exact C50_constructors C50_constructed C50_predicates_partial C50_small_frame_violated C50_setter_violated C50_independent_violated C50_independent C50_shortcuts C50_rectangular_shortcuts C50_classes_partial C50_orient C50_scale"),
      "With zero tolerances and operations that check their argument; setter, in-place transposition and the absolute tolerance break it.")
claim("C62", "proved", fr("C62_dual C62_total"))
claim("C63", "partial", fr("C63_metric_tensor_partial C63_metric_tensor_violated"),
      "Proved for orthonormal axes E; in general the metric tensor represents the square of E^T E instead of the identity.")
claim("C64", "partial", fr("C64_show_frame_partial C64_show_frame_violated C64_total"), "True for orthonormal frames only.")
claim("C65", "proved", fr("C65_transpose C65_involution"))

def tk(names): return " ".join("Verif.Tr.Props." + n for n in names.split())
claim("C49", "partial", tk("C49_second_order C49_refused C49_vectors C49_frames C49_transpose_axes C49_fourth_order_partial C49_fourth_order_compose C49_general_rule C49_compose C49_dimension_violated C49_integer_violated C49_single_matrix_refused"),
      "Vectors, frames and second order tensors of all shapes are proved; fourth order tensors only with three values per index and float components.")
claim("C51", "partial", tk("C51_inv2x2_partial C51_adj3x3 C51_inv3x3 C51_bulk C51_det_partial C51_det_violated C51_integer_violated"),
      "Inverses of float matrices and the adjugate are proved; det2x2 and det3x3 never write their result; inv2x2 of integer arrays is truncated.")

def ni(names): return " ".join("Verif.Numint.Props." + n for n in names.split())
claim("C59", "proved", ni("C59_two C59_three C59_product C59_linear C59_exact C59_refused"),
      "The one dimensional rule of numpy is an argument of the model.")
claim("C60", "proved", ni("C60_isclose C60_broadcast C60_reflexive_monotone C60_refused"))

def lg(names): return " ".join("Verif.Lag.Props." + n for n in names.split())
claim("C56", "partial", lg("C56_lagrange_partial C56_values C56_default_nodes C56_approx_partial C56_repeated_nodes C56_single_point_violated C56_repeated_index_violated C56_plain_dict_refused C56_nothing_given C56_different_numbers"),
      "Proved for two or more points with distinct indices; a single point raises a TypeError.")

def lq(names): return " ".join("Verif.LS.Props." + n for n in names.split())
claim("C52", "proved", lq("C52_reproduction C52_moving C52_succeeds C52_moving_succeeds C52_moving_plain_succeeds C52_refused C52_dimension_refused"),
      "Exact arithmetic; the inverse of numpy is modelled by its specification.")
claim("C53", "proved", lq("C53_minimizes C53_moving C53_plain"))
claim("C54", "proved", lq("C54_basis C54_supported"))
def wt(names): return " ".join("Verif.Wt.Props." + n for n in names.split())
claim("C66", "partial", lq("C66_fixed C66_moving_gradient C66_moving_hessian") + " " + wt("C66_cubic_gradient C66_cubic_hessian C66_fixed_core_violated"),
      "Proved for moving least squares and for fits with constant weights; a fit with a fixed weight function that is not constant reports other derivatives.")
claim("C55", "partial", wt("C55_set_integer_core C55_supported C55_range C55_monotone C55_construction C55_integer_core_violated C55_constant C55_singular C55_gradient_partial C55_hessian_partial C55_gradient_of_argument C55_gradient_sign_violated C55_hessian_core_violated C55_gradient_near_core_violated C55_singular_violated"),
      "Range and support are proved for all cores, supports and points; the reported gradient is the one with respect to the core (opposite sign with respect to the argument), the Hessian is wrong at the core and the gradient within 1e-12 of it.")

def kn(names): return " ".join("Verif.Knn.Props." + n for n in names.split())
claim("C57", "partial", kn("C57_mean C57_bounds C57_constant C57_one_neighbour_violated C57_integer_violated C57_few_points_violated C57_limit_violated"),
      "Proved for float data, two or more neighbours, at least as many sources and no limit; the search of the library is modelled by its specification. Integer data are truncated, one neighbour is refused, fewer sources read out of bounds.")
claim("C58", "partial", kn("C58_nearest C58_limit_partial C58_limit_ignored C58_limit_violated C58_refused"),
      "The limit is respected by scipy before 1.6.0, ignored since, and refused with sklearn.")

def li(names): return " ".join("Verif.Lin.Props." + n for n in names.split())
claim("C67", "partial", li("C67_linspace C67_linspace1d C67_vpath C67_equidistant C67_single_point_violated C67_equal_ends_violated C67_vpath_integer_violated C67_integer_refused"),
      "Proved for two or more points, different ends and float arrays; a single point raises a ZeroDivisionError, coinciding ends give NaN, and a path that starts at an integer array is truncated.")
claim("C68", "partial", li("C68_normalize C68_rows C68_norms C68_zero_violated"),
      "Proved for nonzero float vectors; the zero vector gives NaN, integer arrays are refused.")
claim("C69", "proved", li("C69_exists C69_penrose C69_least_squares C69_least_norm C69_left C69_right"),
      "Exact arithmetic; rank and inverse of numpy are modelled by their specification.")
claim("C70", "proved", li("C70_rows C70_columns C70_full_rank C70_empty"),
      "The rank of numpy is modelled by its specification.")
claim("C71", "proved", li("C71_permutation C71_zero C71_antisymmetric C71_determinant C71_cross"),
      "Determinants are exact; int() of a float determinant is not modelled.")
claim("C72", "partial", li("C72_unit_vector_partial C72_index_violated"),
      "Proved for indices inside of the vector; others give a longer vector or an exception.")
claim("C73", "partial", li("C73_symmetric C73_accepted C73_refused C73_row_violated C73_hermitian_partial C73_hermitian_violated"),
      "is_hermitian looks at the shape only; issymmetric accepts rows and columns of equal entries.")
claim("C74", "partial", li("C74_recognized C74_symmetric C74_semidefinite C74_nonsymmetric_violated C74_semidefinite_violated"),
      "Proved for symmetric matrices, and definite matrices are always recognized; there are nonsymmetric matrices wrongly accepted as definite and wrongly rejected as semidefinite.")
claim("C75", "proved", li("C75_semidefinite C75_definite"), "Exact arithmetic.")
claim("C76", "partial", li("C76_array C76_switch C76_containers C76_tuple_violated"),
      "Arrays and dictionaries are proved; a tuple comes back as a list.")

def fm(names): return " ".join("Verif.FrameMem.Props." + n for n in names.split())
claim("C77", "partial", fm("C77_constructor C77_setter_partial C77_fortran_violated C77_strided_refused C77_transpose_violated C77_alias_violated C77_scale_partial C77_integer_violated"),
      "Proved for the constructor in all programs, for assigned arrays in C order and for scaling float axes; assigning a Fortran-ordered array stores its transpose, an assigned array shares memory with the frame, transposing in place does nothing.")

def sk(names): return " ".join("Verif.Stacks.Props." + n for n in names.split())
claim("C79", "partial", sk("C79_different_lengths C79_single_frames C79_vector C79_vectors C79_vectors_multi C79_refused C79_short_stack_violated C79_frames C79_transpose C79_show C79_singular C79_one_frame_violated"),
      "Proved for stacks that fit, with any order of the loop; fewer matrices than vectors are not noticed and memory behind the array is read.")
claim("C80", "partial", sk("C80_orient_matrix C80_orient_partial C80_orient_refused C80_orient_new_violated C80_dual_refused C80_dual_violated C80_tensor_show C80_tensor_inplace C80_tensor2_refused C80_tensor2x3 C80_general_violated"),
      "Proved for showing, for in-place operations, for all operations of Tensor2x3 and for rotating three vectors; dual and orient_new of a stack of vectors mix the members or raise, Tensor2 stacks raise in every operation that returns a new tensor, general Tensor stacks cannot be transformed.")
claim("C81", "partial", sk("C81_tensor2 C81_tensor4 C81_tensor C81_tensor2x3 C81_tensor4x3 C81_rank C81_rank_all C81_default_frame_partial C81_default_frame_violated C81_is_bulk_violated C81_is_bulk_partial"),
      "Accepted shapes and ranks are proved; is_bulk never returns False, and the default frame has the wrong dimension for stacks of vectors made without the flag and for several leading axes.")

def cl(names): return " ".join("Verif.Close.Props." + n for n in names.split())
claim("C78", "partial", cl("C78_vectors C78_matrices C78_general C78_objective C78_show C78_reflexive C78_exact C78_isclose C78_isclose_matrices C78_isclose_general C78_all C78_number C78_refused C78_rank_violated C78_asymmetric_violated"),
      "Proved for tensors of equal rank in all frames; tensors of different rank are compared by broadcasting, and the relation is not symmetric.")

def co(names): return " ".join("Verif.Coeffs.Props." + n for n in names.split())
claim("C82", "partial", co("C82_sum C82_keys C82_variables C82_normalized_partial C82_normalized_violated C82_linear_partial C82_linear_total C82_irrational_violated C82_linear_violated C82_is_linear_sound C82_is_linear_complete C82_is_linear_violated"),
      "Proved for expressions with at most one constant term and for affine functions with numbers as coefficients; two constant terms (pi + 3) lose one when normalized, pi*x has the linear coefficient zero, x*y counts as linear, the function zero raises.")

def ca(names): return " ".join("Verif.Calc.Props." + n for n in names.split())
claim("C83", "partial", ca("C83_gradient C83_hessian C83_symmetric C83_exists C83_root C83_refused C83_order_violated"),
      "Derivatives proved for all expressions of the fragment in exact real arithmetic; SymPy's rules of differentiation are modelled rule by rule. Without given variables the order of the arguments depends on the iteration order of a set.")

def ro(names): return " ".join("Verif.Rot.Props." + n for n in names.split())
claim("C84", "partial", ro("C84_proper C84_accepted C84_body_space C84_inverse C84_third_axis C84_every_axis C84_zero_add C84_quaternion_violated C84_axis_violated C84_dcm_partial C84_dcm_violated"),
      "Exact real arithmetic, SymPy's conventions as part of the model. Proved for Body, Space and unit quaternions. Violated: quaternions are not normalized, so others give scaled matrices; 'Axis' fails for every axis; 'DCM' returns the transpose of the given matrix without checking it and refuses arrays.")
claim("C85", "partial", ro("C85_rigid C85_relative_partial C85_relative_violated C85_series C85_series_violated C85_objective C85_cartesian_violated"),
      "Proved for all frames and series, except where false: orient_new rotates about the ambient axes, not relative to the frame, and vectors rotate about the axes of their own frame.")

def fa(names): return " ".join("Verif.FA.Props." + n for n in names.split())
claim("C86", "partial", fa("C86_axes C86_class C86_foreign C86_succeeds_partial C86_reflected C86_undo C86_pure C86_rescale C86_tolerance_violated C86_zero_violated C86_order_violated"),
      "Proved for all classes and operands with exactly perpendicular axes; a frame that is rectangular within the tolerance only may raise when scaled, zero times a rectangular frame reports independent axes, and A * 2 and 2 * A have different classes.")
claim("C87", "partial", fa("C87_chop_tensor C87_idempotent C87_bound C87_chop_frame_partial C87_minmax C87_frame_violated C87_class_violated"),
      "Proved for vectors and tensors; chopping a frame changes what attached vectors stand for and may leave a Cartesian frame with axes that are not normal.")

def sa(names): return " ".join("Verif.SolveApi.Props." + n for n in names.split())
claim("C88", "partial", sa("C88_as_linsolve C88_returns C88_equivalent C88_prescribed C88_reduce_shape C88_triangular_partial C88_diagonal_partial C88_triangular C88_diagonal C88_whole_numbers C88_backsub C88_arguments C88_inplace C88_failed C88_numpy C88_refused C88_shape_violated C88_ignored_violated C88_failed_violated"),
      "Equivalence, shapes of reduce, in-place behaviour and the NumPy method are proved without conditions; the triangular and diagonal forms need that no nonzero entry is skipped as negligible, which is stated by minors of the matrix and holds for matrices of moderate whole numbers. Violated: a 1d right hand side gives a 2d solution, prescribed values without presc_bool are ignored by two of three code paths, and a failed in-place call has changed the arguments.")

def sv(names): return " ".join("Verif.SymInv.Props." + n for n in names.split())
claim("C89", "partial", sv("C89_inverse_partial C89_adjugate_partial C89_transposed_violated C89_shape_violated"),
      "For all matrices in which no entry contains the internal symbol of a later entry. Violated otherwise (the replacements are made one after the other), and other shapes are not refused.")

def pd(names): return " ".join("Verif.Products.Props." + n for n in names.split())
claim("C90", "proved", pd("C90_products C90_congruence C90_symmetric C90_transitive C90_semidefinite"))

def hi(names): return " ".join("Verif.Hist.Props." + n for n in names.split())
claim("C91", "partial", hi("C91_edges C91_centres_partial C91_number C91_integer_edges_violated"),
      "The counts are proved without conditions, the centres for edges given as floats; for edges given as integers the centres are truncated.")

def dt(names): return " ".join("Verif.DTypes.Props." + n for n in names.split())
claim("C92", "partial", dt("C92_predicates_partial C92_single_violated C92_itype C92_itype_violated C92_none_or_false"),
      "The predicates are never wrong when they answer True, and complete for double precision and Booleans; floats and integers of other sizes are not recognized, and itype_of_ftype accepts types that are no floats.")

def sy(names): return " ".join("Verif.Syms.Props." + n for n in names.split())
claim("C93", "partial", sy("C93_value C93_unknown_name C93_mixed_refused C93_symbols C93_subs_partial C93_gradient_partial C93_subs_text_violated C93_subs_names_violated C93_subs_twice_violated C93_gradient_violated"),
      "Values are right for all assumptions; gradients if the symbols of the expression are variables or have no assumptions; substitution if also the substituted symbols are those of the function. Violated otherwise: zero gradients, substitutions without effect, and a second substitution that differs from the first.")

def gb(names): return " ".join("Verif.BGA.Props." + n for n in names.split())
claim("C94", "partial", g("C94_construct C94_terminates C94_result C94_returns C94_recycled C94_fresh C94_rejected_partial C94_rejected_sticks_violated C94_rejected_forgets_violated C94_direction_violated") + " " + gb("C94_bga"),
      "All but the last sentence. A rejected call discards the previous result, its invalid parameters stay in force and make later calls fail, and after a rejected change of direction evolve() compares in the old direction.")

claim("C95", "proved", lp("C95_accepts C95_refuses"))

claim("C96", "proved", "Verif.BGA.Props.C96_no_crossover Verif.BGA.Props.C96_no_mutation")

def fo(*names): return " ".join("Verif.FnObj.Props." + n for n in names)
claim("C97", "partial", fo("C97_text", "C97_expression", "C97_callables", "C97_keywords", "C97_update", "C97_failed_update_partial", "C97_failed_update_violated", "C97_subs", "C97_raises", "C97_simplify", "C97_methods", "C97_methods_violated", "C97_is_linear_partial", "C97_is_linear_violated", "C97_optimums", "C97_text_twice", "C97_optimums_refused", "C97_test_function_partial", "C97_optimums_violated"),
      "violated in four places: an update that raises makes an object forget that it was made from a text, a method value of a mixin class is not called, is_linear of functions made from callables only asks whether a Hessian was given, TestFunction drops optimums given after optText")

def fu(*names): return " ".join("Verif.FUfunc.Props." + n for n in names)
claim("C98", "partial", fu("C98_call", "C98_out", "C98_objective", "C98_foreign", "C98_regular", "C98_singular", "C98_half_done_violated", "C98_at_violated", "C98_equal_partial", "C98_truth_violated", "C98_functions_partial", "C98_recursion_violated"),
      "violated in four places: every comparison of frames is true as a truth value, ufunc.at changes the axes behind the back of the attached tensors, a call that raises at its second output leaves the first one changed, frames in lists or keyword arguments of NumPy functions end in a RecursionError")

def fj(*names): return " ".join("Verif.FitObj.Props." + n for n in names)
claim("C99", "partial", fj("C99_weighted", "C99_plain", "C99_moving", "C99_moving_plain", "C99_history", "C99_isolated", "C99_making", "C99_core_violated", "C99_alias_violated", "C99_callable_violated", "C99_lists", "C99_lists_violated"),
      "violated in four places: evaluating a moving fit moves the core of the user's weight function, an array set as the core stays shared with the user, callables that are not weight functions of the library are ignored without an exception, moving_least_squares refuses lists")

def jo(*names): return " ".join("Verif.JagObj.Props." + n for n in names)
claim("C100", "partial", jo("C100_sessions", "C100_sequence", "C100_item", "C100_widths", "C100_set_item_partial", "C100_set_row_partial", "C100_others", "C100_assign_violated", "C100_shared_violated", "C100_lists", "C100_join", "C100_join_refused", "C100_ufunc_partial", "C100_ufunc_violated"),
      "violated in three places: with rows of different lengths assignments raise a TypeError and operators and universal functions a ValueError, and a jagged array made from a 2d array shares its memory")

def rn(*names): return " ".join("Verif.Rnd.Props." + n for n in names)
claim("C101", "partial", rn("C101_decode", "C101_decode_close", "C101_decode_upper", "C101_decode_violated", "C101_linspace", "C101_linspace_close", "C101_linspace_violated"),
      "violated at the upper end: in double precision all ones decode to more than 7 for the range from -0.7 to 7, and linspace1d(0, 7, 26) ends beyond 7; the rest holds for every rounding")
claim("C102", "partial", rn("C102_mean", "C102_bounds", "C102_monotone", "C102_default_constant", "C102_constant_violated"),
      "constants are reproduced exactly with the default of four neighbours; violated for others: in double precision the constant 1 is approximated by less than 1 with six and by more than 1 with nine neighbours")

def rf(*names): return " ".join("Verif.RFrames.Props." + n for n in names)
claim("C103", "proved", rf("C103_own_frame", "C103_round_trip", "C103_transitive", "C103_tensor_round_trip", "C103_axes_exact", "loops_complete", "round_trip_inexact"),
      "the accuracy of the inverse computed by LAPACK for frames that are not Cartesian is a hypothesis (Sound); for Cartesian frames it is a condition on the given axes")

def gn(*names): return " ".join("Verif.GANan.Props." + n for n in names)
claim("C104", "partial", gn("C104_defined", "C104_champion", "C104_keeps_defined", "C104_hidden_violated", "C104_minimize_select_partial", "C104_maximize_select_violated", "C104_maximize_stuck_violated", "C104_solve_violated"),
      "a defined champion is never displaced and selection is right when minimizing; violated: an undefined member of the first population is returned as the solution, undefined members hide the rest of their population, and selection prefers them when maximizing")

def gc(*names): return " ".join("Verif.GAChance.Props." + n for n in names)
claim("C105", "proved", gc("C105_rate", "C105_limit"),
      "for the settings that work (C03, C14) and objectives defined everywhere; about evolve, not about when solve stops")

def rs(*names): return " ".join("Verif.RSolve.Props." + n for n in names)
claim("C106", "partial", rs("C106_gauss", "C106_gauss_free", "C106_jordan", "C106_jordan_free", "C106_forward", "C106_tol",
      "exact_linsolve", "C106_pivot_violated"),
      "the bounds involve the size of the numbers met during the elimination; without exchange of rows these can be huge for harmless matrices, and then the results are inaccurate without a warning")

claim("C107", "proved", rf("C107_drift", "C107_axes", "C107_self_dual", "C107_hand", "C107_turns", "C107_exact_violated"),
      "duals of frames that are nearly orthonormal are assumed to be computed well (np.linalg.inv); the defect really grows, see C107_exact_violated")

claim("C108", "partial", fr("C108_show_partial C108_contraction_partial C108_axes_refused C108_vector_first_violated C108_rank_violated C108_letters C108_frame_violated"),
      "Proved for up to thirteen indices per tensor. A vector as the first operand raises, tensors with more than thirteen indices can neither be shown nor contracted, and results with more than thirteen indices cannot be asked for in a frame.")

def mo(*names): return " ".join("Verif.MlsObj.Props." + n for n in names)
claim("C109", "partial", mo("C109_history", "C109_values_partial", "C109_refused", "C109_assigned_violated", "C109_point_violated",
      "C109_shape_violated", "C109_leading_axes_violated"),
      "Independence of the history and the values are proved. Axes of length one are dropped, the coordinates of a single point and targets with several leading axes are refused or mixed up, and neighbours and factors that are assigned are ignored.")

def cm(*names): return " ".join("Verif.CsrMem.Props." + n for n in names)
claim("C110", "partial", cm("C110_sessions", "C110_copy", "C110_dense", "C110_row_view", "C110_irow_view", "C110_scipy_shared", "C110_formats",
      "C110_large_violated"),
      "Copies, views and the rows of dense arrays are proved. Integers with more than 53 bits as values and columns from 2^31 on are changed without notice; to_scipy shares memory with the matrix.")

def rm(*names): return " ".join("Verif.RNormal.Props." + n for n in names)
claim("C111", "partial", rm("C111_unit", "C111_accepts", "C111_again", "C111_accepted", "C111_assumed", "C111_skew_violated",
      "C111_zero_violated"),
      "Proved for axes that are perpendicular up to a small cosine and not zero. With normalize=True, skewed axes of very different lengths pass the check before they are normalized, and zero base vectors become NaN.")

def fw(*names): return " ".join("Verif.FrameNew.Props." + n for n in names)
claim("C112", "partial", fw("C112_dim", "C112_stack", "C112_axes", "C112_refused", "C112_checked", "C112_kinds", "C112_keywords",
      "C112_nothing_violated", "C112_list_violated", "C112_eye_violated", "C112_shape_violated"),
      "Proved for integer dimensions, tuples and arrays. Without arguments, or with a NumPy integer as dimension, a frame without axes that holds NaN is made; a list is dropped if a dimension is given as well; eye ignores NumPy integers and tuples; ReferenceFrame accepts any shape.")
def ru(*names): return " ".join("Verif.RUtils.Props." + n for n in names)
claim("C113", "partial", ru("C113_range_order", "C113_range_close", "C113_range_target", "C113_range_default",
      "C113_range_violated", "C113_range_far_violated", "C113_centres", "C113_centres_close", "C113_centres_violated",
      "C113_points", "C113_points_order", "C113_points_same_violated"),
      "Order, error bounds and the default ranges are proved; with other ranges the ends are missed and values leave the target range, by whole numbers if the source range is far from zero; a centre may coincide with an edge; on a segment without length the points between are NaN.")

def gl(*names): return " ".join("Verif.GALaws.Props." + n for n in names)
claim("C114", "partial", gl("C114_tournament", "C114_chance", "C114_better", "C114_pairs", "C114_start", "C114_mutation",
      "C114_off_violated"),
      "Everything is proved for the distributions NumPy documents, except that a probability of mutation of zero does not switch mutation off: rand() may be zero, and the comparison is strict.")

def nd(*names): return " ".join("Verif.NanData.Props." + n for n in names)
claim("C115", "proved", nd("C115_solve", "C115_constrained", "C115_prescribed", "C115_columns", "C115_numbers", "C115_clip",
      "C115_close", "C115_rows", "C115_average"),
      "Numbers are exact; NaN absorbs in every operation and makes every comparison false. An overflow or a quotient by zero counts as not a number.")

def rc(*names): return " ".join("Verif.RClosed.Props." + n for n in names)
claim("C116", "partial", rc("C116_inverse", "C116_inverse2", "C116_bulk", "C116_singular2", "C116_singular_violated",
      "C116_singular2_violated", "C116_quadrature2", "C116_quadrature3", "C116_orders"),
      "Singular matrices of order three are not always refused and regular ones not always accepted (C116_singular_violated); for order two regular ones may be refused (C116_singular2_violated). No underflow, overflow, infinities or NaN.")

def cn(*names): return " ".join("Verif.CsrNb.Props." + n for n in names)
claim("C117", "partial", cn("C117_same_partial", "C117_outside_violated", "C117_rows", "C117_fits", "C117_fits_kept", "C117_returned"),
      "Violated: compiled code does not check indices, so an assignment beyond the end of a row, which raises IndexError outside, changes the next row. Arrays of another format assigned to the attributes are not modelled.")

def ip(*names): return " ".join("Verif.Indep.Props." + n for n in names)
claim("C118", "partial", ip("C118_exact", "C118_too_many", "C118_tolerance", "C118_units_violated", "C118_invariant", "C118_stack", "C118_rounded_partial", "C118_backward", "C118_rounded_many_partial", "C118_two", "C118_dependent_violated", "C118_volume_violated", "C118_independent_violated"),
      "Exact arithmetic without a tolerance is proved. Violated: with a tolerance the answer depends on the unit of length; in double precision (7,7), (25,25) are independent, the volume of (5,5), (39,39) is NaN, and (1,0), (1,2^-30) are dependent.")

def rf(*names): return " ".join("Verif.RFit.Props." + n for n in names)
claim("C119", "partial", rf("C119_reproduction", "C119_second", "C119_second_rest", "C119_returns", "C119_undetermined_violated"),
      "The error bounds for values, gradients and second derivatives are proved. Violated: two measurements at the same place 1 + 2^-30 do not determine a line, but a fit is returned; its value there is 0 though both measurements are 1.")

def rl(*names): return " ".join("Verif.RLP.Props." + n for n in names)
claim("C120", "partial", rl("C120_satisfied", "C120_kept", "C120_representable", "C120_objective", "C120_infeasible_violated"),
      "All four bounds are proved; that the feasible set is kept exactly is violated for coefficients that are no floats: x/3 = 1 and x = 3 have no common solution after the conversion.")

def tp(*names): return " ".join("Verif.TProg.Props." + n for n in names)
claim("C121", "partial", tp("C121_simulation_partial", "C121_frames_irrelevant_partial", "C121_vector_tensor_violated") + " Verif.Rot.Props.C121_terms Verif.Rot.Props.C121_terms_noCross",
      "Proved for all statements listed except products of a vector with a tensor, which depend on the frame of the vector. Products of general tensors are C45; adding numbers to tensors, the methods copy and deepcopy, comparisons and cross products are known to depend on frames (C47, C48, C78, C46) and are not among the statements. For orthonormal right handed frames, C121_terms covers terms with all products, cross products and contractions included.")

def wk(*names): return " ".join("Verif.Weak.Props." + n for n in names)
claim("C122", "partial", wk("C122_registry", "C122_objectivity_partial", "C122_addresses", "C122_forgotten", "C122_adjusted", "C122_moved", "C122_made", "C122_array_frame_violated"),
      "Proved for all programs that do not assign the frame of the array of a tensor (v.array.frame = g): that statement changes the meaning of v and leaves it in the registry of its old frame.")

def pr(*names): return " ".join("Verif.Par.Props." + n for n in names)
claim("C123", "partial", pr("C123_repeat", "C123_tile", "C123_equal_rows", "C123_to_range", "C123_bin_centers", "C123_widths", "C123_linspace1d", "C123_show_vectors", "C123_show_vectors_multi", "C123_show_frames", "C123_show_frames_multi", "C123_transpose", "C123_vpath", "C123_norms", "C123_find", "C123_repeat_diagonal", "C123_linspace", "C123_tr2", "C123_tr4", "C123_inv3x3", "C123_approximate", "C123_count_cols_csr_violated", "C123_show_frame_violated"),
      "Proved for every function with a parallel loop except two cases that leave their arrays: count_cols_csr (always) and show_frame of a frame with fewer vectors than components; for these it is proved that no execution ends without an access outside the arrays.")

def tme(*names): return " ".join("Verif.TMem.Props." + n for n in names)
claim("C124", "partial", tme("C124_separate", "C124_sharing_stays", "C124_fresh", "C124_slice", "C124_untouched_step", "C124_untouched", "C124_write", "C124_construct", "C124_operator", "C124_own_frame", "C124_combine", "C124_show", "C124_assign", "C124_assign_length", "C124_in_place", "C124_fill", "C124_copy", "C124_set_frame", "C124_set_axes", "C124_live_partial", "C124_live_transposed", "C124_transpose_in_place", "C124_refused", "C124_slice_frame_violated", "C124_live_violated"),
      "Proved except for arrays obtained before transposing in place, which stay tied to the memory but not to the tensor (their order and, later, their frame are the old ones), and for the attribute frame of slices, which keeps naming the frame the tensor had when the slice was cut; both are refuted with programs.")

def mix(*names): return " ".join("Verif.Mixed.Props." + n for n in names)
claim("C125", "partial", mix("C125_left", "C125_right", "C125_number", "C125_tensors", "C125_kinds", "C125_frame_operator", "C125_unary", "C125_unary_means", "C125_objective_partial", "C125_scaled", "C125_zero", "C125_close_number", "C125_vectors", "C125_bare", "C125_dot_array_violated", "C125_frame_first_violated", "C125_add_number_violated", "C125_add_list_violated"),
      "Which combinations raise is proved for all of them, and so is independence of frames except where it is false: dot of a tensor with an array, a list or a frame and NumPy functions with a frame in front work on bare components, adding a number in place likewise, and += and -= with anything else are ignored; each is refuted with a witness. For vector times tensor and cross products see C45 and C46.")

def lps(*names): return " ".join("Verif.LPSolve.Props." + n for n in names)
claim("C126", "partial", lps("C126_optimal_partial", "C126_failure_partial", "C126_returns", "C126_options", "C126_bounds", "C126_refused", "C126_other_method", "C126_dropped", "C126_method_violated", "C126_constraints_violated"),
      "For every solver that keeps the documentation of linprog, and problems without strict inequalities and callable operators (see C16 and C22), with the default method and options that do not replace what was computed. Refuted otherwise: another method drops the restriction to whole numbers and still reports success, and A_ub=None drops the constraints. The reported value needs the objective to list its variables in the order of the problem (see C17).")

def lay(*names): return " ".join("Verif.Layout.Props." + n for n in names)
claim("C127", "partial", lay("C127_default", "C127_as_is_partial", "C127_lists_partial", "C127_fortran_violated", "C127_order_violated", "C127_refused_violated"),
      "Proved for all layouts with the default settings. Violated with contiguous=False and order='F': matrices in Fortran order come out transposed, other layouts are refused.")

def cho(*names): return " ".join("Verif.Choice.Props." + n for n in names)
claim("C128", "partial", cho("C128_members", "C128_chances", "C128_one", "C128_uniform", "C128_default", "C128_empty", "C128_refused", "C128_kind", "C128_mixed_violated"),
      "Proved for choices of one kind, with rounding except for the chances, which are stated in exact arithmetic. Violated if numbers and texts are mixed: numbers come back as texts.")

def gam(*names): return " ".join("Verif.GAMem.Props." + n for n in names)
claim("C129", "partial", gam("C129_consistent_partial", "C129_age", "C129_kept", "C129_copies", "C129_genotypes_violated", "C129_fitness_violated", "C129_state_violated"),
      "Proved for all programs that do not write to an array while values computed from it are cached, nor to the champion. Such writes are accepted and lead to wrong reports (three witnesses).")

claim("C130", "proved", " ".join("Verif.Frames.Props." + n for n in ("C130_order", "C130_history", "C130_independent")),
      "Exact arithmetic; how numpy finds an order is not modelled, any order that leaves one operand is allowed. More than thirteen indices are refused (C108).")

claim("C131", "proved", " ".join("Verif.Frames.Props." + n for n in ("C131_einsum", "C131_history", "C131_independent", "C131_history_matters")),
      "No overflow or underflow: every operation has relative error u. Each contraction takes two operands or more, as the orders of numpy do.")

claim("C132", "partial", " ".join("Verif.Frames.Props." + n for n in ("C132_duality", "C132_transposition", "C132_symmetric_partial", "C132_units_violated")),
      "assertSymmetricTensor compares with an absolute tolerance: it succeeds exactly if the components differ from those with reversed indices by no more than atol / (1 - rtol), so every tensor passes in suitable units.")

claim("C133", "partial", " ".join("Verif.Vec.Props." + n for n in ("C133_values_partial", "C133_constant_violated", "C133_gradient_partial", "C133_gradient_violated", "C133_run_partial", "C133_run_constant_violated", "C133_plain", "C133_dimension", "C133_dimension_violated", "C133_ranges")),
      "Functions that mention none of their variables (after simplification) give a single number whatever the number of points, and a genetic algorithm raises TypeError in its first cycle for them; gradients with constant entries are ragged; Function objects made from callables cannot be optimized unless a dimension is given.")

claim("C134", "partial", " ".join("Verif.GA.Props." + n for n in ("C134_champion", "C134_best_partial", "C134_turn_violated", "C134_rejected_turn", "C134_solve")),
      "After a change of direction the champion is compared with the old champion only, so members seen before the change may beat it; after a rejected change of direction candidates are chosen in the new direction and compared in the old one.")

claim("C135", "partial", " ".join("Verif.Rot.Props." + n for n in ("C135_objective", "C135_commutes", "C135_reflections", "C135_space", "C135_series", "C135_frames_violated", "C135_skew_violated")),
      "Objects given in different frames, or in a frame that is not orthonormal, are not rotated alike: orient turns components, not the vector in space. Cross products need right handed frames. Division and stacks are not among the terms.")

claim("C136", "partial", " ".join("Verif.LPText.Props." + n for n in ("C136_solved_partial", "C136_returns", "C136_variables_violated")),
      "Strict inequalities are left out (see C16), every constraint is given all variables of the problem, in any order, or none if it depends on all of them: with variables left out and not mentioned in the text solve raises KeyError (violated). That SymPy's simplify keeps the value of linear expressions and returns them as sums without products of variables is a hypothesis; expansion of expressions is shown to meet it.")

claim("C137", "partial", " ".join("Verif.GA.Props." + n for n in ("C137_unharmed", "C137_cause", "C137_finished", "C137_recycled", "C137_reset", "C137_once_partial", "C137_first", "C137_heard", "C137_twice_violated", "C137_skipped_violated")) + " Verif.BGA.Props.C137_bga_partial",
      "One failure after a cycle that went well (or in the first cycle) does not finish the optimizer; two in a row do, since the second is raised inside of the generator, and it stays finished until it is reset (violated). The population whose evaluation failed is evaluated later for the selection but never compared to the champion (violated).")

claim("C138", "partial", " ".join("Verif.JagUnique.Props." + n for n in ("C138_unique_partial", "C138_same_partial", "C138_counts", "C138_joined", "C138_positional_violated", "C138_positions_violated", "C138_unforced_violated", "C138_empty_violated")),
      "Flags must be given by keyword; positional flags and axis, equal_nan are refused (violated). Positions are rows and columns or positions in the flat array, depending on what is wrapped (violated). unique2d(J) agrees with np.unique(J) for arrays with rows made with the default settings; without rows and with force_numpy=False and rows of equal widths it raises (violated).")

claim("C139", "partial", " ".join("Verif.GenSym.Props." + n for n in ("C139_symbols_partial", "C139_comma", "C139_fields", "C139_single_violated", "C139_nothing_violated", "C139_blank_violated")),
      "For one field surrounded by characters without a special meaning and two indices or more (or one with seq=True, or a template that ends with a comma). One index raises TypeError, none ValueError, a blank in the template makes further symbols (violated). Names with colons (ranges of SymPy) are a parameter of the model; backslashes and other fields of str.format are not modelled.")

claim("C140", "partial", " ".join("Verif.Lag.Props." + n for n in ("C140_remainder_partial", "C140_accuracy_partial", "C140_noise_partial")),
      "For two points or more in exact arithmetic; with one point approx_Lagrange_1d raises TypeError (C56_single_point_violated).")

claim("C141", "partial", kn("C141_accuracy_partial C141_lipschitz_partial C141_integer_violated"),
      "As C57: for float data, two or more neighbours, at least as many sources and no limit; integer data are truncated, so that a constant function is missed by its whole value.")

claim("C142", "proved", " ".join("Verif.LS.Props." + n for n in ("C142_superposition", "C142_moments", "C142_local", "C142_accuracy", "C142_derivatives", "C142_moving")),
      "Exact arithmetic; the inverse of numpy is modelled by its specification.")

claim("C143", "proved", " ".join("Verif.Numint.Props." + n for n in ("C143_polynomials", "C143_accuracy", "C143_converges", "C143_documented")),
      "The one dimensional rule of numpy is an argument of the model; it is assumed to be what its documentation says: n points, exact for powers below 2 n. C143_documented proves that such a rule exists for every n, has its points in the interval and weights that are not negative, and is unique. Exact arithmetic.")

claim("C144", "proved", " ".join("Verif.GAChance.Props." + n for n in ("C144_resolution", "C144_sharp", "C144_accuracy", "C144_limit")),
      "Exact arithmetic. The draws of numpy.random are as in C105.")

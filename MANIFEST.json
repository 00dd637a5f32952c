{
 "claims": [
  {
   "property": "C01",
   "status": "proved",
   "theorems": [
    "Verif.GA.Props.C01_population_size",
    "Verif.GA.Props.C01_constructed"
   ],
   "note": ""
  },
  {
   "property": "C02",
   "status": "partial",
   "theorems": [
    "Verif.GA.Props.C02_pairing_partial",
    "Verif.GA.Props.C02_two_parents_lost",
    "Verif.GA.Props.C02_odd_rejected"
   ],
   "note": "Holds for every even number of genotypes except 2, where no pair is produced."
  },
  {
   "property": "C03",
   "status": "partial",
   "theorems": [
    "Verif.BGA.Props.C03_generation_partial",
    "Verif.BGA.Props.C03_small_population_fails",
    "Verif.BGA.Props.C10_too_short"
   ],
   "note": "Holds from nPop=8 and dim*length=3 on for the elitism settings that work (C14); false for nPop=4, for fewer than three bits and for the failing elitism settings."
  },
  {
   "property": "C04",
   "status": "proved",
   "theorems": [
    "Verif.BGA.Props.C04_elite_survives",
    "Verif.BGA.Props.C04_best_monotone"
   ],
   "note": "nPop >= 8 and dim*length >= 3: below, no generation can be produced (C03)."
  },
  {
   "property": "C05",
   "status": "proved",
   "theorems": [
    "Verif.GA.Props.C05_champion_is_best",
    "Verif.GA.Props.C05_champion_monotone",
    "Verif.GA.Props.C05_best_candidate",
    "Verif.GA.Props.C05_best_candidate_returns",
    "Verif.BGA.Props.C05_bga"
   ],
   "note": ""
  },
  {
   "property": "C06",
   "status": "proved",
   "theorems": [
    "Verif.GA.Props.C06_age"
   ],
   "note": ""
  },
  {
   "property": "C07",
   "status": "proved",
   "theorems": [
    "Verif.GA.Props.C07_terminates",
    "Verif.GA.Props.C07_stops_first",
    "Verif.GA.Props.C07_iteration_limits",
    "Verif.GA.Props.C07_default_criterion",
    "Verif.GA.Props.C07_criterion_needs_champion",
    "Verif.GA.Props.C07_maxiter_zero_still_iterates"
   ],
   "note": ""
  },
  {
   "property": "C08",
   "status": "proved",
   "theorems": [
    "Verif.GA.Props.C08_evaluations"
   ],
   "note": ""
  },
  {
   "property": "C09",
   "status": "proved",
   "theorems": [
    "Verif.BGA.Props.C09_formula",
    "Verif.BGA.Props.C09_grid"
   ],
   "note": ""
  },
  {
   "property": "C10",
   "status": "proved",
   "theorems": [
    "Verif.BGA.Props.C10_crossover",
    "Verif.BGA.Props.C10_skipped",
    "Verif.BGA.Props.C10_bits",
    "Verif.BGA.Props.C10_too_short"
   ],
   "note": ""
  },
  {
   "property": "C100",
   "status": "partial",
   "theorems": [
    "Verif.JagObj.Props.C100_sessions",
    "Verif.JagObj.Props.C100_sequence",
    "Verif.JagObj.Props.C100_item",
    "Verif.JagObj.Props.C100_widths",
    "Verif.JagObj.Props.C100_set_item_partial",
    "Verif.JagObj.Props.C100_set_row_partial",
    "Verif.JagObj.Props.C100_others",
    "Verif.JagObj.Props.C100_assign_violated",
    "Verif.JagObj.Props.C100_shared_violated",
    "Verif.JagObj.Props.C100_lists",
    "Verif.JagObj.Props.C100_join",
    "Verif.JagObj.Props.C100_join_refused",
    "Verif.JagObj.Props.C100_ufunc_partial",
    "Verif.JagObj.Props.C100_ufunc_violated"
   ],
   "note": "violated in three places: with rows of different lengths assignments raise a TypeError and operators and universal functions a ValueError, and a jagged array made from a 2d array shares its memory"
  },
  {
   "property": "C101",
   "status": "partial",
   "theorems": [
    "Verif.Rnd.Props.C101_decode",
    "Verif.Rnd.Props.C101_decode_close",
    "Verif.Rnd.Props.C101_decode_upper",
    "Verif.Rnd.Props.C101_decode_violated",
    "Verif.Rnd.Props.C101_linspace",
    "Verif.Rnd.Props.C101_linspace_close",
    "Verif.Rnd.Props.C101_linspace_violated"
   ],
   "note": "violated at the upper end: in double precision all ones decode to more than 7 for the range from -0.7 to 7, and linspace1d(0, 7, 26) ends beyond 7; the rest holds for every rounding"
  },
  {
   "property": "C102",
   "status": "partial",
   "theorems": [
    "Verif.Rnd.Props.C102_mean",
    "Verif.Rnd.Props.C102_bounds",
    "Verif.Rnd.Props.C102_monotone",
    "Verif.Rnd.Props.C102_default_constant",
    "Verif.Rnd.Props.C102_constant_violated"
   ],
   "note": "constants are reproduced exactly with the default of four neighbours; violated for others: in double precision the constant 1 is approximated by less than 1 with six and by more than 1 with nine neighbours"
  },
  {
   "property": "C103",
   "status": "proved",
   "theorems": [
    "Verif.RFrames.Props.C103_own_frame",
    "Verif.RFrames.Props.C103_round_trip",
    "Verif.RFrames.Props.C103_transitive",
    "Verif.RFrames.Props.C103_tensor_round_trip",
    "Verif.RFrames.Props.C103_axes_exact",
    "Verif.RFrames.Props.loops_complete",
    "Verif.RFrames.Props.round_trip_inexact"
   ],
   "note": "the accuracy of the inverse computed by LAPACK for frames that are not Cartesian is a hypothesis (Sound); for Cartesian frames it is a condition on the given axes"
  },
  {
   "property": "C104",
   "status": "partial",
   "theorems": [
    "Verif.GANan.Props.C104_defined",
    "Verif.GANan.Props.C104_champion",
    "Verif.GANan.Props.C104_keeps_defined",
    "Verif.GANan.Props.C104_hidden_violated",
    "Verif.GANan.Props.C104_minimize_select_partial",
    "Verif.GANan.Props.C104_maximize_select_violated",
    "Verif.GANan.Props.C104_maximize_stuck_violated",
    "Verif.GANan.Props.C104_solve_violated"
   ],
   "note": "a defined champion is never displaced and selection is right when minimizing; violated: an undefined member of the first population is returned as the solution, undefined members hide the rest of their population, and selection prefers them when maximizing"
  },
  {
   "property": "C105",
   "status": "proved",
   "theorems": [
    "Verif.GAChance.Props.C105_rate",
    "Verif.GAChance.Props.C105_limit"
   ],
   "note": "for the settings that work (C03, C14) and objectives defined everywhere; about evolve, not about when solve stops"
  },
  {
   "property": "C106",
   "status": "partial",
   "theorems": [
    "Verif.RSolve.Props.C106_gauss",
    "Verif.RSolve.Props.C106_gauss_free",
    "Verif.RSolve.Props.C106_jordan",
    "Verif.RSolve.Props.C106_jordan_free",
    "Verif.RSolve.Props.C106_forward",
    "Verif.RSolve.Props.C106_tol",
    "Verif.RSolve.Props.exact_linsolve",
    "Verif.RSolve.Props.C106_pivot_violated"
   ],
   "note": "the bounds involve the size of the numbers met during the elimination; without exchange of rows these can be huge for harmless matrices, and then the results are inaccurate without a warning"
  },
  {
   "property": "C107",
   "status": "proved",
   "theorems": [
    "Verif.RFrames.Props.C107_drift",
    "Verif.RFrames.Props.C107_axes",
    "Verif.RFrames.Props.C107_self_dual",
    "Verif.RFrames.Props.C107_hand",
    "Verif.RFrames.Props.C107_turns",
    "Verif.RFrames.Props.C107_exact_violated"
   ],
   "note": "duals of frames that are nearly orthonormal are assumed to be computed well (np.linalg.inv); the defect really grows, see C107_exact_violated"
  },
  {
   "property": "C108",
   "status": "partial",
   "theorems": [
    "Verif.Frames.Props.C108_show_partial",
    "Verif.Frames.Props.C108_contraction_partial",
    "Verif.Frames.Props.C108_axes_refused",
    "Verif.Frames.Props.C108_vector_first_violated",
    "Verif.Frames.Props.C108_rank_violated",
    "Verif.Frames.Props.C108_letters",
    "Verif.Frames.Props.C108_frame_violated"
   ],
   "note": "Proved for up to thirteen indices per tensor. A vector as the first operand raises, tensors with more than thirteen indices can neither be shown nor contracted, and results with more than thirteen indices cannot be asked for in a frame."
  },
  {
   "property": "C109",
   "status": "partial",
   "theorems": [
    "Verif.MlsObj.Props.C109_history",
    "Verif.MlsObj.Props.C109_values_partial",
    "Verif.MlsObj.Props.C109_refused",
    "Verif.MlsObj.Props.C109_assigned_violated",
    "Verif.MlsObj.Props.C109_point_violated",
    "Verif.MlsObj.Props.C109_shape_violated",
    "Verif.MlsObj.Props.C109_leading_axes_violated"
   ],
   "note": "Independence of the history and the values are proved. Axes of length one are dropped, the coordinates of a single point and targets with several leading axes are refused or mixed up, and neighbours and factors that are assigned are ignored."
  },
  {
   "property": "C11",
   "status": "proved",
   "theorems": [
    "Verif.BGA.Props.C11_divide",
    "Verif.BGA.Props.C11_select"
   ],
   "note": ""
  },
  {
   "property": "C110",
   "status": "partial",
   "theorems": [
    "Verif.CsrMem.Props.C110_sessions",
    "Verif.CsrMem.Props.C110_copy",
    "Verif.CsrMem.Props.C110_dense",
    "Verif.CsrMem.Props.C110_row_view",
    "Verif.CsrMem.Props.C110_irow_view",
    "Verif.CsrMem.Props.C110_scipy_shared",
    "Verif.CsrMem.Props.C110_formats",
    "Verif.CsrMem.Props.C110_large_violated"
   ],
   "note": "Copies, views and the rows of dense arrays are proved. Integers with more than 53 bits as values and columns from 2^31 on are changed without notice; to_scipy shares memory with the matrix."
  },
  {
   "property": "C111",
   "status": "partial",
   "theorems": [
    "Verif.RNormal.Props.C111_unit",
    "Verif.RNormal.Props.C111_accepts",
    "Verif.RNormal.Props.C111_again",
    "Verif.RNormal.Props.C111_accepted",
    "Verif.RNormal.Props.C111_assumed",
    "Verif.RNormal.Props.C111_skew_violated",
    "Verif.RNormal.Props.C111_zero_violated"
   ],
   "note": "Proved for axes that are perpendicular up to a small cosine and not zero. With normalize=True, skewed axes of very different lengths pass the check before they are normalized, and zero base vectors become NaN."
  },
  {
   "property": "C112",
   "status": "partial",
   "theorems": [
    "Verif.FrameNew.Props.C112_dim",
    "Verif.FrameNew.Props.C112_stack",
    "Verif.FrameNew.Props.C112_axes",
    "Verif.FrameNew.Props.C112_refused",
    "Verif.FrameNew.Props.C112_checked",
    "Verif.FrameNew.Props.C112_kinds",
    "Verif.FrameNew.Props.C112_keywords",
    "Verif.FrameNew.Props.C112_nothing_violated",
    "Verif.FrameNew.Props.C112_list_violated",
    "Verif.FrameNew.Props.C112_eye_violated",
    "Verif.FrameNew.Props.C112_shape_violated"
   ],
   "note": "Proved for integer dimensions, tuples and arrays. Without arguments, or with a NumPy integer as dimension, a frame without axes that holds NaN is made; a list is dropped if a dimension is given as well; eye ignores NumPy integers and tuples; ReferenceFrame accepts any shape."
  },
  {
   "property": "C113",
   "status": "partial",
   "theorems": [
    "Verif.RUtils.Props.C113_range_order",
    "Verif.RUtils.Props.C113_range_close",
    "Verif.RUtils.Props.C113_range_target",
    "Verif.RUtils.Props.C113_range_default",
    "Verif.RUtils.Props.C113_range_violated",
    "Verif.RUtils.Props.C113_range_far_violated",
    "Verif.RUtils.Props.C113_centres",
    "Verif.RUtils.Props.C113_centres_close",
    "Verif.RUtils.Props.C113_centres_violated",
    "Verif.RUtils.Props.C113_points",
    "Verif.RUtils.Props.C113_points_order",
    "Verif.RUtils.Props.C113_points_same_violated"
   ],
   "note": "Order, error bounds and the default ranges are proved; with other ranges the ends are missed and values leave the target range, by whole numbers if the source range is far from zero; a centre may coincide with an edge; on a segment without length the points between are NaN."
  },
  {
   "property": "C114",
   "status": "partial",
   "theorems": [
    "Verif.GALaws.Props.C114_tournament",
    "Verif.GALaws.Props.C114_chance",
    "Verif.GALaws.Props.C114_better",
    "Verif.GALaws.Props.C114_pairs",
    "Verif.GALaws.Props.C114_start",
    "Verif.GALaws.Props.C114_mutation",
    "Verif.GALaws.Props.C114_off_violated"
   ],
   "note": "Everything is proved for the distributions NumPy documents, except that a probability of mutation of zero does not switch mutation off: rand() may be zero, and the comparison is strict."
  },
  {
   "property": "C115",
   "status": "proved",
   "theorems": [
    "Verif.NanData.Props.C115_solve",
    "Verif.NanData.Props.C115_constrained",
    "Verif.NanData.Props.C115_prescribed",
    "Verif.NanData.Props.C115_columns",
    "Verif.NanData.Props.C115_numbers",
    "Verif.NanData.Props.C115_clip",
    "Verif.NanData.Props.C115_close",
    "Verif.NanData.Props.C115_rows",
    "Verif.NanData.Props.C115_average"
   ],
   "note": "Numbers are exact; NaN absorbs in every operation and makes every comparison false. An overflow or a quotient by zero counts as not a number."
  },
  {
   "property": "C116",
   "status": "partial",
   "theorems": [
    "Verif.RClosed.Props.C116_inverse",
    "Verif.RClosed.Props.C116_inverse2",
    "Verif.RClosed.Props.C116_bulk",
    "Verif.RClosed.Props.C116_singular2",
    "Verif.RClosed.Props.C116_singular_violated",
    "Verif.RClosed.Props.C116_singular2_violated",
    "Verif.RClosed.Props.C116_quadrature2",
    "Verif.RClosed.Props.C116_quadrature3",
    "Verif.RClosed.Props.C116_orders"
   ],
   "note": "Singular matrices of order three are not always refused and regular ones not always accepted (C116_singular_violated); for order two regular ones may be refused (C116_singular2_violated). No underflow, overflow, infinities or NaN."
  },
  {
   "property": "C117",
   "status": "partial",
   "theorems": [
    "Verif.CsrNb.Props.C117_same_partial",
    "Verif.CsrNb.Props.C117_outside_violated",
    "Verif.CsrNb.Props.C117_rows",
    "Verif.CsrNb.Props.C117_fits",
    "Verif.CsrNb.Props.C117_fits_kept",
    "Verif.CsrNb.Props.C117_returned"
   ],
   "note": "Violated: compiled code does not check indices, so an assignment beyond the end of a row, which raises IndexError outside, changes the next row. Arrays of another format assigned to the attributes are not modelled."
  },
  {
   "property": "C118",
   "status": "partial",
   "theorems": [
    "Verif.Indep.Props.C118_exact",
    "Verif.Indep.Props.C118_too_many",
    "Verif.Indep.Props.C118_tolerance",
    "Verif.Indep.Props.C118_units_violated",
    "Verif.Indep.Props.C118_invariant",
    "Verif.Indep.Props.C118_stack",
    "Verif.Indep.Props.C118_rounded_partial",
    "Verif.Indep.Props.C118_backward",
    "Verif.Indep.Props.C118_rounded_many_partial",
    "Verif.Indep.Props.C118_two",
    "Verif.Indep.Props.C118_dependent_violated",
    "Verif.Indep.Props.C118_volume_violated",
    "Verif.Indep.Props.C118_independent_violated"
   ],
   "note": "Exact arithmetic without a tolerance is proved. Violated: with a tolerance the answer depends on the unit of length; in double precision (7,7), (25,25) are independent, the volume of (5,5), (39,39) is NaN, and (1,0), (1,2^-30) are dependent."
  },
  {
   "property": "C119",
   "status": "partial",
   "theorems": [
    "Verif.RFit.Props.C119_reproduction",
    "Verif.RFit.Props.C119_second",
    "Verif.RFit.Props.C119_second_rest",
    "Verif.RFit.Props.C119_returns",
    "Verif.RFit.Props.C119_undetermined_violated"
   ],
   "note": "The error bounds for values, gradients and second derivatives are proved. Violated: two measurements at the same place 1 + 2^-30 do not determine a line, but a fit is returned; its value there is 0 though both measurements are 1."
  },
  {
   "property": "C12",
   "status": "proved",
   "theorems": [
    "Verif.GA.Props.C12_honest_record",
    "Verif.GA.Props.C12_reraises",
    "Verif.GA.Props.C12_objective_failure"
   ],
   "note": ""
  },
  {
   "property": "C120",
   "status": "partial",
   "theorems": [
    "Verif.RLP.Props.C120_satisfied",
    "Verif.RLP.Props.C120_kept",
    "Verif.RLP.Props.C120_representable",
    "Verif.RLP.Props.C120_objective",
    "Verif.RLP.Props.C120_infeasible_violated"
   ],
   "note": "All four bounds are proved; that the feasible set is kept exactly is violated for coefficients that are no floats: x/3 = 1 and x = 3 have no common solution after the conversion."
  },
  {
   "property": "C121",
   "status": "partial",
   "theorems": [
    "Verif.TProg.Props.C121_simulation_partial",
    "Verif.TProg.Props.C121_frames_irrelevant_partial",
    "Verif.TProg.Props.C121_vector_tensor_violated",
    "Verif.Rot.Props.C121_terms",
    "Verif.Rot.Props.C121_terms_noCross"
   ],
   "note": "Proved for all statements listed except products of a vector with a tensor, which depend on the frame of the vector. Products of general tensors are C45; adding numbers to tensors, the methods copy and deepcopy, comparisons and cross products are known to depend on frames (C47, C48, C78, C46) and are not among the statements. For orthonormal right handed frames, C121_terms covers terms with all products, cross products and contractions included."
  },
  {
   "property": "C122",
   "status": "partial",
   "theorems": [
    "Verif.Weak.Props.C122_registry",
    "Verif.Weak.Props.C122_objectivity_partial",
    "Verif.Weak.Props.C122_addresses",
    "Verif.Weak.Props.C122_forgotten",
    "Verif.Weak.Props.C122_adjusted",
    "Verif.Weak.Props.C122_moved",
    "Verif.Weak.Props.C122_made",
    "Verif.Weak.Props.C122_array_frame_violated"
   ],
   "note": "Proved for all programs that do not assign the frame of the array of a tensor (v.array.frame = g): that statement changes the meaning of v and leaves it in the registry of its old frame."
  },
  {
   "property": "C123",
   "status": "partial",
   "theorems": [
    "Verif.Par.Props.C123_repeat",
    "Verif.Par.Props.C123_tile",
    "Verif.Par.Props.C123_equal_rows",
    "Verif.Par.Props.C123_to_range",
    "Verif.Par.Props.C123_bin_centers",
    "Verif.Par.Props.C123_widths",
    "Verif.Par.Props.C123_linspace1d",
    "Verif.Par.Props.C123_show_vectors",
    "Verif.Par.Props.C123_show_vectors_multi",
    "Verif.Par.Props.C123_show_frames",
    "Verif.Par.Props.C123_show_frames_multi",
    "Verif.Par.Props.C123_transpose",
    "Verif.Par.Props.C123_vpath",
    "Verif.Par.Props.C123_norms",
    "Verif.Par.Props.C123_find",
    "Verif.Par.Props.C123_repeat_diagonal",
    "Verif.Par.Props.C123_linspace",
    "Verif.Par.Props.C123_tr2",
    "Verif.Par.Props.C123_tr4",
    "Verif.Par.Props.C123_inv3x3",
    "Verif.Par.Props.C123_approximate",
    "Verif.Par.Props.C123_count_cols_csr_violated",
    "Verif.Par.Props.C123_show_frame_violated"
   ],
   "note": "Proved for every function with a parallel loop except two cases that leave their arrays: count_cols_csr (always) and show_frame of a frame with fewer vectors than components; for these it is proved that no execution ends without an access outside the arrays."
  },
  {
   "property": "C124",
   "status": "partial",
   "theorems": [
    "Verif.TMem.Props.C124_separate",
    "Verif.TMem.Props.C124_sharing_stays",
    "Verif.TMem.Props.C124_fresh",
    "Verif.TMem.Props.C124_slice",
    "Verif.TMem.Props.C124_untouched_step",
    "Verif.TMem.Props.C124_untouched",
    "Verif.TMem.Props.C124_write",
    "Verif.TMem.Props.C124_construct",
    "Verif.TMem.Props.C124_operator",
    "Verif.TMem.Props.C124_own_frame",
    "Verif.TMem.Props.C124_combine",
    "Verif.TMem.Props.C124_show",
    "Verif.TMem.Props.C124_assign",
    "Verif.TMem.Props.C124_assign_length",
    "Verif.TMem.Props.C124_in_place",
    "Verif.TMem.Props.C124_fill",
    "Verif.TMem.Props.C124_copy",
    "Verif.TMem.Props.C124_set_frame",
    "Verif.TMem.Props.C124_set_axes",
    "Verif.TMem.Props.C124_live_partial",
    "Verif.TMem.Props.C124_live_transposed",
    "Verif.TMem.Props.C124_transpose_in_place",
    "Verif.TMem.Props.C124_refused",
    "Verif.TMem.Props.C124_slice_frame_violated",
    "Verif.TMem.Props.C124_live_violated"
   ],
   "note": "Proved except for arrays obtained before transposing in place, which stay tied to the memory but not to the tensor (their order and, later, their frame are the old ones), and for the attribute frame of slices, which keeps naming the frame the tensor had when the slice was cut; both are refuted with programs."
  },
  {
   "property": "C125",
   "status": "partial",
   "theorems": [
    "Verif.Mixed.Props.C125_left",
    "Verif.Mixed.Props.C125_right",
    "Verif.Mixed.Props.C125_number",
    "Verif.Mixed.Props.C125_tensors",
    "Verif.Mixed.Props.C125_kinds",
    "Verif.Mixed.Props.C125_frame_operator",
    "Verif.Mixed.Props.C125_unary",
    "Verif.Mixed.Props.C125_unary_means",
    "Verif.Mixed.Props.C125_objective_partial",
    "Verif.Mixed.Props.C125_scaled",
    "Verif.Mixed.Props.C125_zero",
    "Verif.Mixed.Props.C125_close_number",
    "Verif.Mixed.Props.C125_vectors",
    "Verif.Mixed.Props.C125_bare",
    "Verif.Mixed.Props.C125_dot_array_violated",
    "Verif.Mixed.Props.C125_frame_first_violated",
    "Verif.Mixed.Props.C125_add_number_violated",
    "Verif.Mixed.Props.C125_add_list_violated"
   ],
   "note": "Which combinations raise is proved for all of them, and so is independence of frames except where it is false: dot of a tensor with an array, a list or a frame and NumPy functions with a frame in front work on bare components, adding a number in place likewise, and += and -= with anything else are ignored; each is refuted with a witness. For vector times tensor and cross products see C45 and C46."
  },
  {
   "property": "C126",
   "status": "partial",
   "theorems": [
    "Verif.LPSolve.Props.C126_optimal_partial",
    "Verif.LPSolve.Props.C126_failure_partial",
    "Verif.LPSolve.Props.C126_returns",
    "Verif.LPSolve.Props.C126_options",
    "Verif.LPSolve.Props.C126_bounds",
    "Verif.LPSolve.Props.C126_refused",
    "Verif.LPSolve.Props.C126_other_method",
    "Verif.LPSolve.Props.C126_dropped",
    "Verif.LPSolve.Props.C126_method_violated",
    "Verif.LPSolve.Props.C126_constraints_violated"
   ],
   "note": "For every solver that keeps the documentation of linprog, and problems without strict inequalities and callable operators (see C16 and C22), with the default method and options that do not replace what was computed. Refuted otherwise: another method drops the restriction to whole numbers and still reports success, and A_ub=None drops the constraints. The reported value needs the objective to list its variables in the order of the problem (see C17)."
  },
  {
   "property": "C127",
   "status": "partial",
   "theorems": [
    "Verif.Layout.Props.C127_default",
    "Verif.Layout.Props.C127_as_is_partial",
    "Verif.Layout.Props.C127_lists_partial",
    "Verif.Layout.Props.C127_fortran_violated",
    "Verif.Layout.Props.C127_order_violated",
    "Verif.Layout.Props.C127_refused_violated"
   ],
   "note": "Proved for all layouts with the default settings. Violated with contiguous=False and order='F': matrices in Fortran order come out transposed, other layouts are refused."
  },
  {
   "property": "C128",
   "status": "partial",
   "theorems": [
    "Verif.Choice.Props.C128_members",
    "Verif.Choice.Props.C128_chances",
    "Verif.Choice.Props.C128_one",
    "Verif.Choice.Props.C128_uniform",
    "Verif.Choice.Props.C128_default",
    "Verif.Choice.Props.C128_empty",
    "Verif.Choice.Props.C128_refused",
    "Verif.Choice.Props.C128_kind",
    "Verif.Choice.Props.C128_mixed_violated"
   ],
   "note": "Proved for choices of one kind, with rounding except for the chances, which are stated in exact arithmetic. Violated if numbers and texts are mixed: numbers come back as texts."
  },
  {
   "property": "C129",
   "status": "partial",
   "theorems": [
    "Verif.GAMem.Props.C129_consistent_partial",
    "Verif.GAMem.Props.C129_age",
    "Verif.GAMem.Props.C129_kept",
    "Verif.GAMem.Props.C129_copies",
    "Verif.GAMem.Props.C129_genotypes_violated",
    "Verif.GAMem.Props.C129_fitness_violated",
    "Verif.GAMem.Props.C129_state_violated"
   ],
   "note": "Proved for all programs that do not write to an array while values computed from it are cached, nor to the champion. Such writes are accepted and lead to wrong reports (three witnesses)."
  },
  {
   "property": "C13",
   "status": "partial",
   "theorems": [
    "Verif.GA.Props.C13_accepted_parameters_partial",
    "Verif.GA.Props.C13_rejected_call_changes_parameters"
   ],
   "note": "A rejected call leaves the new parameters in force: the first half of the property is false."
  },
  {
   "property": "C130",
   "status": "proved",
   "theorems": [
    "Verif.Frames.Props.C130_order",
    "Verif.Frames.Props.C130_history",
    "Verif.Frames.Props.C130_independent"
   ],
   "note": "Exact arithmetic; how numpy finds an order is not modelled, any order that leaves one operand is allowed. More than thirteen indices are refused (C108)."
  },
  {
   "property": "C131",
   "status": "proved",
   "theorems": [
    "Verif.Frames.Props.C131_einsum",
    "Verif.Frames.Props.C131_history",
    "Verif.Frames.Props.C131_independent",
    "Verif.Frames.Props.C131_history_matters"
   ],
   "note": "No overflow or underflow: every operation has relative error u. Each contraction takes two operands or more, as the orders of numpy do."
  },
  {
   "property": "C132",
   "status": "partial",
   "theorems": [
    "Verif.Frames.Props.C132_duality",
    "Verif.Frames.Props.C132_transposition",
    "Verif.Frames.Props.C132_symmetric_partial",
    "Verif.Frames.Props.C132_units_violated"
   ],
   "note": "assertSymmetricTensor compares with an absolute tolerance: it succeeds exactly if the components differ from those with reversed indices by no more than atol / (1 - rtol), so every tensor passes in suitable units."
  },
  {
   "property": "C133",
   "status": "partial",
   "theorems": [
    "Verif.Vec.Props.C133_values_partial",
    "Verif.Vec.Props.C133_constant_violated",
    "Verif.Vec.Props.C133_gradient_partial",
    "Verif.Vec.Props.C133_gradient_violated",
    "Verif.Vec.Props.C133_run_partial",
    "Verif.Vec.Props.C133_run_constant_violated",
    "Verif.Vec.Props.C133_plain",
    "Verif.Vec.Props.C133_dimension",
    "Verif.Vec.Props.C133_dimension_violated",
    "Verif.Vec.Props.C133_ranges"
   ],
   "note": "Functions that mention none of their variables (after simplification) give a single number whatever the number of points, and a genetic algorithm raises TypeError in its first cycle for them; gradients with constant entries are ragged; Function objects made from callables cannot be optimized unless a dimension is given."
  },
  {
   "property": "C134",
   "status": "partial",
   "theorems": [
    "Verif.GA.Props.C134_champion",
    "Verif.GA.Props.C134_best_partial",
    "Verif.GA.Props.C134_turn_violated",
    "Verif.GA.Props.C134_rejected_turn",
    "Verif.GA.Props.C134_solve"
   ],
   "note": "After a change of direction the champion is compared with the old champion only, so members seen before the change may beat it; after a rejected change of direction candidates are chosen in the new direction and compared in the old one."
  },
  {
   "property": "C135",
   "status": "partial",
   "theorems": [
    "Verif.Rot.Props.C135_objective",
    "Verif.Rot.Props.C135_commutes",
    "Verif.Rot.Props.C135_reflections",
    "Verif.Rot.Props.C135_space",
    "Verif.Rot.Props.C135_series",
    "Verif.Rot.Props.C135_frames_violated",
    "Verif.Rot.Props.C135_skew_violated"
   ],
   "note": "Objects given in different frames, or in a frame that is not orthonormal, are not rotated alike: orient turns components, not the vector in space. Cross products need right handed frames. Division and stacks are not among the terms."
  },
  {
   "property": "C136",
   "status": "partial",
   "theorems": [
    "Verif.LPText.Props.C136_solved_partial",
    "Verif.LPText.Props.C136_returns",
    "Verif.LPText.Props.C136_variables_violated"
   ],
   "note": "Strict inequalities are left out (see C16), every constraint is given all variables of the problem, in any order, or none if it depends on all of them: with variables left out and not mentioned in the text solve raises KeyError (violated). That SymPy's simplify keeps the value of linear expressions and returns them as sums without products of variables is a hypothesis; expansion of expressions is shown to meet it."
  },
  {
   "property": "C137",
   "status": "partial",
   "theorems": [
    "Verif.GA.Props.C137_unharmed",
    "Verif.GA.Props.C137_cause",
    "Verif.GA.Props.C137_finished",
    "Verif.GA.Props.C137_recycled",
    "Verif.GA.Props.C137_reset",
    "Verif.GA.Props.C137_once_partial",
    "Verif.GA.Props.C137_first",
    "Verif.GA.Props.C137_heard",
    "Verif.GA.Props.C137_twice_violated",
    "Verif.GA.Props.C137_skipped_violated",
    "Verif.BGA.Props.C137_bga_partial"
   ],
   "note": "One failure after a cycle that went well (or in the first cycle) does not finish the optimizer; two in a row do, since the second is raised inside of the generator, and it stays finished until it is reset (violated). The population whose evaluation failed is evaluated later for the selection but never compared to the champion (violated)."
  },
  {
   "property": "C138",
   "status": "partial",
   "theorems": [
    "Verif.JagUnique.Props.C138_unique_partial",
    "Verif.JagUnique.Props.C138_same_partial",
    "Verif.JagUnique.Props.C138_counts",
    "Verif.JagUnique.Props.C138_joined",
    "Verif.JagUnique.Props.C138_positional_violated",
    "Verif.JagUnique.Props.C138_positions_violated",
    "Verif.JagUnique.Props.C138_unforced_violated",
    "Verif.JagUnique.Props.C138_empty_violated"
   ],
   "note": "Flags must be given by keyword; positional flags and axis, equal_nan are refused (violated). Positions are rows and columns or positions in the flat array, depending on what is wrapped (violated). unique2d(J) agrees with np.unique(J) for arrays with rows made with the default settings; without rows and with force_numpy=False and rows of equal widths it raises (violated)."
  },
  {
   "property": "C139",
   "status": "partial",
   "theorems": [
    "Verif.GenSym.Props.C139_symbols_partial",
    "Verif.GenSym.Props.C139_comma",
    "Verif.GenSym.Props.C139_fields",
    "Verif.GenSym.Props.C139_single_violated",
    "Verif.GenSym.Props.C139_nothing_violated",
    "Verif.GenSym.Props.C139_blank_violated"
   ],
   "note": "For one field surrounded by characters without a special meaning and two indices or more (or one with seq=True, or a template that ends with a comma). One index raises TypeError, none ValueError, a blank in the template makes further symbols (violated). Names with colons (ranges of SymPy) are a parameter of the model; backslashes and other fields of str.format are not modelled."
  },
  {
   "property": "C14",
   "status": "partial",
   "theorems": [
    "Verif.BGA.Props.C14_elitism_partial",
    "Verif.BGA.Props.C14_fails",
    "Verif.BGA.Props.C14_none_fails",
    "Verif.BGA.Props.C14_one_fails",
    "Verif.EliteShare.Props.C14_share",
    "Verif.EliteShare.Props.C14_share_written",
    "Verif.EliteShare.Props.C14_share_violated",
    "Verif.EliteShare.Props.C14_share_one_fails",
    "Verif.EliteShare.Props.C14_refused_stays"
   ],
   "note": "The settings that work are characterised exactly; None, 1.0 and odd elites above nPop/2 fail; fractions lose an individual to rounding."
  },
  {
   "property": "C140",
   "status": "partial",
   "theorems": [
    "Verif.Lag.Props.C140_remainder_partial",
    "Verif.Lag.Props.C140_accuracy_partial",
    "Verif.Lag.Props.C140_noise_partial"
   ],
   "note": "For two points or more in exact arithmetic; with one point approx_Lagrange_1d raises TypeError (C56_single_point_violated)."
  },
  {
   "property": "C141",
   "status": "partial",
   "theorems": [
    "Verif.Knn.Props.C141_accuracy_partial",
    "Verif.Knn.Props.C141_lipschitz_partial",
    "Verif.Knn.Props.C141_integer_violated"
   ],
   "note": "As C57: for float data, two or more neighbours, at least as many sources and no limit; integer data are truncated, so that a constant function is missed by its whole value."
  },
  {
   "property": "C142",
   "status": "proved",
   "theorems": [
    "Verif.LS.Props.C142_superposition",
    "Verif.LS.Props.C142_moments",
    "Verif.LS.Props.C142_local",
    "Verif.LS.Props.C142_accuracy",
    "Verif.LS.Props.C142_derivatives",
    "Verif.LS.Props.C142_moving"
   ],
   "note": "Exact arithmetic; the inverse of numpy is modelled by its specification."
  },
  {
   "property": "C143",
   "status": "proved",
   "theorems": [
    "Verif.Numint.Props.C143_polynomials",
    "Verif.Numint.Props.C143_accuracy",
    "Verif.Numint.Props.C143_converges",
    "Verif.Numint.Props.C143_documented"
   ],
   "note": "The one dimensional rule of numpy is an argument of the model; it is assumed to be what its documentation says: n points, exact for powers below 2 n. C143_documented proves that such a rule exists for every n, has its points in the interval and weights that are not negative, and is unique. Exact arithmetic."
  },
  {
   "property": "C144",
   "status": "proved",
   "theorems": [
    "Verif.GAChance.Props.C144_resolution",
    "Verif.GAChance.Props.C144_sharp",
    "Verif.GAChance.Props.C144_accuracy",
    "Verif.GAChance.Props.C144_limit"
   ],
   "note": "Exact arithmetic. The draws of numpy.random are as in C105."
  },
  {
   "property": "C15",
   "status": "proved",
   "theorems": [
    "Verif.GA.Props.C15_genom_order",
    "Verif.GA.Props.C15_genom_equality"
   ],
   "note": ""
  },
  {
   "property": "C16",
   "status": "partial",
   "theorems": [
    "Verif.LP.Props.C16_feasible_set",
    "Verif.LP.Props.C16_strict_partial",
    "Verif.LP.Props.C16_violation_strict_rounding",
    "Verif.LP.Props.C16_nonlinear_terms_dropped",
    "Verif.LP.Props.C16_missing_variable_raises"
   ],
   "note": "Equalities and non-strict inequalities: proved. Strict inequalities: proved in exact arithmetic, false under rounding that absorbs the shift."
  },
  {
   "property": "C17",
   "status": "partial",
   "theorems": [
    "Verif.LP.Props.C17_optimizers",
    "Verif.LP.Props.C17_value_partial",
    "Verif.LP.Props.C17_solve_ok",
    "Verif.LP.Props.C17_violation_order"
   ],
   "note": "The optimizers are proved; the reported value is wrong if the objective lists its variables in another order than the problem."
  },
  {
   "property": "C18",
   "status": "proved",
   "theorems": [
    "Verif.LP.Props.C18_sparse_dense"
   ],
   "note": ""
  },
  {
   "property": "C19",
   "status": "proved",
   "theorems": [
    "Verif.LP.Props.C19_rows",
    "Verif.LP.Props.C19_integrality"
   ],
   "note": ""
  },
  {
   "property": "C20",
   "status": "partial",
   "theorems": [
    "Verif.Rel.Props.C20_white",
    "Verif.Rel.Props.C20_strip_spec",
    "Verif.Rel.Props.C20_split",
    "Verif.Rel.Props.C20_accepted",
    "Verif.Rel.Props.C20_no_operator",
    "Verif.Rel.Props.C20_more_operators_partial",
    "Verif.Rel.Props.C20_violation_line_feed",
    "Verif.Rel.Props.C20_blank_sides_accepted"
   ],
   "note": "Strings with more than one operator are rejected unless a line feed hides the rest of the text."
  },
  {
   "property": "C21",
   "status": "proved",
   "theorems": [
    "Verif.Rel.Props.C21_text",
    "Verif.Rel.Props.C21_text_relation",
    "Verif.Rel.Props.C21_text_alone",
    "Verif.Rel.Props.C21_relate",
    "Verif.Rel.Props.C21_class_mismatch",
    "Verif.Rel.Props.C21_grammar",
    "Verif.Rel.Props.C21_unambiguous",
    "Verif.Rel.Props.C21_unbalanced_sides_accepted"
   ],
   "note": ""
  },
  {
   "property": "C22",
   "status": "partial",
   "theorems": [
    "Verif.LP.Props.C22_honoured_partial",
    "Verif.LP.Props.C22_violation_dropped",
    "Verif.LP.Props.C22_violation_reversed"
   ],
   "note": "False for plain relations with a callable (dropped) and for callables other than <= (translated as <=)."
  },
  {
   "property": "C23",
   "status": "partial",
   "theorems": [
    "Verif.Rel.Props.C23_substitute",
    "Verif.Rel.Props.C23_order",
    "Verif.Rel.Props.C23_remaining",
    "Verif.Rel.Props.C23_function_partial",
    "Verif.Rel.Props.C23_call",
    "Verif.Rel.Props.C23_partial_subs_unusable",
    "Verif.Rel.Props.C23_violation"
   ],
   "note": "The expression level is proved; a Function after partial substitution cannot be called."
  },
  {
   "property": "C24",
   "status": "partial",
   "theorems": [
    "Verif.TestFn.Props.C24_optimums",
    "Verif.TestFn.Props.C24_rosenbrock_partial",
    "Verif.TestFn.Props.C24_rosenbrock_minimum",
    "Verif.TestFn.Props.C24_rosenbrock_violation",
    "Verif.TestFn.Props.C24_himmelblau_partial",
    "Verif.TestFn.Props.C24_himmelblau_decimals",
    "Verif.TestFn.Props.C24_himmelblau_violation",
    "Verif.TestFn.Props.C24_goldstein_price",
    "Verif.TestFn.Props.C24_beale",
    "Verif.TestFn.Props.C24_matyas"
   ],
   "note": "Beale, Matyas and Goldstein-Price are proved; the Rosenbrock optimum is wrong for a other than 1 and three of the Himmelblau optima are given to six decimals (C24_himmelblau_decimals: the function has exactly four global minima and the list gives each of them up to less than 1e-6 in each coordinate)."
  },
  {
   "property": "C25",
   "status": "partial",
   "theorems": [
    "Verif.Solve.Props.C25_minors",
    "Verif.Solve.Props.C25_whole_numbers",
    "Verif.Solve.Props.C25_none_prescribed",
    "Verif.Solve.Props.C25_constrained_partial",
    "Verif.Solve.Props.C25_solution_partial",
    "Verif.Solve.Props.C25_jordan_finite",
    "Verif.Solve.Props.C25_violation_skipped",
    "Verif.Solve.Props.C25_violation_integer"
   ],
   "note": "Holds if no bordered minor of the matrix is negligible without being zero (in particular for whole-number entries with minors up to 1/tol, stored as floats); false otherwise and for integer matrices."
  },
  {
   "property": "C26",
   "status": "partial",
   "theorems": [
    "Verif.Solve.Props.C26_minors",
    "Verif.Solve.Props.C25_whole_numbers",
    "Verif.Solve.Props.C26_jordan_partial",
    "Verif.Solve.Props.C26_gauss_partial",
    "Verif.Solve.Props.C26_incomplete_prescription",
    "Verif.Solve.Props.C26_violation_no_pivoting",
    "Verif.Solve.Props.C26_violation_small",
    "Verif.Solve.Props.C26_violation_last_pivot",
    "Verif.Solve.Props.C26_violation_skipped"
   ],
   "note": "The code detects vanishing leading minors, not singularity: there is no pivoting and the last pivot of Gauss-Jordan is not checked."
  },
  {
   "property": "C27",
   "status": "proved",
   "theorems": [
    "Verif.Sparse.Props.C27_dense_round_trip",
    "Verif.Sparse.Props.C27_rows_are_stored_entries",
    "Verif.Sparse.Props.C27_taken_over",
    "Verif.Sparse.Props.C27_eye",
    "Verif.Sparse.Props.C27_row_out_of_range",
    "Verif.Sparse.Props.C27_row_below_range",
    "Verif.Sparse.Props.C27_negative_row",
    "Verif.Sparse.Props.C27_missing_shape"
   ],
   "note": "Findings: negative row indices are accepted but wrong; without a shape the number of columns is the largest row count."
  },
  {
   "property": "C28",
   "status": "proved",
   "theorems": [
    "Verif.Sparse.Props.C28_jagged_to_csr",
    "Verif.Sparse.Props.C28_no_rows",
    "Verif.Sparse.Props.C28_to_csr"
   ],
   "note": ""
  },
  {
   "property": "C29",
   "status": "proved",
   "theorems": [
    "Verif.Sparse.Props.C29_round_trip",
    "Verif.Sparse.Props.C29_bad_cuts",
    "Verif.Sparse.Props.C29_refused",
    "Verif.Sparse.Props.C29_rows",
    "Verif.Sparse.Props.C29_topology",
    "Verif.Sparse.Props.C29_shape",
    "Verif.Sparse.Props.C29_vstack",
    "Verif.Sparse.Props.C29_concatenate_ignores_axis"
   ],
   "note": "Finding: concatenate ignores the axis."
  },
  {
   "property": "C30",
   "status": "proved",
   "theorems": [
    "Verif.Sparse.Props.C30_lower_upper",
    "Verif.Sparse.Props.C30_cover"
   ],
   "note": ""
  },
  {
   "property": "C31",
   "status": "proved",
   "theorems": [
    "Verif.ASO.Props.C31_unique2d",
    "Verif.ASO.Props.C31_unique2d_jagged",
    "Verif.ASO.Props.C31_dense_kernel",
    "Verif.ASO.Props.C31_flat_kernel",
    "Verif.ASO.Props.C31_dense",
    "Verif.ASO.Props.C31_awkward",
    "Verif.ASO.Props.C31_jagged"
   ],
   "note": ""
  },
  {
   "property": "C32",
   "status": "partial",
   "theorems": [
    "Verif.Utils.Props.C32_clip_partial",
    "Verif.Utils.Props.C32_integer_array_fails"
   ],
   "note": "Holds whenever the bounds are representable in the array; integer arrays with fractional bounds store truncated bounds."
  },
  {
   "property": "C33",
   "status": "partial",
   "theorems": [
    "Verif.Utils.Props.C33_flattenC",
    "Verif.Utils.Props.C33_flattenF",
    "Verif.Utils.Props.C33_flatten2d",
    "Verif.Utils.Props.C33_flatten2d_other_order",
    "Verif.Utils.Props.C33_bool_to_float",
    "Verif.Utils.Props.C33_repeat",
    "Verif.Utils.Props.C33_repeat1d",
    "Verif.Utils.Props.C33_tile",
    "Verif.Utils.Props.C33_tile1d",
    "Verif.Utils.Props.C33_repeat_diagonal",
    "Verif.Utils.Props.C33_bin_centers_partial",
    "Verif.Utils.Props.C33_bin_centers_integer_edges"
   ],
   "note": "bin_centers of integer edges are truncated; tile stores in the dtype of its first argument."
  },
  {
   "property": "C34",
   "status": "proved",
   "theorems": [
    "Verif.Utils.Props.C34_schedule_independent",
    "Verif.Utils.Props.C34_equal_rows",
    "Verif.Utils.Props.C34_count_cols"
   ],
   "note": ""
  },
  {
   "property": "C35",
   "status": "partial",
   "theorems": [
    "Verif.Utils.Props.C35_to_range_partial",
    "Verif.Utils.Props.C35_degenerate",
    "Verif.Utils.Props.C35_defaults",
    "Verif.Utils.Props.C35_integer_values_fail"
   ],
   "note": "Integer arrays are truncated."
  },
  {
   "property": "C36",
   "status": "partial",
   "theorems": [
    "Verif.Utils.Props.C36_find1d_partial",
    "Verif.Utils.Props.C36_find2d_partial",
    "Verif.Utils.Props.C36_missing_element_unnoticed"
   ],
   "note": "An element that does not occur is not reported: the compiled code reads beyond an empty array."
  },
  {
   "property": "C37",
   "status": "partial",
   "theorems": [
    "Verif.Utils.Props.C37_float_partial",
    "Verif.Utils.Props.C37_integer_rectangular_partial",
    "Verif.Utils.Props.C37_integer_square_diagonal",
    "Verif.Utils.Props.C37_integer_square_fails",
    "Verif.Utils.Props.C37_mixed_dtypes_fail",
    "Verif.Utils.Props.C37_ordered"
   ],
   "note": "False for integer arrays with equally many rows and for an integer array against a float array."
  },
  {
   "property": "C38",
   "status": "partial",
   "theorems": [
    "Verif.Utils.Props.C38_counts_partial",
    "Verif.Utils.Props.C38_one_entry_too_many",
    "Verif.Utils.Props.C38_wrong_count"
   ],
   "note": "The property is false: wrong length and wrong counts; only a degenerate case is right."
  },
  {
   "property": "C39",
   "status": "proved",
   "theorems": [
    "Verif.Utils.Props.C39_atleastnd",
    "Verif.Utils.Props.C39_number",
    "Verif.Utils.Props.C39_matrixform",
    "Verif.Utils.Props.C39_matrixform_zero_dim"
   ],
   "note": "A zero-dimensional array passes matrixform unchanged."
  },
  {
   "property": "C40",
   "status": "proved",
   "theorems": [
    "Verif.Graph.Props.C40_levels",
    "Verif.Graph.Props.C40_graph_of_matrix",
    "Verif.Graph.Props.C40_partition",
    "Verif.Graph.Props.C40_unique",
    "Verif.Graph.Props.C40_disconnected_never_returns"
   ],
   "note": "Finding: the loop never ends on a disconnected graph."
  },
  {
   "property": "C41",
   "status": "proved",
   "theorems": [
    "Verif.Graph.Props.C41_pseudo_peripheral",
    "Verif.Graph.Props.C41_undirected"
   ],
   "note": ""
  },
  {
   "property": "C42",
   "status": "partial",
   "theorems": [
    "Verif.Frames.Props.C42_objectivity_partial",
    "Verif.Frames.Props.C42_exact_partial",
    "Verif.Frames.Props.C42_setFrame",
    "Verif.Frames.Props.C42_setFrame_total",
    "Verif.Frames.Props.C42_setAxes",
    "Verif.Frames.Props.C42_setAxes_singular",
    "Verif.Frames.Props.C42_cartesian_violated",
    "Verif.Frames.Props.C42_item_violated"
   ],
   "note": "Proved for every sequence of operations that leaves the axes of Cartesian frames orthonormal; the axes setter of a Cartesian frame does not check this, and then the property is false."
  },
  {
   "property": "C43",
   "status": "proved",
   "theorems": [
    "Verif.Frames.Props.C43_round_trip",
    "Verif.Frames.Props.C43_compose",
    "Verif.Frames.Props.C43_dcm_agree",
    "Verif.Frames.Props.C43_succeeds",
    "Verif.Frames.Props.C43_total",
    "Verif.Frames.Props.C43_ambient"
   ],
   "note": ""
  },
  {
   "property": "C44",
   "status": "proved",
   "theorems": [
    "Verif.Frames.Props.C44_biorthogonal",
    "Verif.Frames.Props.C44_involution",
    "Verif.Frames.Props.C44_gram",
    "Verif.Frames.Props.C44_volume",
    "Verif.Frames.Props.C44_volume_not_signed",
    "Verif.Frames.Props.C44_dual_exists",
    "Verif.Frames.Props.C44_total"
   ],
   "note": "Finding: the volume is documented as signed but is the absolute value."
  },
  {
   "property": "C45",
   "status": "partial",
   "theorems": [
    "Verif.Frames.Props.C45_vector_vector",
    "Verif.Frames.Props.C45_tensor_vector",
    "Verif.Frames.Props.C45_vector_tensor_partial",
    "Verif.Frames.Props.C45_vector_tensor_violated",
    "Verif.Frames.Props.C45_tensor_tensor",
    "Verif.Frames.Props.C45_contraction",
    "Verif.Frames.Props.C45_succeeds",
    "Verif.Frames.Props.C45_total",
    "Verif.Frames.Props.C45_contraction_total"
   ],
   "note": "The product of a vector and a tensor (in this order) is wrong in frames that are not orthonormal; the other products are proved for all frames."
  },
  {
   "property": "C46",
   "status": "partial",
   "theorems": [
    "Verif.Frames.Props.C46_vector_vector_partial",
    "Verif.Frames.Props.C46_cross_only_rotations",
    "Verif.Frames.Props.C46_scaled_frame_violated",
    "Verif.Frames.Props.C46_tensor_vector",
    "Verif.Frames.Props.C46_vector_tensor",
    "Verif.Frames.Props.C46_total",
    "Verif.Frames.Props.C46_frames"
   ],
   "note": "True exactly for right-handed orthonormal frames."
  },
  {
   "property": "C47",
   "status": "partial",
   "theorems": [
    "Verif.Frames.Props.C47_add",
    "Verif.Frames.Props.C47_sub",
    "Verif.Frames.Props.C47_scale",
    "Verif.Frames.Props.C47_divide",
    "Verif.Frames.Props.C47_neg",
    "Verif.Frames.Props.C47_inplace_tensor",
    "Verif.Frames.Props.C47_restore_tensor",
    "Verif.Frames.Props.C47_isub_number_violated",
    "Verif.Frames.Props.C47_operators_violated",
    "Verif.Frames.Props.C47_mixed_refused",
    "Verif.Frames.Props.C47_scale_refused",
    "Verif.Frames.Props.C47_total"
   ],
   "note": "Tensor operands are proved; x -= number adds the number, reflected operators and in-place arrays behave differently from the binary ones."
  },
  {
   "property": "C48",
   "status": "partial",
   "theorems": [
    "Verif.Frames.Props.C48_copy_copy",
    "Verif.Frames.Props.C48_copy_deepcopy",
    "Verif.Frames.Props.C48_method_copy_partial",
    "Verif.Frames.Props.C48_method_copy_violated"
   ],
   "note": "The methods copy and deepcopy drop the frame."
  },
  {
   "property": "C49",
   "status": "partial",
   "theorems": [
    "Verif.Tr.Props.C49_second_order",
    "Verif.Tr.Props.C49_refused",
    "Verif.Tr.Props.C49_vectors",
    "Verif.Tr.Props.C49_frames",
    "Verif.Tr.Props.C49_transpose_axes",
    "Verif.Tr.Props.C49_fourth_order_partial",
    "Verif.Tr.Props.C49_fourth_order_compose",
    "Verif.Tr.Props.C49_general_rule",
    "Verif.Tr.Props.C49_compose",
    "Verif.Tr.Props.C49_dimension_violated",
    "Verif.Tr.Props.C49_integer_violated",
    "Verif.Tr.Props.C49_single_matrix_refused"
   ],
   "note": "Vectors, frames and second order tensors of all shapes are proved; fourth order tensors only with three values per index and float components."
  },
  {
   "property": "C50",
   "status": "partial",
   "theorems": [
    "Verif.Frames.Props.C50_is_rectangular_partial",
    "Verif.Frames.Props.C50_is_rectangular_exact",
    "Verif.Frames.Props.C50_is_cartesian_exact",
    "Verif.Frames.Props.C50_constructors",
    "Verif.Frames.Props.C50_constructed",
    "Verif.Frames.Props.C50_predicates_partial",
    "Verif.Frames.Props.C50_small_frame_violated",
    "Verif.Frames.Props.C50_setter_violated",
    "Verif.Frames.Props.C50_independent_violated",
    "Verif.Frames.Props.C50_independent",
    "Verif.Frames.Props.C50_shortcuts",
    "Verif.Frames.Props.C50_rectangular_shortcuts",
    "Verif.Frames.Props.C50_classes_partial",
    "Verif.Frames.Props.C50_orient",
    "Verif.Frames.Props.C50_scale"
   ],
   "note": "With zero tolerances and operations that check their argument; setter, in-place transposition and the absolute tolerance break it."
  },
  {
   "property": "C51",
   "status": "partial",
   "theorems": [
    "Verif.Tr.Props.C51_inv2x2_partial",
    "Verif.Tr.Props.C51_adj3x3",
    "Verif.Tr.Props.C51_inv3x3",
    "Verif.Tr.Props.C51_bulk",
    "Verif.Tr.Props.C51_det_partial",
    "Verif.Tr.Props.C51_det_violated",
    "Verif.Tr.Props.C51_integer_violated"
   ],
   "note": "Inverses of float matrices and the adjugate are proved; det2x2 and det3x3 never write their result; inv2x2 of integer arrays is truncated."
  },
  {
   "property": "C52",
   "status": "proved",
   "theorems": [
    "Verif.LS.Props.C52_reproduction",
    "Verif.LS.Props.C52_moving",
    "Verif.LS.Props.C52_succeeds",
    "Verif.LS.Props.C52_moving_succeeds",
    "Verif.LS.Props.C52_moving_plain_succeeds",
    "Verif.LS.Props.C52_refused",
    "Verif.LS.Props.C52_dimension_refused"
   ],
   "note": "Exact arithmetic; the inverse of numpy is modelled by its specification."
  },
  {
   "property": "C53",
   "status": "proved",
   "theorems": [
    "Verif.LS.Props.C53_minimizes",
    "Verif.LS.Props.C53_moving",
    "Verif.LS.Props.C53_plain"
   ],
   "note": ""
  },
  {
   "property": "C54",
   "status": "proved",
   "theorems": [
    "Verif.LS.Props.C54_basis",
    "Verif.LS.Props.C54_supported"
   ],
   "note": ""
  },
  {
   "property": "C55",
   "status": "partial",
   "theorems": [
    "Verif.Wt.Props.C55_set_integer_core",
    "Verif.Wt.Props.C55_supported",
    "Verif.Wt.Props.C55_range",
    "Verif.Wt.Props.C55_monotone",
    "Verif.Wt.Props.C55_construction",
    "Verif.Wt.Props.C55_integer_core_violated",
    "Verif.Wt.Props.C55_constant",
    "Verif.Wt.Props.C55_singular",
    "Verif.Wt.Props.C55_gradient_partial",
    "Verif.Wt.Props.C55_hessian_partial",
    "Verif.Wt.Props.C55_gradient_of_argument",
    "Verif.Wt.Props.C55_gradient_sign_violated",
    "Verif.Wt.Props.C55_hessian_core_violated",
    "Verif.Wt.Props.C55_gradient_near_core_violated",
    "Verif.Wt.Props.C55_singular_violated"
   ],
   "note": "Range and support are proved for all cores, supports and points; the reported gradient is the one with respect to the core (opposite sign with respect to the argument), the Hessian is wrong at the core and the gradient within 1e-12 of it."
  },
  {
   "property": "C56",
   "status": "partial",
   "theorems": [
    "Verif.Lag.Props.C56_lagrange_partial",
    "Verif.Lag.Props.C56_values",
    "Verif.Lag.Props.C56_default_nodes",
    "Verif.Lag.Props.C56_approx_partial",
    "Verif.Lag.Props.C56_repeated_nodes",
    "Verif.Lag.Props.C56_single_point_violated",
    "Verif.Lag.Props.C56_repeated_index_violated",
    "Verif.Lag.Props.C56_plain_dict_refused",
    "Verif.Lag.Props.C56_nothing_given",
    "Verif.Lag.Props.C56_different_numbers"
   ],
   "note": "Proved for two or more points with distinct indices; a single point raises a TypeError."
  },
  {
   "property": "C57",
   "status": "partial",
   "theorems": [
    "Verif.Knn.Props.C57_mean",
    "Verif.Knn.Props.C57_bounds",
    "Verif.Knn.Props.C57_constant",
    "Verif.Knn.Props.C57_one_neighbour_violated",
    "Verif.Knn.Props.C57_integer_violated",
    "Verif.Knn.Props.C57_few_points_violated",
    "Verif.Knn.Props.C57_limit_violated"
   ],
   "note": "Proved for float data, two or more neighbours, at least as many sources and no limit; the search of the library is modelled by its specification. Integer data are truncated, one neighbour is refused, fewer sources read out of bounds."
  },
  {
   "property": "C58",
   "status": "partial",
   "theorems": [
    "Verif.Knn.Props.C58_nearest",
    "Verif.Knn.Props.C58_limit_partial",
    "Verif.Knn.Props.C58_limit_ignored",
    "Verif.Knn.Props.C58_limit_violated",
    "Verif.Knn.Props.C58_refused"
   ],
   "note": "The limit is respected by scipy before 1.6.0, ignored since, and refused with sklearn."
  },
  {
   "property": "C59",
   "status": "proved",
   "theorems": [
    "Verif.Numint.Props.C59_two",
    "Verif.Numint.Props.C59_three",
    "Verif.Numint.Props.C59_product",
    "Verif.Numint.Props.C59_linear",
    "Verif.Numint.Props.C59_exact",
    "Verif.Numint.Props.C59_refused"
   ],
   "note": "The one dimensional rule of numpy is an argument of the model."
  },
  {
   "property": "C60",
   "status": "proved",
   "theorems": [
    "Verif.Numint.Props.C60_isclose",
    "Verif.Numint.Props.C60_broadcast",
    "Verif.Numint.Props.C60_reflexive_monotone",
    "Verif.Numint.Props.C60_refused"
   ],
   "note": ""
  },
  {
   "property": "C61",
   "status": "partial",
   "theorems": [
    "Verif.Sparse.Props.C61_fallback_partial",
    "Verif.Sparse.Props.C61_list_of_arrays_fails"
   ],
   "note": "Only the branch that the constructor never takes stacks the rows."
  },
  {
   "property": "C62",
   "status": "proved",
   "theorems": [
    "Verif.Frames.Props.C62_dual",
    "Verif.Frames.Props.C62_total"
   ],
   "note": ""
  },
  {
   "property": "C63",
   "status": "partial",
   "theorems": [
    "Verif.Frames.Props.C63_metric_tensor_partial",
    "Verif.Frames.Props.C63_metric_tensor_violated"
   ],
   "note": "Proved for orthonormal axes E; in general the metric tensor represents the square of E^T E instead of the identity."
  },
  {
   "property": "C64",
   "status": "partial",
   "theorems": [
    "Verif.Frames.Props.C64_show_frame_partial",
    "Verif.Frames.Props.C64_show_frame_violated",
    "Verif.Frames.Props.C64_total"
   ],
   "note": "True for orthonormal frames only."
  },
  {
   "property": "C65",
   "status": "proved",
   "theorems": [
    "Verif.Frames.Props.C65_transpose",
    "Verif.Frames.Props.C65_involution"
   ],
   "note": ""
  },
  {
   "property": "C66",
   "status": "partial",
   "theorems": [
    "Verif.LS.Props.C66_fixed",
    "Verif.LS.Props.C66_moving_gradient",
    "Verif.LS.Props.C66_moving_hessian",
    "Verif.Wt.Props.C66_cubic_gradient",
    "Verif.Wt.Props.C66_cubic_hessian",
    "Verif.Wt.Props.C66_fixed_core_violated"
   ],
   "note": "Proved for moving least squares and for fits with constant weights; a fit with a fixed weight function that is not constant reports other derivatives."
  },
  {
   "property": "C67",
   "status": "partial",
   "theorems": [
    "Verif.Lin.Props.C67_linspace",
    "Verif.Lin.Props.C67_linspace1d",
    "Verif.Lin.Props.C67_vpath",
    "Verif.Lin.Props.C67_equidistant",
    "Verif.Lin.Props.C67_single_point_violated",
    "Verif.Lin.Props.C67_equal_ends_violated",
    "Verif.Lin.Props.C67_vpath_integer_violated",
    "Verif.Lin.Props.C67_integer_refused"
   ],
   "note": "Proved for two or more points, different ends and float arrays; a single point raises a ZeroDivisionError, coinciding ends give NaN, and a path that starts at an integer array is truncated."
  },
  {
   "property": "C68",
   "status": "partial",
   "theorems": [
    "Verif.Lin.Props.C68_normalize",
    "Verif.Lin.Props.C68_rows",
    "Verif.Lin.Props.C68_norms",
    "Verif.Lin.Props.C68_zero_violated"
   ],
   "note": "Proved for nonzero float vectors; the zero vector gives NaN, integer arrays are refused."
  },
  {
   "property": "C69",
   "status": "proved",
   "theorems": [
    "Verif.Lin.Props.C69_exists",
    "Verif.Lin.Props.C69_penrose",
    "Verif.Lin.Props.C69_least_squares",
    "Verif.Lin.Props.C69_least_norm",
    "Verif.Lin.Props.C69_left",
    "Verif.Lin.Props.C69_right"
   ],
   "note": "Exact arithmetic; rank and inverse of numpy are modelled by their specification."
  },
  {
   "property": "C70",
   "status": "proved",
   "theorems": [
    "Verif.Lin.Props.C70_rows",
    "Verif.Lin.Props.C70_columns",
    "Verif.Lin.Props.C70_full_rank",
    "Verif.Lin.Props.C70_empty"
   ],
   "note": "The rank of numpy is modelled by its specification."
  },
  {
   "property": "C71",
   "status": "proved",
   "theorems": [
    "Verif.Lin.Props.C71_permutation",
    "Verif.Lin.Props.C71_zero",
    "Verif.Lin.Props.C71_antisymmetric",
    "Verif.Lin.Props.C71_determinant",
    "Verif.Lin.Props.C71_cross"
   ],
   "note": "Determinants are exact; int() of a float determinant is not modelled."
  },
  {
   "property": "C72",
   "status": "partial",
   "theorems": [
    "Verif.Lin.Props.C72_unit_vector_partial",
    "Verif.Lin.Props.C72_index_violated"
   ],
   "note": "Proved for indices inside of the vector; others give a longer vector or an exception."
  },
  {
   "property": "C73",
   "status": "partial",
   "theorems": [
    "Verif.Lin.Props.C73_symmetric",
    "Verif.Lin.Props.C73_accepted",
    "Verif.Lin.Props.C73_refused",
    "Verif.Lin.Props.C73_row_violated",
    "Verif.Lin.Props.C73_hermitian_partial",
    "Verif.Lin.Props.C73_hermitian_violated"
   ],
   "note": "is_hermitian looks at the shape only; issymmetric accepts rows and columns of equal entries."
  },
  {
   "property": "C74",
   "status": "partial",
   "theorems": [
    "Verif.Lin.Props.C74_recognized",
    "Verif.Lin.Props.C74_symmetric",
    "Verif.Lin.Props.C74_semidefinite",
    "Verif.Lin.Props.C74_nonsymmetric_violated",
    "Verif.Lin.Props.C74_semidefinite_violated"
   ],
   "note": "Proved for symmetric matrices, and definite matrices are always recognized; there are nonsymmetric matrices wrongly accepted as definite and wrongly rejected as semidefinite."
  },
  {
   "property": "C75",
   "status": "proved",
   "theorems": [
    "Verif.Lin.Props.C75_semidefinite",
    "Verif.Lin.Props.C75_definite"
   ],
   "note": "Exact arithmetic."
  },
  {
   "property": "C76",
   "status": "partial",
   "theorems": [
    "Verif.Lin.Props.C76_array",
    "Verif.Lin.Props.C76_switch",
    "Verif.Lin.Props.C76_containers",
    "Verif.Lin.Props.C76_tuple_violated"
   ],
   "note": "Arrays and dictionaries are proved; a tuple comes back as a list."
  },
  {
   "property": "C77",
   "status": "partial",
   "theorems": [
    "Verif.FrameMem.Props.C77_constructor",
    "Verif.FrameMem.Props.C77_setter_partial",
    "Verif.FrameMem.Props.C77_fortran_violated",
    "Verif.FrameMem.Props.C77_strided_refused",
    "Verif.FrameMem.Props.C77_transpose_violated",
    "Verif.FrameMem.Props.C77_alias_violated",
    "Verif.FrameMem.Props.C77_scale_partial",
    "Verif.FrameMem.Props.C77_integer_violated"
   ],
   "note": "Proved for the constructor in all programs, for assigned arrays in C order and for scaling float axes; assigning a Fortran-ordered array stores its transpose, an assigned array shares memory with the frame, transposing in place does nothing."
  },
  {
   "property": "C78",
   "status": "partial",
   "theorems": [
    "Verif.Close.Props.C78_vectors",
    "Verif.Close.Props.C78_matrices",
    "Verif.Close.Props.C78_general",
    "Verif.Close.Props.C78_objective",
    "Verif.Close.Props.C78_show",
    "Verif.Close.Props.C78_reflexive",
    "Verif.Close.Props.C78_exact",
    "Verif.Close.Props.C78_isclose",
    "Verif.Close.Props.C78_isclose_matrices",
    "Verif.Close.Props.C78_isclose_general",
    "Verif.Close.Props.C78_all",
    "Verif.Close.Props.C78_number",
    "Verif.Close.Props.C78_refused",
    "Verif.Close.Props.C78_rank_violated",
    "Verif.Close.Props.C78_asymmetric_violated"
   ],
   "note": "Proved for tensors of equal rank in all frames; tensors of different rank are compared by broadcasting, and the relation is not symmetric."
  },
  {
   "property": "C79",
   "status": "partial",
   "theorems": [
    "Verif.Stacks.Props.C79_different_lengths",
    "Verif.Stacks.Props.C79_single_frames",
    "Verif.Stacks.Props.C79_vector",
    "Verif.Stacks.Props.C79_vectors",
    "Verif.Stacks.Props.C79_vectors_multi",
    "Verif.Stacks.Props.C79_refused",
    "Verif.Stacks.Props.C79_short_stack_violated",
    "Verif.Stacks.Props.C79_frames",
    "Verif.Stacks.Props.C79_transpose",
    "Verif.Stacks.Props.C79_show",
    "Verif.Stacks.Props.C79_singular",
    "Verif.Stacks.Props.C79_one_frame_violated"
   ],
   "note": "Proved for stacks that fit, with any order of the loop; fewer matrices than vectors are not noticed and memory behind the array is read."
  },
  {
   "property": "C80",
   "status": "partial",
   "theorems": [
    "Verif.Stacks.Props.C80_orient_matrix",
    "Verif.Stacks.Props.C80_orient_partial",
    "Verif.Stacks.Props.C80_orient_refused",
    "Verif.Stacks.Props.C80_orient_new_violated",
    "Verif.Stacks.Props.C80_dual_refused",
    "Verif.Stacks.Props.C80_dual_violated",
    "Verif.Stacks.Props.C80_tensor_show",
    "Verif.Stacks.Props.C80_tensor_inplace",
    "Verif.Stacks.Props.C80_tensor2_refused",
    "Verif.Stacks.Props.C80_tensor2x3",
    "Verif.Stacks.Props.C80_general_violated"
   ],
   "note": "Proved for showing, for in-place operations, for all operations of Tensor2x3 and for rotating three vectors; dual and orient_new of a stack of vectors mix the members or raise, Tensor2 stacks raise in every operation that returns a new tensor, general Tensor stacks cannot be transformed."
  },
  {
   "property": "C81",
   "status": "partial",
   "theorems": [
    "Verif.Stacks.Props.C81_tensor2",
    "Verif.Stacks.Props.C81_tensor4",
    "Verif.Stacks.Props.C81_tensor",
    "Verif.Stacks.Props.C81_tensor2x3",
    "Verif.Stacks.Props.C81_tensor4x3",
    "Verif.Stacks.Props.C81_rank",
    "Verif.Stacks.Props.C81_rank_all",
    "Verif.Stacks.Props.C81_default_frame_partial",
    "Verif.Stacks.Props.C81_default_frame_violated",
    "Verif.Stacks.Props.C81_is_bulk_violated",
    "Verif.Stacks.Props.C81_is_bulk_partial"
   ],
   "note": "Accepted shapes and ranks are proved; is_bulk never returns False, and the default frame has the wrong dimension for stacks of vectors made without the flag and for several leading axes."
  },
  {
   "property": "C82",
   "status": "partial",
   "theorems": [
    "Verif.Coeffs.Props.C82_sum",
    "Verif.Coeffs.Props.C82_keys",
    "Verif.Coeffs.Props.C82_variables",
    "Verif.Coeffs.Props.C82_normalized_partial",
    "Verif.Coeffs.Props.C82_normalized_violated",
    "Verif.Coeffs.Props.C82_linear_partial",
    "Verif.Coeffs.Props.C82_linear_total",
    "Verif.Coeffs.Props.C82_irrational_violated",
    "Verif.Coeffs.Props.C82_linear_violated",
    "Verif.Coeffs.Props.C82_is_linear_sound",
    "Verif.Coeffs.Props.C82_is_linear_complete",
    "Verif.Coeffs.Props.C82_is_linear_violated"
   ],
   "note": "Proved for expressions with at most one constant term and for affine functions with numbers as coefficients; two constant terms (pi + 3) lose one when normalized, pi*x has the linear coefficient zero, x*y counts as linear, the function zero raises."
  },
  {
   "property": "C83",
   "status": "partial",
   "theorems": [
    "Verif.Calc.Props.C83_gradient",
    "Verif.Calc.Props.C83_hessian",
    "Verif.Calc.Props.C83_symmetric",
    "Verif.Calc.Props.C83_exists",
    "Verif.Calc.Props.C83_root",
    "Verif.Calc.Props.C83_refused",
    "Verif.Calc.Props.C83_order_violated"
   ],
   "note": "Derivatives proved for all expressions of the fragment in exact real arithmetic; SymPy's rules of differentiation are modelled rule by rule. Without given variables the order of the arguments depends on the iteration order of a set."
  },
  {
   "property": "C84",
   "status": "partial",
   "theorems": [
    "Verif.Rot.Props.C84_proper",
    "Verif.Rot.Props.C84_accepted",
    "Verif.Rot.Props.C84_body_space",
    "Verif.Rot.Props.C84_inverse",
    "Verif.Rot.Props.C84_third_axis",
    "Verif.Rot.Props.C84_every_axis",
    "Verif.Rot.Props.C84_zero_add",
    "Verif.Rot.Props.C84_quaternion_violated",
    "Verif.Rot.Props.C84_axis_violated",
    "Verif.Rot.Props.C84_dcm_partial",
    "Verif.Rot.Props.C84_dcm_violated"
   ],
   "note": "Exact real arithmetic, SymPy's conventions as part of the model. Proved for Body, Space and unit quaternions. Violated: quaternions are not normalized, so others give scaled matrices; 'Axis' fails for every axis; 'DCM' returns the transpose of the given matrix without checking it and refuses arrays."
  },
  {
   "property": "C85",
   "status": "partial",
   "theorems": [
    "Verif.Rot.Props.C85_rigid",
    "Verif.Rot.Props.C85_relative_partial",
    "Verif.Rot.Props.C85_relative_violated",
    "Verif.Rot.Props.C85_series",
    "Verif.Rot.Props.C85_series_violated",
    "Verif.Rot.Props.C85_objective",
    "Verif.Rot.Props.C85_cartesian_violated"
   ],
   "note": "Proved for all frames and series, except where false: orient_new rotates about the ambient axes, not relative to the frame, and vectors rotate about the axes of their own frame."
  },
  {
   "property": "C86",
   "status": "partial",
   "theorems": [
    "Verif.FA.Props.C86_axes",
    "Verif.FA.Props.C86_class",
    "Verif.FA.Props.C86_foreign",
    "Verif.FA.Props.C86_succeeds_partial",
    "Verif.FA.Props.C86_reflected",
    "Verif.FA.Props.C86_undo",
    "Verif.FA.Props.C86_pure",
    "Verif.FA.Props.C86_rescale",
    "Verif.FA.Props.C86_tolerance_violated",
    "Verif.FA.Props.C86_zero_violated",
    "Verif.FA.Props.C86_order_violated"
   ],
   "note": "Proved for all classes and operands with exactly perpendicular axes; a frame that is rectangular within the tolerance only may raise when scaled, zero times a rectangular frame reports independent axes, and A * 2 and 2 * A have different classes."
  },
  {
   "property": "C87",
   "status": "partial",
   "theorems": [
    "Verif.FA.Props.C87_chop_tensor",
    "Verif.FA.Props.C87_idempotent",
    "Verif.FA.Props.C87_bound",
    "Verif.FA.Props.C87_chop_frame_partial",
    "Verif.FA.Props.C87_minmax",
    "Verif.FA.Props.C87_frame_violated",
    "Verif.FA.Props.C87_class_violated"
   ],
   "note": "Proved for vectors and tensors; chopping a frame changes what attached vectors stand for and may leave a Cartesian frame with axes that are not normal."
  },
  {
   "property": "C88",
   "status": "partial",
   "theorems": [
    "Verif.SolveApi.Props.C88_as_linsolve",
    "Verif.SolveApi.Props.C88_returns",
    "Verif.SolveApi.Props.C88_equivalent",
    "Verif.SolveApi.Props.C88_prescribed",
    "Verif.SolveApi.Props.C88_reduce_shape",
    "Verif.SolveApi.Props.C88_triangular_partial",
    "Verif.SolveApi.Props.C88_diagonal_partial",
    "Verif.SolveApi.Props.C88_triangular",
    "Verif.SolveApi.Props.C88_diagonal",
    "Verif.SolveApi.Props.C88_whole_numbers",
    "Verif.SolveApi.Props.C88_backsub",
    "Verif.SolveApi.Props.C88_arguments",
    "Verif.SolveApi.Props.C88_inplace",
    "Verif.SolveApi.Props.C88_failed",
    "Verif.SolveApi.Props.C88_numpy",
    "Verif.SolveApi.Props.C88_refused",
    "Verif.SolveApi.Props.C88_shape_violated",
    "Verif.SolveApi.Props.C88_ignored_violated",
    "Verif.SolveApi.Props.C88_failed_violated"
   ],
   "note": "Equivalence, shapes of reduce, in-place behaviour and the NumPy method are proved without conditions; the triangular and diagonal forms need that no nonzero entry is skipped as negligible, which is stated by minors of the matrix and holds for matrices of moderate whole numbers. Violated: a 1d right hand side gives a 2d solution, prescribed values without presc_bool are ignored by two of three code paths, and a failed in-place call has changed the arguments."
  },
  {
   "property": "C89",
   "status": "partial",
   "theorems": [
    "Verif.SymInv.Props.C89_inverse_partial",
    "Verif.SymInv.Props.C89_adjugate_partial",
    "Verif.SymInv.Props.C89_transposed_violated",
    "Verif.SymInv.Props.C89_shape_violated"
   ],
   "note": "For all matrices in which no entry contains the internal symbol of a later entry. Violated otherwise (the replacements are made one after the other), and other shapes are not refused."
  },
  {
   "property": "C90",
   "status": "proved",
   "theorems": [
    "Verif.Products.Props.C90_products",
    "Verif.Products.Props.C90_congruence",
    "Verif.Products.Props.C90_symmetric",
    "Verif.Products.Props.C90_transitive",
    "Verif.Products.Props.C90_semidefinite"
   ],
   "note": ""
  },
  {
   "property": "C91",
   "status": "partial",
   "theorems": [
    "Verif.Hist.Props.C91_edges",
    "Verif.Hist.Props.C91_centres_partial",
    "Verif.Hist.Props.C91_number",
    "Verif.Hist.Props.C91_integer_edges_violated"
   ],
   "note": "The counts are proved without conditions, the centres for edges given as floats; for edges given as integers the centres are truncated."
  },
  {
   "property": "C92",
   "status": "partial",
   "theorems": [
    "Verif.DTypes.Props.C92_predicates_partial",
    "Verif.DTypes.Props.C92_single_violated",
    "Verif.DTypes.Props.C92_itype",
    "Verif.DTypes.Props.C92_itype_violated",
    "Verif.DTypes.Props.C92_none_or_false"
   ],
   "note": "The predicates are never wrong when they answer True, and complete for double precision and Booleans; floats and integers of other sizes are not recognized, and itype_of_ftype accepts types that are no floats."
  },
  {
   "property": "C93",
   "status": "partial",
   "theorems": [
    "Verif.Syms.Props.C93_value",
    "Verif.Syms.Props.C93_unknown_name",
    "Verif.Syms.Props.C93_mixed_refused",
    "Verif.Syms.Props.C93_symbols",
    "Verif.Syms.Props.C93_subs_partial",
    "Verif.Syms.Props.C93_gradient_partial",
    "Verif.Syms.Props.C93_subs_text_violated",
    "Verif.Syms.Props.C93_subs_names_violated",
    "Verif.Syms.Props.C93_subs_twice_violated",
    "Verif.Syms.Props.C93_gradient_violated"
   ],
   "note": "Values are right for all assumptions; gradients if the symbols of the expression are variables or have no assumptions; substitution if also the substituted symbols are those of the function. Violated otherwise: zero gradients, substitutions without effect, and a second substitution that differs from the first."
  },
  {
   "property": "C94",
   "status": "partial",
   "theorems": [
    "Verif.GA.Props.C94_construct",
    "Verif.GA.Props.C94_terminates",
    "Verif.GA.Props.C94_result",
    "Verif.GA.Props.C94_returns",
    "Verif.GA.Props.C94_recycled",
    "Verif.GA.Props.C94_fresh",
    "Verif.GA.Props.C94_rejected_partial",
    "Verif.GA.Props.C94_rejected_sticks_violated",
    "Verif.GA.Props.C94_rejected_forgets_violated",
    "Verif.GA.Props.C94_direction_violated",
    "Verif.BGA.Props.C94_bga"
   ],
   "note": "All but the last sentence. A rejected call discards the previous result, its invalid parameters stay in force and make later calls fail, and after a rejected change of direction evolve() compares in the old direction."
  },
  {
   "property": "C95",
   "status": "proved",
   "theorems": [
    "Verif.LP.Props.C95_accepts",
    "Verif.LP.Props.C95_refuses"
   ],
   "note": ""
  },
  {
   "property": "C96",
   "status": "proved",
   "theorems": [
    "Verif.BGA.Props.C96_no_crossover",
    "Verif.BGA.Props.C96_no_mutation"
   ],
   "note": ""
  },
  {
   "property": "C97",
   "status": "partial",
   "theorems": [
    "Verif.FnObj.Props.C97_text",
    "Verif.FnObj.Props.C97_expression",
    "Verif.FnObj.Props.C97_callables",
    "Verif.FnObj.Props.C97_keywords",
    "Verif.FnObj.Props.C97_update",
    "Verif.FnObj.Props.C97_failed_update_partial",
    "Verif.FnObj.Props.C97_failed_update_violated",
    "Verif.FnObj.Props.C97_subs",
    "Verif.FnObj.Props.C97_raises",
    "Verif.FnObj.Props.C97_simplify",
    "Verif.FnObj.Props.C97_methods",
    "Verif.FnObj.Props.C97_methods_violated",
    "Verif.FnObj.Props.C97_is_linear_partial",
    "Verif.FnObj.Props.C97_is_linear_violated",
    "Verif.FnObj.Props.C97_optimums",
    "Verif.FnObj.Props.C97_text_twice",
    "Verif.FnObj.Props.C97_optimums_refused",
    "Verif.FnObj.Props.C97_test_function_partial",
    "Verif.FnObj.Props.C97_optimums_violated"
   ],
   "note": "violated in four places: an update that raises makes an object forget that it was made from a text, a method value of a mixin class is not called, is_linear of functions made from callables only asks whether a Hessian was given, TestFunction drops optimums given after optText"
  },
  {
   "property": "C98",
   "status": "partial",
   "theorems": [
    "Verif.FUfunc.Props.C98_call",
    "Verif.FUfunc.Props.C98_out",
    "Verif.FUfunc.Props.C98_objective",
    "Verif.FUfunc.Props.C98_foreign",
    "Verif.FUfunc.Props.C98_regular",
    "Verif.FUfunc.Props.C98_singular",
    "Verif.FUfunc.Props.C98_half_done_violated",
    "Verif.FUfunc.Props.C98_at_violated",
    "Verif.FUfunc.Props.C98_equal_partial",
    "Verif.FUfunc.Props.C98_truth_violated",
    "Verif.FUfunc.Props.C98_functions_partial",
    "Verif.FUfunc.Props.C98_recursion_violated"
   ],
   "note": "violated in four places: every comparison of frames is true as a truth value, ufunc.at changes the axes behind the back of the attached tensors, a call that raises at its second output leaves the first one changed, frames in lists or keyword arguments of NumPy functions end in a RecursionError"
  },
  {
   "property": "C99",
   "status": "partial",
   "theorems": [
    "Verif.FitObj.Props.C99_weighted",
    "Verif.FitObj.Props.C99_plain",
    "Verif.FitObj.Props.C99_moving",
    "Verif.FitObj.Props.C99_moving_plain",
    "Verif.FitObj.Props.C99_history",
    "Verif.FitObj.Props.C99_isolated",
    "Verif.FitObj.Props.C99_making",
    "Verif.FitObj.Props.C99_core_violated",
    "Verif.FitObj.Props.C99_alias_violated",
    "Verif.FitObj.Props.C99_callable_violated",
    "Verif.FitObj.Props.C99_lists",
    "Verif.FitObj.Props.C99_lists_violated"
   ],
   "note": "violated in four places: evaluating a moving fit moves the core of the user's weight function, an array set as the core stays shared with the user, callables that are not weight functions of the library are ignored without an exception, moving_least_squares refuses lists"
  }
 ]
}

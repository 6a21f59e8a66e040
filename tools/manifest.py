# Writes /verif/MANIFEST.json; checks that every theorem named exists in lean/Verif/Props.
import json, pathlib, re, sys
root = pathlib.Path(__file__).parent.parent
C = []
def c(prop, status, theorems, note=""):
    C.append(dict(property=prop, status=status, theorems=["Verif.Props." + t for t in theorems.split()], note=note))

c("C01", "proved", "C01_background C01_clusters")
c("C02", "proved", "C02_connected C03_clusters", "second component of C03_clusters for clusters()")
c("C03", "proved", "C03_clusters C03_pattern")
c("C04", "proved", "C04_partition C04_equal_after_prune")
c("C05", "proved", "C05_age")
c("C06", "proved", "C06_stable")
c("C07", "proved", "C07_prune C07_prune_idempotent")
c("C08", "proved", "C08_reset")
c("C09", "proved", "C09_safe")
c("C10", "proved", "C10_add_sequence")
c("C11", "proved", "C11_events C11_events_general C11_repeated", "for repeated or already labelled points a position can be marked without an event (C11_repeated)")
c("C12", "partial", "C12_inside_partial C12_violated C12_iff C12_line C12_code", "false in the code for diagonal offsets on shapes [1,n], [n,1] (C12_violated); proved for all other configurations; C12_iff: exactly for which offsets it holds; C12_line, C12_code: what is computed for all of them")
c("C13", "partial", "C13_modulo_partial C13_config_3d C13_violated C13_reaches C13_iff C13_clusters", "false in the code in 1D/2D for offsets longer than the axis (C13_violated, size_t wrap); proved otherwise, and without restriction in 3D; C13_iff: exactly for which offsets it holds (also those longer than an axis whose length is a power of two)")
c("C14", "partial", "C14_default_partial C14_default_configuration C14_violated", "false in the code in 3D (C14_violated); equality proved in 1D and 2D; the actual default (face neighbours) proved in all ranks")
c("C15", "proved", "C15_offsets C15_symmetric C15_symmetric_adj C15_configuration C15_even_throws C15_centre_throws")
c("C16", "proved", "C16_general C16_asymmetric")
c("C17", "proved", "C17_labels_map C17_labels_map_short C17_rename_map")
c("C18", "proved", "C18_labels_rename C18_labels_rename_throws C18_labels_rename_release")
c("C19", "proved", "C19_labels_prune C19_labels_prune_spec C19_labels_prune_idempotent")
c("C20", "proved", "C20_labels_reorder C20_labels_reorder_last C20_labels_reorder_throws C20_labels_reorder_duplicate",
  "a duplicated label in order is accepted by the assertion (C20_labels_reorder_duplicate)")
c("C21", "proved", "C21_labels_sizes C21_labels_sizes_total C21_labels_sizes_names")
c("C22", "proved", "C22_keep C24_nearest")
c("C23", "proved", "C23_reach C23_least C23_same C23_nearest")
c("C24", "proved", "C24_own C24_zero C24_nearest C24_alone C24_alone_piece C24_all_alone", "C24_alone: the converse for a label that meets no other label; C24_all_alone: the whole result if no two labels meet.")
c("C25", "partial", "C25_partial C25_throws C25_throws_iff C25_ub_iff C25_returns_iff C25_violated", "false in the code (C25_violated): the assertion compares with size() + 1 instead of size() - 1, for a table of two or more numbers (a table of one number serves all labels, C119); proved: for any integers as labels, with and without assertions, exactly which calls throw, are undefined and return")
c("C26", "proved", "C26_bresenham")
c("C27", "proved", "C27_line C27_unique C27_half")
c("C28", "proved", "C28_translate C28_reflect C28_permute")
c("C29", "partial", "C29_single_partial C29_violated", "false in the code: Bresenham reads out of bounds in 1D/2D, actual stores the pixel twice (C29_violated); proved for Bresenham in 3D and for full")
c("C30", "partial", "C30_origin_partial C30_translate_partial C30_violated C30_long_violated", "false in the code for general start points (C30_violated: no termination) and for very long paths (C30_long_violated); proved from the origin to points with components up to 10^6 and for segments on a line through the origin, which includes all segments along one axis; C112 says for which start points it ends")
c("C31", "partial", "C31_full_partial C31_actual_partial C31_start_violated C30_long_violated", "from other points than the origin false in the code (C31_start_violated); from the origin proved for components up to 10^6; beyond, the tolerance 1e-6 of the code can make it miss the end point (C30_long_violated: no termination)")
c("C32", "partial", "C32_actual_partial C32_actual_inside_partial C32_full_partial C32_long_violated", "proved for components up to 10^6 (actual, where even the interior is crossed) and 707 (full); beyond, false in the code (C32_long_violated): crossings closer than 1e-6 are taken for one")
c("C33", "proved", "C33_cover C33_centre C33_axis C33_distance C33_distance_h C33_axis_h C33_rejected C33_axis_decided C33_h_decided C33_axis_h_decided", "without GOOSEEYE_ENABLE_ASSERT the theorems take NDEBUG as defined: otherwise an axis that does not exist aborts the program")
c("C34", "partial", "C34_partial C34_code C34_unmasked C34_violated", "false in the code for periodic images with masked pixels (C34_violated): the mask is not extended periodically; proved otherwise, and C34_code states what is computed in all cases")
c("C35", "partial", "C35_S2_partial C35_C2_partial C35_W2_partial C35_heightheight_partial C35_mean C35_violated", "false in the code for periodic images (C35_violated); proved for non-periodic images, for the mask of the first image, and for mean")
c("C36", "proved", "C36_zero C36_range C36_max C36_symmetric C36_ones")
c("C37", "proved", "C37_S2 C37_C2 C37_heightheight C37_W2 C37_L C37_W2c")
c("C38", "partial", "C38_partial C38_code C38_unmasked C38_binary C38_violated", "as C34")
c("C39", "partial", "C39_partial C39_code C39_unmasked C39_range C39_ones C39_ratio C39_violated C39_negative", "as C34; weights with a negative sum are not normalised (C39_negative)")
c("C40", "partial", "C40_partial C40_code C40_unmasked C40_zero C40_symmetric C40_affine C40_square C40_from_S2 C40_violated", "as C34 for the formula; the other claims are proved, and the relation to S2 with masks and without periodicity (C40_from_S2)")
c("C41", "proved", "C41_mean")
c("C42", "proved", "C42_order C42_sums")
c("C43", "proved", "C43_one_statistic C43_variance C43_release C43_release_data C43_release_result C43_release_variance", "without assertions measures can be mixed (C43_release); the last three theorems say what is then computed")
c("C44", "proved", "C44_lineal_path C44_paths")
c("C45", "partial", "C45_bounds C45_both_nonzero C45_origin_partial C45_violated", "L(0) is not the area fraction if the ROI is a single pixel (C45_violated): there are then no paths; all else proved")
c("C46", "proved", "C46_defined")
c("C47", "partial", "C47_partial C47_code C47_unmasked C47_violated", "false in the code for clusters larger than one pixel (C47_violated): the pixels of the cluster are not skipped; C47_code states what is computed, C47_partial is the property where every path leaves the cluster in its first step")
c("C48", "partial", "C48_partial C47_code C48_code C48_outside C48_violated C48_shift_violated", "false in the code for three-dimensional ROIs with different pads along axes 1 and 2 (C48_violated: writes out of bounds; C48_shift_violated: values at the wrong place); proved otherwise; C48_code and C48_outside state what is computed, and exactly when memory is accessed out of bounds, for every ROI")
c("C56", "partial", "C56_crossed_partial C56_actual_exactly_partial C56_full_exactly_partial C56_stay_partial C56_long_violated", "proved for components up to 707 (with equivalence: C56_actual_exactly_partial, C56_full_exactly_partial); beyond, false in the code (C56_long_violated). For components up to a million every pixel that contains at least a millionth of the line is a row (C56_stay_partial)")
c("C57", "proved", "C57_rejected C57_release C57_release_any")
c("C58", "partial", "C58_partial C58_single_partial C58_undisputed_partial C58_violated", "false in the code for periodic images with several labels (C58_violated); proved without periodicity, with periodicity for one label, and at pixels that no two labels reach (C58_undisputed_partial); C59_periodic states what is computed in all cases")
c("C59", "proved", "C59_layers C59_periodic")
c("C60", "proved", "C60_rename")
c("C49", "proved", "C49_mean C49_perm C49_shift C49_empty", "exact arithmetic")
c("C50", "proved", "C50_range C50_mean C50_shift C50_wrap C50_single C50_perm C50_cancel", "exact arithmetic")
c("C51", "proved", "C51_flat C51_mean C51_equal C51_scale C51_zero C51_merge C51_perm C51_shift", "exact arithmetic")
c("C52", "proved", "C52_centers C52_mass C52_enumerates C52_independent C52_mass_independent")
c("C61", "proved", "C61_arc C61_mass")
c("C62", "partial", "C62_partial C62_near_partial C62_mass_partial C62_violated", "false in the code (C62_violated): the direction of the sum of vectors is not the mean; proved for positions that are symmetric about a point, and in general up to 16 pi^2 d^3 / (3 L^2) for positions within d of a point")
c("C53", "proved", "C53_pixels C53_disc C53_throws C53_double C53_throws_iff C53_returns_iff", "pow(m, 0.5) in double: any root with a relative error of 2^-52 that is exact for squares, for radii up to 2^24 (C53_double). A list of one column or radius serves all circles (C53_returns_iff)")
c("C54", "proved", "C54_shift C54_more C54_order C54_clipped")
c("C63", "partial", "C63_partial C63_grid_partial C63_double_partial C63_throws_iff C63_violated", "false in the code for images smaller than 20 pixels along an axis (C63_violated): infinity is converted to an integer, which is undefined behaviour")
c("C55", "partial", "C55_1d C55_second C55_2d_partial C55_2d_second_partial C55_code C55_parity C55_violated C55_junk_violated C55_integer_violated", "proved in one dimension and in two dimensions for frequencies whose components have the same sign; false in the code for the others (C55_violated, C55_junk_violated) and for samples of integers (C55_integer_violated); C55_code: what is computed at every frequency")
c("C64", "proved", "C64_nonneg C64_symmetric C64_roll C64_constant C64_scale C64_parseval", "exact arithmetic, samples of reals")
c("C65", "proved", "C65_qnorm C65_qnorm2", "exact arithmetic, samples of reals")

c("C66", "partial", "C66_partial C66_negative_violated C66_violated", "proved for variance = true without masked pixels of periodic images; with variance = false variance() returns the root of a negative number instead of raising (C66_negative_violated, C66_violated)")

c("C67", "proved", "C67_clusters C67_L_full C67_L_any C67_C2_le_S2 C67_labeller C67_default_violated", "C67_default_violated: with the default path mode (bresenham) L can exceed C2 of clusters, which connects faces only")
c("C68", "partial", "C68_swap_partial C68_swap_violated C68_S2_linear_left C68_S2_linear_right C68_W2_linear C68_W2_scale C68_C2_rename", "exchanging the images: false for periodic images with masked pixels (C68_swap_violated), proved otherwise; all else proved")
c("C69", "proved", "C69_monotone C69_pattern")

c("C70", "proved", "C70_monotone C70_periodic C70_count")
c("C71", "proved", "C71_symmetry C71_shift C71_reflect C71_axes C71_squeeze")
c("C72", "proved", "C72_rename_rename C72_prune_rename C72_sizes_rename C72_reorder_undo C72_prune_reorder C72_prune_clusters")
c("C73", "proved", "C73_S2 C73_C2 C73_W2 C73_heightheight C73_history C73_mean C73_error C73_range C73_order", "every operation of the model is rounded; heightheight up to pow(x, 0.5), which is a parameter; no overflow to infinity")
c("C74", "partial", "C74_error_partial C74_nonneg_partial C74_binary C74_constant C74_violated", "the bound on the error is proved; not negative for binary images, for constant images (zero), and if the number of pixels times the sum of squares is at most 2^50; otherwise variance() can be negative (C74_violated: -0.3125 for five pixels whose variance is 0.2)")

c("C75", "proved", "C75_path C75_geometry C75_exactly C75_start C75_L C75_W2c C75_history", "C75_start from any start; beyond 707 crossings can be closer than the tolerance (C32_long_violated); no overflow")
c("C76", "proved", "C76_path C76_limit")
c("C77", "partial", "C77_whole_partial C77_W2c_whole_partial C77_float64_partial C77_W2c_float64_partial C77_masked C77_truncated C77_violated", "proved for whole numbers of any type, for float64 images, and with masks; otherwise the overload for integers is selected and values are truncated (C77_truncated, C77_violated). Rests on the selection of overloads by pybind11 and xtensor-python as stated in Model/Python.lean")
c("C78", "proved", "C78_iterations C78_image C78_labels C78_kernel C78_periodic C78_union C78_shift C78_reflect C78_symmetric C78_distance C78_fill C78_exact C78_axes C78_shift_labels C78_reflect_labels C78_axes_labels", "which pixels are labelled, not with which label: that depends on the order of the pixels (C59, C60), except if no two labels meet (the last three theorems, with a number of iterations per label)")
c("C79", "proved", "C79_q C79_distinct C79_q2", "real numbers; in two dimensions the mean at mixed signs is wrong (C55)")
c("C80", "partial", "C80_whole_partial C80_background C80_rank C80_violated", "proved for whole numbers in the range of int; the labeller takes values modulo 2^32, and both truncate fractions to zero (C80_violated)")
c("C81", "partial", "C81_refused C81_ensemble C81_history C81_labeller_refused C81_labeller C81_labeller_history C81_structure_same C81_structure_partial C81_structure_violated", "proved for Ensemble and ClusterLabeller; Structure keeps the arrays of a refused first sample with an even and an odd size, and then refuses all others (C81_structure_violated). Failures of allocation are not modelled")
c("C82", "proved", "C82_S2 C82_S2Mask C82_C2 C82_C2Mask C82_W2 C82_W2Mask C82_heightheight C82_heightheightMask C82_same C82_reflect C82_axes C82_squeeze", "the first eight for any motion of the pixels, the others are the motions; L and W2c: see C87")
c("C83", "proved", "C83_S2 C83_C2 C83_W2 C83_heightheight C83_L C83_W2c", "W2c with masks, and in three dimensions with equal pads along the second and third axis (C48); the others without masks: with a mask the periodic statistics are those of C34_code, which depend on the boundary")
c("C84", "proved", "C84_data C84_result C84_variance C84_count C84_norm", "as the code computes them: periodic images with masks include masked pixels across the boundary (Seen, see C34), W2c along paths without their first pixel (see C47)")
c("C85", "proved", "C85_S2 C85_C2 C85_W2 C85_heightheight", "exact arithmetic")
c("C86", "partial", "C86_call_partial C86_history_partial C86_float64_partial C86_masked C86_arity C86_truncated C86_violated", "proved for whole numbers of any type, for float64 images, and for the methods without overload for integers; otherwise values are truncated (C86_truncated), and with default arguments (variance = False, unlike C++) variance() of heightheight takes the root of a negative number (C86_violated)")
c("C87", "partial", "C87_reflect C87_permute_partial C87_permute_full_partial C87_L_reflect C87_L_axes_partial C87_W2c_reflect C87_W2c_axes_partial C87_violated", "exact arithmetic; reflections in every mode, permutations except in mode full, where the pixels at which the line passes through corners depend on the order of the axes (C87_violated); if mode actual changes one coordinate per row, permutations in mode full too (C87_permute_full_partial). W2c as the code computes it (see C47, C48)")
c("C88", "proved", "C88_S2 C88_S2_relative C88_heightheight C88_W2 C88_W2c C88_history C88_history_W2 C88_history_W2c C88_mean", "double with rounding to 53 bits and unbounded exponents; heightheight: the number under the square root; without masks: the mask of zeros (bitMask_none); any sequence of calls: mean, S2 and heightheight (C88_history), W2 (C88_history_W2), W2c (C88_history_W2c); W2c: also where the exact computation is undefined (C48)")
c("C89", "partial", "C89_reorder_partial C89_map_partial C89_rename C89_violated", "outcome of labels_reorder and labels_map for all arguments; labels_reorder is out of bounds for negative labels and for empty images, also with assertions (C89_violated), labels_map if its second argument is smaller. labels_sizes makes no access by index in the model")
c("C90", "proved", "C90_centers C90_mass C90_shift C90_reflect C90_axes C90_shift_mass C90_reflect_mass C90_axes_mass C90_clusters C90_clusters_shift", "real arithmetic, the first two for any motion of the pixels")
c("C91", "partial", "C91_partial C91_undisputed_partial C91_violated", "Proved without periodicity, and with periodicity for a label that is nowhere disputed (no pixel it reaches is reached by another label; C91_undisputed_partial, one number of iterations; C24_alone_piece, a number per label). False with periodicity: `C91_violated` gives the image [0, 1, 0, 0, 2, 0], for which dilate(iterations = 2, periodic) returns [2, 1, 1, 2, 2, 1]. C59_periodic states what is computed in all cases.")
c("C92", "partial", "C92_partial C92_undisputed_partial C92_violated", "Proved without periodicity, and with periodicity for pixels that no two labels reach (C92_undisputed_partial, one number of iterations). False with periodicity: `C92_violated`. C59_periodic states what is computed in all cases.")
c("C93", "proved", "C93_axis C93_decreasing")
c("C94", "partial", "C94_partial C94_farthest_partial C94_corner_actual_partial C94_violated", "Proved along the axes (all modes), and with Bresenham paths at the displacements farthest from the centre if the line there is nowhere midway between two pixels (C94_farthest_partial), and with paths of mode actual at the corners (C94_corner_actual_partial). False elsewhere: `C94_violated` (periodic image of three nonzero pixels).")
c("C95", "partial", "C95_session C95_rejected C95_kernel C95_shape_partial C95_violated", "All but the attribute size, which is the shape: `C95_violated`. Conversions by numpy and pybind11 are assumed.")
c("C96", "partial", "C96_labels_partial C96_rename_partial C96_rejected C96_violated", "Proved for whole numbers of 64 bits. False for other labels: `C96_violated`. Conversions by numpy and pybind11 are assumed.")
c("C97", "proved", "C97_image C97_ensemble C97_structure C97_structure2", "Real arithmetic. The frequencies at which Structure is right are those of C79.")
c("C98", "proved", "C98_pixel C98_total C98_pixel_any C98_total_any", "C98_pixel and C98_total with the preconditions of ValidConfig, as C02; the theorems _any for every shape and kernel, where a pixel touches the pixels that it is compared with when it is added (Sees, as in C113). Offsets and shapes below 2^62")
c("C99", "proved", "C99_dilate C99_circles C99_centers C99_centers_of_mass C99_statistics", "That dilate lets labels through that it should refuse is C25_violated. Assertions of xtensor are not modelled; center and center_of_mass have no assertions.")
c("C100", "proved", "C100_cauchy_schwarz C100_monotone C100_triangle C100_complement C100_heightheight", "All parts, in exact arithmetic (real numbers for heightheight, an ordered field otherwise).")
c("C101", "proved", "C101_center C101_center_of_mass C101_error C101_mass_error C101_between C101_labels C101_labels_mass C101_periodic C101_periodic_exceeds C101_real", "rnd64 has neither overflow nor subnormal numbers. sin, cos and atan2 are parameters; atan2 returns values of at most pi in magnitude.")
c("C102", "proved", "C102_map C102_sizes C102_balance C102_balance_mass C102_balance_names C102_dilate", "Centers over the real numbers; images of fewer than 2^62 pixels.")
c("C103", "partial", "C103_equivalent C103_equivalent_mass C103_fraction_violated C103_path_partial C103_line_partial C103_double_partial C103_path_rejected C103_circles_partial C103_violated", "Labels must be whole numbers: labels_centers drops the fractional part of labels, numpy.argwhere does not (C103_fraction_violated). Coordinates beyond 32 bits are taken modulo 2^32 without an error (C103_violated). Centers over the real numbers.")
c("C104", "proved", "C104_S2 C104_C2 C104_heightheight", "exact arithmetic (an ordered field)")
c("C105", "partial", "C105_whole C105_partial C105_value C105_violated", "false in the code if pixels of different nonzero values touch (C105_violated): values are not compared, only zero or not; proved otherwise. An island is never split (C105_whole), and the clusters of f == v are the islands of value v (C105_value)")
c("C106", "partial", "C106_near C106_iff C106_partial C106_turn C106_violated", "false in the code if the line is midway between two pixels (C106_violated: (0,0) to (2,1)): ties are rounded away from the first point. C106_iff gives exactly when it holds, C106_partial a simple case (odd largest displacement); always: rows are the same pixel or neighbours (C106_near), and the path back is the path turned about its middle (C106_turn)")
c("C107", "partial", "C107_actual_in_full C107_double C107_equal C107_equal_double C107_bresenham_crossed C107_bresenham_stays C107_nested_partial C107_plane_partial C107_long_violated", "actual within full: proved for all points, in exact arithmetic and in double; they are equal exactly if actual changes one coordinate per row (C107_equal, C107_equal_double). Bresenham within actual: from the origin (from other points actual and full may not end, C30_violated), for displacements up to 707 in three dimensions and up to 500000 in the plane; beyond, false in the code in three dimensions (C107_long_violated): crossings closer than 1e-6 are taken for one. Every pixel of mode Bresenham is crossed by the segment, without bound")
c("C108", "proved", "C108_data C108_result C108_variance C108_mean C108_heightheight C108_distance C108_center C108_center_of_mass C108_labels C108_labels_mass", "numbers are not rounded and do not overflow; the functions of the standard library are arbitrary, and strict")
c("C109", "partial", "C109_rename_partial C109_rename_violated C109_prune C109_prune_nonneg C109_prune_violated C109_reorder_partial C109_reorder_violated C109_sizes_partial C109_sizes_modulo C109_sizes_overflow C109_sizes_violated C109_names_partial C109_names_violated", "false in the code: sizes are stored in the type of the labels, so they are modulo its range (C109_sizes_violated) or undefined; labels are converted to the type of the table or of the keys, also past the assertion (C109_rename_violated, C109_names_violated); the highest label of a type of at least 32 bits overflows in labels_reorder. labels_prune is right for all images without negative labels")
c("C110", "partial", "C110_decided C110_same_partial C110_small C110_overflow C110_violated", "exact condition: the disc (periodic) or the square around it (not periodic, also outside of the image) fits in int; otherwise undefined behaviour (C110_overflow). C110_decided: the exact condition for all positions and radii, including those whose distance to the corner does not fit")
c("C111", "proved", "C111_labelled C111_joined C111_bounds C111_two C111_configuration", "for symmetric kernels this is C01; the consequence for two pixels in every image is C16_general")
c("C112", "proved", "C112_ends C112_endless C112_origin C112_ends_double C112_endless_double", "in exact arithmetic and in double; the full extent of the defect C30_violated. Where the path ends it may still leave the line (C31_start_violated)")
c("C113", "proved", "C113_labelled C113_joined C113_two C113_configuration", "without the exceptions this is C111; when the exceptions matter is decided in C12_iff and C13_iff. Offsets and shapes below 2^62")
c("C114", "proved", "C114_age C114_prune C114_prune_idempotent C114_equal_after_prune C114_stable C114_reset C114_add_sequence C114_events", "C04 to C08, C10 and C11 without the assumption that the kernel is point-symmetric and fits the image. Offsets and shapes below 2^62")
c("C115", "proved", "C115_labels C115_continued C115_added C115_again", "sharper than C04, which is about the partition and about labels after prune. Offsets and shapes below 2^62")
c("C116", "partial", "C116_corner_partial C116_farthest_partial C116_violated", "false at displacements that are passed by paths to other pixels of the edge of the region of interest (C116_violated): L is averaged over different paths to the same displacement. Proved at the corners (all modes), at the displacements farthest from the centre (Bresenham), and by C93 along the axes")
c("C117", "proved", "C117_line C117_regions", "what is computed: that the clusters do not matter is the defect of C47. Up to 10^6 pixels for modes actual and full")
c("C118", "proved", "C118_names C118_centres C118_masked C118_linear C118_between", "of the code as it is: that the extent of the clusters does not matter is the defect of C47. Includes the regions of interest for which C48 fails: SameOutcome says that both calls are undefined, or both return the same array. Up to 10^6 pixels for modes actual and full")
c("C119", "partial", "C119_one C119_sign_partial C119_throws_iff C119_ub_iff C119_violated", "false in the code for labels of both signs (C119_violated): the overload makes a table of amax + 1 numbers, and negative labels read before its start. Proved: labels of one sign if there is a pixel that is not negative; a table of one number serves all labels (C119_one), because xtensor gives an axis of length one the stride zero; exactly which calls throw and are undefined")
c("C120", "proved", "C120_version", "the text is returned unchanged if it has no quotes and no backslashes, which no version has")
c("C121", "partial", "C121_partial C121_violated", "false in the code for labellers that differ in periodicity only (C121_violated): the text has the rank but not the `p` of the name of the class; proved for rank and shape")
c("C122", "proved", "C122_axis C122_axis_h C122_distance C122_distance_h", "the root is any with the stated error; neither overflow nor underflow")
c("C123", "proved", "C123_same C123_ends C123_ends_double C123_right C123_endless C123_double", "memory is unlimited (2^31 rows take up to 24 GB)")
c("C124", "partial", "C124_named C124_positional_partial C124_misread C124_ignored C124_violated", "false in the code for some positional arguments (C124_violated): dilate(f, 2) with f of type int64 takes 2 for a kernel and returns f as it is (with assertions it throws). Proved for named arguments; for positional arguments exactly in which cases it holds and what is done in the others; a number after any image of another type than int32 is lost (C124_ignored). The rules by which pybind11 chooses a signature are assumed")
c("C125", "proved", "C125_L C125_W2c C125_double C125_history", "integers: only those of paths are bounded; positions in the image are not")
c("C126", "proved", "C126_axis C126_axes C126_used C126_half C126_pad", "the asserts of the C library in atleast_3d_axis are taken to be off")
c("C127", "partial", "C127_exact C127_iff C127_violated", "false in the code for 2^31 clusters or more (C127_violated: in an image of 2^33 pixels, every second of which is background, a cluster has the label of the background). Proved: exactly with fewer than 2^31 clusters, hence with fewer than 2^31 pixels, no label changes; with fewer than 2^32 clusters background and clusters are still told apart")
c("C128", "partial", "C128_partial C128_double_partial C128_iff C128_violated", "false in the code if the sum does not fit in int (C128_violated: two pixels of 2^30, undefined; with a mask it is right). Proved if the absolute values add up to an int; for images without negative pixels exactly if the sum fits (C128_iff). Rests on the type of xt::sum, which is that of the elements. From Python images are converted to double (C86)")
c("C129", "proved", "C129_gap C129_distance C129_default", "images of less than 2^62 pixels. The default kernel of dilate in three dimensions also steps across edges (C23), that of clusters does not: there the kernel has to be given")
c("C130", "proved", "C130_clusters", "images of less than 2^62 pixels")
c("C131", "proved", "C131_S2 C131_C2 C131_heightheight C131_W2 C131_mean", "over a field. With periodicity and a narrower border masked pixels reached through the edge contribute (C34_violated)")
c("C132", "proved", "C132_dilate C132_default C132_support C132_support_default", "with different numbers of iterations it is false: a label can pass another one through the border (example beside the theorem)")
c("C133", "proved", "C133_centers C133_mass", "over the reals")
c("C134", "proved", "C134_distance C134_others C134_method", "over the rationals; the selection of pybind11 is assumed, as in C124")
c("C135", "proved", "C135_refused C135_rest")
c("C136", "proved", "C136_dilate C136_clusters C136_labeller", "dilate with one number of iterations and a kernel that C23 applies to; clusters in up to three dimensions; a labeller with offsets that C02 applies to. Images of less than 2^62 pixels")
c("C137", "proved", "C137_structure C137_structure2", "over the reals with an exact Fourier transform; two dimensions: the frequencies at which the structure factor is right (C55)")
c("C138", "proved", "C138_S2 C138_C2 C138_W2 C138_heightheight C138_history", "over a field")
c("C139", "proved", "C139_C2 C139_S2 C139_one", "over a field; the values are those of the code, also for periodic images with masked pixels")
c("C140", "proved", "C140_mean C140_again", "over a field; for heightheight the function pow(x, 0.5) is any square root of numbers that are not negative. With weights of a negative sum it is false, see C39_negative")
text = "\n".join(f.read_text() for f in (root / "lean/Verif/Props").glob("*.lean"))
have = set(re.findall(r"^theorem (\S+)", text, re.M))
bad = [t for x in C for t in x["theorems"] if t.split(".")[-1] not in have]
if bad: sys.exit(f"missing theorems: {bad}")
C.sort(key=lambda x: x["property"])
(root / "MANIFEST.json").write_text(json.dumps({"claims": C}, indent=1) + "\n")
unused = sorted(have - {t.split(".")[-1] for x in C for t in x["theorems"]})
print(len(C), "claims; theorems not listed:", unused)

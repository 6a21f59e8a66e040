{
 "claims": [
  {
   "property": "C01",
   "status": "proved",
   "theorems": [
    "Verif.Props.C01_background",
    "Verif.Props.C01_clusters"
   ],
   "note": ""
  },
  {
   "property": "C02",
   "status": "proved",
   "theorems": [
    "Verif.Props.C02_connected",
    "Verif.Props.C03_clusters"
   ],
   "note": "second component of C03_clusters for clusters()"
  },
  {
   "property": "C03",
   "status": "proved",
   "theorems": [
    "Verif.Props.C03_clusters",
    "Verif.Props.C03_pattern"
   ],
   "note": ""
  },
  {
   "property": "C04",
   "status": "proved",
   "theorems": [
    "Verif.Props.C04_partition",
    "Verif.Props.C04_equal_after_prune"
   ],
   "note": ""
  },
  {
   "property": "C05",
   "status": "proved",
   "theorems": [
    "Verif.Props.C05_age"
   ],
   "note": ""
  },
  {
   "property": "C06",
   "status": "proved",
   "theorems": [
    "Verif.Props.C06_stable"
   ],
   "note": ""
  },
  {
   "property": "C07",
   "status": "proved",
   "theorems": [
    "Verif.Props.C07_prune",
    "Verif.Props.C07_prune_idempotent"
   ],
   "note": ""
  },
  {
   "property": "C08",
   "status": "proved",
   "theorems": [
    "Verif.Props.C08_reset"
   ],
   "note": ""
  },
  {
   "property": "C09",
   "status": "proved",
   "theorems": [
    "Verif.Props.C09_safe"
   ],
   "note": ""
  },
  {
   "property": "C10",
   "status": "proved",
   "theorems": [
    "Verif.Props.C10_add_sequence"
   ],
   "note": ""
  },
  {
   "property": "C100",
   "status": "proved",
   "theorems": [
    "Verif.Props.C100_cauchy_schwarz",
    "Verif.Props.C100_monotone",
    "Verif.Props.C100_triangle",
    "Verif.Props.C100_complement",
    "Verif.Props.C100_heightheight"
   ],
   "note": "All parts, in exact arithmetic (real numbers for heightheight, an ordered field otherwise)."
  },
  {
   "property": "C101",
   "status": "proved",
   "theorems": [
    "Verif.Props.C101_center",
    "Verif.Props.C101_center_of_mass",
    "Verif.Props.C101_error",
    "Verif.Props.C101_mass_error",
    "Verif.Props.C101_between",
    "Verif.Props.C101_labels",
    "Verif.Props.C101_labels_mass",
    "Verif.Props.C101_periodic",
    "Verif.Props.C101_periodic_exceeds",
    "Verif.Props.C101_real"
   ],
   "note": "rnd64 has neither overflow nor subnormal numbers. sin, cos and atan2 are parameters; atan2 returns values of at most pi in magnitude."
  },
  {
   "property": "C102",
   "status": "proved",
   "theorems": [
    "Verif.Props.C102_map",
    "Verif.Props.C102_sizes",
    "Verif.Props.C102_balance",
    "Verif.Props.C102_balance_mass",
    "Verif.Props.C102_balance_names",
    "Verif.Props.C102_dilate"
   ],
   "note": "Centers over the real numbers; images of fewer than 2^62 pixels."
  },
  {
   "property": "C103",
   "status": "partial",
   "theorems": [
    "Verif.Props.C103_equivalent",
    "Verif.Props.C103_equivalent_mass",
    "Verif.Props.C103_fraction_violated",
    "Verif.Props.C103_path_partial",
    "Verif.Props.C103_line_partial",
    "Verif.Props.C103_double_partial",
    "Verif.Props.C103_path_rejected",
    "Verif.Props.C103_circles_partial",
    "Verif.Props.C103_violated"
   ],
   "note": "Labels must be whole numbers: labels_centers drops the fractional part of labels, numpy.argwhere does not (C103_fraction_violated). Coordinates beyond 32 bits are taken modulo 2^32 without an error (C103_violated). Centers over the real numbers."
  },
  {
   "property": "C104",
   "status": "proved",
   "theorems": [
    "Verif.Props.C104_S2",
    "Verif.Props.C104_C2",
    "Verif.Props.C104_heightheight"
   ],
   "note": "exact arithmetic (an ordered field)"
  },
  {
   "property": "C105",
   "status": "partial",
   "theorems": [
    "Verif.Props.C105_whole",
    "Verif.Props.C105_partial",
    "Verif.Props.C105_value",
    "Verif.Props.C105_violated"
   ],
   "note": "false in the code if pixels of different nonzero values touch (C105_violated): values are not compared, only zero or not; proved otherwise. An island is never split (C105_whole), and the clusters of f == v are the islands of value v (C105_value)"
  },
  {
   "property": "C106",
   "status": "partial",
   "theorems": [
    "Verif.Props.C106_near",
    "Verif.Props.C106_iff",
    "Verif.Props.C106_partial",
    "Verif.Props.C106_turn",
    "Verif.Props.C106_violated"
   ],
   "note": "false in the code if the line is midway between two pixels (C106_violated: (0,0) to (2,1)): ties are rounded away from the first point. C106_iff gives exactly when it holds, C106_partial a simple case (odd largest displacement); always: rows are the same pixel or neighbours (C106_near), and the path back is the path turned about its middle (C106_turn)"
  },
  {
   "property": "C107",
   "status": "partial",
   "theorems": [
    "Verif.Props.C107_actual_in_full",
    "Verif.Props.C107_double",
    "Verif.Props.C107_equal",
    "Verif.Props.C107_equal_double",
    "Verif.Props.C107_bresenham_crossed",
    "Verif.Props.C107_bresenham_stays",
    "Verif.Props.C107_nested_partial",
    "Verif.Props.C107_plane_partial",
    "Verif.Props.C107_long_violated"
   ],
   "note": "actual within full: proved for all points, in exact arithmetic and in double; they are equal exactly if actual changes one coordinate per row (C107_equal, C107_equal_double). Bresenham within actual: from the origin (from other points actual and full may not end, C30_violated), for displacements up to 707 in three dimensions and up to 500000 in the plane; beyond, false in the code in three dimensions (C107_long_violated): crossings closer than 1e-6 are taken for one. Every pixel of mode Bresenham is crossed by the segment, without bound"
  },
  {
   "property": "C108",
   "status": "proved",
   "theorems": [
    "Verif.Props.C108_data",
    "Verif.Props.C108_result",
    "Verif.Props.C108_variance",
    "Verif.Props.C108_mean",
    "Verif.Props.C108_heightheight",
    "Verif.Props.C108_distance",
    "Verif.Props.C108_center",
    "Verif.Props.C108_center_of_mass",
    "Verif.Props.C108_labels",
    "Verif.Props.C108_labels_mass"
   ],
   "note": "numbers are not rounded and do not overflow; the functions of the standard library are arbitrary, and strict"
  },
  {
   "property": "C109",
   "status": "partial",
   "theorems": [
    "Verif.Props.C109_rename_partial",
    "Verif.Props.C109_rename_violated",
    "Verif.Props.C109_prune",
    "Verif.Props.C109_prune_nonneg",
    "Verif.Props.C109_prune_violated",
    "Verif.Props.C109_reorder_partial",
    "Verif.Props.C109_reorder_violated",
    "Verif.Props.C109_sizes_partial",
    "Verif.Props.C109_sizes_modulo",
    "Verif.Props.C109_sizes_overflow",
    "Verif.Props.C109_sizes_violated",
    "Verif.Props.C109_names_partial",
    "Verif.Props.C109_names_violated"
   ],
   "note": "false in the code: sizes are stored in the type of the labels, so they are modulo its range (C109_sizes_violated) or undefined; labels are converted to the type of the table or of the keys, also past the assertion (C109_rename_violated, C109_names_violated); the highest label of a type of at least 32 bits overflows in labels_reorder. labels_prune is right for all images without negative labels"
  },
  {
   "property": "C11",
   "status": "proved",
   "theorems": [
    "Verif.Props.C11_events",
    "Verif.Props.C11_events_general",
    "Verif.Props.C11_repeated"
   ],
   "note": "for repeated or already labelled points a position can be marked without an event (C11_repeated)"
  },
  {
   "property": "C110",
   "status": "partial",
   "theorems": [
    "Verif.Props.C110_decided",
    "Verif.Props.C110_same_partial",
    "Verif.Props.C110_small",
    "Verif.Props.C110_overflow",
    "Verif.Props.C110_violated"
   ],
   "note": "exact condition: the disc (periodic) or the square around it (not periodic, also outside of the image) fits in int; otherwise undefined behaviour (C110_overflow). C110_decided: the exact condition for all positions and radii, including those whose distance to the corner does not fit"
  },
  {
   "property": "C111",
   "status": "proved",
   "theorems": [
    "Verif.Props.C111_labelled",
    "Verif.Props.C111_joined",
    "Verif.Props.C111_bounds",
    "Verif.Props.C111_two",
    "Verif.Props.C111_configuration"
   ],
   "note": "for symmetric kernels this is C01; the consequence for two pixels in every image is C16_general"
  },
  {
   "property": "C112",
   "status": "proved",
   "theorems": [
    "Verif.Props.C112_ends",
    "Verif.Props.C112_endless",
    "Verif.Props.C112_origin",
    "Verif.Props.C112_ends_double",
    "Verif.Props.C112_endless_double"
   ],
   "note": "in exact arithmetic and in double; the full extent of the defect C30_violated. Where the path ends it may still leave the line (C31_start_violated)"
  },
  {
   "property": "C113",
   "status": "proved",
   "theorems": [
    "Verif.Props.C113_labelled",
    "Verif.Props.C113_joined",
    "Verif.Props.C113_two",
    "Verif.Props.C113_configuration"
   ],
   "note": "without the exceptions this is C111; when the exceptions matter is decided in C12_iff and C13_iff. Offsets and shapes below 2^62"
  },
  {
   "property": "C114",
   "status": "proved",
   "theorems": [
    "Verif.Props.C114_age",
    "Verif.Props.C114_prune",
    "Verif.Props.C114_prune_idempotent",
    "Verif.Props.C114_equal_after_prune",
    "Verif.Props.C114_stable",
    "Verif.Props.C114_reset",
    "Verif.Props.C114_add_sequence",
    "Verif.Props.C114_events"
   ],
   "note": "C04 to C08, C10 and C11 without the assumption that the kernel is point-symmetric and fits the image. Offsets and shapes below 2^62"
  },
  {
   "property": "C115",
   "status": "proved",
   "theorems": [
    "Verif.Props.C115_labels",
    "Verif.Props.C115_continued",
    "Verif.Props.C115_added",
    "Verif.Props.C115_again"
   ],
   "note": "sharper than C04, which is about the partition and about labels after prune. Offsets and shapes below 2^62"
  },
  {
   "property": "C116",
   "status": "partial",
   "theorems": [
    "Verif.Props.C116_corner_partial",
    "Verif.Props.C116_farthest_partial",
    "Verif.Props.C116_violated"
   ],
   "note": "false at displacements that are passed by paths to other pixels of the edge of the region of interest (C116_violated): L is averaged over different paths to the same displacement. Proved at the corners (all modes), at the displacements farthest from the centre (Bresenham), and by C93 along the axes"
  },
  {
   "property": "C117",
   "status": "proved",
   "theorems": [
    "Verif.Props.C117_line",
    "Verif.Props.C117_regions"
   ],
   "note": "what is computed: that the clusters do not matter is the defect of C47. Up to 10^6 pixels for modes actual and full"
  },
  {
   "property": "C118",
   "status": "proved",
   "theorems": [
    "Verif.Props.C118_names",
    "Verif.Props.C118_centres",
    "Verif.Props.C118_masked",
    "Verif.Props.C118_linear",
    "Verif.Props.C118_between"
   ],
   "note": "of the code as it is: that the extent of the clusters does not matter is the defect of C47. Includes the regions of interest for which C48 fails: SameOutcome says that both calls are undefined, or both return the same array. Up to 10^6 pixels for modes actual and full"
  },
  {
   "property": "C119",
   "status": "partial",
   "theorems": [
    "Verif.Props.C119_one",
    "Verif.Props.C119_sign_partial",
    "Verif.Props.C119_throws_iff",
    "Verif.Props.C119_ub_iff",
    "Verif.Props.C119_violated"
   ],
   "note": "false in the code for labels of both signs (C119_violated): the overload makes a table of amax + 1 numbers, and negative labels read before its start. Proved: labels of one sign if there is a pixel that is not negative; a table of one number serves all labels (C119_one), because xtensor gives an axis of length one the stride zero; exactly which calls throw and are undefined"
  },
  {
   "property": "C12",
   "status": "partial",
   "theorems": [
    "Verif.Props.C12_inside_partial",
    "Verif.Props.C12_violated",
    "Verif.Props.C12_iff",
    "Verif.Props.C12_line",
    "Verif.Props.C12_code"
   ],
   "note": "false in the code for diagonal offsets on shapes [1,n], [n,1] (C12_violated); proved for all other configurations; C12_iff: exactly for which offsets it holds; C12_line, C12_code: what is computed for all of them"
  },
  {
   "property": "C120",
   "status": "proved",
   "theorems": [
    "Verif.Props.C120_version"
   ],
   "note": "the text is returned unchanged if it has no quotes and no backslashes, which no version has"
  },
  {
   "property": "C121",
   "status": "partial",
   "theorems": [
    "Verif.Props.C121_partial",
    "Verif.Props.C121_violated"
   ],
   "note": "false in the code for labellers that differ in periodicity only (C121_violated): the text has the rank but not the `p` of the name of the class; proved for rank and shape"
  },
  {
   "property": "C122",
   "status": "proved",
   "theorems": [
    "Verif.Props.C122_axis",
    "Verif.Props.C122_axis_h",
    "Verif.Props.C122_distance",
    "Verif.Props.C122_distance_h"
   ],
   "note": "the root is any with the stated error; neither overflow nor underflow"
  },
  {
   "property": "C123",
   "status": "proved",
   "theorems": [
    "Verif.Props.C123_same",
    "Verif.Props.C123_ends",
    "Verif.Props.C123_ends_double",
    "Verif.Props.C123_right",
    "Verif.Props.C123_endless",
    "Verif.Props.C123_double"
   ],
   "note": "memory is unlimited (2^31 rows take up to 24 GB)"
  },
  {
   "property": "C124",
   "status": "partial",
   "theorems": [
    "Verif.Props.C124_named",
    "Verif.Props.C124_positional_partial",
    "Verif.Props.C124_misread",
    "Verif.Props.C124_ignored",
    "Verif.Props.C124_violated"
   ],
   "note": "false in the code for some positional arguments (C124_violated): dilate(f, 2) with f of type int64 takes 2 for a kernel and returns f as it is (with assertions it throws). Proved for named arguments; for positional arguments exactly in which cases it holds and what is done in the others; a number after any image of another type than int32 is lost (C124_ignored). The rules by which pybind11 chooses a signature are assumed"
  },
  {
   "property": "C125",
   "status": "proved",
   "theorems": [
    "Verif.Props.C125_L",
    "Verif.Props.C125_W2c",
    "Verif.Props.C125_double",
    "Verif.Props.C125_history"
   ],
   "note": "integers: only those of paths are bounded; positions in the image are not"
  },
  {
   "property": "C126",
   "status": "proved",
   "theorems": [
    "Verif.Props.C126_axis",
    "Verif.Props.C126_axes",
    "Verif.Props.C126_used",
    "Verif.Props.C126_half",
    "Verif.Props.C126_pad"
   ],
   "note": "the asserts of the C library in atleast_3d_axis are taken to be off"
  },
  {
   "property": "C127",
   "status": "partial",
   "theorems": [
    "Verif.Props.C127_exact",
    "Verif.Props.C127_iff",
    "Verif.Props.C127_violated"
   ],
   "note": "false in the code for 2^31 clusters or more (C127_violated: in an image of 2^33 pixels, every second of which is background, a cluster has the label of the background). Proved: exactly with fewer than 2^31 clusters, hence with fewer than 2^31 pixels, no label changes; with fewer than 2^32 clusters background and clusters are still told apart"
  },
  {
   "property": "C128",
   "status": "partial",
   "theorems": [
    "Verif.Props.C128_partial",
    "Verif.Props.C128_double_partial",
    "Verif.Props.C128_iff",
    "Verif.Props.C128_violated"
   ],
   "note": "false in the code if the sum does not fit in int (C128_violated: two pixels of 2^30, undefined; with a mask it is right). Proved if the absolute values add up to an int; for images without negative pixels exactly if the sum fits (C128_iff). Rests on the type of xt::sum, which is that of the elements. From Python images are converted to double (C86)"
  },
  {
   "property": "C129",
   "status": "proved",
   "theorems": [
    "Verif.Props.C129_gap",
    "Verif.Props.C129_distance",
    "Verif.Props.C129_default"
   ],
   "note": "images of less than 2^62 pixels. The default kernel of dilate in three dimensions also steps across edges (C23), that of clusters does not: there the kernel has to be given"
  },
  {
   "property": "C13",
   "status": "partial",
   "theorems": [
    "Verif.Props.C13_modulo_partial",
    "Verif.Props.C13_config_3d",
    "Verif.Props.C13_violated",
    "Verif.Props.C13_reaches",
    "Verif.Props.C13_iff",
    "Verif.Props.C13_clusters"
   ],
   "note": "false in the code in 1D/2D for offsets longer than the axis (C13_violated, size_t wrap); proved otherwise, and without restriction in 3D; C13_iff: exactly for which offsets it holds (also those longer than an axis whose length is a power of two)"
  },
  {
   "property": "C130",
   "status": "proved",
   "theorems": [
    "Verif.Props.C130_clusters"
   ],
   "note": "images of less than 2^62 pixels"
  },
  {
   "property": "C131",
   "status": "proved",
   "theorems": [
    "Verif.Props.C131_S2",
    "Verif.Props.C131_C2",
    "Verif.Props.C131_heightheight",
    "Verif.Props.C131_W2",
    "Verif.Props.C131_mean"
   ],
   "note": "over a field. With periodicity and a narrower border masked pixels reached through the edge contribute (C34_violated)"
  },
  {
   "property": "C132",
   "status": "proved",
   "theorems": [
    "Verif.Props.C132_dilate",
    "Verif.Props.C132_default",
    "Verif.Props.C132_support",
    "Verif.Props.C132_support_default"
   ],
   "note": "with different numbers of iterations it is false: a label can pass another one through the border (example beside the theorem)"
  },
  {
   "property": "C133",
   "status": "proved",
   "theorems": [
    "Verif.Props.C133_centers",
    "Verif.Props.C133_mass"
   ],
   "note": "over the reals"
  },
  {
   "property": "C134",
   "status": "proved",
   "theorems": [
    "Verif.Props.C134_distance",
    "Verif.Props.C134_others",
    "Verif.Props.C134_method"
   ],
   "note": "over the rationals; the selection of pybind11 is assumed, as in C124"
  },
  {
   "property": "C135",
   "status": "proved",
   "theorems": [
    "Verif.Props.C135_refused",
    "Verif.Props.C135_rest"
   ],
   "note": ""
  },
  {
   "property": "C136",
   "status": "proved",
   "theorems": [
    "Verif.Props.C136_dilate",
    "Verif.Props.C136_clusters",
    "Verif.Props.C136_labeller"
   ],
   "note": "dilate with one number of iterations and a kernel that C23 applies to; clusters in up to three dimensions; a labeller with offsets that C02 applies to. Images of less than 2^62 pixels"
  },
  {
   "property": "C137",
   "status": "proved",
   "theorems": [
    "Verif.Props.C137_structure",
    "Verif.Props.C137_structure2"
   ],
   "note": "over the reals with an exact Fourier transform; two dimensions: the frequencies at which the structure factor is right (C55)"
  },
  {
   "property": "C138",
   "status": "proved",
   "theorems": [
    "Verif.Props.C138_S2",
    "Verif.Props.C138_C2",
    "Verif.Props.C138_W2",
    "Verif.Props.C138_heightheight",
    "Verif.Props.C138_history"
   ],
   "note": "over a field"
  },
  {
   "property": "C139",
   "status": "proved",
   "theorems": [
    "Verif.Props.C139_C2",
    "Verif.Props.C139_S2",
    "Verif.Props.C139_one"
   ],
   "note": "over a field; the values are those of the code, also for periodic images with masked pixels"
  },
  {
   "property": "C14",
   "status": "partial",
   "theorems": [
    "Verif.Props.C14_default_partial",
    "Verif.Props.C14_default_configuration",
    "Verif.Props.C14_violated"
   ],
   "note": "false in the code in 3D (C14_violated); equality proved in 1D and 2D; the actual default (face neighbours) proved in all ranks"
  },
  {
   "property": "C140",
   "status": "proved",
   "theorems": [
    "Verif.Props.C140_mean",
    "Verif.Props.C140_again"
   ],
   "note": "over a field; for heightheight the function pow(x, 0.5) is any square root of numbers that are not negative. With weights of a negative sum it is false, see C39_negative"
  },
  {
   "property": "C15",
   "status": "proved",
   "theorems": [
    "Verif.Props.C15_offsets",
    "Verif.Props.C15_symmetric",
    "Verif.Props.C15_symmetric_adj",
    "Verif.Props.C15_configuration",
    "Verif.Props.C15_even_throws",
    "Verif.Props.C15_centre_throws"
   ],
   "note": ""
  },
  {
   "property": "C16",
   "status": "proved",
   "theorems": [
    "Verif.Props.C16_general",
    "Verif.Props.C16_asymmetric"
   ],
   "note": ""
  },
  {
   "property": "C17",
   "status": "proved",
   "theorems": [
    "Verif.Props.C17_labels_map",
    "Verif.Props.C17_labels_map_short",
    "Verif.Props.C17_rename_map"
   ],
   "note": ""
  },
  {
   "property": "C18",
   "status": "proved",
   "theorems": [
    "Verif.Props.C18_labels_rename",
    "Verif.Props.C18_labels_rename_throws",
    "Verif.Props.C18_labels_rename_release"
   ],
   "note": ""
  },
  {
   "property": "C19",
   "status": "proved",
   "theorems": [
    "Verif.Props.C19_labels_prune",
    "Verif.Props.C19_labels_prune_spec",
    "Verif.Props.C19_labels_prune_idempotent"
   ],
   "note": ""
  },
  {
   "property": "C20",
   "status": "proved",
   "theorems": [
    "Verif.Props.C20_labels_reorder",
    "Verif.Props.C20_labels_reorder_last",
    "Verif.Props.C20_labels_reorder_throws",
    "Verif.Props.C20_labels_reorder_duplicate"
   ],
   "note": "a duplicated label in order is accepted by the assertion (C20_labels_reorder_duplicate)"
  },
  {
   "property": "C21",
   "status": "proved",
   "theorems": [
    "Verif.Props.C21_labels_sizes",
    "Verif.Props.C21_labels_sizes_total",
    "Verif.Props.C21_labels_sizes_names"
   ],
   "note": ""
  },
  {
   "property": "C22",
   "status": "proved",
   "theorems": [
    "Verif.Props.C22_keep",
    "Verif.Props.C24_nearest"
   ],
   "note": ""
  },
  {
   "property": "C23",
   "status": "proved",
   "theorems": [
    "Verif.Props.C23_reach",
    "Verif.Props.C23_least",
    "Verif.Props.C23_same",
    "Verif.Props.C23_nearest"
   ],
   "note": ""
  },
  {
   "property": "C24",
   "status": "proved",
   "theorems": [
    "Verif.Props.C24_own",
    "Verif.Props.C24_zero",
    "Verif.Props.C24_nearest",
    "Verif.Props.C24_alone",
    "Verif.Props.C24_alone_piece",
    "Verif.Props.C24_all_alone"
   ],
   "note": "C24_alone: the converse for a label that meets no other label; C24_all_alone: the whole result if no two labels meet."
  },
  {
   "property": "C25",
   "status": "partial",
   "theorems": [
    "Verif.Props.C25_partial",
    "Verif.Props.C25_throws",
    "Verif.Props.C25_throws_iff",
    "Verif.Props.C25_ub_iff",
    "Verif.Props.C25_returns_iff",
    "Verif.Props.C25_violated"
   ],
   "note": "false in the code (C25_violated): the assertion compares with size() + 1 instead of size() - 1, for a table of two or more numbers (a table of one number serves all labels, C119); proved: for any integers as labels, with and without assertions, exactly which calls throw, are undefined and return"
  },
  {
   "property": "C26",
   "status": "proved",
   "theorems": [
    "Verif.Props.C26_bresenham"
   ],
   "note": ""
  },
  {
   "property": "C27",
   "status": "proved",
   "theorems": [
    "Verif.Props.C27_line",
    "Verif.Props.C27_unique",
    "Verif.Props.C27_half"
   ],
   "note": ""
  },
  {
   "property": "C28",
   "status": "proved",
   "theorems": [
    "Verif.Props.C28_translate",
    "Verif.Props.C28_reflect",
    "Verif.Props.C28_permute"
   ],
   "note": ""
  },
  {
   "property": "C29",
   "status": "partial",
   "theorems": [
    "Verif.Props.C29_single_partial",
    "Verif.Props.C29_violated"
   ],
   "note": "false in the code: Bresenham reads out of bounds in 1D/2D, actual stores the pixel twice (C29_violated); proved for Bresenham in 3D and for full"
  },
  {
   "property": "C30",
   "status": "partial",
   "theorems": [
    "Verif.Props.C30_origin_partial",
    "Verif.Props.C30_translate_partial",
    "Verif.Props.C30_violated",
    "Verif.Props.C30_long_violated"
   ],
   "note": "false in the code for general start points (C30_violated: no termination) and for very long paths (C30_long_violated); proved from the origin to points with components up to 10^6 and for segments on a line through the origin, which includes all segments along one axis; C112 says for which start points it ends"
  },
  {
   "property": "C31",
   "status": "partial",
   "theorems": [
    "Verif.Props.C31_full_partial",
    "Verif.Props.C31_actual_partial",
    "Verif.Props.C31_start_violated",
    "Verif.Props.C30_long_violated"
   ],
   "note": "from other points than the origin false in the code (C31_start_violated); from the origin proved for components up to 10^6; beyond, the tolerance 1e-6 of the code can make it miss the end point (C30_long_violated: no termination)"
  },
  {
   "property": "C32",
   "status": "partial",
   "theorems": [
    "Verif.Props.C32_actual_partial",
    "Verif.Props.C32_actual_inside_partial",
    "Verif.Props.C32_full_partial",
    "Verif.Props.C32_long_violated"
   ],
   "note": "proved for components up to 10^6 (actual, where even the interior is crossed) and 707 (full); beyond, false in the code (C32_long_violated): crossings closer than 1e-6 are taken for one"
  },
  {
   "property": "C33",
   "status": "proved",
   "theorems": [
    "Verif.Props.C33_cover",
    "Verif.Props.C33_centre",
    "Verif.Props.C33_axis",
    "Verif.Props.C33_distance",
    "Verif.Props.C33_distance_h",
    "Verif.Props.C33_axis_h",
    "Verif.Props.C33_rejected",
    "Verif.Props.C33_axis_decided",
    "Verif.Props.C33_h_decided",
    "Verif.Props.C33_axis_h_decided"
   ],
   "note": "without GOOSEEYE_ENABLE_ASSERT the theorems take NDEBUG as defined: otherwise an axis that does not exist aborts the program"
  },
  {
   "property": "C34",
   "status": "partial",
   "theorems": [
    "Verif.Props.C34_partial",
    "Verif.Props.C34_code",
    "Verif.Props.C34_unmasked",
    "Verif.Props.C34_violated"
   ],
   "note": "false in the code for periodic images with masked pixels (C34_violated): the mask is not extended periodically; proved otherwise, and C34_code states what is computed in all cases"
  },
  {
   "property": "C35",
   "status": "partial",
   "theorems": [
    "Verif.Props.C35_S2_partial",
    "Verif.Props.C35_C2_partial",
    "Verif.Props.C35_W2_partial",
    "Verif.Props.C35_heightheight_partial",
    "Verif.Props.C35_mean",
    "Verif.Props.C35_violated"
   ],
   "note": "false in the code for periodic images (C35_violated); proved for non-periodic images, for the mask of the first image, and for mean"
  },
  {
   "property": "C36",
   "status": "proved",
   "theorems": [
    "Verif.Props.C36_zero",
    "Verif.Props.C36_range",
    "Verif.Props.C36_max",
    "Verif.Props.C36_symmetric",
    "Verif.Props.C36_ones"
   ],
   "note": ""
  },
  {
   "property": "C37",
   "status": "proved",
   "theorems": [
    "Verif.Props.C37_S2",
    "Verif.Props.C37_C2",
    "Verif.Props.C37_heightheight",
    "Verif.Props.C37_W2",
    "Verif.Props.C37_L",
    "Verif.Props.C37_W2c"
   ],
   "note": ""
  },
  {
   "property": "C38",
   "status": "partial",
   "theorems": [
    "Verif.Props.C38_partial",
    "Verif.Props.C38_code",
    "Verif.Props.C38_unmasked",
    "Verif.Props.C38_binary",
    "Verif.Props.C38_violated"
   ],
   "note": "as C34"
  },
  {
   "property": "C39",
   "status": "partial",
   "theorems": [
    "Verif.Props.C39_partial",
    "Verif.Props.C39_code",
    "Verif.Props.C39_unmasked",
    "Verif.Props.C39_range",
    "Verif.Props.C39_ones",
    "Verif.Props.C39_ratio",
    "Verif.Props.C39_violated",
    "Verif.Props.C39_negative"
   ],
   "note": "as C34; weights with a negative sum are not normalised (C39_negative)"
  },
  {
   "property": "C40",
   "status": "partial",
   "theorems": [
    "Verif.Props.C40_partial",
    "Verif.Props.C40_code",
    "Verif.Props.C40_unmasked",
    "Verif.Props.C40_zero",
    "Verif.Props.C40_symmetric",
    "Verif.Props.C40_affine",
    "Verif.Props.C40_square",
    "Verif.Props.C40_from_S2",
    "Verif.Props.C40_violated"
   ],
   "note": "as C34 for the formula; the other claims are proved, and the relation to S2 with masks and without periodicity (C40_from_S2)"
  },
  {
   "property": "C41",
   "status": "proved",
   "theorems": [
    "Verif.Props.C41_mean"
   ],
   "note": ""
  },
  {
   "property": "C42",
   "status": "proved",
   "theorems": [
    "Verif.Props.C42_order",
    "Verif.Props.C42_sums"
   ],
   "note": ""
  },
  {
   "property": "C43",
   "status": "proved",
   "theorems": [
    "Verif.Props.C43_one_statistic",
    "Verif.Props.C43_variance",
    "Verif.Props.C43_release",
    "Verif.Props.C43_release_data",
    "Verif.Props.C43_release_result",
    "Verif.Props.C43_release_variance"
   ],
   "note": "without assertions measures can be mixed (C43_release); the last three theorems say what is then computed"
  },
  {
   "property": "C44",
   "status": "proved",
   "theorems": [
    "Verif.Props.C44_lineal_path",
    "Verif.Props.C44_paths"
   ],
   "note": ""
  },
  {
   "property": "C45",
   "status": "partial",
   "theorems": [
    "Verif.Props.C45_bounds",
    "Verif.Props.C45_both_nonzero",
    "Verif.Props.C45_origin_partial",
    "Verif.Props.C45_violated"
   ],
   "note": "L(0) is not the area fraction if the ROI is a single pixel (C45_violated): there are then no paths; all else proved"
  },
  {
   "property": "C46",
   "status": "proved",
   "theorems": [
    "Verif.Props.C46_defined"
   ],
   "note": ""
  },
  {
   "property": "C47",
   "status": "partial",
   "theorems": [
    "Verif.Props.C47_partial",
    "Verif.Props.C47_code",
    "Verif.Props.C47_unmasked",
    "Verif.Props.C47_violated"
   ],
   "note": "false in the code for clusters larger than one pixel (C47_violated): the pixels of the cluster are not skipped; C47_code states what is computed, C47_partial is the property where every path leaves the cluster in its first step"
  },
  {
   "property": "C48",
   "status": "partial",
   "theorems": [
    "Verif.Props.C48_partial",
    "Verif.Props.C47_code",
    "Verif.Props.C48_code",
    "Verif.Props.C48_outside",
    "Verif.Props.C48_violated",
    "Verif.Props.C48_shift_violated"
   ],
   "note": "false in the code for three-dimensional ROIs with different pads along axes 1 and 2 (C48_violated: writes out of bounds; C48_shift_violated: values at the wrong place); proved otherwise; C48_code and C48_outside state what is computed, and exactly when memory is accessed out of bounds, for every ROI"
  },
  {
   "property": "C49",
   "status": "proved",
   "theorems": [
    "Verif.Props.C49_mean",
    "Verif.Props.C49_perm",
    "Verif.Props.C49_shift",
    "Verif.Props.C49_empty"
   ],
   "note": "exact arithmetic"
  },
  {
   "property": "C50",
   "status": "proved",
   "theorems": [
    "Verif.Props.C50_range",
    "Verif.Props.C50_mean",
    "Verif.Props.C50_shift",
    "Verif.Props.C50_wrap",
    "Verif.Props.C50_single",
    "Verif.Props.C50_perm",
    "Verif.Props.C50_cancel"
   ],
   "note": "exact arithmetic"
  },
  {
   "property": "C51",
   "status": "proved",
   "theorems": [
    "Verif.Props.C51_flat",
    "Verif.Props.C51_mean",
    "Verif.Props.C51_equal",
    "Verif.Props.C51_scale",
    "Verif.Props.C51_zero",
    "Verif.Props.C51_merge",
    "Verif.Props.C51_perm",
    "Verif.Props.C51_shift"
   ],
   "note": "exact arithmetic"
  },
  {
   "property": "C52",
   "status": "proved",
   "theorems": [
    "Verif.Props.C52_centers",
    "Verif.Props.C52_mass",
    "Verif.Props.C52_enumerates",
    "Verif.Props.C52_independent",
    "Verif.Props.C52_mass_independent"
   ],
   "note": ""
  },
  {
   "property": "C53",
   "status": "proved",
   "theorems": [
    "Verif.Props.C53_pixels",
    "Verif.Props.C53_disc",
    "Verif.Props.C53_throws",
    "Verif.Props.C53_double",
    "Verif.Props.C53_throws_iff",
    "Verif.Props.C53_returns_iff"
   ],
   "note": "pow(m, 0.5) in double: any root with a relative error of 2^-52 that is exact for squares, for radii up to 2^24 (C53_double). A list of one column or radius serves all circles (C53_returns_iff)"
  },
  {
   "property": "C54",
   "status": "proved",
   "theorems": [
    "Verif.Props.C54_shift",
    "Verif.Props.C54_more",
    "Verif.Props.C54_order",
    "Verif.Props.C54_clipped"
   ],
   "note": ""
  },
  {
   "property": "C55",
   "status": "partial",
   "theorems": [
    "Verif.Props.C55_1d",
    "Verif.Props.C55_second",
    "Verif.Props.C55_2d_partial",
    "Verif.Props.C55_2d_second_partial",
    "Verif.Props.C55_code",
    "Verif.Props.C55_parity",
    "Verif.Props.C55_violated",
    "Verif.Props.C55_junk_violated",
    "Verif.Props.C55_integer_violated"
   ],
   "note": "proved in one dimension and in two dimensions for frequencies whose components have the same sign; false in the code for the others (C55_violated, C55_junk_violated) and for samples of integers (C55_integer_violated); C55_code: what is computed at every frequency"
  },
  {
   "property": "C56",
   "status": "partial",
   "theorems": [
    "Verif.Props.C56_crossed_partial",
    "Verif.Props.C56_actual_exactly_partial",
    "Verif.Props.C56_full_exactly_partial",
    "Verif.Props.C56_stay_partial",
    "Verif.Props.C56_long_violated"
   ],
   "note": "proved for components up to 707 (with equivalence: C56_actual_exactly_partial, C56_full_exactly_partial); beyond, false in the code (C56_long_violated). For components up to a million every pixel that contains at least a millionth of the line is a row (C56_stay_partial)"
  },
  {
   "property": "C57",
   "status": "proved",
   "theorems": [
    "Verif.Props.C57_rejected",
    "Verif.Props.C57_release",
    "Verif.Props.C57_release_any"
   ],
   "note": ""
  },
  {
   "property": "C58",
   "status": "partial",
   "theorems": [
    "Verif.Props.C58_partial",
    "Verif.Props.C58_single_partial",
    "Verif.Props.C58_undisputed_partial",
    "Verif.Props.C58_violated"
   ],
   "note": "false in the code for periodic images with several labels (C58_violated); proved without periodicity, with periodicity for one label, and at pixels that no two labels reach (C58_undisputed_partial); C59_periodic states what is computed in all cases"
  },
  {
   "property": "C59",
   "status": "proved",
   "theorems": [
    "Verif.Props.C59_layers",
    "Verif.Props.C59_periodic"
   ],
   "note": ""
  },
  {
   "property": "C60",
   "status": "proved",
   "theorems": [
    "Verif.Props.C60_rename"
   ],
   "note": ""
  },
  {
   "property": "C61",
   "status": "proved",
   "theorems": [
    "Verif.Props.C61_arc",
    "Verif.Props.C61_mass"
   ],
   "note": ""
  },
  {
   "property": "C62",
   "status": "partial",
   "theorems": [
    "Verif.Props.C62_partial",
    "Verif.Props.C62_near_partial",
    "Verif.Props.C62_mass_partial",
    "Verif.Props.C62_violated"
   ],
   "note": "false in the code (C62_violated): the direction of the sum of vectors is not the mean; proved for positions that are symmetric about a point, and in general up to 16 pi^2 d^3 / (3 L^2) for positions within d of a point"
  },
  {
   "property": "C63",
   "status": "partial",
   "theorems": [
    "Verif.Props.C63_partial",
    "Verif.Props.C63_grid_partial",
    "Verif.Props.C63_double_partial",
    "Verif.Props.C63_throws_iff",
    "Verif.Props.C63_violated"
   ],
   "note": "false in the code for images smaller than 20 pixels along an axis (C63_violated): infinity is converted to an integer, which is undefined behaviour"
  },
  {
   "property": "C64",
   "status": "proved",
   "theorems": [
    "Verif.Props.C64_nonneg",
    "Verif.Props.C64_symmetric",
    "Verif.Props.C64_roll",
    "Verif.Props.C64_constant",
    "Verif.Props.C64_scale",
    "Verif.Props.C64_parseval"
   ],
   "note": "exact arithmetic, samples of reals"
  },
  {
   "property": "C65",
   "status": "proved",
   "theorems": [
    "Verif.Props.C65_qnorm",
    "Verif.Props.C65_qnorm2"
   ],
   "note": "exact arithmetic, samples of reals"
  },
  {
   "property": "C66",
   "status": "partial",
   "theorems": [
    "Verif.Props.C66_partial",
    "Verif.Props.C66_negative_violated",
    "Verif.Props.C66_violated"
   ],
   "note": "proved for variance = true without masked pixels of periodic images; with variance = false variance() returns the root of a negative number instead of raising (C66_negative_violated, C66_violated)"
  },
  {
   "property": "C67",
   "status": "proved",
   "theorems": [
    "Verif.Props.C67_clusters",
    "Verif.Props.C67_L_full",
    "Verif.Props.C67_L_any",
    "Verif.Props.C67_C2_le_S2",
    "Verif.Props.C67_labeller",
    "Verif.Props.C67_default_violated"
   ],
   "note": "C67_default_violated: with the default path mode (bresenham) L can exceed C2 of clusters, which connects faces only"
  },
  {
   "property": "C68",
   "status": "partial",
   "theorems": [
    "Verif.Props.C68_swap_partial",
    "Verif.Props.C68_swap_violated",
    "Verif.Props.C68_S2_linear_left",
    "Verif.Props.C68_S2_linear_right",
    "Verif.Props.C68_W2_linear",
    "Verif.Props.C68_W2_scale",
    "Verif.Props.C68_C2_rename"
   ],
   "note": "exchanging the images: false for periodic images with masked pixels (C68_swap_violated), proved otherwise; all else proved"
  },
  {
   "property": "C69",
   "status": "proved",
   "theorems": [
    "Verif.Props.C69_monotone",
    "Verif.Props.C69_pattern"
   ],
   "note": ""
  },
  {
   "property": "C70",
   "status": "proved",
   "theorems": [
    "Verif.Props.C70_monotone",
    "Verif.Props.C70_periodic",
    "Verif.Props.C70_count"
   ],
   "note": ""
  },
  {
   "property": "C71",
   "status": "proved",
   "theorems": [
    "Verif.Props.C71_symmetry",
    "Verif.Props.C71_shift",
    "Verif.Props.C71_reflect",
    "Verif.Props.C71_axes",
    "Verif.Props.C71_squeeze"
   ],
   "note": ""
  },
  {
   "property": "C72",
   "status": "proved",
   "theorems": [
    "Verif.Props.C72_rename_rename",
    "Verif.Props.C72_prune_rename",
    "Verif.Props.C72_sizes_rename",
    "Verif.Props.C72_reorder_undo",
    "Verif.Props.C72_prune_reorder",
    "Verif.Props.C72_prune_clusters"
   ],
   "note": ""
  },
  {
   "property": "C73",
   "status": "proved",
   "theorems": [
    "Verif.Props.C73_S2",
    "Verif.Props.C73_C2",
    "Verif.Props.C73_W2",
    "Verif.Props.C73_heightheight",
    "Verif.Props.C73_history",
    "Verif.Props.C73_mean",
    "Verif.Props.C73_error",
    "Verif.Props.C73_range",
    "Verif.Props.C73_order"
   ],
   "note": "every operation of the model is rounded; heightheight up to pow(x, 0.5), which is a parameter; no overflow to infinity"
  },
  {
   "property": "C74",
   "status": "partial",
   "theorems": [
    "Verif.Props.C74_error_partial",
    "Verif.Props.C74_nonneg_partial",
    "Verif.Props.C74_binary",
    "Verif.Props.C74_constant",
    "Verif.Props.C74_violated"
   ],
   "note": "the bound on the error is proved; not negative for binary images, for constant images (zero), and if the number of pixels times the sum of squares is at most 2^50; otherwise variance() can be negative (C74_violated: -0.3125 for five pixels whose variance is 0.2)"
  },
  {
   "property": "C75",
   "status": "proved",
   "theorems": [
    "Verif.Props.C75_path",
    "Verif.Props.C75_geometry",
    "Verif.Props.C75_exactly",
    "Verif.Props.C75_start",
    "Verif.Props.C75_L",
    "Verif.Props.C75_W2c",
    "Verif.Props.C75_history"
   ],
   "note": "C75_start from any start; beyond 707 crossings can be closer than the tolerance (C32_long_violated); no overflow"
  },
  {
   "property": "C76",
   "status": "proved",
   "theorems": [
    "Verif.Props.C76_path",
    "Verif.Props.C76_limit"
   ],
   "note": ""
  },
  {
   "property": "C77",
   "status": "partial",
   "theorems": [
    "Verif.Props.C77_whole_partial",
    "Verif.Props.C77_W2c_whole_partial",
    "Verif.Props.C77_float64_partial",
    "Verif.Props.C77_W2c_float64_partial",
    "Verif.Props.C77_masked",
    "Verif.Props.C77_truncated",
    "Verif.Props.C77_violated"
   ],
   "note": "proved for whole numbers of any type, for float64 images, and with masks; otherwise the overload for integers is selected and values are truncated (C77_truncated, C77_violated). Rests on the selection of overloads by pybind11 and xtensor-python as stated in Model/Python.lean"
  },
  {
   "property": "C78",
   "status": "proved",
   "theorems": [
    "Verif.Props.C78_iterations",
    "Verif.Props.C78_image",
    "Verif.Props.C78_labels",
    "Verif.Props.C78_kernel",
    "Verif.Props.C78_periodic",
    "Verif.Props.C78_union",
    "Verif.Props.C78_shift",
    "Verif.Props.C78_reflect",
    "Verif.Props.C78_symmetric",
    "Verif.Props.C78_distance",
    "Verif.Props.C78_fill",
    "Verif.Props.C78_exact",
    "Verif.Props.C78_axes",
    "Verif.Props.C78_shift_labels",
    "Verif.Props.C78_reflect_labels",
    "Verif.Props.C78_axes_labels"
   ],
   "note": "which pixels are labelled, not with which label: that depends on the order of the pixels (C59, C60), except if no two labels meet (the last three theorems, with a number of iterations per label)"
  },
  {
   "property": "C79",
   "status": "proved",
   "theorems": [
    "Verif.Props.C79_q",
    "Verif.Props.C79_distinct",
    "Verif.Props.C79_q2"
   ],
   "note": "real numbers; in two dimensions the mean at mixed signs is wrong (C55)"
  },
  {
   "property": "C80",
   "status": "partial",
   "theorems": [
    "Verif.Props.C80_whole_partial",
    "Verif.Props.C80_background",
    "Verif.Props.C80_rank",
    "Verif.Props.C80_violated"
   ],
   "note": "proved for whole numbers in the range of int; the labeller takes values modulo 2^32, and both truncate fractions to zero (C80_violated)"
  },
  {
   "property": "C81",
   "status": "partial",
   "theorems": [
    "Verif.Props.C81_refused",
    "Verif.Props.C81_ensemble",
    "Verif.Props.C81_history",
    "Verif.Props.C81_labeller_refused",
    "Verif.Props.C81_labeller",
    "Verif.Props.C81_labeller_history",
    "Verif.Props.C81_structure_same",
    "Verif.Props.C81_structure_partial",
    "Verif.Props.C81_structure_violated"
   ],
   "note": "proved for Ensemble and ClusterLabeller; Structure keeps the arrays of a refused first sample with an even and an odd size, and then refuses all others (C81_structure_violated). Failures of allocation are not modelled"
  },
  {
   "property": "C82",
   "status": "proved",
   "theorems": [
    "Verif.Props.C82_S2",
    "Verif.Props.C82_S2Mask",
    "Verif.Props.C82_C2",
    "Verif.Props.C82_C2Mask",
    "Verif.Props.C82_W2",
    "Verif.Props.C82_W2Mask",
    "Verif.Props.C82_heightheight",
    "Verif.Props.C82_heightheightMask",
    "Verif.Props.C82_same",
    "Verif.Props.C82_reflect",
    "Verif.Props.C82_axes",
    "Verif.Props.C82_squeeze"
   ],
   "note": "the first eight for any motion of the pixels, the others are the motions; L and W2c: see C87"
  },
  {
   "property": "C83",
   "status": "proved",
   "theorems": [
    "Verif.Props.C83_S2",
    "Verif.Props.C83_C2",
    "Verif.Props.C83_W2",
    "Verif.Props.C83_heightheight",
    "Verif.Props.C83_L",
    "Verif.Props.C83_W2c"
   ],
   "note": "W2c with masks, and in three dimensions with equal pads along the second and third axis (C48); the others without masks: with a mask the periodic statistics are those of C34_code, which depend on the boundary"
  },
  {
   "property": "C84",
   "status": "proved",
   "theorems": [
    "Verif.Props.C84_data",
    "Verif.Props.C84_result",
    "Verif.Props.C84_variance",
    "Verif.Props.C84_count",
    "Verif.Props.C84_norm"
   ],
   "note": "as the code computes them: periodic images with masks include masked pixels across the boundary (Seen, see C34), W2c along paths without their first pixel (see C47)"
  },
  {
   "property": "C85",
   "status": "proved",
   "theorems": [
    "Verif.Props.C85_S2",
    "Verif.Props.C85_C2",
    "Verif.Props.C85_W2",
    "Verif.Props.C85_heightheight"
   ],
   "note": "exact arithmetic"
  },
  {
   "property": "C86",
   "status": "partial",
   "theorems": [
    "Verif.Props.C86_call_partial",
    "Verif.Props.C86_history_partial",
    "Verif.Props.C86_float64_partial",
    "Verif.Props.C86_masked",
    "Verif.Props.C86_arity",
    "Verif.Props.C86_truncated",
    "Verif.Props.C86_violated"
   ],
   "note": "proved for whole numbers of any type, for float64 images, and for the methods without overload for integers; otherwise values are truncated (C86_truncated), and with default arguments (variance = False, unlike C++) variance() of heightheight takes the root of a negative number (C86_violated)"
  },
  {
   "property": "C87",
   "status": "partial",
   "theorems": [
    "Verif.Props.C87_reflect",
    "Verif.Props.C87_permute_partial",
    "Verif.Props.C87_permute_full_partial",
    "Verif.Props.C87_L_reflect",
    "Verif.Props.C87_L_axes_partial",
    "Verif.Props.C87_W2c_reflect",
    "Verif.Props.C87_W2c_axes_partial",
    "Verif.Props.C87_violated"
   ],
   "note": "exact arithmetic; reflections in every mode, permutations except in mode full, where the pixels at which the line passes through corners depend on the order of the axes (C87_violated); if mode actual changes one coordinate per row, permutations in mode full too (C87_permute_full_partial). W2c as the code computes it (see C47, C48)"
  },
  {
   "property": "C88",
   "status": "proved",
   "theorems": [
    "Verif.Props.C88_S2",
    "Verif.Props.C88_S2_relative",
    "Verif.Props.C88_heightheight",
    "Verif.Props.C88_W2",
    "Verif.Props.C88_W2c",
    "Verif.Props.C88_history",
    "Verif.Props.C88_history_W2",
    "Verif.Props.C88_history_W2c",
    "Verif.Props.C88_mean"
   ],
   "note": "double with rounding to 53 bits and unbounded exponents; heightheight: the number under the square root; without masks: the mask of zeros (bitMask_none); any sequence of calls: mean, S2 and heightheight (C88_history), W2 (C88_history_W2), W2c (C88_history_W2c); W2c: also where the exact computation is undefined (C48)"
  },
  {
   "property": "C89",
   "status": "partial",
   "theorems": [
    "Verif.Props.C89_reorder_partial",
    "Verif.Props.C89_map_partial",
    "Verif.Props.C89_rename",
    "Verif.Props.C89_violated"
   ],
   "note": "outcome of labels_reorder and labels_map for all arguments; labels_reorder is out of bounds for negative labels and for empty images, also with assertions (C89_violated), labels_map if its second argument is smaller. labels_sizes makes no access by index in the model"
  },
  {
   "property": "C90",
   "status": "proved",
   "theorems": [
    "Verif.Props.C90_centers",
    "Verif.Props.C90_mass",
    "Verif.Props.C90_shift",
    "Verif.Props.C90_reflect",
    "Verif.Props.C90_axes",
    "Verif.Props.C90_shift_mass",
    "Verif.Props.C90_reflect_mass",
    "Verif.Props.C90_axes_mass",
    "Verif.Props.C90_clusters",
    "Verif.Props.C90_clusters_shift"
   ],
   "note": "real arithmetic, the first two for any motion of the pixels"
  },
  {
   "property": "C91",
   "status": "partial",
   "theorems": [
    "Verif.Props.C91_partial",
    "Verif.Props.C91_undisputed_partial",
    "Verif.Props.C91_violated"
   ],
   "note": "Proved without periodicity, and with periodicity for a label that is nowhere disputed (no pixel it reaches is reached by another label; C91_undisputed_partial, one number of iterations; C24_alone_piece, a number per label). False with periodicity: `C91_violated` gives the image [0, 1, 0, 0, 2, 0], for which dilate(iterations = 2, periodic) returns [2, 1, 1, 2, 2, 1]. C59_periodic states what is computed in all cases."
  },
  {
   "property": "C92",
   "status": "partial",
   "theorems": [
    "Verif.Props.C92_partial",
    "Verif.Props.C92_undisputed_partial",
    "Verif.Props.C92_violated"
   ],
   "note": "Proved without periodicity, and with periodicity for pixels that no two labels reach (C92_undisputed_partial, one number of iterations). False with periodicity: `C92_violated`. C59_periodic states what is computed in all cases."
  },
  {
   "property": "C93",
   "status": "proved",
   "theorems": [
    "Verif.Props.C93_axis",
    "Verif.Props.C93_decreasing"
   ],
   "note": ""
  },
  {
   "property": "C94",
   "status": "partial",
   "theorems": [
    "Verif.Props.C94_partial",
    "Verif.Props.C94_farthest_partial",
    "Verif.Props.C94_corner_actual_partial",
    "Verif.Props.C94_violated"
   ],
   "note": "Proved along the axes (all modes), and with Bresenham paths at the displacements farthest from the centre if the line there is nowhere midway between two pixels (C94_farthest_partial), and with paths of mode actual at the corners (C94_corner_actual_partial). False elsewhere: `C94_violated` (periodic image of three nonzero pixels)."
  },
  {
   "property": "C95",
   "status": "partial",
   "theorems": [
    "Verif.Props.C95_session",
    "Verif.Props.C95_rejected",
    "Verif.Props.C95_kernel",
    "Verif.Props.C95_shape_partial",
    "Verif.Props.C95_violated"
   ],
   "note": "All but the attribute size, which is the shape: `C95_violated`. Conversions by numpy and pybind11 are assumed."
  },
  {
   "property": "C96",
   "status": "partial",
   "theorems": [
    "Verif.Props.C96_labels_partial",
    "Verif.Props.C96_rename_partial",
    "Verif.Props.C96_rejected",
    "Verif.Props.C96_violated"
   ],
   "note": "Proved for whole numbers of 64 bits. False for other labels: `C96_violated`. Conversions by numpy and pybind11 are assumed."
  },
  {
   "property": "C97",
   "status": "proved",
   "theorems": [
    "Verif.Props.C97_image",
    "Verif.Props.C97_ensemble",
    "Verif.Props.C97_structure",
    "Verif.Props.C97_structure2"
   ],
   "note": "Real arithmetic. The frequencies at which Structure is right are those of C79."
  },
  {
   "property": "C98",
   "status": "proved",
   "theorems": [
    "Verif.Props.C98_pixel",
    "Verif.Props.C98_total",
    "Verif.Props.C98_pixel_any",
    "Verif.Props.C98_total_any"
   ],
   "note": "C98_pixel and C98_total with the preconditions of ValidConfig, as C02; the theorems _any for every shape and kernel, where a pixel touches the pixels that it is compared with when it is added (Sees, as in C113). Offsets and shapes below 2^62"
  },
  {
   "property": "C99",
   "status": "proved",
   "theorems": [
    "Verif.Props.C99_dilate",
    "Verif.Props.C99_circles",
    "Verif.Props.C99_centers",
    "Verif.Props.C99_centers_of_mass",
    "Verif.Props.C99_statistics"
   ],
   "note": "That dilate lets labels through that it should refuse is C25_violated. Assertions of xtensor are not modelled; center and center_of_mass have no assertions."
  }
 ]
}

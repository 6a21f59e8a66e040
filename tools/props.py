# Writes /verif/properties.jsonl (one JSON object per line).
import json, pathlib
H="include/GooseEYE/GooseEYE.h"; D="include/GooseEYE/detail.hpp"; E="include/GooseEYE/Ensemble.hpp"
def EN(x): return f"include/GooseEYE/Ensemble_{x}.hpp"
P=[]
def p(title, statement, quantifier, why, anchors):
    P.append(dict(id=f"C{len(P)+1:02d}", title=title, statement=statement, quantifier=quantifier, why_tests_cant=why, anchors=anchors))

# ---------------------------------------------------------------- clusters
p("Background is label zero, exactly",
  "After any sequence of calls on a ClusterLabeller (add_image, add_points, add_sequence, prune, reset) a pixel has label 0 if and only if it was not added since construction or the last reset; in particular clusters(f)[p] == 0 iff f[p] == 0.",
  "all ranks, shapes, periodicities, symmetric kernels, images and all finite sequences of calls with in-range points",
  "quantifies over unbounded call histories; a test visits a handful of them",
  [f"{H}: ClusterLabeller::labels, add_image, add_points, add_sequence, prune, reset, clusters"])
p("Equal label iff connected",
  "After any sequence of calls two added pixels carry the same label if and only if they are joined by a path of added pixels in which successive pixels differ by a kernel offset (modulo the shape if periodic).",
  "all ranks, shapes, periodicities, symmetric kernels (offsets not longer than the image in 1D/2D periodic), and all call histories",
  "union-find correctness depends on the merge history (linked lists, stale renumber entries); the number of histories is unbounded",
  [f"{H}: ClusterLabeller::labels, add_image, add_points, add_sequence, clusters"])
p("clusters() numbers clusters 1..n in row-major order of their first pixel",
  "The labels returned by clusters(f) are exactly 0 (background) and 1..n with n the number of connected components, and components are numbered by the row-major position of their first pixel; so the result is a function of the set of nonzero pixels alone.",
  "all 1D-3D images, both periodicities, any pixel values",
  "the numbering after merges is a global property of all images",
  [f"{H}: clusters, ClusterLabeller::prune"])
p("Labelling is independent of order and batching",
  "Two histories of add_image/add_points/add_sequence/prune/reset calls on labellers with the same shape and kernel that have added the same set of pixels give the same partition: labels agree up to a bijective renaming. If both add pixels in the same first-visit order and both end with prune, labels are equal.",
  "all pairs of call histories",
  "quantifies over pairs of unbounded histories",
  [f"{H}: ClusterLabeller::add_points, add_image, add_sequence"])
p("Older clusters have lower labels; a merge keeps the label of the oldest cluster",
  "After any history label(p) < label(q) iff the earliest-added pixel of p's cluster was added before the earliest-added pixel of q's cluster.",
  "all histories, all pairs of labelled pixels",
  "depends on the complete order of additions and merges",
  [f"{H}: ClusterLabeller::labels, add_points, add_image, add_sequence, prune"])
p("Labels are stable under additions",
  "add_image/add_points/add_sequence never change the label of a previously labelled pixel to anything but the label of another pre-existing (older) cluster with which its cluster is now connected; a cluster not joined to an older cluster keeps its label.",
  "all reachable labellers, all additions",
  "history-dependent",
  [f"{H}: ClusterLabeller::add_points, add_image, add_sequence"])
p("prune() gives the lowest possible labels and keeps order and partition",
  "After prune() the nonzero labels are exactly 1..n; for labelled pixels p, q the order of label(p) and label(q) (and equality) is the same as before; background stays 0; a second prune changes nothing.",
  "all reachable labellers",
  "must hold after arbitrary histories with merges (stale renumbering entries) and earlier prunes",
  [f"{H}: ClusterLabeller::prune"])
p("reset() forgets everything",
  "After reset() a labeller behaves (labels and return values of any further calls) exactly as a newly constructed one with the same shape and kernel.",
  "all reachable labellers and all continuations",
  "equivalence of all continuations",
  [f"{H}: ClusterLabeller::reset"])
p("ClusterLabeller is memory-safe and terminates",
  "No call on a ClusterLabeller with in-range points / an image of the right shape reads or writes outside its arrays or loops forever, after any history, with or without assertions; labels never exceed the number of pixels.",
  "all ranks, shapes, symmetric kernels and histories",
  "absence of out-of-bounds accesses and cycles in linked lists over unbounded histories",
  [f"{H}: ClusterLabeller"])
p("add_sequence labels exactly as add_points",
  "For a non-empty in-range sequence, add_sequence(idx) and add_points(idx) on equal labellers give the same labels and leave labellers that behave identically.",
  "all reachable labellers and sequences",
  "all histories and sequences (add_sequence restarts its loop at each event)",
  [f"{H}: ClusterLabeller::add_sequence, add_points"])
p("add_sequence marks exactly the events",
  "The list returned by add_sequence(idx) ends with idx.size() and before that contains, in increasing order, precisely the positions i at which adding idx[i] starts a new cluster or merges clusters (for sequences of distinct points not labelled before).",
  "all reachable labellers, all sequences of distinct unlabelled points",
  "unbounded sequences and histories",
  [f"{H}: ClusterLabeller::add_sequence"])
p("Non-periodic labelling never looks outside the image",
  "With Periodic=false two pixels are neighbours only if the second is at the exact offset of a kernel entry inside the image: neighbours that fall outside along any axis do not connect anything.",
  "all shapes (including shapes with axes of size 1), kernels and pixels",
  "all kernels and shapes; special-cased shapes have separate code",
  [f"{H}: ClusterLabeller (shape [1,n] and [n,1])"])
p("Periodic neighbours are taken modulo the shape, whatever the kernel size",
  "With Periodic=true the neighbour of pixel x for kernel offset d is the pixel (x + d) modulo the shape, for every kernel.",
  "all shapes, kernels and pixels",
  "arithmetic over all offsets, including those larger than the image",
  [f"{H}: ClusterLabeller (periodic)"])
p("The default kernel is kernel::nearest",
  "ClusterLabeller(shape) behaves as ClusterLabeller(shape, kernel::nearest(rank)).",
  "ranks 1, 2, 3",
  "equivalence of two labellers on all inputs",
  [f"{H}: ClusterLabeller ctor, kernel::nearest"])
p("Kernel offsets",
  "The neighbours used for a kernel of odd shape with centre 1 are exactly the nonzero entries other than the centre, measured from the centre, without repetition; a point-symmetric kernel gives a symmetric neighbour relation.",
  "all kernels of any rank with odd sizes",
  "all kernels",
  [f"{H}: ClusterLabeller(shape, kernel), detail::kernel_to_dx"])
p("Labelling needs a symmetric kernel",
  "For every kernel that is not point-symmetric the clusters depend on the order in which pixels are added: two pixels are in one cluster if added in one order, and in two clusters if added in the other.",
  "all kernels that are not point-symmetric, all images that are not periodic and larger than an offset without opposite",
  "ranges over all kernels; shows that the symmetry hypothesis of the other claims cannot be dropped",
  [f"{H}: ClusterLabeller::add_points"])
# ---------------------------------------------------------------- labels
p("labels_map / labels_rename round trip",
  "If b is a relabelling of a (equal labels in a have equal labels in b), labels_rename(a, labels_map(a, b)) == b. In general labels_map lists each label of a once, in increasing order, with the b-label of its first pixel.",
  "all pairs of images of equal size",
  "all images and label values, including negative and unsorted ones",
  [f"{H}: labels_map, labels_rename"])
p("labels_rename is pointwise",
  "labels_rename(labels, rename) replaces each label by the new label of its first row in rename; with assertions it throws iff some label is missing from rename, without them missing labels become 0; no other effect.",
  "all images and rename tables",
  "all inputs",
  [f"{H}: labels_rename"])
p("labels_prune renumbers to 1..n, order-preserving, background fixed",
  "labels_prune(labels) keeps 0 at 0, maps the other labels (negative ones included) by a strictly increasing map onto 1..n, n the number of distinct nonzero labels; it never throws and is idempotent.",
  "all integer images",
  "all label sets",
  [f"{H}: labels_prune"])
p("labels_reorder",
  "If order lists the distinct labels of the image without repetition (all >= 0), labels_reorder(labels, order) replaces each label by its position in order; with assertions any order whose set of labels differs from that of the image is rejected.",
  "all images and orders",
  "all inputs",
  [f"{H}: labels_reorder"])
p("labels_sizes counts pixels",
  "labels_sizes(labels) lists each occurring label once, increasing, with its number of pixels; the sizes add up to the number of pixels; labels_sizes(labels, names) gives the count of each name, 0 for absent names.",
  "all images and name lists",
  "all inputs",
  [f"{H}: labels_sizes"])
# ---------------------------------------------------------------- dilate
p("dilate never changes labelled pixels",
  "Every pixel that is nonzero in f keeps its label in dilate(f, kernel, iterations, periodic).",
  "all non-empty 1D-3D images, kernels (half of it not larger than the image if periodic), iteration counts with an entry for every label, periodicities",
  "all images; interplay of labels that meet over the periodic boundary",
  [f"{H}: dilate"])
p("dilate reaches exactly the pixels within `iterations` kernel steps",
  "With the same number of iterations k for all labels, a pixel is nonzero in the result iff it can be reached from a nonzero pixel of f by at most k kernel offsets (modulo the shape if periodic, inside the image otherwise).",
  "all images, kernels (pad not larger than the image if periodic), k",
  "all images and iteration counts",
  [f"{H}: dilate"])
p("A label grows at most its own number of iterations",
  "A pixel that has label l in the result is reached from a pixel with label l in f by at most iterations(l) kernel offsets; labels with iterations 0 do not grow; no labels are invented. Conversely, a label that meets no other label (no pixel it can reach within its iterations can be reached by another label within its own) has in the result exactly the pixels it can reach.",
  "all labelled images, kernels, per-label iteration counts, periodicities",
  "all images and label interactions",
  [f"{H}: dilate"])
p("dilate's assertion guards its table look-up",
  "With assertions enabled a call of dilate with non-negative labels either throws or never reads outside the iterations array.",
  "all images and iteration arrays",
  "all combinations of label values and array sizes",
  [f"{H}: dilate (assertion amax(f) <= iterations.size() + 1)"])
# ---------------------------------------------------------------- path
p("Bresenham path connects its end points",
  "path(x0, x1, Bresenham) with x0 != x1 starts at x0, ends at x1, has max_i |x1_i - x0_i| + 1 rows, moves by at most one pixel along each axis per row, exactly one along the dominant axis, and stays in the bounding box.",
  "all end points in 1D-3D",
  "all pairs of points",
  [f"{D}: path::bresenham", "include/GooseEYE/GooseEYE.hpp: path"])
p("Bresenham path follows the straight line",
  "Row k of the path is within half a pixel of the straight line from x0 to x1 along every axis (ties rounded away from x0), which determines the path completely.",
  "all end points",
  "all pairs of points",
  [f"{D}: path::bresenham"])
p("Bresenham path symmetries",
  "Translating both end points translates the path; reflecting any axes reflects the path; permuting the axes permutes the axes of the path.",
  "all end points and translations",
  "relations between outputs for all inputs",
  [f"{D}: path::bresenham"])
p("path of coinciding points",
  "path(x, x, mode) is the single pixel x and never reads out of bounds, in every dimension and mode.",
  "all points, dimensions 1-3, modes",
  "degenerate input in every dimension",
  [f"{D}: path::bresenham, path::actual, path::full"])
p("path modes actual and full reach the end point",
  "path(x0, x1, actual|full) terminates for all x0, x1 and ends at x1.",
  "all pairs of points",
  "termination over all inputs",
  [f"{D}: path::actual, path::full"])
p("path mode full visits face-connected pixels; actual allows diagonal steps",
  "From the origin: full has 1 + sum|x1_i| rows and each row differs from the previous by one unit along one axis, towards x1; actual moves by at most one along each axis, never away from x1, and all rows are within the bounding box.",
  "all end points",
  "all inputs",
  [f"{D}: path::actual, path::full"])
p("path modes actual and full visit only pixels crossed by the line",
  "From the origin every row of path(0, x1, actual|full) is a pixel whose closed unit cube meets the straight segment from 0 to x1.",
  "all end points (exact arithmetic)",
  "all inputs",
  [f"{D}: path::actual, path::full"])
# ---------------------------------------------------------------- ensemble
p("Region of interest: indexing and padding",
  "For a ROI of size n along an axis, index i of the result is displacement i - pad with pad = (n-1)/2 rounded down; the displacements are consecutive, contain 0 and cover the ROI; distance(axis), distance() and distance(h) return i - pad, its Euclidean norm and h-scaled norm.",
  "all ROI shapes (1D-3D, odd and even sizes)",
  "all shapes",
  [f"{D}: pad_width", f"{E}: distance"])
p("S2 is the masked average of f(x) g(x+d)",
  "S2(f, g, fmask, gmask) at displacement d is the sum of f(x) g(x+d) over the pixels x with fmask(x)=0, gmask(x+d)=0 (and x+d in the image when not periodic) divided by the number of such pixels (by 1 if there are none).",
  "all images of rank 1-3, ROIs, masks, periodicities",
  "all images; boundary, padding and mask handling",
  [f"{EN('S2')}: Ensemble::S2", f"{E}: result"])
p("Masked pixels never contribute",
  "Changing the value of a masked pixel does not change the result of S2, C2, W2, heightheight or mean, periodic or not.",
  "all images, masks, ROIs, periodicities",
  "all images and masks",
  [EN('S2'), EN('C2'), EN('W2'), EN('heightheight'), EN('mean')])
p("Auto-correlation: range, value at zero, symmetry",
  "For a binary image S2(f,f): S2(0) is the area fraction; 0 <= S2(d) <= 1; periodic S2(d) <= S2(0) and S2(d) = S2(-d); S2 of a constant image 1 is 1.",
  "all images and ROIs",
  "all images",
  [f"{EN('S2')}: Ensemble::S2"])
p("Periodic statistics are translation invariant",
  "Shifting the image(s) periodically does not change periodic S2, C2, W2, heightheight and L; nor W2c, if the clusters, centres and mask are shifted too.",
  "all images, shifts, ROIs (pads not larger than the image; L: ROIs up to 10^6 pixels along an axis for modes actual and full; W2c: as C48)",
  "all images and shifts",
  [EN('S2'), EN('C2'), EN('W2'), EN('heightheight'), EN('L'), EN('W2c')])
p("C2 is the fraction of pixel pairs in the same nonzero cluster",
  "C2(f, g) at d is the fraction of unmasked pairs (x, x+d) with f(x) = g(x+d) and nonzero; for binary images C2 = S2.",
  "all integer images, masks, ROIs",
  "all images",
  [f"{EN('C2')}: Ensemble::C2"])
p("W2 is the weighted average around the weights",
  "W2(w, f) at d is sum w(x) f(x+d) / sum w(x) over admissible pairs; for nonnegative weights the result lies between the minimum and maximum of f; with weights 1 it is the mean of f; W2 = S2(w,f)/S2(w,1).",
  "all images, masks, ROIs",
  "all images",
  [f"{EN('W2')}: Ensemble::W2"])
p("heightheight",
  "heightheight(f) at d is the square root of the average of (f(x+d) - f(x))^2 over admissible pairs; it is 0 at d=0, nonnegative, symmetric (periodic), invariant under f -> f + c, scales with |a| under f -> a f, and its square is 2<f^2> - 2 S2(f,f) (periodic).",
  "all real images, masks, ROIs",
  "all images",
  [f"{EN('heightheight')}: Ensemble::heightheight", f"{E}: result"])
p("mean and variance",
  "mean()/variance() of an ensemble with ROI [1] (or {1,1},...) return the arithmetic mean and the unbiased sample variance of all unmasked pixels of all images added.",
  "all sequences of images and masks with at least two unmasked pixels",
  "all histories of images",
  [f"{EN('mean')}: Ensemble::mean", f"{E}: variance"])
p("Ensemble average is order-independent",
  "The result, first/second moments and norm after adding a list of realisations do not depend on the order of the list, and moments and norms are sums over the realisations.",
  "all lists of realisations, all measures, all permutations",
  "unbounded histories",
  [f"{E}: result, data_first, data_second, norm"])
p("An ensemble holds one statistic",
  "With assertions enabled, all completed calls of an ensemble are of one measure, and every call of another measure throws, whatever its arguments; variance throws exactly when the measure is neither mean nor heightheight. Without assertions nothing is refused: the data are the sums over all calls, each with its own measure, result() divides the sums and takes the root exactly if the last call was of heightheight, and variance throws exactly if the last call was of neither mean nor heightheight.",
  "all histories of calls",
  "unbounded histories",
  [EN('S2'), EN('C2'), EN('W2'), EN('W2c'), EN('heightheight'), EN('L'), EN('mean'), f"{E}: variance"])
p("L is the lineal-path function",
  "L(f) counts, for each path from the centre of the ROI to a boundary pixel of the ROI and each pixel on it, the positions of the image for which all pixels of the path up to there are nonzero, divided by the number of positions times the number of paths through that pixel.",
  "all images of rank 1-3, ROIs (up to 10^6 pixels per axis for modes actual and full), path modes, periodicities",
  "all images",
  [f"{EN('L')}: Ensemble::L"])
p("L: bounds",
  "0 <= L <= 1; L(0) is the area fraction; L(d) never exceeds the fraction of pixels x with x and x+d both nonzero.",
  "all images, ROIs (up to 10^6 pixels per axis for modes actual and full), modes",
  "all images",
  [f"{EN('L')}: Ensemble::L"])
p("L is memory-safe for every ROI",
  "L never reads or writes outside its arrays, whatever the ROI (shapes 1, even, odd), the image and the path mode.",
  "all lists of images and ROIs (pads not larger than the image if periodic; ROI up to 10^6 pixels per axis for modes actual and full)",
  "all shapes",
  [f"{EN('L')}: Ensemble::L"])
p("W2c collapses the cluster to its boundary",
  "W2c measures, along each path from a cluster centre, f at the distance from the edge of the cluster: pixels inside the cluster are skipped, the first pixel outside is stored at displacement 0.",
  "all cluster images, centres, images",
  "all images",
  [f"{EN('W2c')}: Ensemble::W2c"])
p("W2c is memory-safe and stores at the path's displacement",
  "W2c never accesses its arrays out of bounds and stores each value at the ROI index of a pixel of the path.",
  "all ROIs of rank 1-3",
  "all ROI shapes",
  [f"{EN('W2c')}: Ensemble::W2c (third index)"])
# ---------------------------------------------------------------- centers
p("center without periodicity is the mean position",
  "center(shape, positions, false) is the arithmetic mean of the rows, independent of their order and equivariant under translation; zeros for an empty list.",
  "all lists of positions",
  "all lists",
  [f"{H}: center"])
p("periodic center",
  "center(shape, positions, true): every component lies in [0, L]; shifting all positions by t (or any of them by multiples of L) shifts the result by t modulo L; a single (repeated) position is returned modulo L; independent of the order. (Whenever the circular mean is defined.)",
  "all shapes and lists of positions",
  "all real positions",
  [f"{H}: center"])
p("center_of_mass",
  "center_of_mass with equal positive weights equals center; it is invariant under scaling the weights and ignores positions of weight zero; merging repeated positions into one of summed weight changes nothing.",
  "all positions and weights with nonzero sum",
  "all weights",
  [f"{H}: center_of_mass"])
p("labels_centers and labels_centers_of_mass act per label",
  "Row i of labels_centers(labels, names) is center() of the pixels that carry names[i] (zero row for an absent label), independent of all other labels and of the order of names; likewise labels_centers_of_mass with the weights of those pixels.",
  "all label images, weights and name lists",
  "all images",
  [f"{H}: labels_centers, labels_centers_of_mass, PositionList"])
# ---------------------------------------------------------------- circles
p("dummy_circles draws exactly the discs",
  "dummy_circles(shape, row, col, r, periodic) is 1 exactly at the pixels at (rounded-up) distance less than r of some centre, modulo the shape if periodic, and 0 elsewhere; non-periodic discs are clipped.",
  "all shapes, centre lists, radii",
  "all inputs",
  [f"{H}: dummy_circles"])
p("periodic dummy_circles is translation covariant and order-free",
  "Shifting all centres shifts the periodic image; the order and repetition of circles is irrelevant; adding circles only adds pixels.",
  "all circle lists and shifts",
  "all inputs",
  [f"{H}: dummy_circles"])
# ---------------------------------------------------------------- structure
p("Structure factor accumulates u(q) u(-q)",
  "Structure.add_sample adds, at every frequency q of the (1D, or 2D with odd sizes) grid, the product of the Fourier component at q with that at -q.",
  "all array sizes and all transforms",
  "all sizes; index slicing of conjugate frequencies",
  ["python/GooseEYE/__init__.py: Structure.add_sample"])
# ---------------------------------------------------------------- appended
p("path modes actual and full visit every pixel crossed by the line",
  "From the origin every pixel whose interior meets the straight segment from 0 to x1 is a row of path(0, x1, actual|full).",
  "all end points (exact arithmetic)",
  "all inputs; completeness of a traversal",
  ["include/GooseEYE/detail.hpp: path::actual, path::full"])
p("Illegal arguments of a ClusterLabeller are rejected",
  "With assertions enabled, after any history, add_points and add_sequence throw if a point is negative or not smaller than the number of pixels, add_sequence throws for an empty sequence, add_image throws for an image of another shape. Without assertions such a point, wherever it is in the list, is an out-of-bounds access, and so is an empty sequence.",
  "all histories of calls, all lists of points, all images",
  "tests try single illegal values; a wrong bound of the check shows only for one value",
  ["include/GooseEYE/GooseEYE.h: ClusterLabeller::legal_points, add_points, add_sequence, add_image"])
p("Dilating is iterated growth",
  "Dilating with a + b iterations equals dilating with a and then with b iterations, periodic or not.",
  "all images, kernels, numbers of iterations a and b",
  "all images; the state kept between the iterations (the padding) is invisible from outside",
  [f"{H}: dilate, detail::periodic_copy"])
p("dilate resolves conflicts by row-major order",
  "Without periodicity, in each iteration a pixel without label takes the label of the last pixel in row-major order that had a label before the iteration, whose label still grows, and whose kernel covers it. With periodicity the same holds on the image and margins as wide as the kernel, which start as periodic copies; after each iteration the labels of the margins, where there are any, replace those of the pixels that they are copies of: first from the margins above, axis by axis, then from those below. Margins are not updated from the image.",
  "all images, kernels, iterations per label",
  "all configurations of labels that meet",
  [f"{H}: dilate"])
p("dilate treats labels as names",
  "Renaming the labels of the image (zero stays zero, together with the iterations per label) renames the labels of the result, periodic or not.",
  "all images, kernels, iterations per label, renamings",
  "all renamings",
  [f"{H}: dilate"])

p("The periodic center lies among the positions",
  "If along an axis all positions are, modulo the box, within a distance d smaller than a quarter of the box of some point, then so are center(shape, positions, true) and center_of_mass (non-negative weights), wherever the boundary of the box is.",
  "all boxes, positions, weights, points and distances",
  "all real positions, in particular clusters across the boundary",
  [f"{H}: center, center_of_mass"])
p("periodic does not matter for positions away from the boundary",
  "For positions that do not cross the boundary center(shape, positions, true) equals center(shape, positions, false) modulo the box.",
  "all boxes and positions within half a box",
  "the examples in the tests are symmetric",
  [f"{H}: center"])

p("Random dummy_circles returns a binary image for every shape",
  "dummy_circles(shape, periodic) returns an image of the given two-dimensional shape with zeros and ones, whatever the random numbers are. There is one circle per cell of a grid of about 20 by 20 pixels, displaced by at most half a cell, with a radius that is at most twice the one for which the discs cover 30% of the image.",
  "all two-dimensional shapes, all sequences of random numbers",
  "all seeds and all shapes",
  [f"{H}: dummy_circles"])
p("The structure factor is an even, non-negative, translation-invariant power spectrum",
  "For samples of one dimension the mean of Structure is non-negative, equal at opposite frequencies, unchanged by periodic shifts of the samples, changed at frequency zero only by a constant that is added to a sample, multiplied by c squared if the samples are multiplied by c, and for odd sizes its sum is the mean of the sum of squares of the samples.",
  "all sizes, all histories of samples, all shifts and constants",
  "all samples and all sizes; the index slicing differs between odd and even sizes",
  ["python/GooseEYE/__init__.py: Structure"])
p("qnorm pairs with the mean of Structure",
  "qnorm gives the norms of the frequencies of the leading block of mean(); in one dimension every frequency that has an opposite one occurs in it exactly once up to its sign, with the same mean.",
  "all sizes, all histories of samples",
  "all sizes, odd and even",
  ["python/GooseEYE/__init__.py: Structure.qnorm"])

p("Variance of the height-height correlation",
  "After any sequence of heightheight calls on an Ensemble result() is the square root of the mean, and variance() the square root of the unbiased sample variance, of (f(x+d) - f(x))^2 over all admissible pairs of pixels of all images; if the ensemble does not collect the second moment (variance=false, the default in Python) variance() must not return a number.",
  "all histories of images (of any shapes), masks, regions of interest and displacements",
  "all histories and images; no test calls variance() of a height-height correlation",
  ["include/GooseEYE/Ensemble_heightheight.hpp: heightheight", "include/GooseEYE/Ensemble.hpp: variance", "python/main.cpp: Ensemble"])

p("Lineal path <= cluster function <= two-point probability",
  "For an image of zeros and ones, at every displacement: L (path mode full) <= C2 of clusters(image) <= S2 of the image, all between 0 and 1, with the same periodicity. With a labeller that also connects edges and corners the first inequality holds in every path mode.",
  "all binary images of 1 to 3 dimensions, periodic or not, all ROIs and displacements",
  "an inequality between four functions for all images; tests compare a few images only",
  [EN('L'), EN('C2'), EN('S2'), f"{H}: clusters", "include/GooseEYE/GooseEYE.hpp: path"])
p("Algebra of the correlations",
  "S2(f, g) at d equals S2(g, f) at -d (masks exchanged too). S2 is linear in each image, W2 in the image; W2 does not change if nonnegative weights are multiplied by a positive constant. C2 does not change if labels are renamed one-to-one, zero to zero.",
  "all images, masks, ROIs, displacements, coefficients and renamings",
  "relations between results for all images",
  [EN('S2'), EN('C2'), EN('W2')])
p("L depends on the nonzero pixels only and grows with them",
  "If every nonzero pixel of f is nonzero in g then L(f) <= L(g) at every displacement; if the same pixels are nonzero then L(f) = L(g).",
  "all pairs of images, ROIs, path modes, periodic or not",
  "relations between results for all pairs of images",
  [f"{EN('L')}"])

p("More pixels or periodicity only merge clusters",
  "If every nonzero pixel of f is nonzero in g, pixels of one cluster of clusters(f) are in one cluster of clusters(g). Pixels of one cluster without periodicity are in one cluster with it, so that there are at most as many clusters with periodicity.",
  "all pairs of images of 1 to 3 dimensions",
  "relations between the results for all pairs of images",
  [f"{H}: clusters"])
p("Clusters do not depend on the orientation of the image",
  "Shifting a periodic image, reflecting an image along any of its axes, permuting its axes, or inserting or removing an axis of size one does the same to its clusters: two pixels share a cluster exactly if their images do.",
  "all images of 1 to 3 dimensions, all shifts, reflections, permutations of axes and axes of size one",
  "the labelling visits pixels in row-major order; all images and symmetries",
  [f"{H}: clusters"])
p("Algebra of the functions on labels",
  "labels_rename twice is labels_rename with the composed table; a one-to-one renaming keeps labels_sizes; labels_prune does not see a renaming that keeps the order and the background; labels_reorder is undone by renaming; labels_prune equals labels_reorder with the sorted labels (if there is a background, labels non-negative); the labels of clusters are already pruned.",
  "all label images, tables, orders and names",
  "relations between functions for all inputs",
  [f"{H}: labels_rename, labels_prune, labels_reorder, labels_sizes, clusters"])
p("Statistics of integer images are exact up to one rounding",
  "For images of integers (labels, or zeros and ones) whose sums stay below 2^53, the sums kept by an Ensemble in double are exact whatever the history of calls of one statistic, and result() is the exact value rounded once. So S2 has a relative error of at most 2^-53, S2 of binary images is between 0 and 1 and C2 of the labels is at most S2, in double too.",
  "all histories of integer images of 1 to 3 dimensions, masks, ROIs, statistics; any rounding that is exact for integers up to 2^53, in particular IEEE 754 round-to-nearest-even",
  "floating-point rounding over all images and histories",
  [EN('S2'), EN('C2'), EN('W2'), EN('L'), "include/GooseEYE/Ensemble.hpp: result"])
p("The variance in double is accurate and not negative",
  "variance() of an Ensemble of mean calls, computed in double for integer images whose sums of squares stay below 2^53, differs from the sample variance by at most 2^-50 times the sum of squares divided by the number of pixels minus one, and is not negative.",
  "all histories of integer images and masks",
  "cancellation occurs for few inputs only: mean large compared to the spread",
  ["include/GooseEYE/Ensemble.hpp: variance"])

p("Rounding does not change paths",
  "path in modes actual and full, computed in double, from the origin to a point with components of at most 707, equals the path in exact arithmetic, and so does the path between two points at most 707 apart of which the first has coordinates of at most 65536 (it runs forever in double exactly if it does in exact arithmetic); from the origin it terminates at the end point, visits only pixels that the segment meets and all that it crosses. So L and W2c for ROIs of at most 1414 pixels along each axis do not depend on rounding along paths.",
  "all start and end points of 1 to 3 dimensions, modes, images, ROIs; any rounding with relative error 2^-53 that is exact for multiples of one half, in particular IEEE 754 round-to-nearest-even",
  "whether two crossings coincide is decided by a tolerance on rounded numbers; one wrong decision anywhere on one path loses a pixel or the end point",
  ["include/GooseEYE/detail.hpp: path::actual, path::full", EN('L'), EN('W2c')])

p("Paths in 32-bit integers",
  "path in mode Bresenham, which computes in int, equals the path in unbounded integers as long as the coordinates fit in int and every displacement is below 2^30; from 2^30 on an int overflows.",
  "all pairs of points of any dimension",
  "overflow depends on the magnitudes of all displacements and on every step of the loop",
  ["include/GooseEYE/detail.hpp: path::bresenham", f"{H}: path"])
p("From Python, statistics do not depend on the types of the arrays",
  "The functions S2, C2, W2, W2c, heightheight and L of the Python module give the statistic of the values that are passed, whatever the types (bool, int32, int64, float32, float64) of the arrays.",
  "all arrays and types, ROIs, periodic or not",
  "which of the overloads is selected depends on all combinations of types; tests use one or two",
  ["python/main.cpp: S2, C2, W2, W2c, heightheight, L"])

p("How dilation depends on its arguments",
  "With the same number of iterations for every label, the pixels labelled by dilate grow with the iterations, with the image, with the kernel and with periodicity; they depend on which pixels are labelled, not on the labels; the dilation of a union is the union of the dilations; a periodic shift, a reflection or a permutation of the axes of the image (and kernel) does the same to the result, and if no two labels meet also to the labels of the result (then with a number of iterations per label); with a symmetric kernel x is in the dilation of y if and only if y is in that of x; with the default kernel a two-dimensional image gains exactly the pixels within k steps along the axes, and enough iterations fill the image.",
  "all images, kernels of zeros and ones, numbers of iterations, periodic or not",
  "relations between two runs on related inputs, for all inputs",
  [f"{H}: dilate"])

p("The frequencies of the structure factor",
  "Structure.q gives the frequency (in cycles per pixel, from -1/2 up to but not including 1/2, all different) of each entry of the mean: the mean of an entry is the mean over the samples of |u^(q)|^2 / n at that frequency, and nan at the frequency -1/2; in two dimensions q(0) and q(1) give the components, qnorm is their norm, and another axis is an error.",
  "all numbers of samples of any size and content",
  "relates two results for all sizes (even and odd) and all samples",
  ["python/GooseEYE/__init__.py: Structure.q, Structure.qnorm, Structure.add_sample"])
p("The labeller and clusters in Python",
  "In Python, ClusterLabeller(shape, periodic) with add_image and prune gives the same labels as clusters(f, periodic): those of the image, in which exactly the pixels of value zero are background, whatever the type of the array. Both refuse the same ranks.",
  "all arrays, types and values, periodic or not",
  "conversions of the values depend on types and magnitudes",
  ["python/GooseEYE/__init__.py: ClusterLabeller", "python/main.cpp: allocate_ClusterLabeller, clusters"])

p("A refused call changes nothing",
  "With assertions, a measure (mean, S2, C2, W2, W2c, heightheight, L) throws exactly if its images and masks have different shapes or another rank than the ROI, a mask is not binary, or the ensemble measures another statistic; a call of a labeller exactly if the image has another shape, a point is outside or a sequence is empty. Without assertions none throws. A call that throws leaves the object as it was: a client that catches the exceptions gets the same results as one that made only the accepted calls. The same holds for Structure.add_sample.",
  "all objects, after any history, and all sequences of calls with any arguments",
  "the state after a failure has to be right at every point where a call can fail, after every history",
  ["include/GooseEYE/Ensemble_mean.hpp: Ensemble.mean", EN('S2'), EN('C2'), EN('W2'), EN('W2c'), EN('heightheight'), EN('L'), f"{H}: ClusterLabeller.add_image, ClusterLabeller.add_points, ClusterLabeller.add_sequence", "python/GooseEYE/__init__.py: Structure._allocate, Structure.add_sample"])

p("Correlations do not depend on the orientation of the images",
  "If the images (and masks) are reflected along any axes, or their axes are permuted, or axes of size one are inserted or removed, S2, C2, W2 and heightheight at the reflected or permuted displacement are those of the original images at the displacement. The value at a displacement does not depend on the size of the region of interest.",
  "all images and masks of rank at most three, reflections, permutations, axes of size one, pairs of legal regions of interest, periodic or not",
  "relations between two runs on related inputs, for all inputs",
  [EN('S2'), EN('C2'), EN('W2'), EN('heightheight')])
p("Repeating a periodic image does not change its correlations",
  "S2, C2, W2 (weights that are not negative), heightheight, L and W2c (of copies of clusters, centres and image) of a periodic image that consists of any number of copies of an image along each axis are those of the image.",
  "all images, numbers of copies, legal regions of interest, modes of the paths",
  "relations between two runs on related inputs of any size",
  [EN('S2'), EN('C2'), EN('W2'), EN('heightheight'), EN('L'), EN('W2c')])

p("The data of an ensemble after any history",
  "After any sequence of calls of one measure on an ensemble, with images of different shapes, with and without masks, data_first, data_second and norm at every displacement are the sums over the calls of: the sum over the pairs of pixels at that displacement of the product (S2), of whether the labels are equal and not zero (C2), of the weighted value (W2) or of the squared difference (heightheight); the number of pairs (or the sum of weights); the sum of fourth powers; the sums over paths for L and W2c; the sums, sums of squares and numbers of unmasked values for mean. result() is the ratio (its root for heightheight), variance() the unbiased variance of them. Without masks the number of pairs is the number of pixels if periodic, and otherwise the product of the sizes minus the components of the displacement.",
  "all sequences of legal calls of one measure, all images and masks, ROIs, periodic or not",
  "histories of any length with images of any shapes",
  ["include/GooseEYE/Ensemble.hpp: result, variance, data_first, data_second, norm", EN('S2'), EN('C2'), EN('W2'), EN('W2c'), EN('heightheight'), EN('L')])
p("Sum rules of periodic correlations",
  "If the region of interest has the shape of the (periodic, unmasked) image: the values of S2 add up to the product of the sums of the images over the number of pixels; those of C2 to the sum over the labels of the product of the numbers of pixels over the number of pixels; those of W2 to the sum of the image (weights with a positive sum); the squares of those of heightheight to twice the sum of squared deviations from the mean height.",
  "all images of rank at most three",
  "a relation between all values of a result, for all images",
  [EN('S2'), EN('C2'), EN('W2'), EN('heightheight')])

p("The class Ensemble in Python",
  "In Python an Ensemble, after any history of calls of its methods, holds the data of the values that were passed, whatever the types (bool, int32, int64, float32, float64) of the arrays; a call with a number of arrays that no signature has raises TypeError and changes nothing; with default arguments result() and variance() are those of C++.",
  "all histories, arrays and types, ROIs",
  "which of the overloads is selected depends on all combinations of types; defaults are easily different",
  ["python/main.cpp: Ensemble"])

p("Orientation of paths, L and W2c",
  "Reflecting the end points of a path reflects the path, permuting the axes permutes the axes of the path, in every mode. If the images (and masks) are reflected along any axes, L and W2c with a region of interest of odd sizes are reflected; if the axes of the images and of the region of interest are permuted, those of the result are.",
  "all end points, modes, images of rank at most three, legal regions of interest, periodic or not, masks",
  "relations between two runs on related inputs, for all inputs; ties are broken by rules that depend on the order of the axes",
  ["include/GooseEYE/detail.hpp: path::bresenham, path::actual, path::full", EN('L'), EN('W2c')])

p("Statistics of real images in double",
  "The statistics of images with any real pixels, computed in double, differ from their exact values (averages over pairs of pixels, the arithmetic mean of the data) by at most (number of pixels + 5) * 2^-52 times the same statistic of the absolute values of the pixels; for pixels that are not negative this bounds the relative error. For W2, with any weights that are not negative, by at most (number of pixels + 5) * 2^-50 times; for W2c by at most (number of values averaged at the displacement + 1) * 2^-52 times. The normalisation of mean, S2 and heightheight is exact. The same after any sequence of calls, with the numbers of pixels of all calls.",
  "all images with fewer than 2^50 pixels in total, regions of interest, masks, boundary conditions, any number of calls; overflow and underflow excepted",
  "rounding errors accumulate over all additions; a test compares with a tolerance for a few images",
  [EN('S2'), EN('W2'), EN('heightheight'), EN('mean'), EN('W2c'), f"{E}: result"])

p("Functions on labels stay within bounds",
  "labels_map, labels_rename, labels_prune, labels_reorder and labels_sizes never read or write out of bounds: for any images of labels (negative labels and empty images included), tables and orders they return, or, with assertions enabled, throw.",
  "all images of labels, tables, orders, with and without assertions",
  "out-of-bounds accesses need not be visible in a test; the inputs at fault (negative labels, empty images) are rare",
  [f"{H}: labels_map, labels_rename, labels_prune, labels_reorder, labels_sizes"])

p("Centers follow the image",
  "If an image of labels (and the weights) is shifted periodically, reflected along any axes, or its axes are permuted, the rows of labels_centers and labels_centers_of_mass are shifted, reflected or permuted accordingly, modulo the box if periodic. So are the centres of the clusters of an image, whatever the numbers that clusters() gives them.",
  "all images of labels, weights, names, shifts, reflections and permutations of axes; labels whose pixels, as vectors on the circle, do not cancel",
  "a relation between two runs for all inputs; the boundary of the box and the branch of the angle matter",
  [f"{H}: labels_centers, labels_centers_of_mass, center, center_of_mass, clusters"])

p("A dilated label stays in one piece with what it grew from",
  "In the result of dilate, every pixel with label l is joined to a pixel that had label l in the input by at most iterations(l) steps of the kernel, through pixels that all have label l in the result. (The code keeps this without periodicity; across the edge of a periodic image two labels can be exchanged and a part of a label is then cut off.)",
  "all label images, kernels, numbers of iterations per label",
  "It relates the labels of all the pixels along a chain to the history of the iterations, for every arrangement of labels; the test of dilate uses single points.",
  [f"{H}: dilate"])

p("dilate with one number of iterations assigns the label of a nearest pixel",
  "If all labels grow for the same number k of iterations, a pixel is labelled in the result exactly if some labelled pixel reaches it in at most k steps of the kernel, and its label is that of a labelled pixel from which the number of steps is smallest (dilate is a discrete Voronoi tessellation). (The code keeps this without periodicity; with periodicity a pixel can get the label of a pixel further away.)",
  "all label images, kernels, numbers of iterations",
  "The nearest pixel is a minimum over all labelled pixels and all chains of kernel steps, for every arrangement of labels.",
  [f"{H}: dilate"])

p("Along an axis L is the run-length statistic",
  "At a displacement of k pixels along an axis, L is the fraction of the pixels of the image from which a run of nonzero pixels starts: the pixel and the |k| pixels next to it in the direction of the displacement are all in the image and nonzero. This holds for all path modes, with and without periodicity. Hence L does not increase with the distance along an axis.",
  "all images, regions of interest, path modes, axes and displacements along them, periodic or not",
  "L is a ratio of counts over all paths to the edge of the region of interest; that this ratio reduces to the runs of one axis needs an argument on all paths that touch the axis.",
  [EN('L'), f"{D}: path"])

p("L is the same at opposite displacements",
  "The lineal-path function of an image has the same value at displacements d and -d: a segment can be followed from either end. (The code keeps this along the axes, with and without periodicity; elsewhere the pixelised path to d is not the reverse of that to -d, and the values differ.)",
  "all images, regions of interest, displacements",
  "Symmetry of a statistic of all pixels and paths.",
  [EN('L'), f"{D}: path"])

p("A labeller in Python behaves as in C++ over any session",
  "Any sequence of calls add_image, add_points, add_sequence, prune and reset on a labeller in Python ends with the same labels and returns the same values as in C++, of whatever type the numpy arrays are. Negative or too large points, arrays of points of another dimension and images of another shape are refused. The attributes shape and size are the shape and the number of pixels. (In the code the attribute size is the shape.)",
  "all shapes, periodicities, kernels, sequences of calls, types of arrays",
  "A statement on all histories of calls and all types of arguments.",
  ["python/main.cpp: allocate_ClusterLabeller", "python/GooseEYE/__init__.py: ClusterLabeller", f"{H}: ClusterLabeller"])

p("The functions on labels in Python do not depend on the type of the arrays",
  "labels_map, labels_rename, labels_prune, labels_reorder and labels_sizes give in Python what they give in C++ for the same labels, of whatever type the arrays are; arguments of another rank or number of columns are refused. (In the code labels that are not whole are truncated: distinct labels are confused.)",
  "all arrays of labels and tables, of all types",
  "All values and types of the arrays.",
  ["python/main.cpp: PYBIND11_MODULE", f"{H}: labels_rename", f"{H}: labels_prune", f"{H}: labels_reorder", f"{H}: labels_sizes", f"{H}: labels_map"])

p("The structure factor is the Fourier transform of the two-point correlation",
  "For periodic images, with a region of interest of the shape of the images, the Fourier transform of the two-point correlation S2 of images with themselves is the mean of the power spectra |f(q)|^2 / N of the images (the Wiener-Khinchin theorem). Structure accumulates just that: its mean at a frequency is the sum over the displacements of cos(2 pi q d) S2(d), in one dimension at all frequencies but the highest, in two dimensions at the frequencies that are right.",
  "all lists of images of up to three dimensions, all frequencies",
  "An identity between two parts of the library, one in C++ and one in Python, for all images of all sizes.",
  [EN('S2'), f"{H}: S2", "python/GooseEYE/__init__.py: Structure"])

p("One more pixel merges exactly the clusters that it touches",
  "After any history of a labeller, a call that adds one new pixel merges that pixel with the clusters it touches, and no others: these all get the lowest of their labels (if there are none: a new label, higher than all); the number of clusters changes by one less the number of clusters touched; the size of the cluster of the pixel is one more than the sum of the sizes of the clusters touched; all other labels stay. The sizes always add up to the number of pixels added.",
  "all histories, shapes, kernels and pixels",
  "The state depends on the whole history of merges and re-used labels.",
  [f"{H}: ClusterLabeller"])

p("Which arguments the free functions refuse",
  "With assertions the free functions refuse exactly the arguments that do not fit together, and without assertions nothing: dilate (rank, rank and values of the kernel, labels beyond the numbers of iterations), dummy_circles (lengths, rank), labels_centers and labels_centers_of_mass (no axes, shape of the weights), S2, C2, W2, W2c, heightheight and L (rank of the region of interest, ranks and shapes of the images, shapes and values of the masks).",
  "all arguments, legal or not",
  "All combinations of shapes and values, legal and illegal.",
  [f"{H}: dilate", f"{H}: dummy_circles", f"{H}: labels_centers", f"{H}: labels_centers_of_mass", EN('S2')])

p("Inequalities of two-point correlations",
  "Periodic S2 obeys Cauchy-Schwarz: S2(f,g)(d)^2 <= S2(f,f)(0) S2(g,g)(0). S2 is monotone: if 0 <= f <= f' and 0 <= g <= g' pixel by pixel then 0 <= S2(f,g) <= S2(f',g') at every displacement, with the same masks, periodic or not. For a periodic image of zeros and ones S2(0) - S2(d+e) <= (S2(0) - S2(d)) + (S2(0) - S2(e)), with d+e modulo the image. The periodic correlation of the complement 1 - f is that of f plus 1 - 2<f>. Periodic heightheight obeys the triangle inequality: heightheight(d+e) <= heightheight(d) + heightheight(e).",
  "every image (pair of images of one shape) of rank one to three, every region of interest that fits, every displacement in it",
  "The inequalities relate the values at all displacements of all images; a test sees the values for one image.",
  [EN('S2'), EN('heightheight'), f"{H}: S2", f"{H}: heightheight"])

p("Centers in double",
  "Without periodicity, in double arithmetic: center of positions that are whole numbers is the mean position rounded once, and lies between the smallest and the largest position; the same for center_of_mass with whole weights, and for every row of labels_centers and labels_centers_of_mass (which lie in the image). For any positions and any weights that are not negative the error is at most the number of positions times a few units of the last place, times the mean absolute coordinate. With periodicity the center is between zero and the size of the image, up to two roundings, whatever sin and cos return.",
  "all lists of positions, weights, images with labels and names (sums of coordinates at most 2^53 where the claim is one rounding)",
  "Rounding errors depend on the number, order and size of the positions; a test covers a few.",
  [f"{H}: center", f"{H}: center_of_mass", f"{H}: labels_centers", f"{H}: labels_centers_of_mass"])

p("Functions on labels in sequence",
  "For every image f: labels_rename(c, labels_map(c, c')) == c' with c = clusters(f, periodic=False) and c' = clusters(f, periodic=True). labels_sizes(clusters(f)) has for every cluster its number of pixels (the pixels joined to any of its pixels), the sizes of the clusters add up to the number of nonzero pixels, and row 0 is the number of zeros of f. Without periodicity labels_sizes(labels, names) @ labels_centers(labels, names) is the number of pixels times the center of all pixels, if names has every label once. labels_sizes(dilate(labels, ...)) has the same labels as before, none smaller, and not more background.",
  "all images of rank 1 to 3, all labels, kernels and numbers of iterations",
  "The claim relates functions on all images; a test compares them on a few.",
  [f"{H}: clusters", f"{H}: labels_map", f"{H}: labels_rename", f"{H}: labels_sizes", f"{H}: labels_centers", f"{H}: dilate"])

p("Paths, circles and centers in Python",
  "In Python center(labels.shape, numpy.argwhere(labels == name), periodic) is labels_centers(labels, [name], periodic)[0], as documented, for labels in an array of any type; likewise center_of_mass with weights[labels == name] and labels_centers_of_mass. path and dummy_circles take arrays of any type: the path joins, and the circles are around, the points without their fractional part.",
  "all arrays of labels, weights and points of any type, names, modes",
  "The claim relates functions, and types of arrays, for all images.",
  ["python/main.cpp: center", "python/main.cpp: labels_centers", "python/main.cpp: path", "python/main.cpp: dummy_circles", f"{H}: center", f"{H}: labels_centers"])

p("Quadratic forms of periodic correlations have a sign",
  "For every periodic image, all points p_1..p_k and all coefficients c_1..c_k such that the differences p_b - p_a are (modulo the shape) displacements of the region of interest: the sum over a, b of c_a c_b S2(f,f)(p_b - p_a) is not negative, the same for C2(f,f); and the sum of c_a c_b heightheight(f)(p_b - p_a)^2 is not positive if the coefficients add up to zero. (The correlations are those of a possible image: their spectrum is not negative.)",
  "every image of rank one to three, every region of interest that fits, all finite families of points and coefficients",
  "ranges over all images and over families of points of any size",
  [f"{H}: S2", f"{H}: C2", f"{H}: heightheight"])

p("Clusters are islands of connected pixels with the same value",
  "As documented (docs/theory_clusters.rst), clusters(f) gives two pixels the same label if and only if they are joined by a path of pixels with the same nonzero value.",
  "all images of rank one to three with any integer values, periodic or not",
  "ranges over all images and paths",
  [f"{H}: clusters", "docs/theory_clusters.rst: Calculate clusters"])

p("The path back visits the same pixels",
  "path(x1, x0) visits the pixels of path(x0, x1) in the opposite order (mode Bresenham), so that the set of pixels between two points does not depend on which is called the first.",
  "all pairs of different points in one to three dimensions",
  "ranges over all pairs of points",
  [f"{H}: path", f"{D}: bresenham"])

p("The modes of path are nested",
  "Every pixel of path(x0, x1) in mode Bresenham is visited in mode actual, and every pixel of mode actual is visited in mode full, in the same order; modes actual and full end for the same points, and are equal exactly if mode actual changes one coordinate per row.",
  "all pairs of different points in one to three dimensions (actual and full); all end points from the origin (Bresenham); exact arithmetic and double",
  "ranges over all pairs of points",
  [f"{H}: path, path_mode", f"{D}: bresenham, actual, full"])

p("Where results are numbers",
  "For images of numbers, the moments, the norm, the distances and result() contain only numbers (no nan, no infinity), also where nothing was measured. variance() of the mean is a number exactly if at least two pixels are not masked; of heightheight exactly where at least two pairs were seen and (if the ensemble was constructed with variance = false) all of them have equal heights. center and labels_centers are numbers; center_of_mass and labels_centers_of_mass are, except where there are positions and their weights add up to zero. All numbers are those of exact arithmetic.",
  "all histories of legal measurements of an ensemble (moments and norm: all histories), all regions of interest, all positions, weights and label images",
  "ranges over all histories and all images",
  ["include/GooseEYE/Ensemble.hpp: Ensemble::result, Ensemble::variance, Ensemble::distance", f"{H}: center, center_of_mass, labels_centers, labels_centers_of_mass"])

p("Labels of any integral type",
  "labels_rename, labels_prune, labels_reorder and labels_sizes give the same result for every integral type of the labels (and of the table and of the order) that has the labels.",
  "all integral types of at least 8 bits, signed or unsigned, all images, tables, orders and names",
  "ranges over all types and all images",
  [f"{H}: labels_rename, labels_prune, labels_reorder, labels_sizes"])

p("dummy_circles draws circles anywhere",
  "dummy_circles with given circles returns, for all positions and radii in int, the image of C53: what is outside of the image is clipped (or wraps), and no operation overflows.",
  "all images, lists of circles of any position and radius, periodic or not, with and without assertions",
  "ranges over all positions and radii",
  [f"{H}: dummy_circles"])

p("Labels for kernels that are not point-symmetric",
  "With any kernel of the documented form no sequence of valid calls fails; two added pixels have the same label iff they are joined by pixels of which the one that was added later has the other as a kernel neighbour. Whatever the order, mutual neighbours share their label, and pixels that share a label are joined by kernel steps taken forwards or backwards.",
  "all shapes and kernels as in C01, without the condition of point symmetry, all sequences of add_image, add_points, add_sequence, prune and reset",
  "ranges over all kernels and all orders in which pixels are added",
  [f"{H}: ClusterLabeller", f"{H}: detail::kernel_to_dx"])

p("For which start points the modes actual and full end",
  "Between two different points at most 707 pixels apart along each axis, path ends in the modes actual and full exactly if the straight line through both points, extended to both sides, passes through the inside of the pixel of the origin. It then leads from the first to the second point, inside the box that they span, with steps towards the second point: of at most one pixel along each axis, and for full along exactly one axis. Otherwise (also up to 10^6 pixels apart) it runs forever. The same holds in double if the first point has coordinates of at most 65536 (10^6 pixels apart: exact arithmetic only).",
  "all pairs of points in one, two and three dimensions",
  "ranges over all pairs of points, and says of infinitely many that the call never returns",
  [f"{D}: path::actual", f"{D}: path::full"])

p("Labels for every image shape and every kernel",
  "For every shape, every kernel of its rank and every sequence of valid calls the labeller does not fail, labels exactly the added pixels, and two pixels have the same label exactly if they are joined by pixels of which the later one is compared with the earlier one. The compared pixel is the one at the offset (modulo the shape if periodic), except that on one row or one column that is not periodic only the offset along it counts, and that along a periodic axis (rank 1 and 2) a coordinate further below zero than the axis is long is increased by 2^64 before the remainder is taken.",
  "all shapes, all kernels (symmetric or not, larger than the image or not), all histories of calls",
  "ranges over all shapes, kernels and histories; the exceptions are corner cases that tests do not reach",
  [f"{H}: ClusterLabeller::add_image", f"{H}: ClusterLabeller::add_points", f"{H}: ClusterLabeller::add_sequence"])

p("Histories of a labeller for every image shape and every kernel",
  "For every shape, every kernel of its rank and every sequence of valid calls: a label is lower than another one exactly if its cluster is the older one; prune makes the labels 1, ..., n without changing their order and a second prune changes nothing; the labels after prune follow from the order of first visits alone; an addition keeps the label of a labelled pixel or lowers it to the label of a pixel it has become joined with; reset gives a new labeller; add_sequence leaves the state that add_points leaves, and for a pixel that had no label marks exactly the positions at which a cluster starts or clusters merge. Joined means by pixels of which the later one was compared with the earlier one.",
  "all shapes, all kernels (symmetric or not, larger than the image or not), all histories of calls",
  "ranges over all shapes, kernels and histories of calls",
  [f"{H}: ClusterLabeller::add_image", f"{H}: ClusterLabeller::add_points", f"{H}: ClusterLabeller::add_sequence", f"{H}: ClusterLabeller::prune", f"{H}: ClusterLabeller::reset"])

p("How pixels are grouped into calls does not matter, not even for the labels",
  "The labels depend only on the order in which pixels were added for the first time since the last reset, and on when prune was called in between: not on whether they were added by add_image, add_points or add_sequence, nor on how they were grouped into calls, nor on pixels that were added again. This holds for the labels themselves, not only for the partition, and after any further calls. Adding pixels that have a label leaves the labeller exactly as it is.",
  "all shapes, all kernels (symmetric or not, larger than the image or not), all histories of calls and continuations",
  "ranges over all pairs of histories of calls",
  [f"{H}: ClusterLabeller::add_image", f"{H}: ClusterLabeller::add_points", f"{H}: ClusterLabeller::add_sequence", f"{H}: ClusterLabeller::prune", f"{H}: ClusterLabeller::reset"])

p("L at a displacement does not depend on the region of interest",
  "L at displacement d is the fraction of the pixels of the image from which the whole path to d is nonzero, whatever the region of interest: it is a property of the image alone.",
  "all images of rank 1-3, regions of interest, path modes, displacements, periodic or not",
  "relates runs with different regions of interest, for all images",
  ["include/GooseEYE/Ensemble_L.hpp", f"{H}: L"])

p("W2c of a line",
  "In one dimension W2c at displacement k from the centre is the average over the cluster centres of f at one pixel farther from the centre in the direction of k (at k = 0: of the two pixels next to the centre), excluding masked pixels and counting pixels outside a non-periodic image as zeros, whatever the clusters. At the two ends of the region of interest it is zero. Elsewhere it depends neither on the region of interest nor on the path mode.",
  "all images, masks, cluster labels, centres and regions of interest of more than two pixels in one dimension, all path modes, periodic or not",
  "holds for all images and relates runs with different regions of interest and modes",
  ["include/GooseEYE/Ensemble_W2c.hpp", f"{H}: W2c"])

p("Algebra of W2c",
  "W2c is linear in f, does not depend on the values of f at masked pixels, nor on the names of the clusters (the same change of the labels of clusters and centres), and is zero or between the lowest and the highest of the values of f at pixels that are not masked (and zero, if not periodic). It depends on clusters and centres only by which pixels are the centre of a cluster. Whether the call is defined does not depend on f.",
  "all images, masks, cluster labels, centres and regions of interest of up to three dimensions, all path modes, periodic or not",
  "relates runs on different inputs, for all of them",
  ["include/GooseEYE/Ensemble_W2c.hpp", f"{H}: W2c"])

p("Dilation with one number of iterations does not depend on the sign of the labels",
  "Dilating an image with one number of iterations for all labels treats labels of any sign alike: labelled pixels keep their label, every label comes from a pixel at most that many steps away, and every pixel at most that many steps away from a labelled one is labelled.",
  "all images with labels of any sign, all kernels, all numbers of iterations, periodic or not, with and without assertions",
  "the repository's test dilates one image with one negative label; whether it works depends on the other labels",
  [f"{H}: dilate", "tests/dilate.cpp"])

p("version() is the version, without quotes",
  "version() returns the text that GOOSEEYE_VERSION is defined as, whether the definition is a string literal or not, and what it returns never contains a quote.",
  "all definitions of the macro, quoted or not",
  "a test sees one definition, that of its own build",
  ["include/GooseEYE/version.hpp: version, detail::unquote", "include/GooseEYE/config.h: QUOTE"])

p("repr() tells labellers apart",
  "repr() of a labeller shows its class and its shape, does not depend on what has been added to it, and is different for labellers that differ in rank, shape or periodicity.",
  "all shapes and kernels, all histories of the labellers, C++ and Python",
  "a test compares the text of a few labellers",
  [f"{H}: ClusterLabeller::repr, detail::shape_to_string, detail::get_namespace", "python/main.cpp: __repr__"])

p("Distances are exact in double, or nearly so",
  "In double arithmetic the distance of the pixels of the region of interest to its center along an axis is exact; the total distance is the root of the exact sum of squares; along an axis with the size of a pixel it is the product, rounded once; the total distance with sizes of pixels has a relative error of at most 2^-49 if the root has one of at most 2^-52.",
  "all regions of interest of at most three dimensions (up to 2^53 pixels along each axis, 2^26 for the sum of squares), all sizes of pixels, all roundings with a relative error of 2^-53 that keep the integers up to 2^53",
  "a test compares some distances with a tolerance of its own",
  ["include/GooseEYE/Ensemble.hpp: Ensemble::distance", "include/GooseEYE/GooseEYE.hpp: distance"])

p("Modes actual and full of path with int never run forever",
  "With int of 32 bits, path(x0, x1) in modes actual and full ends within 2^31 iterations for all pairs of different points: it returns the path of unbounded integers if that path ends and its pixels, its length and the differences of the points fit in int, and is undefined behaviour otherwise. In particular the points for which the loop over unbounded integers does not end are undefined behaviour, and the paths between points at most 707 apart that do end are right.",
  "all pairs of different points in one to three dimensions, both modes; exact arithmetic and double",
  "ranges over all pairs of points; an endless loop and an overflow after 2^31 steps cannot be observed in a test",
  ["include/GooseEYE/GooseEYE.h: path, path_mode", "include/GooseEYE/detail.hpp: actual, full"])

p("dilate in Python does what its arguments say",
  "Called from Python, dilate(f, kernel, iterations, periodic) does what the function of C++ does with these arguments (kernel and periodic may be left out, iterations may be left out, a number, or one number per label), whether they are passed by position or by name and in whatever order, and whatever the types of the arrays, if their values fit.",
  "all images, kernels and iterations, all types of arrays, all ways to pass the arguments, with and without assertions",
  "ranges over all combinations of types and ways to pass arguments; a wrong choice among the signatures returns an image without an error",
  ["python/main.cpp: dilate", "include/GooseEYE/GooseEYE.h: dilate"])

p("L and W2c do not suffer from the 32-bit integers of paths",
  "The lineal-path function L and the collapsed correlation W2c, which follow pixel paths of int of 32 bits from the centre of the ROI to its edge, give the results of unbounded integers for all images, for single calls and for ensembles with any history of calls, if the ROI has fewer than 2^31 pixels along each axis (a million in modes actual and full; 1414 if these are computed in double): on the paths no operation overflows.",
  "all ROIs up to these sizes, images, masks, clusters, modes, periodic or not, histories of calls, with and without assertions",
  "ranges over all ROIs and images; ROIs of 2^31 pixels cannot be tested, and an overflow is undefined behaviour that a test may not show",
  ["include/GooseEYE/Ensemble_L.hpp: L", "include/GooseEYE/Ensemble_W2c.hpp: W2c", "include/GooseEYE/detail.hpp: bresenham, actual, full"])

p("The helpers for axes and shapes",
  "The axis that distance(axis) uses, which is computed with a quotient of doubles, is the axis along which the array of three dimensions has the size of the given axis; all other axes have size one. The axes of all of an array are in order. half_shape is half of every size rounded down. The widths by which an image is padded add up to the size of the ROI minus one, the second at least the first and at most one more.",
  "all ranks from 1 to 3, axes and shapes without zeros",
  "shapes are unbounded; the rounding of the quotient has to be excluded as a cause of errors",
  ["include/GooseEYE/detail.hpp: atleast_3d_axis, atleast_3d_axes, half_shape, pad_width"])

p("The labels of clusters() fit in int",
  "clusters() converts its labels to int. The result is what the labeller of the image computes: background is zero, clusters have different labels, and these are 1 to n.",
  "all images of rank 1 to 3 with fewer than 2^62 pixels, periodic or not",
  "the conversion matters for images with billions of clusters, which no test holds",
  ["include/GooseEYE/GooseEYE.h: clusters, ClusterLabellerOverload"])

p("The mean of an image of type int",
  "Ensemble.mean(f) for an image of type int adds its sum, the sum of its squares and its size, as for the same image of type double, and as mean(f, fmask) with a mask without masked pixels.",
  "all images of type int of any shape, all ensembles, and all orders in which the pixels are added",
  "the sum is computed in int before it is converted to double: only sums beyond 2^31 show it",
  ["include/GooseEYE/Ensemble_mean.hpp: Ensemble::mean"])

p("Dilation merges the clusters whose gap it closes",
  "Let r be dilate(f, iterations=n) by a kernel that steps to pixels that share a face. In clusters(r) two pixels of f that are not background get the same label if and only if one is reached from the other by hops between such pixels of at most 2n+1 steps each (without periodicity: at a distance along the axes of at most 2n+1), and every cluster of r holds such a pixel.",
  "all images without negative labels in one to three dimensions, periodic or not, all numbers of iterations, all kernels that step across faces; the default kernel in one and two dimensions",
  "it relates two algorithms, the sequential dilation and the merging of labels, for every image and number of iterations; tests have a few gaps",
  ["include/GooseEYE/GooseEYE.h: dilate", "include/GooseEYE/GooseEYE.h: clusters"])

p("Background around an image does not change its clusters",
  "clusters(g, periodic) of an image g that holds f somewhere and background around it is clusters(f, periodic=false) at that place, number by number, and zero around it; with periodicity if there is at least one pixel of background along every axis.",
  "all images f in one to three dimensions, all larger shapes and all positions of f in them, periodic or not",
  "it relates images of different shapes and modes, for every position and size of the border; tests compare a few",
  ["include/GooseEYE/GooseEYE.h: clusters", "include/GooseEYE/GooseEYE.h: ClusterLabeller"])

p("A border of masked pixels does not change the correlations",
  "S2, C2 and heightheight of images with a border of masked pixels are those of the images without the border, without periodicity, whatever the masked pixels hold; with periodicity if the border is as wide as the region of interest reaches. Likewise W2 if the weights in the border are zero, and the mean and variance.",
  "all images and masks (also with masked pixels inside) in at most three dimensions, all borders, all regions of interest, periodic or not",
  "masking and cropping are different code paths (padding, masks, periodic copies) for every region of interest and border; tests compare a few",
  ["include/GooseEYE/Ensemble_S2.hpp: Ensemble::S2", "include/GooseEYE/Ensemble_C2.hpp: Ensemble::C2", "include/GooseEYE/Ensemble_W2.hpp: Ensemble::W2", "include/GooseEYE/Ensemble_heightheight.hpp: Ensemble::heightheight"])

p("Background around an image does not change its dilation",
  "Without periodicity and with one number of iterations for all labels, dilate(g, kernel, iterations) of an image g that holds f somewhere and background around it is, at that place, dilate(f, kernel, iterations), label by label, for every kernel whose steps are by one pixel along one axis (as the default kernel in one and two dimensions): the result does not depend on where the image was cut off. For every kernel that has with each step all shorter ones (also the default kernel in three dimensions) the same pixels get a label.",
  "all images f with labels, all larger shapes and all positions of f in them, all numbers of iterations, all such kernels",
  "labels also grow through the border and could come back in or win over others there; that they do not must hold for every image, border and number of iterations",
  ["include/GooseEYE/GooseEYE.h: dilate"])

p("Centers move with the place of an image in a larger one",
  "Without periodicity, if the pixels of a label in a larger image are those of the image, placed at an offset, then its row in labels_centers and (with the same weights on these pixels) in labels_centers_of_mass is the row of the image plus the offset, whatever other labels and weights the larger image has.",
  "all images of labels of one or more dimensions, all larger shapes and all positions, all lists of names that hold the label, all weights whose sum over the label is not zero",
  "it relates images of different shapes for every label, position and set of weights; tests compare a few positions",
  ["include/GooseEYE/GooseEYE.h: labels_centers", "include/GooseEYE/GooseEYE.h: labels_centers_of_mass"])

p("Distances in Python",
  "distance in Python, with the region of interest and, if given, the sizes h of a pixel and the axis dim, by position or by name in any order, gives for every pixel of the region of interest its displacement from the center times the size of a pixel along that axis, or without an axis the root of the sum of their squares; h may hold integers. All other calls (a negative or real axis, names in use twice, an axis before the sizes) throw an exception. The method distance of Ensemble gives the same with positional arguments, and throws for named ones.",
  "all regions of interest up to three dimensions, all sizes of a pixel, axes, and all ways to pass them; for the refusals all calls with numbers and sequences of numbers",
  "which of four overloads is called depends on the number, the types and the names of the arguments; tests call a few of them",
  ["python/main.cpp: distance", "python/main.cpp: Ensemble.distance", "include/GooseEYE/GooseEYE.hpp: distance"])

p("An ensemble constructed without arguments measures nothing",
  "With assertions, every measurement on an Ensemble that was constructed without arguments throws an exception and leaves it as it was, in any order and number; so do variance(), distance(axis), distance(h) and distance(h, axis). Its uninitialised switches do not matter. Without assertions mean(f) is undefined behaviour.",
  "all sequences of measurements, of images with at least one dimension, and all values of the uninitialised members",
  "the values of uninitialised members and the sequences of calls are unbounded",
  ["include/GooseEYE/GooseEYE.h: Ensemble", "include/GooseEYE/Ensemble.hpp: Ensemble", "include/GooseEYE/Ensemble_mean.hpp: mean"])

p("Repeating a periodic image repeats its dilation and its clusters",
  "Take an image that consists of copies of a periodic image, any number of them along each axis. A pixel of its dilation has a label if and only if it is a copy of a pixel of the dilated image that has one, for every kernel and number of iterations. Two pixels of the image are in the same cluster if and only if, for every copy of the one, some copy of the other is in the same cluster as it. The same holds for a ClusterLabeller with any point-symmetric kernel to which the pixels, and to another one their copies, were added in any order.",
  "all images, numbers of copies along each axis, kernels, numbers of iterations and sequences of calls of a labeller",
  "shapes, numbers of copies, kernels and iterations are unbounded",
  ["include/GooseEYE/GooseEYE.h: dilate", "include/GooseEYE/GooseEYE.h: clusters", "include/GooseEYE/GooseEYE.h: ClusterLabeller"])

p("Repeating a sample stretches its structure factor",
  "If each one-dimensional sample that is added to a Structure is repeated c times, the mean structure factor at entry c k is c times that of the samples at entry k (not a number if that is not), and at every other entry it is zero (not a number at the highest frequency of an even size). In two dimensions the same, with a number of copies along each axis and their product as factor, at the frequencies of which both components are non-negative or both are negative (at others the structure factor is wrong).",
  "all numbers and sizes of samples, all samples, all numbers of copies, all entries",
  "relations between two runs on related inputs of any size",
  ["python/GooseEYE/__init__.py: Structure"])

p("A correlation at a displacement does not depend on the region of interest",
  "S2, C2, W2 and heightheight, with and without masks, periodic or not, computed with two regions of interest have the same values wherever their displacements are the same; so have the data and the result of an ensemble after any number of such calls. (For L see C116; W2c depends on the region of interest, see C47.)",
  "all images, masks, pairs of legal regions of interest and displacements that both have",
  "relations between two runs with sizes that are unbounded",
  ["include/GooseEYE/Ensemble_S2.hpp: S2", "include/GooseEYE/Ensemble_C2.hpp: C2", "include/GooseEYE/Ensemble_W2.hpp: W2", "include/GooseEYE/Ensemble_heightheight.hpp: heightheight"])

p("Correlations are sums over the phases of an image",
  "C2 of labels is the sum over the labels of S2 of the images of one label each (one where the image has the label, zero elsewhere), with any masks, periodic or not. S2 of the pixels with one of several values is the sum of S2 of the pixels with each of them, for all pairs of values. For all values of an image, background included, these add up to one at every displacement at which the image has pairs of pixels (without masks).",
  "all images, masks, regions of interest, displacements, and lists of values",
  "relations between any number of runs; the number of labels and the sizes are unbounded",
  ["include/GooseEYE/Ensemble_S2.hpp: S2", "include/GooseEYE/Ensemble_C2.hpp: C2"])

p("The result of an ensemble is the weighted mean of the results of its realisations",
  "After any calls of one measure, the result at a displacement is the mean of the results of ensembles of one call each, weighted by their norms (for heightheight: of the squares of the results); so it lies between the lowest and the highest of those that have data. To make all calls again, any number of times, does not change the result. The weights of W2 must not be negative.",
  "all lists of calls of one measure, with images of different shapes and masks, regions of interest, displacements, and numbers of repetitions",
  "relations between any number of histories of any length",
  ["include/GooseEYE/Ensemble.hpp: result", "include/GooseEYE/Ensemble_S2.hpp: S2", "include/GooseEYE/Ensemble_W2.hpp: W2", "include/GooseEYE/Ensemble_L.hpp: L"])

out = pathlib.Path(__file__).parent.parent/"properties.jsonl"
out.write_text("".join(json.dumps(x)+"\n" for x in P))
print(len(P))

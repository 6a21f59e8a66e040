# A machine-checked model of GooseEYE

Code: `/repo` (tdegeus/GooseEYE, pinned). Model, specifications and proofs: `lean/Verif`.
The properties are in `properties.jsonl`, the status per property and the theorem names in
`MANIFEST.json`, the axioms per theorem in `AXIOMS.md`, the attempts with wrong programs in
`seeded/LOG.jsonl`.

## Layout

| directory | content |
|---|---|
| `lean/Verif/Basic.lean` | outcomes of a call (`ok`, `throws`, `ub`, `diverge`), bounds-checked storage, loops |
| `lean/Verif/Model/*.lean` | the model of the code, function by function, with file:line citations |
| `lean/Verif/Spec/*.lean` | small specifications, independent of the model (no import of `Model`, except of its plain data types such as the n-d array) |
| `lean/Verif/Lemmas/*.lean` | helper lemmas |
| `lean/Verif/Props/*.lean` | the property theorems, with a concrete instance beside each |
| `lean/Verif/Check/RepoTests.lean` | the tests of the repository, run on the model by the kernel: a comparison of the model with the code, not proofs; `tools/replay.sh` runs those on larger images, as compiled code |
| `tools/` | generators of `properties.jsonl`, `MANIFEST.json`, `AXIOMS.md`; `mutate.py` checks all theorems against an edited model |
| `seeded/` | the edits (`mut*.py`) and their outcomes (`LOG.jsonl`) |

## Naming

`Cnn_...` proves (a component of) property `Cnn`. A theorem `Cnn_..._partial` proves it under a
restriction that its comment names. A theorem `Cnn_violated` proves that the code does *not* have the
property: a concrete input with the outcome of the modelled code. `Cnn_code` says what the code computes
for all inputs, also where that is not the property.

## Modelling decisions

* **Outcomes.** Every array access is bounds-checked in the model; out of range is `ub`. Reading an
  uninitialised value, dividing an integer by zero, or converting an infinite double to an integer is
  `ub`. `while` loops have fuel; running out is `diverge`. A theorem `... = .ok r` therefore includes
  memory safety and termination. Uninitialised memory whose value is used (`np.empty_like`, `double x[3]`)
  is a parameter `junk` that the theorems quantify over.
* **Assertions.** `GOOSEEYE_ASSERT` is on in the Python module and off in plain C++ use, so every
  model function takes `dbg : Bool`; theorems quantify over it where they can.
* **Integers** are unbounded (no overflow of `int`/`ptrdiff_t`), except where the code computes in
  `size_t` with possibly negative operands: there reduction modulo 2^64 is modelled. C76 treats the overflow
  of `int` in the Bresenham path, C123 in the other modes, C110 in `dummy_circles`; C109 the integral types of labels.
* **Doubles** are exact: elements of an arbitrary linearly ordered field (the statistics), rationals (the
  paths), or reals where `sqrt`, `cos`, `atan2`, `exp` occur. In the statistics `pow(x, 0.5)` is a
  parameter, so nothing depends on it except where a theorem says so.
* **Rounding** is modelled for `Ensemble` (C73, C74, C88, C122), `path` (C75) and the functions for centers (C101): the same definitions are instantiated with `Fl rnd`,
  numbers of which every operation is rounded by `rnd`; `rnd64` is round-to-nearest-even to 53 bits (no
  overflow, no subnormal numbers, no `nan`). `pow(x, 2)` is a rounded product. Elsewhere there is no rounding.
* **Division by zero** of doubles is 0 in the model (`nan` or infinity in the code); theorems that divide
  have a hypothesis that excludes it, or state the numerator and the denominator apart. C108 runs the same functions
  with an arithmetic in which it is not a number (`Model/Special.lean`) and proves where that happens.
* **xtensor, the C++ standard library, numpy, prrng, enstat** are external: `Model/XTensor.lean`,
  `Model/NdArray.lean` and the first part of `Model/Structure.lean` state the semantics assumed (strides,
  `pad`, `view`, `atleast_3d`, `argwhere`, `unique`, `std::map`, slices, `fft`, ...). Where a function is
  called outside its domain the model is `ub`, conservatively. An axis of length one has the stride zero, so that an
  array of one element has that element at every index (`at1`): a single number of iterations in `dilate`, and a single
  column or radius in `dummy_circles`, serve all labels or circles.
* **pybind11 and xtensor-python** are external: `Model/Python.lean`, `Model/PythonCluster.lean` and `Model/PythonDilate.lean`
  state the rules assumed, by which a signature is chosen and arguments are converted.
* **Random numbers** are arbitrary functions: theorems hold for all of them.

## Evidence that the model is that of the code

No theorem depends on this section. The code cannot be run here, but it has left results in `/repo`:

* `lean/Verif/Check/RepoTests.lean` runs the tests of `/repo/tests` on the model, in the kernel, and compares with the
  values that the tests expect (and the paths of `docs/examples/pixel_path.h5`). `tools/replay.sh` does the same for
  the larger images, as compiled code. Not run: tests of random numbers, and of `center*` and `Structure` (real numbers).
* `tools/recorded.py` compares what theorems say about the code (C47, C34, C35, C39, C40, C44, C33,
  C03, C49, C50) with the arrays in `/repo/docs/examples/*.h5`. They confirm two of the defects: the result of `W2c` in `W2c.h5` is
  that of `C47_code` in all 101 x 101 elements (it is zero at the whole boundary of the region of interest), and the
  result of `S2` with a mask in `S2_mask.h5` is that of a mask padded with zeros (it differs between a displacement
  and its opposite, although both images are the same).
* All of them agree. The comparison found one mistake of the model, in arrays of one element (`seeded/LOG.jsonl`).

## Per property

| property | what is modelled, how it is proved |
|---|---|
| C01-C11 | `ClusterLabeller` as a state machine on its real arrays (`label`, `renum`, `next`), with its linked lists of merged labels. An invariant relates it to the history of added pixels; every public call preserves it (induction over the calls, over the pixels of a call, over the kernel offsets, over the linked lists). Specification: connected components as the equivalence generated by kernel adjacency on coordinates (`Spec.Joined`). |
| C12, C13 | neighbour arithmetic of `get_compare_*`. Violated in corner cases: counterexample theorem and a `_partial` theorem under the needed hypothesis. |
| C14 | 1D/2D proved, 3D counterexample; the actual default proved in all ranks. |
| C15, C16 | `kernel_to_dx` by list reasoning; C16 from the labels of two pixels with any kernel (C111). |
| C17-C21 | `labels_*` over lists of integers and a sorted association list for `std::map`; induction over the image. |
| C22-C25, C58-C60 | `dilate` on padded 3D arrays. One iteration is characterised as a function of positions; induction over iterations. C59 gives the complete result (conflicts included), with periodicity on the image and its margins (`Spec/DilatePeriodic.lean`, `Props/DilatePeriodic.lean`). A label that meets no other label: `Props/DilateAlone.lean`. C25 and C58 (several labels, periodic) are violated; `C25_throws_iff`, `C25_ub_iff`, `C25_returns_iff` decide every call with legal shapes. |
| C26-C28 | `bresenham` loop with fuel; loop invariant relating the error terms to the exact line; C27 determines the path uniquely, which gives the symmetries of C28. |
| C29 | violated for rank < 3 (out of bounds) and for `actual`. |
| C30-C32, C56 | `actual`/`full` over the rationals with the tolerance 1e-6; invariant on crossing counts. C30 violated for a general start point: non-termination proved. For long paths the tolerance matters: proved up to a bound on the displacements, violated beyond it (`Props/PathLarge`). `actual` visits exactly the pixels whose interior is crossed (`Props/PathExact`); `full` exactly those that a point enters if it steps along one axis at a time, the first axis first (`Props/PathTurns`; specification in `Spec/PathTurns`). |
| C33 | arithmetic of `pad_width`, `distance`. |
| C34-C41 | `Ensemble` loops on padded 3D arrays; folds are turned into finite sums over pixels; the sums are compared with the specification. Violated for periodic images with masks. |
| C42, C43 | lists of calls on one ensemble; induction and permutation of sums; the lock on the statistic. Without the lock: `Props/Mixed.lean`. |
| C44-C46 | `L`, for every path mode. |
| C47, C48 | `W2c`: violated; counterexamples, `C47_code` says what is computed, `C48_code` and `C48_outside` for every ROI. |
| C49-C52, C61, C62 | `center*` over the reals with `Complex.arg`. |
| C53, C54, C63 | `dummy_circles`, both overloads. For the random circles also in double arithmetic (`Model/DummyFloat.lean`): the integers to which the code truncates its quotients are those of exact arithmetic (`C63_double_partial`). Which calls throw, are undefined and return is decided in `Props/DummyGuard.lean` (shapes of another rank than two are counted as undefined without assertions). |
| C66 | `heightheight` over a history of images: sums of squares over pairs (`Effect`), then algebra as for C41. Violated for `variance = false`. |
| C67 | the lit part of a path takes unit steps (C31), so it stays in one cluster (C03); counting. With the default mode `bresenham` the first inequality is false. |
| C68, C69 | from the characterisations of S2, C2, W2 (C34-C39) and L (C44). Exchanging the images is violated for periodic images with masks. |
| C70, C71 | from C03 (labels are equal iff pixels are connected): connections are preserved by inclusions and by symmetries of the grid. |
| C72 | from C17-C21, list reasoning. |
| C73, C74 | a simulation between the ensemble over `Fl rnd` and the one over the rationals: all sums are equal integers below 2^53, call by call; `result` then divides once. C74 by the errors of the five operations; cancellation gives a negative variance. |
| C75 | the loop over `Fl rnd` follows the loop over the rationals: same counts and half-integer edges, positions with a relative error of 2^-51, so that crossings have an error below 2^-47, less than the margin between the tolerance and the distance of different crossings. From another start (`Lemmas/FloatStart.lean`) the error grows with the coordinates, up to 1.3 10^-10 for 65536, still less than the margin of 3 10^-10; an axis beyond its end stays there, in any arithmetic. |
| C76 | a second model of the Bresenham loop in which every `int` operation that overflows is undefined; it follows the loop over unbounded integers because the errors stay between -2 dx and 2 dx. |
| C77 | the registered signatures as a list, selected by type; case analysis over the types. Violated for `float32` images and mixed types. |
| C78 | the labelled pixels are those reached from labelled pixels (C23); a map of pixels that respects the steps of the kernel maps what is reached; induction over the steps and, for the default kernel, over the distance along the axes. Labels that do not meet follow the motion because of `C24_all_alone` (`Props/DilateMotion.lean`). |
| C79 | `q` as a function of the state; `û(q) û(-q)` is the squared modulus for real samples; from C55. |
| C80 | the factory and the conversions of the arguments; reduces to C03. Violated: the labeller converts the image to `int`, `clusters` to `ptrdiff_t`. |
| C81 | the member functions as programs on the object (assertions, assignments, loops in the order of the source; a loop that would throw leaves any state), shown to end as the functions of the other models; no loop throws. Violated by `Structure`. |
| C82 | a one-to-one map of the pixels that is compatible with displacements permutes the pairs of pixels, hence the sums of C34, C38-C40. Reflections, permutations of axes and axes of size one are such maps. |
| C83 | a sum over the pixels of the copies is the number of copies times the sum over the pixels of the image; W2c likewise in `Props/RepeatedCollapsed.lean`. |
| C84 | the effect of each call, expressed in pairs of pixels, summed over the history; the number of pairs by induction on the rank. |
| C85 | from a pixel each pixel is reached by exactly one of the displacements, so that the sum over displacements of a sum over pairs is a sum over all pairs of pixels. |
| C86 | the overloads of each method as for C77; a history by induction. |
| C87 | the loop of `actual` and `full` makes the same steps with all numbers of an axis negated, that of `actual` with the axes in another order (the first crossing is the minimum); hence the paths to the edge are permuted, and with C82 the sums of C45 and C47. |
| C88 | three runs side by side: in `double`, exact, and exact with the absolute values of the pixels. After `n` roundings the first is within `(1 + 2^-53)^n - 1` times the third of the second; counts are exact. W2c: each sum has had as many roundings as its norm counts (`Lemmas/RoundingWalk.lean`). |
| C89 | case analysis of the two loops of `labels_reorder` over `renum`. |
| C90 | the sum of the vectors of the pixels is turned or reflected (C50, C51); the pixels of a label or cluster are moved one-to-one (C52, C71). |
| C91 | `Spec/Regions.lean` defines a chain of kernel steps inside a region (`ReachIn`); the layers of C59 are followed by induction, and a label that is assigned is kept. Theorems in `Props/Regions.lean`; for periodic images where labels do not meet, in `Props/Undisputed.lean` (from C23_same). |
| C92 | A pixel that gets its label in layer n + 1 is not reached in n steps, and gets it from a pixel of layer n (`layers_nearest`). `Nearest` is defined in `Spec/Regions.lean`. Theorems in `Props/Regions.lean`; for periodic images where labels do not meet, in `Props/Undisputed.lean`. |
| C93 | A path to the edge moves towards its end in each coordinate, so if it passes an axial displacement everything before is on the same axis, in order (`axis_prefix`, `axis_count`); the path along the axis passes all axial displacements (`axis_edge`). `Run` is defined in `Spec/Runs.lean`. Theorems in `Props/Runs.lean`. |
| C94 | The last pixel of a run is the first of the opposite run (`run_turn`), a bijection. Theorems in `Props/Runs.lean`; at the displacements farthest from the centre, from C116 and C106, in `Props/LinealBack.lean`. |
| C95 | The methods convert their arguments and call the class; by induction on the calls with the invariant of C09 a session is the run of C++. Model in `Model/PythonCluster.lean`, theorems in `Props/PythonSession.lean`. |
| C96 | The parameters are arrays of `ptrdiff_t`; the conversion is the identity on whole numbers of 64 bits. Model in `Model/PythonLabels.lean`, theorems in `Props/PythonSession.lean`. |
| C97 | Waves at a displacement are moved inside the sum over pairs, whose sum over all displacements is a double sum over pixels; with C34, C84 and C79. In `Props/Spectrum.lean`. |
| C98 | From C01, C02, C05 and C06, and the effect of one vertex on the components of a graph. In `Props/Growth.lean`; for every shape and kernel in `Props/GrowthAny.lean`, from the naive labeller of C113. |
| C99 | No loop throws, so what remains are the assertions. In `Props/Domain.lean`. |
| C100 | From the values of C34 and C40 as sums over pixels; a list version of Cauchy-Schwarz by induction; a periodic shift permutes the pixels; the triangle inequality pixel by pixel for zeros and ones. Model in exact arithmetic. |
| C101 | The functions written for any arithmetic (`Model/CenterFloat.lean`); with real numbers they are the functions of C49-C52 (`C101_real`). Sums of whole numbers are exact, `rnd64` is monotone and odd; error bounds as in C88. In `Props/CenterFloat.lean`. |
| C102 | From C03, C17, C21, C22, C24, C52 and C70. In `Props/Pipelines.lean`. |
| C103 | The conversions of the arguments as in C80 (`Model/PythonRest.lean`), with `numpy.argwhere` and the selection by a condition as external functions. `path` and `dummy_circles` with `int` of 32 bits. From C26, C52, C53, C76, C110 and C123. In `Props/PythonRest.lean`. |
| C104 | from the characterisations C34, C38, C40: after a shift of the pixels by `p_a` the quadratic form is a sum over the pixels of squares (of squares per label for C2). |
| C105 | from C03: a path of nonzero pixels is a path of equal values if touching pixels have equal values. |
| C106 | from C27: every row is the rounded line, which determines it; compare the rounding of the line and of the line back. |
| C107 | the loops of actual and full run in lockstep (simulation), and full stores as many rows per step as axes are crossed; the line crosses the pixel of a row of mode Bresenham just after its parameter k/n; then C56. In the plane it contains half a step of the line, so that C56 for pixels with at least a millionth of the line (`C56_stay_partial`) covers 500000. |
| C108 | the model is run with an arithmetic in which a division by zero is not a number (`Verif.Model.Special`); accumulation commutes with the inclusion of the numbers; then the guards of the divisions. Justifies that elsewhere a division by zero is 0. |
| C109 | a second model of the functions in which every stored integer is converted to its type (`Verif.Model.LabelsTyped`); equal to the first as long as the numbers fit, and the exact result beyond. |
| C110 | a second model in which every `int` operation that overflows is undefined (`Verif.Model.Dummy32`); pixel by pixel equal to the first if the square or disc fits; an undefined pixel makes the loops undefined. |
| C111 | the naive labeller of C01 on the symmetric relation `the later one sees the other`: it gives the same labels, so the invariant of C01 carries over. |
| C112 | parameters of the steps along each axis are shifted by x0 / v; the loop ends if all axes have arrived before one of them passes its end; existence of a common parameter from pairwise order (one-dimensional Helly). |
| C113 | `Looks` in Spec/ClusterAny.lean names the pixel compared with; getCompare is proved to return it for every configuration, and the refinement of C111 is reused. |
| C114 | The refinement of C113 (links by the pixel compared with) gives the invariant of the naive labeller with the links of the history as neighbours; the proofs of C05 to C11 carry over to it. |
| C115 | `trace` in Spec/Trace.lean lists first visits and prunes. The naive labeller of C113 is a fold over that list. |
| C116 | A displacement that only the path that ends there passes has one path; corners and the farthest displacements are such. |
| C117 | The paths to the ends of a line are determined by C26, C30 and C31; C47_code then gives the values. |
| C118 | C48_code and C48_outside give the result, as an average over a list of pixels that does not depend on f. |
| C119 | From the characterisation of one iteration (C22); `at1` in `Model/XTensor.lean` is the look-up in an array whose only axis may have length one. |
| C120 | Induction on the loop of `std::remove`; the operator `#` of the preprocessor is modelled on lists of characters (`Model/Text.lean`). |
| C121 | Texts of digits are split off at the first character that is not a digit; decimal notation is injective (Lean's library). |
| C122 | The model of `distance` over `Fl rnd`: the steps of `linspace` are exactly one, sums of squares of integers are exact, otherwise relative errors are accumulated, one factor per rounding. |
| C123 | A second model of the loops in which every `int` operation that overflows is undefined (`Verif.Model.Path32`); step by step equal to the first as long as everything fits, and every iteration stores a row, so that the number of rows overflows if the loop goes on. |
| C124 | The choice of one of the four signatures is modelled (`Model/PythonDilate.lean`): two passes over the signatures in order of registration, the binding of positional and named arguments and defaults, and what each type of parameter accepts. The theorems go through the cases. In `Props/PythonDilate.lean`. |
| C125 | The measures with paths of `int`s are modelled beside those with unbounded integers (`Model/Ensemble32.lean`). The path to each pixel on the edge of the ROI stays in the ROI and is short, so that C76 and C123 apply. In `Props/Ensemble32.lean`. |
| C126 | The helpers with the arithmetic of `double` and `size_t` in `Model/Helpers.lean`; the error of the quotient is smaller than its distance to a half. `C126_used` relates the simplified axis of the model of `Ensemble` to it. In `Props/Helpers.lean`. |
| C127 | The conversion is modelled modulo `2 ^ 32` after the labeller (`Model/Clusters32.lean`). It is injective on 0 to `2 ^ 32 - 1`, and the labels are 1 to `k` (C03). The counterexample is by counting: `2 ^ 32` pixels that are not joined. In `Props/Clusters32.lean`. |
| C128 | A second model of `mean` in which the sum is in `int` and an overflow is undefined (`Model/MeanInt.lean`), for every order of the additions (a binary tree with all pixels as leaves). By induction over the tree. In `Props/MeanInt.lean`. |
| C129 | From C23 (the pixels reached within n steps) and C03 (the clusters of `clusters`): a walk of at most 2n+1 steps between two pixels visits only pixels within n steps of one of its ends; conversely along a path in the dilated image the sources of subsequent pixels are at most n + 1 + n steps apart. In `Props/Gap.lean`. |
| C130 | From C03 for both images: pixels are neighbours if and only if their images in the larger one are (with one pixel to spare no neighbour is across the edge), the order of the pixels is the same, and contiguous labels are determined by their order. In `Props/Padding.lean`. |
| C131 | From the formulas of C34, C38, C39 and C40 as averages over pairs of pixels: the admissible pairs of the large image are those of the small one, shifted. In `Props/Crop.lean`; mean and variance (the same values) in `Props/CropMean.lean`. |
| C132 | Layer by layer (C59): if a pixel has a label then so has the nearest pixel of the small image, hence a pixel of the small image without a label has no neighbour with a label outside it. In `Props/DilatePadding.lean`; for other kernels (which pixels get a label) every step of a walk is followed by the nearest pixel as far as it can, in `Props/DilatePaddingAny.lean`. |
| C133 | From C52 (a row is the mean over the pixels of the label) and C49, C51. In `Props/CenterPadding.lean`. |
| C134 | Model of the registered signatures (`Model/PythonDistance.lean`), with positional and named arguments as in C124; the values from C33. In `Props/PythonDistance.lean`. |
| C135 | The object of the default constructor, with arbitrary switches (`Model/EnsembleDefault.lean`); from C81. In `Props/EnsembleDefault.lean`. |
| C136 | A step of the copies is a step of the image, and every step of the image to a pixel lifts to a step to each of its copies; paths are lifted by induction, from C23 and C03. In `Props/Repeated.lean`. |
| C137 | The transform of the copies is a geometric sum times that of the sample; from C55. In `Props/StructureRepeated.lean`. |
| C138 | The values are functions of the displacement, from C34, C38, C39 and C40, in all cases; for the data and the result of an ensemble after any calls, from C84. In `Props/RoiIndependent.lean`. |
| C139 | From C34 and C38: indicators of values add up pair by pair. In `Props/Phases.lean`. |
| C140 | From C84: norms are not negative, and nothing is measured where they are zero. In `Props/Pooled.lean`. |
| C55, C64, C65 | the Python class `Structure`: index algebra of the slices, discrete Fourier transform over the complex numbers, Parseval. C55 is violated in 2D and for samples of integers; `C55_code` says what is stored at every frequency in 2D. |

Not expressible in this model: rounding of doubles outside `Ensemble`, `path` and the functions for centers, performance, the quality of the
random generator, compiler behaviour.

## Defects found

Each is a theorem about the model, with the concrete input.

| theorem | what the code does |
|---|---|
| `C12_violated` | without periodicity a diagonal offset on an image of shape `[1, n]` or `[n, 1]` wraps to another pixel |
| `C13_violated` | periodic, offset longer than the axis: `size_t` arithmetic wraps modulo 2^64, wrong neighbour |
| `C14_violated` | the default kernel in 3D has face neighbours only, `kernel::nearest(3)` also others |
| `C20_labels_reorder_duplicate` | the assertion accepts a duplicated label |
| `C25_violated` | `dilate`: the assertion allows labels up to `size() + 1`; a table of two or more numbers is read out of bounds |
| `C29_violated` | `path` of equal points: out-of-bounds read (Bresenham in 1D/2D), the pixel twice (`actual`) |
| `C30_violated` | `path` with `actual`/`full` from a point other than the origin: can loop forever (`C112_endless`: does so for every line that misses the pixel of the origin) |
| `C31_start_violated` | from (1, 0) to (3, 1) `actual`/`full` visit (3, 0), which the segment does not meet |
| `C30_long_violated` | from the origin to (4000000, 2000000) `actual`/`full` miss the end point and loop forever |
| `C32_long_violated`, `C56_long_violated` | crossings closer than 1e-6 are taken for one: on the way to (1226, 409) a pixel that the line does not meet is visited, one that it crosses is not |
| `C34/C35/C38/C39/C40_violated` | periodic images: masks are padded with 0, so masked pixels contribute across the boundary |
| `C39_negative` | negative total weights are not normalised |
| `C43_release` | without assertions different statistics are mixed |
| `C45_violated` | `L` of a one-pixel ROI is zero |
| `C47_violated` | `W2c` does not skip the pixels of the cluster itself |
| `C48_violated` | `W2c` in 3D: the third index uses the pad of the second axis, out of bounds |
| `C48_shift_violated` | the same, without an access out of bounds: values stored at the wrong place |
| `C67_default_violated` | with the default path mode L exceeds C2 of `clusters` (diagonal steps, face-connected clusters) |
| `C68_swap_violated` | periodic S2 with masks: exchanging the two images does not reverse the displacement (consequence of `C34_violated`) |
| `C66_violated` | `variance()` of heightheight without second moments (`variance=False`, the default in Python) is the root of a negative number |
| `C74_violated` | `variance()` of the mean of (35468881, 35468881, 35468881, 35468881, 35468882) is -0.3125 in `double` (the sums are exact): cancellation |
| `C77_violated` | Python: `S2`, `W2` (without masks), `W2c` with images of type `float32`, or of different types (integer weights, `float64` image), select the overload for integers: the image is truncated without a warning |
| `C86_violated` | Python: the same for the methods of `Ensemble`; and its default `variance = False` (`main.cpp:234`; `true` in C++) makes `variance()` of `heightheight` the root of a negative number |
| `C87_violated` | `L` in mode `full`: the result of the transposed image `[[1, 0], [1, 1]]` at displacement (1, 1) is 1/4, that of the image itself 0: where the line passes through a corner the step along the first axis is made first |
| `C89_violated` | `labels_reorder` of an image with negative labels, or of an empty image, with an order that lists its labels: out of bounds, also with assertions |
| `C80_violated` | Python: `ClusterLabeller.add_image` converts the image to 32-bit integers, `clusters` to 64-bit integers: a pixel of value 2^32 is background in one, not in the other; pixels of a value between -1 and 1 are background in both |
| `C81_structure_violated` | `Structure.add_sample`: the arrays are allocated before the shape is checked; after a refused first sample with an even and an odd size, all other samples are refused |
| `C58_violated` | periodic `dilate` of several labels depends on where the boundary is |
| `C62_violated` | the periodic `center` is not the mean position, even far from the boundary |
| `C63_violated` | random `dummy_circles` on images below 20 pixels: conversion of infinity |
| `C91_violated` | dilate with periodicity can cut off a part of a label: the copies in the padding are grown with their own order of conflicts and then overwrite the labels at the other edge, so that two labels are exchanged (`GooseEYE.h:322-368`). |
| `C92_violated` | dilate with periodicity can give a pixel the label of a pixel that is further away than another one (same cause as `C91_violated`). |
| `C94_violated` | L of a periodic image differs at opposite displacements: the path to (1, 2) passes (1, 1), and that to (-1, -2) passes (-1, -1), whereas reversing the first one needs (0, -1). With C2 both values are equal. |
| `C95_violated` | The attribute `size` of a labeller in Python is its shape, not its number of pixels: `main.cpp:46` binds `shape()`. |
| `C96_violated` | In Python labels that are not whole are truncated without notice: labels 1 and 3/2 are counted as one, 1/2 as background. |
| `C103_violated` | In Python `path` and `dummy_circles` take coordinates modulo 2^32 without notice: the path from 0 to 4294967298 ends at 2; `labels_centers` truncates labels that are not whole (`C103_fraction_violated`). |
| `C105_violated` | the documentation of `clusters` says pixels with the same value; the code joins all nonzero pixels |
| `C106_violated` | `path(x1, x0)` may visit other pixels than `path(x0, x1)`: ties are rounded away from the first point |
| `C107_long_violated` | mode `actual` may miss a pixel that even mode Bresenham visits: (1, 1, 0) on the way from the origin to (1416, 708, 707) |
| `C116_violated` | Ensemble_L.hpp follows the paths to all pixels of the edge of the ROI and counts every pixel on the way. A displacement that is not on the edge is reached along different paths, the more the larger the ROI: L at displacement (2, 1) differs between ROIs of 5 x 5 and 7 x 7 pixels (`C116_violated`). |
| `C119_violated` | `dilate` with one number of iterations: labels -1, 0, 1 pass the assertion and read before the start of the table |
| `C121_violated` | `repr` of a periodic labeller is that of a labeller that is not periodic: `ClusterLabeller2p` shows as `ClusterLabeller2` |
| `C124_violated` | In Python `dilate(f, 2)` depends on the type of `f`: for `int64` the 2 is taken for a kernel, and without assertions `f` is returned as it is. Iterations per label of type `int32` after an image of that type are also taken for a kernel; a kernel of one dimension that is not of type `int32` is taken for iterations per label, and a number after it for `periodic` (`C124_misread`, `C124_ignored`). |
| `C127_violated` | `clusters` converts labels of type `ptrdiff_t` to `int` without a check: of an image with `2 ^ 32` clusters one has the label of the background |
| `C128_violated` | `mean(f)` for an image of type `int` adds the pixels in `int`: undefined for two pixels of `2 ^ 30`, unlike `mean(f, fmask)` |
| ``dummy_circles` far outside` | a circle whose square does not fit in `int` is undefined behaviour, although no pixel of it is in the image (C110_violated). |
| ``labels_sizes` in a narrow type` | the sizes are stored in the type of the labels: a label with 256 pixels in an image of `unsigned char` has size 0 (C109_sizes_violated). `labels_rename` with a table of a narrower type, and `labels_sizes` with names of a wider type, confuse labels without failing the assertion (C109_rename_violated, C109_names_violated). |
| `C55_violated`, `C55_junk_violated`, `C55_integer_violated` | `Structure` in 2D: wrong products at frequencies of mixed sign, uninitialised entries; samples of integers are truncated |

## What is modelled, what is not

Modelled (every public function of the library):

* `GooseEYE.h`: `kernel::nearest`, `dummy_circles` (2 overloads), `dilate` (4 overloads), `labels_map`,
  `labels_rename`, `labels_prune`, `labels_reorder`, `labels_sizes` (2 overloads), `ClusterLabeller`
  (constructors, `reset`, `prune`, `add_image`, `add_points`, `add_sequence`, `labels`, `shape`, `size`, `repr`),
  `clusters`, `path`, `center`, `center_of_mass`, `labels_centers`, `labels_centers_of_mass`, `Ensemble`;
* `version.hpp`; `Ensemble*.hpp`, `GooseEYE.hpp`, `detail.hpp` (`atleast_3d_axis`, `atleast_3d_axes`, `half_shape`, `pad_width`, the three paths);
* `python/GooseEYE/__init__.py`: `Structure`, `ClusterLabeller`; `python/main.cpp`: the overloads of `S2`, `C2`,
  `W2`, `W2c`, `heightheight`, `L`, `dilate`, the class `Ensemble`; `clusters`, the labeller, the functions on labels,
  `path`, `dummy_circles` and the functions for centers.

Not modelled: `config.h` beyond the assertion macro and `QUOTE`, the texts of exceptions, `assert` of the C library (taken
to be off), the binding code of `python/main.cpp` except the selection
among the overloads of the functions for statistics (C77), of the methods of `Ensemble` (C86) and of `distance` (C134), and the conversions of `clusters`, the
labeller, the functions on labels, `path`, `dummy_circles`, the functions for centers and `dilate` (C80, C95, C96, C103, C124), narrow integer types (except in the functions on labels, C109), images of rank above 3 without assertions.

## Trusted base

* Lean's kernel (Lean 4.33.0). No `native_decide`, `bv_decide`, `sorry` or axioms of our own.
* Per theorem: the axioms in `AXIOMS.md`, which are among `propext`, `Classical.choice`, `Quot.sound`.
* The statements: `Props/` and `Spec/`, and the definitions of Mathlib that they use.
* The faithfulness of `Model/` to the code (each definition cites the lines it models), including the
  semantics assumed for external libraries.

## Tests against wrong programs

`tools/mutate.py` applies one edit to a definition of the model in a scratch copy, checks all modules that
depend on it (going on after errors) and records which theorems of the manifest no longer hold. Edits that
no theorem noticed led to stronger theorems (field `tightened`) or are equivalent programs (field `note`).

`tools/automutate.py` makes small mechanical edits of every line of the model (another operator, constant, branch,
argument or outcome) and lists those that no theorem notices; they are then examined by hand.

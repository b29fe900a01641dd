# Design of the Lean model of imgaug

## Layout

* `lean/Verif/Model/*.lean`: the model. Small total functions, each with a comment citing the file and lines of /repo it models.
* `lean/Verif/Spec/*.lean`: small specifications used to state properties (points in rectangles, cyclic order, pixel containing a point, ...).
* `lean/Verif/Proofs/*.lean`: helper lemmas.
* `lean/Verif/Props/*.lean`: the property theorems, each with an `example` showing that its hypotheses can be met.

## Modelling decisions

* **Numbers.** Coordinates, areas and pixel values that are floats in the code are rationals (exact arithmetic). Rounding of floats is not
  modelled. Statements that rest only on comparisons, min/max and copying carry over to finite floats as they are; statements that rest on
  +,-,*,/ are statements about the exact result. Integers are `Int`/`Nat`.
* **Arrays.** Images are functions from index to value together with a shape, or lists of rows, whichever is closer to the code that uses them.
* **Exceptions** are values (`Option`/`Except`).
* **Mutation** becomes returning the new value. Aliasing is modelled only where a property is about it.
* **Random numbers.** A generator is an abstract state machine: a state type, a draw function and an advance function, all arbitrary. Theorems
  hold for every such machine.
* **External code** (shapely, cv2, numpy sampling, multiprocessing queues) is a parameter of the model. What is assumed of it is a hypothesis in the
  theorem or stated in the trusted base below.
* **Concurrency** (multicore.py) is a transition system whose steps are the atomic operations on queues and semaphores; theorems range over all step
  sequences.

## Plan per property

| id | model | proof |
|----|-------|-------|
| C01-C08 | boxes as four rationals, methods of `BoundingBox(es)` function by function | point-set characterisations, linear arithmetic, list induction |
| C09-C11 | coordinates as rational pairs, list maps and filters | field arithmetic, list induction |
| C12-C16 | list programs | induction, counting |
| C17 | the insertion loop with an arbitrary validity predicate | loop invariant |
| C18-C20 | arrays as lists of rationals | linear arithmetic pointwise; C19 is false of the code (only the first 50/100 values are checked): negation plus partial |
| C21 | the drawing and argmax loops | pixel arithmetic; false outside the image: negation plus partial |
| C22, C23 | columns as optional lists, input forms as an inductive type | induction |
| C24-C27 | integer arithmetic modulo 2^31-1, id counter as state machine | `omega`, invariant; C27 false for interleaved calls: negation plus partial |
| C28-C30 | transition systems for loader/worker/consumer | inductive invariants over all step sequences; C29 false for chunksize > buffer: negation plus partial |
| C31-C35 | prefetcher state machine over an abstract generator; augment_batch_ control flow | refinement to the stream of drawn samples; C32/C33 false of the code: negation plus partial |
| C36-C42 | augmenters as functions on batches plus RNG state; trees as an inductive type | induction on lists and trees |
| C43-C45 | images as functions on index pairs | arithmetic, group laws, invariant of the swap loop |
| C46-C52 | integer and rational arithmetic of the size augmenters | `omega`, floor/ceil lemmas; C49/C52 false in edge cases: negation plus partial |
| C53-C54 | dtype table | case analysis over the finite table, order arithmetic over all values |
| C55, C56, C64 | index arithmetic | div/mod lemmas |
| C57, C58 | parameters as functions of the generator's output | case analysis, induction |
| C59 | order of outputs as list program | list induction |
| C60 | augmenter trees with generator identities | induction on trees |
| C61, C62 | list predicates | induction |
| C63 | save/restore with arbitrary body | case analysis |
| C65-C67 | components as exact numbers, every dtype of the finite table; the table cache of `invert` as a state that calls hand on | case analysis over dtypes, order arithmetic over all values |
| C68 | images as functions of row, column, channel; a batch as a fold over its samples | interval arithmetic, list induction |
| C69 | images and alphas as flat lists with shapes; every branch of `blend_alpha_` | pointwise arithmetic; false for uint8 alpha maps: negation plus partial |
| C70 | the choice of the branch per row, point or pixel | list arithmetic; false for keypoints outside of the image: negation plus partial |
| C71 | the matrices of `Affine` over the reals, the points it moves, the pixels that the warping takes | matrix arithmetic; false for skipped translations and maps of another aspect ratio: negation plus partial |
| C72 | the enlargement by `fit_output`, its shapes and its effect on coordinates | extreme corners of a linear map; false for coordinates and shapes: negation plus partial |
| C73 | the mask generators as functions of the drawn samples | list arithmetic; false for inverted gradients, sizes that are no multiples, hues: negation plus partial |
| C74 | the control flow of the resize functions around an arbitrary `cv2.resize` on one channel | case analysis; false for lists of mixed dtypes: negation plus partial |
| C75 | `KeepSizeByResize` around arbitrary children, over the model of C74 | list induction; false for maps with their own interpolation: negation plus partial |
| C76 | the dropout augmenters over C77 and C74, samples as arguments, `Dropout2d` with its row-wise shapes | list induction, counting; false for `(H,W)` images in arrays, images without channels, mixed methods, single numbers: negations |
| C77 | `multiply_elementwise` on arrays with two or three axes with numpy's broadcasting and promotion | case analysis over dtypes; false for integers of one kind (wrap-around) and `(H,W)` multipliers: negations plus partial |
| C78 | the recursion that wraps parameters in prefetchers, on trees of values | structural induction; false for random parameters that are not prefetchable: negation plus partial |
| C79 | the tables for quantisation with float32/float64 rounding modelled, the augmenters around arbitrary quantisers and colour conversions | error bounds for floats, no ties as N is no multiple of 256; false for 255 bins, borders of bins, thin images: negations plus partial |
| C80 | the tables of the contrast functions over the real numbers, with the truncation to uint8; the wrapper augmenter | real analysis (powers, exponentials, logarithms), monotonicity of truncation; false for images without channels: negation |
| C81 | the tables of `equalize` and `autocontrast` from histograms, their application to images, which arrays are changed in-place, the stretching with float64 roundings; PIL's two algorithms as a specification | sums over histograms, induction over PIL's loops, refinement of both to percentiles; error bounds and integrality for float64; false parts: negations |
| C82 | the conversion of images between colour spaces with `cv2.cvtColor` as a parameter, which memory it overwrites, and `ChangeColorspace` on top of the model of `blend_alpha` | case analysis on pairs of colour spaces, reuse of C69; false for images that own their memory: negation plus partial |
| C83 | `WithColorspace`, `WithBrightnessChannels`, `WithHueAndSaturation` and `AddToHueAndSaturation` around arbitrary children, with the float32 arithmetic of hues and the lookup tables | complete case analysis of all bytes for float32, modular arithmetic, induction over batches; false for unchanged hues, values out of range, empty batches, resized brightness: negations plus partial |
| C84 | `replace_segments_` with both implementations (the numba loops and the numpy masks), `segment_voronoi`, `Voronoi` and `Superpixels` with SLIC, the KDTree and resizing as parameters | loop invariants for the sums and counters and for the masks of segments; means of lists |
| C85 | the samplers of points as a recursive type with their samples as inputs | induction over samplers; closed form of the grid's coordinates |
| C86 | boolean mask assignment as a list function, masks and replacements as inputs of any size | induction over the components; counting of marked components before a component |
| C87 | `cv2.filter2D` as a sum of products with mirrored borders, the dtypes in which it works, and the matrices of the augmenters | finite sums, modular arithmetic for the mirrored borders; false for directions below zero: negation plus partial |
| C88 | the blurs with the Gaussian, bilateral and mean shift filters and the rotation of matrices as parameters, the mean and median filters concretely | finite sums, sorted lists, roundings between bounds; false for the growth of the kernel at 5: negation plus partial |
| C89 | aggregation, sigmoid (over the reals), low resolution sizes and the distance cache of FrequencyNoise as a state; random numbers, OpenSimplex and the Fourier transform as parameters | induction over draws and over the history of sizes; false for the cache: negations plus partial |
| C90 | tables of bit generators, generators and RNGs as a state machine; the random stream as a parameter; methods that draw are functions on states that read the cached number only if there is one | invariants over histories of operations, bisimulation of equal states; false for cached numbers and deepcopy: negations plus partial |
| C91 | the corner points as rationals, their order, both loops with a sufficient number of steps, the matrix as the unique solution of eight linear equations (parameter), sizes of all augmentables | loops by induction on the number of steps; uniqueness of solutions, affine functions on rectangles; false for elongated images, one column, small maps, turned keypoints, four channels, scale and modes: negations plus partial |
| C92 | workers, the thread between the queues, the user and the feeder threads of the queues as a state machine with a step relation | invariants over all reachable states, a decreasing bound of steps, progress; false for threads with slow feeders and for terminate with a full queue: negations plus partial |
| C93 | extract_from_image with rounding, clipping, padding, numpy's slices and Python's comparison of tuples | window on an infinite plane as specification; false next to the edges, with pad_max and without padding: negations plus partial |
| C94 | the columns of a batch, functions as parameters (the one for boxes with effects on its arguments), conversion to keypoints and back, repair of polygons | for all functions; false for invalid or short polygons, results that are too short and copied boxes: negations plus partial |
| C95 | shift map generator with stream positions and chunks; `_map_coordinates` per channel with the sampler of the library as parameter; dtype and backend tables; keypoint neighbourhoods; the median loop as an inductive relation over the reals | induction over chunks and channel groups; invariant of the median loop (rectangle that holds the points); point symmetry for interior keypoints; case analysis over all dtypes; negations by witnesses |
| C96 | `Model/Intensity.lean`: the applier with its lists of indices, the loops over images and channels, `cv2.equalizeHist` exactly, the tiles of cv2's CLAHE; conversion and CLAHE are parameters | Refinement: scattering values by lists of indices is a map over the images; induction over channels with the parameter index; counting lemma for the cumulated histogram. The size of the tiles in pixels is disproved by a witness. |
| C97 | `Model/PoolAug.lean`: kernel sizes, shapes after pooling, resizing to the old size (with `Model/Resize.lean`), projection of annotations, place of the content by the paddings of `Model/Pooling.lean` | Arithmetic of ceiling division with a uniqueness lemma; the distance between scaled coordinates and the content is bounded by half a pooled pixel. Exact places, data types with keep_size and unchanged arrays are disproved by witnesses. |
| C98 | `normalize`, `unnormalize`, the foreground loop with the augmenter's state, and the background branch as a state machine over events "pool takes a batch" and "pool hands back a batch". | Induction over the list for the foreground; an invariant of the dictionary of remembered batches for the background. |
| C99 | `normalize` and `invert` over a tree of Python values, using the form detection of C11's model, with the constructors of Polygon and LineString. | Case analysis over the detected form; each form by induction over the lists. |
| C100 | the argument parsers of the three classes, the recursive checks and negations, the sampling and the limits on cropping | case analysis on the argument, a lemma that negation and validation scale the allowed values, induction over lists |
| C101 | the parser of `position`, the drawing of positions and the loops over images, maps and keypoints | case analysis on the argument, floor bounds for the shares, induction over the rows |
| C102 | inputs as nested values with arrays as leaves, both directions of the conversion for either class, on the constructors of C18 | case analysis on the recognised type, pointwise induction over the lists |
| C103 | Model/AffineArgs.lean: the constructor as a partial function from arguments to parameters, the draws as functions of abstract samplers | Case analysis of the arguments, acceptance as an equivalence, every drawn value shown to be one the argument stands for; the link to the matrices by C71 |
| C104 | Model/Piecewise.lean: constructor, draws, grid of points, the treatment of images, maps and keypoints with the estimated transformation and the interpolation as parameters | Weighted sums bound the transformation by the points; the first maximum of the distance map shown to be a pixel that shows the keypoint; case analysis of the arguments |
| C105 | Model/ResizeArgs.lean: constructor, draws and the treatment of batches on top of the models of C52, C74 and C75 | Case analysis of the arguments, acceptance as an equivalence; every drawn value is one for which the argument stands; the batch theorem from C52, C74 and C09 |
| C106 | the table, the interpolation, the loop over images with the change of colour spaces, and the augmenter | monotone sequences interpolated linearly are monotone, the table is checked row by row by the kernel; the loop by mapM |
| C107 | Jigsaw.__init__, _draw_samples, _augment_batch_ on rows of a batch, using the models of padding to multiples, of cropping and padding and of apply_jigsaw; resizing of maps is a parameter | composition of the theorems of C45, C47, C48 and C51; induction over the batch |
| C108 | `Add`, `Multiply`, `Invert` with constructors, sampling and loops over images | pointwise lemmas for the scalar operations (C66, C67, C65), row arithmetic of the drawn matrix, invariant of the cache |
| C109 | Model/Polar | forward and inverse maps are composed; the error of the angle is bounded by the chord of the arc; boxes by minima and maxima of moved points |
| C110 | Affine._augment_batch_ with the samples of C103 and the matrices of C71; choice of backend by dtype and order; conversions of dtypes before and after; fill values per channel; libraries as parameters (values of the dtype, exact moves of pixels, copies for order 0) | a common description of both backends (what is called, what is done to components before and after), from which validity, copying and moving follow; near-identity matrices cannot move a pixel onto another one in images of at most 1000 pixels; columns by induction |
| C111 | the matrices for arrays and keypoints, translations by pixels or fractions, and when nothing is changed | algebra of the affine maps; the deviation of keypoints from the content is computed exactly |
| C112 | the loops with their counters, as functions on the state that also say whether an exception was raised | induction over the objects with the counter generalised |
| C113 | arguments, samples, colouring and blending of Canny; cv2.Canny and the float sum of the grey value are parameters with assumptions | membership of samples in the arguments, componentwise description of coloured images, C69 for the blending, induction over the images of the batch |
| C114 | The parameters that `RandAugment` makes from its level, from the operators of parameters.py | element-wise relation between samples of the level and of the derived parameter, through each operator |
| C115 | `Polygon.clip_out_of_image` with its helpers; shapely's intersection as a parameter | invariant of the search for the closest point; rotations of lists keep the shoelace sum |
| C116 | `Keypoint.draw_on_image`, `BoundingBox.draw_box_on_image` with the array of the caller, and the loops over several; rectangles of skimage are written out | the loop over the thickness by induction with frames that don't overlap; lists by induction; witnesses for even sizes, size 1 at the border, values above 255 and copy=False |
| C117 | the matrix (with the steps that the code leaves out), its inverse, PIL's lookup of nearest neighbours, samples and batches; PIL's conversion of colors is a parameter | matrices with last row (0, 0, 1), positive determinants, inverse; case analysis |
| C118 | both classes' drawing functions on top of the models of resizing and blending; matplotlib's color maps and cv2 are parameters | nearest neighbour lemma for shared rows and columns, case analysis on squeezed shapes |
| C119 | The comparisons with the subdivision of Model/Coords.lean; the distance of shapely is the distance of a point and a set in the plane | Subdividing keeps the set of points (induction over the points, edges as images of intervals); every point of an edge has a compared point within half a step; two combs of rows and columns as counterexample |
| C120 | pad with its branches for cv2 and numpy, the borders of both written out for the four modes, np.pad a parameter for the others | Case analysis over branches against one description of the border; closed forms of the mirrored indices against their definition by periods |
| C121 | `Model/CropBatch.lean`: the batch with its columns, the drawing of croppings, paddings, modes and values per row, the loops over the columns, the collection of the images, `pad_mode`; padding as in `Model/Pad.lean`, amounts as in `Model/CropArgs.lean` | One plan (rectangle and paddings) per row is derived from the drawn amounts; each kind of column is shown to follow it (`rows_follow`, `as_requested`), using the lemmas for padding (C120), arguments (C100) and sizes |
| C122 | `Model/Weather.lean`: the noise of snow and rain from its size to the blending, the mask and the intensity of clouds, the change of lightness; noise, resizing, blurring, powers and colour conversion are parameters | Clipping and truncation to `uint8` is shown to be monotone and to keep bytes; the blends follow from that (`snow_never_darkens`, `rain_towards_colour`, `clouds_mix`, `snowy_landscape`). Witnesses show that float images are truncated by snow and leave the range from 0 to 1 with clouds |
| C123 | compress_jpeg and JpegCompression over a codec as parameter; quantize_kmeans over k-means, the random numbers of OpenCV and the global random numbers as state machines | case analysis; monotony of rounding; colours counted by the labels; the state after the call as a function of the state before |
| C124 | the checks, the conversion to three channels and back, the temporary seed, the batch; the loop of the glass blur with views and Python indices; corruption functions, the gaussian filter and randint are parameters | case analysis; induction over the batch with the state; an invariant of the loop: copying a pixel to a position inside keeps it |
| C125 | the whole function over the filters of OpenCV and the changes of colourspace as parameters; the counting filter with mirrored borders is modelled itself | case analysis; the filter with ones as a count of pixels; monotony of truncation |
| C126 | Isect: the intersection of segments and lines, the naive searches, the sweep line as a state machine over an arbitrary tree, the assignment to edges and the oversampling | an invariant of the state for all numbers of steps, algebra for the intersection, induction over the lists of points |
| C127 | Model/Build: the constructors with all forms of arguments; objects are known by being augmenters and by their elements; generators can be run through once. The number of children applied is that of Model/Meta. | case analysis of the arguments; the number per row from the count of ones in a shuffled row; generators by a separate theorem that shows the loss |
| C128 | cells, columns, grid, borders, resizing with padding, values shown, numbers described, state of the saver | specifications of stacking and padding of pictures by induction; rows have the heights of the images, so that resizing does not change them; invariant over batches for the files |
| C129 | the arguments size and extract, the functions with the files and resizing as parameters, `extract_from_image` as modelled for C93 | the part of the image is a window by the theorem on `extract_from_image`; sizes by cases; witnesses for the disagreements |
| C130 | the constructor with its table, the gradients, `noise2d` on real numbers with the exact constants | the table by induction over the loop (swapping keeps the multiset); geometry of the lattice in coordinates along its axes, where the squared distance is 2(u²+uv+v²); polynomial inequalities for the vertices left out; in coordinates of the triangle the weights sum up to at most 4/3, which gives the bound; continuity as a locally finite sum |
| C131 | `drawLines`, `drawLineString`, `drawPolygon`, `drawMask` over abstract pixels of `skimage.draw` | pixelwise case analysis of the heatmap (loop and dilation) and of the blending; induction over points |
| C132 | `drawLabel`, `colors`, `area`, `place` over an abstract text renderer | linear arithmetic over rounded corners; case analysis of colors |
| C133 | shape checks, PIL's blend of a degenerate image and the image, the loops over batches; gray values, mean, smoothing and filters are parameters | case analysis on the three branches of the blend |
| C134 | rounded boxes, masks, numpy's broadcasting of the mask, heatmaps of lines; skimage's pixels are parameters | the window theorem of C93, and exactness of the heatmap of lines from C131 |
| C135 | the arguments on top of those of C103, names and numbers with numpy's conversion of mixed lists, dtypes of samples; the matrices are those of C111 | case distinction over forms of arguments |
| C136 | the constructors, the children as functions on hue and saturation with products in float32, inside of WithHueAndSaturation of C83 | the theorem of C83 about children, bounds of float32 rounding |
| C137 | a memory of objects with addresses; conversions, copies, the frame of augment_batch_ and the branches of blending augmenters as functions on it; augmenters are any functions that only write to their own objects | copies only add objects; what existed before is a frame that the augmenter cannot reach |
| C138 | the constructors as functions that give the parameters to be drawn from, and the drawing of a mask from the noise of C89 | the theorems of C89 about aggregation and sigmoid, composed |
| C139 | the conversion of the argument, the three loops as a fold over their indices, assignments to parts of the grid | a fold of assignments shows the last one that covers a pixel; cells do not overlap |
| C140 | the three implementations of the sum on arrays with two or three axes, with numpy's broadcasting and promotion; the augmenter with samples as arguments | case analysis over dtypes as for C66 and C77, list induction for batches; false for large values, empty images and values without channel axis: negations plus partial |
| C141 | the tree as a value, the searches as recursion, the iteration as its loop with stack and a number of rounds that is proved to suffice, insertion as its loop with the way back to the root; removal is left out | tree induction with the items in order as a list, predecessor and backward iteration by mirroring the tree, an invariant of the rounds of the insertion |

## Trusted base

* Lean's kernel and the axioms `propext`, `Classical.choice`, `Quot.sound` (no others; `vcheck` prints the axioms).
* The reading of the Python code recorded in the comments of the model; nothing links the model to the code mechanically.
* The behaviour of numpy, OpenCV, shapely, scipy and multiprocessing as described in the headers of the model files, where it is a
  definition (e.g. rounding half to even, wrap-around of `astype`, `cv2` saturation), or in hypotheses of the theorems where it is a
  parameter (e.g. `InterOk` for shapely's intersections). The headers of the model files list the simplifications.

## What is modelled

| model | code |
|-------|------|
| Boxes, Coords, KpImage | augmentables/bbs.py, kps.py, polys.py, lines.py, utils.py: coordinates, projection, clipping, interpolation, conversion |
| Recover | augmentables/polys.py: `_ConcavePolygonRecoverer` |
| Lines | augmentables/lines.py: position relative to the image, clipping |
| Heatmaps | augmentables/heatmaps.py, segmaps.py |
| Batch, Normalize, Augment | augmentables/batches.py, normalization.py (images, keypoints, boxes), `Augmenter.augment` |
| Prefetch, WrapPrefetch, Params, Handle | parameters.py |
| Pool, Imap, Background, Loader | multicore.py |
| Meta, Tree, Channels, AssertShape | augmenters/meta.py |
| Flip, Rot90, Jigsaw | augmenters/flip.py, geometric.py |
| Size, Size2, KeepSize | augmenters/size.py |
| Invert, AddMul, MulElem, Dropout, Cutout | augmenters/arithmetic.py (and `FromLowerResolution` of parameters.py) |
| Blend, BlendAug, MaskGen | augmenters/blend.py |
| Affine | augmenters/geometric.py (matrix construction, `Affine`, `fit_output`) |
| Contrast | augmenters/contrast.py (the four curves and their augmenters) |
| Equalize | augmenters/pillike.py (`equalize`, `equalize_`, `autocontrast`, `Equalize`) |
| Color, Hue | augmenters/color.py (`change_colorspace_`, `change_colorspaces_`, `WithColorspace`, `WithBrightnessChannels`, `WithHueAndSaturation`, `AddToHueAndSaturation`, `ChangeColorspace`, `Grayscale`) |
| Segments, Points | augmenters/segmentation.py |
| Replace | replacement of components, salt and pepper noise in augmenters/arithmetic.py |
| Conv | augmenters/convolutional.py |
| Blur | augmenters/blur.py |
| Noise | parameters.py: Power, IterativeNoiseAggregator, Sigmoid, SimplexNoise, FrequencyNoise |
| Rng | random.py (numpy from 1.17 on; without `RandomState`s and the creation of the global RNG) |
| Perspective | augmenters/geometric.py: PerspectiveTransform (without the repair of polygons; cv2's solver and warp as parameters) |
| Float, Quantize | augmenters/color.py (quantisation); binary floating point numbers |
| Dtypes, Pooling, Resize, Grid, Lut, TempSeed | dtypes.py, imgaug.py, random.py |
| Extract | augmentables/bbs.py: extract_from_image |
| Lambda | augmenters/meta.py: Lambda, AssertLambda, filters of annotations; augmentables/utils.py: conversion to keypoints |
| ElasticTransformation | geometric.py 4119-4972, kps.py 18-69; the blurs, the resampling of one channel and the resizing of maps are parameters; convergence of the median loop is not proved |
| Intensity (CLAHE, histogram equalization) | contrast.py 772-1559; `cv2.equalizeHist` in exact arithmetic, CLAHE of cv2 and conversions are parameters |
| PoolAug (pooling augmenters) | pooling.py 25-686; the pooling function is a parameter whose sizes are proved of `imgaug.pool`; maps are given by their sizes |
| augment_batches | meta.py 327-528 and the conversions it uses (batches.py 170-311, 488-620). Not modelled: deep copies as objects, warnings; the pool is any process that hands back batches it was given. |
| Normalisation of polygons and line strings | normalization.py 354-470, 777-905 with the constructors' treatment of points; labels, warnings and float32 rounding are not modelled |
| CropArgs | size.py `_handle_px_and_percent_args`, `_handle_px_arg`, `_handle_percent_arg`, `CropAndPad._draw_samples`, constructors of `Pad` and `Crop`; parameters are abstract with the values they may yield, pad mode and colour left out |
| Positions | size.py `_handle_position_parameter`, `PadToFixedSize` and `CropToFixedSize` on whole batches; parameters are abstract with the values they may yield |
| NormMaps | conversion of heatmaps and segmentation maps to the standard form and back (C102) |
| AffineArgs | `Affine.__init__`, `_handle_*_arg`, `_draw_samples` |
| Piecewise | `PiecewiseAffine` except for polygons and the repair of transformations that cannot be estimated |
| ResizeArgs | `Resize` |
| Temperature | colour temperatures (color.py 398-973, 3019-3090) |
| JigsawBatch | the augmenter `Jigsaw` on batches: padding, shuffling, maps and keypoints (C107) |
| ScalarBatch | `Add`, `Multiply` and `Invert` on batches (C108) |
| Polar | `WithPolarWarping` on batches: sizes, dtypes, maps, points, boxes as polygons; `cv2.warpPolar` and `cv2.cartToPolar` as parameters |
| AffineBatch | `Affine` on batches: backends, dtypes, images, maps and annotations of a row |
| AffineCv2 | `AffineCv2`: where pixels, keypoints and maps are moved |
| PointArrays | polygons and line strings as arrays of points and as keypoints |
| Canny | `Canny` and `RandomColorsBinaryImageColorizer`, edges.py 63-458 |
| RandAugment | the parameters of `RandAugment`, collections.py 181-335 |
| PolyClip | clipping of polygons, polys.py 343-441, 550-652, 1751-1783 |
| Draw | kps.py 314-412, 767-773; bbs.py 801-899, 1701-1752 (without labels) |
| PilAffine | `pillike.warp_affine` and `pillike.Affine` |
| DrawMaps | heatmaps.py 129-252, segmaps.py 210-378 |
| Similar | almost_equals of keypoints, boxes, line strings and polygons; distances to line strings |
| Pad | `pad`, `pad_to_aspect_ratio`, `pad_to_multiples_of` (size.py 363-710) |
| CropBatch | `CropAndPad._augment_batch_` on whole batches, with its samples, maps, annotations and `pad_mode`; resizing and numpy's padding are parameters |
| Weather | Drawing of snow, rain, clouds and snowy landscapes for given samples; noise, resizing, blurring, gamma contrast, powers and colour conversion are parameters |
| Compress | compress_jpeg, JpegCompression, quantize_kmeans, the number of colours of KMeansColorQuantization; the codec and cv2.kmeans are parameters |
| Corrupt | _call_imgcorrupt_func, the batch method of the augmenters, the glass blur; the functions of imagecorruptions, skimage and numpy's random numbers are parameters; get_corruption_names and the monkeypatch of clipped_zoom are not modelled |
| Cartoon | stylize_cartoon and Cartoon; median, mean shift, Canny, Laplace, percentile and changes of the colourspace are parameters |
| Isect | Crossing segments, the sweep line and the points added to outlines, poly_point_isect_py2py3.py 135-768, polys.py 2411-2575 and imgaug.py 721-785. |
| Build | constructors of `Augmenter`, `Sequential`, `SomeOf`, `OneOf`, `Sometimes`, `WithChannels`, `handle_children_list`; not the treatment of the probability of `Sometimes` (Model/Handle) |
| Debug | `debug.py`: cells, columns and grid of `draw_debug_image`, conversion of values, descriptions of annotations, `SaveDebugImageEveryNBatches` |
| Quokka | `data.py`: example image, maps and annotations |
| Simplex | `external/opensimplex.py`: constructor and `noise2d` (not three and four axes) |
| DrawLines | lines.py 749-1213, polys.py 729-904 (drawing) |
| Label | bbs.py 729-799, 949-961, 2156-2275, imgaug.py 842-875 |
| Enhance | `enhance_*`, `filter_*` and their augmenters, pillike.py 79-91, 533-745 and 1507-1825 |
| ExtractShapes | `extract_from_image` of polygons and line strings and `change_first_point_by_coords`, polys.py 909-1010 and lines.py 1215-1308 |
| Cv2Args | `AffineCv2.__init__`, `_draw_samples` and the settings given to `cv2.warpAffine`, geometric.py 2500-2735, 2778-2802, 2896-2946 |
| MulHue | `MultiplyHueAndSaturation` and its subclasses, color.py 1874-1967, 2028-2039, 2097-2108, 2180-2194 |
| BatchCopy | `Batch.to_batch_in_augmentation`, `fill_from_batch_in_augmentation_`, `_BatchInAugmentation.to_batch`, `deepcopy`, batches.py 350-368, 433-486, 1031-1088; `copy_augmentables`, `deepcopy_fast`, utils.py 10-38; the conversions in `augment_batch_`, meta.py 598-600, 669-672; `_generate_branch_outputs`, blend.py 408-436 |
| NoiseMask | the constructors of `BlendAlphaSimplexNoise` and `BlendAlphaFrequencyNoise`, blend.py 1348-1388, 1598-1640; `Sigmoid.create_for_noise`, parameters.py 3144-3166; `handle_probability_param` of booleans and numbers, 431-478 |
| AugGrid | `Augmenter.draw_grid`, meta.py 2158-2205 |
| AddElem | `add_elementwise`, `AddElementwise`, arithmetic.py 236-413 and 1999-2020 |
| OrdTree | `_ABCTree`, `RBTree.insert`, poly_point_isect_py2py3.py 791-1229 |

## What is not modelled

Drawing of polygons, lines and labels onto images, image files, quokka examples, validation plots, the colour conversions of cv2, weather,
artistic and most PIL-like augmenters, cv2/scipy warps themselves, float rounding (except in Float, Quantize, Equalize, Hue), timing, memory use, pickling.

## Wrong programs

`seeded/LOG.jsonl` has one line per edit of the model. `theorems_failed` begins with the theorems in which Lean reported an error. After them come theorems of the
modules that were rebuilt whose text mentions one of these by name; they were found by a search in the text, not by Lean, so that this part is an estimate and
can name a theorem that does not depend on the failed one. Only the modules about the edited definition were rebuilt. Edits that break no claim have a note.

## Findings

Properties that the code does not have are proved as negations with a concrete witness, beside the part that holds (theorems ending in
`_partial`). The notes in MANIFEST.json name the witnesses for each property; they include: unchecked heatmap values beyond the first 50 (C19),
stale samples after `ia.seed` (C32), misaligned columns in legacy augmenters (C33), equal seeds of workers (C25), duplicate batch ids (C27), a
deadlock of `imap_batches` with a chunk size above the buffer size (C29), children in lists of lists that `find_augmenters` and `seed_` skip
(C40, C60), jigsaw destinations with several steps that are no permutation of neighbours (C45), empty images after `Resize` with
keep-aspect-ratio (C52), overflows of dtype conversions (C53), wrapped parameters (C57), inverted, added and multiplied values that leave the
documented range (C65-C67), doubly rounded alpha maps (C69), moved keypoints outside of the image (C70), translations that `Affine` leaves out (C71), coordinates that
`fit_output` displaces (C72), inverted gradients outside of the requested range and checkerboards that start with 0 (C73), lists of images
that change their dtype when resized (C74), segmentation maps scaled back while their images are not (C75),
`Dropout2d` raising for two-dimensional images with annotations (C76), products of integers that wrap around (C77), distributions whose random
sub-parameters are frozen by prefetching (C78), quantisation into 255 bins giving black images (C79), `equalize`
overwriting small inputs (C81), an `alpha` that `ChangeColorspace` ignores for lists of images (C82), hues that `WithHueAndSaturation` decreases
without children (C83), flags given to the wrong segments if an id has no pixel (C84), limits of points below zero that drop one point (C85),
masks of arbitrary parameters for which `ReplaceElementwise` raises (C86), directions of edges below zero that are rounded the other way (C87), a smaller Gaussian kernel for a
larger sigma (C88), frequency noise that depends on the sizes drawn before (C89),
copies of RNGs that lose a cached number and hence draw other numbers than the original (C90), perspective transformations that turn one point into two corners, misalign small heatmaps or move keypoints beside
their pixels (C91), a `BatchLoader` that loses batches of threads and whose `terminate` may wait forever (C92),
extracting the pixels of boxes, which loses the last row and column, shifts pixels with `pad_max` and wraps around without padding (C93),
a `Lambda` without functions that changes or rejects polygons and leaves boxes with exchanged corners (C94),
elastic transformations that share random numbers between the images of a batch, fill every fourth channel with zero, mean two things by `reflect`, and move keypoints that nothing displaces (C95),
`tile_grid_size_px` of `CLAHE` and `AllChannelsCLAHE` is documented as the size of the neighbourhoods in pixels, but cv2 takes it as the number of tiles per axis: larger values give smaller neighbourhoods (C96),
without `keep_size` keypoints are scaled with the size while the image is padded before pooling, so that they may end in a neighbouring block; with `keep_size` (the default) int32, uint32 and float128 images raise although they can be pooled; arrays of heatmaps are resized although documented as unchanged (C97),
lists of line strings raise in `augment_batches` although lists of all other annotations are accepted, and lists are judged by their first element only (C98),
line strings given by keypoints and polygons given by tuples of points raise, closed polygons lose a point, arrays raise on the way back if an image has no objects or objects differ in their number of points (C99),
`CropAndPad` with `sample_independently=False` draws four different amounts from a parameter, accepts in a 4-tuple for `percent` numbers that it refuses alone, and `Crop` pads if a parameter yields negative values (C100),
`PadToFixedSize` accepts parameters for `position` that yield values outside of [0, 1], and then fails (C101),
a list that begins with None is dropped silently (none_first_drops), mixed dtypes in a list lose class ids (mixed_dtypes_lose_ids), an array of no images comes back as list (no_images_list), heatmap values outside [0,1] are clipped (large_values_clipped); float64 and float16 heatmaps are recognised and then rejected (other_floats_rejected) (C102),
a pair or list for the shear gives both axes the same value though two are documented, the orders 2 and 4 are rejected for cv2 though they are documented, a list for `cval` gives three values though one is documented (C103),
negative-only displacements of PiecewiseAffine are ignored, the last row and column of its grid always move by a pixel, all images of a batch get the same scale, keypoints lose their subpixel position (C104),
unknown keys in the dictionary of Resize are ignored beside known ones, keep-aspect-ratio may empty an image (C105),
only the temperature of the first image is checked, other ones out of range are accepted; images without pixels may be rejected or get another number of channels and dtype (C106),
images with sides of at most 32767 whose polar image is higher fail on the way back, and polygons whose label looks like the internal mark come back as bounding boxes (C109),
fill values depend on the backend (0.6 is 0 with cv2, 1 with skimage) and images of more than three channels use only the first of three fill values (C110),
keypoints are treated like indices of pixels, so all but translations move them away from the content (by a pixel in each direction when turned upside down); `translate_percent=1` moves by one pixel; maps of another size are moved by their own pixels (C111),
`fill_from_xy_array_` has changed the first objects when it raises an exception for a wrong number of points (C112),
crops of `RandAugment` that have one level for all images of a batch (C114),
clipped polygons that lose a point, and clipping that fails for polygons which also touch the image plane apart from their area (C115),
keypoints with even sizes are drawn one pixel too large, keypoints of size 1 in the last half pixel of the image are reported as outside of it, and boxes with an alpha below 0.99 change values above 255 anywhere and ignore copy=False (C116),
C117 (translations are applied before rotation and shear, so that a positive translation may move content to the left; the augmenter fails for images with one channel) (C117),
C118 (heatmaps with one column are drawn with one row, with a color map drawing them raises an exception, and images with one column grow to squares) (C118),
almost_equals of keypoints and boxes compares each axis with max_distance instead of the documented euclidean distance, a single number is accepted as coordinates, BoundingBox.almost_equals fails for coordinates, line strings exactly at max_distance are unequal while keypoints are equal, LineString.contains and compute_distance only see the points of the line string, not its edges (C119),
values that do not match the channels are an error, ignored, replaced by 0 or used for sides, depending on the dtype (C120),
snow and rain turn float images into `uint8`, and clouds on float images between 0 and 1 leave that range (C122),
C123: the lowest JPEG quality, 1, is used for no accepted compression (100 means 2); KMeansColorQuantization accepts more than 256 colours and then fails for every image (C123),
C124: the glass blur means to exchange pixels ("swap") but copies one over the other, because both sides of the assignment are views, so pixels get lost; a severity of 0 is accepted and means 5 (C124),
C125: Cartoon accepts an edge prevalence of 0, which is an error for every image; blobs with exactly 3 edge pixels in 5x5 pixels stay, although the comment says that they are suppressed (C125),
Segments on the same line have common points but no intersection is found. Crossings get lost in the oversampling once the count of points exceeds 75, so that for outlines with 75 points all but the first crossing are ignored, although without oversampling all are kept. (C126),
a generator of augmenters is accepted as children of Sequential, SomeOf, OneOf, WithChannels and others, but they have no children afterwards, because the check of the types has run through it (C127),
debug images show signed integer images all black (the smallest value of the dtype is added instead of subtracted), and fail for batches with images whose annotations have no items at all (C128),
the example keypoints, boxes and polygons have another image size than the example image if the part does not begin and end at whole pixels or is empty, and `quokka_segmentation_map` rejects the size of an image with three channels that the other functions accept (C129),
line strings with an opacity between 0.0001 and 0.01 are not drawn; corners of antialiased line strings can be weaker than the lines; drawing lines on a shape raises an exception; `LineString.draw_on_image` fails on images with two axes, and for numbers as color on images with several channels; `Polygon.draw_on_image` fails on images with two axes unless `color_face` is a number (C131),
labels cannot be drawn on images with two axes, and hide part of thick frames (C132),
`Polygon.extract_from_image` fails for polygons in the image whose right or bottom side is rounded to that of the image, and returns foreign pixels for polygons outside of the image whose box overlaps it; `LineString.extract_from_image` cuts off lines of even thickness at odd coordinates and rounds float images to bytes (C134),
`AffineCv2` accepts lists of names and numbers but raises an exception when a number is drawn from them; fill values are cut to integers; `translate_percent=[0, 1]` translates by pixels while `(0, 1)` translates by fractions; orders have other numbers than those of `Affine` (C135),
`MultiplyHue` multiplies a hue that was cut to an integer before (10 times 7 is 63), and `MultiplySaturation` changes hues, too (C136),
probabilities of a sigmoid below 0.01 count as 0 in the masks of `BlendAlphaSimplexNoise` and `BlendAlphaFrequencyNoise`, and negative ones are accepted (C138),
`Augmenter.draw_grid` replaces images with two axes in the list that is passed to it (C139),
`add_elementwise` checks only the first 100 values, so that later ones can make sums wrap around, fails for empty images that are not uint8, and adds 64 bit integers without channel axis along the wrong axes or fails (C140).

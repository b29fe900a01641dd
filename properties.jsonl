{"id": "C01", "title": "Bounding boxes are always well formed after construction", "statement": "For any four coordinates, BoundingBox(x1,y1,x2,y2) has x1<=x2 and y1<=y2, spans exactly the axis-aligned rectangle given by the two corners in whatever order they were passed, and constructing it from its own coordinates or from swapped corners gives the same box.", "quantifier": "all coordinate quadruples (any sign, any order, degenerate boxes included)", "why_tests_cant": "the coordinate space is infinite and the order of corners is data dependent", "anchors": ["imgaug/augmentables/bbs.py: BoundingBox.__init__"]}
{"id": "C02", "title": "BoundingBox.intersection is the set intersection", "statement": "For well-formed boxes a, b: a point lies in a.intersection(b) exactly if it lies in both a and b; the result is None exactly if the two closed rectangles share no point; the operation is commutative, idempotent and associative.", "quantifier": "all pairs (triples for associativity) of boxes and all points of the plane", "why_tests_cant": "an equality of infinite point sets for all pairs", "anchors": ["imgaug/augmentables/bbs.py: BoundingBox.intersection, contains"]}
{"id": "C03", "title": "BoundingBox.union is the smallest enclosing box", "statement": "a.union(b) contains a and b, and is contained in every box that contains both; it is commutative, associative and idempotent.", "quantifier": "all pairs of boxes and all enclosing boxes", "why_tests_cant": "minimality quantifies over every enclosing box", "anchors": ["imgaug/augmentables/bbs.py: BoundingBox.union"]}
{"id": "C04", "title": "IoU is a symmetric similarity in [0,1]", "statement": "a.iou(b)=b.iou(a), 0<=iou<=1, iou of a box of positive area with itself is 1, for boxes of positive area iou=1 only if they are the same box, and iou=0 exactly if the overlap area is 0.", "quantifier": "all pairs of boxes (exact arithmetic)", "why_tests_cant": "algebraic inequality over all real boxes", "anchors": ["imgaug/augmentables/bbs.py: BoundingBox.iou, area"]}
{"id": "C05", "title": "Out-of-image area and fraction of a box are consistent", "statement": "For every box and image size the out-of-image area equals the box area minus the area overlapping the image plane and lies in [0, area]; the fraction lies in [0,1], is 0 when the box lies within the image plane and 1 when it does not overlap it; boxes of zero area are never divided by zero.", "quantifier": "all boxes and image heights/widths", "why_tests_cant": "all real coordinates and degenerate boxes", "anchors": ["imgaug/augmentables/bbs.py: compute_out_of_image_area, compute_out_of_image_fraction"]}
{"id": "C06", "title": "Clipping a box to the image plane", "statement": "For every box and image of height,width>=1, clip_out_of_image puts all corners in [0,W-eps]x[0,H-eps], leaves boxes already inside unchanged, is idempotent, never enlarges the box, and for a box that is partly inside equals the intersection with that plane.", "quantifier": "all boxes and non-empty image shapes", "why_tests_cant": "continuum of coordinates and all positions relative to four borders", "anchors": ["imgaug/augmentables/bbs.py: BoundingBox.clip_out_of_image_, is_partly_within_image"]}
{"id": "C07", "title": "Removing and clipping on image level touches exactly the right boxes", "statement": "remove_out_of_image(fully,partly) on BoundingBoxesOnImage keeps exactly the boxes that are not out of image under those flags, in the original order; clip_out_of_image additionally clips the survivors, so all results lie in the image plane; is_out_of_image(fully=True,partly=False)/(False,True) and is_fully_within_image partition all boxes into three classes.", "quantifier": "all lists of boxes, flags and image shapes", "why_tests_cant": "lists of any length", "anchors": ["imgaug/augmentables/bbs.py: BoundingBoxesOnImage.remove_out_of_image_, clip_out_of_image_, BoundingBox.is_out_of_image"]}
{"id": "C08", "title": "Box lists survive conversion to keypoints and arrays", "statement": "to_keypoints_on_image then invert_to_keypoints_on_image_ reproduces every box (coordinates, label, order); after an arbitrary change of the keypoints the recovered boxes are well formed and are the tightest boxes around their four corner points; to_xyxy_array/from_xyxy_array round-trip.", "quantifier": "all lists of boxes and all transformations of the intermediate keypoints", "why_tests_cant": "any list length, any transform in between", "anchors": ["imgaug/augmentables/bbs.py: to_keypoints_on_image, invert_to_keypoints_on_image_, to_xyxy_array, from_xyxy_array, fill_from_xyxy_array_"]}
{"id": "C09", "title": "Projection between image sizes is lossless and composes", "statement": "Projecting coordinates of keypoints, boxes, polygons or line strings from shape A to B and back gives the original; A->B->C equals A->C; A->A is the identity; positions relative to the image size are preserved; inside/outside status is preserved.", "quantifier": "all coordinates, all positive image shapes (exact arithmetic)", "why_tests_cant": "all shape pairs", "anchors": ["imgaug/augmentables/utils.py: project_coords_", "imgaug/augmentables/bbs.py: project_, on_", "imgaug/augmentables/kps.py: project_, on_"]}
{"id": "C10", "title": "Shifting is an additive group action", "statement": "shift_(x,y) of keypoints, boxes, polygons and line strings by (0,0) is the identity, shifts add up, shift by the negated vector undoes the shift; it preserves widths, heights, areas and pairwise differences.", "quantifier": "all coordinates and shift vectors", "why_tests_cant": "continuum of inputs", "anchors": ["imgaug/augmentables/bbs.py: shift_", "imgaug/augmentables/kps.py: shift_", "imgaug/augmentables/polys.py: shift_", "imgaug/augmentables/lines.py: shift_", "imgaug/augmentables/utils.py: _normalize_shift_args"]}
{"id": "C11", "title": "Out-of-image removal for keypoints is exact", "statement": "KeypointsOnImage.remove_out_of_image_fraction / clip_out_of_image keeps, in order, exactly the keypoints with 0<=x<W and 0<=y<H (for fractions in (0,1]), and is idempotent.", "quantifier": "all keypoint lists, image shapes and fractions in (0,1]", "why_tests_cant": "lists of any length", "anchors": ["imgaug/augmentables/kps.py: Keypoint.is_out_of_image, KeypointsOnImage.remove_out_of_image_fraction_, clip_out_of_image_", "imgaug/augmentables/utils.py: _remove_out_of_image_fraction_"]}
{"id": "C12", "title": "Manhattan neighbourhood of a keypoint", "statement": "generate_similar_points_manhattan(nb_steps S, step_size s) yields exactly 1+2S+2S^2 points, pairwise distinct for s!=0, each at a manhattan distance <= S*s, and every grid point of that ball is present.", "quantifier": "all S>=0, all step sizes, all starting points", "why_tests_cant": "all S", "anchors": ["imgaug/augmentables/kps.py: Keypoint.generate_similar_points_manhattan"]}
{"id": "C13", "title": "Point interpolation inserts evenly spaced collinear points", "statement": "interpolate_points(points, nb_steps, closed) keeps all original points in order, inserts exactly nb_steps points in every edge (including the closing edge iff closed), each new point at fraction i/(nb_steps+1) of its edge.", "quantifier": "all point lists, nb_steps, closed flags", "why_tests_cant": "lists of any length and any step count", "anchors": ["imgaug/augmentables/utils.py: interpolate_point_pair, interpolate_points", "imgaug/augmentables/lines.py: subdivide", "imgaug/augmentables/polys.py: subdivide_"]}
{"id": "C14", "title": "interpolate_points_by_max_distance respects the maximum distance", "statement": "After interpolate_points_by_max_distance(points, d) consecutive points are at most d apart, and all original points are still present.", "quantifier": "all point lists and d>0", "why_tests_cant": "all distances", "anchors": ["imgaug/augmentables/utils.py: interpolate_points_by_max_distance"]}
{"id": "C15", "title": "Changing the first point of a polygon rotates it", "statement": "change_first_point_by_index(k) yields the same cyclic sequence of points starting at point k; changing to k and then to (n-k) mod n restores the polygon; invalid indices are rejected.", "quantifier": "all polygons and indices", "why_tests_cant": "all polygon sizes", "anchors": ["imgaug/augmentables/polys.py: change_first_point_by_index"]}
{"id": "C16", "title": "Polygon construction and conversion keep the ring", "statement": "Constructing a polygon from a ring whose last point repeats the first drops exactly that one point; to_line_string(closed=True) has n+1 points and ends where it starts; converting back gives the original polygon; to_bounding_box is the tightest box around all points.", "quantifier": "all exteriors", "why_tests_cant": "all lists of points", "anchors": ["imgaug/augmentables/polys.py: Polygon.__init__, to_line_string, to_bounding_box", "imgaug/augmentables/lines.py: to_bounding_box"]}
{"id": "C17", "title": "Concave polygon recovery only yields valid polygons over given points", "statement": "For every point list of at least three points and every validity test, recovery returns the polygon unchanged if it is valid, and otherwise (if at least three points remain after removing duplicates) the best-fit step returns a polygon whose points are a selection of the candidate points containing every convex hull point, each index at most once if the validity test rejects repeated points, and which is either the hull itself or passed the validity test; it stops after finitely many steps.", "quantifier": "all candidate point lists, hull selections and validity predicates", "why_tests_cant": "the search explores data dependent insertions; all validity outcomes", "anchors": ["imgaug/augmentables/polys.py: _ConcavePolygonRecoverer.recover_from, _fit_best_valid_polygon"]}
{"id": "C18", "title": "Heatmap value mapping round-trips", "statement": "For every min<max and every array with values in [min,max]: values stored by HeatmapsOnImage lie in [0,1], get_arr() returns the original values and (if the object was not transformed on the way) the original number of dimensions, invert() is an involution that maps the value range onto itself, change_normalization composes.", "quantifier": "all arrays of all sizes, all min<max (exact arithmetic)", "why_tests_cant": "arrays of any size", "anchors": ["imgaug/augmentables/heatmaps.py: HeatmapsOnImage.__init__, get_arr, invert, change_normalization, from_0to1"]}
{"id": "C19", "title": "HeatmapsOnImage keeps its values in range", "statement": "HeatmapsOnImage(arr,...,min_value,max_value) warns about and clips every array that has a value outside [min_value,max_value], hence arr_0to1 is always in [0,1]; the analogous non-negativity check holds for SegmentationMapsOnImage.", "quantifier": "all arrays", "why_tests_cant": "depends on where in the array the bad value is", "anchors": ["imgaug/augmentables/heatmaps.py: HeatmapsOnImage.__init__", "imgaug/augmentables/segmaps.py: SegmentationMapsOnImage.__init__"]}
{"id": "C20", "title": "uint8 conversion of heatmaps is lossless on the uint8 grid", "statement": "from_uint8(to_uint8(h)) differs from h by at most 1/510 per component and to_uint8(from_uint8(a))=a for every uint8 array.", "quantifier": "all uint8 arrays / all arrays in [0,1] (exact arithmetic)", "why_tests_cant": "all arrays", "anchors": ["imgaug/augmentables/heatmaps.py: to_uint8, from_uint8"]}
{"id": "C21", "title": "Keypoint image round trip", "statement": "For keypoints inside the image, to_keypoint_image followed by from_keypoint_image recovers for each keypoint the centre of its pixel if its square overlaps no other and is not cut by the border, in general a position within (size+1)/2 pixels; keypoints outside the image are not recovered.", "quantifier": "all image sizes, odd sizes, keypoint positions", "why_tests_cant": "all positions", "anchors": ["imgaug/augmentables/kps.py: to_keypoint_image, from_keypoint_image"]}
{"id": "C22", "title": "Row subselection of a batch and its inverse", "statement": "For a batch in augmentation and any list of distinct row indices: subselect_rows_by_indices picks exactly these rows in every column; inserting an augmented subselection by invert_subselect_rows_by_indices_ replaces exactly those rows and leaves every other row of every column untouched; inserting it unchanged restores the batch.", "quantifier": "all batches, all index lists, all replacements", "why_tests_cant": "all sizes and index sets", "anchors": ["imgaug/augmentables/batches.py: _BatchInAugmentation.subselect_rows_by_indices, invert_subselect_rows_by_indices_"]}
{"id": "C23", "title": "Normalisation of augmentation inputs is inverted exactly", "statement": "For every input form accepted for images, heatmaps, segmentation maps, keypoints, bounding boxes (single, list, nested list, array, tuples, ...), normalising and then inverting the normalisation yields the same form with the same values.", "quantifier": "all accepted input forms and nesting shapes", "why_tests_cant": "input forms nest arbitrarily and may be empty", "anchors": ["imgaug/augmentables/normalization.py: normalize_*, invert_normalize_*"]}
{"id": "C24", "title": "Seeds used by worker processes are always valid", "statement": "For every base seed accepted by Pool and every batch id, the seeds given to the global and the augmenter RNG lie in [0, 2^31-2], so reseeding never fails.", "quantifier": "all seeds and batch ids", "why_tests_cant": "2^31 x unbounded ids", "anchors": ["imgaug/multicore.py: Pool.__init__, _reseed_global_local, _derive_seed"]}
{"id": "C25", "title": "Pool results with a seed do not depend on the schedule", "statement": "With a seed given to Pool, the augmentation result of the batch with id i depends only on the seed, i, the augmenter and the batch: not on the worker that runs it, on the order in which batches are processed, on the number of processes or the chunk size.", "quantifier": "all assignments of batches to workers and all orders of execution", "why_tests_cant": "all interleavings and prior histories of workers", "anchors": ["imgaug/multicore.py: _Pool_worker, _Pool_initialize_worker, _reseed_global_local"]}
{"id": "C26", "title": "Different batches get different seeds", "statement": "Within any window of 2^31-1 consecutive batch ids no two batches get the same augmenter seed, and the global seed of a batch never equals its augmenter seed.", "quantifier": "all seeds and pairs of batch ids in the window", "why_tests_cant": "quadratic in 2^31", "anchors": ["imgaug/multicore.py: _derive_seed, _reseed_global_local"]}
{"id": "C27", "title": "Batch ids of a pool are never reused", "statement": "Over any sequence of map_batches and imap_batches calls on one pool all batches handed to workers have pairwise distinct, consecutive ids.", "quantifier": "all interleavings of calls on a pool, including partially consumed generators", "why_tests_cant": "histories of unbounded length", "anchors": ["imgaug/multicore.py: _handle_batch_ids, _handle_batch_ids_gen"]}
{"id": "C28", "title": "The output buffer limit of imap_batches is respected", "statement": "With output_buffer_size B, at every moment at most B batches have been handed over to the pool and not yet been consumed by the caller, whatever the interleaving of loading, augmenting and consuming; all batches are yielded exactly once, in order for imap_batches.", "quantifier": "all interleavings of loader thread, workers and consumer", "why_tests_cant": "all schedules", "anchors": ["imgaug/multicore.py: imap_batches, imap_batches_unordered, _ibuffer_batch_loading, _create_output_buffer_left"]}
{"id": "C29", "title": "imap_batches with an output buffer does not deadlock", "statement": "For every chunk size and output buffer size, a consumer that keeps calling next() eventually receives every batch.", "quantifier": "all chunk sizes, buffer sizes and schedules", "why_tests_cant": "deadlocks depend on the interleaving", "anchors": ["imgaug/multicore.py: imap_batches, _ibuffer_batch_loading"]}
{"id": "C30", "title": "Background augmentation delivers every batch exactly once", "statement": "Under every interleaving of the loader, n worker processes and the consumer, BackgroundAugmenter.get_batch never returns a batch twice, never drops one, and returns None only after every batch of the source was returned.", "quantifier": "all interleavings and numbers of workers", "why_tests_cant": "all schedules", "anchors": ["imgaug/multicore.py: BackgroundAugmenter.get_batch, _augment_images_worker"]}
{"id": "C31", "title": "Prefetching delivers the underlying random stream unchanged", "statement": "The samples a prefetching parameter hands out over any sequence of requests are samples drawn from the wrapped parameter with the requesting RNG: right number per request, none handed out twice, at most the prefetch size of them buffered; for one RNG and requests below the prefetch size they come in the order of drawing.", "quantifier": "all sequences of request sizes", "why_tests_cant": "histories of unbounded length", "anchors": ["imgaug/parameters.py: AutoPrefetcher._draw_samples, _prefetch"]}
{"id": "C32", "title": "Reseeding makes prefetching parameters reproducible", "statement": "After imgaug.seed(s) the samples drawn from a parameter depend only on s and the subsequent requests, not on what was drawn before the call.", "quantifier": "all histories before the reseeding", "why_tests_cant": "depends on history before the call", "anchors": ["imgaug/parameters.py: AutoPrefetcher._draw_samples", "imgaug/random.py: seed", "imgaug/imgaug.py: seed"]}
{"id": "C33", "title": "All columns of a batch are augmented with the same random decisions", "statement": "When a batch has several columns (images, keypoints, ...), every column is transformed with the same sampled parameters, so that image i and its keypoints stay aligned, for every batch of a sequence of batches.", "quantifier": "all sequences of batches, column combinations and augmenters", "why_tests_cant": "history dependent", "anchors": ["imgaug/augmenters/meta.py: Augmenter.augment_batch_, Augmenter._augment_batch_", "imgaug/parameters.py: AutoPrefetcher"]}
{"id": "C34", "title": "Deterministic augmenters repeat themselves", "statement": "An augmenter in deterministic mode leaves its random state unchanged after every call, also when the call fails, so equal inputs give equal outputs, in any order and number of calls.", "quantifier": "all sequences of calls", "why_tests_cant": "histories", "anchors": ["imgaug/augmenters/meta.py: _maybe_deterministic_ctx, augment_batch_"]}
{"id": "C35", "title": "Prefetching flag is always restored", "statement": "toggled_prefetching / no_prefetching restore the previous value of the global prefetching flag for any nesting of contexts and also when an exception leaves the block.", "quantifier": "all nestings of contexts and exception points", "why_tests_cant": "unbounded nesting", "anchors": ["imgaug/parameters.py: toggled_prefetching, no_prefetching, toggle_prefetching"]}
{"id": "C36", "title": "Sequential is function composition", "statement": "Sequential([a1..an]) without random order applies a1, then a2, ... to the batch; nesting Sequentials does not matter; the empty Sequential is the identity; with random order each child is applied exactly once per batch, in the sampled order.", "quantifier": "all lists of child augmenters and batches", "why_tests_cant": "arbitrary children", "anchors": ["imgaug/augmenters/meta.py: Sequential._augment_batch_"]}
{"id": "C37", "title": "SomeOf applies exactly the sampled number of children to each row", "statement": "For every sampled count n and every row, SomeOf marks exactly min(n, number of children) children as active; a row is transformed exactly by its active children, in the chosen order; OneOf applies exactly one; inactive rows are untouched by a child.", "quantifier": "all numbers of rows, children, samples and shuffles", "why_tests_cant": "random shuffles of any size", "anchors": ["imgaug/augmenters/meta.py: SomeOf._get_augmenter_active, _augment_batch_, OneOf"]}
{"id": "C38", "title": "Sometimes partitions the batch", "statement": "Sometimes applies its then-list to exactly the rows sampled as 1 and the else-list to exactly the other rows; the row order and the number of rows are preserved; without lists nothing changes.", "quantifier": "all batches, samples and child lists", "why_tests_cant": "all subsets of rows", "anchors": ["imgaug/augmenters/meta.py: Sometimes._augment_batch_"]}
{"id": "C39", "title": "Deactivated augmenters and hooks leave data untouched", "statement": "Columns for which an activator hook says no are returned unchanged while others are augmented; propagation hooks hide exactly the columns they reject and restore them afterwards.", "quantifier": "all batches and hook predicates", "why_tests_cant": "arbitrary predicates", "anchors": ["imgaug/augmenters/meta.py: augment_batch_", "imgaug/augmentables/batches.py: apply_propagation_hooks_, invert_apply_propagation_hooks_"]}
{"id": "C40", "title": "find_augmenters and remove_augmenters agree with the tree", "statement": "get_all_children(flat=True) lists every descendant exactly once in depth-first order; find_augmenters(f) returns exactly the nodes (self included) that satisfy f; after remove_augmenters(f) no descendant satisfying f is left and all others remain in order.", "quantifier": "all augmenter trees and predicates", "why_tests_cant": "trees of any shape", "anchors": ["imgaug/augmenters/meta.py: get_all_children, find_augmenters, remove_augmenters_, remove_augmenters"]}
{"id": "C41", "title": "WithChannels touches only the selected channels", "statement": "WithChannels(channels, children) changes only the listed channels of each image, applies the children to exactly these channels in the listed order and leaves the others unchanged; None/all means all; [] means nothing.", "quantifier": "all images, channel lists, children", "why_tests_cant": "all channel subsets", "anchors": ["imgaug/augmenters/meta.py: WithChannels._augment_batch_"]}
{"id": "C42", "title": "Channel shuffling permutes channels", "statement": "shuffle_channels permutes only the given channels: the multiset of channels is preserved, the other channels stay at their position, pixels are not mixed.", "quantifier": "all images, channel subsets and permutations", "why_tests_cant": "all permutations", "anchors": ["imgaug/augmenters/meta.py: shuffle_channels"]}
{"id": "C43", "title": "Flips are involutions and keep annotations aligned", "statement": "Fliplr/Flipud applied twice give the original image and coordinates; a coordinate-based annotation inside pixel (x,y) is inside the mirrored pixel after the flip; horizontal and vertical flips commute; boxes stay well formed with the same size.", "quantifier": "all images, sizes and coordinates", "why_tests_cant": "all sizes", "anchors": ["imgaug/augmenters/flip.py: fliplr, flipud, Fliplr._augment_batch_, Flipud._augment_batch_"]}
{"id": "C44", "title": "Rot90 is an action of the cyclic group and keeps annotations aligned", "statement": "Rotating by k and then by l equals rotating by k+l, k=4 is the identity, for images and for keypoints; the pixel containing a keypoint is mapped to the pixel containing the rotated keypoint; image shape and keypoint shape agree.", "quantifier": "all images, k in Z, keypoints", "why_tests_cant": "all sizes and k", "anchors": ["imgaug/augmenters/geometric.py: Rot90"]}
{"id": "C45", "title": "Jigsaw only moves cells and moves keypoints with them", "statement": "generate_jigsaw_destinations returns a permutation of all cells for every random input; apply_jigsaw moves each cell to its destination so that no pixel is lost or duplicated; the inverse permutation restores the image; a keypoint is moved with the pixel that contains it; no cell moves further than max_steps (found to be false: proved for max_steps<=1 only, with a counterexample for 2).", "quantifier": "all grids, random draws, images divisible by the grid", "why_tests_cant": "all random draws and sizes", "anchors": ["imgaug/augmenters/geometric.py: apply_jigsaw, apply_jigsaw_to_coords, generate_jigsaw_destinations"]}
{"id": "C46", "title": "Cropping never produces empty images", "statement": "For every image axis of size >=1 and all non-negative crop amounts, the amounts after zero-size prevention are non-negative, never larger than requested, and leave at least one pixel; amounts that already leave a pixel are unchanged.", "quantifier": "all sizes and crop amounts", "why_tests_cant": "all integers", "anchors": ["imgaug/augmenters/size.py: _prevent_zero_size_after_crop_, _prevent_zero_sizes_after_crops_"]}
{"id": "C47", "title": "Crop and pad keep image, shape and keypoints aligned", "statement": "After crop-and-pad the image shape equals the shape reported for keypoints/maps, the pixel under a keypoint that survives is the same pixel as before, and cropping what was padded restores the original.", "quantifier": "all images, crop/pad amounts, keypoints", "why_tests_cant": "all sizes and offsets", "anchors": ["imgaug/augmenters/size.py: _crop_and_pad_arr, _crop_and_pad_kpsoi_, _compute_shape_after_crop_and_pad"]}
{"id": "C48", "title": "Padding/cropping to multiples", "statement": "compute_paddings_to_reach_multiples_of / compute_croppings_to_reach_multiples_of give non-negative amounts so that the new height and width are multiples; paddings are minimal; croppings are minimal and sides differ by at most one; None leaves an axis unchanged.", "quantifier": "all shapes and multiples", "why_tests_cant": "all integers", "anchors": ["imgaug/augmenters/size.py: compute_paddings_to_reach_multiples_of, compute_croppings_to_reach_multiples_of"]}
{"id": "C49", "title": "Padding/cropping to powers of a base", "statement": "compute_paddings_to_reach_powers_of gives the least power of the base that is >= the size (exponent >=1, or >=0 if allowed); the cropping version gives the largest such power <= size.", "quantifier": "all shapes and bases >=2 (exact logarithm)", "why_tests_cant": "all integers", "anchors": ["imgaug/augmenters/size.py: compute_paddings_to_reach_powers_of, compute_croppings_to_reach_powers_of"]}
{"id": "C50", "title": "Padding/cropping to an aspect ratio", "statement": "compute_paddings_to_reach_aspect_ratio pads one axis only, non-negatively, split over two sides that differ by at most one, and the result misses the aspect ratio by less than one pixel; the cropping version never crops an axis to zero.", "quantifier": "all shapes and ratios", "why_tests_cant": "all sizes and rationals", "anchors": ["imgaug/augmenters/size.py: compute_paddings_to_reach_aspect_ratio, compute_croppings_to_reach_aspect_ratio"]}
{"id": "C51", "title": "Fixed-size padding and cropping hit the size exactly", "statement": "PadToFixedSize makes each axis max(size, requested) and CropToFixedSize makes it min(size, requested) for every position in [0,1]; both together give exactly the requested size.", "quantifier": "all sizes and positions", "why_tests_cant": "all integers and reals in [0,1]", "anchors": ["imgaug/augmenters/size.py: PadToFixedSize._calculate_paddings, CropToFixedSize._calculate_crop_amounts"]}
{"id": "C52", "title": "Resize never produces an empty image", "statement": "For every non-empty image and every accepted size argument, the computed height and width are at least 1, and 'keep' leaves the axis unchanged.", "quantifier": "all image sizes and size arguments", "why_tests_cant": "all sizes", "anchors": ["imgaug/augmenters/size.py: Resize._compute_height_width"]}
{"id": "C53", "title": "Clipping to a dtype's range", "statement": "clip_to_dtype_value_range_ always yields values in the value range of the dtype, leaves in-range values unchanged, is idempotent and monotone; get_value_range_of_dtype is the exact range for every integer width.", "quantifier": "all values, all integer dtypes", "why_tests_cant": "2^64 values", "anchors": ["imgaug/dtypes.py: clip_, clip_to_dtype_value_range_, get_value_range_of_dtype, change_dtypes_"]}
{"id": "C54", "title": "dtype gating is exhaustive and exclusive", "statement": "gate_dtypes accepts silently iff all input dtypes are allowed, raises iff some dtype is explicitly disallowed, otherwise warns.", "quantifier": "all sets of dtypes", "why_tests_cant": "all lists of arrays", "anchors": ["imgaug/dtypes.py: _gate_dtypes, gate_dtypes_strs"]}
{"id": "C55", "title": "Pooling shape and block arithmetic", "statement": "pool pads each axis to the next multiple of the block size and yields ceil(H/h) x ceil(W/w) blocks; every input pixel belongs to exactly one block; max pooling dominates average pooling dominates min pooling.", "quantifier": "all images and block sizes", "why_tests_cant": "all sizes", "anchors": ["imgaug/imgaug.py: pool, max_pool, min_pool, avg_pool"]}
{"id": "C56", "title": "draw_grid places every image in its own cell", "statement": "For every list of images, with rows/cols unspecified or one given, the grid has enough cells, cells do not overlap and image i is in row i//cols, column i%cols.", "quantifier": "all lists of images, row/col arguments", "why_tests_cant": "any number of images", "anchors": ["imgaug/imgaug.py: draw_grid"]}
{"id": "C57", "title": "DeterministicList cycles and DiscreteUniform stays in range", "statement": "DeterministicList fills any requested shape with its values repeated cyclically; DiscreteUniform(a,b) only yields integers between min(a,b) and max(a,b) inclusive; Choice yields only listed values; Clip/Discretize/Absolute/... stay in their documented ranges.", "quantifier": "all parameter values, shapes and RNG outputs", "why_tests_cant": "all RNG outputs", "anchors": ["imgaug/parameters.py: DeterministicList, DiscreteUniform, Choice, Clip, RandomSign, ForceSign"]}
{"id": "C58", "title": "Parameter range checking is exact", "statement": "_check_value_range accepts exactly the values in the closed interval (with None meaning unbounded) and rejects all others, for scalars, tuples and lists handled by handle_continuous_param / handle_discrete_param. What is sampled from the resulting parameter then lies in the interval. Probabilities are accepted iff they are in [0, 1] and lead to samples 0 and 1.", "quantifier": "all values and intervals", "why_tests_cant": "all values", "anchors": ["imgaug/parameters.py: _check_value_range, handle_continuous_param, handle_discrete_param"]}
{"id": "C59", "title": "augment() returns what was passed, in order", "statement": "The unified augment() call returns the augmented augmentables in the order in which they were passed as keyword arguments (images by itself, tuple for several), each being the augmented version of the passed one.", "quantifier": "all subsets and orders of augmentables", "why_tests_cant": "all permutations of keyword arguments", "anchors": ["imgaug/augmenters/meta.py: Augmenter.augment"]}
{"id": "C60", "title": "Random state copying aligns augmenters", "statement": "copy_random_state_ makes the target tree sample the same values as the source tree; seed_ makes a tree's behaviour a function of the seed; localize_random_state_ leaves no augmenter using the global RNG.", "quantifier": "all augmenter trees", "why_tests_cant": "trees of any shape", "anchors": ["imgaug/augmenters/meta.py: copy_random_state_, seed_, localize_random_state_, to_deterministic"]}
{"id": "C61", "title": "Line strings and polygons relative to the image", "statement": "LineString/Polygon is_fully_within_image, is_partly_within_image and is_out_of_image are consistent: the classes partition all line strings, and a fully inside line string has all its points inside. Clipping a line string yields pieces inside the image that keep all its vertices in the image and are in total not longer than it; the fraction out of the image is between 0 and 1.", "quantifier": "all point lists and image shapes", "why_tests_cant": "any number of points", "anchors": ["imgaug/augmentables/lines.py: is_fully_within_image, is_out_of_image, get_pointwise_inside_image_mask"]}
{"id": "C62", "title": "AssertShape accepts exactly the matching shapes", "statement": "AssertShape passes a batch unchanged iff every augmentable's shape matches the specification (number of rows, height, width; channels for images only): None any, int equal, tuple [a,b) half open, list membership; otherwise it raises.", "quantifier": "all shapes and specifications", "why_tests_cant": "all shapes", "anchors": ["imgaug/augmenters/meta.py: AssertShape, _compare"]}
{"id": "C63", "title": "Temporary numpy seed restores the state", "statement": "temporary_numpy_seed(entropy) leaves the global numpy random state after the block as it was before the block, whatever is drawn in the block, also on exceptions.", "quantifier": "all block bodies", "why_tests_cant": "arbitrary code in the block", "anchors": ["imgaug/random.py: temporary_numpy_seed"]}
{"id": "C64", "title": "LUT application is channelwise and independent of chunking", "statement": "apply_lut_ gives out[y,x,c]=table[in[y,x,c], c] for every number of channels, including those processed in groups of at most 512 channels.", "quantifier": "all images, tables and channel numbers", "why_tests_cant": "any number of channels", "anchors": ["imgaug/imgaug.py: apply_lut_"]}
{"id": "C65", "title": "Inversion mirrors the values in the range", "statement": "invert mirrors every component at the middle of the range (the dtype's, or the given min_value..max_value), so that inverting twice gives back the image; with a threshold exactly the components on the chosen side of it are inverted and the others kept. The result depends only on the arguments, not on earlier calls (cached tables) nor on the image's shape (OpenCV or lookup table); exactly the documented ranges and dtypes are accepted.", "quantifier": "all images, dtypes, ranges, thresholds and histories of calls", "why_tests_cant": "histories of calls share a cache; all value ranges", "anchors": ["imgaug/augmenters/arithmetic.py: invert_, solarize_, _invert_uint8_, _InvertTables, _generate_table_for_invert_uint8"]}
{"id": "C66", "title": "Adding saturates", "statement": "add_scalar gives, for every component, the component plus the number of its channel, rounded and limited to the range of the image's dtype, never a wrapped value; a wrong number of numbers is rejected; the same holds for add_elementwise independently of the number of channels.", "quantifier": "all images, dtypes, operands and dtypes of operands", "why_tests_cant": "all dtype combinations and values", "anchors": ["imgaug/augmenters/arithmetic.py: add_scalar_, _add_scalar_to_uint8_, _add_scalar_to_non_uint8, add_elementwise"]}
{"id": "C67", "title": "Multiplying saturates and does not depend on the image size", "statement": "multiply_scalar gives, for every component, the product with the number of its channel, rounded to the nearest integer and limited to the range of the image's dtype, never a wrapped value, whatever the size of the image; a wrong number of multipliers is rejected.", "quantifier": "all images of any size, dtypes, multipliers and dtypes of multipliers", "why_tests_cant": "image sizes above and below 224*224*3; all dtype combinations", "anchors": ["imgaug/augmenters/arithmetic.py: multiply_scalar_, _multiply_scalar_to_uint8_lut_, _multiply_scalar_to_uint8_cv2_mul_, _multiply_scalar_to_non_uint8"]}
{"id": "C68", "title": "Cutout touches exactly its rectangles", "statement": "cutout changes exactly the pixels inside of the rectangle (corners truncated to integers and limited to the image), fills them with the given number, numbers per channel (repeated if too few) or noise within the range of the dtype, and keeps everything else; the Cutout augmenter uses for every image of a batch exactly its own samples, in order, and the last rectangle containing a pixel decides. replace_elementwise changes exactly the components selected by the mask, in order.", "quantifier": "all images, rectangles, fill values, batches and sampled numbers of iterations", "why_tests_cant": "all coordinates (negative, fractional, outside) and any number of rectangles", "anchors": ["imgaug/augmenters/arithmetic.py: cutout_, _fill_rectangle_constant_, _fill_rectangle_gaussian_, Cutout, replace_elementwise_"]}
{"id": "C69", "title": "Alpha blending mixes and stays between both images", "statement": "blend_alpha gives, for every component, alpha*foreground+(1-alpha)*background rounded to the image's dtype, for a single alpha, one per channel, one per pixel or one per component; so every result lies between the two inputs, equal inputs stay as they are, alpha 1 gives the foreground and alpha 0 the background; alphas outside [0,1] and images of different shapes are rejected and the inputs are not changed.", "quantifier": "all images, dtypes, alphas and shapes of alphas", "why_tests_cant": "all dtype combinations, sizes and values", "anchors": ["imgaug/augmenters/blend.py: blend_alpha, blend_alpha_, _blend_alpha_uint8_single_alpha_, _blend_alpha_uint8_channelwise_alphas_, _blend_alpha_uint8_elementwise_, _blend_alpha_non_uint8"]}
{"id": "C70", "title": "Blended annotations come from one of the branches and fit together", "statement": "When two augmentation branches are blended, every annotation is taken from the branch that dominates the image at that place: BlendAlpha takes all annotations of a row from one branch; BlendAlphaMask takes each keypoint from the branch that dominates at its position, all points of a box, polygon or line string from the branch that dominates the whole image, and each heatmap/segmentation map component unmixed from the dominating branch, consistently for all kinds of annotations; branches that change the number of points are rejected.", "quantifier": "all masks, alphas, coordinates and maps", "why_tests_cant": "all masks and positions, also outside of the image", "anchors": ["imgaug/augmenters/blend.py: BlendAlpha._augment_batch_, BlendAlphaMask._blend_maps, BlendAlphaMask._blend_coordinates, BlendAlphaMask._binarize_mask"]}
{"id": "C71", "title": "Affine transformations move annotations with the image content", "statement": "Affine (without fit_output) moves every keypoint, polygon or line string point exactly as the image content at that place, the transformation being rotation, scaling and shearing around the image centre followed by the translation; the augmented bounding box is the smallest box around the moved box; heatmaps and segmentation maps move as the image; different points stay different unless a scale is zero; images that are left unchanged because the matrix is close to the identity would have moved by less than a small bound.", "quantifier": "all samples of scale, translation, rotation, shear; all shapes and points", "why_tests_cant": "all real parameters and coordinates", "anchors": ["imgaug/augmenters/geometric.py: _AffineMatrixGenerator, _AffineSamplingResult.to_matrix, _warp_affine_coords, _is_identity_matrix, Affine._augment_batch_"]}
{"id": "C72", "title": "fit_output shows the whole image and keeps annotations aligned", "statement": "Affine with fit_output moves all pixels of the image into the new image, whose size is the smallest possible, ignores translations, stores the same new shape for all kinds of annotations of an image as the image has, and moves coordinates as the image content.", "quantifier": "all samples and shapes", "why_tests_cant": "all real parameters", "anchors": ["imgaug/augmenters/geometric.py: _compute_affine_warp_output_shape, _AffineSamplingResult.to_matrix, Affine._augment_maps_by_samples"]}
{"id": "C73", "title": "mask generators produce the documented masks", "statement": "Gradient masks have the minimum up to the start point, the maximum from the end point on and evenly spaced values between; grid masks show one alpha per cell, with as many cells as asked for; checkerboards start with 1 and alternate; box and class masks are 1 exactly on the wanted boxes and classes; colour masks give every bin of hues its alpha; all values are in [0, 1]; samples drawn for a batch are dealt out to its rows without gaps.", "quantifier": "all image sizes, samples, boxes, maps and numbers of cells or bins", "why_tests_cant": "all sizes and samples", "anchors": ["imgaug/augmenters/blend.py: _LinearGradientMaskGen, RegularGridMaskGen, CheckerboardMaskGen, BoundingBoxesMaskGen, SegMapClassIdsMaskGen, SomeColorsMaskGen, InvertMaskGen"]}
{"id": "C74", "title": "Resizing gives the requested size and treats images and channels alone", "statement": "imresize_single_image and imresize_many_images return images of exactly the requested size (integers exactly, fractions to the nearest integer), with the dtype and channels of the input and values of that dtype; an image that has the size already is returned unchanged, even if empty; nearest neighbour interpolation only moves pixels; every channel is resized as if alone, also beyond 512 channels; an image of a list is resized as if alone.", "quantifier": "all images, dtypes, channel numbers, sizes and interpolations; every cv2.resize", "why_tests_cant": "all sizes and dtypes", "anchors": ["imgaug/imgaug.py: imresize_many_images, imresize_single_image"]}
{"id": "C75", "title": "KeepSizeByResize restores sizes and keeps annotations aligned", "statement": "After KeepSizeByResize every image, heatmap and segmentation map has the size it had before the children, unless NO_RESIZE was drawn, in which case it is the children's output; keypoints keep their position relative to the image; images and annotations of a row are either all scaled back or all left alone.", "quantifier": "all children, batches and drawn interpolations", "why_tests_cant": "all children and samples", "anchors": ["imgaug/augmenters/size.py: KeepSizeByResize"]}
{"id": "C76", "title": "Dropout augmenters drop exactly what was sampled", "statement": "Dropout and CoarseDropout set components (or whole pixels, without per_channel) to zero exactly where the sampled mask says so and keep all others, for every supported dtype, CoarseDropout in cells of a grid; Dropout2d sets whole channels to zero, chosen among those sampled for dropping, keeps nb_keep_channels of them and drops annotations only if all channels were dropped; TotalDropout empties exactly the sampled rows; the argument p is the probability of dropping.", "quantifier": "all images, dtypes, batches, samples, shapes and arguments p", "why_tests_cant": "all samples and batch compositions", "anchors": ["imgaug/augmenters/arithmetic.py: Dropout, CoarseDropout, Dropout2d, TotalDropout, _handle_dropout_probability_param", "imgaug/parameters.py: FromLowerResolution", "imgaug/augmentables/batches.py: get_rowwise_shapes"]}
{"id": "C77", "title": "Elementwise products are exact and saturate", "statement": "multiply_elementwise gives every component times its own multiplier (or that of its pixel), rounded and limited to the range of the image's dtype, and accepts multipliers of shape (H,W), (H,W,1) and (H,W,C); boolean masks keep or zero components.", "quantifier": "all images, multipliers, dtypes and shapes", "why_tests_cant": "all values and pairs of dtypes", "anchors": ["imgaug/augmenters/arithmetic.py: multiply_elementwise_, MultiplyElementwise", "imgaug/dtypes.py: promote_array_dtypes_, clip_to_dtype_value_range_"]}
{"id": "C78", "title": "Prefetching does not change what is sampled", "statement": "Wrapping parameters in prefetchers only adds buffering: the parameter is otherwise the same, prefetchers are not nested, wrapping twice is wrapping once, nothing is wrapped while prefetching is disabled, and parameters that a distribution queries once per call are still queried once per call.", "quantifier": "all parameters, nested to any depth, and sequences of calls", "why_tests_cant": "all parameter trees", "anchors": ["imgaug/parameters.py: _wrap_leafs_of_param_in_prefetchers, AutoPrefetcher, handle_continuous_param"]}
{"id": "C79", "title": "Uniform quantisation gives the documented colours", "statement": "quantize_uniform puts every component of a uint8 image into one of N equal bins and replaces it by the integer nearest to the centre (or lower end) of its bin, so that at most N values occur and brighter components stay at least as bright; quantising to centres twice is the same as once; posterize keeps exactly the highest bits; everything else (dtype, number of bins or bits) is rejected; the quantisation augmenters keep shape, dtype and alpha channel.", "quantifier": "all uint8 images, numbers of bins and bits, drawn counts, maximum sizes, quantisers and colour space conversions", "why_tests_cant": "all 256 values with each of 255 numbers of bins in two modes, all image shapes", "anchors": ["imgaug/augmenters/color.py: quantize_uniform_, quantize_uniform_to_n_bits_, posterize, _QuantizeUniformLUTTable, _AbstractColorQuantization, UniformColorQuantization, UniformColorQuantizationToNBits"]}
{"id": "C80", "title": "Contrast functions compute the documented curves", "statement": "The gamma, sigmoid, logarithmic and linear contrast functions give every component of a uint8 image the documented value, limited to 0..255 and without its fraction; they keep the order of components, their fixed points (black and white, the centre) and, for neutral parameters, everything; other dtypes use the centre of their range; the augmenters use one sample per image, or one per channel, and treat every image of a batch by itself.", "quantifier": "all images, dtypes, parameters, batches and samples (exact numbers)", "why_tests_cant": "real parameters and all component values", "anchors": ["imgaug/augmenters/contrast.py: adjust_contrast_gamma, adjust_contrast_sigmoid, adjust_contrast_log, adjust_contrast_linear, _ContrastFuncWrapper"]}
{"id": "C81", "title": "Equalisation and autocontrast follow PIL", "statement": "equalize maps every channel by a monotone table that depends on the histogram of the (masked) channel only and is that of PIL, and leaves its input unchanged; autocontrast ignores the given percentage of the darkest and of the lightest pixels of a channel and stretches the rest so that the darkest remaining value becomes black and the lightest white, the same with and without PIL; both keep shape and dtype.", "quantifier": "all uint8 images, masks, histograms, cutoffs and ignored values", "why_tests_cant": "all histograms (numbers of pixels for 256 values) and all pairs of ends, in float64", "anchors": ["imgaug/augmenters/pillike.py: equalize, equalize_, _equalize_no_pil_, _equalize_pil_, autocontrast, _autocontrast_no_pil, Equalize"]}
{"id": "C82", "title": "Changing the colour space converts every pixel", "statement": "change_colorspace_ converts every pixel of a uint8 image with three channels from any colour space but grayscale to any other, directly or via RGB, keeps size and dtype, gives three equal channels for grayscale, and rejects other images; converting there and back is no change if cv2's conversions undo each other; lists of images may have one colour space per image; ChangeColorspace and Grayscale mix the converted and the original image according to alpha.", "quantifier": "all images, pairs of colour spaces, conversions, alphas and batches", "why_tests_cant": "all pixels and conversions; whether memory is shared depends on how the images were made", "anchors": ["imgaug/augmenters/color.py: change_colorspace_, change_colorspaces_, ChangeColorspace, Grayscale", "imgaug/imgaug.py: _normalize_cv2_input_arr_"]}
{"id": "C83", "title": "Augmenting in another colour space touches only what it should", "statement": "WithColorspace gives its children the images in the other colour space and converts back what they return; WithBrightnessChannels and WithHueAndSaturation replace only the brightness, or only hue and saturation, by what the children return; children that change nothing leave the images as they are, up to the conversions; AddToHueAndSaturation turns every hue by the sampled angle, limits saturations to bytes, keeps brightness, and gives the same with both implementations.", "quantifier": "all images, children, colour spaces, conversions, samples and batches", "why_tests_cant": "all 256 hues in float32, all children and batches", "anchors": ["imgaug/augmenters/color.py: WithColorspace, WithBrightnessChannels, WithHueAndSaturation, AddToHueAndSaturation"]}
{"id": "C84", "title": "Segments are replaced by their average colours", "statement": "replace_segments_ gives every pixel of a segment whose flag is set the average colour of the segment (fractional digits dropped) and leaves all other pixels unchanged, whichever implementation is used; flag i decides about the segment with id i. Doing it again changes nothing, and new values lie between old values of the same segment. segment_voronoi and Voronoi use the cells of the nearest points as segments, Superpixels those of SLIC; both keep shape and dtype.", "quantifier": "all images, segmentation maps, flags, cells, samples and both implementations", "why_tests_cant": "all assignments of pixels to segments, including ids without pixels; two implementations", "anchors": ["imgaug/augmenters/segmentation.py: replace_segments_, _replace_segments_np_, _replace_segments_numba_dispatcher_, segment_voronoi, Voronoi, Superpixels"]}
{"id": "C85", "title": "Point samplers place points on every image", "statement": "However point samplers are combined, every image gets a list of points in its image plane, with at least one point; regular grids consist of the centres of equal rectangles and have the demanded numbers of rows and columns limited to the image size; uniform samplers give each image its own samples; dropout keeps the selected points or else one; subsampling returns at most the given number of points, a subset without repetitions.", "quantifier": "all combinations of samplers, image sizes and drawn samples", "why_tests_cant": "unbounded nesting of samplers, all sizes including zero", "anchors": ["imgaug/augmenters/segmentation.py: RegularGridPointsSampler, RelativeRegularGridPointsSampler, DropoutPointsSampler, UniformPointsSampler, SubsamplingPointsSampler"]}
{"id": "C86", "title": "Replacing components and salt and pepper noise", "statement": "replace_elementwise_ and ReplaceElementwise replace exactly the components that the mask marks (samples above one half) by the drawn values, each by its own one in order, as the closest value that the image can store; with per_channel=False all channels of a pixel take the same value; everything else, shape and dtype are kept. Salt only sets values of at least one half of the range, Pepper of at most one half; the Coarse variants replace whole cells of a grid.", "quantifier": "all images, dtypes, masks, replacements, samples and batches", "why_tests_cant": "all masks, including those of arbitrary stochastic parameters; the number of replacements must fit for every mask", "anchors": ["imgaug/augmenters/arithmetic.py: replace_elementwise_, ReplaceElementwise, SaltAndPepper, ImpulseNoise, Salt, Pepper, CoarseSaltAndPepper, CoarseSalt, CoarsePepper"]}
{"id": "C87", "title": "Convolutions", "statement": "convolve_ keeps shape and dtype and stores at every pixel the sum of products of the matrix with the pixels under it, rounded and clipped, the image being mirrored at its borders; a list of matrices filters every channel with its own one and leaves channels with None; one matrix is the same as a list of copies; averaging matrices do not leave the range of a channel; it raises exactly for unsupported dtypes and arguments. Sharpen, Emboss, EdgeDetect and DirectedEdgeDetect blend the effect with the image by alpha: alpha=0 changes nothing, flat areas are scaled by the lightness, kept, or become black, neighbours nearer to the direction weigh more, and whole turns of the direction make no difference. Convolve treats the images of a batch on their own.", "quantifier": "all images, dtypes, numbers of channels, matrices of all sizes, alphas, strengths, directions and batches", "why_tests_cant": "all sizes of images and matrices (also matrices larger than the image, whose borders are mirrored repeatedly), more than 512 channels", "anchors": ["imgaug/augmenters/convolutional.py: convolve_, convolve, Convolve, Sharpen, Emboss, EdgeDetect, DirectedEdgeDetect"]}
{"id": "C88", "title": "Blurring", "statement": "All blurs keep shape and dtype and work per image and per channel. Gaussian and average blur leave empty images and images for no blur (sigma below eps, windows of at most one pixel) as they are, compute values between the smallest and the largest value of the channel for every dtype and backend, and raise exactly for the documented dtypes; the size of the Gaussian kernel is odd, at least 5, about 2.6 to 3.3 sigma and grows with sigma; average blur is the mean of the window as closely as the dtype stores it; AverageBlur accepts the documented forms of k and draws sizes from them. MedianBlur gives medians of windows of odd size within the given bounds, hence only values that occur in the channel. The matrix of MotionBlur averages for all directions and angles, opposite directions are mirrored. Mean shift works on images with one or three channels, bilateral blur on three channels.", "quantifier": "all images, dtypes, sigmas, sizes, directions, backends, arguments and batches", "why_tests_cant": "values stay in range for every image and every kernel; the arguments have many forms", "anchors": ["imgaug/augmenters/blur.py: blur_gaussian_, blur_avg_, blur_mean_shift_, GaussianBlur, AverageBlur, MedianBlur, BilateralBlur, MotionBlur, MeanShiftBlur"]}
{"id": "C89", "title": "Parameters of noise", "statement": "IterativeNoiseAggregator takes the smallest, largest or mean value of at least one and at most 10000 draws for every place, so that bounds of the other parameter are bounds of its samples, and rejects unknown methods. Sigmoid returns values between 0 and 1 that grow with the samples and fall with the threshold, or the samples if it is not activated. SimplexNoise and FrequencyNoise return float32 samples in [0, 1] of the requested shape; the low resolution plane respects size_px_max and the proportions of the image. Samples of FrequencyNoise depend on the random numbers and the requested size only, not on what was sampled before, and negative exponents never divide by zero. Power gives the real powers, also of negative samples for whole exponents.", "quantifier": "all parameters, iterations, sizes, exponents, random numbers and histories of earlier samples", "why_tests_cant": "the samples must stay in range for every draw, and must not depend on any history of earlier calls", "anchors": ["imgaug/parameters.py: Power, IterativeNoiseAggregator, Sigmoid, SimplexNoise, FrequencyNoise"]}
{"id": "C90", "title": "Random number generators", "statement": "RNGs with different bit generators never influence each other, in any history of drawing, copying, deriving, advancing, resetting, seeding and setting states; each RNG has an id of its own. A copy has a generator of its own and draws exactly what the original draws; equal RNGs draw the same numbers for ever; use_state_of_ makes equal. RNG(rng), duplicate and create_if_not_rng_ share the generator, RNG() shares the global one, and making an RNG leaves the generator it is made from alone. After seed(n) all users of the global generator draw what RNG(n) draws, whatever happened before. derive_rngs_(n) gives n independent RNGs, the k-th not depending on n. Integers are asked for in the documented interval for old and new generators.", "quantifier": "all histories of operations, random streams and methods that draw", "why_tests_cant": "the claims are about all histories and about infinitely many later draws; the cached half of a 64 bit number matters only after particular calls", "anchors": ["imgaug/random.py: RNG, seed, normalize_generator_, copy_generator, derive_generators_, is_generator_equal_to, reset_generator_cache_, advance_generator_, polyfill_integers"]}
{"id": "C91", "title": "Perspective transformations", "statement": "PerspectiveTransform cuts out the quadrilateral spanned by four points that lie at the drawn distances (fractions of the sides) from the corners of the image; these points become the corners of the result, whose size without fit_output is at least 2x2. Without jitter nothing changes. With keep_size all results have the size of the input, otherwise image, keypoints and maps agree on the new size. fit_output keeps every part of the image in the result. Keypoints move with the pixels they are on, and heatmaps and segmentation maps of any size with their image. Shape, dtype and number of channels are kept, each channel is transformed on its own, new pixels take cval; the documented modes are accepted; scale is drawn per image.", "quantifier": "all image sizes, jitters, points, map sizes, dtypes, numbers of channels and modes", "why_tests_cant": "all jitters and sizes, including elongated and very small images; a loop moves points apart and must end", "anchors": ["imgaug/augmenters/geometric.py: PerspectiveTransform"]}
{"id": "C92", "title": "Loading batches in the background", "statement": "BatchLoader delivers, in every interleaving of its workers, its internal thread and the user, the batches of every load function in their order and each once, then None, and nothing after it; when None arrives every batch that the load functions yielded before ending or raising was delivered, so each batch once per worker. At most queue_size batches are stored. A user who keeps taking batches is never stuck, and terminate() always returns.", "quantifier": "all numbers of workers, queue sizes, load functions (also raising ones), threads and processes, schedules and moments of terminate()", "why_tests_cant": "all schedules, including slow feeder threads of multiprocessing queues and termination at any moment", "anchors": ["imgaug/multicore.py: BatchLoader"]}
{"id": "C93", "title": "Extracting the pixels of a box", "statement": "BoundingBox.extract_from_image returns the pixels between the rounded corners of the box, black where the image has no pixel, and never an empty array if prevent_zero_size is set; pad_max only limits how much is padded.", "quantifier": "all boxes, images, limits and flags", "why_tests_cant": "Tests use a few boxes and sizes; the padding, clipping and slicing interact on every side of the image and depend on the signs and on rounding.", "anchors": ["imgaug/augmentables/bbs.py: BoundingBox.extract_from_image"]}
{"id": "C94", "title": "User-defined functions and filters of annotations", "statement": "Lambda applies exactly the given functions, checks what they return, moves boxes, line strings and polygons like keypoints by default and leaves everything without a function alone; boxes are well formed afterwards. AssertLambda raises iff a function rejects its input. RemoveCBAsByOutOfImageFraction and ClipCBAsToImagePlanes keep exactly the annotations they should and change nothing else.", "quantifier": "all batches and all functions of the user", "why_tests_cant": "Functions are arbitrary; tests use a few of them on a few annotations.", "anchors": ["imgaug/augmenters/meta.py: Lambda, AssertLambda, RemoveCBAsByOutOfImageFraction, ClipCBAsToImagePlanes, Augmenter._apply_to_cbaois_as_keypoints", "imgaug/augmentables/utils.py: convert_cbaois_to_kpsois, invert_convert_cbaois_to_kpsois_"]}
{"id": "C95", "title": "Elastic transformations displace pixels by at most alpha and annotations follow", "statement": "`ElasticTransformation` displaces every pixel by at most `alpha` along each axis, treats all channels alike, does nothing for a strength of zero, uses the documented libraries, and moves keypoints and maps along with the content; keypoints outside of the image stay in place and no keypoint moves further than alpha plus the size of the neighbourhood used to estimate its displacement.", "quantifier": "all batches of any number and sizes of images, all random numbers, strengths, dtypes, orders, channels, keypoints and any number of rounds of the median loop", "why_tests_cant": "The displacement is random per pixel, the rows are handled in chunks of 32 with shared random numbers, and the median is an unbounded loop over real numbers.", "anchors": ["imgaug/augmenters/geometric.py:ElasticTransformation", "imgaug/augmenters/geometric.py:_ElasticTfShiftMapGenerator", "imgaug/augmentables/kps.py:compute_geometric_median"]}
{"id": "C96", "title": "Histogram equalization and CLAHE change only the intensity of images, image by image", "statement": "CLAHE and HistogramEqualization change, in every image of a batch with three or four channels, only the intensity channel of the target colour space (V of HSV, L of HLS, L of Lab), keep a fourth channel, handle images with other numbers of channels channel by channel, and keep sizes, data types and order of the images, whatever the mixture of images in the batch. Only the documented colour spaces and data types are accepted. AllChannelsCLAHE uses the parameters of the first channel for all channels unless per_channel is active, never runs out of sampled values, raises tile sizes to the given minimum, and tile_grid_size_px is the size of the neighbourhoods in pixels. The equalized values keep the order of the pixels, the darkest become 0, the brightest 255, and constant channels stay unchanged.", "quantifier": "all batches of images of any size, with any mixture of numbers of channels, all colour spaces, all conversions between colour spaces that keep the number of channels, all CLAHE functions, all sampled values, all channels", "why_tests_cant": "the images of a batch are split, converted and put together again by lists of indices, so that errors show only for certain mixtures of channel counts; tests check a few batches and mostly mock cv2.", "anchors": ["imgaug/augmenters/contrast.py:_IntensityChannelBasedApplier", "imgaug/augmenters/contrast.py:AllChannelsCLAHE", "imgaug/augmenters/contrast.py:CLAHE", "imgaug/augmenters/contrast.py:AllChannelsHistogramEqualization", "imgaug/augmenters/contrast.py:HistogramEqualization", "imgaug/augmenters/meta.py:estimate_max_number_of_channels"]}
{"id": "C97", "title": "Pooling augmenters keep images and annotations together", "statement": "AveragePooling, MaxPooling, MinPooling and MedianPooling pool every image of a batch with its own kernel of at least one pixel. Without keep_size, the image and everything annotated on it get the same new size, that of the blocks that cover the image, and keypoints, polygons, line strings and bounding boxes keep their relative places, so that they stay on the content they marked. With keep_size, images of all data types that can be pooled keep their size, data type and channels, and the annotations are not changed. A kernel of one pixel changes nothing. The arrays of heatmaps and segmentation maps are not changed.", "quantifier": "all batches of images of any size and data type, all kernel sizes drawn, all pooling functions, all annotations", "why_tests_cant": "sizes that are no multiples of the kernel give different paddings on each side; tests check a few sizes, mostly multiples of the kernel, and uint8", "anchors": ["imgaug/augmenters/pooling.py:_AbstractPoolingBase", "imgaug/augmenters/pooling.py:_compute_shape_after_pooling", "imgaug/augmenters/pooling.py:AveragePooling", "imgaug/imgaug.py:pool"]}
{"id": "C98", "title": "augment_batches answers every batch with its own result", "statement": "augment_batches() yields one value for every element of `batches`, of the same type as the element: a batch with the same unaugmented columns and the same data, an array or list with the augmented column. In the foreground elements are augmented in order, each continuing with the random state left by the one before, and everything before the first element that raises is still yielded. With background processes every result is combined with the batch it belongs to, in whatever order the pool takes batches and hands results back, and the values are those of the foreground if augmentation does not depend on the random state. Arrays must have three or four axes; lists must be empty or of arrays or annotations; an UnnormalizedBatch must not have been augmented before.", "quantifier": "All lists of batches, arrays and lists, all augmenters (any function of state and columns that may raise), all codecs between user formats and standard forms, all interleavings of loading batches and handing back results.", "why_tests_cant": "Tests use a few batches, and the order in which worker processes finish is not under their control.", "anchors": ["imgaug/augmenters/meta.py: Augmenter.augment_batches", "imgaug/augmentables/batches.py: UnnormalizedBatch.to_normalized_batch, UnnormalizedBatch.fill_from_augmented_normalized_batch, Batch.deepcopy"]}
{"id": "C99", "title": "Polygons and line strings come back in the form in which they were passed", "statement": "Polygons and line strings may be passed to an augmenter as objects, lists of points, lists of keypoints, arrays, and lists of these per image. Whatever accepted form is passed, the augmented objects come back in the same form, with each object still belonging to the image it was passed with, and with unchanged numbers if nothing was augmented.", "quantifier": "All values built from lists, tuples, arrays, numbers, keypoints and polygon or line string objects, all image sizes, and all augmented standard forms.", "why_tests_cant": "The forms nest arbitrarily and the form is detected by looking at the first leaf only; tests list some forms and use the same number of objects in every image.", "anchors": ["imgaug/augmentables/normalization.py: normalize_polygons, normalize_line_strings, _normalize_polygons_and_line_strings, invert_normalize_polygons, invert_normalize_line_strings, _invert_normalize_polygons_and_line_strings", "imgaug/augmentables/polys.py: Polygon.__init__", "imgaug/augmentables/lines.py: LineString.__init__"]}
{"id": "C100", "title": "Arguments of CropAndPad, Pad and Crop", "statement": "CropAndPad, Pad and Crop change each side by an amount that px or percent allow for that side (numbers, ranges, lists, parameters; order top, right, bottom, left; by default up to ten percent). Pad never crops and Crop never pads. Not both arguments may be given, only documented values are accepted, drawing never fails. With sample_independently=False all sides get the same amount, otherwise each its own value.", "quantifier": "all arguments, samplers, image sizes and batch sizes", "why_tests_cant": "the arguments form an infinite nested language and the amounts are random", "anchors": ["imgaug/augmenters/size.py:CropAndPad", "imgaug/augmenters/size.py:Pad", "imgaug/augmenters/size.py:Crop"]}
{"id": "C101", "title": "Positions of padding and cropping to a fixed size", "statement": "Exactly the documented values of position are accepted, and each row of a batch gets a position they stand for. PadToFixedSize and CropToFixedSize distribute the pixels of each axis according to that position (left/top 0, right/bottom 1, evenly at the center), treat images, maps and keypoints of a row alike, and keep the content and the keypoints on it together.", "quantifier": "all positions, samplers, sizes and batches", "why_tests_cant": "the positions are random and the batches arbitrary; the share of each side must be right for every size", "anchors": ["imgaug/augmenters/size.py:_handle_position_parameter", "imgaug/augmenters/size.py:PadToFixedSize", "imgaug/augmenters/size.py:CropToFixedSize"]}
{"id": "C102", "title": "Heatmaps and segmentation maps given as arrays", "statement": "Heatmaps and segmentation maps may be given as one array of shape (N,H,W,C), as a list of (H,W,C) arrays, as one object or as a list of objects. Arrays become one object per image, holding the array and the shape of that image; another number of images than arrays is an error. After any augmentation the results are returned in the form of the input and with its dtype (one array if all results have the same shape, otherwise a list), and without augmentation the input itself comes back. Other forms are rejected.", "quantifier": "every input form, number and size of maps, image shapes, dtypes of class ids and every augmentation that returns one map per image", "why_tests_cant": "The number of maps, their sizes, dtypes and values are unbounded, and the results depend on what the augmentation returns", "anchors": ["imgaug/augmentables/normalization.py:normalize_heatmaps", "imgaug/augmentables/normalization.py:normalize_segmentation_maps", "imgaug/augmentables/normalization.py:invert_normalize_heatmaps", "imgaug/augmentables/normalization.py:invert_normalize_segmentation_maps", "imgaug/augmentables/normalization.py:restore_dtype_and_merge"]}
{"id": "C103", "title": "Arguments of affine transformations", "statement": "Affine accepts exactly the documented arguments (numbers, pairs, lists, parameters, dictionaries for the axes; scales of at least 0.0001; whole pixels; not both kinds of translation; documented orders, modes and backends). Each image gets values the arguments stand for: numbers within pairs, elements of lists, the same value for both axes unless a dictionary is given, two values for the shear, one fill value per image for lists, neutral values for arguments left out, and mild defaults if no argument is given. If only a translation in pixels is requested then coordinates move by exactly so many pixels.", "quantifier": "all arguments, samplers, numbers of images and image sizes", "why_tests_cant": "the space of arguments and their random values is unbounded", "anchors": ["imgaug/augmenters/geometric.py:Affine.__init__", "imgaug/augmenters/geometric.py:Affine._draw_samples", "imgaug/augmenters/geometric.py:_handle_order_arg", "imgaug/augmenters/geometric.py:_handle_cval_arg", "imgaug/augmenters/geometric.py:_handle_mode_arg"]}
{"id": "C104", "title": "Piecewise affine transformations", "statement": "PiecewiseAffine accepts exactly the documented arguments. Each image gets a regular grid of at least two rows and columns from corner to corner, each point moved by an own displacement scaled to the array, and the content follows the points: what is shown at a position comes from inside the image and from no farther away than the largest displacement. Pixels that show a pixel of the input have its value, heatmaps stay within [0, 1] and segmentation maps keep their class ids. Keypoints follow the content of their image: a keypoint on a pixel that is shown lands on a pixel that shows it; their number, order and those outside of the image do not change.", "quantifier": "all arguments, samplers, images, maps, keypoints, grids, displacements, transformations that follow the points and interpolations that are exact at pixels", "why_tests_cant": "grids, displacements, image sizes and keypoint positions are unbounded", "anchors": ["imgaug/augmenters/geometric.py:PiecewiseAffine", "imgaug/augmentables/kps.py:KeypointsOnImage.to_distance_maps", "imgaug/augmentables/kps.py:KeypointsOnImage.from_distance_maps"]}
{"id": "C105", "title": "The augmenter Resize", "statement": "Resize accepts exactly the documented arguments. Every image is resized to what is requested for its height and width (or its shorter and longer side): a number of pixels, a fraction of the size to within half a pixel, the size itself, or the size that keeps the ratio; numbers lie within pairs or are elements of lists, and without a dictionary both axes get the same. The method is one of those requested, dtype and channels stay. Keypoints keep their position relative to the image and maps are resized by the same factor. Non-empty inputs of documented dtypes never raise and never become empty.", "quantifier": "all arguments, samplers, batches, image sizes and dtypes", "why_tests_cant": "arguments, random sizes and image sizes are unbounded", "anchors": ["imgaug/augmenters/size.py:Resize"]}
{"id": "C106", "title": "Colour temperatures", "statement": "Changing the colour temperature multiplies the RGB channels by factors of the table of black body colours: white becomes exactly the colour of the table at every 100 kelvin, factors are interpolated linearly in between, no channel overflows or becomes brighter, and the order of brightnesses is kept. The higher the temperature, the less red and the more blue. Images of other colour spaces are converted to RGB and back. Each image gets its own temperature, temperatures outside of 1000 to 40000 are rejected, and images keep shape and dtype.", "quantifier": "all temperatures, pixels, images, numbers of images, colour spaces and conversions by cv2", "why_tests_cant": "Tests check a few temperatures on single pixels; monotonicity and the bounds that make the missing clipping safe concern every temperature between 1000 and 40000.", "anchors": ["imgaug/augmenters/color.py:change_color_temperatures_", "imgaug/augmenters/color.py:change_color_temperature", "imgaug/augmenters/color.py:ChangeColorTemperature", "imgaug/augmenters/color.py:_KelvinToRGBTable"]}
{"id": "C107", "title": "The jigsaw augmenter pads and shuffles all augmentables of a row alike", "statement": "Jigsaw accepts every batch whose rows consist of images, heatmaps, segmentation maps and keypoints that name the same image size, if padding is allowed and the arguments are accepted (rows and columns at least 1, steps at least 0). For each row there is one new size, the smallest with height and width divisible by the drawn numbers of rows and columns, one centred position and one permutation of the cells, such that image and maps are put at that position into zeros and then shuffled by that permutation; maps keep their array size and get the new image size. Keypoints in the image stay on their content; keypoints outside of the padded image are only shifted. Sizes that are divisible are kept. Without padding, sizes that are not divisible are rejected. Bounding boxes, polygons and line strings are rejected.", "quantifier": "all images, maps, keypoints, batches, arguments and random draws", "why_tests_cant": "Sizes, grids, permutations and coordinates are unbounded; alignment of image, maps and keypoints must hold for every draw.", "anchors": ["imgaug/augmenters/geometric.py:Jigsaw", "imgaug/augmenters/size.py:CenterPadToMultiplesOf"]}
{"id": "C108", "title": "Add, Multiply and Invert treat each image of a batch on its own", "statement": "Add adds to, and Multiply multiplies, each image of a batch a number for which the argument stands, one for all channels or, exactly if the per_channel argument decides so, one per channel, whatever the channel counts of the other images; the results are clipped to the range of the dtype. Invert inverts in each image all channels or none, or, if decided so, each channel on its own, with the given range and a drawn threshold, and leaves the other channels untouched; tables cached by earlier calls have no influence. With p=0 nothing changes, with p=1 images whose dtype does not admit the range are rejected. Images without pixels and batches without images are returned as they are.", "quantifier": "all batches of images of any dtype, size and channel count, all accepted arguments, all random states, all earlier calls", "why_tests_cant": "there are unboundedly many combinations of images with different channel counts, of arguments and of random draws, and of histories of the table cache", "anchors": ["imgaug/augmenters/arithmetic.py: Add, Multiply, Invert, add_scalar, multiply_scalar, invert_"]}
{"id": "C109", "title": "Warping to polar coordinates and back keeps annotations in place", "statement": "WithPolarWarping with children that do nothing returns keypoints, polygons, line strings and bounding boxes with the same rows, image shapes, labels, order and numbers of points; each point moves by at most the error of the computed angle times its distance from the centre of the image, with exact angles not at all. Images and maps keep dtype and size, and every component is zero or a component of the same channel before. Children that move annotations downwards in the polar image rotate them around the centre, ones that move them to the right move them outwards, ones that resize the polar image have no influence. Polar images and annotations have the same size, in which all points of the image lie. Whatever the children do, sizes and image shapes come back. Images of dtypes that cannot be handled, and rows of boxes and polygons with different image shapes, are rejected; all other batches whose images, also in polar form, have no side over 32767 are accepted.", "quantifier": "all batches, image sizes, points, angle functions with any error bound, child augmenters of the named kinds", "why_tests_cant": "coordinates, sizes and shifts are unbounded, and the error bound is to hold for every point", "anchors": ["imgaug/augmenters/geometric.py: WithPolarWarping"]}
{"id": "C110", "title": "Affine moves everything in a row of a batch together, and keeps dtypes", "statement": "When `Affine` augments a batch, every row gets its own scale, translation, rotation, shear, order, mode and fill values, all of them values that the arguments stand for. The image of a row shows its content moved by the documented transformation with these values; keypoints, polygons, line strings, bounding boxes and maps of the same row are moved by the same transformation. Images keep their dtype, their number of channels and (without fit_output) their size, and their components are values of the dtype, whichever backend is used. With order 0 no components appear that were not there, but fill values; heatmaps stay between 0 and 1 and segmentation maps get no new classes but the background. A backend accepts exactly the dtypes listed for it.", "quantifier": "all batches (any number of rows, any columns present), arguments, random draws, dtypes, backends, orders, modes, fill values, image contents and sizes", "why_tests_cant": "The transformation is random and continuous, the backends differ by dtype and order, and alignment must hold for every pixel and every annotation.", "anchors": ["imgaug/augmenters/geometric.py: Affine._augment_batch_, _augment_images_by_samples, _augment_maps_by_samples, _warp_affine_arr, _warp_affine_arr_skimage, _warp_affine_arr_cv2"]}
{"id": "C111", "title": "AffineCv2 moves images and annotations together", "statement": "`AffineCv2` rotates, scales and shears images around their centre, translates them by the given number of pixels or fraction of their size, and moves keypoints and maps with the content of the image.", "quantifier": "all values of scale, translation, rotation and shear, all sizes of images and maps, all keypoints", "why_tests_cant": "Tests compare a few angles with tolerances of a pixel; a systematic deviation by less than that, or for other sizes of maps, goes unnoticed.", "anchors": ["imgaug/augmenters/geometric.py: AffineCv2._augment_images_by_samples, _augment_heatmaps, _augment_segmentation_maps, _augment_keypoints"]}
{"id": "C112", "title": "Polygons and line strings are written back from arrays of points and keypoints exactly", "statement": "The points of all polygons (or line strings) of an image can be read as one array or as keypoints, and written back. Writing what was read changes nothing, reading what was written gives the same numbers, point j of object i always is the point with the number j after those of the objects before, and objects never change their number of points. A wrong number of points raises an exception and leaves the instance unchanged.", "quantifier": "all numbers of objects and points per object (including none), all coordinates, all shapes", "why_tests_cant": "Augmenters move annotations of any number of objects this way; an offset that is wrong only for particular numbers of points is not covered by a few examples.", "anchors": ["imgaug/augmentables/polys.py: PolygonsOnImage.to_xy_array, fill_from_xy_array_, to_keypoints_on_image, invert_to_keypoints_on_image_", "imgaug/augmentables/lines.py: LineStringsOnImage.to_xy_array, fill_from_xy_array_, to_keypoints_on_image, invert_to_keypoints_on_image_"]}
{"id": "C113", "title": "Canny paints edges in two colours and keeps shape, dtype and alpha channel", "statement": "iaa.Canny accepts every batch of uint8 images with 1, 3 or 4 channels (also images without pixels) and rejects all others. Each image is blended, with its alpha, with an edge image that has one colour for edges and one for all other pixels. Edges are searched in the first three channels, with the smaller of the two sampled thresholds first and an aperture of 3, 5 or 7: the sampled size, or one less if it is even. An alpha channel is never changed. If alpha is 0, the aperture would be below 3 or the image has no pixels, the image is unchanged. Shape and dtype are kept.", "quantifier": "every accepted form of the arguments, every sampler of parameters, every edge detector, every batch of images and every state of the generator", "why_tests_cant": "the colours, thresholds and sizes are random and drawn from one generator for all images; tests look at a few seeds and images", "anchors": ["imgaug/augmenters/edges.py: Canny, RandomColorsBinaryImageColorizer", "imgaug/augmenters/blend.py: blend_alpha"]}
{"id": "C114", "title": "Transformations of RandAugment are as strong as the level", "statement": "For every level m that is accepted by RandAugment, each transformation has the strength that belongs to a level drawn from m, image by image: rotations have k degrees, shears and translations k/30 of the documented maximum, squares cut out k/30 of 20/32 of the image, images keep 8 - k/5 but at least 2 bits, components from 256 - k*256/30 on are inverted, factors of enhancements are 1 plus or minus 0.9 k/30. Level 0 changes nothing. With levels up to 30 no value leaves its documented range. Levels are integers from 0 on.", "quantifier": "all stochastic parameters as levels, numbers of images, random states and arguments m", "why_tests_cant": "Tests draw a few samples of each parameter and compare them with ranges; the connection between level and strength is for every level and random state.", "anchors": ["imgaug/augmenters/collections.py:RandAugment"]}
{"id": "C115", "title": "Clipping polygons gives their parts in the image", "statement": "Polygon.clip_out_of_image returns one polygon for each component of the intersection of the polygon with the image plane, with the points and the cyclic order of the component and the label of the polygon. All points are in the image plane. The first point is the one closest to a point of the clipped polygon, so that polygons in the image come back with the same points and the same first point. compute_out_of_image_area is the rest of the area, compute_out_of_image_fraction is between 0 and 1. Clipping fails only if shapely does.", "quantifier": "all polygons of any number of points, image sizes, and results of shapely", "why_tests_cant": "Tests clip a few squares and triangles; order, area and first point depend on the polygon and on where shapely begins its rings.", "anchors": ["imgaug/augmentables/polys.py:Polygon.clip_out_of_image", "imgaug/augmentables/polys.py:Polygon.compute_out_of_image_area", "imgaug/augmentables/polys.py:Polygon.compute_out_of_image_fraction", "imgaug/augmentables/polys.py:PolygonsOnImage.clip_out_of_image_"]}
{"id": "C116", "title": "Drawing keypoints and bounding boxes changes only their pixels", "statement": "Drawing a keypoint onto an image gives an image of the same size and dtype in which the S x S square around the pixel closest to the keypoint has the given color (mixed with the image for smaller alpha) and every other pixel is as before; drawing a bounding box does the same for a frame of the given thickness that extends to the outside. Outlines of boxes in the image are visible, exceptions are raised only for annotations outside of the image, and copy=False changes the given array.", "quantifier": "all images, coordinates, colors, alphas, sizes and lists of keypoints or boxes", "why_tests_cant": "the square and the frame are rounded and clipped at the borders, the loop over the thickness repeats conversions of the whole image; tests check a few integer coordinates", "anchors": ["imgaug/augmentables/kps.py Keypoint.draw_on_image, KeypointsOnImage.draw_on_image", "imgaug/augmentables/bbs.py BoundingBox.draw_box_on_image, BoundingBoxesOnImage.draw_on_image"]}
{"id": "C117", "title": "pillike.Affine moves content around the chosen centre", "statement": "Every pixel of the result of `pillike.Affine` (and of `warp_affine`) shows the content that the requested transformation around the requested centre moves to the middle of this pixel, or the fill color if that content lies outside of the image; positive translations move content to the right and bottom; size, channels and dtype are kept; without arguments images are not changed; each image of a batch is warped with its own values, its own centre and its own size; batches with other data than images are rejected.", "quantifier": "every image, every scale, translation, rotation, shear, centre and fill color, every pixel, every batch and every sequence of random values", "why_tests_cant": "The pixels are determined by real-valued parameters and by the order in which the parts of the transformation are applied; the tests replace the warping function by a mock or compare whole images for inequality.", "anchors": ["imgaug/augmenters/pillike.py:_create_affine_matrix", "imgaug/augmenters/pillike.py:warp_affine", "imgaug/augmenters/pillike.py:Affine"]}
{"id": "C118", "title": "Drawn heatmaps and segmentation maps show the values of the maps", "statement": "Drawing a segmentation map gives, for each of its channels, an RGB image of the requested size in which every pixel has the color of the class that the map has there; drawn onto an image, pixels of the background stay those of the image and all others mix color and image by alpha. Drawing a heatmap gives, for each channel, an image of the requested size with the value of the map (or its color in the color map); drawn onto an image, every component is the weighted average of both. The calls fail exactly for images that are not RGB `uint8`, for alphas outside of 0 to 1, for empty maps and for classes without a color.", "quantifier": "every map, every image, every size, alpha, list of colors and color map, every pixel and channel, every library that resizes by picking nearest pixels", "why_tests_cant": "Sizes, alphas, classes and colors are unbounded; the tests draw a few small maps, none of them with a single row or column.", "anchors": ["imgaug/augmentables/heatmaps.py:HeatmapsOnImage.draw", "imgaug/augmentables/heatmaps.py:HeatmapsOnImage.draw_on_image", "imgaug/augmentables/segmaps.py:SegmentationMapsOnImage.draw", "imgaug/augmentables/segmaps.py:SegmentationMapsOnImage.draw_on_image"]}
{"id": "C119", "title": "Comparing annotations finds those that are close to each other", "statement": "almost_equals and coords_almost_equals of line strings and polygons are true exactly if all points of the one, and the points that divide its edges evenly, are closer than max_distance to the other one, and vice versa. They are symmetric and do not depend on the direction of a line string, on points added on its edges or on the first point of a polygon. Whatever is everywhere closer than max_distance is almost equal, and almost equal line strings are everywhere close up to the distance of the compared points. Keypoints and bounding boxes are compared coordinate by coordinate. almost_equals also compares labels. compute_distance and contains of line strings look at the distance of their points to the other object.", "quantifier": "all line strings and polygons with any number of points, all keypoints, bounding boxes and coordinate lists, all maximal distances and numbers of points per edge", "why_tests_cant": "The comparison of two lines involves infinitely many points of the plane; tests compare a few lines that differ clearly.", "anchors": ["imgaug/augmentables/lines.py: LineString.coords_almost_equals, LineString.almost_equals, LineString.compute_pointwise_distances, LineString.compute_distance, LineString.contains", "imgaug/augmentables/polys.py: Polygon.exterior_almost_equals, Polygon.almost_equals", "imgaug/augmentables/kps.py: Keypoint.coords_almost_equals", "imgaug/augmentables/bbs.py: BoundingBox.coords_almost_equals, BoundingBox.almost_equals"]}
{"id": "C120", "title": "Padding arrays works alike for all dtypes and numbers of channels", "statement": "Padding an array with iaa.pad keeps its dtype and its channels, adds the amounts to its sizes and shows the array unchanged at the place the amounts say, for every mode. For the modes constant, edge, reflect and symmetric it works for every dtype and every number of channels with one value or one per channel: the border shows the values, brought into the range of the dtype, or the pixels that the mode says, and each channel is padded as if it were padded alone, although two libraries and groups of four channels are used internally. Arrays without rows or columns are filled with the value. Negative amounts are rejected. Padding twice with constant or edge is padding once. pad_to_aspect_ratio and pad_to_multiples_of return the amounts they used.", "quantifier": "All arrays of all dtypes, sizes and numbers of channels, all amounts, modes and values.", "why_tests_cant": "Tests pad a few small arrays; the dispatch between cv2 and numpy and the groups of four channels depend on dtype, mode, shape and values together.", "anchors": ["imgaug/augmenters/size.py:pad", "imgaug/augmenters/size.py:pad_to_aspect_ratio", "imgaug/augmenters/size.py:pad_to_multiples_of"]}
{"id": "C121", "title": "CropAndPad treats a row of a batch as a whole", "statement": "In a batch whose columns agree about the shapes of the rows, `CropAndPad` (and so `Crop` and `Pad`) keeps one rectangle of each image, with at least one pixel, and pads one amount per side; the image, its heatmaps and segmentation maps, keypoints, boxes, polygons and line strings all follow the same rectangle and amounts, with and without `keep_size`. The amounts are those asked for by `px` or `percent`. Added pixels of images have the drawn `pad_cval`, in the range of the dtype, or mirror the kept pixels as the drawn `pad_mode` says; those of maps are 0 by default. Boxes stay boxes. Images given as one array come back as one array if sizes are kept or all results have one shape. `pad_mode` takes the ten names, \"ALL\", lists of names and parameters.", "quantifier": "all batches with any columns and numbers of rows, all image sizes of at least one pixel, all dtypes and channels, all arguments, and all samplers, resizers and numpy padding", "why_tests_cant": "every combination of columns, sizes and drawn amounts is a different batch; tests look at a few combinations of fixed amounts", "anchors": ["imgaug/augmenters/size.py: CropAndPad._augment_batch_", "imgaug/augmenters/size.py: CropAndPad._augment_images_by_samples", "imgaug/augmenters/size.py: CropAndPad._augment_maps_by_samples", "imgaug/augmenters/size.py: CropAndPad._draw_samples", "imgaug/augmenters/size.py: _handle_pad_mode_param"]}
{"id": "C122", "title": "Snow, rain and clouds stay in range and act alike on all channels", "statement": "`SnowflakesLayer` (and so `Snowflakes`) makes no pixel of a `uint8` image darker, also in several layers; `RainLayer` (and so `Rain`) moves each pixel towards one colour per image, between 110 and 240, and never past it; `CloudLayer` mixes each pixel with one brightness for all channels. All keep the shape and the order of the channels, so that grey stays grey, and images of `uint8` stay such; without flakes, drops or density nothing changes, and denser clouds hide more. `FastSnowyLandscape` changes only the lightness of pixels below the threshold and never lowers it with a multiplier of at least 1.", "quantifier": "all images of `uint8` (clouds: also floats), all samples, and all noise, resizing, blurring and colour conversion that keep `uint8` maps", "why_tests_cant": "noise, sizes and samples are random; tests compare average brightness of a few images", "anchors": ["imgaug/augmenters/weather.py: SnowflakesLayer.draw_on_image", "imgaug/augmenters/weather.py: RainLayer._blend", "imgaug/augmenters/weather.py: CloudLayer.draw_on_image", "imgaug/augmenters/weather.py: FastSnowyLandscape._augment_batch_"]}
{"id": "C123", "title": "JPEG compression and k-means quantisation", "statement": "compress_jpeg accepts exactly uint8 images of shape (H,W), (H,W,1) or (H,W,3) with a compression in [0, 100] (and returns empty images as they are), keeps shape and dtype, uses a quality that never rises with the compression and is 100 for no compression; JpegCompression uses one sample per image. quantize_kmeans accepts exactly uint8 arrays with two or three axes and 2 to 256 clusters, returns at most that many colours, all within the range of each channel, gives the same result whatever the state of any random number generator, and advances the global random numbers by exactly one seed if and only if there are more pixels than clusters.", "quantifier": "all images, compressions and numbers of clusters, all states of the random numbers, every codec and every k-means that returns one label per vector and centers in the range of the vectors", "why_tests_cant": "A test compares a few images and compressions and one seed; it cannot show that no state of the generators reaches the result, nor that the number of colours holds for every image.", "anchors": ["imgaug/augmenters/arithmetic.py: compress_jpeg, JpegCompression", "imgaug/augmenters/color.py: quantize_kmeans, KMeansColorQuantization"]}
{"id": "C124", "title": "Image corruptions and glass blur", "statement": "The imgcorruptlike functions accept exactly uint8 images of at least 32 x 32 pixels of shape (H,W), (H,W,1) or (H,W,3), keep shape and dtype, and treat gray images as the first channel of the same image in three channels. With a seed, the result depends on nothing else and numpy's global random state is the same afterwards, also after exceptions; the augmenters give each image its own severity and seed and leave numpy's state as it was. The glass blur never leaves the image with its indices, every pixel after its loop is a pixel of the image, and its result is in [0, 255].", "quantifier": "all images, severities, seeds and states of numpy's random numbers, all corruption functions that keep the shape, all random shifts", "why_tests_cant": "A test sees a few images and seeds; it cannot show that no random shift leaves the image, nor that the global state survives every function and exception.", "anchors": ["imgaug/augmenters/imgcorruptlike.py: _call_imgcorrupt_func, _apply_glass_blur_imgaug, _apply_glass_blur_imgaug_loop, _ImgcorruptAugmenterBase", "imgaug/random.py: temporary_numpy_seed"]}
{"id": "C125", "title": "Cartoon style", "statement": "stylize_cartoon accepts exactly uint8 images of shape (H,W,3), keeps shape and dtype and yields values in [0, 255]; with a saturation near 1 its result is black at the edges and elsewhere exactly the blurred and segmented image; the median blur always has an odd size and is left out for sizes up to 1, the segmentation is left out for size 0; a higher prevalence of edges never raises the threshold for edges; the suppression of blobs only removes edges, and away from the borders a pixel stays an edge exactly if at most 7 of its 9 neighbours are edges and at least 3 of the 25 around it remain; Cartoon uses four samples per image.", "quantifier": "all images, kernel sizes, segment sizes, saturations and edge prevalences, and all filters that map uint8 images to uint8 images", "why_tests_cant": "A test looks at a few images and mocks the filters; it cannot show that edges are black and the rest untouched for every image, nor the rule for blobs.", "anchors": ["imgaug/augmenters/artistic.py: stylize_cartoon, Cartoon"]}
{"id": "C126", "title": "Where outlines cross themselves", "statement": "The intersection of two segments is the point that lies on both of them, ends included, if their directions differ; in which order and direction they are given does not matter. The naive searches find exactly the crossings of segments, or edges of a polygon, without a common end. Whatever the tree of the sweep line does, each point that it reports lies on all the segments reported with it, which are given ones, at least two of which cross there. When a polygon is repaired, each crossing found is put on one edge of the outline, sorted along it, and points added by oversampling stay on that edge.", "quantifier": "all segments, outlines, trees, numbers of steps, limits and amounts of oversampling", "why_tests_cant": "The sweep line compares with a tolerance and runs for a number of steps that depends on the input; tests check some polygons.", "anchors": ["imgaug/external/poly_point_isect_py2py3.py: isect_seg_seg_v2_point, isect_segments__naive, isect_polygon__naive, SweepLine, EventQueue, isect_segments_include_segments", "imgaug/augmentables/polys.py: _ConcavePolygonRecoverer._generate_intersection_points, _oversample_intersection_points", "imgaug/imgaug.py: compute_line_intersection_point"]}
{"id": "C127", "title": "Arguments of augmenters with children", "statement": "Sequential, SomeOf and OneOf have exactly the children that were passed, in that order: none for None, one for a single augmenter (also if it is itself a list of augmenters), those of a list or tuple. Child lists of other augmenters apply exactly the augmenters passed, are called after their parent, and those of Sometimes are not mixed up. SomeOf applies to each row the number of children that n says: the number without fraction, all for None, at least a for (a, None), from a to b for (a, b), always cut to the number of children at the time of the call. Lists with other elements, other forms of n and other objects are refused. An augmenter uses the generator it was given, one made of the seed, or the global one; a deterministic augmenter never uses the global one.", "quantifier": "all arguments children, then_list, else_list, n, channels, seed, random_state, name and deterministic; all numbers of children and rows and all generators", "why_tests_cant": "arguments have many forms, nested augmenters are lists themselves, and numbers of children and samples are unbounded", "anchors": ["imgaug/augmenters/meta.py:Augmenter.__init__", "imgaug/augmenters/meta.py:Sequential.__init__", "imgaug/augmenters/meta.py:SomeOf.__init__", "imgaug/augmenters/meta.py:SomeOf._handle_arg_n", "imgaug/augmenters/meta.py:OneOf.__init__", "imgaug/augmenters/meta.py:Sometimes.__init__", "imgaug/augmenters/meta.py:handle_children_list", "imgaug/augmenters/meta.py:WithChannels.__init__"]}
{"id": "C128", "title": "Debug images show every image of the batch, and are saved for every N-th batch", "statement": "`draw_debug_image` gives one picture with a column for the images and one for each kind of annotation, and a row for each image. Every image is shown at its own height and in the middle of its column, unchanged, framed by one pixel; a column is as wide as its widest cell; maps are laid over the image and annotations are drawn at the matching places of the shown image. Values of pixels are shown in the right order from black to white. The numbers in the descriptions (fewest, most and total items, coordinates outside of the image, most extreme coordinate) are right. `SaveDebugImageEveryNBatches` saves the batches 0, N, 2N, ... each under its own number, and the latest of them also as `batch_latest.png`.", "quantifier": "all lists of images of any sizes, all lists of columns with any contents, all pixel values of all kinds of dtypes, all lists of annotations, all intervals and numbers of batches", "why_tests_cant": "Whether an image is moved, scaled or covered depends on the sizes of all other images and the lengths of all texts in its column; what has been saved depends on the whole sequence of batches; tests look at one batch of equal images and at a few steps.", "anchors": ["imgaug/augmenters/debug.py: _resizepad_to_size", "imgaug/augmenters/debug.py: draw_debug_image", "imgaug/augmenters/debug.py: _DebugGridImageCell", "imgaug/augmenters/debug.py: _DebugGridCBAsOICell", "imgaug/augmenters/debug.py: _generate_cbasois_description", "imgaug/augmenters/debug.py: SaveDebugImageEveryNBatches"]}
{"id": "C129", "title": "Example image, maps and annotations fit together", "statement": "`quokka`, `quokka_heatmap`, `quokka_segmentation_map`, `quokka_keypoints`, `quokka_bounding_boxes` and `quokka_polygons`, called with the same `size` and `extract`, give data that fit together: all have the size that is asked for (pixels, fractions, `None` per axis, or that of an array), the image and the maps show the part that is asked for, and every point is at the place of the same pixel as in the full image. Invalid arguments are errors for all of them.", "quantifier": "all parts of the image, inside and outside of it, in all forms of the argument; all sizes in all forms; all coordinates", "why_tests_cant": "The functions compute the part and its size in different ways (pixels from rounded corners with padding, points from exact corners), so that they agree on some parts and not on others; tests use one or two parts.", "anchors": ["imgaug/data.py: quokka", "imgaug/data.py: quokka_heatmap", "imgaug/data.py: quokka_segmentation_map", "imgaug/data.py: quokka_keypoints", "imgaug/data.py: quokka_bounding_boxes", "imgaug/data.py: quokka_polygons", "imgaug/data.py: _compute_resized_shape", "imgaug/data.py: _quokka_normalize_extract"]}
{"id": "C130", "title": "Simplex noise is bounded, continuous and the same sum everywhere", "statement": "For every seed, `OpenSimplex` builds a table that is a permutation of 0 to 255, and `noise2d` gives for every point, without ever failing, the sum of the contributions of all vertices of a lattice of triangles, divided by 47. The noise is between -1 and 1, continuous (no edges between triangles), 0 at the vertices, repeats itself after 256 vertices, and depends on the last 64 bits of the seed only.", "quantifier": "all integer seeds; all points of the plane", "why_tests_cant": "The code looks at four vertices only, chosen by comparisons of fractions; whether no other vertex contributes, and whether the constant 47 keeps the noise within -1 and 1, are statements about all points of the plane and all combinations of gradients.", "anchors": ["imgaug/external/opensimplex.py: OpenSimplex", "imgaug/external/opensimplex.py: noise2d", "imgaug/parameters.py: SimplexNoise"]}
{"id": "C131", "title": "Drawing line strings and polygons changes only their pixels", "statement": "Drawing a line string or polygon on a uint8 image keeps size and dtype and changes only the pixels of its lines (in their thickness), of the squares around its points and, for polygons, of its inside. The pixels of lines are mixed with the color once, even where lines meet, always stay between the image and the color, and have exactly the color if the lines are opaque and not antialiased. Faces are mixed according to their own opacity. Masks show exactly the drawn pixels, and heatmaps stay in [0, 1]. False: lines with an opacity of up to 0.01 are not drawn; at corners of antialiased lines the later line hides the earlier one even if it is weaker; drawing on a shape instead of an image fails; line strings cannot be drawn on images with two axes, nor with a number as color on images with several channels; polygons cannot be drawn on images with two axes unless the color of the face is given.", "quantifier": "all line strings and polygons, images, colors, opacities, thicknesses, arguments, and all results of the rasterisation library", "why_tests_cant": "The number of combinations of geometry, thickness, opacity and image is unbounded; tests look at a few lines that end on pixel centres.", "anchors": ["imgaug/augmentables/lines.py: LineString.draw_lines_on_image, LineString.draw_on_image, LineString.draw_mask, LineString.draw_heatmap_array", "imgaug/augmentables/polys.py: Polygon.draw_on_image"]}
{"id": "C132", "title": "Labels of bounding boxes stay in their bar, are readable and do not touch the box", "statement": "Drawing the label of a bounding box keeps the size and dtype of the image and changes only the pixels of a bar of the given height, as wide as the frame, that ends one row above the box and is cut off at the image; the pixels of the box itself never change. In the bar the text is shown on the background, mixed with the image according to alpha. The background has the given color or that of the box; without a given color the text is black or white and its brightness differs from the background by at least 127. Boxes at the top of the image get no label. False: on images with two axes drawing a label fails if there is room for it; labels hide the upper rows of frames of three and more pixels; the last row and column of the image are never used.", "quantifier": "all images, boxes, colors, opacities, heights and thicknesses, and all renderings of texts", "why_tests_cant": "Positions of boxes relative to the borders of the image, sizes and colors have too many combinations; the choice of the text color must hold for all colors.", "anchors": ["imgaug/augmentables/bbs.py: BoundingBox.draw_label_on_image, BoundingBox.draw_on_image, _LabelOnImageDrawer", "imgaug/imgaug.py: draw_text"]}
{"id": "C133", "title": "Enhancements and filters of PIL", "statement": "enhance_color, enhance_contrast, enhance_brightness and enhance_sharpness, and the filter functions, accept exactly the uint8 images that are empty or have the shape (H,W), (H,W,1), (H,W,3) or (H,W,4), and keep shape and dtype. The factor 1 changes nothing; the factor 0 gives a gray, uniform, black or smoothed image; factors between 0 and 1 give values between those of that image and the given one, factors above 1 values on the other side. Brightness is multiplication, cut off at 255. The alpha channel never changes, and enhance_color leaves gray images and gray pixels alone. The augmenters use one factor per image.", "quantifier": "every image, every factor of at least 0, every batch", "why_tests_cant": "Tests compare a few images and factors with PIL; they cannot cover all values, factors and shapes", "anchors": ["imgaug/augmenters/pillike.py:_ensure_valid_shape", "imgaug/augmenters/pillike.py:_apply_enhance_func", "imgaug/augmenters/pillike.py:_filter_by_kernel", "imgaug/augmenters/pillike.py:_EnhanceBase", "imgaug/augmenters/pillike.py:_FilterBase"]}
{"id": "C134", "title": "Cutting polygons and line strings out of images", "statement": "Polygon.extract_from_image returns the rectangle around the polygon, in which pixels of the polygon have the values of the image, or are zero outside of the image, and all other pixels are zero; LineString.extract_from_image does so for the line of a given thickness. Polygons of less than three points are an error; line strings without points or thickness give one black pixel or an empty array. Polygon.change_first_point_by_coords makes the first one of the closest points the first one, unless it is further away than allowed.", "quantifier": "every polygon and line string, every image, every thickness, limit of padding and coordinate", "why_tests_cant": "Tests use a few polygons with integer coordinates; rounding at the border of the image and the parity of coordinates matter only in some cases", "anchors": ["imgaug/augmentables/polys.py:Polygon.extract_from_image", "imgaug/augmentables/polys.py:Polygon.change_first_point_by_coords", "imgaug/augmentables/lines.py:LineString.extract_from_image"]}
{"id": "C135", "title": "Arguments of AffineCv2", "statement": "AffineCv2 accepts exactly the documented arguments and applies to each image a scale, translation, rotation, shear, interpolation, way of filling and fill value that the arguments stand for; names and numbers of interpolations and ways of filling are interchangeable; translate_px is in pixels and translate_percent is a fraction of the size; without arguments nothing changes; maps are filled with zeros.", "quantifier": "every combination of arguments, every sampler, every number of images, every image size", "why_tests_cant": "Tests check single arguments with fixed values; the mixing of types in lists and integers as fractions depend on dtypes of samples", "anchors": ["imgaug/augmenters/geometric.py:AffineCv2.__init__", "imgaug/augmenters/geometric.py:AffineCv2._draw_samples", "imgaug/augmenters/geometric.py:AffineCv2._augment_images_by_samples"]}
{"id": "C136", "title": "Multiplying hue and saturation", "statement": "MultiplyHueAndSaturation, MultiplyHue, MultiplySaturation and RemoveSaturation multiply, in HSV, the hue (as an angle) and the saturation (limited to 255) of each image by values that the arguments stand for; the value channel and shapes remain, and what is not requested is not multiplied; RemoveSaturation never increases the saturation, 1 makes images grey. mul excludes mul_hue and mul_saturation, and without arguments documented ranges are used.", "quantifier": "every batch of colour images, every colour space, every sample of multipliers, every hue and saturation", "why_tests_cant": "Tests mock the multipliers or use few pixels; the errors of scaling hues and the rounding depend on the hue and the multiplier", "anchors": ["imgaug/augmenters/color.py:MultiplyHueAndSaturation", "imgaug/augmenters/color.py:MultiplyHue", "imgaug/augmenters/color.py:MultiplySaturation", "imgaug/augmenters/color.py:RemoveSaturation"]}
{"id": "C137", "title": "Augmenting a batch leaves its inputs alone", "statement": "Augmenting a Batch gives the augmenters copies of all its columns, which share no object with anything that existed before. Whatever the augmenters do in place with what they are given, the unaugmented columns and the data of the batch stay as they were, and its augmented columns are those that the augmenters left, each under its own name. Augmenting the same batch again starts from its inputs. A batch copied during the augmentation is separate from the original in all columns and the data, so the two branches of a blending augmenter do not disturb each other.", "quantifier": "every batch with every combination of columns (arrays, lists, None), every content of the memory, every augmenter that works in place", "why_tests_cant": "Sharing of objects shows only if some augmenter writes to the shared one; tests augment few combinations of columns with few augmenters", "anchors": ["imgaug/augmentables/batches.py:Batch", "imgaug/augmentables/batches.py:_BatchInAugmentation", "imgaug/augmentables/utils.py:copy_augmentables", "imgaug/augmentables/utils.py:deepcopy_fast"]}
{"id": "C138", "title": "Masks of noise for blending", "statement": "BlendAlphaSimplexNoise and BlendAlphaFrequencyNoise blend with masks that have a value in [0, 1] for every component, whatever numbers of iterations, methods of aggregation, thresholds and probabilities of a sigmoid are accepted and drawn. Without a sigmoid the mask is the (aggregated) noise; a sigmoid is applied with the requested probability; it gives more than one half exactly for noise above (threshold + 10) / 20, and higher thresholds give lower masks. Iterations outside of 1 to 10000, methods that are no texts and probabilities above 1 are rejected.", "quantifier": "every accepted combination of arguments, every sample of the parameters, every noise with values in [0, 1] and every size", "why_tests_cant": "The masks are random; tests replace the noise or look at a few masks of few sizes", "anchors": ["imgaug/augmenters/blend.py:BlendAlphaSimplexNoise", "imgaug/augmenters/blend.py:BlendAlphaFrequencyNoise", "imgaug/parameters.py:Sigmoid.create_for_noise", "imgaug/parameters.py:handle_probability_param"]}
{"id": "C139", "title": "Grids of augmented images", "statement": "Augmenter.draw_grid shows the results of augmenting n images in a grid with rows * n rows and cols columns of cells, in which the rows of the images take turns: the cell in row r * n + i and column c shows result r * cols + c of augmenting image i, the same image passed twice being shown with the same results. Cells are as large as the largest result, do not overlap, and everything else is zero; the grid has three channels and the dtype of the first result. No images, no rows or columns, other numbers of axes, and results with other numbers of channels than one and three are rejected. The images that were passed are not changed.", "quantifier": "every list or array of images, every number of rows and columns, every deterministic augmenter that returns as many images as it gets, whatever their sizes", "why_tests_cant": "The positions depend on the number of images, rows, columns and on the sizes of all the results; tests use one image size and few cells", "anchors": ["imgaug/augmenters/meta.py:Augmenter.draw_grid"]}
{"id": "C140", "title": "Adding values and noise component by component", "statement": "add_elementwise adds to every component of an image the value of its pixel and channel, or of its pixel if the values have no channels or one. The result has the shape and dtype of the image and is limited to its range, never wrapped around; values are rounded unless the image has floats. Values that cannot be added are rejected. AddElementwise and the augmenters for additive noise draw one value per pixel, or one per component if the sample of per_channel is above 0.5, and treat every image of a batch on its own.", "quantifier": "every image of every supported dtype, shape and number of channels, all values of all dtypes, all samples, every batch", "why_tests_cant": "The result depends on the combination of two dtypes, on the number of channels, on the position of the values and on their size; tests use few constants", "anchors": ["imgaug/augmenters/arithmetic.py:add_elementwise", "imgaug/augmenters/arithmetic.py:AddElementwise._augment_batch_"]}
{"id": "C141", "title": "The ordered tree of the sweep for crossings", "statement": "In the tree in which the sweep for crossings of polygon edges keeps its events, looking up a key gives the value stored for it, the smallest and the largest item are those first and last in order, the successor and the predecessor of a key are the items next to it and exist exactly if the key is in the tree and not at that end, iterating gives every item once in ascending or descending order, limited to the given range of keys, and rotating a node changes neither the items nor their order. Inserting an item into a tree that was made by insertions ends, keeps the keys in order, replaces the value of an equal key and keeps all other items, so that afterwards every key has the value inserted last.", "quantifier": "every tree whose keys are in order, every key, every comparison that is a linear order, every range of keys, both directions of iteration and of rotation, every sequence of insertions", "why_tests_cant": "The results depend on the shape of the tree, which depends on the order of all insertions and removals; tests build few trees", "anchors": ["imgaug/external/poly_point_isect_py2py3.py:_ABCTree.get_value", "imgaug/external/poly_point_isect_py2py3.py:_ABCTree.succ_item", "imgaug/external/poly_point_isect_py2py3.py:_ABCTree.prev_item", "imgaug/external/poly_point_isect_py2py3.py:_ABCTree._iter_items", "imgaug/external/poly_point_isect_py2py3.py:RBTree.jsw_single", "imgaug/external/poly_point_isect_py2py3.py:RBTree.insert"]}

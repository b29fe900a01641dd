{
 "claims": [
  {
   "property": "C01",
   "status": "proved",
   "theorems": [
    "Imgaug.Props.bb_init_wf",
    "Imgaug.Props.bb_init_spans",
    "Imgaug.Props.bb_init_label",
    "Imgaug.Props.bb_init_swap",
    "Imgaug.Props.bb_init_of_wf",
    "Imgaug.Props.bbs_fill_from_xyxy_any"
   ],
   "note": ""
  },
  {
   "property": "C02",
   "status": "proved",
   "theorems": [
    "Imgaug.Props.bb_intersection_points",
    "Imgaug.Props.bb_intersection_none",
    "Imgaug.Props.bb_intersection_wf",
    "Imgaug.Props.bb_intersection_comm",
    "Imgaug.Props.bb_intersection_self",
    "Imgaug.Props.bb_intersection_assoc",
    "Imgaug.Props.bb_contains_iff"
   ],
   "note": ""
  },
  {
   "property": "C03",
   "status": "proved",
   "theorems": [
    "Imgaug.Props.bb_union_contains",
    "Imgaug.Props.bb_union_least",
    "Imgaug.Props.bb_union_wf",
    "Imgaug.Props.bb_union_comm",
    "Imgaug.Props.bb_union_assoc"
   ],
   "note": ""
  },
  {
   "property": "C04",
   "status": "proved",
   "theorems": [
    "Imgaug.Props.bb_iou_formula",
    "Imgaug.Props.bb_iou_comm",
    "Imgaug.Props.bb_iou_range",
    "Imgaug.Props.bb_iou_self",
    "Imgaug.Props.bb_iou_one",
    "Imgaug.Props.bb_iou_zero"
   ],
   "note": ""
  },
  {
   "property": "C05",
   "status": "proved",
   "theorems": [
    "Imgaug.Props.bb_ooi_area",
    "Imgaug.Props.bb_ooi_area_range",
    "Imgaug.Props.bb_ooi_fraction_range",
    "Imgaug.Props.bb_ooi_fraction_zero",
    "Imgaug.Props.bb_ooi_fraction_one",
    "Imgaug.Props.bb_ooi_fraction_degenerate"
   ],
   "note": ""
  },
  {
   "property": "C06",
   "status": "proved",
   "theorems": [
    "Imgaug.Props.bb_clip_defined",
    "Imgaug.Props.bb_clip_in_plane",
    "Imgaug.Props.bb_clip_inside",
    "Imgaug.Props.bb_clip_idem",
    "Imgaug.Props.bb_clip_shrinks",
    "Imgaug.Props.bb_partly_iff",
    "Imgaug.Props.bb_clip_eq_intersection",
    "Imgaug.Props.bb_fully_not_partly_sliver"
   ],
   "note": "Extra finding: a box that touches the image border only at a sliver can be fully within the image but not partly (bb_fully_not_partly_sliver)."
  },
  {
   "property": "C07",
   "status": "proved",
   "theorems": [
    "Imgaug.Props.bb_out_of_image_cases",
    "Imgaug.Props.bb_fully_iff",
    "Imgaug.Props.bbs_remove_out_of_image_all",
    "Imgaug.Props.bbs_remove_out_of_image_default",
    "Imgaug.Props.bbs_remove_sublist",
    "Imgaug.Props.bbs_remove_exact",
    "Imgaug.Props.bbs_remove_fraction",
    "Imgaug.Props.bbs_clip"
   ],
   "note": ""
  },
  {
   "property": "C08",
   "status": "proved",
   "theorems": [
    "Imgaug.Props.bbs_keypoints_roundtrip",
    "Imgaug.Props.bbs_from_any_keypoints",
    "Imgaug.Props.bbs_xyxy_roundtrip",
    "Imgaug.Props.bb_keypoints_are_corners",
    "Imgaug.Props.from_point_soup_tightest",
    "Imgaug.Props.bbs_fill_from_xyxy_any",
    "Imgaug.Props.kps_invert_any"
   ],
   "note": ""
  },
  {
   "property": "C09",
   "status": "proved",
   "theorems": [
    "Imgaug.Props.project_defined",
    "Imgaug.Props.project_relative",
    "Imgaug.Props.project_same",
    "Imgaug.Props.project_roundtrip",
    "Imgaug.Props.projectPt_roundtrip",
    "Imgaug.Props.project_compose",
    "Imgaug.Props.project_inside",
    "Imgaug.Props.bb_project_props",
    "Imgaug.Props.kps_on_roundtrip",
    "Imgaug.Props.bbs_on_roundtrip",
    "Imgaug.Props.polygon_project_roundtrip"
   ],
   "note": ""
  },
  {
   "property": "C10",
   "status": "proved",
   "theorems": [
    "Imgaug.Props.pt_shift_action",
    "Imgaug.Props.bb_shift_action",
    "Imgaug.Props.bb_shift_points",
    "Imgaug.Props.list_shift_action",
    "Imgaug.Props.onimage_shift",
    "Imgaug.Props.shift_args"
   ],
   "note": ""
  },
  {
   "property": "C11",
   "status": "proved",
   "theorems": [
    "Imgaug.Props.kp_out_of_image_iff",
    "Imgaug.Props.kps_remove_exact",
    "Imgaug.Props.kps_clip_exact",
    "Imgaug.Props.kps_remove_extremes",
    "Imgaug.Props.kps_xy_roundtrip",
    "Imgaug.Props.kps_invert_any"
   ],
   "note": ""
  },
  {
   "property": "C12",
   "status": "proved",
   "theorems": [
    "Imgaug.Props.manhattan_count",
    "Imgaug.Props.manhattan_points",
    "Imgaug.Props.manhattan_nodup",
    "Imgaug.Props.manhattan_distance"
   ],
   "note": ""
  },
  {
   "property": "C13",
   "status": "proved",
   "theorems": [
    "Imgaug.Props.interpolate_closed",
    "Imgaug.Props.interpolate_open",
    "Imgaug.Props.interpolate_trivial",
    "Imgaug.Props.ls_subdivide",
    "Imgaug.Props.polygon_subdivide"
   ],
   "note": ""
  },
  {
   "property": "C14",
   "status": "partial",
   "theorems": [
    "Imgaug.Props.interpolate_by_max_distance_partial",
    "Imgaug.Props.interpolate_by_max_distance_invalid",
    "Imgaug.Props.interpolate_by_max_distance_exceeds"
   ],
   "note": "The documented bound is false of the code (interpolate_by_max_distance_exceeds); the proved bound is twice the maximum distance."
  },
  {
   "property": "C15",
   "status": "partial",
   "theorems": [
    "Imgaug.Props.polygon_rotate_partial",
    "Imgaug.Props.polygon_rotate_undo_partial",
    "Imgaug.Props.polygon_rotate_invalid",
    "Imgaug.Props.polygon_rotate_loses_point"
   ],
   "note": "False for rings with (almost) equal consecutive points, see polygon_rotate_loses_point; proved for all others."
  },
  {
   "property": "C16",
   "status": "proved",
   "theorems": [
    "Imgaug.Props.polygon_init_closed",
    "Imgaug.Props.polygon_init_cases",
    "Imgaug.Props.polygon_linestring_roundtrip",
    "Imgaug.Props.polygon_linestring_open",
    "Imgaug.Props.coords_to_bb_tightest",
    "Imgaug.Props.polygon_deepcopy_shrinks",
    "Imgaug.Props.polygon_deepcopy_faithful_iff"
   ],
   "note": "deepcopy is not faithful for rings that still end close to their start (polygon_deepcopy_shrinks); exact condition proved."
  },
  {
   "property": "C17",
   "status": "proved",
   "theorems": [
    "Imgaug.Props.fit_best_spec",
    "Imgaug.Props.fit_best_nodup",
    "Imgaug.Props.fit_best_duplicates",
    "Imgaug.Props.recover_valid",
    "Imgaug.Props.remove_duplicates_spec",
    "Imgaug.Props.insert_intersections_spec",
    "Imgaug.Props.recover_spec",
    "Imgaug.Props.recover_degenerate_fails",
    "Imgaug.Props.recover_few_points"
   ],
   "note": "Without the restriction on the validity test an index may be repeated (fit_best_duplicates). If fewer than three points remain, recovery fails (recover_degenerate_fails)."
  },
  {
   "property": "C18",
   "status": "proved",
   "theorems": [
    "Imgaug.Props.heatmap_roundtrip",
    "Imgaug.Props.heatmap_init_valid",
    "Imgaug.Props.heatmap_from_0to1",
    "Imgaug.Props.heatmap_invert_involutive",
    "Imgaug.Props.heatmap_invert_values",
    "Imgaug.Props.heatmap_transform_loses_2d",
    "Imgaug.Props.change_normalization_spec",
    "Imgaug.Props.change_normalization_compose",
    "Imgaug.Props.change_normalization_range",
    "Imgaug.Props.segmap_roundtrip",
    "Imgaug.Props.segmap_result_dtype",
    "Imgaug.Props.segmap_rejects_large"
   ],
   "note": "The number of dimensions is lost when a 2D heatmap goes through resize/pad etc. (heatmap_transform_loses_2d)."
  },
  {
   "property": "C19",
   "status": "partial",
   "theorems": [
    "Imgaug.Props.heatmap_unchecked_values",
    "Imgaug.Props.heatmap_clipped_partial",
    "Imgaug.Props.heatmap_init_none",
    "Imgaug.Props.segmap_nonneg_partial",
    "Imgaug.Props.segmap_unchecked_values"
   ],
   "note": "False as stated: only the first 50 (100) values are looked at (heatmap_unchecked_values, segmap_unchecked_values). Proved: if a bad value is seen, the result is clipped."
  },
  {
   "property": "C20",
   "status": "proved",
   "theorems": [
    "Imgaug.Props.uint8_roundtrip",
    "Imgaug.Props.uint8_quantisation"
   ],
   "note": ""
  },
  {
   "property": "C21",
   "status": "partial",
   "theorems": [
    "Imgaug.Props.keypoint_image_exact",
    "Imgaug.Props.keypoint_image_found",
    "Imgaug.Props.keypoint_image_recovers",
    "Imgaug.Props.keypoint_image_not_found_partial",
    "Imgaug.Props.keypoint_image_bogus",
    "Imgaug.Props.keypoint_image_roundtrip",
    "Imgaug.Props.keypoint_image_even_size",
    "Imgaug.Props.distance_map_nearest",
    "Imgaug.Props.distance_map_exact"
   ],
   "note": "Far right/below keypoints are recovered although they are outside the image (keypoint_image_bogus)."
  },
  {
   "property": "C22",
   "status": "proved",
   "theorems": [
    "Imgaug.Props.subselect_spec",
    "Imgaug.Props.invert_subselect_spec",
    "Imgaug.Props.subselect_roundtrip"
   ],
   "note": ""
  },
  {
   "property": "C23",
   "status": "partial",
   "theorems": [
    "Imgaug.Props.normalize_roundtrip_partial",
    "Imgaug.Props.normalize_keypoints_roundtrip_partial",
    "Imgaug.Props.normalize_bounding_boxes_roundtrip_partial",
    "Imgaug.Props.normalize_array_fails",
    "Imgaug.Props.normalize_none_entry",
    "Imgaug.Props.normalize_mixed_dtypes",
    "Imgaug.Props.normalize_accepts",
    "Imgaug.Props.normalize_images_roundtrip",
    "Imgaug.Props.invert_images_spec",
    "Imgaug.Props.invert_images_array_to_list",
    "Imgaug.Props.normalize_meaning",
    "Imgaug.Props.normalize_wrong_shapes",
    "Imgaug.Props.invert_meaning",
    "Imgaug.Props.keypoint_numbers",
    "Imgaug.Props.bounding_box_numbers",
    "Imgaug.Props.bounding_box_numbers_swapped"
   ],
   "note": "Modelled for images, keypoints and bounding boxes. False for single arrays with several images (normalize_array_fails), lists with None first (normalize_none_entry) and lists of arrays with different dtypes (normalize_mixed_dtypes)."
  },
  {
   "property": "C24",
   "status": "proved",
   "theorems": [
    "Imgaug.Props.worker_seeds_valid",
    "Imgaug.Props.pool_accepts_seed"
   ],
   "note": ""
  },
  {
   "property": "C25",
   "status": "partial",
   "theorems": [
    "Imgaug.Props.worker_history_independent",
    "Imgaug.Props.pool_schedule_independent_partial",
    "Imgaug.Props.pool_global_parameter",
    "Imgaug.Props.pool_spawn_collision"
   ],
   "note": "False for parameters sampling with the global generator and for spawned processes with equal times, see the witnesses in Props/Pool."
  },
  {
   "property": "C26",
   "status": "proved",
   "theorems": [
    "Imgaug.Props.worker_seeds_distinct",
    "Imgaug.Props.worker_seeds_global_local"
   ],
   "note": ""
  },
  {
   "property": "C27",
   "status": "partial",
   "theorems": [
    "Imgaug.Props.batch_ids_consecutive_partial",
    "Imgaug.Props.batch_ids_duplicate"
   ],
   "note": ""
  },
  {
   "property": "C28",
   "status": "partial",
   "theorems": [
    "Imgaug.Props.imap_buffer_bound",
    "Imgaug.Props.imap_yields",
    "Imgaug.Props.imap_complete_partial"
   ],
   "note": ""
  },
  {
   "property": "C29",
   "status": "partial",
   "theorems": [
    "Imgaug.Props.imap_terminates",
    "Imgaug.Props.imap_complete_partial",
    "Imgaug.Props.imap_deadlock",
    "Imgaug.Props.imap_deadlock_iff"
   ],
   "note": ""
  },
  {
   "property": "C30",
   "status": "proved",
   "theorems": [
    "Imgaug.Props.background_no_duplicates",
    "Imgaug.Props.background_complete",
    "Imgaug.Props.background_progress",
    "Imgaug.Props.background_terminates",
    "Imgaug.Props.background_finishes",
    "Imgaug.Props.background_crash"
   ],
   "note": ""
  },
  {
   "property": "C31",
   "status": "proved",
   "theorems": [
    "Imgaug.Props.prefetch_stream",
    "Imgaug.Props.prefetch_order",
    "Imgaug.Props.prefetch_logged_outputs",
    "Imgaug.Props.prefetch_order_big_requests"
   ],
   "note": ""
  },
  {
   "property": "C32",
   "status": "partial",
   "theorems": [
    "Imgaug.Props.reseed_partial",
    "Imgaug.Props.reseed_in_place_stale"
   ],
   "note": ""
  },
  {
   "property": "C33",
   "status": "partial",
   "theorems": [
    "Imgaug.Props.legacy_aligned_partial",
    "Imgaug.Props.legacy_misaligned",
    "Imgaug.Props.new_style_aligned",
    "Imgaug.Props.legacy_generator"
   ],
   "note": ""
  },
  {
   "property": "C34",
   "status": "proved",
   "theorems": [
    "Imgaug.Meta.deterministic_keeps_rng",
    "Imgaug.Meta.other_rngs_advance",
    "Imgaug.Props.deterministic_call",
    "Imgaug.Props.deterministic_calls",
    "Imgaug.Props.legacy_generator"
   ],
   "note": ""
  },
  {
   "property": "C35",
   "status": "proved",
   "theorems": [
    "Imgaug.Props.prefetching_flag_restored",
    "Imgaug.Props.prefetching_flag_unchanged"
   ],
   "note": ""
  },
  {
   "property": "C36",
   "status": "proved",
   "theorems": [
    "Imgaug.Meta.sequential_is_composition",
    "Imgaug.Meta.sequential_nested",
    "Imgaug.Meta.sequential_empty",
    "Imgaug.Meta.sequential_random_order"
   ],
   "note": ""
  },
  {
   "property": "C37",
   "status": "proved",
   "theorems": [
    "Imgaug.Meta.someOf_rows",
    "Imgaug.Meta.oneOf_rows",
    "Imgaug.Meta.someOf_counts"
   ],
   "note": ""
  },
  {
   "property": "C38",
   "status": "proved",
   "theorems": [
    "Imgaug.Meta.sometimes_rows",
    "Imgaug.Meta.sometimes_child_lists"
   ],
   "note": ""
  },
  {
   "property": "C39",
   "status": "proved",
   "theorems": [
    "Imgaug.Props.propagation_hooks_spec",
    "Imgaug.Props.propagation_no_hooks",
    "Imgaug.Meta.deactivated_is_identity",
    "Imgaug.Meta.activator_hooks",
    "Imgaug.Meta.rejected_columns_unchanged",
    "Imgaug.Meta.pre_and_postprocessor"
   ],
   "note": ""
  },
  {
   "property": "C40",
   "status": "partial",
   "theorems": [
    "Imgaug.Tree.Props.preorder_exists_unique",
    "Imgaug.Tree.Props.get_all_children_partial",
    "Imgaug.Tree.Props.find_augmenters_partial",
    "Imgaug.Tree.Props.find_by_names_partial",
    "Imgaug.Tree.Props.remove_augmenters_partial",
    "Imgaug.Tree.Props.remove_augmenters_none_left_partial",
    "Imgaug.Tree.Props.remove_augmenters_cases",
    "Imgaug.Tree.Props.list_augmenter_not_found"
   ],
   "note": ""
  },
  {
   "property": "C41",
   "status": "proved",
   "theorems": [
    "Imgaug.Channels.with_channels_images",
    "Imgaug.Channels.with_channels_empty",
    "Imgaug.Channels.with_channels_none",
    "Imgaug.Channels.with_channels_cells",
    "Imgaug.Channels.with_channels_succeeds"
   ],
   "note": ""
  },
  {
   "property": "C42",
   "status": "partial",
   "theorems": [
    "Imgaug.Channels.shuffle_permutes_partial",
    "Imgaug.Channels.shuffle_repeated_channels",
    "Imgaug.Channels.channel_shuffle_images"
   ],
   "note": ""
  },
  {
   "property": "C43",
   "status": "proved",
   "theorems": [
    "Imgaug.Flip.fliplr_batch",
    "Imgaug.Flip.flipud_batch",
    "Imgaug.Flip.flip_twice",
    "Imgaug.Flip.flips_commute",
    "Imgaug.Flip.fliplr_aligned",
    "Imgaug.Flip.flipud_aligned"
   ],
   "note": ""
  },
  {
   "property": "C44",
   "status": "proved",
   "theorems": [
    "Imgaug.Rot.rot90_image_add",
    "Imgaug.Rot.rot90_image_four",
    "Imgaug.Rot.rot90_image_one",
    "Imgaug.Rot.rot90_keypoints_add",
    "Imgaug.Rot.rot90_shapes_agree",
    "Imgaug.Rot.rot90_aligned",
    "Imgaug.Rot.rot90_keep_size",
    "Imgaug.Rot.rot90_keypoints_turned",
    "Imgaug.Rot.rot90_bounding_boxes",
    "Imgaug.Rot.rot90_maps",
    "Imgaug.Rot.rot90_keep_size_arrays"
   ],
   "note": ""
  },
  {
   "property": "C45",
   "status": "partial",
   "theorems": [
    "Imgaug.Jigsaw.destinations_permute",
    "Imgaug.Jigsaw.one_step_partial",
    "Imgaug.Jigsaw.two_steps_move_any_distance",
    "Imgaug.Jigsaw.jigsaw_moves_cells",
    "Imgaug.Jigsaw.jigsaw_rejects",
    "Imgaug.Jigsaw.jigsaw_keeps_pixels",
    "Imgaug.Jigsaw.jigsaw_inverse",
    "Imgaug.Jigsaw.jigsaw_outside",
    "Imgaug.Jigsaw.jigsaw_aligned",
    "Imgaug.Jigsaw.jigsaw_coords"
   ],
   "note": ""
  },
  {
   "property": "C46",
   "status": "proved",
   "theorems": [
    "Imgaug.Size.prevent_zero_size",
    "Imgaug.Size.prevent_zero_size_unchanged",
    "Imgaug.Size.prevent_zero_size_even",
    "Imgaug.Size.prevent_zero_size_empty",
    "Imgaug.Size.crop_not_empty",
    "Imgaug.Size.crop_pad_maps_not_empty"
   ],
   "note": ""
  },
  {
   "property": "C47",
   "status": "proved",
   "theorems": [
    "Imgaug.Size.crop_pad_shapes",
    "Imgaug.Size.crop_pad_aligned_general",
    "Imgaug.Size.crop_bounds",
    "Imgaug.Size.crop_pad_aligned",
    "Imgaug.Size.pad_then_crop",
    "Imgaug.Size.crop_and_pad_px",
    "Imgaug.Size.crop_pad_keep_size",
    "Imgaug.Size.crop_pad_maps",
    "Imgaug.Size.crop_pad_maps_not_empty",
    "Imgaug.Size.crop_pad_keep_size_arrays",
    "Imgaug.Size.crop_and_pad_percent"
   ],
   "note": ""
  },
  {
   "property": "C48",
   "status": "proved",
   "theorems": [
    "Imgaug.Size.paddings_multiples",
    "Imgaug.Size.croppings_multiples",
    "Imgaug.Size.multiples_reject_zero",
    "Imgaug.Size.crop_to_multiples",
    "Imgaug.Size.crop_to_multiples_small",
    "Imgaug.Size.pad_to_multiples"
   ],
   "note": "The documented exception of CropToMultiplesOf (axes smaller than the multiple are not changed) is false of the code: crop_to_multiples_small."
  },
  {
   "property": "C49",
   "status": "partial",
   "theorems": [
    "Imgaug.Size.paddings_powers_partial",
    "Imgaug.Size.paddings_powers_empty",
    "Imgaug.Size.paddings_powers_one",
    "Imgaug.Size.croppings_powers_partial",
    "Imgaug.Size.croppings_powers_small",
    "Imgaug.Size.powers_reject",
    "Imgaug.Size.paddings_powers_rounded",
    "Imgaug.Size.croppings_powers_rounded",
    "Imgaug.Size.powers_rounding_errors"
   ],
   "note": "Proved with exact logarithms. False for axes of size one with allow_zero_exponent (paddings_powers_one) and, with rounded logarithms, for sizes that are already powers (powers_rounding_errors); what holds with small errors is paddings_powers_rounded and croppings_powers_rounded."
  },
  {
   "property": "C50",
   "status": "proved",
   "theorems": [
    "Imgaug.Size.paddings_ratio",
    "Imgaug.Size.paddings_ratio_empty",
    "Imgaug.Size.croppings_ratio",
    "Imgaug.Size.croppings_ratio_direction",
    "Imgaug.Size.ratio_rejects"
   ],
   "note": "The documented 'rather one pixel too few than one pixel too many' is false (croppings_ratio_direction)."
  },
  {
   "property": "C51",
   "status": "proved",
   "theorems": [
    "Imgaug.Size.pad_fixed_amounts",
    "Imgaug.Size.crop_fixed_amounts",
    "Imgaug.Size.pad_fixed_size",
    "Imgaug.Size.crop_fixed_size",
    "Imgaug.Size.fixed_size_exact"
   ],
   "note": ""
  },
  {
   "property": "C52",
   "status": "partial",
   "theorems": [
    "Imgaug.Size.resize_size_partial",
    "Imgaug.Size.resize_keep_ratio",
    "Imgaug.Size.resize_keep_ratio_empty",
    "Imgaug.Size.resize_shorter_longer",
    "Imgaug.Size.resize_maps",
    "Imgaug.Size.resize_rejects"
   ],
   "note": "False with keep-aspect-ratio, see resize_keep_ratio_empty."
  },
  {
   "property": "C53",
   "status": "partial",
   "theorems": [
    "Imgaug.Dtypes.value_ranges",
    "Imgaug.Dtypes.clip_to_range",
    "Imgaug.Dtypes.clamp_laws",
    "Imgaug.Dtypes.change_dtype_partial",
    "Imgaug.Dtypes.change_dtype_accepts",
    "Imgaug.Dtypes.change_dtype_keeps_partial",
    "Imgaug.Dtypes.bound_does_not_fit",
    "Imgaug.Dtypes.change_dtype_overflows",
    "Imgaug.Dtypes.change_dtypes_list",
    "Imgaug.Dtypes.clip_to_range_list_partial",
    "Imgaug.Dtypes.clip_to_range_validated",
    "Imgaug.Dtypes.clip_to_range_first",
    "Imgaug.Dtypes.increase_itemsize"
   ],
   "note": "False for conversions whose upper bound is not stored exactly in the source dtype, e.g. float32 to int32 (change_dtype_overflows); exactly these pairs are excluded (bound_does_not_fit)."
  },
  {
   "property": "C54",
   "status": "proved",
   "theorems": [
    "Imgaug.Dtypes.gate_exhaustive",
    "Imgaug.Dtypes.gate_strs",
    "Imgaug.Dtypes.clip_gate"
   ],
   "note": ""
  },
  {
   "property": "C55",
   "status": "partial",
   "theorems": [
    "Imgaug.Pooling.pool_blocks",
    "Imgaug.Pooling.pool_pixel_in_one_block",
    "Imgaug.Pooling.minmax_pool_uint8",
    "Imgaug.Pooling.median_pool_uint8",
    "Imgaug.Pooling.pool_trivial",
    "Imgaug.Pooling.max_pool_edge",
    "Imgaug.Pooling.pool_order",
    "Imgaug.Pooling.default_paddings_break_order",
    "Imgaug.Pooling.reflect_mirrors"
   ],
   "note": "Max pooling is not always >= average pooling with the default paddings, see default_paddings_break_order; pool_order proves the order for equal paddings."
  },
  {
   "property": "C56",
   "status": "proved",
   "theorems": [
    "Imgaug.Grid.draw_grid_square",
    "Imgaug.Grid.draw_grid_rows",
    "Imgaug.Grid.draw_grid_cols",
    "Imgaug.Grid.draw_grid_rejects",
    "Imgaug.Grid.cells_disjoint",
    "Imgaug.Grid.draw_grid_negative"
   ],
   "note": ""
  },
  {
   "property": "C57",
   "status": "partial",
   "theorems": [
    "Imgaug.Params.deterministic_list_cycles",
    "Imgaug.Params.deterministic_list_empty",
    "Imgaug.Params.deterministic_constant",
    "Imgaug.Params.deterministic_wraps",
    "Imgaug.Params.choice_listed_partial",
    "Imgaug.Params.choice_wraps",
    "Imgaug.Params.discrete_uniform_range",
    "Imgaug.Params.uniform_range",
    "Imgaug.Params.binomial_range",
    "Imgaug.Params.binomial_rejects",
    "Imgaug.Params.poisson_range",
    "Imgaug.Params.beta_range",
    "Imgaug.Params.normal_constant",
    "Imgaug.Params.truncated_normal_range_partial",
    "Imgaug.Params.truncated_normal_ignores_bounds",
    "Imgaug.Params.clip_range",
    "Imgaug.Params.clip_one_sided",
    "Imgaug.Params.discretize_float32_partial",
    "Imgaug.Params.discretize_ints",
    "Imgaug.Params.discretize_wraps",
    "Imgaug.Params.floordiv_rounds",
    "Imgaug.Params.absolute_range",
    "Imgaug.Params.random_sign_range",
    "Imgaug.Params.force_sign_invert",
    "Imgaug.Params.force_sign_reroll_partial",
    "Imgaug.Params.force_sign_reroll_wrong",
    "Imgaug.Params.arithmetic",
    "Imgaug.Params.divide_range",
    "Imgaug.Params.choice_kinds",
    "Imgaug.Params.operators",
    "Imgaug.Params.floordiv_once",
    "Imgaug.Params.force_sign_reroll_rows",
    "Imgaug.Params.choice_items_partial",
    "Imgaug.Params.choice_items_total",
    "Imgaug.Params.choice_items_confused",
    "Imgaug.Params.in_place_consistent",
    "Imgaug.Params.in_place_corrupts",
    "Imgaug.Params.in_place_tiled",
    "Imgaug.Params.least_ok"
   ],
   "note": "False for integers of more than 32 bits (deterministic_wraps, choice_wraps), Discretize of float32 beyond int16 (discretize_wraps), TruncatedNormal with scale 0 (truncated_normal_ignores_bounds), ForceSign reroll in several dimensions (force_sign_reroll_wrong), Choice between parameters with equal str() (choice_items_confused), and in-place operations on a DeterministicList (in_place_corrupts)."
  },
  {
   "property": "C58",
   "status": "partial",
   "theorems": [
    "Imgaug.Params.range_check",
    "Imgaug.Params.continuous_accepts",
    "Imgaug.Params.continuous_result",
    "Imgaug.Params.discrete_accepts",
    "Imgaug.Params.discrete_result",
    "Imgaug.Params.continuous_samples",
    "Imgaug.Params.discrete_samples_partial",
    "Imgaug.Params.discrete_out_of_range",
    "Imgaug.Params.kernel_accepts",
    "Imgaug.Params.kernel_range",
    "Imgaug.Params.kernel_mixed",
    "Imgaug.Params.probability_accepts",
    "Imgaug.Params.probability_samples",
    "Imgaug.Params.probability_value",
    "Imgaug.Params.kernel_pair"
   ],
   "note": "The range is checked before numbers are truncated to integers, so that range bounds that are not integers can be left (discrete_out_of_range); discrete_samples_partial assumes integral bounds."
  },
  {
   "property": "C59",
   "status": "proved",
   "theorems": [
    "Imgaug.Aug.augment_results",
    "Imgaug.Aug.augment_rejects",
    "Imgaug.Aug.augment_return_batch"
   ],
   "note": ""
  },
  {
   "property": "C60",
   "status": "partial",
   "theorems": [
    "Imgaug.Tree.Props.seed_partial",
    "Imgaug.Tree.Props.seed_shape_partial",
    "Imgaug.Tree.Props.seed_reproducible_partial",
    "Imgaug.Tree.Props.seed_reproducible_default_partial",
    "Imgaug.Tree.Props.seed_keeps_list_augmenters",
    "Imgaug.Tree.Props.seed_not_reproducible",
    "Imgaug.Tree.Props.localize_partial",
    "Imgaug.Tree.Props.localize_no_global_partial",
    "Imgaug.Tree.Props.localize_keeps_global",
    "Imgaug.Tree.Props.copy_by_position_partial",
    "Imgaug.Tree.Props.copy_by_position_rejects",
    "Imgaug.Tree.Props.copy_by_name_partial",
    "Imgaug.Tree.Props.copy_by_name_repeated_partial",
    "Imgaug.Tree.Props.copy_keeps_list_augmenters"
   ],
   "note": "RNG.copy is taken to be exact here; C90 shows that it loses a cached number."
  },
  {
   "property": "C61",
   "status": "proved",
   "theorems": [
    "Imgaug.Lines.inter_exists",
    "Imgaug.Lines.fully_iff",
    "Imgaug.Lines.partly_iff",
    "Imgaug.Lines.partly_meets",
    "Imgaug.Lines.strip_missed",
    "Imgaug.Lines.classes",
    "Imgaug.Lines.empty_line",
    "Imgaug.Lines.clip_inside",
    "Imgaug.Lines.clip_keeps",
    "Imgaug.Lines.clip_fully",
    "Imgaug.Lines.fraction_range",
    "Imgaug.Lines.fraction_ends",
    "Imgaug.Lines.polygon_classes",
    "Imgaug.Lines.clip_crossing"
   ],
   "note": "Membership is decided with a border 0.001 inside of the image: a line within that strip is missed, see strip_missed."
  },
  {
   "property": "C62",
   "status": "proved",
   "theorems": [
    "Imgaug.AShape.compare_iff",
    "Imgaug.AShape.assert_shape_iff",
    "Imgaug.AShape.assert_shape_needs_four"
   ],
   "note": ""
  },
  {
   "property": "C63",
   "status": "partial",
   "theorems": [
    "Imgaug.TempSeed.avoids_old",
    "Imgaug.TempSeed.restored_partial",
    "Imgaug.TempSeed.no_entropy",
    "Imgaug.TempSeed.rejected_seed",
    "Imgaug.TempSeed.depends_on_global",
    "Imgaug.TempSeed.block_reproducible",
    "Imgaug.TempSeed.exit_state",
    "Imgaug.TempSeed.reentry_not_restored"
   ],
   "note": "False if one context object is used within its own block, see reentry_not_restored."
  },
  {
   "property": "C64",
   "status": "proved",
   "theorems": [
    "Imgaug.Lut.lut_pixel",
    "Imgaug.Lut.lut_accepts",
    "Imgaug.Lut.lut_recursion"
   ],
   "note": ""
  },
  {
   "property": "C65",
   "status": "partial",
   "theorems": [
    "Imgaug.Invert.invert_history",
    "Imgaug.Invert.invert_accepts",
    "Imgaug.Invert.invert_mirror",
    "Imgaug.Invert.invert_mirror_float",
    "Imgaug.Invert.invert_mirror_float_not_exact",
    "Imgaug.Invert.invert_twice",
    "Imgaug.Invert.invert_threshold_partial",
    "Imgaug.Invert.invert_threshold_fraction",
    "Imgaug.Invert.invert_threshold_negative",
    "Imgaug.Invert.solarize_spec",
    "Imgaug.Invert.invert_range_partial",
    "Imgaug.Invert.invert_range_int",
    "Imgaug.Invert.invert_range_float",
    "Imgaug.Invert.invert_below_range",
    "Imgaug.Invert.invert_shape"
   ],
   "note": "See the witness theorems in Props/Invert for the cases in which the English statement is false of the code."
  },
  {
   "property": "C66",
   "status": "partial",
   "theorems": [
    "Imgaug.AddMul.add_uint8",
    "Imgaug.AddMul.add_uint8_wrong_count",
    "Imgaug.AddMul.add_other_accepts",
    "Imgaug.AddMul.add_other_partial",
    "Imgaug.AddMul.add_wraps",
    "Imgaug.AddMul.add_python_int",
    "Imgaug.AddMul.add_flat",
    "Imgaug.AddMul.add_rounding",
    "Imgaug.AddMul.add_elementwise_uint8",
    "Imgaug.AddMul.add_elementwise_channels"
   ],
   "note": "See the witness theorems in Props/AddMul for the cases in which the English statement is false of the code."
  },
  {
   "property": "C67",
   "status": "partial",
   "theorems": [
    "Imgaug.AddMul.mul_uint8_partial",
    "Imgaug.AddMul.mul_uint8_rounding",
    "Imgaug.AddMul.mul_uint8_python",
    "Imgaug.AddMul.mul_uint8_count",
    "Imgaug.AddMul.mul_other_accepts",
    "Imgaug.AddMul.mul_other_partial",
    "Imgaug.AddMul.mul_wraps"
   ],
   "note": "See the witness theorems in Props/AddMul for the cases in which the English statement is false of the code."
  },
  {
   "property": "C68",
   "status": "partial",
   "theorems": [
    "Imgaug.Cutout.cutout_outside",
    "Imgaug.Cutout.cutout_number",
    "Imgaug.Cutout.cutout_list",
    "Imgaug.Cutout.cutout_fails",
    "Imgaug.Cutout.cutout_noise",
    "Imgaug.Cutout.cutout_noise_values",
    "Imgaug.Cutout.cutout_many_outside",
    "Imgaug.Cutout.cutout_many_last",
    "Imgaug.Cutout.cutout_batch",
    "Imgaug.Cutout.cutout_squared",
    "Imgaug.Cutout.replace_elementwise_partial"
   ],
   "note": ""
  },
  {
   "property": "C69",
   "status": "partial",
   "theorems": [
    "Imgaug.Blend.Props.blend_partial",
    "Imgaug.Blend.Props.blend_between_partial",
    "Imgaug.Blend.Props.blend_uint8_maps_partial",
    "Imgaug.Blend.Props.blend_bool_partial",
    "Imgaug.Blend.Props.blend_maps_change_equal_images",
    "Imgaug.Blend.Props.blend_overwrites_background",
    "Imgaug.Blend.Props.blend_checks_first_alpha_only",
    "Imgaug.Blend.Props.blend_dtype_depends_on_alpha",
    "Imgaug.Blend.Props.blend_accepts_one_alpha_per_pixel",
    "Imgaug.Blend.Props.blend_rejects",
    "Imgaug.Blend.Props.blend_empty"
   ],
   "note": "False for uint8 images with alpha maps, which are rounded twice (blend_maps_change_equal_images), for alphas of which only the first is in [0,1] (blend_checks_first_alpha_only); small uint8 maps overwrite the background (blend_overwrites_background)."
  },
  {
   "property": "C70",
   "status": "partial",
   "theorems": [
    "Imgaug.BlendAug.Props.blend_alpha_annotations",
    "Imgaug.BlendAug.Props.blend_alpha_no_channels",
    "Imgaug.BlendAug.Props.blend_alpha_image",
    "Imgaug.BlendAug.Props.mask_keypoints_partial",
    "Imgaug.BlendAug.Props.mask_keypoints_outside",
    "Imgaug.BlendAug.Props.mask_either_or",
    "Imgaug.BlendAug.Props.mask_without_values",
    "Imgaug.BlendAug.Props.mask_number_of_points",
    "Imgaug.BlendAug.Props.mask_maps",
    "Imgaug.BlendAug.Props.mask_one_half"
   ],
   "note": "False for keypoints outside of the image, which are rounded (mask_keypoints_outside), and for masks of exactly one half (mask_one_half)."
  },
  {
   "property": "C71",
   "status": "partial",
   "theorems": [
    "Imgaug.Affine.affine_coords_follow_pixels",
    "Imgaug.Affine.affine_documented_partial",
    "Imgaug.Affine.affine_leaves_out",
    "Imgaug.Affine.affine_injective",
    "Imgaug.Affine.affine_maps_partial",
    "Imgaug.Affine.affine_maps_misaligned",
    "Imgaug.Affine.affine_box",
    "Imgaug.Affine.affine_kept"
   ],
   "note": "False for a translation by exactly 0.0001 to the right (affine_leaves_out) and for maps with another aspect ratio than their image (affine_maps_misaligned)."
  },
  {
   "property": "C72",
   "status": "partial",
   "theorems": [
    "Imgaug.Affine.fit_contains_partial",
    "Imgaug.Affine.fit_minimal",
    "Imgaug.Affine.fit_ignores_translation",
    "Imgaug.Affine.fit_shapes_agree",
    "Imgaug.Affine.fit_coords_differ",
    "Imgaug.Affine.fit_coords_off",
    "Imgaug.Affine.fit_shape_mismatch",
    "Imgaug.Affine.fit_left_out"
   ],
   "note": "False: coordinates are displaced relative to the content (fit_coords_differ, fit_coords_off), shapes of annotations may differ from the image's (fit_shape_mismatch), and the fitting may be left out in a corner case (fit_left_out)."
  },
  {
   "property": "C73",
   "status": "partial",
   "theorems": [
    "Imgaug.Props.MaskGen.split_rows",
    "Imgaug.Props.MaskGen.gradient_values_partial",
    "Imgaug.Props.MaskGen.gradient_monotone",
    "Imgaug.Props.MaskGen.gradient_unit",
    "Imgaug.Props.MaskGen.gradient_inverted",
    "Imgaug.Props.MaskGen.gradient_inverted_range",
    "Imgaug.Props.MaskGen.gradient_mask",
    "Imgaug.Props.MaskGen.grid_cells",
    "Imgaug.Props.MaskGen.grid_exact",
    "Imgaug.Props.MaskGen.grid_clips",
    "Imgaug.Props.MaskGen.grid_more_cells",
    "Imgaug.Props.MaskGen.checkerboard_exact_partial",
    "Imgaug.Props.MaskGen.checkerboard_top_left",
    "Imgaug.Props.MaskGen.boxes_mask",
    "Imgaug.Props.MaskGen.class_mask",
    "Imgaug.Props.MaskGen.hue_table",
    "Imgaug.Props.MaskGen.hue_bins_used",
    "Imgaug.Props.MaskGen.hue_last_bin",
    "Imgaug.Props.MaskGen.rotation_bins",
    "Imgaug.Props.MaskGen.hue_alpha",
    "Imgaug.Props.MaskGen.invert_mask"
   ],
   "note": "False for inverted gradients (gradient_inverted_range), sizes that are no multiple of the number of cells (grid_more_cells, checkerboard_top_left) and for the last of four bins of hues (hue_last_bin)."
  },
  {
   "property": "C74",
   "status": "partial",
   "theorems": [
    "Imgaug.Resize.resized_shape",
    "Imgaug.Resize.sizes_accepted",
    "Imgaug.Resize.same_size_kept",
    "Imgaug.Resize.resize_succeeds",
    "Imgaug.Resize.automatic_method",
    "Imgaug.Resize.channel_alone",
    "Imgaug.Resize.values_in_dtype",
    "Imgaug.Resize.nearest_moves_pixels",
    "Imgaug.Resize.int8_clipped",
    "Imgaug.Resize.list_as_alone_partial",
    "Imgaug.Resize.list_of_one",
    "Imgaug.Resize.list_as_array",
    "Imgaug.Resize.list_mixes_dtypes",
    "Imgaug.Resize.bool_limit"
   ],
   "note": "False for lists of images of the same shape and different dtypes, which are converted to a common dtype (list_mixes_dtypes)."
  },
  {
   "property": "C75",
   "status": "partial",
   "theorems": [
    "Imgaug.KeepSize.images_restored",
    "Imgaug.KeepSize.images_stacked",
    "Imgaug.KeepSize.keypoints_restored",
    "Imgaug.KeepSize.images_and_keypoints_fit",
    "Imgaug.KeepSize.heatmaps_restored",
    "Imgaug.KeepSize.segmaps_restored",
    "Imgaug.KeepSize.images_and_heatmaps_fit_partial",
    "Imgaug.KeepSize.maps_and_images_apart",
    "Imgaug.KeepSize.segmaps_need_nearest",
    "Imgaug.KeepSize.same_sizes_kept",
    "Imgaug.KeepSize.added_columns_rejected"
   ],
   "note": "False for maps with an interpolation of their own (maps_and_images_apart); segmentation maps that follow images fail with every method but nearest (segmaps_need_nearest)."
  },
  {
   "property": "C76",
   "status": "partial",
   "theorems": [
    "Imgaug.Dropout.drop_probability",
    "Imgaug.Dropout.p_accepted",
    "Imgaug.Dropout.number_unchecked",
    "Imgaug.Dropout.dropout_image",
    "Imgaug.Dropout.dropout_gate",
    "Imgaug.Dropout.coarse_dropout",
    "Imgaug.Dropout.percent_size",
    "Imgaug.Dropout.low_res_alone_partial",
    "Imgaug.Dropout.low_res_truncates",
    "Imgaug.Dropout.dropout2d_accepts",
    "Imgaug.Dropout.dropout2d_flat_images",
    "Imgaug.Dropout.dropout2d_spec",
    "Imgaug.Dropout.dropout2d_keeps_partial",
    "Imgaug.Dropout.no_channels_drop",
    "Imgaug.Dropout.total_dropout",
    "Imgaug.Dropout.bool_samples_rejected",
    "Imgaug.Dropout.row_shapes"
   ],
   "note": "False for two-dimensional images in one array with annotations (dropout2d_flat_images), images without channels (no_channels_drop), FromLowerResolution with different methods (low_res_truncates) and single numbers as p (number_unchecked)."
  },
  {
   "property": "C77",
   "status": "partial",
   "theorems": [
    "Imgaug.MulElem.product_uint8_partial",
    "Imgaug.MulElem.unsigned_wrap",
    "Imgaug.MulElem.product_other_partial",
    "Imgaug.MulElem.integers_wrap",
    "Imgaug.MulElem.mask_product",
    "Imgaug.MulElem.accepts",
    "Imgaug.MulElem.gate_first",
    "Imgaug.MulElem.flat_multipliers_uint8",
    "Imgaug.MulElem.flat_multipliers_rejected",
    "Imgaug.MulElem.flat_images",
    "Imgaug.MulElem.channels_must_fit"
   ],
   "note": "False for integers of the same kind (integers_wrap), unsigned multipliers above 255 (unsigned_wrap) and multipliers of shape (H,W) (flat_multipliers_rejected)."
  },
  {
   "property": "C78",
   "status": "partial",
   "theorems": [
    "Imgaug.Wrap.only_prefetchers_added",
    "Imgaug.Wrap.disabled_unchanged",
    "Imgaug.Wrap.wrapped_once",
    "Imgaug.Wrap.not_nested",
    "Imgaug.Wrap.all_prefetched",
    "Imgaug.Wrap.prefetched_are_leaves_partial",
    "Imgaug.Wrap.only_prefetchable",
    "Imgaug.Wrap.random_inside_prefetched",
    "Imgaug.Wrap.prefetched_draws_frozen"
   ],
   "note": "False for random parameters that are not prefetchable themselves (random_inside_prefetched, prefetched_draws_frozen)."
  },
  {
   "property": "C79",
   "status": "partial",
   "theorems": [
    "Imgaug.Quantize.bin_is_floor",
    "Imgaug.Quantize.quantize_px",
    "Imgaug.Quantize.quantize_documented_partial",
    "Imgaug.Quantize.border_of_bins",
    "Imgaug.Quantize.quantize_near",
    "Imgaug.Quantize.quantize_colours",
    "Imgaug.Quantize.quantize_monotone",
    "Imgaug.Quantize.quantize_256",
    "Imgaug.Quantize.quantize_255_black",
    "Imgaug.Quantize.quantize_accepts",
    "Imgaug.Quantize.centres_idempotent",
    "Imgaug.Quantize.lower_ends_not_idempotent",
    "Imgaug.Quantize.posterize_bits",
    "Imgaug.Quantize.posterize_accepts",
    "Imgaug.Quantize.colours_drawn",
    "Imgaug.Quantize.bits_drawn",
    "Imgaug.Quantize.quantization_shape",
    "Imgaug.Quantize.quantization_alpha",
    "Imgaug.Quantize.quantization_channels",
    "Imgaug.Quantize.thin_images_rejected"
   ],
   "note": "False for 255 bins, with which every image becomes black (quantize_255_black), for components on the border of two bins (border_of_bins) and, in the augmenters, for thin images with max_size (thin_images_rejected). Floating point numbers are modelled with their rounding."
  },
  {
   "property": "C80",
   "status": "partial",
   "theorems": [
    "Imgaug.Contrast.gamma_value",
    "Imgaug.Contrast.gamma_laws",
    "Imgaug.Contrast.sigmoid_value",
    "Imgaug.Contrast.log_value",
    "Imgaug.Contrast.linear_value",
    "Imgaug.Contrast.linear_laws",
    "Imgaug.Contrast.linear_other",
    "Imgaug.Contrast.contrast_channels",
    "Imgaug.Contrast.contrast_no_channels",
    "Imgaug.Contrast.contrast_rows"
   ],
   "note": "False for images without channels with per_channel (contrast_no_channels). Exact arithmetic; skimage's functions for other dtypes than uint8 are not modelled, except for linear contrast."
  },
  {
   "property": "C81",
   "status": "partial",
   "theorems": [
    "Imgaug.Equalize.Props.equalize_table",
    "Imgaug.Equalize.Props.equalize_monotone",
    "Imgaug.Equalize.Props.equalize_like_pil_partial",
    "Imgaug.Equalize.Props.equalize_not_pil",
    "Imgaug.Equalize.Props.histogram",
    "Imgaug.Equalize.Props.equalize_px",
    "Imgaug.Equalize.Props.equalize_channels",
    "Imgaug.Equalize.Props.equalize_mask_ignored",
    "Imgaug.Equalize.Props.equalize_accepts",
    "Imgaug.Equalize.Props.equalize_input_partial",
    "Imgaug.Equalize.Props.equalize_changes_input",
    "Imgaug.Equalize.Props.equalize_batch",
    "Imgaug.Equalize.Props.autocontrast_ends",
    "Imgaug.Equalize.Props.autocontrast_like_pil",
    "Imgaug.Equalize.Props.autocontrast_stretch_partial",
    "Imgaug.Equalize.Props.autocontrast_bright",
    "Imgaug.Equalize.Props.autocontrast_not_white",
    "Imgaug.Equalize.Props.autocontrast_px",
    "Imgaug.Equalize.Props.autocontrast_accepts"
   ],
   "note": "False: small images are equalised in-place (equalize_changes_input), the own table differs from PIL's if the value 255 does not occur (equalize_not_pil), masks are ignored for images with other than 1 or 3 channels (equalize_mask_ignored), the lightest value may become 254 (autocontrast_not_white)."
  },
  {
   "property": "C82",
   "status": "partial",
   "theorems": [
    "Imgaug.Color.Props.change_accepts",
    "Imgaug.Color.Props.change_px",
    "Imgaug.Color.Props.change_empty",
    "Imgaug.Color.Props.gray_channels",
    "Imgaug.Color.Props.change_argument",
    "Imgaug.Color.Props.change_back",
    "Imgaug.Color.Props.changes_each",
    "Imgaug.Color.Props.changes_length",
    "Imgaug.Color.Props.colorspace_faded_partial",
    "Imgaug.Color.Props.alpha_ignored",
    "Imgaug.Color.Props.grayscale_mixes_rgb",
    "Imgaug.Color.Props.alpha_list_array",
    "Imgaug.Color.Props.colorspace_batch",
    "Imgaug.Color.Props.grayscale_batch",
    "Imgaug.Color.Props.grayscale_full"
   ],
   "note": "False: the alpha of ChangeColorspace is ignored for lists of images, as the conversion works in-place (alpha_ignored), Grayscale of non-RGB input blends with RGB (grayscale_mixes_rgb), and lists and arrays differ (alpha_list_array)."
  },
  {
   "property": "C83",
   "status": "partial",
   "theorems": [
    "Imgaug.Hue.Props.hue_shift",
    "Imgaug.Hue.Props.hue_turns",
    "Imgaug.Hue.Props.backends_agree",
    "Imgaug.Hue.Props.add_px",
    "Imgaug.Hue.Props.saturation_256",
    "Imgaug.Hue.Props.saturation_minus_257",
    "Imgaug.Hue.Props.add_no_images",
    "Imgaug.Hue.Props.hue_scale",
    "Imgaug.Hue.Props.hue_drifts",
    "Imgaug.Hue.Props.hue_drifts_down",
    "Imgaug.Hue.Props.with_hue_saturation_partial",
    "Imgaug.Hue.Props.with_colorspace",
    "Imgaug.Hue.Props.with_colorspace_nothing",
    "Imgaug.Hue.Props.with_colorspace_gray",
    "Imgaug.Hue.Props.with_brightness",
    "Imgaug.Hue.Props.brightness_broadcasts",
    "Imgaug.Hue.Props.brightness_rejects"
   ],
   "note": "False: WithHueAndSaturation without children decreases hues (hue_drifts, hue_drifts_down), a saturation of +256 wraps in the table (saturation_256), batches without images raise (add_no_images), children of WithBrightnessChannels that resize are broadcast (brightness_broadcasts)."
  },
  {
   "property": "C84",
   "status": "partial",
   "theorems": [
    "Imgaug.Segments.Props.flags_by_id",
    "Imgaug.Segments.Props.flags_by_rank",
    "Imgaug.Segments.Props.all_replaced",
    "Imgaug.Segments.Props.flags_documented_partial",
    "Imgaug.Segments.Props.flags_shifted",
    "Imgaug.Segments.Props.backends_agree",
    "Imgaug.Segments.Props.no_flags",
    "Imgaug.Segments.Props.nothing_to_replace",
    "Imgaug.Segments.Props.within",
    "Imgaug.Segments.Props.idempotent",
    "Imgaug.Segments.Props.darker",
    "Imgaug.Segments.Props.bool_any",
    "Imgaug.Segments.Props.voronoi_all",
    "Imgaug.Segments.Props.voronoi_mask_partial",
    "Imgaug.Segments.Props.voronoi_mask_shifted",
    "Imgaug.Segments.Props.voronoi_no_cells",
    "Imgaug.Segments.Props.max_size",
    "Imgaug.Segments.Props.voronoi_shape",
    "Imgaug.Segments.Props.voronoi_image_partial",
    "Imgaug.Segments.Props.superpixels_shape",
    "Imgaug.Segments.Props.superpixels_none",
    "Imgaug.Segments.Props.superpixels_image_partial"
   ],
   "note": "False if an id has no pixel: numpy's implementation, used without numba and for all dtypes but 8 bit integers, gives the flags to the wrong segments (flags_shifted, voronoi_mask_shifted); for empty flags (no_flags); bool images become True where any pixel is (bool_any)."
  },
  {
   "property": "C85",
   "status": "proved",
   "theorems": [
    "Imgaug.Points.Props.grid_points",
    "Imgaug.Points.Props.relative_points",
    "Imgaug.Points.Props.uniform_points",
    "Imgaug.Points.Props.dropout_points",
    "Imgaug.Points.Props.subsample_points",
    "Imgaug.Points.Props.subsample_negative",
    "Imgaug.Points.Props.points_inside",
    "Imgaug.Points.Props.dropout_images",
    "Imgaug.Points.Props.no_images",
    "Imgaug.Points.Props.p_drop",
    "Imgaug.Points.Props.p_drop_unchecked"
   ],
   "note": "False for negative limits of SubsamplingPointsSampler (subsample_negative) and unchecked single numbers as p_drop (p_drop_unchecked)."
  },
  {
   "property": "C86",
   "status": "partial",
   "theorems": [
    "Imgaug.Replace.replaced",
    "Imgaug.Replace.result_iff",
    "Imgaug.Replace.one_replacement",
    "Imgaug.Replace.shared_partial",
    "Imgaug.Replace.per_channel_partial",
    "Imgaug.Replace.works_iff",
    "Imgaug.Replace.other_masks_raise",
    "Imgaug.Replace.other_masks_repeat",
    "Imgaug.Replace.batch",
    "Imgaug.Replace.salt_pepper_partial",
    "Imgaug.Replace.noise_other_dtypes",
    "Imgaug.Replace.salt_and_pepper_range",
    "Imgaug.Replace.coarse"
   ],
   "note": "False for masks that are not zeros and ones, although the documentation allows them: the number of replacements is the sum of the mask (other_masks_raise, other_masks_repeat, works_iff says exactly when there is a result); for other dtypes than uint8 the noise has the wrong range (noise_other_dtypes)."
  },
  {
   "property": "C87",
   "status": "partial",
   "theorems": [
    "Imgaug.Conv.one_matrix",
    "Imgaug.Conv.matrix_per_channel",
    "Imgaug.Conv.one_matrix_as_list",
    "Imgaug.Conv.result_iff",
    "Imgaug.Conv.three_axes_raise",
    "Imgaug.Conv.empty_kept",
    "Imgaug.Conv.average_within",
    "Imgaug.Conv.flat_channel",
    "Imgaug.Conv.alpha_range",
    "Imgaug.Conv.blends",
    "Imgaug.Conv.alpha_zero",
    "Imgaug.Conv.flat_effects",
    "Imgaug.Conv.directed_weights",
    "Imgaug.Conv.turns_partial",
    "Imgaug.Conv.negative_turns",
    "Imgaug.Conv.batch"
   ],
   "note": "False for directions below zero, which are truncated towards zero: -0.001 is taken for 0 degrees, 0.999 for 359 (negative_turns); three-dimensional arrays of matrices raise, although they are documented (three_axes_raise)."
  },
  {
   "property": "C88",
   "status": "partial",
   "theorems": [
    "Imgaug.Blur.ksize_bounds",
    "Imgaug.Blur.ksize_not_monotone",
    "Imgaug.Blur.ksize_monotone_partial",
    "Imgaug.Blur.gaussian_kept",
    "Imgaug.Blur.gaussian_result_iff",
    "Imgaug.Blur.unknown_backend",
    "Imgaug.Blur.gaussian_within",
    "Imgaug.Blur.gaussian_channels",
    "Imgaug.Blur.gaussian_ksize",
    "Imgaug.Blur.average_kept",
    "Imgaug.Blur.average",
    "Imgaug.Blur.average_arguments",
    "Imgaug.Blur.average_sizes",
    "Imgaug.Blur.average_ignored",
    "Imgaug.Blur.batch",
    "Imgaug.Blur.median_spec",
    "Imgaug.Blur.median_kept",
    "Imgaug.Blur.median_values",
    "Imgaug.Blur.median_sizes",
    "Imgaug.Blur.motion_average",
    "Imgaug.Blur.motion_within",
    "Imgaug.Blur.motion_directions",
    "Imgaug.Blur.mean_shift",
    "Imgaug.Blur.mean_shift_no_channels",
    "Imgaug.Blur.bilateral_images",
    "Imgaug.Blur.average_batch",
    "Imgaug.Blur.gaussian_batch",
    "Imgaug.Blur.gaussian_single_precision",
    "Imgaug.Blur.mean_shift_radii"
   ],
   "note": "False: the Gaussian kernel for sigma 5 is smaller than for 4.99 (ksize_not_monotone), unknown backends are taken for OpenCV (unknown_backend), AverageBlur ignores further numbers of an entry (average_ignored), MeanShiftBlur raises for images without channels (mean_shift_no_channels)."
  },
  {
   "property": "C89",
   "status": "partial",
   "theorems": [
    "Imgaug.Noise.power_nonneg",
    "Imgaug.Noise.power_int",
    "Imgaug.Noise.power_negative",
    "Imgaug.Noise.iterations_bounds",
    "Imgaug.Noise.iterations_rejected",
    "Imgaug.Noise.aggregate_iff",
    "Imgaug.Noise.aggregate_min",
    "Imgaug.Noise.aggregate_max",
    "Imgaug.Noise.aggregate_avg",
    "Imgaug.Noise.aggregate_range",
    "Imgaug.Noise.aggregate_one",
    "Imgaug.Noise.unknown_method",
    "Imgaug.Noise.sigmoid_range",
    "Imgaug.Noise.sigmoid_monotone",
    "Imgaug.Noise.sigmoid_off",
    "Imgaug.Noise.sigmoid_mul",
    "Imgaug.Noise.simplex_size",
    "Imgaug.Noise.small_proportion",
    "Imgaug.Noise.small_kept",
    "Imgaug.Noise.frequency_size_exceeds",
    "Imgaug.Noise.frequency_size_partial",
    "Imgaug.Noise.simplex_range",
    "Imgaug.Noise.stacked_shape",
    "Imgaug.Noise.stacked_sizes",
    "Imgaug.Noise.stacked_no_channels",
    "Imgaug.Noise.distances_size",
    "Imgaug.Noise.distances_positive",
    "Imgaug.Noise.distances_fresh",
    "Imgaug.Noise.depends_on_larger",
    "Imgaug.Noise.depends_on_smaller",
    "Imgaug.Noise.reproducible_partial",
    "Imgaug.Noise.frequency_range",
    "Imgaug.Noise.simplex_linear",
    "Imgaug.Noise.corners_silent",
    "Imgaug.Noise.normalised_ends"
   ],
   "note": "False: FrequencyNoise keeps a cache that is cut and overwritten by each draw, so that samples depend on the sizes drawn before (depends_on_larger, depends_on_smaller); its low resolution plane exceeds a size_px_max below 4 (frequency_size_exceeds); unknown methods of aggregation work like max (unknown_method); no noise for images without channels (stacked_no_channels)."
  },
  {
   "property": "C90",
   "status": "partial",
   "theorems": [
    "Imgaug.Rng.ids_unique",
    "Imgaug.Rng.deepcopy_id",
    "Imgaug.Rng.shared",
    "Imgaug.Rng.independent",
    "Imgaug.Rng.others_untouched",
    "Imgaug.Rng.copy_new",
    "Imgaug.Rng.copy_loses_cache",
    "Imgaug.Rng.copy_same_partial",
    "Imgaug.Rng.copy_as_reset",
    "Imgaug.Rng.copy_unless_global",
    "Imgaug.Rng.equals_iff",
    "Imgaug.Rng.equals_future",
    "Imgaug.Rng.fair_methods",
    "Imgaug.Rng.use_state_of",
    "Imgaug.Rng.seed_reproducible",
    "Imgaug.Rng.same_seed",
    "Imgaug.Rng.generator_loses_cache",
    "Imgaug.Rng.create_keeps_partial",
    "Imgaug.Rng.derived",
    "Imgaug.Rng.derived_same",
    "Imgaug.Rng.pseudo_random",
    "Imgaug.Rng.integer_range",
    "Imgaug.Rng.random_integers",
    "Imgaug.Rng.next32_halves",
    "Imgaug.Rng.seeds_drawn"
   ],
   "note": "False for generators with a cached 32 bit number: copies lose it and draw other numbers (copy_loses_cache), making an RNG from a generator drops it (generator_loses_cache); deep copies have the id of the original (deepcopy_id)."
  },
  {
   "property": "C91",
   "status": "partial",
   "theorems": [
    "Imgaug.Perspective.Props.ordered_points",
    "Imgaug.Perspective.Props.corners_kept_partial",
    "Imgaug.Perspective.Props.corner_used_twice",
    "Imgaug.Perspective.Props.sizes_at_least_two",
    "Imgaug.Perspective.Props.result_corners",
    "Imgaug.Perspective.Props.no_jitter",
    "Imgaug.Perspective.Props.one_column_changed",
    "Imgaug.Perspective.Props.fit_output_shows_all",
    "Imgaug.Perspective.Props.keypoints_moved",
    "Imgaug.Perspective.Props.maps_aligned_partial",
    "Imgaug.Perspective.Props.small_maps_misaligned",
    "Imgaug.Perspective.Props.keypoints_on_pixels_partial",
    "Imgaug.Perspective.Props.keypoints_beside_pixels",
    "Imgaug.Perspective.Props.image_shape",
    "Imgaug.Perspective.Props.no_jitter_images",
    "Imgaug.Perspective.Props.image_channels",
    "Imgaug.Perspective.Props.border_partial",
    "Imgaug.Perspective.Props.fourth_channel_black",
    "Imgaug.Perspective.Props.one_scale_for_all",
    "Imgaug.Perspective.Props.constant_scale",
    "Imgaug.Perspective.Props.sizes_agree",
    "Imgaug.Perspective.Props.modes_accepted",
    "Imgaug.Perspective.Props.documented_modes_rejected"
   ],
   "note": "False: in elongated images one point may become two corners (corner_used_twice), images of one column change without jitter (one_column_changed), small maps are misaligned with their image (small_maps_misaligned), keypoints are moved up to half a pixel beside their pixel unless the transformation is a translation (keypoints_beside_pixels), the fourth channel is filled with 0 (fourth_channel_black), one scale is used for the batch (one_scale_for_all), documented modes are rejected (documented_modes_rejected)."
  },
  {
   "property": "C92",
   "status": "partial",
   "theorems": [
    "Imgaug.Loader.Props.worker_order",
    "Imgaug.Loader.Props.none_is_last",
    "Imgaug.Loader.Props.complete_partial",
    "Imgaug.Loader.Props.once_per_worker",
    "Imgaug.Loader.Props.stored_at_most",
    "Imgaug.Loader.Props.executions_end",
    "Imgaug.Loader.Props.never_stuck",
    "Imgaug.Loader.Props.finishes",
    "Imgaug.Loader.Props.threads_lose_batches",
    "Imgaug.Loader.Props.terminate_ends_partial",
    "Imgaug.Loader.Props.terminate_hangs",
    "Imgaug.Loader.Props.terminate_hangs_threads"
   ],
   "note": "False: with threads batches are lost if the feeder thread of the internal queue is slower than a timeout of 5 ms (threads_lose_batches); terminate() never returns if it is called while the queue is full and nobody else takes batches (terminate_hangs), and with threads also if the internal queue is full of end markers (terminate_hangs_threads)."
  },
  {
   "property": "C93",
   "status": "partial",
   "theorems": [
    "Imgaug.Extract.Props.window_partial",
    "Imgaug.Extract.Props.last_column_lost",
    "Imgaug.Extract.Props.inside_no_padding",
    "Imgaug.Extract.Props.never_empty_partial",
    "Imgaug.Extract.Props.empty_with_limit",
    "Imgaug.Extract.Props.limit_unused_partial",
    "Imgaug.Extract.Props.limit_shifts",
    "Imgaug.Extract.Props.limit_bounds_size",
    "Imgaug.Extract.Props.unpadded_inside_partial",
    "Imgaug.Extract.Props.unpadded_outside_partial",
    "Imgaug.Extract.Props.unpadded_wraps",
    "Imgaug.Extract.Props.empty_without_padding"
   ],
   "note": "False: boxes that end less than half a pixel before the edge lose the last row or column (last_column_lost), a pad_max that is too small shifts the pixels (limit_shifts) or gives an empty result (empty_with_limit), without padding rows are counted from the end as tuples are compared lexicographically (unpadded_wraps) and results may be empty (empty_without_padding)."
  },
  {
   "property": "C94",
   "status": "partial",
   "theorems": [
    "Imgaug.Lambda.Props.nothing_changed_partial",
    "Imgaug.Lambda.Props.invalid_polygons_changed",
    "Imgaug.Lambda.Props.two_points_raise",
    "Imgaug.Lambda.Props.boxes_follow_keypoints",
    "Imgaug.Lambda.Props.lines_follow_keypoints",
    "Imgaug.Lambda.Props.polygons_follow_keypoints_partial",
    "Imgaug.Lambda.Props.none_given",
    "Imgaug.Lambda.Props.functions_decide",
    "Imgaug.Lambda.Props.images_lost",
    "Imgaug.Lambda.Props.results_checked",
    "Imgaug.Lambda.Props.boxes_ordered_partial",
    "Imgaug.Lambda.Props.copies_reversed",
    "Imgaug.Lambda.Props.assert_lambda",
    "Imgaug.Lambda.Props.fraction_removed",
    "Imgaug.Lambda.Props.clipped_to_planes"
   ],
   "note": "False: without any function, polygons that cross themselves are changed (invalid_polygons_changed) and polygons of one or two points raise (two_points_raise); a function for keypoints that returns too few entries silently drops images (images_lost); boxes are put in order in the arguments instead of the result, so copies stay reversed (copies_reversed)."
  },
  {
   "property": "C95",
   "status": "partial",
   "theorems": [
    "Imgaug.Elastic.shifts_bounded",
    "Imgaug.Elastic.second_image_same_dx",
    "Imgaug.Elastic.later_images_fresh",
    "Imgaug.Elastic.other_images_matter",
    "Imgaug.Elastic.channels_partial",
    "Imgaug.Elastic.fourth_channel_black",
    "Imgaug.Elastic.content_moves",
    "Imgaug.Elastic.zero_strength",
    "Imgaug.Elastic.libraries_partial",
    "Imgaug.Elastic.cubic_integers_by_cv2",
    "Imgaug.Elastic.large_by_scipy",
    "Imgaug.Elastic.borders_agree_partial",
    "Imgaug.Elastic.reflect_differs",
    "Imgaug.Elastic.map_size",
    "Imgaug.Elastic.map_warped_at_image_size",
    "Imgaug.Elastic.outside_untouched",
    "Imgaug.Elastic.neighbours_known",
    "Imgaug.Elastic.median_in_box",
    "Imgaug.Elastic.median_symmetric",
    "Imgaug.Elastic.median_unique",
    "Imgaug.Elastic.keypoint_near",
    "Imgaug.Elastic.interior_keypoint",
    "Imgaug.Elastic.subpixel_lost",
    "Imgaug.Elastic.border_keypoint_moves"
   ],
   "note": "false for independence between images, the fourth channel, int16/int32 with cubic interpolation, mode reflect, and keypoints where nothing is displaced"
  },
  {
   "property": "C96",
   "status": "partial",
   "theorems": [
    "Imgaug.Props.Intensity.colorspaces",
    "Imgaug.Props.Intensity.image_by_image",
    "Imgaug.Props.Intensity.equalize_each",
    "Imgaug.Props.Intensity.clahe_each",
    "Imgaug.Props.Intensity.only_uint8",
    "Imgaug.Props.Intensity.shapes_kept",
    "Imgaug.Props.Intensity.fourth_channel",
    "Imgaug.Props.Intensity.only_intensity",
    "Imgaug.Props.Intensity.other_counts",
    "Imgaug.Props.Intensity.clahe_channels",
    "Imgaug.Props.Intensity.clahe_dtypes",
    "Imgaug.Props.Intensity.equalized_value",
    "Imgaug.Props.Intensity.equalized_constant",
    "Imgaug.Props.Intensity.equalized_order",
    "Imgaug.Props.Intensity.tile_pixels_partial",
    "Imgaug.Props.Intensity.tiles_cover",
    "Imgaug.Props.Intensity.tiles_not_pixels"
   ],
   "note": "Proved for all batches, except the size of the tiles: `tile_grid_size_px` is a number of tiles (`tiles_not_pixels`)."
  },
  {
   "property": "C97",
   "status": "partial",
   "theorems": [
    "Imgaug.Props.PoolAug.pixel_block",
    "Imgaug.Props.PoolAug.kernel_sizes",
    "Imgaug.Props.PoolAug.sizes_agree",
    "Imgaug.Props.PoolAug.annotations_scaled",
    "Imgaug.Props.PoolAug.stay_on_image",
    "Imgaug.Props.PoolAug.content_near_partial",
    "Imgaug.Props.PoolAug.keypoint_in_other_block",
    "Imgaug.Props.PoolAug.keep_size",
    "Imgaug.Props.PoolAug.kept_content_near_partial",
    "Imgaug.Props.PoolAug.kernel_of_one",
    "Imgaug.Props.PoolAug.image_by_image",
    "Imgaug.Props.PoolAug.int32_raises",
    "Imgaug.Props.PoolAug.arrays_resized"
   ],
   "note": "Proved: sizes, scaling, distance to the content at most half a pooled pixel (half a kernel with keep_size). False: exact places (`keypoint_in_other_block`), data types (`int32_raises`), unchanged arrays of maps (`arrays_resized`)."
  },
  {
   "property": "C98",
   "status": "proved",
   "theorems": [
    "Imgaug.Batches.in_order",
    "Imgaug.Batches.fails_late",
    "Imgaug.Batches.accepted",
    "Imgaug.Batches.lists_of_line_strings",
    "Imgaug.Batches.types_and_data",
    "Imgaug.Batches.any_order",
    "Imgaug.Batches.background_agrees",
    "Imgaug.Batches.arguments",
    "Imgaug.Batches.augmented_again"
   ],
   "note": "Lists of line strings raise, and lists with elements of different types are judged by the first one (lists_of_line_strings)."
  },
  {
   "property": "C99",
   "status": "partial",
   "theorems": [
    "Imgaug.NormRings.roundtrip_partial",
    "Imgaug.NormRings.standard_form",
    "Imgaug.NormRings.form_decides",
    "Imgaug.NormRings.augmented_partial",
    "Imgaug.NormRings.surplus_raises",
    "Imgaug.NormRings.array_raises",
    "Imgaug.NormRings.closed_polygons",
    "Imgaug.NormRings.keypoints_for_line_strings",
    "Imgaug.NormRings.tuple_of_points",
    "Imgaug.NormRings.array_becomes_list",
    "Imgaug.NormRings.none_entry",
    "Imgaug.NormRings.accepted_forms"
   ],
   "note": "Proved for all accepted inputs without repeated first points, empty array axes, mixed dtypes and None entries; each exclusion has its own theorem showing what happens instead."
  },
  {
   "property": "C100",
   "status": "partial",
   "theorems": [
    "Imgaug.CropArgs.amounts_requested",
    "Imgaug.CropArgs.pad_requested",
    "Imgaug.CropArgs.pad_only",
    "Imgaug.CropArgs.crop_requested",
    "Imgaug.CropArgs.crop_only",
    "Imgaug.CropArgs.always_drawn",
    "Imgaug.CropArgs.not_both",
    "Imgaug.CropArgs.px_accepted",
    "Imgaug.CropArgs.percent_accepted_partial",
    "Imgaug.CropArgs.percent_unchecked",
    "Imgaug.CropArgs.same_px_partial",
    "Imgaug.CropArgs.same_percent_partial",
    "Imgaug.CropArgs.own_values",
    "Imgaug.CropArgs.parameters_differ",
    "Imgaug.CropArgs.crop_pads"
   ],
   "note": "sample_independently=False with a parameter, and numbers below -1 in 4-tuples for percent, contradict the documentation"
  },
  {
   "property": "C101",
   "status": "proved",
   "theorems": [
    "Imgaug.Positions.positions_accepted",
    "Imgaug.Positions.positions_allowed",
    "Imgaug.Positions.amounts_determined",
    "Imgaug.Positions.amounts_named",
    "Imgaug.Positions.pad_rows",
    "Imgaug.Positions.crop_rows",
    "Imgaug.Positions.crop_any_position",
    "Imgaug.Positions.pad_outside"
   ],
   "note": "with parameters that yield values outside of [0, 1] PadToFixedSize fails; CropToFixedSize does not"
  },
  {
   "property": "C102",
   "status": "partial",
   "theorems": [
    "Imgaug.NormMaps.heatmaps_standard_form",
    "Imgaug.NormMaps.segmaps_standard_form",
    "Imgaug.NormMaps.wrong_number_of_images",
    "Imgaug.NormMaps.heatmaps_roundtrip_partial",
    "Imgaug.NormMaps.segmaps_roundtrip_partial",
    "Imgaug.NormMaps.heatmaps_results",
    "Imgaug.NormMaps.segmaps_results",
    "Imgaug.NormMaps.objects_passed_on",
    "Imgaug.NormMaps.nothing_given",
    "Imgaug.NormMaps.accepted_forms",
    "Imgaug.NormMaps.other_floats_rejected",
    "Imgaug.NormMaps.wrong_kind_rejected",
    "Imgaug.NormMaps.wrong_results",
    "Imgaug.NormMaps.none_first_drops",
    "Imgaug.NormMaps.mixed_dtypes_lose_ids",
    "Imgaug.NormMaps.no_images_list",
    "Imgaug.NormMaps.large_values_clipped"
   ],
   "note": ""
  },
  {
   "property": "C103",
   "status": "partial",
   "theorems": [
    "Imgaug.AffineArgs.affine_accepts_partial",
    "Imgaug.AffineArgs.affine_requested_partial",
    "Imgaug.AffineArgs.affine_defaults",
    "Imgaug.AffineArgs.affine_axes_shared",
    "Imgaug.AffineArgs.shear_not_two_values",
    "Imgaug.AffineArgs.order_not_mapped",
    "Imgaug.AffineArgs.cval_not_one_value",
    "Imgaug.AffineArgs.affine_only_px",
    "Imgaug.AffineArgs.affine_row_meaning_partial"
   ],
   "note": "Proved but for three deviations from the documentation, which are shown: shear pairs give both axes one value, cv2 orders 2 and 4 are rejected, cval lists give three values."
  },
  {
   "property": "C104",
   "status": "partial",
   "theorems": [
    "Imgaug.Piecewise.accepts",
    "Imgaug.Piecewise.drawn_partial",
    "Imgaug.Piecewise.one_scale_per_batch",
    "Imgaug.Piecewise.points_partial",
    "Imgaug.Piecewise.negative_jitter_ignored",
    "Imgaug.Piecewise.border_moves",
    "Imgaug.Piecewise.shown_nearby",
    "Imgaug.Piecewise.map_points_partial",
    "Imgaug.Piecewise.image_value",
    "Imgaug.Piecewise.unchanged",
    "Imgaug.Piecewise.image_interpolation",
    "Imgaug.Piecewise.map_interpolation",
    "Imgaug.Piecewise.map_values",
    "Imgaug.Piecewise.keypoint_follows",
    "Imgaug.Piecewise.keypoints_placed",
    "Imgaug.Piecewise.keypoint_kept_partial",
    "Imgaug.Piecewise.subpixel_lost",
    "Imgaug.Piecewise.batch_aligned",
    "Imgaug.Piecewise.batch_maps"
   ],
   "note": ""
  },
  {
   "property": "C105",
   "status": "partial",
   "theorems": [
    "Imgaug.ResizeArgs.resize_accepts",
    "Imgaug.ResizeArgs.superfluous_keys",
    "Imgaug.ResizeArgs.resize_requested",
    "Imgaug.ResizeArgs.resize_images",
    "Imgaug.ResizeArgs.resize_aligned",
    "Imgaug.ResizeArgs.resize_columns",
    "Imgaug.ResizeArgs.resize_works_partial",
    "Imgaug.ResizeArgs.ratio_empties"
   ],
   "note": ""
  },
  {
   "property": "C106",
   "status": "proved",
   "theorems": [
    "Imgaug.Temperature.white_becomes_table",
    "Imgaug.Temperature.factors_between",
    "Imgaug.Temperature.extreme_temperatures",
    "Imgaug.Temperature.never_brighter",
    "Imgaug.Temperature.keeps_order",
    "Imgaug.Temperature.higher_is_bluer",
    "Imgaug.Temperature.warm_and_cold",
    "Imgaug.Temperature.white_is_lost",
    "Imgaug.Temperature.temperatures_px",
    "Imgaug.Temperature.temperatures_accept",
    "Imgaug.Temperature.only_first_checked",
    "Imgaug.Temperature.first_out_of_range",
    "Imgaug.Temperature.no_pixels",
    "Imgaug.Temperature.no_pixels_flat",
    "Imgaug.Temperature.no_pixels_array",
    "Imgaug.Temperature.temperature_px",
    "Imgaug.Temperature.augmenter_temperatures",
    "Imgaug.Temperature.augmenter_no_images"
   ],
   "note": ""
  },
  {
   "property": "C107",
   "status": "proved",
   "theorems": [
    "Imgaug.JigsawBatch.padded_then_shuffled",
    "Imgaug.JigsawBatch.keypoints_follow",
    "Imgaug.JigsawBatch.keypoints_outside",
    "Imgaug.JigsawBatch.divisible_not_padded",
    "Imgaug.JigsawBatch.without_padding",
    "Imgaug.JigsawBatch.other_augmentables_rejected",
    "Imgaug.JigsawBatch.rows_apart",
    "Imgaug.JigsawBatch.grids_drawn",
    "Imgaug.JigsawBatch.batches_accepted"
   ],
   "note": ""
  },
  {
   "property": "C108",
   "status": "partial",
   "theorems": [
    "Imgaug.ScalarBatch.add_uint8_images",
    "Imgaug.ScalarBatch.add_other_images_partial",
    "Imgaug.ScalarBatch.multiply_uint8_images_partial",
    "Imgaug.ScalarBatch.nothing_to_do",
    "Imgaug.ScalarBatch.accepts",
    "Imgaug.ScalarBatch.inverted",
    "Imgaug.ScalarBatch.never_inverted",
    "Imgaug.ScalarBatch.rejected",
    "Imgaug.ScalarBatch.images_apart",
    "Imgaug.ScalarBatch.inverted_apart"
   ],
   "note": "Missing: Multiply's exact rounding for uint8 (see C67), other dtypes of Multiply, Add for wide integer and float dtypes"
  },
  {
   "property": "C109",
   "status": "proved",
   "theorems": [
    "Imgaug.Polar.annotations_come_back",
    "Imgaug.Polar.boxes_come_back",
    "Imgaug.Polar.moving_down_rotates",
    "Imgaug.Polar.moving_right_spreads",
    "Imgaug.Polar.resizing_does_not_matter",
    "Imgaug.Polar.points_stay_inside",
    "Imgaug.Polar.children_see_one_size",
    "Imgaug.Polar.sizes_come_back",
    "Imgaug.Polar.no_new_values",
    "Imgaug.Polar.pixels_come_back",
    "Imgaug.Polar.dtypes_rejected",
    "Imgaug.Polar.shapes_rejected",
    "Imgaug.Polar.accepted",
    "Imgaug.Polar.large_images_rejected",
    "Imgaug.Polar.boxes_as_outlines",
    "Imgaug.Polar.marked_polygons_lost"
   ],
   "note": ""
  },
  {
   "property": "C110",
   "status": "partial",
   "theorems": [
    "Imgaug.AffineBatch.backend_dtypes",
    "Imgaug.AffineBatch.dtypes_and_sizes",
    "Imgaug.AffineBatch.order0_copies",
    "Imgaug.AffineBatch.heatmaps_in_range",
    "Imgaug.AffineBatch.segmaps_no_new",
    "Imgaug.AffineBatch.image_moved_partial",
    "Imgaug.AffineBatch.points_moved_partial",
    "Imgaug.AffineBatch.boxes_moved_partial",
    "Imgaug.AffineBatch.batch_moved_partial",
    "Imgaug.AffineBatch.fill_values",
    "Imgaug.AffineBatch.fill_depends_on_backend",
    "Imgaug.AffineBatch.batch_fitted_partial"
   ],
   "note": ""
  },
  {
   "property": "C111",
   "status": "partial",
   "theorems": [
    "Imgaug.AffineCv2.keypoints_like_indices",
    "Imgaug.AffineCv2.centre_stays",
    "Imgaug.AffineCv2.axes_turned",
    "Imgaug.AffineCv2.neutral_keeps",
    "Imgaug.AffineCv2.translations_exact_partial",
    "Imgaug.AffineCv2.keypoints_deviate",
    "Imgaug.AffineCv2.rotations_deviate",
    "Imgaug.AffineCv2.keypoints_off",
    "Imgaug.AffineCv2.fraction_of_size",
    "Imgaug.AffineCv2.whole_percent_is_pixels",
    "Imgaug.AffineCv2.maps_same_size",
    "Imgaug.AffineCv2.maps_translated_partial",
    "Imgaug.AffineCv2.maps_not_scaled"
   ],
   "note": ""
  },
  {
   "property": "C112",
   "status": "partial",
   "theorems": [
    "Imgaug.PointArrays.fill_accepts",
    "Imgaug.PointArrays.fill_keeps_sizes",
    "Imgaug.PointArrays.fill_then_read",
    "Imgaug.PointArrays.read_then_fill",
    "Imgaug.PointArrays.fill_point",
    "Imgaug.PointArrays.fill_after_exception_partial",
    "Imgaug.PointArrays.fill_not_atomic",
    "Imgaug.PointArrays.invert_accepts",
    "Imgaug.PointArrays.kps_and_back",
    "Imgaug.PointArrays.moved_as_keypoints",
    "Imgaug.PointArrays.kps_are_coordinates"
   ],
   "note": ""
  },
  {
   "property": "C113",
   "status": "proved",
   "theorems": [
    "Imgaug.Canny.Props.canny_images",
    "Imgaug.Canny.Props.edge_images_mix",
    "Imgaug.Canny.Props.ranges_checked",
    "Imgaug.Canny.Props.rejected_images",
    "Imgaug.Canny.Props.mixed_thresholds"
   ],
   "note": ""
  },
  {
   "property": "C114",
   "status": "partial",
   "theorems": [
    "Imgaug.RandAugment.strengths",
    "Imgaug.RandAugment.weakest",
    "Imgaug.RandAugment.documented_levels",
    "Imgaug.RandAugment.crops_partial",
    "Imgaug.RandAugment.crops_share_level",
    "Imgaug.RandAugment.levels_accepted"
   ],
   "note": "The level of crops is drawn once per batch: crops_share_level."
  },
  {
   "property": "C115",
   "status": "partial",
   "theorems": [
    "Imgaug.PolyClip.clipped_polygons_partial",
    "Imgaug.PolyClip.number_of_polygons",
    "Imgaug.PolyClip.first_points",
    "Imgaug.PolyClip.unclipped_polygons",
    "Imgaug.PolyClip.when_clipping_fails",
    "Imgaug.PolyClip.out_of_image_area_partial",
    "Imgaug.PolyClip.all_polygons",
    "Imgaug.PolyClip.point_lost"
   ],
   "note": "Two points closer than np.allclose are merged: point_lost. Non-empty geometry collections of shapely lead to an AssertionError: when_clipping_fails."
  },
  {
   "property": "C116",
   "status": "partial",
   "theorems": [
    "Imgaug.Draw.Props.keypoint_drawn",
    "Imgaug.Draw.Props.when_keypoints_fail",
    "Imgaug.Draw.Props.keypoints_in_image_partial",
    "Imgaug.Draw.Props.keypoint_in_image_fails",
    "Imgaug.Draw.Props.square_size_partial",
    "Imgaug.Draw.Props.even_sizes_too_large",
    "Imgaug.Draw.Props.box_drawn",
    "Imgaug.Draw.Props.color_without_decimals",
    "Imgaug.Draw.Props.box_mixed_partial",
    "Imgaug.Draw.Props.outline_in_image",
    "Imgaug.Draw.Props.when_boxes_fail",
    "Imgaug.Draw.Props.in_place_partial",
    "Imgaug.Draw.Props.not_in_place",
    "Imgaug.Draw.Props.other_pixels_clipped",
    "Imgaug.Draw.Props.off_keypoints",
    "Imgaug.Draw.Props.off_boxes"
   ],
   "note": "Proved for odd sizes, for sizes of at least 2 in the image, for uint8 and for floats from 0 to 255 with an alpha below 0.99, and for copy=False with an alpha of at least 0.99; the rest is refuted by witnesses."
  },
  {
   "property": "C117",
   "status": "proved",
   "theorems": [
    "Imgaug.PilAffine.content_moved",
    "Imgaug.PilAffine.one_source",
    "Imgaug.PilAffine.shape_kept",
    "Imgaug.PilAffine.when_warp_fails",
    "Imgaug.PilAffine.shifted",
    "Imgaug.PilAffine.centre_fixed",
    "Imgaug.PilAffine.translation_turned",
    "Imgaug.PilAffine.smallest_scale",
    "Imgaug.PilAffine.batch_rows",
    "Imgaug.PilAffine.only_images",
    "Imgaug.PilAffine.gray_images_fail",
    "Imgaug.PilAffine.gray_images_warped",
    "Imgaug.PilAffine.rgb_images",
    "Imgaug.PilAffine.defaults_keep",
    "Imgaug.PilAffine.fill_used",
    "Imgaug.PilAffine.arguments_passed",
    "Imgaug.PilAffine.centre_drawn_last"
   ],
   "note": ""
  },
  {
   "property": "C118",
   "status": "partial",
   "theorems": [
    "Imgaug.DrawMaps.segments_drawn",
    "Imgaug.DrawMaps.when_segments_fail",
    "Imgaug.DrawMaps.segments_rendered",
    "Imgaug.DrawMaps.segments_sizes",
    "Imgaug.DrawMaps.heat_rendered_partial",
    "Imgaug.DrawMaps.narrow_turned",
    "Imgaug.DrawMaps.narrow_fails",
    "Imgaug.DrawMaps.narrow_image_grows",
    "Imgaug.DrawMaps.heat_drawn_partial",
    "Imgaug.DrawMaps.image_resized",
    "Imgaug.DrawMaps.heat_rejected",
    "Imgaug.DrawMaps.heat_works"
   ],
   "note": ""
  },
  {
   "property": "C119",
   "status": "partial",
   "theorems": [
    "Imgaug.Similar.lines_compared",
    "Imgaug.Similar.empty_lines",
    "Imgaug.Similar.close_lines_equal",
    "Imgaug.Similar.lines_close_partial",
    "Imgaug.Similar.different_lines_equal",
    "Imgaug.Similar.lines_symmetric",
    "Imgaug.Similar.line_itself",
    "Imgaug.Similar.line_rewritten",
    "Imgaug.Similar.polygon_start",
    "Imgaug.Similar.polygons_compared",
    "Imgaug.Similar.labels_compared",
    "Imgaug.Similar.keypoints_compared",
    "Imgaug.Similar.boxes_compared",
    "Imgaug.Similar.keypoints_distance_partial",
    "Imgaug.Similar.distant_keypoints_equal",
    "Imgaug.Similar.border_differs",
    "Imgaug.Similar.wrong_length",
    "Imgaug.Similar.one_number",
    "Imgaug.Similar.coordinates_fail",
    "Imgaug.Similar.distance_of_points",
    "Imgaug.Similar.contains_sound_partial",
    "Imgaug.Similar.contains_vertices",
    "Imgaug.Similar.middle_not_contained"
   ],
   "note": ""
  },
  {
   "property": "C120",
   "status": "proved",
   "theorems": [
    "Imgaug.Pad.pads",
    "Imgaug.Pad.content_kept",
    "Imgaug.Pad.constant_border",
    "Imgaug.Pad.mirrored_border",
    "Imgaug.Pad.shown_unique",
    "Imgaug.Pad.channel_alone",
    "Imgaug.Pad.padded_twice",
    "Imgaug.Pad.mirrored_twice",
    "Imgaug.Pad.negative_amounts",
    "Imgaug.Pad.no_amounts",
    "Imgaug.Pad.too_few_values",
    "Imgaug.Pad.too_many_values",
    "Imgaug.Pad.flat_values",
    "Imgaug.Pad.to_multiples",
    "Imgaug.Pad.to_ratio"
   ],
   "note": ""
  },
  {
   "property": "C121",
   "status": "proved",
   "theorems": [
    "Imgaug.CropBatch.rows_follow",
    "Imgaug.CropBatch.as_requested",
    "Imgaug.CropBatch.always_handled",
    "Imgaug.CropBatch.maps_padded_with_zeros",
    "Imgaug.CropBatch.array_or_list",
    "Imgaug.CropBatch.no_rows",
    "Imgaug.CropBatch.modes_accepted",
    "Imgaug.CropBatch.modes_meant"
   ],
   "note": ""
  },
  {
   "property": "C122",
   "status": "proved",
   "theorems": [
    "Imgaug.Weather.layers_accept",
    "Imgaug.Weather.result_uint8",
    "Imgaug.Weather.snow_never_darkens",
    "Imgaug.Weather.snow_layers",
    "Imgaug.Weather.order_of_channels",
    "Imgaug.Weather.no_flakes",
    "Imgaug.Weather.rain_towards_colour",
    "Imgaug.Weather.flake_size",
    "Imgaug.Weather.blur_within_limits",
    "Imgaug.Weather.gate_takes_away",
    "Imgaug.Weather.motion_blur_when",
    "Imgaug.Weather.drop_colour",
    "Imgaug.Weather.floats_truncated",
    "Imgaug.Weather.clouds_accept",
    "Imgaug.Weather.clouds_mix",
    "Imgaug.Weather.fine_structure",
    "Imgaug.Weather.denser_clouds",
    "Imgaug.Weather.clouds_leave_range",
    "Imgaug.Weather.snowy_landscape"
   ],
   "note": "False of float images: see floats_truncated and clouds_leave_range."
  },
  {
   "property": "C123",
   "status": "proved",
   "theorems": [
    "Imgaug.Compress.Props.jpeg_accepts",
    "Imgaug.Compress.Props.jpeg_nothing",
    "Imgaug.Compress.Props.jpeg_result",
    "Imgaug.Compress.Props.jpeg_single_channel",
    "Imgaug.Compress.Props.quality_antitone",
    "Imgaug.Compress.Props.quality_spread",
    "Imgaug.Compress.Props.lowest_quality_unused",
    "Imgaug.Compress.Props.jpeg_batch",
    "Imgaug.Compress.Props.kmeans_accepts",
    "Imgaug.Compress.Props.kmeans_repeatable",
    "Imgaug.Compress.Props.kmeans_states",
    "Imgaug.Compress.Props.kmeans_colours",
    "Imgaug.Compress.Props.kmeans_few_pixels",
    "Imgaug.Compress.Props.kmeans_range",
    "Imgaug.Compress.Props.kmeans_same_colour",
    "Imgaug.Compress.Props.kmeans_single_channel",
    "Imgaug.Compress.Props.kmeans_drawn",
    "Imgaug.Compress.Props.many_colours_rejected"
   ],
   "note": "Every clause is proved for the model; the codec and k-means are parameters; two statements that are false of the code are proved as negations."
  },
  {
   "property": "C124",
   "status": "proved",
   "theorems": [
    "Imgaug.Corrupt.Props.accepts",
    "Imgaug.Corrupt.Props.seed_is_local",
    "Imgaug.Corrupt.Props.no_seed",
    "Imgaug.Corrupt.Props.gray_images",
    "Imgaug.Corrupt.Props.values",
    "Imgaug.Corrupt.Props.batch",
    "Imgaug.Corrupt.Props.batch_accepted",
    "Imgaug.Corrupt.Props.glass_loop",
    "Imgaug.Corrupt.Props.glass_keeps",
    "Imgaug.Corrupt.Props.swap_copies",
    "Imgaug.Corrupt.Props.pixels_lost",
    "Imgaug.Corrupt.Props.glass_blur",
    "Imgaug.Corrupt.Props.glass_severity_zero",
    "Imgaug.Corrupt.Props.glass_rounds",
    "Imgaug.Corrupt.Props.glass_table"
   ],
   "note": "Every clause is proved for the model; three statements that are false of the code are proved as negations."
  },
  {
   "property": "C125",
   "status": "proved",
   "theorems": [
    "Imgaug.Cartoon.Props.accepts",
    "Imgaug.Cartoon.Props.no_edges_rejected",
    "Imgaug.Cartoon.Props.edges_black",
    "Imgaug.Cartoon.Props.blur_size",
    "Imgaug.Cartoon.Props.radii_grow",
    "Imgaug.Cartoon.Props.more_edges",
    "Imgaug.Cartoon.Props.suppression_removes",
    "Imgaug.Cartoon.Props.blobs",
    "Imgaug.Cartoon.Props.three_pixels_stay",
    "Imgaug.Cartoon.Props.saturation",
    "Imgaug.Cartoon.Props.saturation_used",
    "Imgaug.Cartoon.Props.batch",
    "Imgaug.Cartoon.Props.edge_detectors"
   ],
   "note": "Every clause is proved for the model; two statements that are false of the code are proved as negations."
  },
  {
   "property": "C126",
   "status": "proved",
   "theorems": [
    "Imgaug.Isect.Props.crossing_point",
    "Imgaug.Isect.Props.same_point",
    "Imgaug.Isect.Props.overlapping_not_found",
    "Imgaug.Isect.Props.naive_finds",
    "Imgaug.Isect.Props.naive_polygon_finds",
    "Imgaug.Isect.Props.reported",
    "Imgaug.Isect.Props.search_sound",
    "Imgaug.Isect.Props.points_per_edge",
    "Imgaug.Isect.Props.oversampled",
    "Imgaug.Isect.Props.points_lost",
    "Imgaug.Isect.Props.line_crossing",
    "Imgaug.Isect.Props.height",
    "Imgaug.Isect.Props.edge_of_crossing"
   ],
   "note": "That the sweep line finds all crossings is not stated: its tree is ordered by a comparison with a tolerance, which is not an order."
  },
  {
   "property": "C127",
   "status": "proved",
   "theorems": [
    "Imgaug.Build.children_iff",
    "Imgaug.Build.oneOf_args",
    "Imgaug.Build.generator_lost",
    "Imgaug.Build.handleChildren_applied",
    "Imgaug.Build.handleChildren_form",
    "Imgaug.Build.sometimes_lists",
    "Imgaug.Build.handleChildren_generator",
    "Imgaug.Build.trunc_spec",
    "Imgaug.Build.someOf_number",
    "Imgaug.Build.handleN_accepts",
    "Imgaug.Build.someOf_param",
    "Imgaug.Build.init_accepts",
    "Imgaug.Build.init_source",
    "Imgaug.Build.channels_args"
   ],
   "note": ""
  },
  {
   "property": "C128",
   "status": "partial",
   "theorems": [
    "Imgaug.Debug.debug_image",
    "Imgaug.Debug.columns_must_agree",
    "Imgaug.Debug.resizePad_fills",
    "Imgaug.Debug.resizePad_may_fail",
    "Imgaug.Debug.shown_values",
    "Imgaug.Debug.signed_black",
    "Imgaug.Debug.lastMax_spec",
    "Imgaug.Debug.description_partial",
    "Imgaug.Debug.no_items_fail",
    "Imgaug.Debug.onBatches_spec",
    "Imgaug.Debug.saves_every_n",
    "Imgaug.Debug.interval_zero"
   ],
   "note": "`debug_image` gives the position and every pixel of each image; signed images are shown black (`signed_black`), annotations without items fail (`no_items_fail`)."
  },
  {
   "property": "C129",
   "status": "partial",
   "theorems": [
    "Imgaug.Quokka.resized_asked",
    "Imgaug.Quokka.resized_channels",
    "Imgaug.Quokka.data_agree_partial",
    "Imgaug.Quokka.fractions_differ",
    "Imgaug.Quokka.empty_part_differs",
    "Imgaug.Quokka.segmap_three_entries",
    "Imgaug.Quokka.extract_args"
   ],
   "note": "`data_agree_partial` is for parts of at least one pixel with whole corners; the others are the witnesses."
  },
  {
   "property": "C130",
   "status": "proved",
   "theorems": [
    "Imgaug.Simplex.perm_permutation",
    "Imgaug.Simplex.seed_bits",
    "Imgaug.Simplex.gradients_everywhere",
    "Imgaug.Simplex.noise_is_sum",
    "Imgaug.Simplex.noise_bounded",
    "Imgaug.Simplex.noise2d_bounded",
    "Imgaug.Simplex.noise_continuous",
    "Imgaug.Simplex.noise_vertex",
    "Imgaug.Simplex.noise_periodic"
   ],
   "note": "the constants of the code have 15 digits; the theorems are for the numbers they stand for."
  },
  {
   "property": "C131",
   "status": "partial",
   "theorems": [
    "Imgaug.DrawLines.Props.lines_shape",
    "Imgaug.DrawLines.Props.off_lines",
    "Imgaug.DrawLines.Props.on_lines_partial",
    "Imgaug.DrawLines.Props.opaque_lines",
    "Imgaug.DrawLines.Props.faint_lines",
    "Imgaug.DrawLines.Props.on_smooth_lines",
    "Imgaug.DrawLines.Props.corner_weakened",
    "Imgaug.DrawLines.Props.lines_fail",
    "Imgaug.DrawLines.Props.shapes_fail",
    "Imgaug.DrawLines.Props.heat_range",
    "Imgaug.DrawLines.Props.mask_exact",
    "Imgaug.DrawLines.Props.gray_images_fail",
    "Imgaug.DrawLines.Props.numbers_fail",
    "Imgaug.DrawLines.Props.off_line_string",
    "Imgaug.DrawLines.Props.points_darker",
    "Imgaug.DrawLines.Props.polygon_drawn",
    "Imgaug.DrawLines.Props.gray_polygons_fail"
   ],
   "note": ""
  },
  {
   "property": "C132",
   "status": "proved",
   "theorems": [
    "Imgaug.Label.Props.off_label",
    "Imgaug.Label.Props.above_box",
    "Imgaug.Label.Props.on_label",
    "Imgaug.Label.Props.text_readable",
    "Imgaug.Label.Props.colors_needed",
    "Imgaug.Label.Props.no_room",
    "Imgaug.Label.Props.gray_images_fail",
    "Imgaug.Label.Props.thick_frames_hidden",
    "Imgaug.Label.Props.box_then_label"
   ],
   "note": ""
  },
  {
   "property": "C133",
   "status": "proved",
   "theorems": [
    "Imgaug.Enhance.Props.accepts",
    "Imgaug.Enhance.Props.factor_one",
    "Imgaug.Enhance.Props.brightness",
    "Imgaug.Enhance.Props.alpha_kept",
    "Imgaug.Enhance.Props.direction",
    "Imgaug.Enhance.Props.factor_zero",
    "Imgaug.Enhance.Props.color_keeps_gray",
    "Imgaug.Enhance.Props.batch",
    "Imgaug.Enhance.Props.batch_accepts",
    "Imgaug.Enhance.Props.filters",
    "Imgaug.Enhance.Props.filters_accept"
   ],
   "note": ""
  },
  {
   "property": "C134",
   "status": "partial",
   "theorems": [
    "Imgaug.ExtractShapes.Props.too_few",
    "Imgaug.ExtractShapes.Props.polygon_partial",
    "Imgaug.ExtractShapes.Props.rounded_up",
    "Imgaug.ExtractShapes.Props.outside_not_zero",
    "Imgaug.ExtractShapes.Props.first_point",
    "Imgaug.ExtractShapes.Props.no_line",
    "Imgaug.ExtractShapes.Props.one_point",
    "Imgaug.ExtractShapes.Props.solid_heat",
    "Imgaug.ExtractShapes.Props.line_partial",
    "Imgaug.ExtractShapes.Props.even_cut",
    "Imgaug.ExtractShapes.Props.floats_rounded"
   ],
   "note": "proved for polygons whose rounded box is not flat and does not reach the border by rounding, and for odd thicknesses and uint8 images; the rest is false (rounded_up, outside_not_zero, even_cut, floats_rounded)"
  },
  {
   "property": "C135",
   "status": "partial",
   "theorems": [
    "Imgaug.Cv2Args.cv2_accepts",
    "Imgaug.Cv2Args.cv2_requested",
    "Imgaug.Cv2Args.cv2_settings_partial",
    "Imgaug.Cv2Args.maps_settings",
    "Imgaug.Cv2Args.mixed_raises",
    "Imgaug.Cv2Args.floats_cut",
    "Imgaug.Cv2Args.order_numbers_differ",
    "Imgaug.Cv2Args.px_is_pixels",
    "Imgaug.Cv2Args.percent_is_fraction_partial",
    "Imgaug.Cv2Args.percent_is_pixels",
    "Imgaug.Cv2Args.nothing_moved"
   ],
   "note": "proved apart from lists of names and numbers, fill values that are no integers, and integers as fractions of the size, for which it is false (mixed_raises, floats_cut, percent_is_pixels, order_numbers_differ)"
  },
  {
   "property": "C136",
   "status": "partial",
   "theorems": [
    "Imgaug.MulHue.multiply_px",
    "Imgaug.MulHue.saturation_multiplied",
    "Imgaug.MulHue.saturation_mono",
    "Imgaug.MulHue.saturation_removed",
    "Imgaug.MulHue.hue_multiplied_partial",
    "Imgaug.MulHue.hue_not_multiplied",
    "Imgaug.MulHue.multiply_accepts",
    "Imgaug.MulHue.multiply_requested"
   ],
   "note": "proved for the saturation, and for the hue up to an error that grows with the multiplier; exact multiplication of hues is false (hue_not_multiplied)"
  },
  {
   "property": "C137",
   "status": "proved",
   "theorems": [
    "Imgaug.BatchCopy.Props.augmenters_get_copies",
    "Imgaug.BatchCopy.Props.inputs_kept",
    "Imgaug.BatchCopy.Props.augmented_again",
    "Imgaug.BatchCopy.Props.converted_back",
    "Imgaug.BatchCopy.Props.copy_separate",
    "Imgaug.BatchCopy.Props.branches_separate"
   ],
   "note": ""
  },
  {
   "property": "C138",
   "status": "partial",
   "theorems": [
    "Imgaug.NoiseMask.Props.mask_accepts",
    "Imgaug.NoiseMask.Props.mask_unit",
    "Imgaug.NoiseMask.Props.one_iteration",
    "Imgaug.NoiseMask.Props.sigmoid_probability_partial",
    "Imgaug.NoiseMask.Props.small_probability",
    "Imgaug.NoiseMask.Props.plain_mask",
    "Imgaug.NoiseMask.Props.threshold_half",
    "Imgaug.NoiseMask.Props.activated_mask",
    "Imgaug.NoiseMask.Props.noise_combined"
   ],
   "note": "proved but for probabilities of a sigmoid between 0 and 0.01, which count as 0 (small_probability)"
  },
  {
   "property": "C139",
   "status": "partial",
   "theorems": [
    "Imgaug.AugGrid.Props.grid_shows",
    "Imgaug.AugGrid.Props.grid_rejects",
    "Imgaug.AugGrid.Props.grid_images",
    "Imgaug.AugGrid.Props.list_changed",
    "Imgaug.AugGrid.Props.list_kept_partial",
    "Imgaug.AugGrid.Props.same_image"
   ],
   "note": "proved; that the list which is passed stays as it is holds only if it has no images with two axes (list_changed)"
  },
  {
   "property": "C140",
   "status": "partial",
   "theorems": [
    "Imgaug.AddElem.sum_uint8",
    "Imgaug.AddElem.sum_other_partial",
    "Imgaug.AddElem.late_values",
    "Imgaug.AddElem.rejects",
    "Imgaug.AddElem.empty_images",
    "Imgaug.AddElem.flat_values_partial",
    "Imgaug.AddElem.flat_values",
    "Imgaug.AddElem.sizes_must_fit",
    "Imgaug.AddElem.flat_image_uint8",
    "Imgaug.AddElem.flat_image_other",
    "Imgaug.AddElem.gate_first",
    "Imgaug.AddElem.noise_uint8",
    "Imgaug.AddElem.images_apart",
    "Imgaug.AddElem.batch_fails"
   ],
   "note": "proved for uint8; for other dtypes the sums hold for values up to 32000 (late_values), and values without channel axis are partial (flat_values)"
  },
  {
   "property": "C141",
   "status": "proved",
   "theorems": [
    "Imgaug.OrdTree.Props.default_lawful",
    "Imgaug.OrdTree.Props.lookup",
    "Imgaug.OrdTree.Props.extreme_items",
    "Imgaug.OrdTree.Props.successor",
    "Imgaug.OrdTree.Props.predecessor",
    "Imgaug.OrdTree.Props.iteration",
    "Imgaug.OrdTree.Props.rotations",
    "Imgaug.OrdTree.Props.when_rotated",
    "Imgaug.OrdTree.Props.insertion",
    "Imgaug.OrdTree.Props.stays_balanced",
    "Imgaug.OrdTree.Props.many_insertions"
   ],
   "note": "removing is not modelled; inserting is modelled with the current parents of the node"
  }
 ]
}
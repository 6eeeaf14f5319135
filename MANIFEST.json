{
 "claims": [
  {
   "property": "C01",
   "status": "partial",
   "theorems": [
    "Verif.Cfg.merge_history_preserves_types_partial",
    "Verif.Cfg.merge_other_preserves_types",
    "Verif.Cfg.mergeList_dict_value_replaces_node"
   ],
   "note": "Proved for all histories whose values are not dicts given to merge_from_list over a node; that exception is proved to break the property (mergeList_dict_value_replaces_node)."
  },
  {
   "property": "C02",
   "status": "proved",
   "theorems": [
    "Verif.Cfg.frozen_rejects_setattr",
    "Verif.Cfg.freeze_preserves_values",
    "Verif.Cfg.defrost_allows_setattr",
    "Verif.Cfg.frozen_config_still_mergeable"
   ],
   "note": ""
  },
  {
   "property": "C03",
   "status": "proved",
   "theorems": [
    "Verif.Cfg.merge_success_no_unknown",
    "Verif.Cfg.unknown_key_raises",
    "Verif.Cfg.merge_keeps_option_names",
    "Verif.Cfg.deprecated_ignored_renamed_raises",
    "Verif.Cfg.registered_keys",
    "Verif.Cfg.merge_rejects_non_node"
   ],
   "note": ""
  },
  {
   "property": "C04",
   "status": "partial",
   "theorems": [
    "Verif.Cfg.merge_overrides",
    "Verif.Cfg.merge_adds_new",
    "Verif.Cfg.merge_keeps_unnamed",
    "Verif.Cfg.merge_idempotent_partial",
    "Verif.Cfg.merge_not_idempotent_with_new_keys",
    "Verif.Cfg.merge_with_own_clone_can_raise"
   ],
   "note": "The overriding part is proved in full; idempotence only without new keys (the general statement is refuted)."
  },
  {
   "property": "C05",
   "status": "proved",
   "theorems": [
    "Verif.Cfg.mergeList_odd",
    "Verif.Cfg.mergeList_in_order",
    "Verif.Cfg.mergeList_pair_spec",
    "Verif.Cfg.mergeList_deprecated_renamed",
    "Verif.Cfg.mergeList_missing",
    "Verif.Cfg.splitDots_iff",
    "Verif.Cfg.decode_iff",
    "Verif.Cfg.coerce_iff"
   ],
   "note": ""
  },
  {
   "property": "C06",
   "status": "proved",
   "theorems": [
    "Verif.Cfg.dict_round_trip",
    "Verif.Cfg.strip_same_values",
    "Verif.Cfg.construct_iff"
   ],
   "note": ""
  },
  {
   "property": "C07",
   "status": "proved",
   "theorems": [
    "Verif.Data.window_frames",
    "Verif.Data.dataset_items"
   ],
   "note": ""
  },
  {
   "property": "C08",
   "status": "proved",
   "theorems": [
    "Verif.Data.windows_all_fitting",
    "Verif.Data.window_count",
    "Verif.Data.default_stride_disjoint",
    "Verif.Data.window_args_checked",
    "Verif.Data.window_args_error_is_valueError",
    "Verif.Data.zero_stride_or_seqlen_raise"
   ],
   "note": ""
  },
  {
   "property": "C09",
   "status": "proved",
   "theorems": [
    "Verif.Data.associate_one_to_one"
   ],
   "note": ""
  },
  {
   "property": "C10",
   "status": "partial",
   "theorems": [
    "Verif.Data.associate_greedy",
    "Verif.Data.associate_maximal",
    "Verif.Data.associate_sorted_partial",
    "Verif.Data.associate_not_temporal"
   ],
   "note": "Maximal and greedy in full; the result is sorted by the key type's order (strings), not by time: associate_not_temporal refutes temporal order."
  },
  {
   "property": "C11",
   "status": "partial",
   "theorems": [
    "Verif.Data.loadPoses_spec",
    "Verif.Data.icl_item_poses",
    "Verif.Data.icl_pose_aligned_partial",
    "Verif.Data.icl_start_misaligns",
    "Verif.Data.icl_missing_pose_not_detected",
    "Verif.Data.icl_length_check"
   ],
   "note": "Proved for start = 0; for start > 0 the code reads shifted pose blocks (icl_start_misaligns)."
  },
  {
   "property": "C12",
   "status": "partial",
   "theorems": [
    "Verif.Data.scannet_fixed_range",
    "Verif.Data.scannet_init_iff",
    "Verif.Data.scannet_full_sequence",
    "Verif.Data.scannet_full_equal_lengths_partial",
    "Verif.Data.scannet_full_lengths_mixed",
    "Verif.Data.scannet_end_beyond_scene"
   ],
   "note": "Explicit end: proved. end=-1: proved when all scenes have the same length, refuted otherwise (scannet_full_lengths_mixed); scannet_full_sequence says exactly what is returned."
  },
  {
   "property": "C13",
   "status": "proved",
   "theorems": [
    "Verif.Data.nyu40_to_scannet20_same_class",
    "Verif.Data.nyu40_to_scannet20_out_of_range",
    "Verif.Data.kept_classes"
   ],
   "note": ""
  },
  {
   "property": "C14",
   "status": "proved",
   "theorems": [
    "Verif.Data.preprocess_poses_spec",
    "Verif.Data.transforms_compose_to_poses"
   ],
   "note": ""
  },
  {
   "property": "C15",
   "status": "proved",
   "theorems": [
    "Verif.Data.scale_intrinsics_commutes",
    "Verif.Data.scale_intrinsics_laws",
    "Verif.Data.scale_intrinsics_skew_wrong"
   ],
   "note": "For skew-free matrices (the only ones the datasets use); with skew refuted."
  },
  {
   "property": "C16",
   "status": "proved",
   "theorems": [
    "Verif.Data.normalize_image_spec",
    "Verif.Data.channels_first_spec",
    "Verif.Data.channels_first_rank_check"
   ],
   "note": ""
  },
  {
   "property": "C17",
   "status": "proved",
   "theorems": [
    "Verif.Geom.unhomogenize_homogenize",
    "Verif.Geom.homogenize_rank_check",
    "Verif.Geom.unhomogenize_value",
    "Verif.Geom.unhomogenize_scale_invariant"
   ],
   "note": ""
  },
  {
   "property": "C18",
   "status": "proved",
   "theorems": [
    "Verif.Geom.project_pinhole",
    "Verif.Geom.unproject_project",
    "Verif.Geom.project_unproject",
    "Verif.Geom.project_scale_invariant",
    "Verif.Geom.project_batched",
    "Verif.Geom.cam2pixel_is_project",
    "Verif.Geom.cam2pixel_projective",
    "Verif.Geom.cam2pixel_pixel2cam",
    "Verif.Geom.unproject_points_cloud",
    "Verif.Geom.unproject_project_cloud"
   ],
   "note": ""
  },
  {
   "property": "C19",
   "status": "partial",
   "theorems": [
    "Verif.Geom.inverse_intrinsics_exact_partial",
    "Verif.Geom.inverse_intrinsics_mul",
    "Verif.Geom.inverse_intrinsics_error",
    "Verif.Geom.reprojection_error",
    "Verif.Geom.inverse_intrinsics_not_inverse"
   ],
   "note": "Exact only with eps = 0; with the code's eps the exact error is proved and the plain statement refuted."
  },
  {
   "property": "C20",
   "status": "proved",
   "theorems": [
    "Verif.Geom.quaternion_gives_rotation",
    "Verif.Geom.quaternion_double_cover",
    "Verif.Geom.quaternion_scale_invariant",
    "Verif.Geom.quaternion_zero",
    "Verif.Geom.quaternion_mul",
    "Verif.Geom.quaternion_axis_fixed",
    "Verif.Geom.tiny_quaternion_not_rotation",
    "Verif.Geom.rotOfQuat_unit"
   ],
   "note": "Non-zero means norm >= eps (1e-12); below it the result is not a rotation (tiny_quaternion_not_rotation)."
  },
  {
   "property": "C21",
   "status": "partial",
   "theorems": [
    "Verif.Geom.inverse_transform_correct",
    "Verif.Geom.compose_is_matrix_product",
    "Verif.Geom.compose_monoid",
    "Verif.Geom.relative_transform_law_partial",
    "Verif.Geom.relative_transformation_law",
    "Verif.Geom.batched_transforms_raise"
   ],
   "note": "Unbatched in full; the batched variants of two of the functions raise (batched_transforms_raise)."
  },
  {
   "property": "C22",
   "status": "proved",
   "theorems": [
    "Verif.Geom.transform_pointcloud_rows",
    "Verif.Geom.transform_pointcloud_compose",
    "Verif.Geom.transform_pointcloud_inverse",
    "Verif.Geom.transform_pointcloud_isometry",
    "Verif.Geom.transform_normals_isometry",
    "Verif.Geom.transform_preserves_plane_distance",
    "Verif.Geom.transform_pts_nd_eq",
    "Verif.Geom.transform_pts_3d_values"
   ],
   "note": ""
  },
  {
   "property": "C23",
   "status": "proved",
   "theorems": [
    "Verif.Geom.pixel_normalize_roundtrip",
    "Verif.Geom.pixel_normalize_range",
    "Verif.Geom.meshgrid_entries"
   ],
   "note": ""
  },
  {
   "property": "C24",
   "status": "partial",
   "theorems": [
    "Verif.Geom.so3_exp_rotation_partial",
    "Verif.Geom.so3_exp_trace",
    "Verif.Geom.so3_exp_unit",
    "Verif.Geom.so3_exp_add",
    "Verif.Geom.se3_exp_rigid_partial",
    "Verif.Geom.so3_exp_small_not_rotation",
    "Verif.Geom.se3_exp_zero",
    "Verif.Geom.se3_exp_translation",
    "Verif.Geom.so3_exp_near_rotation",
    "Verif.Geom.so3_exp_near_exponential",
    "Verif.Geom.so3_hat_cross",
    "Verif.Geom.so3_exp_is_exp",
    "Verif.Geom.se3_exp_is_exp",
    "Verif.Geom.se3_exp_is_exp_translation",
    "Verif.Geom.se3_exp_is_exp_hypotheses"
   ],
   "note": "Proved on the branch norm >= eps (and for 0), where both are the matrix exponentials of the hat matrices (Mathlib's exp); the small-angle branch is proved not to be a rotation, but within eps^2 of one (so3_exp_near_rotation) and of the exact exponential (so3_exp_near_exponential)."
  },
  {
   "property": "C25",
   "status": "proved",
   "theorems": [
    "Verif.Pcs.list_to_padded_spec",
    "Verif.Pcs.padded_roundtrip",
    "Verif.Pcs.padded_to_list_spec",
    "Verif.Pcs.list_to_padded_all_empty",
    "Verif.Pcs.list_to_padded_equisized",
    "Verif.Pcs.roundtrip_fails_on_widths"
   ],
   "note": "For tensors of one width (the property's (N_b, C)); a list of empty tensors raises."
  },
  {
   "property": "C26",
   "status": "partial",
   "theorems": [
    "Verif.Pcs.hist_obs",
    "Verif.Pcs.read_obs",
    "Verif.Pcs.hist_wf",
    "Verif.Pcs.points_assignment_loses_normals",
    "Verif.Pcs.features_assignment_mixed_width",
    "Verif.Pcs.clone_loses_mask",
    "Verif.Pcs.list_assignment_stale",
    "Verif.Pcs.presence_stale"
   ],
   "note": "Every history whose steps satisfy the side conditions of Hist; each excluded step is shown to break the property."
  },
  {
   "property": "C27",
   "status": "partial",
   "theorems": [
    "Verif.Pcs.assignPad_spec",
    "Verif.Pcs.assignList_visible_partial",
    "Verif.Pcs.assignList_list",
    "Verif.Pcs.list_assignment_stale"
   ],
   "note": "Padded assignment in full; list assignment only before anything was padded: otherwise refuted (list_assignment_stale)."
  },
  {
   "property": "C28",
   "status": "proved",
   "theorems": [
    "Verif.Pcs.append_spec",
    "Verif.Pcs.append_incompatible",
    "Verif.Pcs.append_empty_cases"
   ],
   "note": ""
  },
  {
   "property": "C29",
   "status": "partial",
   "theorems": [
    "Verif.Pcs.clone_getters",
    "Verif.Pcs.clone_obs_partial",
    "Verif.Pcs.clone_after_read",
    "Verif.Pcs.clone_loses_mask"
   ],
   "note": "All getters but the mask in every state; the mask too unless points are padded-only with different sizes and mask unread, where it is refuted (clone_loses_mask)."
  },
  {
   "property": "C30",
   "status": "proved",
   "theorems": [
    "Verif.Pcs.offset_spec",
    "Verif.Pcs.scale_spec",
    "Verif.Pcs.rotate_spec",
    "Verif.Pcs.rotRow_vec",
    "Verif.Pcs.transform_spec",
    "Verif.Pcs.projection_spec",
    "Verif.Pcs.projRow_vec",
    "Verif.Pcs.geo_bad_batch",
    "Verif.Pcs.outOfPlace_spec"
   ],
   "note": ""
  },
  {
   "property": "C31",
   "status": "proved",
   "theorems": [
    "Verif.Pcs.getitem_spec",
    "Verif.Pcs.getitem_errors",
    "Verif.Pcs.resolve_int",
    "Verif.Pcs.resolve_list_mask",
    "Verif.Pcs.resolve_slice",
    "Verif.Pcs.slice_plain"
   ],
   "note": ""
  },
  {
   "property": "C32",
   "status": "partial",
   "theorems": [
    "Verif.Pcs.presence_partial",
    "Verif.Pcs.presence_stale"
   ],
   "note": "Refuted after assigning an attribute whose absence was queried before (presence_stale)."
  },
  {
   "property": "C33",
   "status": "proved",
   "theorems": [
    "Verif.Pcs.newList_accepts_iff",
    "Verif.Pcs.newTensor_accepts_iff",
    "Verif.Pcs.constructed_obs",
    "Verif.Pcs.features_assignment_mixed_width"
   ],
   "note": ""
  },
  {
   "property": "C34",
   "status": "partial",
   "theorems": [
    "Verif.Fusion.active_spec_partial",
    "Verif.Fusion.active_errors",
    "Verif.Fusion.active_wrong",
    "Verif.Fusion.fusion_hypotheses"
   ],
   "note": "all reachable maps except padded-only ones with clouds of different sizes whose mask was never read (e.g. right after rotate_), where the property is refuted (active_wrong)"
  },
  {
   "property": "C35",
   "status": "proved",
   "theorems": [
    "Verif.Fusion.similar_spec",
    "Verif.Fusion.attribute_errors",
    "Verif.Fusion.fusion_hypotheses"
   ],
   "note": ""
  },
  {
   "property": "C36",
   "status": "proved",
   "theorems": [
    "Verif.Fusion.best_spec",
    "Verif.Fusion.attribute_errors",
    "Verif.Fusion.fusion_hypotheses"
   ],
   "note": "indices up to 2^24 (see C57), non-negative confidences"
  },
  {
   "property": "C37",
   "status": "proved",
   "theorems": [
    "Verif.Fusion.fuse_spec",
    "Verif.Fusion.wAvg_segment",
    "Verif.Fusion.zero_confidence_lost",
    "Verif.Fusion.attribute_errors",
    "Verif.Fusion.fusion_hypotheses"
   ],
   "note": "unmatched points of zero confidence are reset to the origin (zero_confidence_lost)"
  },
  {
   "property": "C38",
   "status": "proved",
   "theorems": [
    "Verif.Fusion.pixels_split",
    "Verif.Fusion.fuse_conserves",
    "Verif.Fusion.pixels_spec",
    "Verif.Fusion.fusion_spec",
    "Verif.Fusion.fusion_hypotheses"
   ],
   "note": ""
  },
  {
   "property": "C39",
   "status": "partial",
   "theorems": [
    "Verif.Fusion.aggregate_spec",
    "Verif.Fusion.aggregate_empty",
    "Verif.Fusion.aggregate_errors",
    "Verif.Fusion.fusion_spec",
    "Verif.Fusion.fusion_empty",
    "Verif.Fusion.inplace_false_mutates"
   ],
   "note": "update_map_aggregate in full; update_map_fusion only if there are no correspondences, otherwise refuted (inplace_false_mutates)"
  },
  {
   "property": "C40",
   "status": "proved",
   "theorems": [
    "Verif.Fusion.alpha_range",
    "Verif.Fusion.alpha_antitone"
   ],
   "note": ""
  },
  {
   "property": "C41",
   "status": "proved",
   "theorems": [
    "Verif.Fusion.aggregate_spec",
    "Verif.Fusion.aggregate_empty",
    "Verif.Fusion.aggregate_errors",
    "Verif.Fusion.pixels_spec",
    "Verif.Fusion.readFrame_spec"
   ],
   "note": ""
  },
  {
   "property": "C42",
   "status": "proved",
   "theorems": [
    "Verif.Fusion.candidate_valid",
    "Verif.Fusion.fusion_spec",
    "Verif.Fusion.ofIn_zeroNormals",
    "Verif.Fusion.readFrame_spec",
    "Verif.Fusion.correspondences_spec",
    "Verif.Fusion.fusion_hypotheses"
   ],
   "note": ""
  },
  {
   "property": "C43",
   "status": "proved",
   "theorems": [
    "Verif.Rgbd.vertex_maps_spec",
    "Verif.Rgbd.default_pixels",
    "Verif.Rgbd.backproj_reprojects",
    "Verif.Rgbd.normal_maps_spec",
    "Verif.Rgbd.normal_unit_orthogonal",
    "Verif.Rgbd.normal_needs_two",
    "Verif.Rgbd.nrmR_isNorm",
    "Verif.Rgbd.witness_hist"
   ],
   "note": "all histories; exact K inverse only up to the eps of inverse_intrinsics, whose effect is stated exactly"
  },
  {
   "property": "C44",
   "status": "partial",
   "theorems": [
    "Verif.Rgbd.derived_maps_fresh_partial",
    "Verif.Rgbd.fresh_exists",
    "Verif.Rgbd.failed_assignment_changes_nothing",
    "Verif.Rgbd.assignment_succeeds_iff_shape",
    "Verif.Rgbd.depth_setter_broken",
    "Verif.Rgbd.stale_mask_after_depth",
    "Verif.Rgbd.stale_mask_after_layout",
    "Verif.Rgbd.witness_hist"
   ],
   "note": "false as stated: valid_depth_mask is never invalidated and the depth setter raises on unconverted objects (both proved); proved for all histories in which depth assignment / in-place layout conversion precede the first read"
  },
  {
   "property": "C45",
   "status": "proved",
   "theorems": [
    "Verif.Rgbd.clone_same_reads",
    "Verif.Rgbd.to_channels_first_permutes",
    "Verif.Rgbd.channel_round_trip",
    "Verif.Rgbd.stale_mask_after_layout"
   ],
   "note": "out-of-place conversions, all histories; the in-place ones are false after the mask was read (witness proved)"
  },
  {
   "property": "C46",
   "status": "proved",
   "theorems": [
    "Verif.Rgbd.getitem_aligned",
    "Verif.Rgbd.index_positions",
    "Verif.Rgbd.getitem_outcomes",
    "Verif.Rgbd.witness_index",
    "Verif.Rgbd.two_lists_refused"
   ],
   "note": "ints, slices and lists; index -1, bare slices and one-element tuples raise IndexError (proved)"
  },
  {
   "property": "C47",
   "status": "proved",
   "theorems": [
    "Verif.Slam.gt_returns_given_poses",
    "Verif.Slam.gt_missing_poses",
    "Verif.Slam.slam_hypotheses",
    "Verif.Slam.slam_runs",
    "Verif.Slam.made_sysOk"
   ],
   "note": ""
  },
  {
   "property": "C48",
   "status": "proved",
   "theorems": [
    "Verif.Slam.poses_are_running_products",
    "Verif.Slam.icp_poses_products",
    "Verif.Slam.forward_fails_only_if_provider_fails",
    "Verif.Slam.fails_only_if_lost",
    "Verif.Slam.odometry_names",
    "Verif.Slam.slam_hypotheses",
    "Verif.Slam.slam_runs"
   ],
   "note": ""
  },
  {
   "property": "C49",
   "status": "proved",
   "theorems": [
    "Verif.Slam.forward_causal",
    "Verif.Slam.forward_is_repeated_step",
    "Verif.Slam.forward_prefix",
    "Verif.Slam.slam_hypotheses",
    "Verif.Slam.slam_runs"
   ],
   "note": ""
  },
  {
   "property": "C50",
   "status": "proved",
   "theorems": [
    "Verif.Slam.step_arguments_after",
    "Verif.Slam.pointfusion_step_mutates_map",
    "Verif.Slam.slam_hypotheses"
   ],
   "note": ""
  },
  {
   "property": "C51",
   "status": "proved",
   "theorems": [
    "Verif.Slam.map_never_shrinks",
    "Verif.Slam.forward_map_grows",
    "Verif.Slam.icpslam_map_content",
    "Verif.Slam.icpslam_returns_all_pixels",
    "Verif.Slam.pointfusion_total_weight",
    "Verif.Slam.pointfusion_returns_all_weight",
    "Verif.Slam.slam_hypotheses",
    "Verif.Slam.slam_runs"
   ],
   "note": ""
  },
  {
   "property": "C52",
   "status": "proved",
   "theorems": [
    "Verif.Icp.solve_minimises",
    "Verif.Icp.normal_det_ne_zero",
    "Verif.Icp.solve_errors",
    "Verif.Icp.solve_undamped_singular"
   ],
   "note": ""
  },
  {
   "property": "C53",
   "status": "proved",
   "theorems": [
    "Verif.Icp.gauss_newton_rows",
    "Verif.Icp.gaussNewton_eq",
    "Verif.Icp.residual_first_order",
    "Verif.Icp.threshold_is_squared",
    "Verif.Icp.gauss_newton_errors",
    "Verif.Icp.bruteNN_nearest"
   ],
   "note": "knn_points is an external call: assumed to return a nearest neighbour (NearestIn), met by bruteNN"
  },
  {
   "property": "C54",
   "status": "proved",
   "theorems": [
    "Verif.Icp.icp_is_lm",
    "Verif.Icp.lm_error_decreases",
    "Verif.Icp.lm_error_le",
    "Verif.Icp.lm_product",
    "Verif.Icp.lm_damp_pos",
    "Verif.Icp.lm_fixed_at_zero",
    "Verif.Icp.lm_rigid_partial",
    "Verif.Icp.icp_raises",
    "Verif.Icp.icp_example"
   ],
   "note": "the extra claim lm_rigid_partial (rigid result) excludes increments below the small-angle cut-off of se3_exp"
  },
  {
   "property": "C55",
   "status": "proved",
   "theorems": [
    "Verif.Icp.grad_is_trace",
    "Verif.Icp.dampFactor_between",
    "Verif.Icp.dampFactor_mono",
    "Verif.Icp.stepWeight_between",
    "Verif.Icp.stepWeight_mono",
    "Verif.Icp.stepWeight_extremes",
    "Verif.Icp.grad_damp_bounds",
    "Verif.Icp.grad_fixed_at_zero",
    "Verif.Icp.grad_product",
    "Verif.Icp.grad_raises",
    "Verif.Icp.grad_example"
   ],
   "note": ""
  },
  {
   "property": "C56",
   "status": "proved",
   "theorems": [
    "Verif.Icp.downsample_frames",
    "Verif.Icp.downsample_map",
    "Verif.Icp.downsample_frames_errors",
    "Verif.Icp.downsample_frames_case",
    "Verif.Icp.downsample_map_case"
   ],
   "note": ""
  },
  {
   "property": "C57",
   "status": "proved",
   "theorems": [
    "Verif.Fusion.f32_exact_iff",
    "Verif.Fusion.f32_small",
    "Verif.Fusion.f32_fails",
    "Verif.Fusion.best_wrong_index",
    "Verif.Fusion.best_spec"
   ],
   "note": ""
  },
  {
   "property": "C58",
   "status": "proved",
   "theorems": [
    "Verif.Data.pointquaternion_rigid",
    "Verif.Data.transform44_spec",
    "Verif.Data.zero_pose_quaternion"
   ],
   "note": ""
  },
  {
   "property": "C59",
   "status": "proved",
   "theorems": [
    "Verif.Data.read_file_list_entries",
    "Verif.Data.read_file_list_spec",
    "Verif.Data.dictOf_nodup",
    "Verif.Data.dictOf_find"
   ],
   "note": ""
  },
  {
   "property": "C60",
   "status": "proved",
   "theorems": [
    "Verif.Data.create_label_image_spec",
    "Verif.Data.colours_consistent"
   ],
   "note": ""
  },
  {
   "property": "C61",
   "status": "proved",
   "theorems": [
    "Verif.Data.find_associations_spec"
   ],
   "note": ""
  },
  {
   "property": "C62",
   "status": "partial",
   "theorems": [
    "Verif.Data.read_trajectory_partial",
    "Verif.Data.read_trajectory_nan_raises"
   ],
   "note": "Files without NaN; a NaN row raises NameError instead of being skipped (read_trajectory_nan_raises)."
  },
  {
   "property": "C63",
   "status": "proved",
   "theorems": [
    "Verif.Icp.icp_provider",
    "Verif.Icp.gradicp_provider",
    "Verif.Icp.provide_eq",
    "Verif.Icp.provide_errors",
    "Verif.Icp.ground_truth_relative",
    "Verif.Icp.ground_truth_errors",
    "Verif.Icp.provider_hypotheses",
    "Verif.Icp.handed_in_order"
   ],
   "note": ""
  },
  {
   "property": "C64",
   "status": "proved",
   "theorems": [
    "Verif.Geom.axisangle_length",
    "Verif.Geom.axisangle_exp",
    "Verif.Geom.axisangle_double_cover",
    "Verif.Geom.axisangle_scale",
    "Verif.Geom.axisangle_of_halfangle"
   ],
   "note": ""
  },
  {
   "property": "C65",
   "status": "proved",
   "theorems": [
    "Verif.Slam.batch_independent",
    "Verif.Slam.batch_element",
    "Verif.Slam.made_provider",
    "Verif.Slam.batch_hypotheses"
   ],
   "note": ""
  },
  {
   "property": "C66",
   "status": "proved",
   "theorems": [
    "Verif.Slam.world_frame",
    "Verif.Slam.world_frame_wide_angle",
    "Verif.Slam.world_hypotheses"
   ],
   "note": "ground-truth odometry and dot_th >= 0; for dot_th < 0 (angle above 90 degrees) refuted by world_frame_wide_angle"
  },
  {
   "property": "C67",
   "status": "proved",
   "theorems": [
    "Verif.Data.scannet_item",
    "Verif.Data.icl_item",
    "Verif.Data.tum_item",
    "Verif.Data.tum_intrinsics",
    "Verif.Data.icl_intrinsics",
    "Verif.Data.colours_normalized",
    "Verif.Data.depths_not_interpolated",
    "Verif.Data.nnResize_ok",
    "Verif.Data.scannet_item_hypotheses",
    "Verif.Data.icl_item_hypotheses",
    "Verif.Data.tum_item_hypotheses",
    "Verif.Data.scannet_labels_rank"
   ],
   "note": "cv2.resize and image decoding are parameters (ResizeOk; OpenCV's nearest-neighbour formula meets it); the documentation gives labels shape (L,H,W), they have rank 4 (scannet_labels_rank)"
  },
  {
   "property": "C68",
   "status": "proved",
   "theorems": [
    "Verif.Data.batch_accepted",
    "Verif.Data.batch_world",
    "Verif.Data.scannet_world",
    "Verif.Data.icl_world",
    "Verif.Data.tum_world",
    "Verif.Data.scannet_world_hypotheses",
    "Verif.Data.apply_relative"
   ],
   "note": "torch's default_collate is modelled as torch.stack; ICL for start = 0 (C11 is what goes wrong otherwise)"
  },
  {
   "property": "C69",
   "status": "proved",
   "theorems": [
    "Verif.Slam.dataset_slam",
    "Verif.Slam.scannet_slam",
    "Verif.Slam.icl_slam",
    "Verif.Slam.tum_slam",
    "Verif.Slam.scannet_slam_hypotheses"
   ],
   "note": "Exact arithmetic; cv2.resize, file decoding and torch's matrix inverse enter through their contracts (ResizeOk, the reader functions, IsInverse); ICL for start = 0 and one trajectory."
  },
  {
   "property": "C70",
   "status": "proved",
   "theorems": [
    "Verif.Cfg.print_determines",
    "Verif.Cfg.print_lines",
    "Verif.Cfg.print_example",
    "Verif.Cfg.print_ambiguous_colon"
   ],
   "note": "Python's str on leaves and plain dicts is a parameter; the condition on keys is needed (print_ambiguous_colon)."
  },
  {
   "property": "C71",
   "status": "proved",
   "theorems": [
    "Verif.Cfg.load_by_extension",
    "Verif.Cfg.load_spec",
    "Verif.Cfg.splitext_ext",
    "Verif.Cfg.splitext_none",
    "Verif.Cfg.load_fresh",
    "Verif.Cfg.merge_file",
    "Verif.Cfg.merge_succeeds",
    "Verif.Cfg.dump_load",
    "Verif.Cfg.save_and_merge",
    "Verif.Cfg.save_and_merge_case",
    "Verif.Cfg.save_and_merge_can_raise"
   ],
   "note": "yaml, the file system and module import are parameters; yaml through the contract YamlOk (shown satisfiable by yaml_exists)."
  },
  {
   "property": "C72",
   "status": "proved",
   "theorems": [
    "Verif.Slam.pointfusion_thresholds",
    "Verif.Slam.thresholds_hypotheses",
    "Verif.Slam.dot_angle",
    "Verif.Slam.angle_lt",
    "Verif.Slam.dot_gt",
    "Verif.Slam.run_normals_le",
    "Verif.Slam.gaussWeight_eq"
   ],
   "note": "For poses with orthogonal rotation parts; above 90 degrees see world_frame_wide_angle."
  },
  {
   "property": "C73",
   "status": "proved",
   "theorems": [
    "Verif.Slam.still_camera_stays",
    "Verif.Slam.run_still",
    "Verif.Slam.located_still",
    "Verif.Slam.still_answer",
    "Verif.Slam.made_identity",
    "Verif.Slam.reprojects_pinhole",
    "Verif.Slam.still_hypotheses",
    "Verif.Slam.wall_map"
   ],
   "note": "Over exact real arithmetic; reprojects_pinhole gives the intrinsics for which points project back."
  },
  {
   "property": "C74",
   "status": "proved",
   "theorems": [
    "Verif.Slam.still_icpslam_map",
    "Verif.Slam.still_pointfusion_map",
    "Verif.Slam.still_pixels_once",
    "Verif.Slam.still_step",
    "Verif.Slam.still_first",
    "Verif.Slam.wall_map",
    "Verif.Slam.lone_pixel_map"
   ],
   "note": ""
  },
  {
   "property": "C75",
   "status": "proved",
   "theorems": [
    "Verif.Pcs.open3d_spec",
    "Verif.Pcs.plotly_spec",
    "Verif.Pcs.chosen_selection",
    "Verif.Pcs.exported_colors",
    "Verif.Pcs.export_example",
    "Verif.Pcs.export_guesses_range"
   ],
   "note": "The permutation is a parameter; what open3d and plotly do with the arrays is not modelled; the colour range is guessed from the exported points only (export_guesses_range)."
  },
  {
   "property": "C76",
   "status": "proved",
   "theorems": [
    "Verif.Rgbd.show_spec",
    "Verif.Rgbd.show_channels_first",
    "Verif.Rgbd.depthScale_spec",
    "Verif.Rgbd.scale_unique",
    "Verif.Rgbd.show_example"
   ],
   "note": "Up to the arrays given to cv2.imencode; astype(uint8) through its contract IsCast; exact real arithmetic."
  },
  {
   "property": "C77",
   "status": "proved",
   "theorems": [
    "Verif.Icp.gradicp_smooth",
    "Verif.Icp.icp_smooth",
    "Verif.Icp.gradicp_smooth_example",
    "Verif.Icp.icp_smooth_example",
    "Verif.Icp.gradicp_jump"
   ],
   "note": "Smoothness of the computed function in exact real arithmetic; torch's autograd itself is not modelled."
  },
  {
   "property": "C78",
   "status": "proved",
   "theorems": [
    "Verif.Slam.mapping_smooth",
    "Verif.Slam.smooth_hypotheses",
    "Verif.Slam.smooth_wall"
   ],
   "note": "Smoothness of the computed function in exact real arithmetic, ground-truth odometry; torch's autograd itself is not modelled."
  },
  {
   "property": "C79",
   "status": "proved",
   "theorems": [
    "Verif.Slam.slam_smooth",
    "Verif.Slam.slam_smooth_hypotheses",
    "Verif.Slam.slam_smooth_wall"
   ],
   "note": "Assembled from C77 (registration), C78 (mapping) and stability of the choice of map points.  'No decision on an edge' is CalmTrack; the wall example moves a wall by one unit, so the registration does real work in 20 iterations."
  },
  {
   "property": "C80",
   "status": "proved",
   "theorems": [
    "Verif.Icp.icp_turned",
    "Verif.Icp.gradicp_turned",
    "Verif.Icp.brute_byDistance",
    "Verif.Slam.orientation_free",
    "Verif.Slam.orientation_free_success",
    "Verif.Slam.orientation_example",
    "Verif.Icp.registration_depends_on_origin"
   ],
   "note": "The registration theorems cover all outcomes, including empty clouds, unequal lengths and no iterations.  Invariance under translations is refuted (registration_depends_on_origin)."
  },
  {
   "property": "C81",
   "status": "proved",
   "theorems": [
    "Verif.Mem.call_keeps_others",
    "Verif.Mem.write_keeps_families",
    "Verif.Mem.isolation",
    "Verif.Mem.clone_independent",
    "Verif.Mem.calls_on_values",
    "Verif.Mem.programs_on_values",
    "Verif.Mem.detach_shares",
    "Verif.Mem.to_shares",
    "Verif.Mem.tensor_shares",
    "Verif.Mem.getitem_shares",
    "Verif.Mem.to_copy_refuted",
    "Verif.Mem.to_copy_exact",
    "Verif.Mem.write_stale",
    "Verif.Mem.write_seen"
   ],
   "note": "Objects are records of addresses into a memory of storages; the refinement to the value model of C25-C31 is part of the claim (calls_on_values).  The documented guarantee of to(copy=True) is refuted (to_copy_refuted)."
  },
  {
   "property": "C82",
   "status": "proved",
   "theorems": [
    "Verif.Mem.device_honest",
    "Verif.Mem.to_device",
    "Verif.Mem.to_named",
    "Verif.Mem.cuda_not_self"
   ],
   "note": "device_honest holds in every reachable world of the model of C81."
  },
  {
   "property": "C83",
   "status": "proved",
   "theorems": [
    "Verif.RMem.call_keeps_others",
    "Verif.RMem.write_keeps_families",
    "Verif.RMem.isolation",
    "Verif.RMem.clone_independent",
    "Verif.RMem.to_independent",
    "Verif.RMem.relaid_independent",
    "Verif.RMem.relaid_self_iff",
    "Verif.RMem.picked_independent",
    "Verif.RMem.calls_on_values",
    "Verif.RMem.programs_on_values",
    "Verif.RMem.new_shares",
    "Verif.RMem.new_moves",
    "Verif.RMem.set_shares",
    "Verif.RMem.detach_shares",
    "Verif.RMem.clone_new",
    "Verif.RMem.to_shares",
    "Verif.RMem.to_own_shares",
    "Verif.RMem.getitem_shares",
    "Verif.RMem.to_copy_refuted",
    "Verif.RMem.write_stale"
   ],
   "note": "Objects are records of views into a memory of storages; the refinement to the value model of C02/C05-C09 is part of the claim (calls_on_values).  The documented guarantee of to(copy=True) is refuted (to_copy_refuted)."
  },
  {
   "property": "C84",
   "status": "proved",
   "theorems": [
    "Verif.RMem.new_device",
    "Verif.RMem.honest_kept",
    "Verif.RMem.honest_getters",
    "Verif.RMem.to_device",
    "Verif.RMem.to_self_iff",
    "Verif.RMem.apart_iff",
    "Verif.RMem.getitem_apart_iff",
    "Verif.RMem.vertex_apart",
    "Verif.RMem.taken_apart"
   ],
   "note": ""
  },
  {
   "property": "C85",
   "status": "proved",
   "theorems": [
    "Verif.Slam.pointfusion_ledger",
    "Verif.Slam.pointfusion_ledger_grows",
    "Verif.Slam.pointfusion_hull",
    "Verif.Slam.pointfusion_made_ledger",
    "Verif.Slam.ledger_witness"
   ],
   "note": ""
  },
  {
   "property": "C86",
   "status": "proved",
   "theorems": [
    "Verif.Cfg.assign_iff",
    "Verif.Cfg.assign_error",
    "Verif.Cfg.assign_read",
    "Verif.Cfg.construct_open",
    "Verif.Cfg.assign_case"
   ],
   "note": ""
  },
  {
   "property": "C87",
   "status": "proved",
   "theorems": [
    "Verif.Data.tum_select_iff",
    "Verif.Data.icl_select_iff",
    "Verif.Data.scan_select_iff",
    "Verif.Data.tum_select_order",
    "Verif.Data.icl_select_order",
    "Verif.Data.tum_subset_items",
    "Verif.Data.scan_line_iff",
    "Verif.Data.icl_line_iff",
    "Verif.Data.icl_base_trap",
    "Verif.Data.trailing_newline",
    "Verif.Data.stray_folder",
    "Verif.Data.select_case"
   ],
   "note": "listing of basedir and presence of files are inputs; os.path/glob/natsorted are third party; a sequences argument of another type (TypeError) is not modelled"
  },
  {
   "property": "C88",
   "status": "proved",
   "theorems": [
    "Verif.Slam.unit_of_length",
    "Verif.Slam.forward_scaled",
    "Verif.Slam.unit_hypotheses",
    "Verif.Slam.threshold_in_old_unit"
   ],
   "note": "exact arithmetic; intrinsics with third row 0 0 1 and no fourth column; ICP odometry is not covered (its damping term has a unit)"
  },
  {
   "property": "C89",
   "status": "proved",
   "theorems": [
    "Verif.CfgMem.groups_apart",
    "Verif.CfgMem.others_unchanged",
    "Verif.CfgMem.clone_isolated",
    "Verif.CfgMem.construct_isolated",
    "Verif.CfgMem.merge_isolated",
    "Verif.CfgMem.mergeFromList_isolated",
    "Verif.CfgMem.freeze_isolated",
    "Verif.CfgMem.clone_value",
    "Verif.CfgMem.construct_value",
    "Verif.CfgMem.mergeFromOther_value",
    "Verif.CfgMem.mergeFromList_value",
    "Verif.CfgMem.freeze_value",
    "Verif.CfgMem.setattr_value",
    "Verif.CfgMem.setitem_value",
    "Verif.CfgMem.register_value",
    "Verif.CfgMem.get_value",
    "Verif.CfgMem.mutate_value",
    "Verif.CfgMem.progW_groups",
    "Verif.CfgMem.merge_copies_lists",
    "Verif.CfgMem.isolation_hypotheses",
    "Verif.CfgMem.freeze_case",
    "Verif.CfgMem.merge_from_list_shares",
    "Verif.CfgMem.setattr_shares",
    "Verif.CfgMem.merge_from_list_copies_dicts",
    "Verif.CfgMem.construct_sharing",
    "Verif.CfgMem.shared_node_merge",
    "Verif.CfgMem.value_hypotheses",
    "Verif.CfgMem.paths_hypotheses"
   ],
   "note": "list elements are immutable values, keys are strings, no cycles; nesting deeper than the recursion limit raises"
  },
  {
   "property": "C90",
   "status": "proved",
   "theorems": [
    "Verif.Flt.fuse_exact",
    "Verif.Flt.fuse_call_rounding",
    "Verif.Flt.runs_succeed",
    "Verif.Flt.fuse_run_rounding",
    "Verif.Flt.idle_run_rounding",
    "Verif.Flt.idle_kept",
    "Verif.Flt.idle_drifts",
    "Verif.Flt.drift_case",
    "Verif.Flt.idle_kept_hypotheses",
    "Verif.Flt.bin_has"
   ],
   "note": "no overflow, underflow, infinities or NaN (unbounded exponent); weights are arbitrary positive numbers of the format"
  },
  {
   "property": "C91",
   "status": "proved",
   "theorems": [
    "Verif.Slam.icpslam_gt_either_layout",
    "Verif.Slam.fusion_step_needs_channels_last",
    "Verif.Slam.fusion_needs_channels_last",
    "Verif.Slam.odometry_step_needs_channels_last",
    "Verif.Slam.odometry_needs_channels_last",
    "Verif.Slam.one_frame_needs_no_odometry",
    "Verif.Slam.layout_case",
    "Verif.Slam.raised_step_changes_map",
    "Verif.Fusion.updateMapFusionRaw_last",
    "Verif.Fusion.updateMapFusionRaw_first",
    "Verif.Icp.downsampleRaw_last",
    "Verif.Icp.downsampleRaw_first"
   ],
   "note": "proved; the last two sentences of the statement are a refutation of 'raising leaves the map as it was'"
  },
  {
   "property": "C92",
   "status": "proved",
   "theorems": [
    "Verif.Slam.colours_are_carried",
    "Verif.Slam.geometry_ignores_colours",
    "Verif.Slam.recolouring_commutes",
    "Verif.Slam.colours_stay_in_range",
    "Verif.Slam.forward_colour",
    "Verif.Slam.colour_hypotheses",
    "Verif.Slam.colour_case"
   ],
   "note": "proved for the constructors over the reals; forward_colour for every provider that ignores colours over every ordered field"
  },
  {
   "property": "C93",
   "status": "proved",
   "theorems": [
    "Verif.Flt.reprojection_error",
    "Verif.Flt.own_pixel_found",
    "Verif.Flt.inner_pixel_found",
    "Verif.Flt.vga_double",
    "Verif.Flt.vga_single",
    "Verif.Flt.left_edge_lost",
    "Verif.Flt.left_edge_exact",
    "Verif.Flt.vga_case",
    "Verif.Flt.steps_exist",
    "Verif.Flt.dots_error",
    "Verif.Flt.vertex_exact",
    "Verif.Flt.world_exact",
    "Verif.Flt.camera_exact",
    "Verif.Flt.project_exact",
    "Verif.Flt.inFrame_exact"
   ],
   "note": "no overflow or underflow; per pixel and map point, sums of products in any order"
  },
  {
   "property": "C94",
   "status": "proved",
   "theorems": [
    "Verif.Slam.raised_step_keeps_map",
    "Verif.Slam.raised_step_map_reads",
    "Verif.Slam.raised_step_frame",
    "Verif.Slam.raised_localisation_moves_frame",
    "Verif.Slam.failed_step_can_be_skipped",
    "Verif.Slam.skip_case",
    "Verif.Slam.wide_features_raise_too_late",
    "Verif.Slam.broken_provider_moves_frame",
    "Verif.Slam.raised_step_changes_map"
   ],
   "note": "the two exceptions are exhibited; the model has no MemoryError, KeyboardInterrupt or device errors"
  },
  {
   "property": "C95",
   "status": "proved",
   "theorems": [
    "Verif.Icp.icp_converges",
    "Verif.Icp.grad_converges",
    "Verif.Icp.icp_provider_converges",
    "Verif.Icp.grad_provider_converges",
    "Verif.Icp.ConvergeWitness.scene",
    "Verif.Icp.ConvergeWitness.start_off",
    "Verif.Icp.ConvergeWitness.icp_run",
    "Verif.Icp.ConvergeWitness.grad_run",
    "Verif.Icp.ConvergeWitness.provider_run"
   ],
   "note": "exact arithmetic; local convergence with explicit constants and the source another sampling of the surface with bounded measurement error, the basin is c <= g^2/2048"
  },
  {
   "property": "C96",
   "status": "proved",
   "theorems": [
    "Verif.Slam.second_frame_accuracy",
    "Verif.Slam.revisit_scene",
    "Verif.Slam.first_frame_map",
    "Verif.Slam.accuracy_hypotheses",
    "Verif.Slam.accuracy_corner"
   ],
   "note": "exact arithmetic; explicit constants, the basin is c <= g^2/2048; later frames, whose map has been updated with recovered poses, are not covered"
  },
  {
   "property": "C97",
   "status": "proved",
   "theorems": [
    "Verif.Slam.step_order",
    "Verif.Slam.feed_order",
    "Verif.Slam.icpslam_gt_order",
    "Verif.Slam.icp_provider_order",
    "Verif.Slam.gradicp_provider_order",
    "Verif.Slam.providers_order_spaced",
    "Verif.Slam.order_hypotheses",
    "Verif.Slam.order_hypotheses_gt",
    "Verif.Slam.order_case",
    "Verif.Slam.fusion_tie",
    "Verif.Slam.icp_tie",
    "Verif.Slam.icp_order_case",
    "Verif.Slam.providers_order_case",
    "Verif.Icp.icp_order",
    "Verif.Icp.gradicp_order",
    "Verif.Icp.untied_of_spaced",
    "Verif.Icp.untiedRun_of_spaced"
   ],
   "note": "exact arithmetic; the conditions (no ties) are stated and shown to be needed"
  },
  {
   "property": "C98",
   "status": "proved",
   "theorems": [
    "Verif.Mem.mapping_keeps_tensors",
    "Verif.Mem.mapping_result",
    "Verif.Mem.mapping_device",
    "Verif.Mem.mapping_values",
    "Verif.Mem.step_values",
    "Verif.Mem.new_map_independent",
    "Verif.Mem.forward_map",
    "Verif.Mem.forward_raises",
    "Verif.Mem.mapping_case",
    "Verif.Mem.forward_case",
    "Verif.Mem.programs_on_values",
    "Verif.Mem.call_keeps_others",
    "Verif.Mem.isolation",
    "Verif.Mem.cloneAppend_maps",
    "Verif.Mem.setPads_sim",
    "Verif.Mem.fuseWithMap_maps",
    "Verif.Mem.mergeStep_sim",
    "Verif.Mem.findActive_sim",
    "Verif.Mem.findSimilar_sim",
    "Verif.Mem.findBest_sim",
    "Verif.Mem.downsample_sim",
    "Verif.Mem.iter_sim",
    "Verif.Mem.iters_sim",
    "Verif.Mem.slamStep_maps",
    "Verif.Mem.updateMapAggregate_maps",
    "Verif.Mem.mapStep_maps"
   ],
   "note": "frames enter as values on the device of the map (their own memory is the subject of C83/C84); exact arithmetic"
  },
  {
   "property": "C99",
   "status": "proved",
   "theorems": [
    "Verif.RMem.slam_step_keeps_tensors",
    "Verif.RMem.slam_step_poses",
    "Verif.RMem.slam_step_sharing",
    "Verif.RMem.slam_step_values",
    "Verif.RMem.frames_stay_independent",
    "Verif.RMem.forward_frames",
    "Verif.RMem.forward_frames_values",
    "Verif.RMem.slam_memory_case",
    "Verif.RMem.forward_memory_case",
    "Verif.RMem.programs_on_values",
    "Verif.RMem.call_keeps_others",
    "Verif.RMem.isolation",
    "Verif.RMem.honest_kept",
    "Verif.RMem.odometry_sim",
    "Verif.RMem.localize_sim",
    "Verif.RMem.readAggregate_sim",
    "Verif.RMem.slamStep_sim",
    "Verif.RMem.frameAt_sim",
    "Verif.RMem.liveFrame_sim",
    "Verif.RMem.iter_sim",
    "Verif.RMem.forward_sim"
   ],
   "note": "the map is a value here (its memory is the subject of C98); live and previous frame are different objects; memory after a forward that raises is not modelled; exact arithmetic"
  },
  {
   "property": "C100",
   "status": "proved",
   "theorems": [
    "Verif.Flt.orientation_drift",
    "Verif.Flt.orthogonality_drift",
    "Verif.Flt.position_drift",
    "Verif.Flt.single_orientation",
    "Verif.Flt.single_orthogonality",
    "Verif.Flt.single_position",
    "Verif.Flt.double_orthogonality",
    "Verif.Flt.double_own_pixel",
    "Verif.Flt.no_renormalisation",
    "Verif.Flt.forward_is_chain",
    "Verif.Flt.chain_exact",
    "Verif.Flt.chain_exists",
    "Verif.Flt.pose_case"
   ],
   "note": "the transforms of the provider are given (their own accuracy is not bounded here); relative error model without underflow and overflow"
  },
  {
   "property": "C101",
   "status": "proved",
   "theorems": [
    "Verif.Nan.vertex_local",
    "Verif.Nan.gvertex_local",
    "Verif.Nan.normal_local",
    "Verif.Nan.gnormal_local",
    "Verif.Nan.cloud_local",
    "Verif.Nan.nan_vertex",
    "Verif.Nan.nan_normal",
    "Verif.Nan.active_nan",
    "Verif.Nan.similar_nan",
    "Verif.Nan.nan_never_matched",
    "Verif.Nan.nan_appended",
    "Verif.Nan.nan_stays",
    "Verif.Nan.nan_grows",
    "Verif.Nan.inf_depth_enters",
    "Verif.Nan.ieee_strict",
    "Verif.Nan.nan_case",
    "Verif.Nan.inf_case",
    "Verif.Nan.fuse_case",
    "Verif.Nan.nine_same",
    "Verif.Nan.vertex_link",
    "Verif.Nan.gvertex_link",
    "Verif.Nan.normal_link",
    "Verif.Nan.gnormal_link",
    "Verif.Nan.merge_link",
    "Verif.Nan.fuse_matched"
   ],
   "note": "one batch element; find_best_unique_correspondences is only assumed to choose among its rows; no signed zeros in the number model; links show that over a field the same definitions are those of the exact model"
  },
  {
   "property": "C102",
   "status": "proved",
   "theorems": [
    "Verif.Nan.icp_freezes",
    "Verif.Nan.grad_poisons",
    "Verif.Nan.nan_forever",
    "Verif.Nan.nan_pose_points",
    "Verif.Nan.err_nan",
    "Verif.Nan.icp_link",
    "Verif.Nan.grad_link",
    "Verif.Nan.icp_case",
    "Verif.Nan.grad_case",
    "Verif.Nan.gaussNewton_link",
    "Verif.Nan.exp_link",
    "Verif.Nan.mm_link",
    "Verif.Nan.icpStep_link",
    "Verif.Nan.gradStep_link"
   ],
   "note": "nearest-neighbour search and linear solver are parameters (the solver may raise)"
  },
  {
   "property": "C103",
   "status": "proved",
   "theorems": [
    "Verif.Data.uses_refine",
    "Verif.Data.get_keeps",
    "Verif.Data.write_self",
    "Verif.Data.write_other",
    "Verif.Data.tum_repeatable",
    "Verif.Data.icl_repeatable",
    "Verif.Data.scannet_repeatable",
    "Verif.Data.tum_intrinsics_leak",
    "Verif.Data.icl_intrinsics_leak",
    "Verif.Data.dataset_isolated",
    "Verif.Data.dataset_indices",
    "Verif.Data.loop_iff",
    "Verif.Data.loop_det",
    "Verif.Data.tum_loop",
    "Verif.Data.icl_loop",
    "Verif.Data.scannet_loop_cut",
    "Verif.Data.scannet_full_loop",
    "Verif.Data.scannet_loop_case",
    "Verif.Data.tum_uses_case",
    "Verif.Data.tumGet_val",
    "Verif.Data.iclGet_val",
    "Verif.Data.scanGet_val",
    "Verif.Data.tum_shared",
    "Verif.Data.icl_shared",
    "Verif.Data.scan_shares"
   ],
   "note": "files on disk do not change; tensors are overwritten as a whole; the caller does not write to dataset.intrinsics other than through an item; DataLoader workers are not modelled"
  },
  {
   "property": "C104",
   "status": "proved",
   "theorems": [
    "Verif.Rgbd.checkArgs_iff",
    "Verif.Rgbd.new_checks",
    "Verif.Rgbd.shapes_documented",
    "Verif.Rgbd.sizes_kept",
    "Verif.Rgbd.witness_args",
    "Verif.Rgbd.witness_had",
    "Verif.Rgbd.had_tracked",
    "Verif.Rgbd.new_tracked",
    "Verif.Rgbd.first_tracked",
    "Verif.Rgbd.last_tracked",
    "Verif.Rgbd.clone_tracked",
    "Verif.Rgbd.selected_tracked",
    "Verif.Rgbd.keeps_computeVertex"
   ],
   "note": "assigning None to the images or the intrinsics is not modelled; the cached valid_depth_mask is excluded: its shape goes stale after an in-place layout change, see C44 and C45"
  },
  {
   "property": "C105",
   "status": "proved",
   "theorems": [
    "Verif.Dtype.frame_maps",
    "Verif.Dtype.forward_iff",
    "Verif.Dtype.register_same",
    "Verif.Dtype.provide_needs_float32",
    "Verif.Dtype.float32_works",
    "Verif.Dtype.double_intrinsics_raise",
    "Verif.Dtype.double_depth",
    "Verif.Dtype.byte_colours",
    "Verif.Dtype.mixed_aggregate",
    "Verif.Dtype.one_double_frame",
    "Verif.Dtype.mixed_fusion_raises",
    "Verif.Dtype.dtype_case",
    "Verif.Dtype.colours_iff",
    "Verif.Dtype.step_later",
    "Verif.Dtype.maps_work",
    "Verif.Dtype.maps_fail",
    "Verif.Dtype.part_fusion",
    "Verif.Dtype.part_aggregate",
    "Verif.Dtype.localize_reg"
   ],
   "note": "the promotion, matrix-product and index-assignment rules of torch >= 1.6 are trusted, see the header of Dtype/Model; which dtypes have matrix products and a neighbour search is a parameter; all batch elements have the same dtypes; values are not followed, what is found in the data is arbitrary"
  },
  {
   "property": "C106",
   "status": "proved",
   "theorems": [
    "Verif.Grad.back_is_derivative",
    "Verif.Grad.back_finite",
    "Verif.Grad.run_regular",
    "Verif.Grad.finite_of_mild",
    "Verif.Grad.unhomogenize_grads",
    "Verif.Grad.axisangle_grads",
    "Verif.Grad.project_grads",
    "Verif.Grad.normal_grads",
    "Verif.Grad.alpha_grads",
    "Verif.Grad.merge_grads",
    "Verif.Grad.vertex_grads",
    "Verif.Grad.lm_grads",
    "Verif.Grad.so3_exp_grads",
    "Verif.Grad.unhomog_computes",
    "Verif.Grad.axis_computes",
    "Verif.Grad.project_computes",
    "Verif.Grad.normal_computes",
    "Verif.Grad.alpha_computes",
    "Verif.Grad.merge_computes",
    "Verif.Grad.vertex_computes",
    "Verif.Grad.rot_computes",
    "Verif.Grad.rotSmall_computes",
    "Verif.Grad.lm_computes",
    "Verif.Grad.witness_axis",
    "Verif.Grad.witness_identity",
    "Verif.Grad.witness_unhomog",
    "Verif.Grad.witness_value",
    "Verif.Grad.witness_normal",
    "Verif.Grad.witness_lm",
    "Verif.Grad.witness_project",
    "Verif.Grad.witness_so3"
   ],
   "note": "the backward formulas of torch (derivatives.yaml) are trusted and transcribed in Grad/Model; the code of one point, pixel or matrix is taken apart into scalar operations; exact arithmetic on finite numbers: overflow and rounding of gradients are not modelled; linear solves (torch.inverse) and indexing are not included"
  },
  {
   "property": "C107",
   "status": "proved",
   "theorems": [
    "Verif.Grad.solve_back_correct",
    "Verif.Grad.solve_grads",
    "Verif.Grad.solve_is_model",
    "Verif.Grad.damped_invertible",
    "Verif.Grad.witness_solve"
   ],
   "note": "torch's backward formulas of matmul, inverse and transpose are trusted and transcribed in solveBack; exact arithmetic"
  },
  {
   "property": "C108",
   "status": "proved",
   "theorems": [
    "Verif.Nd.project_accepts",
    "Verif.Nd.project_errors",
    "Verif.Nd.project_result",
    "Verif.Nd.project_shape",
    "Verif.Nd.unproject_accepts",
    "Verif.Nd.unproject_result",
    "Verif.Nd.homogenize_result",
    "Verif.Nd.unhomogenize_result",
    "Verif.Nd.intrinsics_result",
    "Verif.Nd.transform3d_result",
    "Verif.Nd.kf_batched",
    "Verif.Nd.kf_images",
    "Verif.Nd.cam2pixel_result",
    "Verif.Nd.pixel2cam_depth",
    "Verif.Nd.pixel2cam_result",
    "Verif.Nd.cam2pixelKF_doc",
    "Verif.Nd.cam2pixelKF_batched",
    "Verif.Nd.quat_result",
    "Verif.Nd.pixel_is_geom",
    "Verif.Nd.witness_project",
    "Verif.Nd.project_shape_refuted",
    "Verif.Nd.witness_unproject",
    "Verif.Nd.transform3d_doc_refuted",
    "Verif.Nd.kf_images_refuted",
    "Verif.Nd.quat_doc_refuted"
   ],
   "note": "torch's broadcasting, matmul, squeeze and view rules are transcribed in Nd/Model and trusted; where the docstrings promise other shapes the theorems state what happens instead (project_shape_refuted, transform3d_doc_refuted, kf_images_refuted, cam2pixelKF_doc, quat_doc_refuted)"
  },
  {
   "property": "C109",
   "status": "proved",
   "theorems": [
    "Verif.Axis.alpha_result",
    "Verif.Axis.alpha_errors",
    "Verif.Axis.close_result",
    "Verif.Axis.similar_result",
    "Verif.Axis.pair_errors",
    "Verif.Axis.dim_wrap",
    "Verif.Axis.moved_same",
    "Verif.Axis.pair_symm",
    "Verif.Axis.tests_are_fusion",
    "Verif.Axis.normalize_nd",
    "Verif.Axis.normalize_roundtrip",
    "Verif.Axis.witness_axis",
    "Verif.Axis.empty_refuted",
    "Verif.Axis.witness_sigma"
   ],
   "note": "exact reals; torch's reductions along a dimension are transcribed in Axis/Model and trusted"
  },
  {
   "property": "C110",
   "status": "proved",
   "theorems": [
    "Verif.Axis.inverse_result",
    "Verif.Axis.inverse_errors",
    "Verif.Axis.compose_result",
    "Verif.Axis.compose_errors",
    "Verif.Axis.cloud_result",
    "Verif.Axis.normals_result",
    "Verif.Axis.cloud_errors",
    "Verif.Axis.mats_are_geom",
    "Verif.Axis.clouds_are_geom",
    "Verif.Axis.relative_4x4",
    "Verif.Axis.inverse_3x4_refuted",
    "Verif.Axis.inverse_5x5_refuted",
    "Verif.Axis.batch_refuted"
   ],
   "note": "torch's matmul, slicing and assignment rules are transcribed in Nd/Model and Axis/Mats and trusted; the documented batches are refuted (batch_refuted)"
  },
  {
   "property": "C111",
   "status": "proved",
   "theorems": [
    "Verif.IcpRaw.gauss_type",
    "Verif.IcpRaw.gauss_value",
    "Verif.IcpRaw.gauss_good",
    "Verif.IcpRaw.gauss_answers_iff",
    "Verif.IcpRaw.solve_type",
    "Verif.IcpRaw.solve_value",
    "Verif.IcpRaw.solve_good",
    "Verif.IcpRaw.icp_type",
    "Verif.IcpRaw.icp_none",
    "Verif.IcpRaw.icp_T0",
    "Verif.IcpRaw.icp_src_index",
    "Verif.IcpRaw.icp_src_value",
    "Verif.IcpRaw.icp_no_iterations",
    "Verif.IcpRaw.icp_thresh",
    "Verif.IcpRaw.icp_target",
    "Verif.IcpRaw.icp_good",
    "Verif.IcpRaw.icp_answers_iff",
    "Verif.IcpRaw.icp_first_only",
    "Verif.IcpRaw.grad_type",
    "Verif.IcpRaw.grad_none",
    "Verif.IcpRaw.grad_T0",
    "Verif.IcpRaw.grad_lmax",
    "Verif.IcpRaw.grad_src_index",
    "Verif.IcpRaw.grad_src_value",
    "Verif.IcpRaw.grad_no_iterations",
    "Verif.IcpRaw.grad_thresh",
    "Verif.IcpRaw.grad_target",
    "Verif.IcpRaw.grad_nu",
    "Verif.IcpRaw.grad_good",
    "Verif.IcpRaw.grad_first_only",
    "Verif.IcpRaw.matOf_moves",
    "Verif.IcpRaw.icp_batch_example",
    "Verif.IcpRaw.grad_example",
    "Verif.IcpRaw.small_examples"
   ],
   "note": "real arithmetic; knn_points is the parameter of C53; the damping of the loops is a number"
  },
  {
   "property": "C112",
   "status": "proved",
   "theorems": [
    "Verif.Track.mem_register",
    "Verif.Track.mem_localize",
    "Verif.Track.features_connected",
    "Verif.Track.colors_connected",
    "Verif.Track.gt_connected",
    "Verif.Track.odometry_connected",
    "Verif.Track.run_connected",
    "Verif.Track.gradicp_always",
    "Verif.Track.icp_rejected",
    "Verif.Track.rgb_only",
    "Verif.Track.pose_not_in_colors",
    "Verif.Track.detach_truncates",
    "Verif.Track.detach_map_alone",
    "Verif.Track.forward_connected",
    "Verif.Track.color_depth_example",
    "Verif.Track.pose_example"
   ],
   "note": "connectivity of the graph, not values of gradients; outcomes of matching and registration are arbitrary inputs; runs that raise are not modelled; numbers for sigma, dist_th and damping"
  },
  {
   "property": "C113",
   "status": "proved",
   "theorems": [
    "Verif.Warn.active_warns",
    "Verif.Warn.active_silent",
    "Verif.Warn.similar_warns",
    "Verif.Warn.map_warns",
    "Verif.Warn.localize_warns",
    "Verif.Warn.iter_warns",
    "Verif.Warn.iters_warns",
    "Verif.Warn.forward_keeps_prev",
    "Verif.Warn.first_frame_silent",
    "Verif.Warn.icpslam_gt_silent",
    "Verif.Warn.icpslam_says",
    "Verif.Warn.forward_no_dots",
    "Verif.Warn.forward_gt_no_dots",
    "Verif.Warn.step_prev",
    "Verif.Warn.far_hypotheses"
   ],
   "note": "real arithmetic; the number in the message about dot products and filters of the warnings module are not modelled; with estimated poses forward_no_dots assumes them rigid (C54 says when)"
  },
  {
   "property": "C114",
   "status": "proved",
   "theorems": [
    "Verif.Fusion.table_index_error",
    "Verif.Fusion.table_fuse",
    "Verif.Fusion.table_same",
    "Verif.Fusion.table_padding",
    "Verif.Fusion.similar_index_error",
    "Verif.Fusion.similar_table",
    "Verif.Fusion.best_index_error",
    "Verif.Fusion.best_table",
    "Verif.Fusion.exists_last",
    "Verif.Fusion.wrap_iff",
    "Verif.Fusion.wrap_none",
    "Verif.Fusion.table_fuse_case",
    "Verif.Fusion.table_fuse_run",
    "Verif.Fusion.table_same_case",
    "Verif.Fusion.table_padding_case",
    "Verif.Fusion.table_index_case",
    "Verif.Fusion.best_twice",
    "Verif.Fusion.best_table_case",
    "Verif.Fusion.similar_repeated"
   ],
   "note": "equal batch sizes of map and frame; repeated indices are written in order (as on the CPU; torch leaves the order on a GPU open; table_same does not depend on it); table_padding assumes that the pixel's weight is not zero and its vertex not the origin; best_table assumes entries up to 2^24 (beyond: C57)"
  },
  {
   "property": "C115",
   "status": "proved",
   "theorems": [
    "Verif.Icp.table_downsample",
    "Verif.Icp.table_downsample_error",
    "Verif.Icp.table_downsample_nat",
    "Verif.Icp.table_downsample_case",
    "Verif.Icp.table_downsample_error_case"
   ],
   "note": "the table is an int64 tensor of four columns, the ratio an int (type and shape checks: C118); maps without points excluded"
  },
  {
   "property": "C116",
   "status": "proved",
   "theorems": [
    "Verif.Fusion.Args.rowsOf_spec",
    "Verif.Fusion.Args.wrong_type",
    "Verif.Fusion.Args.wrong_shape",
    "Verif.Fusion.Args.right_types",
    "Verif.Fusion.Args.similar_outcome",
    "Verif.Fusion.Args.best_outcome",
    "Verif.Fusion.Args.best_foreign",
    "Verif.Fusion.Args.fuse_outcome",
    "Verif.Fusion.Args.args_case"
   ],
   "note": "sigma of fuse_with_map is a number; for rgbdimages without a shape attribute only absence of the attribute is modelled; channels-first frames are C91"
  },
  {
   "property": "C117",
   "status": "proved",
   "theorems": [
    "Verif.Slam.localize_same",
    "Verif.Slam.step_none",
    "Verif.Slam.step_gt",
    "Verif.Slam.forward_one",
    "Verif.Slam.forward_gt",
    "Verif.Slam.step_useless",
    "Verif.Slam.forward_useless",
    "Verif.Slam.constructor_ignores",
    "Verif.Slam.bad_parameters",
    "Verif.Slam.odometry_names",
    "Verif.Slam.param_case"
   ],
   "note": "values of the declared types; types of the parameters and warnings (C113) not compared"
  },
  {
   "property": "C118",
   "status": "proved",
   "theorems": [
    "Verif.Slam.Args.rowsOf_unique",
    "Verif.Slam.Args.rowsOf_exists",
    "Verif.Slam.Args.step_wrong_type",
    "Verif.Slam.Args.step_right_type",
    "Verif.Slam.Args.bad_ratio_unused",
    "Verif.Slam.Args.bad_ratio_used",
    "Verif.Slam.Args.forward_types",
    "Verif.Slam.Args.provider_types",
    "Verif.Slam.Args.downsample_types",
    "Verif.Slam.Args.args_case"
   ],
   "note": "tensors of dtypes other than int64 as tables are not modelled; bools are ints"
  },
  {
   "property": "C119",
   "status": "proved",
   "theorems": [
    "Verif.Slam.Args.constructor_types",
    "Verif.Slam.Args.sigma_scalar",
    "Verif.Slam.Args.sigma_bad",
    "Verif.Slam.Args.sigma_case"
   ],
   "note": "types of the other parameters: C118; maps in the states that any history reaches (Inv)"
  }
 ]
}
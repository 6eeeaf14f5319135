claim("C01","partial","Cfg","merge_history_preserves_types_partial merge_other_preserves_types mergeList_dict_value_replaces_node",
 "Proved for all histories whose values are not dicts given to merge_from_list over a node; that exception is proved to break the property (mergeList_dict_value_replaces_node).")
claim("C02","proved","Cfg","frozen_rejects_setattr freeze_preserves_values defrost_allows_setattr frozen_config_still_mergeable")
claim("C03","proved","Cfg","merge_success_no_unknown unknown_key_raises merge_keeps_option_names deprecated_ignored_renamed_raises registered_keys merge_rejects_non_node")
claim("C04","partial","Cfg","merge_overrides merge_adds_new merge_keeps_unnamed merge_idempotent_partial merge_not_idempotent_with_new_keys merge_with_own_clone_can_raise",
 "The overriding part is proved in full; idempotence only without new keys (the general statement is refuted).")
claim("C05","proved","Cfg","mergeList_odd mergeList_in_order mergeList_pair_spec mergeList_deprecated_renamed mergeList_missing splitDots_iff decode_iff coerce_iff")
claim("C06","proved","Cfg","dict_round_trip strip_same_values construct_iff")
claim("C07","proved","Data","window_frames dataset_items")
claim("C08","proved","Data","windows_all_fitting window_count default_stride_disjoint window_args_checked window_args_error_is_valueError zero_stride_or_seqlen_raise")
claim("C09","proved","Data","associate_one_to_one")
claim("C10","partial","Data","associate_greedy associate_maximal associate_sorted_partial associate_not_temporal",
 "Maximal and greedy in full; the result is sorted by the key type's order (strings), not by time: associate_not_temporal refutes temporal order.")
claim("C11","partial","Data","loadPoses_spec icl_item_poses icl_pose_aligned_partial icl_start_misaligns icl_missing_pose_not_detected icl_length_check",
 "Proved for start = 0; for start > 0 the code reads shifted pose blocks (icl_start_misaligns).")
claim("C12","partial","Data","scannet_fixed_range scannet_init_iff scannet_full_sequence scannet_full_equal_lengths_partial scannet_full_lengths_mixed scannet_end_beyond_scene",
 "Explicit end: proved. end=-1: proved when all scenes have the same length, refuted otherwise (scannet_full_lengths_mixed); scannet_full_sequence says exactly what is returned.")
claim("C13","proved","Data","nyu40_to_scannet20_same_class nyu40_to_scannet20_out_of_range kept_classes")
claim("C14","proved","Data","preprocess_poses_spec transforms_compose_to_poses")
claim("C15","proved","Data","scale_intrinsics_commutes scale_intrinsics_laws scale_intrinsics_skew_wrong","For skew-free matrices (the only ones the datasets use); with skew refuted.")
claim("C16","proved","Data","normalize_image_spec channels_first_spec channels_first_rank_check")
claim("C17","proved","Geom","unhomogenize_homogenize homogenize_rank_check unhomogenize_value unhomogenize_scale_invariant")
claim("C18","proved","Geom","project_pinhole unproject_project project_unproject project_scale_invariant project_batched cam2pixel_is_project cam2pixel_projective cam2pixel_pixel2cam unproject_points_cloud unproject_project_cloud")
claim("C19","partial","Geom","inverse_intrinsics_exact_partial inverse_intrinsics_mul inverse_intrinsics_error reprojection_error inverse_intrinsics_not_inverse",
 "Exact only with eps = 0; with the code's eps the exact error is proved and the plain statement refuted.")
claim("C20","proved","Geom","quaternion_gives_rotation quaternion_double_cover quaternion_scale_invariant quaternion_zero quaternion_mul quaternion_axis_fixed tiny_quaternion_not_rotation rotOfQuat_unit",
 "Non-zero means norm >= eps (1e-12); below it the result is not a rotation (tiny_quaternion_not_rotation).")
claim("C21","partial","Geom","inverse_transform_correct compose_is_matrix_product compose_monoid relative_transform_law_partial relative_transformation_law batched_transforms_raise",
 "Unbatched in full; the batched variants of two of the functions raise (batched_transforms_raise).")
claim("C22","proved","Geom","transform_pointcloud_rows transform_pointcloud_compose transform_pointcloud_inverse transform_pointcloud_isometry transform_normals_isometry transform_preserves_plane_distance transform_pts_nd_eq transform_pts_3d_values")
claim("C23","proved","Geom","pixel_normalize_roundtrip pixel_normalize_range meshgrid_entries")
claim("C24","partial","Geom","so3_exp_rotation_partial so3_exp_trace so3_exp_unit so3_exp_add se3_exp_rigid_partial so3_exp_small_not_rotation se3_exp_zero se3_exp_translation so3_exp_near_rotation so3_exp_near_exponential so3_hat_cross so3_exp_is_exp se3_exp_is_exp se3_exp_is_exp_translation se3_exp_is_exp_hypotheses",
 "Proved on the branch norm >= eps (and for 0), where both are the matrix exponentials of the hat matrices (Mathlib's exp); the small-angle branch is proved not to be a rotation, but within eps^2 of one (so3_exp_near_rotation) and of the exact exponential (so3_exp_near_exponential).")
claim("C58","proved","Data","pointquaternion_rigid transform44_spec zero_pose_quaternion")
claim("C59","proved","Data","read_file_list_entries read_file_list_spec dictOf_nodup dictOf_find")
claim("C60","proved","Data","create_label_image_spec colours_consistent")
claim("C61","proved","Data","find_associations_spec")
claim("C62","partial","Data","read_trajectory_partial read_trajectory_nan_raises","Files without NaN; a NaN row raises NameError instead of being skipped (read_trajectory_nan_raises).")
claim("C25","proved","Pcs","list_to_padded_spec padded_roundtrip padded_to_list_spec list_to_padded_all_empty list_to_padded_equisized roundtrip_fails_on_widths",
 "For tensors of one width (the property's (N_b, C)); a list of empty tensors raises.")
claim("C26","partial","Pcs","hist_obs read_obs hist_wf points_assignment_loses_normals features_assignment_mixed_width clone_loses_mask list_assignment_stale presence_stale",
 "Every history whose steps satisfy the side conditions of Hist; each excluded step is shown to break the property.")
claim("C27","partial","Pcs","assignPad_spec assignList_visible_partial assignList_list list_assignment_stale",
 "Padded assignment in full; list assignment only before anything was padded: otherwise refuted (list_assignment_stale).")
claim("C28","proved","Pcs","append_spec append_incompatible append_empty_cases")
claim("C29","partial","Pcs","clone_getters clone_obs_partial clone_after_read clone_loses_mask",
 "All getters but the mask in every state; the mask too unless points are padded-only with different sizes and mask unread, where it is refuted (clone_loses_mask).")
claim("C30","proved","Pcs","offset_spec scale_spec rotate_spec rotRow_vec transform_spec projection_spec projRow_vec geo_bad_batch outOfPlace_spec")
claim("C31","proved","Pcs","getitem_spec getitem_errors resolve_int resolve_list_mask resolve_slice slice_plain")
claim("C32","partial","Pcs","presence_partial presence_stale","Refuted after assigning an attribute whose absence was queried before (presence_stale).")
claim("C33","proved","Pcs","newList_accepts_iff newTensor_accepts_iff constructed_obs features_assignment_mixed_width")

claim("C43", "proved", "Rgbd", "vertex_maps_spec default_pixels backproj_reprojects normal_maps_spec normal_unit_orthogonal normal_needs_two nrmR_isNorm witness_hist",
  "all histories; exact K inverse only up to the eps of inverse_intrinsics, whose effect is stated exactly")
claim("C44", "partial", "Rgbd", "derived_maps_fresh_partial fresh_exists failed_assignment_changes_nothing assignment_succeeds_iff_shape depth_setter_broken stale_mask_after_depth stale_mask_after_layout witness_hist",
  "false as stated: valid_depth_mask is never invalidated and the depth setter raises on unconverted objects (both proved); proved for all histories in which depth assignment / in-place layout conversion precede the first read")
claim("C45", "proved", "Rgbd", "clone_same_reads to_channels_first_permutes channel_round_trip stale_mask_after_layout",
  "out-of-place conversions, all histories; the in-place ones are false after the mask was read (witness proved)")
claim("C46", "proved", "Rgbd", "getitem_aligned index_positions getitem_outcomes witness_index two_lists_refused",
  "ints, slices and lists; index -1, bare slices and one-element tuples raise IndexError (proved)")

claim("C34","partial","Fusion","active_spec_partial active_errors active_wrong fusion_hypotheses",
  "all reachable maps except padded-only ones with clouds of different sizes whose mask was never read (e.g. right after rotate_), where the property is refuted (active_wrong)")
claim("C35","proved","Fusion","similar_spec attribute_errors fusion_hypotheses")
claim("C36","proved","Fusion","best_spec attribute_errors fusion_hypotheses","indices up to 2^24 (see C57), non-negative confidences")
claim("C37","proved","Fusion","fuse_spec wAvg_segment zero_confidence_lost attribute_errors fusion_hypotheses","unmatched points of zero confidence are reset to the origin (zero_confidence_lost)")
claim("C38","proved","Fusion","pixels_split fuse_conserves pixels_spec fusion_spec fusion_hypotheses")
claim("C39","partial","Fusion","aggregate_spec aggregate_empty aggregate_errors fusion_spec fusion_empty inplace_false_mutates",
  "update_map_aggregate in full; update_map_fusion only if there are no correspondences, otherwise refuted (inplace_false_mutates)")
claim("C40","proved","Fusion","alpha_range alpha_antitone")
claim("C41","proved","Fusion","aggregate_spec aggregate_empty aggregate_errors pixels_spec readFrame_spec")
claim("C42","proved","Fusion","candidate_valid fusion_spec ofIn_zeroNormals readFrame_spec correspondences_spec fusion_hypotheses")
claim("C57","proved","Fusion","f32_exact_iff f32_small f32_fails best_wrong_index best_spec")

claim("C52","proved","Icp","solve_minimises normal_det_ne_zero solve_errors solve_undamped_singular")
claim("C53","proved","Icp","gauss_newton_rows gaussNewton_eq residual_first_order threshold_is_squared gauss_newton_errors bruteNN_nearest",
  "knn_points is an external call: assumed to return a nearest neighbour (NearestIn), met by bruteNN")
claim("C54","proved","Icp","icp_is_lm lm_error_decreases lm_error_le lm_product lm_damp_pos lm_fixed_at_zero lm_rigid_partial icp_raises icp_example",
  "the extra claim lm_rigid_partial (rigid result) excludes increments below the small-angle cut-off of se3_exp")
claim("C55","proved","Icp","grad_is_trace dampFactor_between dampFactor_mono stepWeight_between stepWeight_mono stepWeight_extremes grad_damp_bounds grad_fixed_at_zero grad_product grad_raises grad_example")
claim("C56","proved","Icp","downsample_frames downsample_map downsample_frames_errors downsample_frames_case downsample_map_case")
claim("C63","proved","Icp","icp_provider gradicp_provider provide_eq provide_errors ground_truth_relative ground_truth_errors provider_hypotheses handed_in_order")
claim("C47","proved","Slam","gt_returns_given_poses gt_missing_poses slam_hypotheses slam_runs made_sysOk")
claim("C48","proved","Slam","poses_are_running_products icp_poses_products forward_fails_only_if_provider_fails fails_only_if_lost odometry_names slam_hypotheses slam_runs")
claim("C49","proved","Slam","forward_causal forward_is_repeated_step forward_prefix slam_hypotheses slam_runs")
claim("C50","proved","Slam","step_arguments_after pointfusion_step_mutates_map slam_hypotheses")
claim("C51","proved","Slam","map_never_shrinks forward_map_grows icpslam_map_content icpslam_returns_all_pixels pointfusion_total_weight pointfusion_returns_all_weight slam_hypotheses slam_runs")
claim("C64","proved","Geom","axisangle_length axisangle_exp axisangle_double_cover axisangle_scale axisangle_of_halfangle")
claim("C65","proved","Slam","batch_independent batch_element made_provider batch_hypotheses")
claim("C66","proved","Slam","world_frame world_frame_wide_angle world_hypotheses",
  "ground-truth odometry and dot_th >= 0; for dot_th < 0 (angle above 90 degrees) refuted by world_frame_wide_angle")
claim("C67","proved","Data","scannet_item icl_item tum_item tum_intrinsics icl_intrinsics colours_normalized depths_not_interpolated nnResize_ok scannet_item_hypotheses icl_item_hypotheses tum_item_hypotheses scannet_labels_rank",
  "cv2.resize and image decoding are parameters (ResizeOk; OpenCV's nearest-neighbour formula meets it); the documentation gives labels shape (L,H,W), they have rank 4 (scannet_labels_rank)")
claim("C68","proved","Data","batch_accepted batch_world scannet_world icl_world tum_world scannet_world_hypotheses apply_relative",
  "torch's default_collate is modelled as torch.stack; ICL for start = 0 (C11 is what goes wrong otherwise)")
claim("C69","proved","Slam","dataset_slam scannet_slam icl_slam tum_slam scannet_slam_hypotheses",
  "Exact arithmetic; cv2.resize, file decoding and torch's matrix inverse enter through their contracts (ResizeOk, the reader functions, IsInverse); ICL for start = 0 and one trajectory.")
claim("C70","proved","Cfg","print_determines print_lines print_example print_ambiguous_colon",
  "Python's str on leaves and plain dicts is a parameter; the condition on keys is needed (print_ambiguous_colon).")
claim("C71","proved","Cfg","load_by_extension load_spec splitext_ext splitext_none load_fresh merge_file merge_succeeds dump_load save_and_merge save_and_merge_case save_and_merge_can_raise",
  "yaml, the file system and module import are parameters; yaml through the contract YamlOk (shown satisfiable by yaml_exists).")
claim("C72","proved","Slam","pointfusion_thresholds thresholds_hypotheses dot_angle angle_lt dot_gt run_normals_le gaussWeight_eq",
  "For poses with orthogonal rotation parts; above 90 degrees see world_frame_wide_angle.")
claim("C73","proved","Slam","still_camera_stays run_still located_still still_answer made_identity reprojects_pinhole still_hypotheses wall_map",
  "Over exact real arithmetic; reprojects_pinhole gives the intrinsics for which points project back.")
claim("C74","proved","Slam","still_icpslam_map still_pointfusion_map still_pixels_once still_step still_first wall_map lone_pixel_map","")
claim("C75","proved","Pcs","open3d_spec plotly_spec chosen_selection exported_colors export_example export_guesses_range",
  "The permutation is a parameter; what open3d and plotly do with the arrays is not modelled; the colour range is guessed from the exported points only (export_guesses_range).")
claim("C76","proved","Rgbd","show_spec show_channels_first depthScale_spec scale_unique show_example",
  "Up to the arrays given to cv2.imencode; astype(uint8) through its contract IsCast; exact real arithmetic.")
claim("C77","proved","Icp","gradicp_smooth icp_smooth gradicp_smooth_example icp_smooth_example gradicp_jump",
  "Smoothness of the computed function in exact real arithmetic; torch's autograd itself is not modelled.")
claim("C78","proved","Slam","mapping_smooth smooth_hypotheses smooth_wall",
  "Smoothness of the computed function in exact real arithmetic, ground-truth odometry; torch's autograd itself is not modelled.")
claim("C79","proved","Slam","slam_smooth slam_smooth_hypotheses slam_smooth_wall","Assembled from C77 (registration), C78 (mapping) and stability of the choice of map points.  'No decision on an edge' is CalmTrack; the wall example moves a wall by one unit, so the registration does real work in 20 iterations.")
claim("C80","proved","Slam","Icp.icp_turned Icp.gradicp_turned Icp.brute_byDistance orientation_free orientation_free_success orientation_example Icp.registration_depends_on_origin","The registration theorems cover all outcomes, including empty clouds, unequal lengths and no iterations.  Invariance under translations is refuted (registration_depends_on_origin).")
claim("C81","proved","Mem","call_keeps_others write_keeps_families isolation clone_independent calls_on_values programs_on_values detach_shares to_shares tensor_shares getitem_shares to_copy_refuted to_copy_exact write_stale write_seen","Objects are records of addresses into a memory of storages; the refinement to the value model of C25-C31 is part of the claim (calls_on_values).  The documented guarantee of to(copy=True) is refuted (to_copy_refuted).")
claim("C82","proved","Mem","device_honest to_device to_named cuda_not_self","device_honest holds in every reachable world of the model of C81.")
claim("C83","proved","RMem","call_keeps_others write_keeps_families isolation clone_independent to_independent relaid_independent relaid_self_iff picked_independent calls_on_values programs_on_values new_shares new_moves set_shares detach_shares clone_new to_shares to_own_shares getitem_shares to_copy_refuted write_stale","Objects are records of views into a memory of storages; the refinement to the value model of C02/C05-C09 is part of the claim (calls_on_values).  The documented guarantee of to(copy=True) is refuted (to_copy_refuted).")
claim("C84","proved","RMem","new_device honest_kept honest_getters to_device to_self_iff apart_iff getitem_apart_iff vertex_apart taken_apart","")
claim("C85","proved","Slam","pointfusion_ledger pointfusion_ledger_grows pointfusion_hull pointfusion_made_ledger ledger_witness","")
claim("C86","proved","Cfg","assign_iff assign_error assign_read construct_open assign_case","")
claim("C87","proved","Data","tum_select_iff icl_select_iff scan_select_iff tum_select_order icl_select_order tum_subset_items scan_line_iff icl_line_iff icl_base_trap trailing_newline stray_folder select_case","listing of basedir and presence of files are inputs; os.path/glob/natsorted are third party; a sequences argument of another type (TypeError) is not modelled")
claim("C88","proved","Slam","unit_of_length forward_scaled unit_hypotheses threshold_in_old_unit","exact arithmetic; intrinsics with third row 0 0 1 and no fourth column; ICP odometry is not covered (its damping term has a unit)")
claim("C89","proved","CfgMem","groups_apart others_unchanged clone_isolated construct_isolated merge_isolated mergeFromList_isolated freeze_isolated clone_value construct_value mergeFromOther_value mergeFromList_value freeze_value setattr_value setitem_value register_value get_value mutate_value progW_groups merge_copies_lists isolation_hypotheses freeze_case merge_from_list_shares setattr_shares merge_from_list_copies_dicts construct_sharing shared_node_merge value_hypotheses paths_hypotheses","list elements are immutable values, keys are strings, no cycles; nesting deeper than the recursion limit raises")
claim("C90","proved","Flt","fuse_exact fuse_call_rounding runs_succeed fuse_run_rounding idle_run_rounding idle_kept idle_drifts drift_case idle_kept_hypotheses bin_has","no overflow, underflow, infinities or NaN (unbounded exponent); weights are arbitrary positive numbers of the format")
claim("C91","proved","Slam","icpslam_gt_either_layout fusion_step_needs_channels_last fusion_needs_channels_last odometry_step_needs_channels_last odometry_needs_channels_last one_frame_needs_no_odometry layout_case raised_step_changes_map Fusion.updateMapFusionRaw_last Fusion.updateMapFusionRaw_first Icp.downsampleRaw_last Icp.downsampleRaw_first","proved; the last two sentences of the statement are a refutation of 'raising leaves the map as it was'")
claim("C92","proved","Slam","colours_are_carried geometry_ignores_colours recolouring_commutes colours_stay_in_range forward_colour colour_hypotheses colour_case","proved for the constructors over the reals; forward_colour for every provider that ignores colours over every ordered field")
claim("C93","proved","Flt","reprojection_error own_pixel_found inner_pixel_found vga_double vga_single left_edge_lost left_edge_exact vga_case steps_exist dots_error vertex_exact world_exact camera_exact project_exact inFrame_exact","no overflow or underflow; per pixel and map point, sums of products in any order")
claim("C94","proved","Slam","raised_step_keeps_map raised_step_map_reads raised_step_frame raised_localisation_moves_frame failed_step_can_be_skipped skip_case wide_features_raise_too_late broken_provider_moves_frame raised_step_changes_map","the two exceptions are exhibited; the model has no MemoryError, KeyboardInterrupt or device errors")
claim("C95","proved","Icp","icp_converges grad_converges icp_provider_converges grad_provider_converges Icp.ConvergeWitness.scene Icp.ConvergeWitness.start_off Icp.ConvergeWitness.icp_run Icp.ConvergeWitness.grad_run Icp.ConvergeWitness.provider_run","exact arithmetic; local convergence with explicit constants and the source another sampling of the surface with bounded measurement error, the basin is c <= g^2/2048")
claim("C96","proved","Slam","second_frame_accuracy revisit_scene first_frame_map accuracy_hypotheses accuracy_corner","exact arithmetic; explicit constants, the basin is c <= g^2/2048; later frames, whose map has been updated with recovered poses, are not covered")
claim("C97","proved","Slam","step_order feed_order icpslam_gt_order icp_provider_order gradicp_provider_order providers_order_spaced order_hypotheses order_hypotheses_gt order_case fusion_tie icp_tie icp_order_case providers_order_case Icp.icp_order Icp.gradicp_order Icp.untied_of_spaced Icp.untiedRun_of_spaced","exact arithmetic; the conditions (no ties) are stated and shown to be needed")
claim("C98","proved","Mem","mapping_keeps_tensors mapping_result mapping_device mapping_values step_values new_map_independent forward_map forward_raises mapping_case forward_case programs_on_values call_keeps_others isolation cloneAppend_maps setPads_sim fuseWithMap_maps mergeStep_sim findActive_sim findSimilar_sim findBest_sim downsample_sim iter_sim iters_sim slamStep_maps updateMapAggregate_maps mapStep_maps","frames enter as values on the device of the map (their own memory is the subject of C83/C84); exact arithmetic")
claim("C99","proved","RMem","slam_step_keeps_tensors slam_step_poses slam_step_sharing slam_step_values frames_stay_independent forward_frames forward_frames_values slam_memory_case forward_memory_case programs_on_values call_keeps_others isolation honest_kept odometry_sim localize_sim readAggregate_sim slamStep_sim frameAt_sim liveFrame_sim iter_sim forward_sim","the map is a value here (its memory is the subject of C98); live and previous frame are different objects; memory after a forward that raises is not modelled; exact arithmetic")
claim("C100","proved","Flt","orientation_drift orthogonality_drift position_drift single_orientation single_orthogonality single_position double_orthogonality double_own_pixel no_renormalisation forward_is_chain chain_exact chain_exists pose_case","the transforms of the provider are given (their own accuracy is not bounded here); relative error model without underflow and overflow")
claim("C101","proved","Nan","vertex_local gvertex_local normal_local gnormal_local cloud_local nan_vertex nan_normal active_nan similar_nan nan_never_matched nan_appended nan_stays nan_grows inf_depth_enters ieee_strict nan_case inf_case fuse_case nine_same vertex_link gvertex_link normal_link gnormal_link merge_link fuse_matched","one batch element; find_best_unique_correspondences is only assumed to choose among its rows; no signed zeros in the number model; links show that over a field the same definitions are those of the exact model")
claim("C102","proved","Nan","icp_freezes grad_poisons nan_forever nan_pose_points err_nan icp_link grad_link icp_case grad_case gaussNewton_link exp_link mm_link icpStep_link gradStep_link","nearest-neighbour search and linear solver are parameters (the solver may raise)")
claim("C103","proved","Data","uses_refine get_keeps write_self write_other tum_repeatable icl_repeatable scannet_repeatable tum_intrinsics_leak icl_intrinsics_leak dataset_isolated dataset_indices loop_iff loop_det tum_loop icl_loop scannet_loop_cut scannet_full_loop scannet_loop_case tum_uses_case tumGet_val iclGet_val scanGet_val tum_shared icl_shared scan_shares","files on disk do not change; tensors are overwritten as a whole; the caller does not write to dataset.intrinsics other than through an item; DataLoader workers are not modelled")
claim("C104","proved","Rgbd","checkArgs_iff new_checks shapes_documented sizes_kept witness_args witness_had had_tracked new_tracked first_tracked last_tracked clone_tracked selected_tracked keeps_computeVertex","assigning None to the images or the intrinsics is not modelled; the cached valid_depth_mask is excluded: its shape goes stale after an in-place layout change, see C44 and C45")
claim("C105","proved","Dtype","frame_maps forward_iff register_same provide_needs_float32 float32_works double_intrinsics_raise double_depth byte_colours mixed_aggregate one_double_frame mixed_fusion_raises dtype_case colours_iff step_later maps_work maps_fail part_fusion part_aggregate localize_reg","the promotion, matrix-product and index-assignment rules of torch >= 1.6 are trusted, see the header of Dtype/Model; which dtypes have matrix products and a neighbour search is a parameter; all batch elements have the same dtypes; values are not followed, what is found in the data is arbitrary")
claim("C106","proved","Grad","back_is_derivative back_finite run_regular finite_of_mild unhomogenize_grads axisangle_grads project_grads normal_grads alpha_grads merge_grads vertex_grads lm_grads so3_exp_grads unhomog_computes axis_computes project_computes normal_computes alpha_computes merge_computes vertex_computes rot_computes rotSmall_computes lm_computes witness_axis witness_identity witness_unhomog witness_value witness_normal witness_lm witness_project witness_so3","the backward formulas of torch (derivatives.yaml) are trusted and transcribed in Grad/Model; the code of one point, pixel or matrix is taken apart into scalar operations; exact arithmetic on finite numbers: overflow and rounding of gradients are not modelled; linear solves (torch.inverse) and indexing are not included")
claim("C107","proved","Grad","solve_back_correct solve_grads solve_is_model damped_invertible witness_solve","torch's backward formulas of matmul, inverse and transpose are trusted and transcribed in solveBack; exact arithmetic")
claim("C108","proved","Nd","project_accepts project_errors project_result project_shape unproject_accepts unproject_result homogenize_result unhomogenize_result intrinsics_result transform3d_result kf_batched kf_images cam2pixel_result pixel2cam_depth pixel2cam_result cam2pixelKF_doc cam2pixelKF_batched quat_result pixel_is_geom witness_project project_shape_refuted witness_unproject transform3d_doc_refuted kf_images_refuted quat_doc_refuted","torch's broadcasting, matmul, squeeze and view rules are transcribed in Nd/Model and trusted; where the docstrings promise other shapes the theorems state what happens instead (project_shape_refuted, transform3d_doc_refuted, kf_images_refuted, cam2pixelKF_doc, quat_doc_refuted)")
claim("C109","proved","Axis","alpha_result alpha_errors close_result similar_result pair_errors dim_wrap moved_same pair_symm tests_are_fusion normalize_nd normalize_roundtrip witness_axis empty_refuted witness_sigma","exact reals; torch's reductions along a dimension are transcribed in Axis/Model and trusted")
claim("C110","proved","Axis","inverse_result inverse_errors compose_result compose_errors cloud_result normals_result cloud_errors mats_are_geom clouds_are_geom relative_4x4 inverse_3x4_refuted inverse_5x5_refuted batch_refuted","torch's matmul, slicing and assignment rules are transcribed in Nd/Model and Axis/Mats and trusted; the documented batches are refuted (batch_refuted)")
claim("C111","proved","IcpRaw","gauss_type gauss_value gauss_good gauss_answers_iff solve_type solve_value solve_good icp_type icp_none icp_T0 icp_src_index icp_src_value icp_no_iterations icp_thresh icp_target icp_good icp_answers_iff icp_first_only grad_type grad_none grad_T0 grad_lmax grad_src_index grad_src_value grad_no_iterations grad_thresh grad_target grad_nu grad_good grad_first_only matOf_moves icp_batch_example grad_example small_examples","real arithmetic; knn_points is the parameter of C53; the damping of the loops is a number")
claim("C112","proved","Track","mem_register mem_localize features_connected colors_connected gt_connected odometry_connected run_connected gradicp_always icp_rejected rgb_only pose_not_in_colors detach_truncates detach_map_alone forward_connected color_depth_example pose_example","connectivity of the graph, not values of gradients; outcomes of matching and registration are arbitrary inputs; runs that raise are not modelled; numbers for sigma, dist_th and damping")
claim("C113","proved","Warn","active_warns active_silent similar_warns map_warns localize_warns iter_warns iters_warns forward_keeps_prev first_frame_silent icpslam_gt_silent icpslam_says forward_no_dots forward_gt_no_dots step_prev far_hypotheses","real arithmetic; the number in the message about dot products and filters of the warnings module are not modelled; with estimated poses forward_no_dots assumes them rigid (C54 says when)")
claim("C114","proved","Fusion","table_index_error table_fuse table_same table_padding similar_index_error similar_table best_index_error best_table exists_last wrap_iff wrap_none table_fuse_case table_fuse_run table_same_case table_padding_case table_index_case best_twice best_table_case similar_repeated","equal batch sizes of map and frame; repeated indices are written in order (as on the CPU; torch leaves the order on a GPU open; table_same does not depend on it); table_padding assumes that the pixel's weight is not zero and its vertex not the origin; best_table assumes entries up to 2^24 (beyond: C57)")
claim("C115","proved","Icp","table_downsample table_downsample_error table_downsample_nat table_downsample_case table_downsample_error_case","the table is an int64 tensor of four columns, the ratio an int (type and shape checks: C118); maps without points excluded")
claim("C116","proved","Fusion.Args","rowsOf_spec wrong_type wrong_shape right_types similar_outcome best_outcome best_foreign fuse_outcome args_case","sigma of fuse_with_map is a number; for rgbdimages without a shape attribute only absence of the attribute is modelled; channels-first frames are C91")
claim("C117","proved","Slam","localize_same step_none step_gt forward_one forward_gt step_useless forward_useless constructor_ignores bad_parameters odometry_names param_case","values of the declared types; types of the parameters and warnings (C113) not compared")
claim("C118","proved","Slam.Args","rowsOf_unique rowsOf_exists step_wrong_type step_right_type bad_ratio_unused bad_ratio_used forward_types provider_types downsample_types args_case","tensors of dtypes other than int64 as tables are not modelled; bools are ints")
claim("C119","proved","Slam.Args","constructor_types sigma_scalar sigma_bad sigma_case","types of the other parameters: C118; maps in the states that any history reaches (Inv)")

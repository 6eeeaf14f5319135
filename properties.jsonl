{"id": "C01", "title": "Config merging never changes the type of an existing option", "statement": "After any sequence of CfgNode.merge_from_other_cfg / merge_from_list calls, every option that existed before holds a value of the type it had before, except that tuple<->list are converted to the type already in the config (so the declared type wins) and None may be replaced by/with anything only as the code allows.", "quantifier": "every config tree, every overriding tree / key-value list, every sequence of merges", "why_tests_cant": "tests sample a handful of trees and values; the claim ranges over arbitrary nesting and merge histories", "anchors": ["gradslam/config/cfgnode.py:_merge_a_into_b", "gradslam/config/cfgnode.py:_check_and_coerce_cfg_value_type", "gradslam/config/cfgnode.py:CfgNode.merge_from_list"]}
{"id": "C02", "title": "freeze() makes the whole config tree read-only to attribute assignment and defrost() undoes it", "statement": "After cfg.freeze(), assigning any attribute on cfg or on any nested CfgNode reachable from it raises and leaves the content unchanged; cfg.defrost() makes every nested node assignable again; neither changes any stored value. (Merging functions do not consult the flag: a frozen config can still be changed by merge_from_list/merge_from_other_cfg.)", "quantifier": "every config tree, every depth of nesting, every attribute name and value", "why_tests_cant": "freezing is recursive over arbitrary depth; a test only visits one tree", "anchors": ["gradslam/config/cfgnode.py:CfgNode.__setattr__", "gradslam/config/cfgnode.py:CfgNode._immutable", "gradslam/config/cfgnode.py:CfgNode.freeze", "gradslam/config/cfgnode.py:CfgNode.defrost"]}
{"id": "C03", "title": "Merging cannot introduce unknown options", "statement": "merge_from_other_cfg raises KeyError when the other tree contains, at a place where the receiving node does not allow new keys, a key that is neither present, deprecated nor renamed; when it succeeds the set of option paths of a node that does not allow new keys is unchanged. Deprecated keys are ignored and renamed keys raise.", "quantifier": "every pair of config trees and every set of deprecated/renamed keys", "why_tests_cant": "the typo can be at any depth and in any position", "anchors": ["gradslam/config/cfgnode.py:_merge_a_into_b", "gradslam/config/cfgnode.py:CfgNode.key_is_deprecated", "gradslam/config/cfgnode.py:CfgNode.raise_key_rename_error"]}
{"id": "C04", "title": "A successful merge overrides exactly the options named by the other config", "statement": "After a successful merge_from_other_cfg, each leaf named in the other tree has the other tree's (coerced) value, every option not named there keeps its previous value, and merging the same tree again changes nothing.", "quantifier": "every pair of config trees for which the merge succeeds", "why_tests_cant": "needs agreement at every path of arbitrary trees", "anchors": ["gradslam/config/cfgnode.py:CfgNode.merge_from_other_cfg", "gradslam/config/cfgnode.py:_merge_a_into_b"]}
{"id": "C05", "title": "merge_from_list updates exactly the dotted keys given, in order, and is rejected on malformed lists", "statement": "merge_from_list(l) raises on odd-length lists before changing anything; otherwise it behaves as assigning each dotted key in order, the last assignment to a key wins, deprecated keys are skipped, renamed and non-existent keys raise; options not named are unchanged. A failure part-way leaves the earlier assignments applied.", "quantifier": "every config tree, every list of dotted keys and values", "why_tests_cant": "order/duplication/partial failure over arbitrary lists", "anchors": ["gradslam/config/cfgnode.py:CfgNode.merge_from_list"]}
{"id": "C06", "title": "Converting a config to plain dicts and back yields the same config content", "statement": "For every config tree whose leaves have permitted types, the nested dict produced for dump() rebuilds (CfgNode(dict)) a tree with the same paths and values; a leaf of a forbidden type makes construction raise.", "quantifier": "every config tree", "why_tests_cant": "arbitrary nesting and value lists", "anchors": ["gradslam/config/cfgnode.py:CfgNode.dump", "gradslam/config/cfgnode.py:CfgNode._create_config_tree_from_dict", "gradslam/config/cfgnode.py:_valid_type"]}
{"id": "C07", "title": "Every TUM/ICL window has exactly seqlen frames, in temporal order, dilation+1 apart and inside the requested range", "statement": "For every dataset item: its frame list has length seqlen, frame k is start + idx*stride + k*(dilation+1), and every index lies in [start,end).", "quantifier": "all sequence lengths, seqlen, dilation, stride, start, end", "why_tests_cant": "arithmetic over all parameter combinations; off-by-one only shows at boundaries", "anchors": ["gradslam/datasets/tum.py:TUM.__init__", "gradslam/datasets/icl.py:ICL.__init__"]}
{"id": "C08", "title": "The windows are all and only the windows that fit, and do not overlap with the default stride", "statement": "The number of windows is the number of start offsets 0,stride,2*stride,... whose window fits in the range; with the default stride two different windows share no frame; stride/seqlen/dilation values outside their domain raise ValueError.", "quantifier": "all parameters", "why_tests_cant": "see C07", "anchors": ["gradslam/datasets/tum.py:TUM.__init__", "gradslam/datasets/icl.py:ICL.__init__"]}
{"id": "C09", "title": "TUM association is one-to-one and within tolerance", "statement": "associate(first, second, offset, max_difference) returns pairs (a,b) with a a stamp of first and b a stamp of second and |a-(b+offset)| < max_difference; no stamp of either file occurs in two pairs.", "quantifier": "all stamp lists, offsets and tolerances", "why_tests_cant": "arbitrary numbers of stamps with ties and repeated stamps", "anchors": ["gradslam/datasets/tumutils.py:associate"]}
{"id": "C10", "title": "TUM association is maximal, greedy by time difference, and sorted", "statement": "No further admissible pair of unused stamps exists after association; the matched pairs are those chosen by repeatedly taking the closest remaining pair (an unmatched admissible pair is always blocked by a pair at most as far apart); the result is sorted.", "quantifier": "all stamp lists, offsets and tolerances", "why_tests_cant": "optimality over all remaining pairs", "anchors": ["gradslam/datasets/tumutils.py:associate", "gradslam/datasets/tum.py:TUM._findAssociations"]}
{"id": "C11", "title": "ICL: frame i is returned with the ground-truth pose of frame i", "statement": "For every requested [start,end) and window, the 4x4 pose matrix loaded for colour frame number k of a trajectory is the k-th pose block of the pose file.", "quantifier": "all trajectory lengths and start/end/window parameters", "why_tests_cant": "depends on the slice start; default start=0 hides it", "anchors": ["gradslam/datasets/icl.py:ICL.__init__", "gradslam/datasets/icl.py:ICL._loadPoses"]}
{"id": "C12", "title": "Scannet: each scene's own number of frames is returned", "statement": "With end=-1 every item of scene s contains all frames from start to the end of scene s itself; with an explicit end it contains exactly the frames start..end-1 of its scene and start/end beyond a scene are rejected. (The code leaks the last scene's length into every scene when end=-1.)", "quantifier": "all lists of scenes with arbitrary different lengths", "why_tests_cant": "needs scenes with different lengths in every order", "anchors": ["gradslam/datasets/scannet.py:Scannet.__init__", "gradslam/datasets/scannet.py:Scannet.__getitem__"]}
{"id": "C13", "title": "NYU40 to ScanNet20 relabelling maps each kept class to the same class and everything else to 0", "statement": "For every label image with labels 0..40, each output pixel is in 0..20, is the ScanNet20 id of the class with the same name when that class is kept and 0 otherwise, independent of the other pixels (the in-place sequential remapping never remaps a pixel twice).", "quantifier": "every label image of any size", "why_tests_cant": "every pixel value combination / chaining hazard", "anchors": ["gradslam/datasets/scannet.py"]}
{"id": "C14", "title": "Sequence poses are re-expressed relative to the first frame and lose no information", "statement": "For every sequence of rigid poses P_0..P_n the transformed sequence starts with the identity and item i equals P_0^{-1} P_i; the frame-to-frame transforms compose back to it.", "quantifier": "all sequences of all lengths of rigid transforms", "why_tests_cant": "telescoping products of arbitrary length", "anchors": ["gradslam/datasets/datautils.py:poses_to_transforms", "gradslam/datasets/tum.py:TUM._preprocess_poses", "gradslam/datasets/icl.py:ICL._preprocess_poses"]}
{"id": "C15", "title": "Scaling the intrinsics commutes with projection", "statement": "Projecting any 3D point with scale_intrinsics(K,h,w) gives the pixel obtained with K with u multiplied by w and v by h; the input matrix is unchanged; the last row is untouched.", "quantifier": "all K, all scale ratios, all points", "why_tests_cant": "real-number identity over a continuum", "anchors": ["gradslam/datasets/datautils.py:scale_intrinsics"]}
{"id": "C16", "title": "Image normalisation and channel reordering lose no information", "statement": "normalize_image is x/255, maps [0,255] into [0,1] and is injective; channels_first of an (…,H,W,C) image has pixel (…,c,h,w) equal to input (…,h,w,c).", "quantifier": "all images of all sizes", "why_tests_cant": "all sizes and ranks", "anchors": ["gradslam/datasets/datautils.py:normalize_image", "gradslam/datasets/datautils.py:channels_first"]}
{"id": "C17", "title": "Homogenising then unhomogenising points is the identity; points at infinity are kept finite", "statement": "unhomogenize_points(homogenize_points(p)) = p for every p; for a homogeneous point with |w| > eps the result is p/w, is invariant under scaling; with |w| <= eps the coordinates are returned undivided.", "quantifier": "all points of all dimensions and batches", "why_tests_cant": "continuum of inputs and the eps boundary", "anchors": ["gradslam/geometry/projutils.py:homogenize_points", "gradslam/geometry/projutils.py:unhomogenize_points", "gradslam/geometry/projutils.py:homogenize_points"]}
{"id": "C18", "title": "Unprojecting a projected point recovers it (and vice versa)", "statement": "For every pinhole camera with non-zero focal lengths and every point in front of the camera, unproject_points(project_points(X), depth) = X and project_points(unproject_points(u, d)) = u for d > 0.", "quantifier": "all intrinsics, depths, points, pixels", "why_tests_cant": "continuum", "anchors": ["gradslam/geometry/projutils.py:project_points", "gradslam/geometry/projutils.py:unproject_points"]}
{"id": "C19", "title": "inverse_intrinsics inverts the camera matrix", "statement": "inverse_intrinsics(K) multiplied by K is the identity for a skew-free K. The code adds eps to the focal lengths in the denominators, so this holds exactly for eps=0 and up to eps/(f+eps) otherwise; with skew it does not hold.", "quantifier": "all intrinsics matrices and eps", "why_tests_cant": "continuum; eps perturbation is below the tolerance tests use", "anchors": ["gradslam/geometry/projutils.py:inverse_intrinsics"]}
{"id": "C20", "title": "Quaternions convert to proper rotations", "statement": "For every non-zero quaternion normalize_quaternion/quaternion_to_rotation yields R with R Rᵀ = I and det R = 1, q and -q give the same R, the zero quaternion gives I, and quaternion products map to matrix products.", "quantifier": "all quaternions", "why_tests_cant": "polynomial identity over a continuum", "anchors": ["gradslam/geometry/geometryutils.py:quaternion_to_axisangle", "gradslam/geometry/geometryutils.py"]}
{"id": "C21", "title": "Rigid transform inversion, composition and relative transform satisfy the group laws", "statement": "For every rigid (R,t): inverse∘T = T∘inverse = I; compose is associative with unit I; relative_transformation(T1,T2) satisfies T1∘rel = T2.", "quantifier": "all rigid transforms and batches", "why_tests_cant": "continuum; batched shapes", "anchors": ["gradslam/geometry/geometryutils.py:inverse_transfom_3d", "gradslam/geometry/geometryutils.py:compose_transforms_3d", "gradslam/geometry/geometryutils.py:relative_transform_3d", "gradslam/geometry/geometryutils.py:relative_transformation"]}
{"id": "C22", "title": "Transforming a pointcloud applies R x + t to each point, composes, and preserves distances for rigid T", "statement": "transform_pointcloud(X,T) row i is R x_i + t; transforming by T1 then T2 equals transforming by T2·T1; distances are preserved by rigid T; transform_normals uses R only and preserves lengths and angles.", "quantifier": "all pointclouds of all sizes and all transforms", "why_tests_cant": "continuum / all sizes", "anchors": ["gradslam/geometry/geometryutils.py:transform_pointcloud", "gradslam/geometry/geometryutils.py:transform_normals"]}
{"id": "C23", "title": "Pixel coordinate normalisation is invertible and maps the image to [-1,1]", "statement": "unnormalize_pixel_coords(normalize_pixel_coords(p)) = p for every image of height,width > 1, the four corners map to the corners of [-1,1]^2 and pixels inside stay inside.", "quantifier": "all image sizes and pixels", "why_tests_cant": "continuum and all sizes", "anchors": ["gradslam/geometry/geometryutils.py:normalize_pixel_coords", "gradslam/geometry/geometryutils.py:unnormalize_pixel_coords"]}
{"id": "C24", "title": "The SE(3)/SO(3) exponential yields valid rigid transforms", "statement": "For every twist, se3_exp gives a 4x4 matrix with last row (0,0,0,1) and so3 part orthogonal with determinant 1 (true on the branch ‖ω‖ >= 1e-6; on the small-angle branch the deviation is exactly -ω̂²).", "quantifier": "all twists", "why_tests_cant": "continuum; the branch near zero is never hit by random tests", "anchors": ["gradslam/geometry/se3utils.py:so3_hat", "gradslam/geometry/se3utils.py:se3_hat", "gradslam/geometry/se3utils.py:se3_exp"]}
{"id": "C25", "title": "List and padded representations convert losslessly with zero padding", "statement": "For every list of (N_b, C) tensors, padded_to_list(list_to_padded(l), sizes) = l, the padded tensor has N = max N_b rows and all positions beyond N_b are the padding value.", "quantifier": "all batches of clouds of all sizes", "why_tests_cant": "every raggedness pattern", "anchors": ["gradslam/structures/structutils.py:list_to_padded", "gradslam/structures/structutils.py:padded_to_list"]}
{"id": "C26", "title": "A Pointclouds object behaves like a plain list of clouds whatever mix of representations it uses internally", "statement": "For every history of constructor, getters, padded setters, transforms, out-of-place arithmetic, appends and indexing outside the documented exceptions, every getter (list or padded, points/normals/colors/features, num_points_per_cloud, nonpad_mask) returns what the abstract list of clouds would, and reading never changes an observable.", "quantifier": "all histories of operations on all objects", "why_tests_cant": "the cached representations only disagree after particular interleavings of reads and writes", "anchors": ["gradslam/structures/pointclouds.py:Pointclouds"]}
{"id": "C27", "title": "Assigning an attribute list is visible through every getter", "statement": "After pcs.normals_list = l (colors_list, features_list) both normals_list and normals_padded return the new values.", "quantifier": "all objects and histories", "why_tests_cant": "only fails if the padded form was materialised before", "anchors": ["gradslam/structures/pointclouds.py:Pointclouds.normals_list", "gradslam/structures/pointclouds.py:Pointclouds.colors_list", "gradslam/structures/pointclouds.py:Pointclouds.features_list"]}
{"id": "C28", "title": "append_points concatenates cloud-wise and leaves the argument untouched", "statement": "After a.append_points(b), cloud i of a is old cloud i followed by cloud i of b in points and in every attribute, counts add up, b is unchanged; incompatible batch sizes or attributes raise and leave a unchanged; appending to an empty Pointclouds copies b.", "quantifier": "all pairs of objects in all representation states", "why_tests_cant": "all combinations of cached representations", "anchors": ["gradslam/structures/pointclouds.py:Pointclouds.append_points"]}
{"id": "C29", "title": "clone()/detach() give an observationally equal, independent copy", "statement": "Every getter of pcs.clone() returns what the getter of pcs returns.", "quantifier": "all objects in all reachable representation states", "why_tests_cant": "only fails for ragged batches after particular in-place operations", "anchors": ["gradslam/structures/pointclouds.py:Pointclouds.clone", "gradslam/structures/pointclouds.py:Pointclouds.detach"]}
{"id": "C30", "title": "Geometric operations act on every real point and never on padding", "statement": "offset_, scale_, rotate_, transform_, pinhole_projection_ map each point x of cloud b to x+o, x*s, R x, R x + t, projection, rotate normals by R, keep colors/features/counts, and keep padding zero.", "quantifier": "all batches, sizes and operands", "why_tests_cant": "all raggedness patterns; padding leaks only when later converted to lists", "anchors": ["gradslam/structures/pointclouds.py:Pointclouds.offset_", "gradslam/structures/pointclouds.py:Pointclouds.scale_", "gradslam/structures/pointclouds.py:Pointclouds.rotate_", "gradslam/structures/pointclouds.py:Pointclouds.transform_", "gradslam/structures/pointclouds.py:Pointclouds.pinhole_projection_"]}
{"id": "C31", "title": "Indexing selects whole clouds consistently", "statement": "pcs[i], pcs[slice], pcs[list], pcs[mask] return the selected clouds with points, normals, colors and features of the same source cloud in the order selected; out-of-range or empty selections raise.", "quantifier": "all indices and objects", "why_tests_cant": "all index kinds and representations", "anchors": ["gradslam/structures/pointclouds.py:Pointclouds.__getitem__"]}
{"id": "C32", "title": "Presence queries agree with content", "statement": "has_points/has_normals/has_colors/has_features are true exactly when the attribute is present, after every history of reads and writes.", "quantifier": "all histories", "why_tests_cant": "memoised flag goes stale only after read-then-set", "anchors": ["gradslam/structures/pointclouds.py:Pointclouds.has_normals"]}
{"id": "C33", "title": "A successfully constructed Pointclouds is well-formed", "statement": "If the constructor accepts its arguments then all attributes have matching per-cloud counts, points/normals/colors have 3 columns, and counts/mask/equisized flag describe the data; mismatched arguments raise.", "quantifier": "all constructor arguments", "why_tests_cant": "all argument combinations", "anchors": ["gradslam/structures/pointclouds.py:Pointclouds.__init__"]}
{"id": "C34", "title": "Active map points are exactly the real map points that project into the frame", "statement": "find_active_map_points returns a row (b,n,h,w) exactly for the non-padding points n of cloud b that are in front of the camera and project inside the image; 0<=h<H, 0<=w<W, each (b,n) at most once, (h,w) the rounded projection.", "quantifier": "all maps, frames, poses, intrinsics", "why_tests_cant": "rounding/boundary cases and padding interplay", "anchors": ["gradslam/slam/fusionutils.py:find_active_map_points"]}
{"id": "C35", "title": "Similar map points are exactly the candidates within the distance and angle thresholds", "statement": "find_similar_map_points keeps exactly those active rows whose map point is nearer than dist_th to the frame's global vertex at that pixel and whose normal has dot product > dot_th with the frame's normal there, in the same order; the boolean mask marks them; the map is not changed.", "quantifier": "all inputs", "why_tests_cant": "thresholds over a continuum", "anchors": ["gradslam/slam/fusionutils.py:find_similar_map_points", "gradslam/slam/fusionutils.py:are_points_close", "gradslam/slam/fusionutils.py:are_normals_similar"]}
{"id": "C36", "title": "Each pixel is associated with at most one, best, map point", "statement": "find_best_unique_correspondences returns at most one row per (b,h,w), a subset of its input, covers every input pixel, and picks the row with the highest confidence, ties broken by smallest distance to the frame's vertex, then smallest index.", "quantifier": "all correspondence tables with indices up to 2^24 (float32, see C57) and maps with non-negative confidences", "why_tests_cant": "ties and orderings", "anchors": ["gradslam/slam/fusionutils.py:find_best_unique_correspondences"]}
{"id": "C37", "title": "Fusing averages matched points by confidence and leaves all other points unchanged", "statement": "fuse_with_map sets a matched point/normal/colour to (c·p + α·q)/(c+α), its confidence to c+α, leaves every unmatched point with non-zero confidence unchanged, keeps padding zero, and the fused point lies on the segment between the two.", "quantifier": "all maps and frames", "why_tests_cant": "scatter/gather indexing over arbitrary correspondences", "anchors": ["gradslam/slam/fusionutils.py:fuse_with_map"]}
{"id": "C38", "title": "Fusion neither loses nor duplicates measurements", "statement": "After fuse_with_map every valid pixel was either merged into exactly one map point or appended exactly once; the size of cloud b grows by #valid pixels - #matched pixels; total confidence grows by the sum of α over valid pixels.", "quantifier": "all maps and frames", "why_tests_cant": "counting argument over arbitrary sizes", "anchors": ["gradslam/slam/fusionutils.py:fuse_with_map", "gradslam/slam/fusionutils.py:update_map_fusion"]}
{"id": "C39", "title": "inplace=False leaves the input map untouched", "statement": "update_map_fusion / update_map_aggregate with inplace=False return a new map and do not change any observable of the input map.", "quantifier": "all maps and frames", "why_tests_cant": "aliasing shows only when a match exists", "anchors": ["gradslam/slam/fusionutils.py:fuse_with_map", "gradslam/slam/fusionutils.py:update_map_aggregate", "gradslam/slam/fusionutils.py:update_map_fusion"]}
{"id": "C40", "title": "Confidence weights lie in (0,1] and decrease with distance from the optical centre", "statement": "get_alpha(points, sigma) returns values in [eps,1] (for 0<eps<=1), equal to exp(-|p|²/(2σ²)) whenever that is at least eps and eps otherwise, 1 at the optical centre, and non-increasing in |p| (sigma ≠ 0).", "quantifier": "all points and sigma", "why_tests_cant": "continuum", "anchors": ["gradslam/slam/fusionutils.py:get_alpha"]}
{"id": "C41", "title": "Aggregate mapping appends exactly the valid-depth pixels", "statement": "update_map_aggregate appends to cloud b exactly one point per pixel with depth>0 of frame b, in row-major order, with matching colour and normal.", "quantifier": "all frames and maps", "why_tests_cant": "all mask patterns", "anchors": ["gradslam/slam/fusionutils.py:update_map_aggregate", "gradslam/structures/utils.py:pointclouds_from_rgbdimages"]}
{"id": "C42", "title": "A missing-depth pixel never modifies the map", "statement": "No pixel with depth 0 is ever a correspondence: it is neither fused nor appended (for angle threshold <= 90°).", "quantifier": "all frames, maps, thresholds", "why_tests_cant": "needs the interplay of masks, zero normals and thresholds", "anchors": ["gradslam/slam/fusionutils.py:find_similar_map_points", "gradslam/slam/fusionutils.py:fuse_with_map"]}
{"id": "C43", "title": "Vertex and normal maps are back-projections of the depth, global maps their rigid transform, zero where depth is missing", "statement": "vertex_map at a valid pixel is depth·K⁻¹(u,v,1), global_vertex_map = R v + t, global_normal_map = R n, and all are zero at pixels with missing depth.", "quantifier": "all images, intrinsics, poses", "why_tests_cant": "all sizes and mask patterns", "anchors": ["gradslam/structures/rgbdimages.py:RGBDImages._compute_vertex_map", "gradslam/structures/rgbdimages.py:RGBDImages._compute_global_vertex_map", "gradslam/structures/rgbdimages.py:RGBDImages._compute_normal_map"]}
{"id": "C44", "title": "Derived maps are never stale", "statement": "After any history of reads and assignments to poses/intrinsics/depth_image, vertex_map, normal_map, global_vertex_map, global_normal_map and valid_depth_mask equal what a freshly constructed object with the current inputs would return.", "quantifier": "all histories", "why_tests_cant": "staleness depends on read/write interleavings", "anchors": ["gradslam/structures/rgbdimages.py:RGBDImages.poses", "gradslam/structures/rgbdimages.py:RGBDImages.intrinsics", "gradslam/structures/rgbdimages.py:RGBDImages.depth_image", "gradslam/structures/rgbdimages.py:RGBDImages.valid_depth_mask"]}
{"id": "C45", "title": "Channel order conversion is a lossless permutation", "statement": "to_channels_first then to_channels_last returns an observationally equal object, with element (b,l,h,w,c) at (b,l,c,h,w); converting twice in the same direction changes nothing.", "quantifier": "all objects and histories", "why_tests_cant": "cached maps must be permuted consistently", "anchors": ["gradslam/structures/rgbdimages.py:RGBDImages.to_channels_first_", "gradslam/structures/rgbdimages.py:RGBDImages.to_channels_last_"]}
{"id": "C46", "title": "Indexing frames keeps every image, pose and intrinsics aligned", "statement": "rgbd[i], rgbd[i,j], rgbd[slice...] select the same batch and sequence positions of rgb, depth, pose, intrinsics and every cached map; derived maps of the selection equal the selection of derived maps.", "quantifier": "all indices and objects", "why_tests_cant": "cached vs recomputed maps", "anchors": ["gradslam/structures/rgbdimages.py:RGBDImages.__getitem__"]}
{"id": "C47", "title": "With ground-truth odometry SLAM returns the poses it was given", "statement": "ICPSLAM/PointFusion(odom='gt').forward(frames) succeeds on every sequence with poses and returns exactly frames.poses; a sequence without poses raises ValueError if it has two or more frames and is placed at the identity if it has one.", "quantifier": "all sequences", "why_tests_cant": "all lengths", "anchors": ["gradslam/slam/icpslam.py:ICPSLAM.forward", "gradslam/slam/icpslam.py:ICPSLAM._localize"]}
{"id": "C48", "title": "Estimated poses are the running product of per-frame odometry", "statement": "With ICP-type odometry pose_t = T_t∘pose_{t-1} with T_t the odometry answer for frame t, starting from the first frame's pose or identity; hence pose_t is the ordered product of all previous answers.", "quantifier": "all sequence lengths and odometry answers", "why_tests_cant": "telescoping over all lengths", "anchors": ["gradslam/slam/icpslam.py:ICPSLAM._localize", "gradslam/slam/icpslam.py:ICPSLAM.forward"]}
{"id": "C49", "title": "SLAM is causal: results for the first k frames do not depend on later frames, and forward equals repeated step", "statement": "forward on a sequence equals folding step over its frames; the poses returned for frames < k are the same for any continuation.", "quantifier": "all sequences and continuations", "why_tests_cant": "quantifies over all continuations", "anchors": ["gradslam/slam/icpslam.py:ICPSLAM.forward", "gradslam/slam/icpslam.py:ICPSLAM.step"]}
{"id": "C50", "title": "What step(inplace=False) does to its arguments", "statement": "step with inplace=False leaves the live frame with exactly the returned poses and otherwise unchanged; ICPSLAM leaves the given map unchanged; PointFusion leaves an empty map unchanged, but a non-empty map ends with the points, normals, colours and features of the returned map without the appended points, so merged points are changed in the caller's map too.", "quantifier": "all maps and frames", "why_tests_cant": "aliasing", "anchors": ["gradslam/slam/icpslam.py:ICPSLAM.step"]}
{"id": "C51", "title": "The map never shrinks", "statement": "Along any SLAM run the number of points of each cloud is non-decreasing and every appended point keeps its index; the ICPSLAM map is exactly the concatenation of all pixels with depth at the returned poses; the confidences of a PointFusion map add up to the weights of all pixels with depth of all frames.", "quantifier": "all runs", "why_tests_cant": "all histories", "anchors": ["gradslam/slam/icpslam.py:ICPSLAM._map", "gradslam/slam/fusionutils.py:update_map_fusion"]}
{"id": "C52", "title": "The damped linear solver returns the unique minimiser", "statement": "solve_linear_system(A,b,damp) with damp>0 always has an invertible system, and its result satisfies (AᵀA+damp·I)x = Aᵀb and minimises ‖Ax-b‖²+damp‖x‖².", "quantifier": "all sizes of A,b and damp>0", "why_tests_cant": "all matrices incl. rank-deficient", "anchors": ["gradslam/odometry/icputils.py:solve_linear_system"]}
{"id": "C53", "title": "Gauss-Newton rows are the linearised point-to-plane residuals", "statement": "For every source cloud and non-empty target with normals, gauss_newton_solve row i belongs to the i-th source point with some target point at squared distance below dist_thresh (all points if None), chamfer_indices[i] is a nearest target point d with normal n, and A_i·(v,ω) - b_i = n·((s + v + ω×s) - d) for every twist; this is the point-to-plane error after se3_exp up to the exact second-order term. (Finding: the threshold is compared with squared distances.)", "quantifier": "all source/target clouds and associations", "why_tests_cant": "continuum and all subsets", "anchors": ["gradslam/odometry/icputils.py:gauss_newton_solve"]}
{"id": "C54", "title": "Point-to-plane ICP only accepts error-reducing steps and its transform explains the result", "statement": "Every run of point_to_plane_ICP (damp>0, non-empty target, affine initial transform, numiters>=1) succeeds and is a Levenberg-Marquardt history: each iteration computes the unique minimiser of the damped linearised point-to-plane error of the cloud moved so far; the step is taken and the damping halved iff it strictly decreases the point-to-plane error, otherwise nothing moves and the damping doubles. Hence the error never increases, the returned transform is the product of the accepted increments times the initial transform, damping stays positive, and a perfectly aligned cloud is left alone. numiters<=0 or initial_transform=None raise.", "quantifier": "all iteration counts and clouds", "why_tests_cant": "all histories of accept/reject", "anchors": ["gradslam/odometry/icputils.py:point_to_plane_ICP"]}
{"id": "C55", "title": "gradICP's soft damping stays positive and bounded; its soft step weight is in (0,1) and grows with the error change", "statement": "Every run of point_to_plane_gradICP (lambda_max>1, damp>0, nu>0) succeeds; each damping multiplier lies strictly between 1/lambda_max and lambda_max and grows with the error change, damping after k iterations lies in [damp/lambda_max^k, damp*lambda_max^k], every step is applied with a weight in (0,1); a perfectly aligned cloud is left alone. (Finding: the weight is larger for steps that worsen the error, so it does not interpolate between rejecting bad and accepting good steps.)", "quantifier": "all iteration counts, clouds and parameters with lambda_max>1, nu>0", "why_tests_cant": "continuum", "anchors": ["gradslam/odometry/icputils.py:point_to_plane_gradICP"]}
{"id": "C56", "title": "Downsampling keeps exactly the grid pixels and keeps attributes aligned", "statement": "downsample_rgbdimages(…, ds) keeps, in row-major order, exactly pixels with row%ds==0 and col%ds==0 and valid depth, with global position, global normal and colour of the same pixel; downsample_pointclouds keeps exactly the listed points whose pixel is on the grid, in table order, with their normals and colours, and leaves the map unchanged.", "quantifier": "all sizes and ds", "why_tests_cant": "all sizes", "anchors": ["gradslam/odometry/icputils.py:downsample_pointclouds", "gradslam/odometry/icputils.py:downsample_rgbdimages"]}
{"id": "C57", "title": "Correspondence indices survive the float32 round trip", "statement": "Map-point and pixel indices written into the float32 correspondence table are recovered exactly (true for indices up to 2^24; false beyond).", "quantifier": "all map sizes", "why_tests_cant": "needs maps with >16.7M points", "anchors": ["gradslam/slam/fusionutils.py:find_active_map_points"]}
{"id": "C58", "title": "Pose records convert to rigid transforms with the right rotation", "statement": "pointquaternion_to_homogeneous and tumutils.transform44 turn (t,q) into the rigid 4x4 matrix with translation t and the proper rotation of q/|q|, agree with each other and with the geometry module's quaternion conversion; only (near-)zero quaternions are special.", "quantifier": "all translations and all quaternions, unit or not", "why_tests_cant": "holds for a continuum of quaternions and two independent implementations", "anchors": ["gradslam/datasets/datautils.py:pointquaternion_to_homogeneous", "gradslam/datasets/tumutils.py:transform44"]}
{"id": "C59", "title": "read_file_list returns every data line of the file exactly once, keyed by its stamp", "statement": "For every file made of data rows (tokens separated by any mix of spaces, tabs, commas), comment lines and blank lines, read_file_list returns, in order, stamp -> remaining fields for exactly the data rows with at least a stamp and one field; later rows override earlier rows with the same stamp.", "quantifier": "all file contents of that grammar, any number of lines, fields and separators", "why_tests_cant": "ranges over all files", "anchors": ["gradslam/datasets/tumutils.py:read_file_list"]}
{"id": "C60", "title": "Label colours are per pixel and consistent between label sets", "statement": "create_label_image paints each pixel with the palette colour of its label (black if the palette has no such label); relabelling NYU40->ScanNet20 then colouring with the ScanNet20 palette equals the NYU40 colour for kept classes and black for dropped ones.", "quantifier": "all image sizes, all labels, all palettes", "why_tests_cant": "sequential in-place painting must be shown not to interfere for any image", "anchors": ["gradslam/datasets/datautils.py:create_label_image", "gradslam/datasets/scannet.py:nyu40_to_scannet20", "gradslam/datasets/scannet.py:get_color_encoding"]}
{"id": "C61", "title": "TUM triples of colour, depth and pose come from matching stamps", "statement": "Each entry the TUM dataset builds uses a colour stamp, a depth stamp and a pose stamp that are pairwise matched by associate, returns the file names/poses recorded for exactly those stamps and never uses a stamp twice.", "quantifier": "all three files with arbitrary stamps", "why_tests_cant": "depends on all relative orders of stamps in three files", "anchors": ["gradslam/datasets/tum.py:TUM._findAssociations", "gradslam/datasets/tumutils.py:associate"]}
{"id": "C62", "title": "read_trajectory returns every pose line with its own numbers", "statement": "For every trajectory file of numeric rows, read_trajectory(matrix=False) maps each stamp to the numbers of its own line; a NaN in a row is documented to be skipped with a warning.", "quantifier": "all files of numeric rows, with any number of rows", "why_tests_cant": "ranges over all files", "anchors": ["gradslam/datasets/tumutils.py:read_trajectory"]}
{"id": "C63", "title": "Odometry providers answer per batch element, and ICP odometry never worsens the alignment", "statement": "ICPOdometryProvider/GradICPOdometryProvider.provide registers each frame cloud to the map cloud of the same batch element starting from the identity; for ICP the returned transform never increases the point-to-plane error. GroundTruthOdometryProvider returns T with pose1∘T = pose2. Missing normals/poses, length ≠ 1 and batch mismatches raise ValueError.", "quantifier": "all batches, clouds, poses and iteration counts", "why_tests_cant": "all clouds and accept/reject histories", "anchors": ["gradslam/odometry/icp.py:ICPOdometryProvider.provide", "gradslam/odometry/gradicp.py:GradICPOdometryProvider.provide", "gradslam/odometry/groundtruth.py:GroundTruthOdometryProvider.provide"]}
{"id": "C64", "title": "quaternion_to_axisangle describes the same rotation as the quaternion", "statement": "For every unit quaternion, the exponential of quaternion_to_axisangle(q) is the rotation matrix of q; the returned vector has length at most pi, does not depend on the length of q, is the same for q and -q (opposite for half turns), and every rotation vector of length at most pi with unit axis is recovered from its half-angle quaternion.", "quantifier": "all unit quaternions / all axes and angles in [0, pi]", "why_tests_cant": "ranges over all real quaternions, including both signs of w and the half-turn boundary", "anchors": ["gradslam/geometry/geometryutils.py:quaternion_to_axisangle"]}
{"id": "C65", "title": "Batch elements do not influence each other", "statement": "If SLAM forward succeeds on a batch of sequences then it succeeds on every sub-batch frames[idx] (in particular on every single sequence frames[b]) and returns exactly the clouds (points, normals, colours, features) and poses that the whole batch gave for the selected elements.", "quantifier": "all batches, sequence lengths, image sizes, selections, odometry modes and mappers", "why_tests_cant": "clouds of different sizes are padded to a common size and fused in one tensor; absence of leakage must hold for every batch and every history of frames", "anchors": ["gradslam/slam/icpslam.py:ICPSLAM.forward", "gradslam/slam/pointfusion.py:PointFusion._map", "gradslam/slam/fusionutils.py:update_map_fusion", "gradslam/structures/pointclouds.py:Pointclouds.append_points"]}
{"id": "C66", "title": "The result does not depend on the choice of the world frame", "statement": "With ground-truth odometry, moving all given poses of a sequence by a rigid transform of the world moves the returned poses and points by that transform, rotates the normals, and leaves colours, confidences, cloud sizes and the choice of which pixels are merged unchanged (for a normal threshold of at most 90 degrees).", "quantifier": "all sequences, all rigid transforms (one per batch element), all thresholds", "why_tests_cant": "all transforms and all histories of fused frames; ties in the association could break it", "anchors": ["gradslam/slam/fusionutils.py:find_correspondences", "gradslam/slam/fusionutils.py:fuse_with_map", "gradslam/slam/icpslam.py:ICPSLAM.forward"]}
{"id": "C67", "title": "A dataset item consists of the documented parts of its own frames", "statement": "dataset[idx] of TUM, ICL and Scannet returns the tuple (colours, [depths], [intrinsics], [poses], [transforms], [names], [timestamps or labels]) in this order, each optional part present exactly when it was asked for. Frame i of every sequence comes from the i-th file of the item; colours are the resized image, divided by 255 when normalising (then within [0,1] for 8-bit images); depths are nearest-neighbour samples divided by the dataset's scaling factor, never interpolated, so missing depths stay exactly 0; poses are relative to the first frame, transforms are the frame-to-frame motions and compose to the poses; labels are the file's labels or their Scannet-20 classes; shapes follow channels_first.", "quantifier": "all datasets, items, window parameters, target sizes and combinations of the return_* / channels_first / normalize_color options", "why_tests_cant": "2^8 option combinations, all sizes, windows and file contents", "anchors": ["gradslam/datasets/tum.py:TUM.__getitem__", "gradslam/datasets/icl.py:ICL.__getitem__", "gradslam/datasets/scannet.py:Scannet.__getitem__"]}
{"id": "C68", "title": "Dataset batches become correct RGBDImages and world points", "statement": "Every batch of items of TUM, ICL or Scannet that was built with depths, intrinsics and poses is accepted by RGBDImages with the dataset's channel layout, and global_vertex_map then holds, at every pixel with a positive depth reading, the point that the pose of the item's first frame maps to the measured world position (pixel back-projected with the rescaled intrinsics at the scaled depth, moved by the frame's own pose); at every other pixel it holds zero.", "quantifier": "all datasets, batches of item indices, window parameters, target sizes, both channel layouts, all pixels", "why_tests_cant": "composition of window arithmetic, resizing, intrinsics scaling, relative poses and back-projection over all inputs", "anchors": ["gradslam/datasets/tum.py:TUM.__getitem__", "gradslam/datasets/icl.py:ICL.__getitem__", "gradslam/datasets/scannet.py:Scannet.__getitem__", "gradslam/structures/rgbdimages.py:RGBDImages.__init__", "gradslam/structures/rgbdimages.py:RGBDImages.global_vertex_map", "examples/pointfusion.py"]}
{"id": "C69", "title": "ICP-SLAM with ground truth turns the files of a dataset into exactly the measured scene", "statement": "Running ICPSLAM(odom='gt') on RGBDImages built from a batch of TUM, ICL (start = 0) or Scannet items (depths, intrinsics, poses) succeeds for images of at least 2x2; the returned poses are the stored poses relative to the item's first frame; and the points of the returned map, moved by the stored pose of the first frame, are exactly the measured world positions of all pixels with a positive depth reading, in the order frame by frame and row by row, each with the colour of its pixel: none lost, duplicated, reordered or mixed between items of the batch.", "quantifier": "all datasets, options, batches of indices, window parameters, image contents, sequence lengths and batch sizes", "why_tests_cant": "every file content, window, batch and number of frames", "anchors": ["examples/icpslam.py", "gradslam/slam/icpslam.py:ICPSLAM.forward", "gradslam/slam/fusionutils.py:update_map_aggregate", "gradslam/datasets/tum.py:TUM.__getitem__", "gradslam/datasets/icl.py:ICL.__getitem__", "gradslam/datasets/scannet.py:Scannet.__getitem__"]}
{"id": "C70", "title": "The printed form of a config determines, and is determined by, its options", "statement": "str(cfg) lists the options in key order, a section as its name followed by its own lines two spaces further in, any other option as 'key: value'. Two configs print the same text exactly if they have the same sections and the same leaves with the same printed values; insertion order, frozen state and registered deprecated/renamed keys do not show. (For keys without colons and line breaks that do not start with a space; with colons in keys two different configs can print the same text.)", "quantifier": "all config trees of any depth, all values including texts of several lines", "why_tests_cant": "unique decodability of an indentation format is a statement about all pairs of trees", "anchors": ["gradslam/config/cfgnode.py:CfgNode.__str__"]}
{"id": "C71", "title": "Config files: the extension decides the format, a failed load changes nothing, saving and merging restores the options", "statement": "load_cfg on a file reads names without extension, .yml and .yaml as YAML, .py by importing it, and rejects every other extension; it returns a fresh unfrozen node with leaves of permitted types or raises. merge_from_file on a missing or unloadable file leaves the config unchanged, otherwise it acts as merge_from_other_cfg with the loaded config. load_cfg(cfg.dump()) has the same sections and leaves as cfg (tuples as lists), and merging a file saved with dump() into a config with the same options succeeds and gives every saved option its saved value and type, provided no saved string is a Python literal; otherwise it can raise.", "quantifier": "all paths, file contents, configs and targets", "why_tests_cant": "all file names (leading dots, dots in directories), all trees and all types of values", "anchors": ["gradslam/config/cfgnode.py:CfgNode.load_cfg", "gradslam/config/cfgnode.py:CfgNode.merge_from_file", "gradslam/config/cfgnode.py:CfgNode.dump"]}
{"id": "C72", "title": "dist_th, angle_th and sigma decide which measurements PointFusion merges, and with what weight", "statement": "PointFusion(dist_th, angle_th, sigma) with 0 <= angle_th <= 90: the map after k+1 frames arises from the map after k frames (what forward returns for frames[:, 0:k]) as follows. A pixel of the new frame is merged only if it has depth, it is the pixel nearest to the image of a visible map point, it measures a position less than dist_th away from that point and a normal less than angle_th degrees away from its normal; every pixel with such a point (unit normals) is merged, with the most confident such point, ties going to the closest and then to the smallest index. Merged positions, normals and colours are the means weighted with the old confidence and exp(-|v|^2/(2 sigma^2)) (at least 1e-7), v the position in the camera frame; the weight is added to the confidence; all other points stay the same; all other pixels with depth are appended in row-major order with their weight as confidence. No normal is ever longer than 1.", "quantifier": "all thresholds, sigmas, odometries, batches, sequence lengths, image sizes and contents", "why_tests_cant": "conversion of degrees to a cosine, strictness of the comparisons and tie-breaking over all maps and frames", "anchors": ["gradslam/slam/pointfusion.py:PointFusion", "gradslam/slam/fusionutils.py:update_map_fusion", "gradslam/slam/fusionutils.py:find_similar_map_points", "gradslam/slam/fusionutils.py:find_best_unique_correspondences", "gradslam/slam/fusionutils.py:get_alpha"]}
{"id": "C73", "title": "A camera that does not move is found not to move", "statement": "For ICPSLAM and PointFusion (dist_th > 0, 0 < angle_th <= 90) with odometry gt, icp or gradicp, at least one iteration and positive damping, and a batch whose sequences repeat the same frame (with equal given poses for gt), rigid first poses, intrinsics for which measured points project back to their pixels, and at least one depth measurement on the sampling grid: forward succeeds, and every returned pose equals the pose the sequence started at (its first given pose, or the identity). Odometry does not drift.", "quantifier": "all batch sizes, sequence lengths, image sizes and contents, poses, intrinsics, parameters", "why_tests_cant": "any number of frames and any scene; drift would accumulate over frames", "anchors": ["gradslam/slam/icpslam.py:ICPSLAM", "gradslam/slam/pointfusion.py:PointFusion", "gradslam/odometry/icp.py:ICPOdometryProvider.provide", "gradslam/odometry/gradicp.py:GradICPOdometryProvider.provide", "gradslam/odometry/icputils.py:point_to_plane_ICP"]}
{"id": "C74", "title": "What maps become when nothing moves", "statement": "In the situation of C73, the map of ICPSLAM is one copy of the first frame's measurements per frame; the map of PointFusion contains each measured point that has a normal exactly once, with the position, normal and colour of the first frame and the number of frames times the weight of one measurement as confidence, and each measured point without a normal (an isolated pixel, for example) once per frame with the weight of one measurement: PointFusion's map does not grow except for those.", "quantifier": "all batch sizes, sequence lengths, image sizes and contents, poses, intrinsics, thresholds, sigmas, odometries", "why_tests_cant": "fixed point of the whole loop over any number of frames", "anchors": ["gradslam/slam/icpslam.py:ICPSLAM", "gradslam/slam/pointfusion.py:PointFusion", "gradslam/slam/fusionutils.py:update_map_fusion", "gradslam/slam/fusionutils.py:update_map_aggregate"]}
{"id": "C75", "title": "Exported clouds are the clouds", "statement": "open3d(index, ...) and plotly(index, ...) of a Pointclouds object export, for the index-th cloud in Python's sense (IndexError otherwise; TypeError for index 0 or -1 of an object without points), the points together with the colours and normals of the same points, colours (normals) exactly if present and asked for; all points in order if max_num_points is None or not below their number, otherwise that many different points. Exported colours lie in [0,1] (open3d) or 0..255 (plotly) and are the stored ones rescaled according to the range guessed from the exported points. The object is unchanged.", "quantifier": "all histories of the object, indices, flags, limits and random permutations", "why_tests_cant": "random subsampling and any history of lazily cached representations", "anchors": ["gradslam/structures/pointclouds.py:Pointclouds.open3d", "gradslam/structures/pointclouds.py:Pointclouds.plotly"]}
{"id": "C76", "title": "Shown sequences are the sequences", "statement": "plotly(index) of a channels-last RGBDImages object yields, for the index-th sequence in Python's sense (IndexError otherwise), one frame per time step, named 0, 1, ... in order, each showing the colours of that time step (as bytes, rescaled according to the range guessed from the sequence) and if asked for the depth rounded down in units of a power of ten common to the sequence, chosen such that the largest depth maps above 25.5 and at most 255: no depth overflows a byte and a shown value determines the depth up to one unit. A sequence without any depth measurement is an OverflowError. A channels-first object whose images are not 3 or 4 pixels wide cannot be shown.", "quantifier": "all histories of the object, indices, image sizes and contents", "why_tests_cant": "any content and history; overflow only for particular depths", "anchors": ["gradslam/structures/rgbdimages.py:RGBDImages.plotly", "gradslam/structures/structutils.py:numpy_to_plotly_image", "gradslam/structures/structutils.py:img_to_b64str"]}
{"id": "C77", "title": "Registration is differentiable", "statement": "Let source cloud, target cloud, normals, initial transform and damping of point_to_plane_gradICP depend k times continuously differentiably on a parameter in any normed space (for example on all their coordinates). If at the parameter x0 no discrete decision of any iteration is on the edge (every point has a single nearest target and is not exactly at the distance threshold, the rotation angle is not exactly the cut-off of the exponential map, the change of error is not exactly +-70), then for all parameters near x0 the registration succeeds with the same correspondences and the returned transform is k times continuously differentiable at x0. For point_to_plane_ICP the same holds if in addition no look-ahead step leaves the error exactly unchanged. Without a single nearest target the transform of gradICP can jump.", "quantifier": "all clouds, numbers of iterations, orders of differentiability, parameter spaces and dependencies", "why_tests_cant": "differentiability at all non-degenerate inputs; gradient checks sample finitely many", "anchors": ["gradslam/odometry/icputils.py:point_to_plane_gradICP", "gradslam/odometry/icputils.py:point_to_plane_ICP", "gradslam/odometry/icputils.py:gauss_newton_solve", "gradslam/odometry/icputils.py:solve_linear_system", "gradslam/geometry/se3utils.py:se3_exp"]}
{"id": "C78", "title": "Mapping is differentiable", "statement": "Let colours, depths, intrinsics and poses of a batch of sequences depend k times continuously differentiably on a parameter in any normed space. ICPSLAM and PointFusion with odom='gt' then succeed for all parameters near x0 with a map of the same attributes and sizes, and every number in the returned map (points, normals, colours, and confidences) and in the returned poses is k times continuously differentiable at x0, provided that at x0 no decision is on an edge: no pixel is on the edge of having depth, at pixels with depth the tangents of the surface are independent (or dependent near x0), and, for PointFusion, no map point is exactly in the camera plane, on the border of the image, halfway between two pixels or exactly at a threshold, no two map points tie for a pixel, and no weight is exactly at its lower bound.", "quantifier": "all batches, lengths, image sizes, thresholds, orders of differentiability, parameter spaces and dependencies", "why_tests_cant": "differentiability at all non-degenerate inputs of a pipeline with data-dependent sizes; gradient checks sample finitely many", "anchors": ["gradslam/slam/icpslam.py:ICPSLAM.forward", "gradslam/slam/pointfusion.py:PointFusion._map", "gradslam/slam/fusionutils.py:update_map_fusion", "gradslam/slam/fusionutils.py:fuse_with_map", "gradslam/slam/fusionutils.py:get_alpha", "gradslam/structures/rgbdimages.py:RGBDImages"]}
{"id": "C79", "title": "Localisation and mapping with ICP odometry is differentiable", "statement": "Let colours, depths, intrinsics and first poses of a batch of sequences depend k times continuously differentiably on a parameter in any normed space. ICPSLAM and PointFusion with odom='icp' or odom='gradicp' then succeed for all parameters near x0, and every number in the returned map and every entry of every estimated pose (computed through all iterations of the registration of every frame) is k times continuously differentiable at x0, provided that at x0 no decision is on an edge: those of C78 for depth, normals and map; when the map points to register against are chosen, none is in the camera plane, on the image border or halfway between two pixels, and some map point is chosen in every cloud; in every registration step no source point is equidistant from two target points or exactly at the distance threshold, no step is exactly at the small-angle threshold, no gate is saturated exactly at the edge of its range (gradicp), and no trial step leaves the error exactly unchanged (icp).", "quantifier": "all batches, lengths, image sizes, numbers of iterations, parameters, nearest-neighbour searches, orders of differentiability, parameter spaces and dependencies", "why_tests_cant": "differentiability through an unbounded number of frames and iterations at all non-degenerate inputs; gradient checks sample finitely many", "anchors": ["gradslam/slam/icpslam.py:ICPSLAM.forward", "gradslam/slam/icpslam.py:ICPSLAM._localize", "gradslam/odometry/icp.py:ICPOdometryProvider.provide", "gradslam/odometry/gradicp.py:GradICPOdometryProvider.provide", "gradslam/odometry/icputils.py:point_to_plane_ICP", "gradslam/odometry/icputils.py:point_to_plane_gradICP", "gradslam/odometry/icputils.py:downsample_rgbdimages", "gradslam/odometry/icputils.py:downsample_pointclouds"]}
{"id": "C80", "title": "With ICP odometry the orientation of the world does not matter", "statement": "Turning the world about its origin (by any rotation, also combined with a reflection) changes nothing but coordinates. point_to_plane_ICP and point_to_plane_gradICP on turned source points, targets and normals, started at the turned initial transform, fail exactly when (and with the error with which) they fail on the original clouds and otherwise return A T A^-1 and the same associations; the order of the source points does not matter either. Hence ICPSLAM and PointFusion (normal threshold at most 90 degrees) with odom='icp' or 'gradicp', given the same images with first poses G b * T for turns G b, succeed on the one batch iff they do on the other, and return poses G b * T', points and normals turned by G b, and the same colours and confidences. Translations of the world are excluded for a reason: the damping penalises rotations about the world origin, so moving all clouds by one unit can turn a pure translation into a rotation.", "quantifier": "all clouds, orthogonal matrices, permutations, iteration counts, positive damping, thresholds; all batches, lengths, image sizes, one turn per batch element; all nearest-neighbour searches that decide by distances", "why_tests_cant": "an equality between two runs of an iterative optimiser for all rotations and all inputs; floating-point tests can only compare a few within tolerances", "anchors": ["gradslam/odometry/icputils.py:point_to_plane_ICP", "gradslam/odometry/icputils.py:point_to_plane_gradICP", "gradslam/odometry/icputils.py:gauss_newton_solve", "gradslam/geometry/se3utils.py:se3_exp", "gradslam/slam/icpslam.py:ICPSLAM._localize", "gradslam/slam/icpslam.py:ICPSLAM.forward"]}
{"id": "C81", "title": "Who sees whose writes: sharing of tensor memory between Pointclouds objects", "statement": "In every program using Pointclouds (constructors, getters, setters, in-place and out-of-place operations, clone, detach, to, indexing, append_points, and writes of the caller into tensors it holds): (1) no call changes an object it was not given, nor the contents of any tensor the caller holds, even if memory is shared; (2) a write into a tensor is seen only by objects that were obtained without a copy from the same tensors - an object and its clone, its sum/product/rotation/..., its copy on another device, and objects appended to or assigned from it stay independent through any further history; (3) as long as the caller does not write into tensors, objects behave as if all tensors were values. Constructing from tensors, indexing and detach share memory with their source. to(device, copy=True), documented to return a copy, shares all padded tensors with the object if the device is its own but written as a string or as 'cuda' without number.", "quantifier": "all finite programs, any number of objects, any sharing between them, all batch sizes and contents", "why_tests_cant": "aliasing bugs show only in particular sequences of calls and writes; the set of sequences is infinite", "anchors": ["gradslam/structures/pointclouds.py:Pointclouds.clone", "gradslam/structures/pointclouds.py:Pointclouds.detach", "gradslam/structures/pointclouds.py:Pointclouds.to", "gradslam/structures/pointclouds.py:Pointclouds.__getitem__", "gradslam/structures/pointclouds.py:Pointclouds.append_points", "gradslam/structures/pointclouds.py:Pointclouds.__init__"]}
{"id": "C82", "title": "Pointclouds objects are on the device they name; to() moves them there", "statement": "In every program, every tensor inside a Pointclouds object (lists, padded tensors, mask, sizes) is on the device given by its device attribute, whatever devices the tensors it was built or assigned from were on. to(device) returns an object on the requested device with all its tensors there and the same values; it returns self exactly if no copy is requested and the device is given as the torch.device the object is on. In particular cuda() on an object that is on the GPU does not return self, against the documentation.", "quantifier": "all finite programs, all devices and ways of writing them, all contents", "why_tests_cant": "tests run on one machine with few devices; the claim is an invariant over all call sequences and device combinations", "anchors": ["gradslam/structures/pointclouds.py:Pointclouds.to", "gradslam/structures/pointclouds.py:Pointclouds.cpu", "gradslam/structures/pointclouds.py:Pointclouds.cuda", "gradslam/structures/pointclouds.py:Pointclouds._compute_padded", "gradslam/structures/pointclouds.py:Pointclouds.append_points"]}
{"id": "C83", "title": "Who sees whose writes: sharing of tensor memory between RGBDImages objects", "statement": "In every program using RGBDImages (constructor, getters, setters, layout changes, clone, detach, to, indexing, and writes of the caller into tensors it holds): (1) no call changes an object it was not given, nor the contents of any tensor the caller holds, even if memory is shared; (2) a write into a tensor is seen only by objects obtained without a copy from the same tensors: an object and its clone, its copy in the other layout, its copy on another device and its selection by a list of sequences stay independent through any further history; (3) as long as the caller does not write into tensors, objects behave as if all tensors were values. The constructor and the setters keep the caller's tensors; detach and indexing by ints and slices share everything; a list as second index copies everything but the intrinsics. to(own device, copy=True), documented to return a copy, returns an object sharing all its tensors with self. A write into the depth tensor is not noticed by a cached vertex map.", "quantifier": "all finite programs, any number of objects, any sharing between them, all shapes and contents", "why_tests_cant": "aliasing bugs show only in particular sequences of calls and writes; the set of sequences is infinite", "anchors": ["gradslam/structures/rgbdimages.py:RGBDImages.__init__", "gradslam/structures/rgbdimages.py:RGBDImages.clone", "gradslam/structures/rgbdimages.py:RGBDImages.detach", "gradslam/structures/rgbdimages.py:RGBDImages.to", "gradslam/structures/rgbdimages.py:RGBDImages.__getitem__", "gradslam/structures/rgbdimages.py:RGBDImages.to_channels_first"]}
{"id": "C84", "title": "RGBDImages objects and devices: where the tensors are, and what happens when setters mix devices", "statement": "A constructed RGBDImages object has all its tensors on the device it names (the requested one, else that of its arguments); arguments on different devices are refused with ValueError. Every call keeps objects on the device they name, except a setter given a tensor from another device: setters check only the shape. On objects that are where they say, getters never fail because of devices. Once colour image, depth image and intrinsics are on different devices, clone, detach, indexing and to raise ValueError (and exactly then), and the vertex map raises RuntimeError if depth, intrinsics and pixel positions are not on one device. to(device) returns self exactly if no copy is requested and the object names that device; otherwise a result with all tensors on that device.", "quantifier": "all finite programs, all devices and ways of writing them, all shapes and contents", "why_tests_cant": "an invariant over all call sequences and device combinations; CI machines have one device", "anchors": ["gradslam/structures/rgbdimages.py:RGBDImages.__init__", "gradslam/structures/rgbdimages.py:RGBDImages.to", "gradslam/structures/rgbdimages.py:RGBDImages.clone", "gradslam/structures/rgbdimages.py:RGBDImages._compute_vertex_map"]}
{"id": "C85", "title": "Every point of a PointFusion map is the weighted mean of its own measurements, and every measurement is used once", "statement": "For a PointFusion run (0 <= angle_th <= 90, any odometry) that returns a map and poses: the pixels with depth of all frames of sequence b can be divided among the points of cloud b so that every pixel belongs to exactly one point, every point has at least one pixel and at most one per frame, the points are numbered in the order of their first pixel (frame, row, column), the confidence of a point is the sum of the weights of its pixels, and its position, normal and colour are the weighted means of what its pixels measured at the returned poses. Hence every map value lies in the convex hull of the measured values. The map of the first k frames (forward on frames[:, 0:k]) has the same points at the same indices, each with the pixels of later frames removed.", "quantifier": "all runs: thresholds, sigmas, odometries, batch sizes, sequence lengths, image sizes and contents, prefixes", "why_tests_cant": "an invariant of the whole history of merges, for arbitrary correspondences; incremental averaging and a batch mean differ only after several merges", "anchors": ["gradslam/slam/pointfusion.py:PointFusion._map", "gradslam/slam/fusionutils.py:fuse_with_map", "gradslam/slam/fusionutils.py:update_map_fusion", "gradslam/slam/icpslam.py:ICPSLAM.forward"]}
{"id": "C86", "title": "Attribute assignment on configs replaces exactly the named option, and which assignments succeed", "statement": "cfg.A.B.name = value succeeds exactly when A, B are options reachable by attribute syntax, cfg.A.B is a CfgNode that is not itself frozen (whatever the state of the nodes above), name is not one of the four internal names and value has a permitted type or is a CfgNode; whether the option exists, its old type and new_allowed play no role. Then the option has the value, all other options are as before, and the nodes on the way keep their state and the order of their names (a new name goes last). Failures raise AttributeError when the way is closed or the node frozen and AssertionError otherwise. Reading the option back gives the value unless its name is an attribute of the class (e.g. items), in which case it can be stored but not read. A constructed config is open at every level, and new_allowed holds only at its top node.", "quantifier": "every config tree, path, name and value; every set of class attributes", "why_tests_cant": "paths of any depth, any mixture of frozen and open nodes, any name", "anchors": ["gradslam/config/cfgnode.py:CfgNode.__setattr__", "gradslam/config/cfgnode.py:CfgNode.__getattr__", "gradslam/config/cfgnode.py:CfgNode.__init__", "gradslam/config/cfgnode.py:CfgNode._create_config_tree_from_dict"]}
{"id": "C87", "title": "Which sequences a dataset serves", "statement": "TUM(basedir, sequences) is accepted exactly when every folder of basedir (asked for or not) is named rgbd_dataset_freiburgX_NAME, at least one sequence is served, every name asked for is a folder of basedir and is named once, and the folders served contain the text files needed; ICL(basedir, trajectories) exactly when basedir holds a folder living_room_traj\u2026_frei_png, every name asked for has that form, is a folder of basedir and is named once, and the folders served contain associations.txt and livingRoomXn.gt.sim with X the number of that very folder (folders with other names are ignored); Scannet ignores unknown scenes and accepts an empty tuple. Each then serves exactly what was asked for (everything for None), in the order of the listing, not of the tuple: reordering the tuple changes nothing, and a dataset of fewer sequences serves a sublist of the items. A names file is its content split at newlines. Traps: a trailing newline in the names file makes TUM and ICL raise; a stray folder makes TUM raise; a basedir whose own path contains living_room_traj makes ICL look for the wrong poses file. Association and metadata lines are accepted exactly when the required keywords/prefixes are in their columns, and the files are taken from the documented columns.", "quantifier": "every listing of basedir, every request, every set of files present, every line", "why_tests_cant": "any number and any names of folders, any subset asked for in any order", "anchors": ["gradslam/datasets/tum.py:TUM.__init__", "gradslam/datasets/icl.py:ICL.__init__", "gradslam/datasets/scannet.py:Scannet.__init__"]}
{"id": "C88", "title": "The unit of length does not matter (ground-truth odometry)", "statement": "Let a second batch show the same colours and intrinsics with depths and the translations of the given poses multiplied by s > 0 (metres and millimetres). With odom='gt', the object whose length parameters are multiplied by s as well (PointFusion: dist_th and sigma, not angle_th; ICPSLAM has none) returns the given poses and the map of the first batch in the new unit: same clouds, same number and order of points, points multiplied by s, the same normals, colours and confidences; for every threshold and with missing depth anywhere. If dist_th is not converted the maps differ.", "quantifier": "every s > 0, batch, sequence length, image size, depth, pose, threshold", "why_tests_cant": "ranges over all scenes, lengths and scale factors; every merge decision of every frame has to be the same", "anchors": ["gradslam/slam/pointfusion.py:PointFusion", "gradslam/slam/icpslam.py:ICPSLAM", "gradslam/slam/fusionutils.py:update_map_fusion", "gradslam/structures/rgbdimages.py:RGBDImages"]}
{"id": "C89", "title": "Configs are isolated from each other: which statements make two configs share an object", "statement": "In every program over dicts, lists and configs: CfgNode(d) and clone() return configs that share no dict, list or node with any existing value; merge_from_other_cfg, completed or interrupted by an exception, shares nothing between the two configs; freeze, defrost, key registration, merging and in-place list methods on one value change nothing that can be reached from a value that shares no object with it. The only statements that make values share objects are attribute or item assignment of an object and merge_from_list with a list (not copied; shown by examples); reading an option returns the stored object. A clone holds the same options in the same order and the same flags at every level. Construction gives every nested node its own object; two options of one dict given the same list keep sharing one list (example). On receivers in which no node occurs twice, construction, merge_from_other_cfg, merge_from_list and freeze on objects do exactly what they do on values (C01-C06); with a node at two places a merge into one changes the other (example).", "quantifier": "every program (sequence of statements), every config, dict, list value and sharing between them, every exception point", "why_tests_cant": "ranges over all programs and all object graphs", "anchors": ["gradslam/config/cfgnode.py:CfgNode.clone", "gradslam/config/cfgnode.py:CfgNode.__init__", "gradslam/config/cfgnode.py:_merge_a_into_b", "gradslam/config/cfgnode.py:CfgNode.merge_from_list", "gradslam/config/cfgnode.py:CfgNode.__setattr__", "gradslam/config/cfgnode.py:CfgNode._immutable"]}
{"id": "C90", "title": "What floating-point rounding does to a map that is fused again and again", "statement": "fuse_with_map computed in floating point (every operation rounded, any binary precision) succeeds on every map with positive counts and every table that names no map point twice; counts stay positive and never decrease, so no later division by zero. After k calls that had matches, every coordinate, normal and colour component of every point of the map is within the fraction (1+u)^(4k)/(1-u)^k - 1 of the exact weighted mean of its start value and all values merged into it, and its count within (1-u)^k and (1+u)^k of the sum of weights. A point that is in no table keeps its count exactly but each number is rounded three times per call: it moves by at most the fraction (1+u)^(3k) - 1, stays exact if count, reciprocal and product are numbers of the format (e.g. count a power of two), and in float32 really drifts: a coordinate 16383999/2^23 of a point of count 8390048/2^23 is exactly k units in the last place lower after k <= 2811 calls that matched only other points. Calls without matches change no old value. Without rounding the model is the exact one of C33-C39.", "quantifier": "every format with monotone idempotent rounding of relative error u, every map, frame, table, weights, and every number of calls", "why_tests_cant": "error bounds over all maps, weights and numbers of calls; drift over thousands of calls", "anchors": ["gradslam/slam/fusionutils.py:fuse_with_map"]}
{"id": "C91", "title": "Channels-first frames are used correctly or refused, never misread into a result", "statement": "ICPSLAM with ground-truth odometry gives the same poses and a map that answers every accessor alike for channels-first and channels-last sequences with the same images, intrinsics and poses. PointFusion raises on every channels-first sequence and every step with a channels-first live frame, whatever the map, the previous frame, the odometry and the sizes (at least 2x2) are; icp and gradicp odometry raise on a channels-first live frame as soon as there is a previous frame, hence on every channels-first sequence of two or more frames; a sequence of one frame needs no odometry and gives the result of odom='gt'. But raising is not harmless: on frames of width 3 PointFusion has already merged misread pixels into the map it was given when it raises.", "quantifier": "every sequence object in every history, every map, previous frame, odometry provider, threshold and sampling ratio, every size of at least 2x2 pixels", "why_tests_cant": "whether mismatched shapes raise or silently broadcast depends on the concrete sizes (e.g. H = W = 3); holds for all sizes", "anchors": ["gradslam/slam/fusionutils.py:find_similar_map_points", "gradslam/slam/fusionutils.py:find_best_unique_correspondences", "gradslam/slam/fusionutils.py:fuse_with_map", "gradslam/odometry/icputils.py:downsample_rgbdimages", "gradslam/slam/icpslam.py", "gradslam/structures/utils.py:pointclouds_from_rgbdimages"]}
{"id": "C92", "title": "Colours are carried along and never influence geometry", "statement": "For ICPSLAM and PointFusion with any odometry ('gt', 'icp', 'gradicp'): two batches of sequences with the same depth images, intrinsics and poses but arbitrary different colour images give the same error, or the same poses and maps with equal points, normals and confidences in the same order, and as many colours. If the second images are the first sent through an affine map c -> A c + o (scaling 0-255 to 0-1, exchanging channels, greying), the colours of the second map are those of the first sent through it; more generally any relation between colours that weighted means keep carries over from the images to the maps. If the colour channels of the pixels with depth lie between lo and hi, so do all colours of the map. Colours of pixels without depth are never used (for PointFusion with angle_th <= 90).", "quantifier": "every pair of colour images, every affine map, every relation kept by weighted means, every depth, pose, intrinsics, number of sequences and frames, threshold, odometry and history of the sequence objects", "why_tests_cant": "independence of an input over all values of that input and whole runs", "anchors": ["gradslam/slam/icpslam.py:ICPSLAM.forward", "gradslam/slam/pointfusion.py:PointFusion", "gradslam/slam/fusionutils.py:fuse_with_map", "gradslam/slam/fusionutils.py:find_best_unique_correspondences", "gradslam/odometry/icputils.py:downsample_rgbdimages", "gradslam/structures/utils.py:pointclouds_from_rgbdimages"]}
{"id": "C93", "title": "In floating point a measured point is found again at its own pixel", "statement": "The point that a pixel (x, y) with depth d > 0 puts into the map, transformed back with the same pose and projected by find_active_map_points, is in front of the camera and lands within E pixels of (x, y), where E = 2 (|x|+|cx|) eps/fx + (fx+|x|+|cx|) ((100 u + 3 rho) A + (40 u T + 5 tau)/d), A = 1 + (|x|+|cx|)/fx + (|y|+|cy|)/fy, u is the unit roundoff, rho how far the rotation is from orthonormal, T the size of the translation, tau how far the map point has moved since; this holds in every rounding arithmetic and for every order of summation, with or without fused multiply-add. If E is below half a pixel every inner pixel is found at itself; if E (plus the rounding of the limits) is below the tolerance of a thousandth of a pixel, every pixel of the image is, border included. For a 640x480 camera this gives all pixels in float64 up to 100 units from the world origin and all inner pixels in float32 up to 10 units. In float32 the tolerance does not save the border 128 units from the origin: there is a camera whose point at the left edge projects 1.46 thousandths of a pixel outside the image and is not found, although exact arithmetic finds it.", "quantifier": "every format, every order of evaluating the sums of products, every pinhole camera, pose, pixel, depth and displacement of the map point", "why_tests_cant": "rounding errors over all poses and summation orders; whether a border pixel is lost depends on single bits", "anchors": ["gradslam/structures/rgbdimages.py:RGBDImages._compute_vertex_map", "gradslam/structures/rgbdimages.py:RGBDImages._compute_global_vertex_map", "gradslam/geometry/projutils.py:inverse_intrinsics", "gradslam/geometry/projutils.py:project_points", "gradslam/slam/fusionutils.py:find_active_map_points", "gradslam/structures/pointclouds.py:Pointclouds.transform_"]}
{"id": "C94", "title": "What a SLAM step that raises leaves behind", "statement": "If step raises - in the odometry, because batch sizes do not match, because poses are missing, or in the map update - the global map passed in still holds exactly the clouds it held and every accessor reads as before, in place or not: always for ICPSLAM, and for PointFusion if the map's features are not three wide and the frame is channels-last (map in list form) or not three pixels wide; with features of width three, or channels-first frames of width three, the map has already been overwritten when the error is raised. The live frame keeps its images and intrinsics; its poses are its own, or those of the previous frame (assigned by localisation before it raised, so what the frame had is lost), or the newly computed ones (if the map update raised). A step that raised can be skipped: every later step gives the same error, or the same poses and a map with the same clouds, as without it.", "quantifier": "every map with any history, live frame, previous frame, odometry provider (including one that raises), thresholds, shapes and batch sizes, in place or not", "why_tests_cant": "must hold at every point at which the call can raise, for all maps and frames", "anchors": ["gradslam/slam/icpslam.py:ICPSLAM.step", "gradslam/slam/icpslam.py:ICPSLAM._localize", "gradslam/slam/icpslam.py:ICPSLAM._map", "gradslam/slam/pointfusion.py:PointFusion._map", "gradslam/slam/fusionutils.py:update_map_fusion", "gradslam/slam/fusionutils.py:update_map_aggregate", "gradslam/slam/fusionutils.py:fuse_with_map", "gradslam/structures/pointclouds.py:Pointclouds.append_points"]}
{"id": "C95", "title": "Registration converges to the true motion", "statement": "If a rigid motion T* brings every source point next to a target point (up to (1+rho) eta, eta <= g/64) and onto the plane through it up to a measurement error of (1+rho) sigma, the target points are separated, the normals of length at most one and the placed points determine the motion (a twist of length x moves them along their normals by at least g(1+rho)x in the root mean square), then point_to_plane_ICP started at a rigid motion within c of T* (c small against g^2 and the separation), with small damping, returns after n iterations a motion that agrees with T* on every point p of space up to 2 max(2c (g/8)^n, F) (1 + |T* p|), and pairs every source point with that target point; F is a floor proportional to sigma / g^2 and to n times the square of the small-angle cut-off of se3_exp. point_to_plane_gradICP does the same at rate 1 - w + g/8, with w its smallest step weight. Both odometry providers return, for every batch element whose true motion is within c of the identity, a motion within that bound.", "quantifier": "every source and target cloud, normals, nearest-neighbour rule, true motion, initial motion within the basin, number of iterations, damping below the bound, threshold not below the squared separation, batch size", "why_tests_cant": "a convergence rate for all clouds and all initial motions in a neighbourhood; a test runs one registration", "anchors": ["gradslam/odometry/icputils.py:point_to_plane_ICP", "gradslam/odometry/icputils.py:point_to_plane_gradICP", "gradslam/odometry/icputils.py:gauss_newton_solve", "gradslam/odometry/icputils.py:solve_linear_system", "gradslam/geometry/se3utils.py:se3_exp", "gradslam/odometry/icp.py:ICPOdometryProvider.provide", "gradslam/odometry/gradicp.py:GradICPOdometryProvider.provide"]}
{"id": "C96", "title": "Accuracy of the pose recovered for the second frame", "statement": "If the second frame of every sequence of a batch, taken from a rigid pose P* within c of the first pose, shows the surface the first frame has measured - every measured grid pixel of it sees a point next to a point of the first frame and on the plane through it, up to a measurement error; the grid points of the first frame are separated and those hit determine the motion - then ICPSLAM and PointFusion with 'icp' or 'gradicp' odometry return the first pose for the first frame and, for the second, a pose that agrees with P* on every point of space up to 2 max(2c q^n, F) (1 + |P* p|): q = g/8 (icp) or 1 - w + g/8 (gradicp), n iterations, F the floor set by the measurement error and the small-angle cut-off. On sequences of two frames forward does not raise.", "quantifier": "every batch of sequences, images, intrinsics, first and true poses, nearest-neighbour rule, map update, sampling ratio, and number of iterations within the basin", "why_tests_cant": "an error bound for every scene, motion and noise in a neighbourhood; a test runs one sequence", "anchors": ["gradslam/slam/icpslam.py:ICPSLAM.forward", "gradslam/slam/icpslam.py:ICPSLAM.step", "gradslam/slam/icpslam.py:ICPSLAM._localize", "gradslam/odometry/icp.py:ICPOdometryProvider.provide", "gradslam/odometry/gradicp.py:GradICPOdometryProvider.provide", "gradslam/odometry/icputils.py:downsample_rgbdimages", "gradslam/odometry/icputils.py:downsample_pointclouds", "gradslam/structures/rgbdimages.py:RGBDImages.vertex_map", "gradslam/structures/rgbdimages.py:RGBDImages.normal_map"]}
{"id": "C97", "title": "The order in which points are listed does not matter", "statement": "Point clouds are sets: (1) listing the source points in any order and the target points with their normals in any order changes neither whether point_to_plane_ICP or point_to_plane_gradICP raises nor the transform it returns, as long as no source point is, during the registration, equally near to targets with different tangent planes (so always if targets on different planes are two matching radii apart); with such a tie it can turn the result round. (2) The ICP odometry providers therefore do not depend on the order of the map's points. (3) Two global maps that list the same points (with normals, colours and confidences) in different orders and are then fed the same frames with step, any number of them, give the same poses or the same exception, and maps that again list the same points, in orders related by the same permutation: without conditions for ICPSLAM(odom='gt'); for PointFusion if no pixel has two candidates with equal confidence and equal distance (with such a tie the pixel is merged into whichever is listed first), and with an order-free odometry otherwise.", "quantifier": "every pair of clouds and permutation of each, initial transform, damping, threshold and number of iterations; every pair of reachable maps that are permutations of one another, every sequence of frames, map update and odometry", "why_tests_cant": "a statement about all permutations of all clouds and about every further step from the permuted map; a test permutes one cloud once", "anchors": ["gradslam/odometry/icputils.py:point_to_plane_ICP", "gradslam/odometry/icputils.py:point_to_plane_gradICP", "gradslam/odometry/icputils.py:downsample_pointclouds", "gradslam/odometry/icp.py:ICPOdometryProvider.provide", "gradslam/odometry/gradicp.py:GradICPOdometryProvider.provide", "gradslam/slam/icpslam.py:ICPSLAM.step", "gradslam/slam/fusionutils.py:find_best_unique_correspondences", "gradslam/slam/fusionutils.py:update_map_fusion", "gradslam/slam/fusionutils.py:update_map_aggregate"]}
{"id": "C98", "title": "Map updates write into no existing tensor, and the map they return is the caller's own", "statement": "In every program that uses Pointclouds together with update_map_aggregate, update_map_fusion, step and forward, and that may write into any tensor it holds at any moment: (1) no map update writes into an existing tensor, whether it succeeds or raises: tensors taken from the map before the update keep their contents, and other Pointclouds that share memory with the map keep their value; (2) with inplace=True the object that was given is returned; with inplace=False a new object on the same device that shares no tensor with the map that was given, with any other object or with anything the caller holds, and that stays independent of them through any further history (although the given map has been merged into, C50); (3) outcome, map, poses and live frame are those of the value model at the values the map has at the moment of the call, exceptions included, so a program that writes into no tensor behaves as the value model says; (4) forward returns a new map on the SLAM object's device that shares memory with nothing, and raises exactly when the value model does, with the same exception.", "quantifier": "every program (sequence of constructor calls, methods, setters, map updates, SLAM steps, forward calls and writes of the caller into tensors it holds), every frame, odometry and option of the SLAM object", "why_tests_cant": "sharing of memory shows only in some later write; the property ranges over every earlier and later history of calls and writes", "anchors": ["gradslam/slam/fusionutils.py:update_map_fusion", "gradslam/slam/fusionutils.py:fuse_with_map", "gradslam/slam/fusionutils.py:update_map_aggregate", "gradslam/slam/icpslam.py:ICPSLAM.step", "gradslam/slam/icpslam.py:ICPSLAM.forward", "gradslam/slam/pointfusion.py:PointFusion._map", "gradslam/structures/pointclouds.py:Pointclouds.clone", "gradslam/structures/pointclouds.py:Pointclouds.append_points"]}
{"id": "C99", "title": "SLAM writes into no tensor of a frame; the poses step returns are the live frame's own tensor", "statement": "In every program that uses RGBDImages and SLAM objects and that may write into any tensor it holds at any moment: (1) step and forward write into no existing tensor, step also when it raises: tensors the caller holds, the batch of frames, the previous frame and every other frame keep their contents, however much memory they share with the live frame; (2) the poses step returns are the very tensor live_frame.poses refers to afterwards: with odometry a new tensor that no other object and nobody else refers to, without odometry (ground truth, or no previous frame) the tensor the live frame had before the call, which for a frame sliced from a batch is a part of the poses of the batch; (3) after a successful step the live frame refers to tensors it referred to before and to new ones only, so frames that share no memory stay independent through any further history; after an exception it may be left referring to the poses of the previous frame, so that a write into the one changes the other; (4) exceptions, map, poses and live frame are those of the value model at the values the frames have at the moment of the call, if the poses of the previous frame are on the live frame's device; (5) forward returns poses in a new tensor on the SLAM object's device that shares memory with nothing, and its outcome is that of the value model whatever device the frames are on.", "quantifier": "every program (sequence of constructor calls, getters, setters, copies, indexing, SLAM steps, forward calls and writes of the caller into tensors it holds), every map, odometry and option of the SLAM object", "why_tests_cant": "sharing of memory shows only in some later write; the property ranges over every earlier and later history of calls and writes", "anchors": ["gradslam/slam/icpslam.py:ICPSLAM.step", "gradslam/slam/icpslam.py:ICPSLAM._localize", "gradslam/slam/icpslam.py:ICPSLAM.forward", "gradslam/slam/icpslam.py:ICPSLAM._map", "gradslam/slam/pointfusion.py:PointFusion._map", "gradslam/structures/rgbdimages.py:RGBDImages.poses", "gradslam/structures/rgbdimages.py:RGBDImages.__getitem__", "gradslam/structures/utils.py:pointclouds_from_rgbdimages"]}
{"id": "C100", "title": "Rounding drift of the poses over a sequence is bounded, linear in the number of frames; nothing re-normalises it", "statement": "With an odometry provider the pose of a frame is the transform found for it composed with the pose before, in floating point, without re-normalisation. (1) In every format with unit roundoff u, if the transforms are orthonormal up to rho, then after k frames each camera axis is off the exactly composed one by at most (1+1.5rho+5.4u)^k-(1+1.5rho)^k, the rotation part is orthonormal up to (1+rho0)(1+3rho+11u)^k-1, and the position is off by at most k(1+1.5rho+6.5u)^k(6.5L+a)u, where L bounds the exact positions and a the translations. (2) In float32 over 1000 frames with transforms orthonormal up to 5e-7: axes within 3.3e-4, orthonormal up to 0.0023, position within 0.004 for a camera within 10 units of the origin that moves by at most one unit per frame. (3) In float64 a million frames keep the pose orthonormal up to 1e-8, so projecting a frame's own point still gives its own pixel (C93). (4) Nothing re-normalises: however small the defect of the transforms, a long enough sequence exceeds every bound.", "quantifier": "every sequence of transforms orthonormal up to rho, every number of frames, every rounding format and every order of the additions in the products", "why_tests_cant": "a test shows the drift of one sequence; the bound ranges over all transforms, lengths and roundings", "anchors": ["gradslam/slam/icpslam.py:ICPSLAM._localize", "gradslam/slam/icpslam.py:ICPSLAM.forward"]}
{"id": "C101", "title": "A bad depth value (NaN, infinite) stays local: it reaches only its own vertex and the normals next to it; NaN gives no point of its own but is never merged away once in the map, infinity enters the map", "statement": "For every arithmetic with an absorbing NaN (comparisons with it false) and every frame: (1) changing the depth of one pixel changes the vertex (local and global) of that pixel only and the normals of that pixel and of the pixels whose difference uses it (left and upper neighbour, and by the border rule the last row and column); all other points of the cloud are the same. (2) A pixel with NaN depth is not valid, so it gives no point; its vertex is nevertheless NaN, not zero (0 times NaN), and the normals next to it are NaN although their pixels are valid and give map points. (3) A map point with a NaN position, or with a NaN normal, or a frame pixel with one, is never matched: it is not merged, the pixel is appended, the map point stays as it is, so each fusion of such a frame makes the map grow. (4) An infinite depth passes the test for a missing depth, and its point enters the map with coordinates that are not finite.", "quantifier": "every frame and pixel, every map, every arithmetic with rounding, overflow, infinities and NaN", "why_tests_cant": "a test sets one pixel to NaN; locality and the fate in the map quantify over all frames, positions, maps and numbers", "anchors": ["gradslam/structures/rgbdimages.py:RGBDImages._compute_vertex_map", "gradslam/structures/rgbdimages.py:RGBDImages._compute_normal_map", "gradslam/structures/rgbdimages.py:RGBDImages.valid_depth_mask", "gradslam/structures/utils.py:pointclouds_from_rgbdimages", "gradslam/slam/fusionutils.py:find_similar_map_points", "gradslam/slam/fusionutils.py:fuse_with_map"]}
{"id": "C102", "title": "A NaN among the matched points: ICP silently returns the initial transform, gradICP returns NaN and every later pose and point is NaN", "statement": "If in some pairing of the current source points the residual or the normal or the target involves a NaN, then (1) the error is NaN and the comparison with the error of the trial step is false, so point_to_plane_ICP rejects every step: it returns exactly the initial transform without any sign of failure (or the solver raises); (2) point_to_plane_gradICP multiplies by a gate that is NaN: its result has NaN in the whole upper 3x4 part; (3) composing with such a transform gives again such a pose, so the poses of all later frames are NaN, and all points of the map taken with them.", "quantifier": "every cloud, every nearest-neighbour search and solver, every number of iterations and damping, every later sequence of transforms, every arithmetic with an absorbing NaN", "why_tests_cant": "one run with one NaN does not show that all steps are rejected, or that no later input repairs the pose", "anchors": ["gradslam/odometry/icputils.py:gauss_newton_solve", "gradslam/odometry/icputils.py:point_to_plane_ICP", "gradslam/odometry/icputils.py:point_to_plane_gradICP", "gradslam/geometry/se3utils.py:se3_exp", "gradslam/slam/icpslam.py:ICPSLAM._localize"]}
{"id": "C103", "title": "Using a dataset object over time: items are repeatable and independent, except that all TUM/ICL items share one intrinsics tensor; a for loop over Scannet ends silently at a short scene", "statement": "For every program that asks a TUM, ICL or Scannet dataset for items (any index, in any order, any number of times, failed requests included) and overwrites entries of items it got in place: (1) as long as it has not written into an intrinsics entry, dataset[idx] returns exactly the values it returned when the dataset was new; for Scannet this holds unconditionally. (2) Asking for items never changes items already there; writing to one entry changes that entry and no entry of any item other than that one, except that (3) in TUM and ICL the intrinsics entry of every item is the dataset's own tensor: overwriting it through one item changes it in every item got before and every item got later. (4) dataset[-k] is dataset[len-k]; indices outside -len..len-1 raise IndexError. (5) for item in dataset sees dataset[0], dataset[1], ... up to the first index that raises IndexError: exactly len(dataset) items in order when all load; for Scannet a scene with fewer frames than dataset.seqlen (possible in full-sequence mode, where seqlen is the length of the last scene) ends the loop silently and the scenes after it are never seen.", "quantifier": "every dataset of each kind, every choice of options, every history of requests and in-place writes, every index", "why_tests_cant": "repeatability and isolation quantify over all histories of requests and writes; the silent end of the loop depends on the lengths of all scenes", "anchors": ["gradslam/datasets/tum.py:TUM.__getitem__", "gradslam/datasets/icl.py:ICL.__getitem__", "gradslam/datasets/scannet.py:Scannet.__getitem__", "gradslam/datasets/scannet.py:Scannet.__init__", "gradslam/datasets/scannet.py:Scannet.__len__"]}
{"id": "C104", "title": "RGBDImages: the constructor accepts exactly the documented shapes, and the shapes stay documented whatever is called afterwards", "statement": "For rgb, depth, intrinsics, poses and pixel positions of any rank and sizes, RGBDImages(...) succeeds exactly when rgb is (B,L,H,W,3) or (B,L,3,H,W) as channels_first says, depth the same with 1 channel, intrinsics (B,1,4,4), poses absent or (B,L,4,4) and pixel_pos absent or (B,L,H,W,3), for one B, L, H, W; otherwise it raises ValueError. After any sequence of calls - reading maps, assigning images, intrinsics or poses of any shape, in-place and copying layout changes, clone, indexing, including calls that raise - every object has tensors of the documented shapes for its own shape and channels_first. Only indexing changes B and L (to positive numbers), nothing changes H and W, and only the layout calls change channels_first.", "quantifier": "every list of argument shapes of any rank; every object reachable by any sequence of constructor, getter, setter, layout, clone and index calls, failing ones included", "why_tests_cant": "quantifies over all shapes of all ranks and over all call histories including the states left behind by failing calls", "anchors": ["gradslam/structures/rgbdimages.py:RGBDImages.__init__", "gradslam/structures/rgbdimages.py:RGBDImages.rgb_image", "gradslam/structures/rgbdimages.py:RGBDImages.depth_image", "gradslam/structures/rgbdimages.py:RGBDImages.intrinsics", "gradslam/structures/rgbdimages.py:RGBDImages.poses", "gradslam/structures/rgbdimages.py:RGBDImages.to_channels_first_", "gradslam/structures/rgbdimages.py:RGBDImages.to_channels_last_", "gradslam/structures/rgbdimages.py:RGBDImages.clone", "gradslam/structures/rgbdimages.py:RGBDImages.__getitem__"]}
{"id": "C105", "title": "Which dtypes work: float32 intrinsics and poses, any depth; float64 only without registration; byte colours break PointFusion at the second frame with a match", "statement": "For every choice of dtypes of the colours, depth, intrinsics, poses and pixel positions of a sequence, every length and whatever is found in the data: the maps of a frame can be computed exactly when the intrinsics have the dtype of the pixel positions (float32 unless the caller gave others), the promoted dtype v of intrinsics and depth is floating, and the poses have dtype v; otherwise RuntimeError. forward succeeds exactly when this holds (the identity used for missing poses is float32) and, for more than one frame: with registration odometry the intrinsics and v are float32; with PointFusion the intrinsics have dtype v, and the colours are at least as wide as v or at most one later frame had a match (a merge turns narrower colours into v, after which the next merge raises). On success points, normals and features have dtype v, colours their own dtype or, after a merge, the promoted one, and the returned poses are float32 even if float64 poses were given. Registration itself works on float64 clouds, the odometry providers raise on them. ICPSLAM steps on frames of different dtypes give a map of the promoted dtype of all frames, PointFusion maps take only frames of their own dtype.", "quantifier": "all combinations of dtypes, all sequence lengths, all outcomes of matching and of the accept/reject decisions of the registration", "why_tests_cant": "the failure depends on the history: byte colours work for two frames and for any number of frames without matches, and raise at the second frame with a match", "anchors": ["gradslam/slam/icpslam.py:ICPSLAM.forward", "gradslam/slam/icpslam.py:ICPSLAM._localize", "gradslam/slam/fusionutils.py:fuse_with_map", "gradslam/slam/fusionutils.py:find_active_map_points", "gradslam/slam/fusionutils.py:find_similar_map_points", "gradslam/structures/rgbdimages.py:RGBDImages._compute_vertex_map", "gradslam/structures/pointclouds.py:Pointclouds.append_points", "gradslam/odometry/icputils.py:point_to_plane_ICP", "gradslam/odometry/icputils.py:solve_linear_system", "gradslam/odometry/icp.py:ICPOdometryProvider.provide"]}
{"id": "C106", "title": "Back-propagation: gradients are the derivatives where the code is differentiable; they are finite everywhere except at points at infinity and at the identity quaternion", "statement": "For every sequence of torch operations used by the differentiable code, every input and every choice of gradients of the outputs: if every operation is differentiable at the values it meets, the backward pass gives each input the partial derivative of the weighted sum of the outputs; if every division, root and arc tangent is away from its singularity (masks, clamps and norms may be anywhere), all gradients are finite. For the functions of gradslam: project_points, the normal map, get_alpha, the merging of map points, so3_exp on both branches and the blending of gradICP have finite gradients at every input, and the derivative away from the switching points (third coordinate 0, parallel tangents, clamping bound, confidence 0, norm = eps, |error difference| = 70). Vertex maps have the derivative with respect to depth and intrinsics unless a focal length is -eps. unhomogenize_points has finite values for every w but finite gradients exactly when w is not 0: at w = 0 the gradient of w is NaN. quaternion_to_axisangle has finite values for every quaternion but finite gradients exactly when the vector part is not 0: at the identity all four gradients are NaN. When the errors before and after a gradICP step differ by more than 70 no gradient flows back to them.", "quantifier": "all operation sequences, all inputs, all gradients of the outputs; for the functions of gradslam all real inputs", "why_tests_cant": "the derivative must be right at every point, and the NaN gradients appear only at isolated inputs (w exactly 0, the identity rotation) where the values look fine", "anchors": ["gradslam/geometry/geometryutils.py:unhomogenize_points", "gradslam/geometry/geometryutils.py:quaternion_to_axisangle", "gradslam/geometry/projutils.py:unhomogenize_points", "gradslam/geometry/projutils.py:project_points", "gradslam/geometry/projutils.py:inverse_intrinsics", "gradslam/geometry/se3utils.py:so3_exp", "gradslam/structures/rgbdimages.py:RGBDImages._compute_normal_map", "gradslam/structures/rgbdimages.py:RGBDImages._compute_vertex_map", "gradslam/slam/fusionutils.py:get_alpha", "gradslam/slam/fusionutils.py:fuse_with_map", "gradslam/odometry/icputils.py:point_to_plane_gradICP"]}
{"id": "C107", "title": "Gradients of the linear solve of a registration step", "statement": "For every matrix A (any number of rows and columns, any rank), right-hand side b and damping > 0, solve_linear_system(A, b, damp) is differentiable, and for every gradient of the solution the backward pass computes exactly the partial derivatives with respect to every entry of A, every entry of b and the damping. More generally, along every differentiable path of the three arguments through a point with invertible normal matrix the weighted sum of the solution changes at the rate these gradients give (chain rule).", "quantifier": "all sizes, all matrices and right-hand sides, all positive dampings, all gradients of the solution, all differentiable paths", "why_tests_cant": "gradient checks compare finitely many inputs up to a tolerance; rank-deficient A (few correspondences) must work as well", "anchors": ["gradslam/odometry/icputils.py:solve_linear_system"]}
{"id": "C108", "title": "The point functions on tensors of any rank: which shapes they accept, the shape of the result, and which matrix is applied to which point", "statement": "project_points and unproject_points accept exactly tensors with at least two dimensions, points of 3/4 (2/3) coordinates, square matrices, and either one matrix or matrices with as many dimensions as the points, the same batch size and fitting leading dimensions (otherwise ValueError, or torch's RuntimeError when only inner leading dimensions fail to fit). The result has the joint leading shape and every output element is computed from its own point (and depth) and the matrix of its place; the documented shape (that of the points) results exactly when no leading dimension of size 1 of the points meets another size of the matrices. homogenize/unhomogenize/inverse_intrinsics work on any leading dimensions. transform_pts_3d transforms points only when they have four dimensions: for every other rank, the documented N x 3 included, it returns a tensor without elements. transform_pts_nd_KF pairs matrices and batch elements for (B,N,D), but for images (B,H,W,D) it is accepted only if B=H or one is 1 and applies matrix h to row h. cam2pixel, pixel2cam and cam2pixel_KF refuse the documented shapes. quaternion_to_rotation_matrix flattens the leading dimensions in row-major order.", "quantifier": "all tensors of all ranks and sizes (including 0 and 1), all values", "why_tests_cant": "infinitely many ranks and sizes; the broadcasting accidents (size 1, B = H) are easily missed by samples", "anchors": ["gradslam/geometry/projutils.py:homogenize_points, unhomogenize_points, project_points, unproject_points, inverse_intrinsics", "gradslam/geometry/geometryutils.py:transform_pts_3d, transform_pts_nd_KF, cam2pixel, pixel2cam, cam2pixel_KF, quaternion_to_rotation_matrix"]}
{"id": "C109", "title": "Confidence weights, distance tests, normal tests and pixel normalisation along any dimension of tensors of any rank", "statement": "get_alpha, are_points_close and are_normals_similar accept exactly tensors (of the same shape, for the tests) whose dimension dim has 3 elements, dim counted from either end; an out-of-range dim raises IndexError, another size or shape ValueError. At every index of the other dimensions the result is the confidence weight, the comparison of the Euclidean distance, or of the dot product, of the vectors read along dim; the shape is that of the input without dim (with size 1 in its place for keepdim). The result is the same as along the last dimension after moving dim there, does not depend on how dim is counted, and is symmetric in the two tensors. are_normals_similar warns exactly if some dot product exceeds 1.001, and raises RuntimeError on tensors without elements, where are_points_close answers. normalize_pixel_coords and unnormalize_pixel_coords act on the last dimension of any tensor and are inverse to each other for images of at least two rows and columns.", "quantifier": "all tensors of all ranks and sizes, all dims, all thresholds", "why_tests_cant": "infinitely many ranks, sizes and positions of the dimension; empty tensors and negative dims are easily missed", "anchors": ["gradslam/slam/fusionutils.py:get_alpha, are_points_close, are_normals_similar", "gradslam/geometry/geometryutils.py:normalize_pixel_coords, unnormalize_pixel_coords"]}
{"id": "C110", "title": "The functions on transformation matrices: which shapes they accept, and that batches raise", "statement": "inverse_transfom_3d accepts exactly single matrices with at least three rows and four columns (its guard never fires), compose_transforms_3d two of the same shape; transform_pointcloud and transform_normals accept exactly an (N, 3) cloud with one 4x4 matrix. On 4x4 matrices all of them compute what C21 and C22 say. Everything else raises, with the exception stated: TypeError for other ranks, AssertionError for different shapes, IndexError for fewer than four columns, RuntimeError for every batch of matrices, the documented (N, 4, 4) included, whatever N. Not refused: a 3x4 matrix, whose inverse gets the translation component 1, and larger matrices.", "quantifier": "all tensors of all ranks and sizes, all values", "why_tests_cant": "infinitely many shapes; the batch sizes 1 and 3 get past more of the steps than the others", "anchors": ["gradslam/geometry/geometryutils.py:inverse_transfom_3d, compose_transforms_3d, relative_transform_3d, transform_pointcloud, transform_normals"]}
{"id": "C111", "title": "What the registration functions do for every combination of argument types and tensor shapes", "statement": "For every combination of arguments, solve_linear_system, gauss_newton_solve, point_to_plane_ICP and point_to_plane_gradICP either answer or raise the stated exception. solve_linear_system answers (with positive damping) exactly for an (m, n) matrix, an (m, 1) right-hand side and a float or 0-dimensional damping - an int damping is a TypeError - and then solves the normal equations. gauss_newton_solve answers exactly for shapes (1, Ns, 3), (1, Nt, 3), (1, Nt, 3) and a threshold that is a number or None. The registrations, in order of precedence: wrong types TypeError; no initial transform AttributeError; initial transform not (4, 4) ValueError; (gradICP) lambda_max = 0 ZeroDivisionError; a scalar source or an empty batch IndexError; a source not of shape (B, N, 3) ValueError; numiters <= 0 UnboundLocalError, whatever the target is; threshold of the wrong type TypeError; target and normals not both (1, Nt, 3) ValueError; (gradICP) nu = 0 ZeroDivisionError; otherwise the registration of C54/C55. Several targets are refused, but of a batch of several sources all but the first cloud are silently ignored.", "quantifier": "all arguments: tensors of all ranks and sizes, numbers, None and other objects, in all positions; all numbers of iterations", "why_tests_cant": "the combinations of types and shapes in eleven argument positions are infinite, and the precedence of the checks matters", "anchors": ["gradslam/odometry/icputils.py:solve_linear_system, gauss_newton_solve, point_to_plane_ICP, point_to_plane_gradICP", "gradslam/geometry/geometryutils.py:transform_pointcloud"]}
{"id": "C112", "title": "Which inputs the maps and poses of a SLAM run receive gradients for", "statement": "For every run of SLAM steps the set of inputs each result is connected to in the autograd graph is known in closed form. Points and normals: depth, intrinsics (and pixel positions) of every frame, and the poses - all given poses with ground truth, only the first one with odometry. Colours: all colour images; with fusion also, from the first step on that matches any map point, depth and camera of the frames up to the last such step; never a pose. Confidence counts: depth and camera of every frame (fusion), nothing (aggregation). Poses: with ground truth the given ones; with odometry the first pose and, once a registration moves, depth and camera of all frames up to the last moving one - with gradICP every registration with an iteration moves, with ICP only one with an accepted iteration, so that a run of rejected ICP steps passes no gradient to any image. Colour images never reach geometry or poses; a frame's own pose is never reached when it is registered. Detaching both the map and the previous frame truncates the graph; detaching the map alone does not when poses are registered. What forward returns is connected accordingly.", "quantifier": "all sequences of frames with any connections of their tensors, all outcomes of matching and registration per step and batch element, both mappings, all three odometries, any starting map and previous frame", "why_tests_cant": "the graph depends on the whole history of matches and accepted steps; a missing connection shows only as a gradient that is None or zero", "anchors": ["gradslam/slam/icpslam.py:ICPSLAM.forward, step, _localize", "gradslam/slam/fusionutils.py:fuse_with_map, update_map_fusion, update_map_aggregate", "gradslam/odometry/icputils.py:point_to_plane_ICP, point_to_plane_gradICP", "gradslam/structures/rgbdimages.py:global_vertex_map, detach", "gradslam/structures/pointclouds.py:detach"]}
{"id": "C113", "title": "When the warnings of SLAM are given", "statement": "The warnings mean what they say. 'No active map points were found' is given for a map with points exactly if no map point lies in front of the camera and inside its image; nothing is said of an empty map. 'No similar map points were found (despite total n active points)' is given exactly if some point is in view but no pixel has a point in view within the distance and angle thresholds, and n is the number of points in view. The warnings of forward are, frame by frame, one about the search from the previous frame's pose (only with odometry and after the first frame) and those of the map update (only PointFusion, from the second frame on); those of a failing run are those of the frames before and of the search at the failing one. forward never says that prev_frame is missing or not used, the first frame is silent, ICPSLAM with ground truth is silent and otherwise says at most that nothing is in view, and 'Max of dot product > 1' is never said if the poses are rigid. step says that prev_frame is not used exactly with ground truth and a prev_frame, and that it is missing exactly with odometry, no prev_frame and a non-empty map.", "quantifier": "all maps in a reachable state, frames, poses, cameras, thresholds, sequences of any length, both classes, any odometry", "why_tests_cant": "which warning is given depends on all points, pixels and poses and on the whole run before; that one is never given cannot be tested", "anchors": ["gradslam/slam/fusionutils.py:find_active_map_points, find_similar_map_points, are_normals_similar", "gradslam/slam/icpslam.py:ICPSLAM.forward, step, _localize", "gradslam/slam/pointfusion.py:PointFusion._map"]}
{"id": "C114", "title": "Lookup tables written by the caller: negative, out-of-range and repeated entries", "statement": "The correspondence tables that find_similar_map_points, find_best_unique_correspondences and fuse_with_map accept may be any int64 table of four columns. Negative entries count from the end: batch index from the batch size, point index from the size of the longest cloud of the batch (not of the row's own cloud), row and column from the image size. An entry out of range raises IndexError and changes nothing. In fuse_with_map, of several rows for one map point only the last is merged into it (and adds its weight), while the pixels of the earlier ones are not appended either: their measurements are lost; all pixels with depth that no row names are appended; a row that denotes a place behind the end of its own cloud raises ValueError and changes nothing. Two tables that denote the same pairs, no point with two pixels, have the same effect: order, repetition and spelling of the rows do not matter. find_similar_map_points returns the caller's rows, gives all rows for one map point the verdict of the last one, and drops rows behind the end of their cloud. find_best_unique_correspondences compares the numbers as written: it returns one best row per spelling of a pixel, so a pixel spelled in two ways (h and h - H) is returned twice and the result is not one-to-one.", "quantifier": "all maps in a reachable state, frames, tables of any length with any entries, weights, thresholds", "why_tests_cant": "the meaning of an entry depends on the sizes of all clouds of the batch, and of a row on all rows after it", "anchors": ["gradslam/slam/fusionutils.py:fuse_with_map, find_similar_map_points, find_best_unique_correspondences"]}
{"id": "C115", "title": "downsample_pointclouds on lookup tables written by the caller", "statement": "downsample_pointclouds accepts any int64 table of four columns, but reads it differently from the functions of fusionutils: the batch index is compared with 0, 1, ..., B-1, so a row with a negative or too large batch index is silently ignored; the point index is applied to the row's own cloud, so -1 is that cloud's last point and an entry outside [-n, n) of its own size n raises IndexError even if a longer cloud has such a point; row and column are used only for divisibility by ds_ratio, whatever their sign or size. Rows off the grid are never looked up. The result holds for each cloud exactly the points its rows denote, in the order of the table and as often as listed, with their normals and colours and without features; the input map is unchanged, also after an error. A ratio of 0 raises RuntimeError.", "quantifier": "all maps in a reachable state, tables of any length with any entries, all ratios", "why_tests_cant": "the meaning of an entry depends on the size of its cloud and the ratio; the statement ranges over all tables", "anchors": ["gradslam/odometry/icputils.py:downsample_pointclouds"]}
{"id": "C116", "title": "The map functions on arguments of any type, and what is looked at when the map or the table is empty", "statement": "For every combination of arguments: find_active_map_points, find_similar_map_points, fuse_with_map and update_map_aggregate raise TypeError if the map is no Pointclouds, the frame no RGBDImages or (second and third) the table no int64 tensor, whatever the other arguments are; a table that has not exactly two dimensions and four columns raises ValueError even if the map is empty. find_similar_map_points and find_best_unique_correspondences return an empty result, without looking at entries, batch sizes, attributes or the types of the thresholds, if the map has no points or the table no rows; otherwise other batch sizes or missing normals (features) raise ValueError, then an entry out of range IndexError, then a threshold that is no number TypeError, else they succeed. find_best_unique_correspondences does not test the type of the frame: a tensor or array of shape (_, 1, ...) is silently accepted in the empty case and otherwise the call raises AttributeError, IndexError or ValueError. fuse_with_map into a map without points ignores the rows of the table altogether; a map with points but without normals, colours or features raises ValueError. No call that raises changes the map.", "quantifier": "all maps in a reachable state, frames, and arguments of every type, dtype and shape", "why_tests_cant": "the outcome depends on the combination of five arguments and on the contents of the map; the statement ranges over all of them", "anchors": ["gradslam/slam/fusionutils.py:find_active_map_points, find_similar_map_points, find_best_unique_correspondences, fuse_with_map, update_map_aggregate"]}
{"id": "C117", "title": "Which parameters of a SLAM object matter, and when a bad one is noticed", "statement": "The constructors of ICPSLAM and PointFusion check the name of the odometry method only. The first frame (a step without previous frame, or a sequence of at most one frame) is processed identically - same map, poses, errors - whatever the odometry method, downsampling ratio, number of iterations, damping and other registration parameters are. With ground-truth odometry none of these parameters and no previous frame ever matters. With odom='icp' lambda_max, B, B2 and nu never matter. The pose a step finds for a frame does not depend on the class of the object, dist_th, angle_th or sigma. A downsampling ratio or a number of iterations that is zero or negative is accepted by the constructor and the first frame, but then every step with a previous frame and every sequence of two or more frames raises (unless odometry is ground truth).", "quantifier": "all parameter values, maps, frames and sequences of any length, inputs of any validity", "why_tests_cant": "the statements compare two runs with arbitrary different parameters, on all inputs", "anchors": ["gradslam/slam/icpslam.py:ICPSLAM.__init__, forward, step, _localize", "gradslam/slam/pointfusion.py:PointFusion", "gradslam/odometry/icputils.py:downsample_rgbdimages, point_to_plane_ICP, point_to_plane_gradICP"]}
{"id": "C118", "title": "SLAM steps, providers and downsampling on arguments of any type", "statement": "step raises TypeError, changing neither the map nor the live frame, whenever the live frame is no RGBDImages, the map no Pointclouds, or the previous frame neither None nor RGBDImages - also for objects that would not use the previous frame (ground truth). forward raises TypeError for anything but RGBDImages. A downsampling ratio that is no int has no effect on steps without previous frame, sequences of at most one frame, and with ground truth; with a provider and a previous frame step raises ValueError (nothing changed) if that frame has no poses or they do not fit, else TypeError, and by then the poses of the live frame have been replaced by those of the previous frame; every sequence of two or more frames raises. The ICP and GradICP providers raise TypeError for arguments that are no Pointclouds; a number of iterations that is no int is noticed only after missing normals and other batch sizes (ValueError) and then always raises TypeError. The ground-truth provider raises TypeError for anything but RGBDImages. downsample_pointclouds raises TypeError for wrong types before it looks at shapes, and ValueError for a table that has not exactly two dimensions and four columns even if it has no rows.", "quantifier": "all SLAM objects, maps, frames, sequences of any length, and arguments of every type (and int64 tables of every shape)", "why_tests_cant": "the outcome depends on the combination of the types and on the state of all the other arguments", "anchors": ["gradslam/slam/icpslam.py:ICPSLAM.step, forward, _localize", "gradslam/odometry/icp.py:ICPOdometryProvider.provide", "gradslam/odometry/gradicp.py:GradICPOdometryProvider.provide", "gradslam/odometry/groundtruth.py:GroundTruthOdometryProvider.provide", "gradslam/odometry/icputils.py:downsample_pointclouds, downsample_rgbdimages"]}
{"id": "C119", "title": "PointFusion with thresholds or a sigma of any type", "statement": "The constructor of PointFusion raises ValueError for an unknown odometry name whatever the thresholds are, then TypeError for a distance or angle threshold that is no number, and otherwise makes the object, whatever the values of the thresholds. sigma is not looked at: an object whose sigma is no scalar (a tensor with dimensions, or no number at all) is made, but then every step raises - the first one too, with every odometry, frame and map - and the map keeps its contents. A step that would have succeeded with some scalar sigma raises TypeError (ValueError for a tensor with dimensions), and by then the live frame has the poses and caches that the successful step would have left.", "quantifier": "all objects, maps with any history, frames, previous frames, and values and types of the parameters", "why_tests_cant": "failure of every step and preservation of the map are statements about all inputs", "anchors": ["gradslam/slam/pointfusion.py:PointFusion.__init__, _map", "gradslam/slam/fusionutils.py:get_alpha, fuse_with_map, update_map_fusion", "gradslam/slam/icpslam.py:ICPSLAM.step"]}

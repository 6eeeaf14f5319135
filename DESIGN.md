# Formal model of gradslam in Lean 4 — design

## Method
* The Python source in `/repo` is read as text and transcribed, function by function, into total Lean
  functions (`lean/Verif/<Area>/Model*.lean`).  Every definition cites the file and lines it models.  Python
  exceptions are values (`Except Err`), in-place mutation is a function returning the new state *plus* the
  exception if one is raised (so partial effects of a failing call stay visible), `for` loops become folds or
  structural recursion, lazily filled caches are optional fields of the state.
* Each property of `properties.jsonl` has theorems stated against a small separate specification
  (`Spec.lean`, or the definitions in the section headed "specification" of the module), not against the
  model's helpers.  Beside them stand `example`s or `*_witness` / `*_hypotheses` / `*_example` theorems
  that a concrete non-trivial case meets the hypotheses (evaluated by the kernel with `decide +kernel`).
* Where the code violates the English property the negation is proved with a concrete witness, and what does
  hold is proved under the weakest guard we found (suffix `_partial`).
* `tools/claims.py` is the source of `MANIFEST.json` (written by `tools/mkmanifest.py`);
  `tools/mutate.py` + `tools/mutants/*.py` run the seeded bugs whose outcomes are in `seeded/LOG.jsonl`.

## Trusted base
* Lean 4.33.0's kernel; axioms `propext`, `Classical.choice`, `Quot.sound` only; no axioms of our own, no
  compiled evaluation.
* The faithfulness of the transcription of Python / torch semantics (each definition cites its lines).
* **Numbers.** Torch floats are an exact ordered field (any field `K`; `ℚ` in examples; `ℝ` where exp, sin, cos,
  sqrt occur).  Rounding, overflow, NaN and infinities are not modelled; the exceptions are C57, which is
  about rounding integers to float32 (round to nearest even, 24 bit significand, no overflow), and C90, in which
  every operation of `fuse_with_map` is rounded (any format of `Flt/Format`, unbounded exponent: no overflow,
  underflow, infinities or NaN).
* **Tensors** are lists of rows or index functions with explicit sizes.  dtype rules are modelled in `Dtype/*` (C105) only; autograd in
  `Grad/*` (C106, the backward pass of scalar operations) and `Track/*` (C112, which inputs results are connected to) only; devices and the sharing of storage are modelled for `Pointclouds` (`Mem/*`, C81, C82), the map updates and SLAM steps on them (C98) and `RGBDImages` (`RMem/*`, C83, C84), where the value model
  used everywhere else is shown to be what a program without writes into tensors sees.  Elsewhere aliasing is modelled where
  a property is about it: in-place methods (C29, C39, C50), config nodes (C02).  Outside `Mem/*` the argument of
  `append_points` is an object other than `self`.
* **External code is a parameter** of the model with the stated assumption:
  `ast.literal_eval` (arbitrary function), `yaml`, `cv2.resize`, `imageio.imread` and file reads (their results are inputs),
  `chamferdist.knn_points` (any function returning a nearest neighbour, `NearestIn`; `bruteNN` is an instance),
  `kornia.geometry.linalg.compose_transformations / inverse_transformation` (their documented formulas),
  `torch.inverse` (any solver satisfying the inverse equation), `torch.norm`/`sqrt` (a function satisfying
  `IsNorm`, instantiated with the real square root).

## Properties, models and proofs
| modules | properties | what is modelled | proof technique |
|---|---|---|---|
| `Cfg/{Model,Lemmas,Props,Values}` | C01–C06 | `CfgNode` (`config/cfgnode.py`) as mutually inductive trees; merge, decode, coerce, freeze, renames/deprecations, list overrides, dict conversion; exceptions and partial effects | mutual structural induction, induction on override lists and histories |
| `Data/{Window,SeqProps}` | C07, C08, C11, C12 | window arithmetic and per-sequence bookkeeping of `datasets/{tum,icl,scannet}.py` | arithmetic over ℕ, list induction |
| `Data/{Assoc,Files,FilesProps}` | C09, C10, C59, C61, C62 | `datasets/tumutils.py`: text parsing into stamped lines, greedy association | list induction over the sorted candidate list |
| `Data/{Images,ImagesProps,Quat}` | C13–C16, C58, C60 | `datasets/datautils.py`, `scannet.py` label tables, pose records | finite tables lifted to all images, ring identities |
| `Geom/{Model,ModelReal,Props,PropsReal,AxisAngle,SmallAngle}` | C17–C24, C64 | `geometry/{geometryutils,projutils,se3utils}.py` on generic-length rows / 3- and 4-matrices | `ring`, `field_simp`, real trigonometry |
| `PC/*` (namespace `Pcs`) | C25–C33 | `structures/{pointclouds,structutils}.py`: record of optional list / padded tensors, mask, sizes, flags; every getter, setter, method a state transformer | representation invariant `Inv`, refinement to a list of clouds (`Obs`), induction on histories |
| `Rgbd/*` | C43–C46 | `structures/{rgbdimages,utils}.py`: frame tensors as index functions, five caches | cache invariant `Rep`, induction on histories (`Hist`) |
| `Fusion/*` | C34–C42, C57 | `slam/fusionutils.py`: correspondence tables as row lists, scatter/gather by index, float32 round trip | list lemmas (filter, sort, nodup), refinement to the PC specification, counting |
| `Icp/*` | C52–C56, C63 | `odometry/*.py`: Gauss–Newton rows, damped normal equations, LM and gradLM loops, down-sampling, providers | algebra, invariants by induction on iterations |
| `Data/{Item,ItemProps,ItemSets,ItemWitness}` | C67 | `__getitem__` of the three datasets; `cv2.resize`, image decoding and matrix inversion are parameters | unfolding the loading loop (`imageSeq_ok`), specifications per modality |
| `Data/{Batch,BatchSets}` | C68 | collation of items and construction of `RGBDImages` as in `examples/*.py` | composition of C67 with C43 (`vertex_maps_spec`) |
| `Cfg/Print` | C70 | `CfgNode.__str__` with `_indent` | unique decodability of the lines, by induction over blocks; paths by induction on path and size |
| `Cfg/{Load,LoadWitness}` | C71 | `load_cfg`, `_load_cfg_*`, `merge_from_file`, `dump`, `os.path.splitext` | composition with C04/C06; YAML as a contract |
| `Slam/{EndToEnd,EndToEndSets}` | C69 | `examples/icpslam.py` (ground-truth odometry): dataset items, `RGBDImages`, `ICPSLAM.forward` | composition of C67/C68 with `gt_returns_given_poses` (C47) and `icpslam_returns_all_pixels` (C48) |
| `Geom/{Clouds,Exponential}` | C18, C24 | no new model; whole clouds of points, Mathlib's matrix exponential | ODE uniqueness: `exp(-tX) f(t)` is constant |
| `Slam/{Moved,Batch,BatchWitness}` | C65, C66 | two runs side by side: a batch and a selection of it, a sequence and the same sequence in another world frame | simulation relation `Moved` between the two maps, preserved by every part of a step; induction on frames |
| `Slam/Thresholds` | C72 | no new model: `PointFusion` with its constructor arguments | last step of a run (`last_step`), cosines and angles of vectors over ℝ |
| `Slam/Static`, `StaticPose`, `StaticProps`, `StaticWitness` | C73, C74 | no new model: sequences of equal frames | invariant of the run: poses stay, the map is a known function of the first frame (`StillMap`); a registration of a cloud onto a superset has error 0 and both solvers stay at the identity |
| `PC/Export` | C75 | `Pointclouds.open3d`, `.plotly` up to the arrays handed to the libraries; `torch.randperm` is a parameter | observation lemma of the class invariant (`inv_obs`) for each read; selection = prefix of a permutation |
| `Rgbd/Show` | C76 | `RGBDImages.plotly` (frames), `numpy_to_plotly_image`, `img_to_b64str` up to the arrays given to `cv2.imencode` | representation invariant of the object; floor of a logarithm |
| `Icp/Smooth*` | C77 | gradICP and ICP as functions of their inputs (model of C53-C55) | `ContDiffAt` of every ingredient; eventually constant discrete decisions; induction over iterations |
| `Slam/Smooth*` | C78 | `forward` of ICPSLAM/PointFusion as a function of colours, depths, intrinsics, poses (model of C46-C52) | stable decisions: candidates, pixels and sizes are eventually constant; then smoothness of weighted means; induction over frames |
| `Slam/Sigma` | C119 | sigma as a sum of scalars, tensors and other objects; `get_alpha` raises after the checks of `fuse_with_map` | step unfolded next to the step with a scalar sigma; the map is kept by the lemmas of `Slam/Raise` |
| `Slam/Args` | C118 | arguments of any type as sums; a ratio that is no int raises inside `downsample_rgbdimages`, after the assignment of the poses | cases on the types; induction over the frames for sequences |
| `Slam/ParamUse` | C117 | two runs of SLAM objects with different parameters | both runs are unfolded side by side; induction over the frames; failing registrations by cases |
| `Fusion/Args` | C116 | checks of the map functions on arguments of any type | the model repeats the checks in the order of the code; outcome theorems over the abstract contents of the map, using C114 |
| `Icp/DownTable` | C115 | `downsample_pointclouds` on int64 tables | refinement: with natural entries the function of C56; every attribute collected per cloud from the denoted rows |
| `Fusion/Table, Table2` | C114 | the three functions on int64 tables: resolution of negative entries, raw keys | refinement: resolved tables are those of C35-C37 without the uniqueness hypothesis; the padded setter refuses non-zero padding; sorting as for C36 with integer keys |
| `Warn/Model, Props, Runs, Witness` | C113 | the warnings of find_active/find_similar/are_normals_similar, `_localize`, `step`, `forward`, on the models of C34, C35, C47-C51 | refinement: the list of warnings of `forward` is that of the abstract run; induction on frames |
| `Track/Model, Props, Runs` | C112 | the operations from images to map and poses, keeping of each tensor the set of inputs it is connected to | induction on the steps with an invariant (pose ⊆ points = normals), and on registration iterations |
| `IcpRaw/Model, Props, Table, Grad` | C111 | the four functions of `icputils.py` on Python values of any type and tensors of any shape, all checks in order, on top of `Icp/Model` | case analysis in the order of the checks; the loop on well-shaped arguments is that of `Icp/Model` (induction on the iterations) |
| `Axis/Mats*` | C110 | slicing, `matmul` with vector or matrix arguments, assignment to slices; `inverse_transfom_3d`, `compose_transforms_3d`, `relative_transform_3d`, `transform_pointcloud`, `transform_normals` line by line on tensors of any shape | case analysis over ranks and sizes; element-wise evaluation of the packed result |
| `Axis/Model, Props, Laws` | C109 | `get_alpha`, `are_points_close`, `are_normals_similar` along any `dim`, `(un)normalize_pixel_coords`, on the n-dimensional tensors of `Nd` | place of a dimension from either end; lists split at that place; case analysis of the checks |
| `Nd/*` | C108 | n-dimensional tensors with torch's broadcasting, `matmul`, `unsqueeze`, `squeeze`, `pad`, `stack`, and the point functions of projutils.py and geometryutils.py on them line by line | induction over shapes: broadcasting of fitting shapes, of shapes expanded by ones, reading a broadcast tensor; case analysis of the checks |
| `Grad/Solve` | C107 | `solve_linear_system` and its backward pass on matrices of any size | entrywise derivatives of products and inverses (determinants and adjugates are polynomials, M M⁻¹ = 1 near the point), adjoints of matrix products under the entrywise inner product |
| `Grad/*` | C106 | the tape of torch autograd on scalars with NaN and infinities: forward pass, backward pass with torch's formulas, the operation sequences of nine functions of gradslam | induction over the tape along differentiable paths (chain rule); induction for finiteness; the sequences are proved to compute the models of `Geom`, `Fusion`, `Icp`; singular points by evaluation |
| `Dtype/*` | C105 | the dtypes of all tensors from the images to map, poses and registration: every operation of the pipeline on dtypes | evaluation of each operation under the stated condition and its failure otherwise; induction over the frames with the invariant that points, normals and features have one dtype and the colours one of two |
| `Rgbd/Shapes`, `ShapesW` | C104 | the constructor's rank and shape checks on shape lists of any rank; every object reachable by calls, failing ones included | case analysis on the checks against a specification of the documented shapes; induction over the history with the invariant that the remembered shapes are the shapes of the stored images |
| `Data/Access`, `AccessMem`, `AccessProps`, `AccessIter` | C103 | `__getitem__` with Python indices and with which entries are new tensors; memory of a dataset and its items; `for item in dataset` | refinement: memory with cells refines items-as-values plus one shared tensor (invariant: cells other than 0 belong to one entry); the values are those of C67; induction over programs and over the loop |
| `Nan/Register` | C102 | the two Levenberg–Marquardt loops, `se3_exp`, composition, over an arithmetic without laws; `Link`: over ℝ these are the loops of C61/C62 | NaN reaches the error through `sum`; induction on the iterations resp. on the frames |
| `Nan/Model`, `Local`, `Link`, `Float` | C101 | vertex and normal maps, valid mask, cloud, association and fusion over an arithmetic without laws (`Ar`), instance with NaN and infinities (`ieee`) | only absorption of NaN (`Strict`); locality by unfolding the stencils; `Link` ties the definitions to `Rgbd` and `Fusion` |
| `Flt/Pose`, `PoseDrift`, `PoseCase` | C100 | `_localize`'s `compose_transformations` over the loop of `forward`, rounded (relation `ComposeF`, any order of additions); exact case is the chain of C48 | near-isometry of nearly orthogonal matrices, error recursion by induction on the frames, Bernoulli bound for the numeric corollaries |
| `RMem/Makes`, `Slam`, `SlamSim`, `SlamFwd`, `SlamProps` | C99 | `ICPSLAM.step`, `_localize`, `_map`, `forward` on the memory model of C83: which tensors are assigned to `live_frame.poses`, which getters cache maps, what indexing and `to` share; the map is a value | step by step simulation of the value model, new step kinds in the programs of C83/C84, ownership invariant by induction |
| `Mem/Map`, `MapSim`, `MapSim2`, `MapProps` | C98 | `fusionutils.py` map updates, `ICPSLAM.step`, `forward` on the memory model of C81: which getters cache tensors on the map, which setters replace them, where `clone` is called; frames are values on the map's device | method by method simulation of the value model (`Maps`), new step kinds in the programs of C81/C82, ownership invariant by induction |
| `Icp/Order`, `Slam/Order`, `Slam/OrderWitness` | C97 | `Reorders`, `Untied`, `Spaced`; `Reordered` (a permutation of positions per cloud), `NoTie`, `OrderFree`, `feed` (steps from any map) | sums over permuted lists, uniqueness of the step, induction over the Levenberg-Marquardt / gradICP trace; `FusionStep` of both maps: the chosen matches correspond under the permutation by antisymmetry of the preference; induction over the frames |
| `Slam/Accuracy`, `Slam/AccuracyWitness` | C96 | `gridPixels`, `Revisits` (second frame shows the surface of the first), `Tuned` (numerical side conditions), `accuracy` | the map after the first frame is the first frame (C74's lemmas), the sampled map is its grid pixels (reprojection), so the question put to the provider is a scene of C95; composition with the previous pose keeps the bound |
| `Icp/Norm`, `Icp/Basin`, `Icp/Converge`, `Icp/ConvergeRun`, `Icp/ConvergeWitness` | C95 | operator norm of 3×3 matrices, second-order bounds for `se3_exp`, affine maps near the identity (`Near`), the scene with measurement error (`Scene`), the runs | the minimiser of the damped linearised error is compared with the exact cancellation of the offset; the offset shrinks by a factor per iteration; the step is accepted while the offset exceeds the floor; induction over iterations via C54/C55 |
| `Slam/Raise`, `Slam/RaiseWitness` | C94 | what `step` leaves behind when it raises: `Kept` (the object still holds the clouds) through every function on the path, `Held` (the frame's images and poses) | invariant over every error branch; `step_any` for the later steps; concrete cases for the exceptions |
| `Flt/ProjModel`, `Flt/Project` | C93 | back-projection, change of frame and projection at one pixel in rounding arithmetic (`VertexF`, `WorldF`, `CameraF`, `ProjectF`, `inFrameF`); sums of products evaluated in any order (`Dots`); without rounding they are the functions of the exact model | forward error analysis; a concrete float32 case computed for all evaluation orders |
| `Slam/Colour` | C92 | nothing new (`forward`, `FusionStep`, ICP providers) | relational induction over two runs: equal geometry, colours related by any relation that weighted means keep |
| `Fusion/Raw`, `Icp/Raw`, `Slam/Layout` | C91 | `fusionutils.py`, `downsample_rgbdimages` on the tensors as they are in either channel order (shapes of indexing, masks, broadcasting, `squeeze(-1)`) | channels-last equals the pixel-level model; channels-first: case analysis on the sizes shows some shape check fails |
| `Flt/*` | C90 | `fusionutils.py` `fuse_with_map` with every operation rounded; formats `bin p` (round to nearest even, `p` bits, unbounded exponent) | relative error factors; count·value telescopes over the run; exact float32 evaluation of the drifting point by rounding lemmas on known binades |
| `CfgMem/*` | C89 | `cfgnode.py` on a heap of dict, list and node objects; programs over variables | every operation writes only its receiver's objects and new ones, which point only to each other; refinement to the value model of C01-C06 |
| `Slam/Scaled`, `ScaledWitness` | C88 | `forward` with ground-truth odometry on two corresponding batches | induction over the frames; the same merge table in both units |
| `Data/Select`, `SelectProps` | C87 | the selection part of the dataset constructors, association and metadata lines | listing as input; induction over it; characterisation of `str.split` and `str.index` |
| `Cfg/Assign` | C86 | `CfgNode.__getattr__`, `__setattr__`, `__init__` | attribute walk on trees; induction on the path |
| `Slam/Ledger*` | C85 | PointFusion runs of `Slam/*` | a ledger of measurements per map point, built by induction over the frames; running weighted averages equal the batch mean |
| `RMem/*` | C83, C84 | `RGBDImages` with views (storage + indexing steps) instead of tensors: every method says what it allocates and what it keeps; devices; programs as sequences of calls and caller writes | simulation of the value model method by method; ownership invariant by induction over programs |
| `Mem/*` | C81, C82 | `Pointclouds` with addresses instead of tensors: every method says what it allocates and what it keeps; devices; programs as sequences of calls and caller writes | simulation of the value model method by method; ownership invariant (each storage belongs to one family) by induction over programs |
| `Icp/Rotate`, `Slam/Rotate` | C80 | both registrations and `forward` with ICP odometry in two coordinate systems | the twist of a turned problem is the turned twist (axial for reflections), the exponential commutes with conjugation, the damped minimiser is unique, so the two histories agree step by step; then the simulation of C66 |
| `Slam/SmoothTrack` | C79 | `forward` with ICP and gradICP odometry as a function of colours, depths, intrinsics and first poses | the chosen map points and sampled pixels are eventually constant, the clouds are smooth, C77 gives smooth transforms; induction over frames as in C78 |
| `Slam/*` | C47–C51 | `slam/{icpslam,pointfusion}.py`: `forward`, `step`, `_localize`, `_map` on the models above | refinement of the Python loop to a pure run, induction on frames |

Properties that hold only in part (statement refuted by a theorem named in the manifest, restricted version proved):
C01, C04, C10, C11, C12, C19, C21, C24, C26, C27, C29, C32, C34, C39, C44, C62.  No listed property is declared
inexpressible.

## Simplifications worth knowing
* `torch.Tensor` arguments have the right rank unless a property is about the rank checks; `TypeError` checks
  on argument classes are not modelled (Lean's types make them unreachable).
* Text files are lists of lines of tokens; number parsing is a parameter.
* `Pointclouds` attribute tensors are lists of rows; rows of one tensor may have different widths only where
  torch would not have rejected them (each getter's rejection is modelled).
* Batched geometry functions are modelled per batch element plus the shape rule of the batch dimension.
* `so3_exp` / `se3_exp` use the real functions; their Taylor branch is transcribed as written.

## Not modelled
Image decoding and resizing, file discovery on disk, what `plotly` / `open3d` and image encoders do with the arrays
they are given (C75, C76 stop there), strides, the
lifetime of autograd graphs (C77–C79 are about the functions; C112 is about connectivity; C106 is about the backward pass on scalar operations, without linear solves and indexing), performance, warnings other than those of C113,
`__repr__` / `__str__`, YAML parsing and dumping.

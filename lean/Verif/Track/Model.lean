import Mathlib.Data.Set.Lattice
/-!
Which inputs a result of a SLAM run is connected to in the autograd graph.

Every floating-point tensor carries the set of inputs ("leaves") from which a chain of recorded operations leads to it; the model
follows every operation on the way from the images to the map and the poses and keeps of each tensor only that set.  `requires_grad`
of a result is true exactly if its set contains a leaf that requires a gradient; leaves outside the set get no gradient at all from a
loss on the result.

Rules of torch used: the result of an operation is connected to what its floating-point operands are connected to; `x[idx] = y`
connects `x` to `y` as well; `detach`, comparisons, integer tensors and indices, `zeros_like`, `eye`, `empty`, `torch.tensor(number)` are
connected to nothing; `clone`, `view`, indexing, `stack`, `cat`, `to` keep connections.

What is found in the data (whether map points are matched, which registration steps are accepted) is an arbitrary input (`Seen`).
Tensors of a batch are connected as a whole: the map's lists hold one tensor per batch element, which come from tensors of the whole
batch.  Runs that raise are not modelled here.  `sigma`, `dist_th`, `damp` are numbers.
-/
namespace Verif.Track

variable {ι : Type*}

/-- A frame object: colour image, depth image, intrinsics, pixel positions given by the caller (empty if none are) and poses, each with
the leaves it is connected to. -/
structure Frame (ι : Type*) where
  rgb : Set ι
  depth : Set ι
  K : Set ι
  pix : Set ι
  pose : Set ι

/-- A map; `features` is empty for maps without features. -/
@[ext] structure Map (ι : Type*) where
  points : Set ι
  normals : Set ι
  colors : Set ι
  features : Set ι

/-- `inverse_intrinsics`, projutils.py:405-450: a zero matrix into which entries computed from the intrinsics are written. -/
def kinv (f : Frame ι) : Set ι := f.K

/-- `valid_depth_mask`, rgbdimages.py:360-375, is a comparison: connected to nothing. -/
def validMask : Set ι := ∅

/-- `vertex_map`, rgbdimages.py:643-679. -/
def vertex (f : Frame ι) : Set ι := (kinv f ∪ f.pix ∪ f.depth) ∪ validMask

/-- `normal_map`, rgbdimages.py:710-743: differences of vertices are written into zero tensors; their normalised cross product. -/
def normal (f : Frame ι) : Set ι :=
  let dhoriz := vertex f
  let dverti := vertex f
  let n := dhoriz ∪ dverti
  n ∪ validMask

/-- `global_vertex_map`, rgbdimages.py:681-708 (rotation and translation are slices of the poses). -/
def gvertex (f : Frame ι) : Set ι := (f.pose ∪ vertex f) ∪ f.pose ∪ validMask

/-- `global_normal_map`, rgbdimages.py:745-767. -/
def gnormal (f : Frame ι) : Set ι := f.pose ∪ normal f

/-- `get_alpha(rgbdimages.vertex_map)`, fusionutils.py:23-73 and :657, with a number as `sigma`. -/
def alpha (f : Frame ι) : Set ι := vertex f

/-- What a step finds in the data: whether some map point is matched, and which iterations of the registration reduce the error, per
batch element. -/
structure Seen where
  matched : Bool
  accepted : List (List Bool)

/-! ### Registration -/

/-- `gauss_newton_solve`, icputils.py:194-232: the neighbours are selected by indices; `A` and `b`. -/
def gauss (s t n : Set ι) : Set ι × Set ι := (n ∪ s, n ∪ (t ∪ s))

/-- `solve_linear_system`, icputils.py:76-90. -/
def solve (A b damp : Set ι) : Set ι := (A ∪ damp) ∪ (A ∪ b)

/-- `se3_exp`, se3utils.py:76-115. -/
def expm (x : Set ι) : Set ι := x

/-- What lives across the iterations: the moved source, the transform, the damping. -/
structure Reg (ι : Type*) where
  src : Set ι
  T : Set ι
  damp : Set ι

/-- One iteration of `point_to_plane_ICP`, icputils.py:326-365; the errors are only compared. -/
def icpIter (t n : Set ι) (r : Reg ι) (accepted : Bool) : Reg ι :=
  let (A, b) := gauss r.src t n
  let xi := solve A b r.damp
  let e := expm xi
  let one := e ∪ r.src
  if accepted then ⟨one, e ∪ r.T, r.damp⟩ else r

/-- One iteration of `point_to_plane_gradICP`, icputils.py:496-543: the error change enters the damping and the step weight. -/
def gradIter (t n : Set ι) (r : Reg ι) (_accepted : Bool) : Reg ι :=
  let (A, b) := gauss r.src t n
  let xi := solve A b r.damp
  let e := expm xi
  let one := e ∪ r.src
  let (_, b1) := gauss one t n
  let errdiff := b1 ∪ b
  let damp := r.damp ∪ errdiff
  let sigmoid := errdiff
  let e2 := expm (sigmoid ∪ xi)
  ⟨e2 ∪ r.src, e2 ∪ r.T, damp⟩

inductive Odom
  | gt | icp | gradicp
  deriving DecidableEq, Repr

/-- The loop, from the identity as the initial transform and a number as the damping: what the transform is connected to. -/
def register (odom : Odom) (s t n : Set ι) (acc : List Bool) : Set ι :=
  (acc.foldl (match odom with | .gradicp => gradIter t n | _ => icpIter t n) ⟨∅ ∪ s, ∅, ∅⟩).T

/-- `provide`, icp.py:80-97 and gradicp.py:101-122: the transforms of the batch elements are stacked. -/
def provide (odom : Odom) (s t n : Set ι) (acc : List (List Bool)) : Set ι :=
  acc.foldl (fun T a => T ∪ register odom s t n a) ∅

/-! ### SLAM -/

/-- `_localize`, icpslam.py:184-243: the live frame's own pose for ground-truth odometry or without a previous frame; otherwise the live frame is
registered at the previous pose against the map in view (down-sampling selects by indices), and the transform composed with that pose. -/
def localize (odom : Odom) (m : Map ι) (live : Frame ι) (prev : Option (Frame ι)) (seen : Seen) : Set ι :=
  match odom, prev with
  | .gt, _ => live.pose
  | _, none => live.pose
  | odom, some p =>
    let src := gvertex { live with pose := p.pose }
    provide odom src m.points m.normals seen.accepted ∪ p.pose

/-- `append_points`, pointclouds.py:1117-1245. -/
def append (m n : Map ι) : Map ι := ⟨m.points ∪ n.points, m.normals ∪ n.normals, m.colors ∪ n.colors, m.features ∪ n.features⟩

/-- The empty map. -/
def empty : Map ι := ⟨∅, ∅, ∅, ∅⟩

/-- `update_map_aggregate`, fusionutils.py:725-758, with `pointclouds_from_rgbdimages`, structures/utils.py:38-57. -/
def aggregate (m : Map ι) (f : Frame ι) : Map ι := append m ⟨gvertex f, gnormal f, f.rgb, ∅⟩

/-- The merge of `fuse_with_map`, fusionutils.py:659-699: the frame's values are written into zero tensors. -/
def merge (m : Map ι) (f : Frame ι) : Map ι :=
  let fp := gvertex f
  let fn := gnormal f
  let fc := f.rgb
  let fa := alpha f
  let c := m.features ∪ fa
  ⟨(m.features ∪ m.points) ∪ (fa ∪ fp) ∪ c, (m.features ∪ m.normals) ∪ (fa ∪ fn) ∪ c, (m.features ∪ m.colors) ∪ (fa ∪ fc) ∪ c, c⟩

/-- `update_map_fusion`, fusionutils.py:761-789: the correspondences are indices (the criteria are detached and cast, :522-546). -/
def fuse (m : Map ι) (f : Frame ι) (matched : Bool) : Map ι :=
  append (if matched then merge m f else m) ⟨gvertex f, gnormal f, f.rgb, alpha f⟩

inductive Mapping
  | aggregate | fusion
  deriving DecidableEq, Repr

/-- `step`, icpslam.py:140-182: the new map and the live frame with its pose. -/
def step (mapping : Mapping) (odom : Odom) (m : Map ι) (live : Frame ι) (prev : Option (Frame ι)) (seen : Seen) : Map ι × Frame ι :=
  let live := { live with pose := localize odom m live prev seen }
  (match mapping with
    | .aggregate => aggregate m live
    | .fusion => fuse m live seen.matched, live)

/-- Steps for one frame after another, as in `forward` (icpslam.py:120-138), from a map and a previous frame: the final map and the
poses.  With ground-truth odometry no previous frame is passed. -/
def steps (mapping : Mapping) (odom : Odom) : Map ι → Option (Frame ι) → List (Frame ι × Seen) → Map ι × List (Set ι)
  | m, _, [] => (m, [])
  | m, prev, (f, s) :: rest =>
    let (m1, live) := step mapping odom m f prev s
    let (m2, ps) := steps mapping odom m1 (if odom = .gt then none else some live) rest
    (m2, live.pose :: ps)

/-- `forward`, icpslam.py:99-138, on a sequence whose tensors are connected as `f` says (slices of them are connected to the same
leaves; without poses in the sequence, `f.pose` is empty: the first frame gets the identity): the map and the tensor of the poses, into
which the pose of each frame is written. -/
def forward (mapping : Mapping) (odom : Odom) (f : Frame ι) (seen : List Seen) : Map ι × Set ι :=
  let (m, ps) := steps mapping odom empty none (seen.map fun s => (f, s))
  (m, ps.foldl (· ∪ ·) ∅)

/-- `Pointclouds.detach()`, pointclouds.py:1046-1065. -/
def detachMap (_m : Map ι) : Map ι := ⟨∅, ∅, ∅, ∅⟩

/-- `RGBDImages.detach()`, rgbdimages.py:465-477. -/
def detachFrame (_f : Frame ι) : Frame ι := ⟨∅, ∅, ∅, ∅, ∅⟩
end Verif.Track

import Mathlib.Tactic.Common
/-!
The element types (dtypes) of the tensors in a SLAM run: the model follows every operation on the way from the images to the map, the poses and the
registration, and keeps of each tensor only its dtype.

Rules of torch used (torch >= 1.6): elementwise operations and `torch.cat` promote (`torch.promote_types`; Python numbers and 0-dimensional tensors of
the same category do not promote); matrix products (`matmul`, `mm`, `dot`, `einsum`, `bmm`) raise RuntimeError when the dtypes differ; assignment through
index tensors, `x[idx] = y`, raises RuntimeError when the dtypes differ; assignment to a slice converts silently; `norm` and `inverse` need a floating
dtype; `torch.eye`, `torch.empty`, `torch.linspace` without dtype give float32.  Which dtypes have matrix products on the device and which
`knn_points` accepts is a parameter (`Torch`).

What is found in the data (whether map points project into the frame, whether some are matched, which registration steps are accepted) is an arbitrary
input (`Seen`).  All elements of a batch have the same dtypes.  Errors that have nothing to do with dtypes (sizes, batch sizes, empty selections in the
registration) are in the other models.
-/
namespace Verif.Dtype

/-- `torch.dtype`, without complex and quantised ones. -/
inductive DType
  | bool | u8 | i8 | i16 | i32 | i64 | f16 | bf16 | f32 | f64
  deriving DecidableEq, Repr

namespace DType
/-- `dtype.is_floating_point`. -/
def isFloat : DType → Bool
  | f16 | bf16 | f32 | f64 => true
  | _ => false

/-- Position in the promotion order of torch. -/
def rank : DType → Nat
  | bool => 0 | u8 => 1 | i8 => 1 | i16 => 2 | i32 => 3 | i64 => 4 | f16 => 5 | bf16 => 5 | f32 => 6 | f64 => 7

/-- `torch.promote_types(a, b)`. -/
def promote (a b : DType) : DType :=
  if a = b then a else if a.rank < b.rank then b else if b.rank < a.rank then a else if a.isFloat then f32 else i16
end DType
open DType

inductive Err
  | runtimeError | valueError | unboundLocal | indexError
  deriving DecidableEq, Repr

/-- What the device and the installed libraries support. -/
structure Torch where
  /-- matrix products of two tensors of this dtype -/
  mm : DType → Bool
  /-- `knn_points` of two clouds of this dtype -/
  knn : DType → Bool

/-- A matrix product. -/
def prod (T : Torch) (a b : DType) : Except Err DType := if a = b ∧ T.mm a = true then .ok a else .error .runtimeError

/-- `x[idx] = y` with index tensors. -/
def put (x y : DType) : Except Err DType := if x = y then .ok x else .error .runtimeError

/-- Functions defined for floating dtypes only. -/
def floatOnly (a : DType) : Except Err DType := if a.isFloat then .ok a else .error .runtimeError

/-- The dtypes of a frame: colour image, depth image, intrinsics, poses, pixel positions given by the caller. -/
structure Frame where
  rgb : DType
  depth : DType
  K : DType
  poses : Option DType
  pix : Option DType

/-- `vertex_map`, rgbdimages.py:643-679: `inverse_intrinsics` keeps the dtype of the intrinsics (projutils.py:428-450); positions made from the mesh
are float32 (geometryutils.py:604-605). -/
def vertex (T : Torch) (f : Frame) : Except Err DType := do
  let rays ← prod T f.K (f.pix.getD f32)
  .ok (promote rays f.depth)

/-- `normal_map`, rgbdimages.py:710-743. -/
def normal (T : Torch) (f : Frame) : Except Err DType := do
  let v ← vertex T f
  floatOnly v

/-- `global_vertex_map`, rgbdimages.py:681-708. -/
def gvertex (T : Torch) (f : Frame) : Except Err DType := do
  let v ← vertex T f
  match f.poses with
  | none => .ok v
  | some p => do
    let w ← prod T p v
    .ok (promote w p)

/-- `global_normal_map`, rgbdimages.py:745-767. -/
def gnormal (T : Torch) (f : Frame) : Except Err DType := do
  let v ← normal T f
  match f.poses with
  | none => .ok v
  | some p => prod T p v

/-- The dtypes of a map with points, normals and colours; only PointFusion maps have features. -/
structure Map where
  points : DType
  normals : DType
  colors : DType
  features : Option DType
  deriving DecidableEq, Repr

/-- `append_points`, pointclouds.py:1118-1225, to a map that has points or not. -/
def append (m : Option Map) (n : Map) : Except Err Map :=
  match m with
  | none => .ok n
  | some m => match m.features, n.features with
    | none, none => .ok ⟨promote m.points n.points, promote m.normals n.normals, promote m.colors n.colors, none⟩
    | some a, some b => .ok ⟨promote m.points n.points, promote m.normals n.normals, promote m.colors n.colors, some (promote a b)⟩
    | _, _ => .error .valueError

/-- `find_active_map_points`, fusionutils.py:205-290: the map is moved by the inverse pose (`rotate_`, `offset_`, pointclouds.py:422-527) and projected
(`project_points`). -/
def active (T : Torch) (m : Option Map) (f : Frame) : Except Err Unit :=
  match m with
  | none => .ok ()
  | some m => match f.poses with
    | none => .error .valueError
    | some p => do
      let r ← prod T m.points p
      let _ ← prod T m.normals p
      let x := promote r (promote p r)
      let _ ← prod T f.K x
      .ok ()

/-- What a step finds in the data: map points in view, matched ones among them, and which registration steps reduce the error. -/
structure Seen where
  inView : Bool
  matched : Bool
  sub : matched = true → inView = true
  accepted : List Bool

/-- `gauss_newton_solve`, icputils.py:197-236: dtypes of `A` and `b`. -/
def gauss (T : Torch) (s t n : DType) : Except Err (DType × DType) :=
  if s = t ∧ T.knn s = true then .ok (promote n s, promote n (promote t s)) else .error .runtimeError

/-- `solve_linear_system`, icputils.py:78-91; the damping matrix is float32. -/
def solve (T : Torch) (a b : DType) : Except Err DType := do
  let n ← prod T a a
  let m ← floatOnly (promote n f32)
  let r ← prod T a b
  prod T m r

/-- `se3_exp`, se3utils.py:76-115. -/
def expm (T : Torch) (x : DType) : Except Err DType := do
  let y ← floatOnly x
  prod T y y

/-- One iteration of `point_to_plane_ICP` (icputils.py:325-367) and of `point_to_plane_gradICP` (:495-545, which accepts every step, with its own
product of the perturbed transform): dtypes of the moved source and of the transform. -/
def iter (T : Torch) (s t n tr : DType) (acc : Bool) : Except Err (DType × DType) := do
  let (a, b) ← gauss T s t n
  let x ← solve T a b
  let e ← expm T x
  let _ ← prod T b b
  let _ ← prod T a x
  let s1 ← prod T e s
  let (_, b1) ← gauss T s1 t n
  let _ ← prod T b1 b1
  if acc then do
    let tr1 ← prod T e tr
    .ok (s1, tr1)
  else .ok (s, tr)

/-- The loop; the correspondences it returns are unbound when there is no iteration. -/
def iters (T : Torch) (t n : DType) : DType → DType → List Bool → Except Err DType
  | _, tr, [] => .ok tr
  | s, tr, a :: as => do
    let (s1, tr1) ← iter T s t n tr a
    iters T t n s1 tr1 as

/-- `point_to_plane_ICP(src, tgt, normals, initial_transform)`, icputils.py:238-371, and `point_to_plane_gradICP`, :374-550: dtype of the transform. -/
def register (T : Torch) (s t n : DType) (init : Option DType) (acc : List Bool) : Except Err DType := do
  let tr := init.getD s
  let s0 ← prod T tr s
  if acc = [] then .error .unboundLocal else iters T t n s0 tr acc

/-- `provide` of the two registration providers, icp.py:80-97 and gradicp.py:101-122: the initial transform is `torch.eye(4)`. -/
def provide (T : Torch) (s t n : DType) (acc : List Bool) : Except Err DType := register T s t n (some f32) acc

inductive Odom
  | gt | registration
  deriving DecidableEq, Repr

/-- `_localize`, icpslam.py:184-243: dtype of the pose. -/
def localize (T : Torch) (odom : Odom) (m : Option Map) (live : Frame) (prev : Option Frame) (seen : Seen) : Except Err DType :=
  let own : Except Err DType := match live.poses with
    | none => .error .valueError
    | some p => .ok p
  match odom, prev with
  | .gt, _ => own
  | .registration, none => own
  | .registration, some pr => match pr.poses with
    | none => .error .valueError
    | some p => do
      let src ← gvertex T { live with poses := some p }
      let _ ← gnormal T { live with poses := some p }
      active T m pr
      match m with
      | none => .error .indexError
      | some m => do
        let tr ← provide T src m.points m.normals seen.accepted
        prod T tr p

inductive Mapping
  | aggregate | fusion
  deriving DecidableEq, Repr

/-- `update_map_aggregate`, fusionutils.py:722-757, with `pointclouds_from_rgbdimages`, structures/utils.py:38-57. -/
def aggregate (T : Torch) (m : Option Map) (f : Frame) : Except Err Map := do
  let v ← gvertex T f
  let n ← gnormal T f
  append m ⟨v, n, f.rgb, none⟩

/-- The merge of `fuse_with_map`, fusionutils.py:659-700: dtypes of the updated map. -/
def merge (m : Map) (feat v n r a : DType) : Except Err Map := do
  let fp ← put m.points v
  let fn ← put m.normals n
  let fc ← put m.colors r
  let fa ← put feat a
  let c := promote feat fa
  let mix := fun x y => promote (promote (promote feat x) (promote fa y)) c
  .ok ⟨mix m.points fp, mix m.normals fn, mix m.colors fc, some c⟩

/-- `update_map_fusion`, fusionutils.py:760-789: `find_active_map_points`, `find_similar_map_points` (:384-396), `find_best_unique_correspondences`
(:481-484 needs features; no dtype can be wrong there), `fuse_with_map` (:590-719). -/
def fuse (T : Torch) (m : Option Map) (f : Frame) (seen : Seen) : Except Err Map := do
  active T m f
  match m with
  | none => do
    let v ← gvertex T f
    let n ← gnormal T f
    let a ← vertex T f
    let _ ← floatOnly a
    append none ⟨v, n, f.rgb, some a⟩
  | some m => do
    let v ← gvertex T f
    let n ← gnormal T f
    if seen.inView then do
      let _ ← put m.points v
      let _ ← put m.normals n
      .ok ()
    else .ok ()
    match m.features with
    | none => .error .valueError
    | some feat => do
      let a ← vertex T f
      let m1 ← (if seen.matched then merge m feat v n f.rgb a else .ok m)
      append (some m1) ⟨v, n, f.rgb, some a⟩

/-- `step`, icpslam.py:140-182: the new map and the live frame with its pose. -/
def step (T : Torch) (mapping : Mapping) (odom : Odom) (m : Option Map) (live : Frame) (prev : Option Frame) (seen : Seen) : Except Err (Map × Frame) := do
  let p ← localize T odom m live prev seen
  let live := { live with poses := some p }
  let m1 ← (match mapping with
    | .aggregate => aggregate T m live
    | .fusion => fuse T m live seen)
  .ok (m1, live)

/-- The loop of `forward` after its first frame; every frame has the dtypes of the sequence. -/
def forwardFrom (T : Torch) (mapping : Mapping) (odom : Odom) (f : Frame) : Option Map → Option Frame → List Seen → Except Err (Option Map)
  | m, _, [] => .ok m
  | m, prev, s :: ss => do
    let (m1, live) ← step T mapping odom m f prev s
    forwardFrom T mapping odom f (some m1) (if odom ≠ .gt then some live else none) ss

/-- What `forward` returns: dtype of the map and of the poses. -/
structure Result where
  map : Map
  poses : DType
  deriving DecidableEq, Repr

/-- `forward`, icpslam.py:103-138: the first frame gets a float32 identity if the sequence has no poses; the poses are copied into a float32 tensor. -/
def forward (T : Torch) (mapping : Mapping) (odom : Odom) (f : Frame) (seen : List Seen) : Except Err (Option Result) :=
  match seen with
  | [] => .ok none
  | s :: ss => do
    let first := { f with poses := some (f.poses.getD f32) }
    let (m1, live) ← step T mapping odom none first none s
    let m ← forwardFrom T mapping odom f (some m1) (if odom ≠ .gt then some live else none) ss
    .ok (m.map fun m => ⟨m, f32⟩)

/-- `step` called for frames with different dtypes, one after the other, all with poses of their own (`odom='gt'`). -/
def steps (T : Torch) (mapping : Mapping) : Option Map → List (Frame × Seen) → Except Err (Option Map)
  | m, [] => .ok m
  | m, (f, s) :: rest => do
    let (m1, _) ← step T mapping .gt m f none s
    steps T mapping (some m1) rest

end Verif.Dtype

import Verif.Common.Lin
import Mathlib.Algebra.Order.Field.Basic
/-!
Model of `gradslam/geometry/projutils.py` and of the algebraic part of `gradslam/geometry/geometryutils.py`.

Simplifications: exact field arithmetic; every function acts independently on each point, so tensors are modelled by their
points (lists of coordinate lists, lists of `V3`), batches by lists of clouds.  `torch.is_tensor` checks are omitted.
-/
namespace Verif.Geom

variable {α : Type*} [Field α] [LinearOrder α] [IsStrictOrderedRing α]

/-- Exceptions. -/
inductive Err
  | valueError | runtimeError | assertion | typeError
  deriving DecidableEq, Repr

/-! ### Homogeneous coordinates -/

/-- One point of `homogenize_points`: `torch.nn.functional.pad(pts, (0, 1), "constant", 1.0)`,
projutils.py:43 (and the copy geometryutils.py:36). -/
def homogenize1 (p : List α) : List α := p ++ [1]

/-- One point of `unhomogenize_points`, projutils.py:81-89 (and the copy geometryutils.py:68-76):
`w = pts[..., -1:]`, `scale = where(|w| > eps, 1/w, 1)`, `scale * pts[..., :-1]`. -/
def unhomogenize1 (eps : α) (p : List α) : List α :=
  match p.getLast? with
  | none => []
  | some w =>
    let scale := if |w| > eps then 1 / w else 1
    p.dropLast.map (scale * ·)

/-- `homogenize_points` with its rank check (projutils.py:32-43); `dim` is `pts.dim()`, `pts` the points. -/
def homogenizePoints (dim : Nat) (pts : List (List α)) : Except Err (List (List α)) :=
  if dim < 2 then .error .valueError else .ok (pts.map homogenize1)

/-- `unhomogenize_points` with its rank check (projutils.py:70-89). -/
def unhomogenizePoints (eps : α) (dim : Nat) (pts : List (List α)) : Except Err (List (List α)) :=
  if dim < 2 then .error .valueError else .ok (pts.map (unhomogenize1 eps))

/-! ### Projection -/

/-- The two-way `torch.where(z != 0, z, 1)` guard of projutils.py:235-236. -/
def guardZ (z : α) : α := if z ≠ 0 then z else 1

/-- Body of `project_points` for one point, projutils.py:206-238: homogenise if needed (`inl`: 3 coordinates, `inr`: already
4), multiply by the 4×4 `proj_mat`, divide the first two coordinates by the guarded third. -/
def projectPoint (P : M4 α) (p : V3 α ⊕ V4 α) : α × α :=
  let h : V4 α := match p with
    | .inl v => ⟨v, 1⟩
    | .inr h => h
  let q := P.mulVec h
  (q.v.x / guardZ q.v.z, q.v.y / guardZ q.v.z)

/-- Batched `project_points` (projutils.py:158-238): `proj_mat` is either one matrix (expanded, :215-219) or one per batch
element (:199-204 raises ValueError on a different batch size; `unsqueeze(-3)` at :227 pairs matrix `b` with cloud `b`). -/
def projectPoints (P : M4 α ⊕ List (M4 α)) (clouds : List (List (V3 α ⊕ V4 α))) :
    Except Err (List (List (α × α))) :=
  match P with
  | .inl P => .ok (clouds.map (·.map (projectPoint P)))
  | .inr Ps =>
    if Ps.length ≠ clouds.length then .error .valueError
    else .ok (List.zipWith (fun P c => c.map (projectPoint P)) Ps clouds)

/-- Body of `unproject_points` for one pixel and its depth, projutils.py:370-402: homogenise if needed, multiply by the 3×3
`intrinsics_inv`, scale by depth. -/
def unprojectPoint (Kinv : M3 α) (px : (α × α) ⊕ V3 α) (depth : α) : V3 α :=
  let h : V3 α := match px with
    | .inl (u, v) => ⟨u, v, 1⟩
    | .inr h => h
  (Kinv.mulVec h).smul depth

/-- `unproject_points` on a cloud of pixels with one matrix (projutils.py:364-402); the shape check :364-368 demands one depth
per pixel. -/
def unprojectPoints (Kinv : M3 α) (pxs : List ((α × α) ⊕ V3 α)) (depths : List α) : Except Err (List (V3 α)) :=
  if pxs.length ≠ depths.length then .error .valueError
  else .ok (List.zipWith (unprojectPoint Kinv) pxs depths)

/-- `inverse_intrinsics` for a 3×3 matrix, projutils.py:437-450. -/
def inverseIntrinsics3 (eps : α) (K : M3 α) : M3 α :=
  let fx := K.r0.x
  let fy := K.r1.y
  let cx := K.r0.z
  let cy := K.r1.z
  ⟨⟨1 / (fx + eps), 0, -1 * cx / (fx + eps)⟩, ⟨0, 1 / (fy + eps), -1 * cy / (fy + eps)⟩, ⟨0, 0, 1⟩⟩

/-- `inverse_intrinsics` for a 4×4 matrix, projutils.py:437-450 (`Kinv[..., 2, 2] = 1`, `Kinv[..., -1, -1] = 1`). -/
def inverseIntrinsics4 (eps : α) (K : M4 α) : M4 α :=
  ⟨inverseIntrinsics3 eps K.R, V3.zero, V3.zero, 1⟩

/-! ### Rigid transforms -/

/-- A transform argument: `4×4` or `N×4×4`. -/
inductive Trans (α : Type*)
  | single (T : M4 α)
  | batch (Ts : List (M4 α))

/-- `inverse_transfom_3d` on one 4×4 matrix, geometryutils.py:227-239: `R⁻¹ = Rᵀ`, `t⁻¹ = (-Rᵀ) t`, zeros elsewhere, 1 in the
corner. -/
def inverseTransform1 (T : M4 α) : M4 α :=
  ⟨T.R.transpose, T.R.transpose.neg.mulVec T.t, V3.zero, 1⟩

/-- torch's rule for `torch.matmul(a, b)` with `a` of shape `(n, i, k)` and a rank-2 `b` of shape `(k', j)`: `b` is one
matrix shared by the whole batch, the inner dimensions must agree, the result has shape `(n, i, j)`. -/
def matmulShape (n i k k' j : Nat) : Except Err (List Nat) :=
  if k = k' then .ok [n, i, j] else .error .runtimeError

/-- torch's rule for assigning a value into a slice: the value's shape (given reversed) must broadcast to the target's
(given reversed); surplus leading dimensions of the value must be 1. -/
def broadcastsTo : List Nat → List Nat → Bool
  | [], _ => true
  | v :: vs, [] => v = 1 && broadcastsTo vs []
  | v :: vs, t :: ts => (v = t || v = 1) && broadcastsTo vs ts

/-- Shape outcome of computing `torch.matmul(rmat (N,3,3), tvec (N,3))` and assigning it to `trans_inv[..., :3, 3]` of shape
`(N,3)` — geometryutils.py:233,238 and :293,298. -/
def batchedMatVec (n : Nat) : Except Err Unit := do
  let sh ← matmulShape n 3 3 n 3
  if broadcastsTo sh.reverse [3, n] then .ok () else .error .runtimeError

/-- `inverse_transfom_3d`, geometryutils.py:205-241.  The guard at :222 (`not dim in (2,3) and …`) never rejects a rank-2 or
rank-3 tensor.  For a batch the shapes are checked first (the value of a shape-correct batched call would be the
element-wise inverse). -/
def inverseTransform3d : Trans α → Except Err (Trans α)
  | .single T => .ok (.single (inverseTransform1 T))
  | .batch Ts =>
    match batchedMatVec Ts.length with
    | .error e => .error e
    | .ok _ => .ok (.batch (Ts.map inverseTransform1))

/-- `compose_transforms_3d` on 4×4 matrices, geometryutils.py:285-299: the bottom row is always `(0,0,0,1)`. -/
def composeTransforms1 (T1 T2 : M4 α) : M4 α :=
  ⟨T1.R.mul T2.R, (T1.R.mulVec T2.t).add T1.t, V3.zero, 1⟩

/-- `compose_transforms_3d`, geometryutils.py:244-301; mismatched shapes violate the assertion at :281-283. -/
def composeTransforms3d : Trans α → Trans α → Except Err (Trans α)
  | .single A, .single B => .ok (.single (composeTransforms1 A B))
  | .batch As, .batch Bs =>
    if As.length = Bs.length then
      match batchedMatVec As.length with
      | .error e => .error e
      | .ok _ => .ok (.batch (List.zipWith composeTransforms1 As Bs))
    else .error .assertion
  | _, _ => .error .assertion

/-- `relative_transform_3d`, geometryutils.py:393-410. -/
def relativeTransform3d (A B : Trans α) : Except Err (Trans α) := do
  let Ai ← inverseTransform3d A
  composeTransforms3d Ai B

/-- `relative_transformation`, geometryutils.py:413-478, on one pair of matrices.  `inv` stands for `torch.inverse`;
kornia's `inverse_transformation` / `compose_transformations` use the same formulas as above. -/
def relativeTransformation (inv : M4 α → M4 α) (orthogonal : Bool) (T01 T02 : M4 α) : M4 α :=
  composeTransforms1 (if orthogonal then inverseTransform1 T01 else inv T01) T02

/-- `transform_pointcloud`, geometryutils.py:780-794: `(R Xᵀ + t)ᵀ`. -/
def transformPointcloud (T : M4 α) (pts : List (V3 α)) : List (V3 α) :=
  pts.map fun p => (T.R.mulVec p).add T.t

/-- `transform_normals`, geometryutils.py:828-837: `(R Nᵀ)ᵀ`. -/
def transformNormals (T : M4 α) (ns : List (V3 α)) : List (V3 α) := ns.map T.R.mulVec

/-- `transform_pts_3d`, geometryutils.py:344-358, on `N` points given with 3 coordinates in a tensor of rank `dim`.
For rank 4 the trailing singleton produced by matmul is squeezed (:350-353); for other ranks it is not (:355), so
`unhomogenize_points` (:352) sees a last dimension of size 1, drops it, and the result has shape `(…, 4, 0)`:
four empty coordinate lists per point. -/
def transformPts3d (eps : α) (dim : Nat) (T : M4 α) (pts : List (V3 α)) : Except Err (List (List (List α))) :=
  if dim < 2 then .error .valueError
  else .ok (pts.map fun p =>
    let q := T.mulVec ⟨p, 1⟩
    if dim = 4 then [(unhomogenize1 eps (q.v.toList ++ [q.w])).take 3]
    else [q.v.x, q.v.y, q.v.z, q.w].map fun c => (unhomogenize1 eps [c]).take 3)

/-- `transform_pts_nd_KF` for D = 3 on one batch element, geometryutils.py:374-390 (the trailing dimension is squeezed). -/
def transformPtsNdKF (eps : α) (T : M4 α) (pts : List (V3 α)) : List (List α) :=
  pts.map fun p =>
    let q := T.mulVec ⟨p, 1⟩
    unhomogenize1 eps (q.v.toList ++ [q.w])

/-! ### Pixel grids -/

/-- One coordinate pair of `normalize_pixel_coords`, geometryutils.py:517-528: `2/(wh-1) * p - 1` with `wh = (height, width)`.
-/
def normalizePixel (height width : Nat) (p : α × α) : α × α :=
  (2 / ((height : α) - 1) * p.1 - 1, 2 / ((width : α) - 1) * p.2 - 1)

/-- One coordinate pair of `unnormalize_pixel_coords`, geometryutils.py:563-573: `1/norm * (p + 1)`. -/
def unnormalizePixel (height width : Nat) (p : α × α) : α × α :=
  (1 / (2 / ((height : α) - 1)) * (p.1 + 1), 1 / (2 / ((width : α) - 1)) * (p.2 + 1))

/-- `torch.linspace(a, b, n)[i]`. -/
def linspace (a b : α) (n i : Nat) : α := if n = 1 then a else a + (b - a) / ((n : α) - 1) * i

/-- Entry `[0, i, j, :]` of `create_meshgrid(height, width, normalized)`, geometryutils.py:598-608. -/
def meshgrid (height width : Nat) (normalized : Bool) (i j : Nat) : α × α :=
  if normalized then (linspace (-1) 1 height i, linspace (-1) 1 width j)
  else (linspace 0 ((height : α) - 1) height i, linspace 0 ((width : α) - 1) width j)

end Verif.Geom

import Mathlib.Algebra.Order.Field.Basic
import Mathlib.Algebra.BigOperators.Group.Finset.Basic
import Mathlib.Algebra.Order.Group.Abs
/-!
Model of the point functions of `gradslam/geometry/projutils.py` and `gradslam/geometry/geometryutils.py` on tensors of
ANY rank: the torch operations they consist of (`unsqueeze`, `squeeze`, `matmul`, broadcasting arithmetic, `pad`, `stack`,
`view`, indexing of the last dimension) are modelled on n-dimensional arrays, and the functions are transcribed on top of
them line by line.

A tensor is its list of sizes and a function from indices to numbers.  Sizes and indices are listed INNERMOST FIRST: a
tensor of shape `(B, N, 3)` has `dims = [3, N, B]`, and its element `[b, n, k]` is `get [k, n, b]`.

Simplifications: exact arithmetic in an ordered field; `torch.is_tensor` checks are omitted; dtype and device are not
modelled here (C82, C105).
-/
namespace Verif.Nd

/-- Exceptions. -/
inductive Err
  | valueError | runtimeError | indexError | assertion
  deriving DecidableEq, Repr

/-- An n-dimensional array, innermost dimension first. -/
structure Tensor (α : Type*) where
  dims : List ℕ
  get : List ℕ → α

namespace Tensor
variable {α : Type*}

/-- `t.dim()`. -/
def rank (t : Tensor α) : ℕ := t.dims.length

/-- `t.unsqueeze(d)` where `k` is the place of the new dimension counted from the innermost one: `unsqueeze(-1)` is `k = 0`,
`unsqueeze(-3)` is `k = 2`, `unsqueeze(0)` is `k = t.dim()`, `unsqueeze(1)` is `k = t.dim() - 1`. -/
def unsqueeze (k : ℕ) (t : Tensor α) : Tensor α :=
  ⟨t.dims.insertIdx k 1, fun i => t.get (i.eraseIdx k)⟩

/-- `t.squeeze(-1)`: drops the last dimension when its size is 1, otherwise does nothing. -/
def squeezeLast (t : Tensor α) : Tensor α :=
  match t.dims with
  | 1 :: ds => ⟨ds, fun i => t.get (0 :: i)⟩
  | _ => t

/-- `t[..., k]`; IndexError when out of range. -/
def select (k : ℕ) (t : Tensor α) : Except Err (Tensor α) :=
  match t.dims with
  | [] => .error .indexError
  | d :: ds => if k < d then .ok ⟨ds, fun i => t.get (k :: i)⟩ else .error .indexError

/-- `t[..., :n]`. -/
def sliceTo (n : ℕ) (t : Tensor α) : Tensor α :=
  match t.dims with
  | [] => t
  | d :: ds => ⟨min n d :: ds, t.get⟩

/-- `torch.nn.functional.pad(t, (0, 1), "constant", 1.0)`. -/
def padOne [One α] (t : Tensor α) : Tensor α :=
  match t.dims with
  | [] => t
  | d :: ds => ⟨(d + 1) :: ds, fun i => match i with
      | k :: is => if k < d then t.get (k :: is) else 1
      | [] => 1⟩

/-- Broadcasting of two shapes (innermost first, so that the right-alignment of torch is alignment at the head). -/
def bc : List ℕ → List ℕ → Except Err (List ℕ)
  | [], t => .ok t
  | a :: s, [] => .ok (a :: s)
  | a :: s, b :: t =>
    if a = b ∨ a = 1 ∨ b = 1 then
      match bc s t with
      | .ok r => .ok ((if a = 1 then b else a) :: r)
      | .error e => .error e
    else .error .runtimeError

/-- The index at which a tensor of shape `s` is read when it is broadcast and the result is read at an index `i`. -/
def bidx : List ℕ → List ℕ → List ℕ
  | [], _ => []
  | d :: s, [] => 0 :: bidx s []
  | d :: s, i :: is => (if d = 1 then 0 else i) :: bidx s is

/-- Element-wise arithmetic with broadcasting. -/
def zipT (f : α → α → α) (a b : Tensor α) : Except Err (Tensor α) :=
  match bc a.dims b.dims with
  | .error e => .error e
  | .ok ds => .ok ⟨ds, fun i => f (a.get (bidx a.dims i)) (b.get (bidx b.dims i))⟩

/-- Element-wise functions of one tensor. -/
def mapT (f : α → α) (t : Tensor α) : Tensor α := ⟨t.dims, fun i => f (t.get i)⟩

/-- `torch.matmul` for arguments with at least two dimensions each (all uses modelled here): the last two dimensions are
multiplied as matrices, the others broadcast. -/
def matmul [AddCommMonoid α] [Mul α] (a b : Tensor α) : Except Err (Tensor α) :=
  match a.dims, b.dims with
  | k :: m :: as, n :: k' :: bs =>
    if k ≠ k' then .error .runtimeError else
    match bc as bs with
    | .error e => .error e
    | .ok ds => .ok ⟨n :: m :: ds, fun i => match i with
        | j :: r :: is =>
          ∑ l ∈ Finset.range k, a.get (l :: r :: bidx as is) * b.get (j :: l :: bidx bs is)
        | _ => 0⟩
  | _, _ => .error .runtimeError

/-- `torch.stack((u, v), dim=-1)`; RuntimeError when the shapes differ. -/
def stack2 (u v : Tensor α) : Except Err (Tensor α) :=
  if u.dims = v.dims then
    .ok ⟨2 :: u.dims, fun i => match i with
      | 0 :: is => u.get is
      | _ :: is => v.get is
      | [] => u.get []⟩
  else .error .runtimeError

/-- `while t.dim() < n: t = t.unsqueeze(0)`, projutils.py:218-219 and :384-385. -/
def expand : ℕ → Tensor α → Tensor α
  | 0, t => t
  | m + 1, t => expand m (t.unsqueeze t.rank)

end Tensor

open Tensor

variable {α : Type*} [Field α] [LinearOrder α]

/-- `homogenize_points`, projutils.py:31-43 and the copy geometryutils.py:24-36. -/
def homogenizePoints (pts : Tensor α) : Except Err (Tensor α) :=
  if pts.rank < 2 then .error .valueError else .ok pts.padOne

/-- `unhomogenize_points`, projutils.py:69-89 and the copy geometryutils.py:56-76: `w = pts[..., -1:]`,
`scale = where(|w| > eps, 1/w, 1)`, `scale * pts[..., :-1]`. -/
def unhomogenizePoints (eps : α) (pts : Tensor α) : Except Err (Tensor α) :=
  if pts.rank < 2 then .error .valueError else
  match pts.dims with
  | [] => .error .valueError
  | d :: ds =>
    let w : Tensor α := ⟨min 1 d :: ds, fun i => match i with
      | _ :: is => pts.get ((d - 1) :: is)
      | [] => 0⟩
    let scale := w.mapT (fun x => if eps < |x| then 1 / x else 1)
    zipT (· * ·) scale (pts.sliceTo (d - 1))

/-- The common end of `project_points` (projutils.py:232-238), `cam2pixel` (geometryutils.py:645-652) and `cam2pixel_KF`
(geometryutils.py:727-734): the three coordinates are read off, the first two divided by the guarded third, stacked. -/
def divideByZ (pts : Tensor α) : Except Err (Tensor α) :=
  match pts.select 0 with
  | .error e => .error e
  | .ok x =>
    match pts.select 1 with
    | .error e => .error e
    | .ok y =>
      match pts.select 2 with
      | .error e => .error e
      | .ok z =>
        let g := z.mapT (fun c => if c ≠ 0 then c else 1)
        match zipT (· / ·) x g with
        | .error e => .error e
        | .ok u =>
          match zipT (· / ·) y g with
          | .error e => .error e
          | .ok v => stack2 u v

/-- The checks shared by `project_points` (projutils.py:170-205) and `unproject_points` (projutils.py:329-365): `lo`, `lo+1` are the
allowed sizes of the last dimension, `n` the size of the matrices. -/
def checkShapes (lo n : ℕ) (pts mat : Tensor α) : Except Err Unit :=
  if pts.rank < 2 then .error .valueError
  else if pts.dims.head? ≠ some lo ∧ pts.dims.head? ≠ some (lo + 1) then .error .valueError
  else if mat.rank < 2 then .error .valueError
  else if mat.dims[0]? ≠ some n ∨ mat.dims[1]? ≠ some n then .error .valueError
  else if mat.rank > 2 ∧ mat.rank ≠ pts.rank then .error .valueError
  else if mat.rank > 2 ∧ mat.dims.getLast? ≠ pts.dims.getLast? then .error .valueError
  else .ok ()

/-- The batched product shared by `project_points` (projutils.py:216-230) and `unproject_points` (projutils.py:380-400):
expand a single matrix to the rank of the points, insert the dimension of the points, multiply, drop the last dimension. -/
def applyMats (pts mat : Tensor α) : Except Err (Tensor α) :=
  let mat := if mat.rank = 2 ∧ pts.rank > 2 then expand (pts.rank - mat.rank) mat else mat
  let prod := if pts.rank > 2 then matmul (mat.unsqueeze 2) (pts.unsqueeze 0)
    else matmul (mat.unsqueeze mat.rank) (pts.unsqueeze 0)
  match prod with
  | .error e => .error e
  | .ok p => .ok p.squeezeLast

/-- `project_points`, projutils.py:158-238 (`eps` is not used by the code). -/
def projectPoints (cam proj : Tensor α) : Except Err (Tensor α) :=
  match checkShapes 3 4 cam proj with
  | .error e => .error e
  | .ok _ =>
    match (if cam.dims.head? = some 3 then homogenizePoints cam else .ok cam) with
    | .error e => .error e
    | .ok h =>
      match applyMats h proj with
      | .error e => .error e
      | .ok p => divideByZ p

/-- `unproject_points`, projutils.py:311-402. -/
def unprojectPoints (px kinv depths : Tensor α) : Except Err (Tensor α) :=
  match checkShapes 2 3 px kinv with
  | .error e => .error e
  | .ok _ =>
    if px.dims.tail ≠ depths.dims then .error .valueError else
    match (if px.dims.head? = some 2 then homogenizePoints px else .ok px) with
    | .error e => .error e
    | .ok h =>
      match applyMats h kinv with
      | .error e => .error e
      | .ok p => zipT (· * ·) p (depths.unsqueeze 0)

/-- `inverse_intrinsics`, projutils.py:423-450: the result starts as zeros and gets six entries per matrix; the later
assignments overwrite the earlier ones (`[..., -1, -1] = 1` is the last). -/
def inverseIntrinsics (eps : α) (K : Tensor α) : Except Err (Tensor α) :=
  match K.dims with
  | c :: r :: ds =>
    if (c = 3 ∧ r = 3) ∨ (c = 4 ∧ r = 4) then
      .ok ⟨c :: r :: ds, fun i => match i with
        | j :: k :: is =>
          let fx := K.get (0 :: 0 :: is)
          let fy := K.get (1 :: 1 :: is)
          let cx := K.get (2 :: 0 :: is)
          let cy := K.get (2 :: 1 :: is)
          if j = c - 1 ∧ k = r - 1 then 1
          else if j = 2 ∧ k = 2 then 1
          else if j = 2 ∧ k = 1 then -1 * cy / (fy + eps)
          else if j = 2 ∧ k = 0 then -1 * cx / (fx + eps)
          else if j = 1 ∧ k = 1 then 1 / (fy + eps)
          else if j = 0 ∧ k = 0 then 1 / (fx + eps)
          else 0
        | _ => 0⟩
    else .error .valueError
  | _ => .error .valueError

/-- `transform_pts_3d`, geometryutils.py:329-358 (`unhomogenize_points` with its default `eps`). -/
def transformPts3d (eps : α) (pts t : Tensor α) : Except Err (Tensor α) :=
  if pts.rank < 2 then .error .valueError
  else if t.rank ≠ 2 then .error .valueError
  else if t.dims ≠ [4, 4] then .error .valueError
  else
    match (if pts.dims.head? = some 3 then homogenizePoints pts else .ok pts) with
    | .error e => .error e
    | .ok h =>
      match (if h.rank = 4 then
          match matmul (expand 2 t) (h.unsqueeze 0) with
          | .error e => .error e
          | .ok p => .ok p.squeezeLast
        else matmul (expand 1 t) (h.unsqueeze 0)) with
      | .error e => .error e
      | .ok p =>
        match unhomogenizePoints eps p with
        | .error e => .error e
        | .ok q => .ok (q.sliceTo 3)

/-- `transform_pts_nd_KF`, geometryutils.py:374-390.  `shape[0]` and `shape[-1]` of a tensor without dimensions raise IndexError. -/
def transformPtsNdKF (eps : α) (pts tform : Tensor α) : Except Err (Tensor α) :=
  match pts.dims.getLast?, tform.dims.getLast?, pts.dims.head?, tform.dims.head? with
  | some b, some b', some d, some d' =>
    if b ≠ b' then .error .valueError
    else if d + 1 ≠ d' then .error .valueError
    else
      match homogenizePoints pts with
      | .error e => .error e
      | .ok h =>
        match matmul (tform.unsqueeze (tform.rank - 1)) (h.unsqueeze 0) with
        | .error e => .error e
        | .ok p => unhomogenizePoints eps p.squeezeLast
  | _, _, _, _ => .error .indexError

/-- `cam2pixel`, geometryutils.py:632-652: the assertions allow 3 or 4 dimensions (and test `shape[0] == 4` twice), then
`_, h, w, _ = shape` raises ValueError for 3. -/
def cam2pixel (eps : α) (cam proj : Tensor α) : Except Err (Tensor α) :=
  if cam.rank ≠ 3 ∧ cam.rank ≠ 4 then .error .assertion
  else if cam.dims.head? ≠ some 3 then .error .assertion
  else if proj.rank ≠ 2 ∨ proj.dims.getLast? ≠ some 4 then .error .assertion
  else if cam.rank ≠ 4 then .error .valueError
  else
    match transformPts3d eps cam proj with
    | .error e => .error e
    | .ok p => divideByZ p

/-- `depth.permute(0, 2, 3, 1)`: RuntimeError unless there are exactly four dimensions. -/
def permute0231 (t : Tensor α) : Except Err (Tensor α) :=
  match t.dims with
  | [w, h, c, b] => .ok ⟨[c, w, h, b], fun i => match i with
      | [ic, iw, ih, ib] => t.get [iw, ih, ic, ib]
      | _ => 0⟩
  | _ => .error .runtimeError

/-- `pixel2cam`, geometryutils.py:690-700.  (`intrinsics_inv.shape[0]`, `shape[1]` raise IndexError for fewer than two
dimensions.) -/
def pixel2cam (eps : α) (depth kinv px : Tensor α) : Except Err (Tensor α) :=
  if kinv.rank < 1 ∨ (kinv.rank = 1 ∧ kinv.dims.getLast? = some 4) then .error .indexError
  else if kinv.dims ≠ [4, 4] then .error .assertion
  else
    match transformPts3d eps px kinv with
    | .error e => .error e
    | .ok cam =>
      match permute0231 depth with
      | .error e => .error e
      | .ok d => zipT (· * ·) cam d

/-- `cam2pixel_KF`, geometryutils.py:719-734. -/
def cam2pixelKF (eps : α) (cam proj : Tensor α) : Except Err (Tensor α) :=
  if cam.rank < 1 then .error .indexError
  else if cam.dims.head? ≠ some 3 then .error .assertion
  else if proj.rank < 2 ∨ proj.dims[0]? ≠ some 4 ∨ proj.dims[1]? ≠ some 4 then .error .assertion
  else
    match transformPtsNdKF eps cam proj with
    | .error e => .error e
    | .ok p => divideByZ p

/-- The multi-index of place `n` in the row-major order of a tensor with these sizes (innermost first). -/
def unflatten : List ℕ → ℕ → List ℕ
  | [], _ => []
  | d :: ds, n => n % d :: unflatten ds (n / d)

/-- Shape behaviour of `quaternion_to_rotation_matrix`, geometryutils.py:159-202.  `rot q e` is entry `e` (row-major, 0..8) of
the matrix computed from one quaternion (`torch.chunk` keeps a last dimension of size 1, so the stacked tensor has shape
`(*, 1, 9)`; the formula itself is `Verif.Geom`'s, C20); `.view(-1, 3, 3)` then reads it in row-major order, and for one-dimensional input
the leading dimension of size 1 is squeezed. -/
def quatToRot (rot : (ℕ → α) → ℕ → α) (q : Tensor α) : Except Err (Tensor α) :=
  match q.dims with
  | [] => .error .indexError
  | d :: ds =>
    if d ≠ 4 then .error .valueError
    else if ds = [] then
      .ok ⟨[3, 3], fun i => match i with
        | [c, r] => rot (fun k => q.get [k]) (3 * r + c)
        | _ => 0⟩
    else
      .ok ⟨[3, 3, ds.prod], fun i => match i with
        | [c, r, n] => rot (fun k => q.get (k :: unflatten ds n)) (3 * r + c)
        | _ => 0⟩

end Verif.Nd

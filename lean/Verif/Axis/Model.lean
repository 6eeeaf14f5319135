import Verif.Nd.Model
import Mathlib.Analysis.SpecialFunctions.Exp
import Mathlib.Analysis.SpecialFunctions.Pow.Real
/-!
Model of the element-wise tests of `gradslam/slam/fusionutils.py` (`get_alpha`, `are_points_close`, `are_normals_similar`) on
tensors of ANY rank and along ANY dimension `dim`, negative or not, and of `normalize_pixel_coords` and
`unnormalize_pixel_coords` (geometryutils.py).  Tensors are those of `Verif.Nd.Model` (sizes and indices innermost first).

Simplifications: exact real arithmetic; the type checks of the tensors and thresholds are omitted, except that `sigma` may be
a number, a tensor or something else, and `eps` a float or not; warnings are returned as a flag.
-/
namespace Verif.Axis
open Verif.Nd (Tensor)

/-- Exceptions. -/
inductive Err
  | typeError | valueError | indexError | runtimeError
  deriving DecidableEq, Repr

/-- The place, counted from the innermost dimension, that `dim` means for a tensor with `n` dimensions; none when out of
range (`shape[dim]` raises IndexError then; always for `n = 0`). -/
def axis (n : ℕ) (dim : ℤ) : Option ℕ :=
  if 0 ≤ dim then (if dim < n then some (n - 1 - dim.toNat) else none)
  else if -(n : ℤ) ≤ dim then some (-dim - 1).toNat else none

/-- A reduction such as `t.sum(dim)` or `t.norm(dim=dim)`: `f` gets the numbers along the dimension. -/
def reduce {α β : Type*} (k : ℕ) (f : (ℕ → α) → β) (t : Tensor α) : Tensor β :=
  ⟨t.dims.eraseIdx k, fun i => f fun j => t.get (i.insertIdx k j)⟩

/-- The same with `keepdim=True`: the dimension stays, with size 1. -/
def reduceKeep {α β : Type*} (k : ℕ) (f : (ℕ → α) → β) (t : Tensor α) : Tensor β :=
  ⟨t.dims.set k 1, fun i => f fun j => t.get (i.set k j)⟩

/-- Sum over a dimension of size 3 (the only size that gets past the checks). -/
def sum3 {α : Type*} [Add α] (v : ℕ → α) : α := v 0 + v 1 + v 2

/-- What may be passed as `sigma`. -/
inductive Sigma
  | number (x : ℝ)
  | tensor (t : Tensor ℝ)
  | other

/-- `get_alpha`, fusionutils.py:42-73. -/
noncomputable def getAlpha (points : Tensor ℝ) (sigma : Sigma) (dim : ℤ) (keepdim epsIsFloat : Bool) (eps : ℝ) :
    Except Err (Tensor ℝ) :=
  match sigma with
  | .other => .error .typeError
  | sigma =>
    if epsIsFloat = false then .error .typeError else
    match axis points.rank dim with
    | none => .error .indexError
    | some k =>
      if points.dims[k]? ≠ some 3 then .error .valueError else
      let go (s : ℝ) : Except Err (Tensor ℝ) :=
        let sq (v : ℕ → ℝ) : ℝ := sum3 fun j => v j ^ 2
        let total := if keepdim then reduceKeep k sq points else reduce k sq points
        .ok (total.mapT fun x => min (max (Real.exp (-x / (2 * s ^ 2))) eps) (101 / 100))
      match sigma with
      | .number s => go s
      | .tensor t => if t.rank ≠ 0 then .error .valueError else go (t.get [])
      | .other => .error .typeError

/-- The checks shared by `are_points_close` (fusionutils.py:118-129) and `are_normals_similar` (fusionutils.py:176-187): the
shapes are compared before `shape[dim]` is read. -/
def checkPair (a b : Tensor ℝ) (dim : ℤ) : Except Err ℕ :=
  if a.dims ≠ b.dims then .error .valueError else
  match axis a.rank dim with
  | none => .error .indexError
  | some k => if a.dims[k]? ≠ some 3 then .error .valueError else .ok k

/-- Element-wise arithmetic on tensors of the same shape (checked before). -/
def zip {α : Type*} (f : α → α → α) (a b : Tensor α) : Tensor α := ⟨a.dims, fun i => f (a.get i) (b.get i)⟩

/-- `are_points_close`, fusionutils.py:100-130: `(tensor1 - tensor2).norm(dim=dim) < dist_th`. -/
noncomputable def arePointsClose (a b : Tensor ℝ) (distTh : ℝ) (dim : ℤ) : Except Err (Tensor Bool) :=
  match checkPair a b dim with
  | .error e => .error e
  | .ok k =>
    let n := reduce k (fun v => Real.sqrt (sum3 fun j => v j ^ 2)) (zip (· - ·) a b)
    .ok ⟨n.dims, fun i => decide (n.get i < distTh)⟩

/-- `i` is an index of a tensor with these sizes. -/
def Inside (i dims : List ℕ) : Prop := List.Forall₂ (· < ·) i dims

open Classical in
/-- `are_normals_similar`, fusionutils.py:158-198; the flag says whether the warning is raised.  `dot_res.max()` raises RuntimeError for
a tensor without elements. -/
noncomputable def areNormalsSimilar (a b : Tensor ℝ) (dotTh : ℝ) (dim : ℤ) : Except Err (Tensor Bool × Bool) :=
  match checkPair a b dim with
  | .error e => .error e
  | .ok k =>
    let d := reduce k sum3 (zip (· * ·) a b)
    if 0 ∈ d.dims then .error .runtimeError
    else .ok (⟨d.dims, fun i => decide (dotTh < d.get i)⟩, decide (∃ i, Inside i d.dims ∧ 1001 / 1000 < d.get i))

/-- `norm[:, 0] * x` for the tensor `norm[:, 0]` of shape `(2,)`: element `j` of the last dimension is multiplied by `s j`. -/
def scaleLast (s : ℕ → ℝ) (t : Tensor ℝ) : Tensor ℝ := ⟨t.dims, fun i => s (i.headD 0) * t.get i⟩

/-- `norm = 2.0 / (wh - 1)` with `wh = (height, width)`, geometryutils.py:522-526 and :568-572. -/
noncomputable def pixelNorm (height width : ℤ) (j : ℕ) : ℝ := 2 / ((if j = 0 then (height : ℝ) else width) - 1)

/-- `normalize_pixel_coords`, geometryutils.py:500-528. -/
noncomputable def normalizePixelCoords (t : Tensor ℝ) (height width : ℤ) : Except Err (Tensor ℝ) :=
  match t.dims.head? with
  | none => .error .indexError
  | some d =>
    if d ≠ 2 then .error .valueError
    else .ok ((scaleLast (pixelNorm height width) t).mapT fun x => x - 1)

/-- `unnormalize_pixel_coords`, geometryutils.py:546-573. -/
noncomputable def unnormalizePixelCoords (t : Tensor ℝ) (height width : ℤ) : Except Err (Tensor ℝ) :=
  match t.dims.head? with
  | none => .error .indexError
  | some d =>
    if d ≠ 2 then .error .valueError
    else .ok (scaleLast (fun j => 1 / pixelNorm height width j) (t.mapT fun x => x + 1))

end Verif.Axis

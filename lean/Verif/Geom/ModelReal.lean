import Verif.Geom.Model
import Mathlib.Analysis.SpecialFunctions.Trigonometric.Basic
import Mathlib.Analysis.SpecialFunctions.Sqrt
/-!
Model over ℝ of the functions that use square roots and trigonometry: quaternions (`geometryutils.py`) and the SE(3)
exponential (`se3utils.py`).
-/
namespace Verif.Geom
open Real

/-- A quaternion `(x, y, z, w)`. -/
@[ext] structure Quat where
  x : ℝ
  y : ℝ
  z : ℝ
  w : ℝ

/-- Euclidean norm of the quaternion. -/
noncomputable def Quat.norm (q : Quat) : ℝ := √(q.x * q.x + q.y * q.y + q.z * q.z + q.w * q.w)

/-- `normalize_quaternion`, geometryutils.py:127-145: `torch.nn.functional.normalize` divides by `max(‖q‖, eps)`. -/
noncomputable def normalizeQuaternion (eps : ℝ) (q : Quat) : Quat :=
  let d := max q.norm eps
  ⟨q.x / d, q.y / d, q.z / d, q.w / d⟩

/-- The polynomial part of `quaternion_to_rotation_matrix`, geometryutils.py:170-198. -/
noncomputable def rotOfQuat (q : Quat) : M3 ℝ :=
  let tx := 2 * q.x
  let ty := 2 * q.y
  let tz := 2 * q.z
  let twx := tx * q.w
  let twy := ty * q.w
  let twz := tz * q.w
  let txx := tx * q.x
  let txy := ty * q.x
  let txz := tz * q.x
  let tyy := ty * q.y
  let tyz := tz * q.y
  let tzz := tz * q.z
  ⟨⟨1 - (tyy + tzz), txy - twz, txz + twy⟩,
   ⟨txy + twz, 1 - (txx + tzz), tyz - twx⟩,
   ⟨txz - twy, tyz + twx, 1 - (txx + tyy)⟩⟩

/-- `quaternion_to_rotation_matrix`, geometryutils.py:148-202 (`normalize_quaternion` is called with its default eps,
`1e-12`, kept as a parameter here). -/
noncomputable def quaternionToRotation (eps : ℝ) (q : Quat) : M3 ℝ := rotOfQuat (normalizeQuaternion eps q)

/-- `so3_hat`, se3utils.py:11-26. -/
noncomputable def so3Hat (w : V3 ℝ) : M3 ℝ := ⟨⟨0, -w.z, w.y⟩, ⟨w.z, 0, -w.x⟩, ⟨-w.y, w.x, 0⟩⟩

/-- `se3_hat`, se3utils.py:29-44, with `xi = (v, omega)`. -/
noncomputable def se3Hat (v w : V3 ℝ) : M4 ℝ := ⟨so3Hat w, v, V3.zero, 0⟩

/-- `omega.norm()`. -/
noncomputable def vnorm (w : V3 ℝ) : ℝ := √(w.x * w.x + w.y * w.y + w.z * w.z)

/-- `so3_exp`, se3utils.py:47-74; `eps` is the module constant `_eps = 1e-6` (se3utils.py:8). -/
noncomputable def so3Exp (eps : ℝ) (w : V3 ℝ) : M3 ℝ :=
  let W := so3Hat w
  if vnorm w < eps then M3.one.add W
  else
    let θ := vnorm w
    let A := sin θ / θ
    let B := (1 - cos θ) / θ ^ 2
    (M3.one.add (W.smul A)).add ((W.mul W).smul B)

/-- The matrix `V` of `se3_exp`, se3utils.py:89-110. -/
noncomputable def se3V (eps : ℝ) (w : V3 ℝ) : M3 ℝ :=
  let W := so3Hat w
  if vnorm w < eps then M3.one.add W
  else
    let θ := vnorm w
    let B := (1 - cos θ) / θ ^ 2
    let C := (θ - sin θ) / θ ^ 3
    (M3.one.add (W.smul B)).add ((W.mul W).smul C)

/-- `se3_exp`, se3utils.py:77-115 (its rotation block is computed by the same expressions as `so3_exp`, :89-105). -/
noncomputable def se3Exp (eps : ℝ) (v w : V3 ℝ) : M4 ℝ :=
  ⟨so3Exp eps w, (se3V eps w).mulVec v, V3.zero, 1⟩

end Verif.Geom

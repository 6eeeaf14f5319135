import Verif.Geom.PropsReal
import Verif.Data.Images
/-! Property C58: pose records `(t, q)` to homogeneous matrices (`datautils.py`, `tumutils.py`), over ℝ. -/
namespace Verif.Data
open Geom Real

/-- The matrix both converters assemble from the outer product `q qᵀ` of the rescaled quaternion:
datautils.py:191-215 and tumutils.py:83-92 (the two write the same entries). -/
noncomputable def assemble (t : V3 ℝ) (q : Quat) : M4 ℝ :=
  ⟨⟨⟨1 - (q.y * q.y + q.z * q.z), q.x * q.y - q.z * q.w, q.x * q.z + q.y * q.w⟩,
    ⟨q.x * q.y + q.z * q.w, 1 - (q.x * q.x + q.z * q.z), q.y * q.z - q.x * q.w⟩,
    ⟨q.x * q.z - q.y * q.w, q.y * q.z + q.x * q.w, 1 - (q.x * q.x + q.y * q.y)⟩⟩, t, V3.zero, 1⟩

/-- `pointquaternion_to_homogeneous` on one row, datautils.py:120-215: `q /= max((0.5 ‖q‖²)^0.5, eps)`. The casts to float32 are not
modelled. -/
noncomputable def pointquaternionToHomogeneous (eps : ℝ) (t : V3 ℝ) (q : Quat) : M4 ℝ :=
  let d := max (√(0.5 * (q.x ^ 2 + q.y ^ 2 + q.z ^ 2 + q.w ^ 2))) eps
  assemble t ⟨q.x / d, q.y / d, q.z / d, q.w / d⟩

/-- `transform44`, tumutils.py:57-92; `EPS` is `_EPS` (tumutils.py:54). The branch for tiny quaternions calls a tuple
(`(1.0, …)(0.0, …)`), a TypeError. -/
noncomputable def transform44 (EPS : ℝ) (t : V3 ℝ) (q : Quat) : Except Err (M4 ℝ) :=
  let nq := q.x * q.x + q.y * q.y + q.z * q.z + q.w * q.w
  if nq < EPS then .error .typeError
  else
    let s := √(2 / nq)
    .ok (assemble t ⟨q.x * s, q.y * s, q.z * s, q.w * s⟩)

theorem assemble_sqrt2 (t : V3 ℝ) (q : Quat) (s : ℝ) (hs : s * s = 2) :
    assemble t ⟨q.x * s, q.y * s, q.z * s, q.w * s⟩ = ⟨rotOfQuat q, t, V3.zero, 1⟩ := by
  have e : ∀ a b : ℝ, a * s * (b * s) = 2 * (a * b) := fun a b => by rw [← hs]; ring
  simp only [assemble, rotOfQuat, e]
  congr 3 <;> ring

/-- **C58 (a)**. For every translation and every quaternion that is not tiny, `pointquaternion_to_homogeneous` returns the rigid
transform whose translation is `t` and whose rotation block is exactly the proper rotation the geometry module computes. -/
theorem pointquaternion_rigid (eps eps' : ℝ) (heps' : 0 < eps') (t : V3 ℝ) (q : Quat)
    (hq : √2 * eps ≤ q.norm) (hq' : eps' ≤ q.norm) :
    (pointquaternionToHomogeneous eps t q).R = quaternionToRotation eps' q ∧
    IsRotation (pointquaternionToHomogeneous eps t q).R ∧
    (pointquaternionToHomogeneous eps t q).Rigid ∧ (pointquaternionToHomogeneous eps t q).t = t := by
  have h2 : (0 : ℝ) < √2 := by positivity
  have hsq : √2 * √2 = 2 := Real.mul_self_sqrt (by norm_num)
  have hn : 0 < q.norm := lt_of_lt_of_le heps' hq'
  have hd : √(0.5 * (q.x ^ 2 + q.y ^ 2 + q.z ^ 2 + q.w ^ 2)) = q.norm / √2 := by
    rw [Quat.norm, ← Real.sqrt_div' _ (by norm_num)]; congr 1; ring
  have hle : eps ≤ q.norm / √2 := by rw [le_div_iff₀ h2]; linarith [mul_comm eps √2]
  have e : pointquaternionToHomogeneous eps t q = ⟨quaternionToRotation eps' q, t, V3.zero, 1⟩ := by
    simp only [pointquaternionToHomogeneous, hd, max_eq_left hle]
    rw [quaternionToRotation, ← assemble_sqrt2 t _ √2 hsq]
    simp only [normalizeQuaternion, max_eq_left hq']
    congr 2 <;> (field_simp)
  have hr := quaternion_gives_rotation eps' heps' q hq'
  rw [e]
  exact ⟨rfl, hr, ⟨⟨rfl, rfl⟩, hr.1, hr.2.1⟩, rfl⟩

/-- **C58 (b)**. Whenever `transform44` returns, it returns the same matrix as `pointquaternion_to_homogeneous` (for thresholds
`eps² ≤ EPS / 2`, which holds for the constants in the code), and it fails exactly for tiny quaternions — the documented identity
fallback is a TypeError. -/
theorem transform44_spec (EPS eps : ℝ) (hE : 0 < EPS) (hle : 2 * eps ^ 2 ≤ EPS) (t : V3 ℝ) (q : Quat) :
    transform44 EPS t q =
      if q.norm ^ 2 < EPS then .error .typeError else .ok (pointquaternionToHomogeneous eps t q) := by
  have hns : q.norm ^ 2 = q.x * q.x + q.y * q.y + q.z * q.z + q.w * q.w := by
    rw [Quat.norm, Real.sq_sqrt]
    nlinarith [mul_self_nonneg q.x, mul_self_nonneg q.y, mul_self_nonneg q.z, mul_self_nonneg q.w]
  simp only [transform44, ← hns]
  split_ifs with h
  · rfl
  · rw [not_lt] at h
    have hn : 0 < q.norm := by
      rcases (Quat.norm_nonneg q).lt_or_eq with h' | h'
      · exact h'
      · rw [← h'] at h; norm_num at h; linarith
    have h2 : (0 : ℝ) < √2 := by positivity
    have hd : √(0.5 * (q.x ^ 2 + q.y ^ 2 + q.z ^ 2 + q.w ^ 2)) = q.norm / √2 := by
      rw [Quat.norm, ← Real.sqrt_div' _ (by norm_num)]; congr 1; ring
    have hs : √(2 / q.norm ^ 2) = √2 / q.norm := by
      rw [Real.sqrt_div (by norm_num), Real.sqrt_sq hn.le]
    have hmax : eps ≤ q.norm / √2 := by
      rw [le_div_iff₀ h2]
      apply le_of_sq_le_sq _ hn.le
      rw [mul_pow, Real.sq_sqrt (by norm_num)]; linarith
    simp only [pointquaternionToHomogeneous, hd, max_eq_left hmax, hs]
    congr 3 <;> field_simp

/-- The all-zero quaternion gives the identity rotation with `pointquaternion_to_homogeneous` and a TypeError with `transform44`. -/
theorem zero_pose_quaternion (EPS eps : ℝ) (hE : 0 < EPS) (t : V3 ℝ) :
    pointquaternionToHomogeneous eps t ⟨0, 0, 0, 0⟩ = ⟨M3.one, t, V3.zero, 1⟩ ∧
    transform44 EPS t ⟨0, 0, 0, 0⟩ = .error .typeError := by
  constructor
  · simp [pointquaternionToHomogeneous, assemble, M3.one]
  · simp [transform44, hE]

/-- Witness: the constants of the code (eps = 1e-12, EPS = 4·2⁻⁵²) and a non-unit quaternion of norm 5. -/
example : (2 : ℝ) * (1e-12) ^ 2 ≤ 4 * (1 / 2 ^ 52) ∧ √2 * (1e-12) ≤ (⟨0, 3, 0, 4⟩ : Quat).norm := by
  constructor
  · norm_num
  · have : (⟨0, 3, 0, 4⟩ : Quat).norm = 5 := by
      simp only [Quat.norm]; rw [show (0 : ℝ) * 0 + 3 * 3 + 0 * 0 + 4 * 4 = 5 ^ 2 by norm_num]; exact Real.sqrt_sq (by norm_num)
    rw [this]
    have : √2 ≤ 2 := by rw [Real.sqrt_le_left (by norm_num)]; norm_num
    linarith [this]

end Verif.Data

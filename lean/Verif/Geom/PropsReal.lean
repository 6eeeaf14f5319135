import Verif.Geom.ModelReal
import Mathlib.Tactic.Linarith
import Mathlib.Tactic.Positivity
/-! Property theorems C20 (quaternions) and C24 (SO(3)/SE(3) exponential), over ℝ. -/
namespace Verif.Geom
open Verif Real

attribute [local simp] V3.zero V3.add V3.sub V3.neg V3.smul V3.dot V3.cross V3.normSq
  M3.one M3.zero M3.c0 M3.c1 M3.c2 M3.transpose M3.mulVec M3.mul M3.add M3.smul M3.neg M3.outer M3.det

/-! ### C20 quaternions -/

/-- Specification: sum of squares. -/
def Quat.sq (q : Quat) : ℝ := q.x ^ 2 + q.y ^ 2 + q.z ^ 2 + q.w ^ 2

/-- Specification: the Hamilton product of quaternions. -/
def Quat.mul (a b : Quat) : Quat :=
  ⟨a.w * b.x + a.x * b.w + a.y * b.z - a.z * b.y,
   a.w * b.y - a.x * b.z + a.y * b.w + a.z * b.x,
   a.w * b.z + a.x * b.y - a.y * b.x + a.z * b.w,
   a.w * b.w - a.x * b.x - a.y * b.y - a.z * b.z⟩

def Quat.neg (q : Quat) : Quat := ⟨-q.x, -q.y, -q.z, -q.w⟩

theorem Quat.norm_sq (q : Quat) : q.norm * q.norm = q.sq := by
  unfold Quat.norm Quat.sq
  rw [Real.mul_self_sqrt (by nlinarith [mul_self_nonneg q.x, mul_self_nonneg q.y, mul_self_nonneg q.z, mul_self_nonneg q.w])]; ring

theorem Quat.norm_nonneg (q : Quat) : 0 ≤ q.norm := Real.sqrt_nonneg _

theorem rotOfQuat_unit (q : Quat) (h : q.sq = 1) : IsRotation (rotOfQuat q) := by
  obtain ⟨x, y, z, w⟩ := q
  simp only [Quat.sq] at h
  refine ⟨?_, ?_, ?_⟩
  · ext <;> simp [rotOfQuat]
    · linear_combination (4 * y ^ 2 + 4 * z ^ 2) * h
    · linear_combination (-4 * x * y) * h
    · linear_combination (-4 * x * z) * h
    · linear_combination (-4 * x * y) * h
    · linear_combination (4 * x ^ 2 + 4 * z ^ 2) * h
    · linear_combination (-4 * y * z) * h
    · linear_combination (-4 * x * z) * h
    · linear_combination (-4 * y * z) * h
    · linear_combination (4 * x ^ 2 + 4 * y ^ 2) * h
  · ext <;> simp [rotOfQuat]
    · linear_combination (4 * y ^ 2 + 4 * z ^ 2) * h
    · linear_combination (-4 * x * y) * h
    · linear_combination (-4 * x * z) * h
    · linear_combination (-4 * x * y) * h
    · linear_combination (4 * x ^ 2 + 4 * z ^ 2) * h
    · linear_combination (-4 * y * z) * h
    · linear_combination (-4 * x * z) * h
    · linear_combination (-4 * y * z) * h
    · linear_combination (4 * x ^ 2 + 4 * y ^ 2) * h
  · simp [rotOfQuat]
    linear_combination (4 * (x ^ 2 + y ^ 2 + z ^ 2)) * h

theorem normalize_sq (eps : ℝ) (heps : 0 < eps) (q : Quat) (hq : eps ≤ q.norm) :
    (normalizeQuaternion eps q).sq = 1 := by
  have hn : 0 < q.norm := lt_of_lt_of_le heps hq
  have hs := q.norm_sq
  simp only [normalizeQuaternion, max_eq_left hq, Quat.sq] at *
  field_simp
  linarith

/-- **C20 (a)**. Every quaternion of norm at least the normalisation threshold (1e-12 in the code; it need not be unit) is
converted to a proper rotation: orthogonal with determinant 1. -/
theorem quaternion_gives_rotation (eps : ℝ) (heps : 0 < eps) (q : Quat) (hq : eps ≤ q.norm) :
    IsRotation (quaternionToRotation eps q) :=
  rotOfQuat_unit _ (normalize_sq eps heps q hq)

/-- **C20 (b)**. `q` and `-q`, and `q` and any positive rescaling of it above the threshold, give the same rotation. -/
theorem quaternion_double_cover (eps : ℝ) (q : Quat) :
    quaternionToRotation eps q.neg = quaternionToRotation eps q := by
  have hn : q.neg.norm = q.norm := by simp [Quat.norm, Quat.neg]
  simp only [quaternionToRotation, normalizeQuaternion, hn]
  ext <;> simp [rotOfQuat, Quat.neg] <;> ring

theorem quaternion_scale_invariant (eps c : ℝ) (heps : 0 < eps) (hc : 0 < c) (q : Quat) (hq : eps ≤ q.norm)
    (hcq : eps ≤ c * q.norm) :
    quaternionToRotation eps ⟨c * q.x, c * q.y, c * q.z, c * q.w⟩ = quaternionToRotation eps q := by
  have hn : (⟨c * q.x, c * q.y, c * q.z, c * q.w⟩ : Quat).norm = c * q.norm := by
    simp only [Quat.norm]
    rw [← Real.sqrt_sq hc.le, ← Real.sqrt_mul (by positivity), Real.sqrt_sq hc.le]
    congr 1; ring
  have h0 : 0 < q.norm := lt_of_lt_of_le heps hq
  simp only [quaternionToRotation, normalizeQuaternion, hn, max_eq_left hq, max_eq_left hcq]
  have e : ∀ a : ℝ, c * a / (c * q.norm) = a / q.norm := fun a => mul_div_mul_left _ _ hc.ne'
  simp only [e]

/-- **C20 (c)**. The zero quaternion gives the identity matrix (no division by zero). -/
theorem quaternion_zero (eps : ℝ) : quaternionToRotation eps ⟨0, 0, 0, 0⟩ = M3.one := by
  ext <;> simp [quaternionToRotation, normalizeQuaternion, rotOfQuat]

/-- Homogeneous form of the rotation polynomial, used only in the proof of multiplicativity. -/
def rotH (q : Quat) : M3 ℝ :=
  ⟨⟨q.w ^ 2 + q.x ^ 2 - q.y ^ 2 - q.z ^ 2, 2 * q.x * q.y - 2 * q.z * q.w, 2 * q.x * q.z + 2 * q.y * q.w⟩,
   ⟨2 * q.x * q.y + 2 * q.z * q.w, q.w ^ 2 - q.x ^ 2 + q.y ^ 2 - q.z ^ 2, 2 * q.y * q.z - 2 * q.x * q.w⟩,
   ⟨2 * q.x * q.z - 2 * q.y * q.w, 2 * q.y * q.z + 2 * q.x * q.w, q.w ^ 2 - q.x ^ 2 - q.y ^ 2 + q.z ^ 2⟩⟩

theorem rotOfQuat_eq_rotH (q : Quat) (h : q.sq = 1) : rotOfQuat q = rotH q := by
  simp only [Quat.sq] at h
  ext <;> simp [rotOfQuat, rotH] <;> first | ring1 | linear_combination -h

/-- **C20 (d)**. Multiplying quaternions composes the rotations (for unit quaternions, and hence for the normalised ones the
code uses). -/
theorem quaternion_mul (a b : Quat) (ha : a.sq = 1) (hb : b.sq = 1) :
    rotOfQuat (a.mul b) = (rotOfQuat a).mul (rotOfQuat b) ∧ (a.mul b).sq = 1 := by
  have hab : (a.mul b).sq = 1 := by
    have e : (a.mul b).sq = a.sq * b.sq := by simp only [Quat.sq, Quat.mul]; ring
    rw [e, ha, hb, one_mul]
  refine ⟨?_, hab⟩
  rw [rotOfQuat_eq_rotH _ ha, rotOfQuat_eq_rotH _ hb, rotOfQuat_eq_rotH _ hab]
  ext <;> simp [rotH, Quat.mul] <;> ring

/-- **C20 (e)**. The rotation rotates about the vector part: `(x,y,z)` is fixed. -/
theorem quaternion_axis_fixed (eps : ℝ) (q : Quat) :
    (quaternionToRotation eps q).mulVec ⟨q.x, q.y, q.z⟩ = ⟨q.x, q.y, q.z⟩ := by
  simp only [quaternionToRotation, normalizeQuaternion]
  generalize max q.norm eps = d
  by_cases hd : d = 0
  · subst hd; ext <;> simp [rotOfQuat]
  · ext <;> simp [rotOfQuat] <;> field_simp <;> ring

/-- **C20, the part that fails**: a non-zero quaternion shorter than the threshold is not normalised to unit length, and the
matrix is then not a rotation (witness: norm eps/2). -/
theorem tiny_quaternion_not_rotation (eps : ℝ) (heps : 0 < eps) :
    ∃ q : Quat, 0 < q.norm ∧ q.norm < eps ∧ ¬ IsRotation (quaternionToRotation eps q) := by
  have hn : (⟨eps / 2, 0, 0, 0⟩ : Quat).norm = eps / 2 := by
    simp only [Quat.norm]
    rw [show eps / 2 * (eps / 2) + 0 * 0 + 0 * 0 + 0 * 0 = (eps / 2) ^ 2 by ring]
    exact Real.sqrt_sq (by positivity)
  refine ⟨⟨eps / 2, 0, 0, 0⟩, by rw [hn]; positivity, by rw [hn]; linarith, ?_⟩
  intro h
  have h1 := congrArg (fun A : M3 ℝ => A.r1.y) h.1
  have hm : max (eps / 2) eps = eps := max_eq_right (by linarith)
  simp only [quaternionToRotation, normalizeQuaternion, hn, hm] at h1
  have h2 : eps / 2 / eps = 1 / 2 := by field_simp
  simp [rotOfQuat, h2] at h1
  norm_num at h1

example : ∃ q : Quat, (1e-12 : ℝ) ≤ q.norm ∧ q.norm ≠ 1 := by
  have h : (⟨0, 0, 0, 2⟩ : Quat).norm = 2 := by
    simp only [Quat.norm]
    rw [show (0:ℝ) * 0 + 0 * 0 + 0 * 0 + 2 * 2 = 2 ^ 2 by norm_num]
    exact Real.sqrt_sq (by norm_num)
  exact ⟨⟨0, 0, 0, 2⟩, by rw [h]; norm_num, by rw [h]; norm_num⟩

example : (⟨3/5, 0, 0, 4/5⟩ : Quat).sq = 1 ∧ (⟨0, 1, 0, 0⟩ : Quat).sq = 1 := by
  constructor <;> norm_num [Quat.sq]

/-! ### C24 the exponential map -/

theorem vnorm_sq (w : V3 ℝ) : vnorm w ^ 2 = w.x ^ 2 + w.y ^ 2 + w.z ^ 2 := by
  unfold vnorm
  rw [Real.sq_sqrt (by nlinarith [mul_self_nonneg w.x, mul_self_nonneg w.y, mul_self_nonneg w.z])]; ring

theorem vnorm_nonneg (w : V3 ℝ) : 0 ≤ vnorm w := Real.sqrt_nonneg _

/-- Specification: Rodrigues coefficients satisfy these two relations, which are all that is used. -/
theorem rodrigues_coeffs (θ : ℝ) (h : θ ≠ 0) :
    (sin θ / θ) ^ 2 + ((1 - cos θ) / θ ^ 2) ^ 2 * θ ^ 2 = 2 * ((1 - cos θ) / θ ^ 2) := by
  have hs := Real.sin_sq_add_cos_sq θ
  field_simp
  linear_combination hs

/-- `I + A ŵ + B ŵ²` written out by entries. -/
theorem rodrigues_isRotation (w : V3 ℝ) (A B t : ℝ) (ht : t = w.x ^ 2 + w.y ^ 2 + w.z ^ 2)
    (h : A ^ 2 + B ^ 2 * t = 2 * B) :
    IsRotation ((M3.one.add ((so3Hat w).smul A)).add (((so3Hat w).mul (so3Hat w)).smul B)) := by
  obtain ⟨x, y, z⟩ := w
  simp only at ht
  subst ht
  refine ⟨?_, ?_, ?_⟩
  · ext <;> simp [so3Hat]
    · linear_combination (y ^ 2 + z ^ 2) * h
    · linear_combination (-x * y) * h
    · linear_combination (-x * z) * h
    · linear_combination (-x * y) * h
    · linear_combination (x ^ 2 + z ^ 2) * h
    · linear_combination (-y * z) * h
    · linear_combination (-x * z) * h
    · linear_combination (-y * z) * h
    · linear_combination (x ^ 2 + y ^ 2) * h
  · ext <;> simp [so3Hat]
    · linear_combination (y ^ 2 + z ^ 2) * h
    · linear_combination (-x * y) * h
    · linear_combination (-x * z) * h
    · linear_combination (-x * y) * h
    · linear_combination (x ^ 2 + z ^ 2) * h
    · linear_combination (-y * z) * h
    · linear_combination (-x * z) * h
    · linear_combination (-y * z) * h
    · linear_combination (x ^ 2 + y ^ 2) * h
  · simp [so3Hat]
    linear_combination (x ^ 2 + y ^ 2 + z ^ 2) * h

/-- **C24 (a)**. For every axis-angle vector of norm at least the threshold (1e-6 in the code), `so3_exp` is a proper rotation
that fixes the axis. -/
theorem so3_exp_rotation_partial (eps : ℝ) (heps : 0 < eps) (w : V3 ℝ) (hw : eps ≤ vnorm w) :
    IsRotation (so3Exp eps w) ∧ (so3Exp eps w).mulVec w = w := by
  have hθ : vnorm w ≠ 0 := (lt_of_lt_of_le heps hw).ne'
  have hr := rodrigues_coeffs (vnorm w) hθ
  simp only [so3Exp, not_lt.mpr hw, if_false]
  constructor
  · exact rodrigues_isRotation w _ _ (vnorm w ^ 2) (vnorm_sq w) hr
  · ext <;> simp [so3Hat] <;> ring

/-- **C24 (b)**. The angle of `so3_exp(w)` is `‖w‖`: its trace is `1 + 2 cos‖w‖`. -/
theorem so3_exp_trace (eps : ℝ) (heps : 0 < eps) (w : V3 ℝ) (hw : eps ≤ vnorm w) :
    (so3Exp eps w).r0.x + (so3Exp eps w).r1.y + (so3Exp eps w).r2.z = 1 + 2 * cos (vnorm w) := by
  have hθ : vnorm w ≠ 0 := (lt_of_lt_of_le heps hw).ne'
  have h2 := vnorm_sq w
  simp only [so3Exp, not_lt.mpr hw, if_false]
  simp [so3Hat]
  field_simp
  linear_combination (2 * (1 - cos (vnorm w))) * h2

theorem vnorm_smul_unit (a : ℝ) (n : V3 ℝ) (hn : n.x ^ 2 + n.y ^ 2 + n.z ^ 2 = 1) : vnorm (n.smul a) = |a| := by
  unfold vnorm
  rw [show (n.smul a).x * (n.smul a).x + (n.smul a).y * (n.smul a).y + (n.smul a).z * (n.smul a).z = a ^ 2 by
    simp; linear_combination a ^ 2 * hn]
  exact Real.sqrt_sq_eq_abs a

/-- About a unit axis the formula is `I + sin a · n̂ + (1 - cos a) · n̂²` for either sign of the angle. -/
theorem so3_exp_unit (eps : ℝ) (heps : 0 < eps) (a : ℝ) (ha : eps ≤ |a|) (n : V3 ℝ)
    (hn : n.x ^ 2 + n.y ^ 2 + n.z ^ 2 = 1) :
    so3Exp eps (n.smul a) =
      (M3.one.add ((so3Hat n).smul (sin a))).add (((so3Hat n).mul (so3Hat n)).smul (1 - cos a)) := by
  have hv := vnorm_smul_unit a n hn
  have h0 : |a| ≠ 0 := (lt_of_lt_of_le heps ha).ne'
  have ha0 : a ≠ 0 := by simpa using h0
  have h1 : sin |a| / |a| * a = sin a := by
    rcases abs_cases a with ⟨e, _⟩ | ⟨e, _⟩ <;> rw [e]
    · field_simp
    · rw [Real.sin_neg]; field_simp
  have h2 : (1 - cos |a|) / |a| ^ 2 * a ^ 2 = 1 - cos a := by
    rw [Real.cos_abs, sq_abs]; field_simp
  simp only [so3Exp, hv, not_lt.mpr ha, if_false]
  generalize sin |a| / |a| = A at *
  generalize (1 - cos |a|) / |a| ^ 2 = B at *
  rw [← h1, ← h2]
  ext <;> simp [so3Hat] <;> ring1

/-- **C24 (c)**. One-parameter group: rotating by `a` and then by `b` about the same axis is rotating by `a + b`
(all three angles above the threshold). -/
theorem so3_exp_add (eps : ℝ) (heps : 0 < eps) (a b : ℝ) (ha : eps ≤ |a|) (hb : eps ≤ |b|) (hab : eps ≤ |a + b|)
    (n : V3 ℝ) (hn : n.x ^ 2 + n.y ^ 2 + n.z ^ 2 = 1) :
    (so3Exp eps (n.smul a)).mul (so3Exp eps (n.smul b)) = so3Exp eps (n.smul (a + b)) := by
  rw [so3_exp_unit eps heps a ha n hn, so3_exp_unit eps heps b hb n hn, so3_exp_unit eps heps _ hab n hn,
    Real.sin_add, Real.cos_add]
  -- `n̂³ = -n̂` for a unit axis
  have h3 : (so3Hat n).mul ((so3Hat n).mul (so3Hat n)) = (so3Hat n).neg := by
    ext <;> simp [so3Hat] <;> first | ring1 | linear_combination (n.z) * hn | linear_combination (-n.z) * hn |
      linear_combination (n.y) * hn | linear_combination (-n.y) * hn | linear_combination (n.x) * hn |
      linear_combination (-n.x) * hn
  generalize so3Hat n = N at *
  have h4 : (N.mul N).mul (N.mul N) = (N.mul N).neg := by
    rw [M3.mul_assoc, h3]; ext <;> simp <;> ring
  have dist : ∀ (s c s' c' : ℝ),
      ((M3.one.add (N.smul s)).add ((N.mul N).smul c)).mul ((M3.one.add (N.smul s')).add ((N.mul N).smul c')) =
      (((M3.one.add (N.smul (s + s'))).add ((N.mul N).smul (s * s' + c + c'))).add
        ((N.mul (N.mul N)).smul (s * c' + c * s'))).add (((N.mul N).mul (N.mul N)).smul (c * c')) := by
    intro s c s' c'
    ext <;> simp <;> ring
  rw [dist, h3, h4]
  ext <;> simp <;> ring

/-- **C24 (d)**. `se3_exp` always has bottom row `(0,0,0,1)`; above the threshold its rotation block is a proper rotation, the
twist `(v, ω)` and `(-v, -ω)` give mutually inverse transforms, and `V` is the left Jacobian: `R = I + ω̂ V`. -/
theorem se3_exp_rigid_partial (eps : ℝ) (heps : 0 < eps) (v w : V3 ℝ) :
    (se3Exp eps v w).Affine ∧
    (eps ≤ vnorm w → (se3Exp eps v w).Rigid ∧ (se3Exp eps v w).R.det = 1 ∧
      (se3Exp eps v w).R = M3.one.add ((so3Hat w).mul (se3V eps w)) ∧
      (se3Exp eps v w).mul (se3Exp eps v.neg w.neg) = M4.one) := by
  refine ⟨⟨rfl, rfl⟩, ?_⟩
  intro hw
  obtain ⟨⟨h1, h2, h3⟩, _⟩ := so3_exp_rotation_partial eps heps w hw
  have hθ : vnorm w ≠ 0 := (lt_of_lt_of_le heps hw).ne'
  have hsq := vnorm_sq w
  have hneg : vnorm w.neg = vnorm w := by simp [vnorm]
  refine ⟨⟨⟨rfl, rfl⟩, h1, h2⟩, h3, ?_, ?_⟩
  · simp only [se3Exp, so3Exp, se3V, not_lt.mpr hw, if_false]
    have hC : (vnorm w - sin (vnorm w)) / vnorm w ^ 3 * vnorm w ^ 2 = 1 - sin (vnorm w) / vnorm w := by
      field_simp
    rw [hsq] at hC
    generalize (vnorm w - sin (vnorm w)) / vnorm w ^ 3 = C at *
    generalize sin (vnorm w) / vnorm w = A at *
    generalize (1 - cos (vnorm w)) / vnorm w ^ 2 = B
    ext <;> simp [so3Hat] <;> first | ring1 | linear_combination (w.x) * hC | linear_combination (-w.x) * hC |
      linear_combination (w.y) * hC | linear_combination (-w.y) * hC | linear_combination (w.z) * hC |
      linear_combination (-w.z) * hC
  · -- R(ω) R(-ω) = I and V(ω) = R(ω) V(-ω)
    have hR : so3Exp eps w.neg = (so3Exp eps w).transpose := by
      simp only [so3Exp, hneg, not_lt.mpr hw, if_false]
      generalize sin (vnorm w) / vnorm w = A
      generalize (1 - cos (vnorm w)) / vnorm w ^ 2 = B
      ext <;> simp only [so3Hat, V3.add, V3.neg, V3.smul, V3.dot, M3.one, M3.c0, M3.c1, M3.c2, M3.transpose,
        M3.mul, M3.add, M3.smul] <;> ring
    have hrod := rodrigues_coeffs (vnorm w) hθ
    have hC : (vnorm w - sin (vnorm w)) / vnorm w ^ 3 * vnorm w ^ 2 = 1 - sin (vnorm w) / vnorm w := by
      field_simp
    have hBC : (sin (vnorm w) / vnorm w) * ((vnorm w - sin (vnorm w)) / vnorm w ^ 3) * vnorm w ^ 2
        - ((1 - cos (vnorm w)) / vnorm w ^ 2) ^ 2 * vnorm w ^ 2 =
        sin (vnorm w) / vnorm w - 2 * ((1 - cos (vnorm w)) / vnorm w ^ 2) := by
      have hs := Real.sin_sq_add_cos_sq (vnorm w)
      field_simp
      linear_combination -hs
    have hV : (so3Exp eps w).mul (se3V eps w.neg) = se3V eps w := by
      simp only [so3Exp, se3V, hneg, not_lt.mpr hw, if_false]
      generalize (vnorm w - sin (vnorm w)) / vnorm w ^ 3 = C at *
      generalize sin (vnorm w) / vnorm w = A at *
      generalize (1 - cos (vnorm w)) / vnorm w ^ 2 = B at *
      rw [hsq] at hC hBC
      have h3 : (so3Hat w).mul ((so3Hat w).mul (so3Hat w)) = (so3Hat w).smul (-(w.x ^ 2 + w.y ^ 2 + w.z ^ 2)) := by
        ext <;> simp only [so3Hat, V3.smul, V3.dot, M3.c0, M3.c1, M3.c2, M3.mul, M3.smul] <;> ring
      have hn : so3Hat w.neg = (so3Hat w).smul (-1) := by
        ext <;> simp [so3Hat]
      rw [hn]
      generalize w.x ^ 2 + w.y ^ 2 + w.z ^ 2 = t at *
      generalize so3Hat w = N at *
      have h4 : (N.mul N).mul (N.mul N) = (N.mul N).smul (-t) := by
        rw [M3.mul_assoc, h3]; ext <;> simp <;> ring
      have dist :
          ((M3.one.add (N.smul A)).add ((N.mul N).smul B)).mul
            ((M3.one.add ((N.smul (-1)).smul B)).add (((N.smul (-1)).mul (N.smul (-1))).smul C)) =
          (((M3.one.add (N.smul (A - B))).add ((N.mul N).smul (B + C - A * B))).add
            ((N.mul (N.mul N)).smul (A * C - B ^ 2))).add (((N.mul N).mul (N.mul N)).smul (B * C)) := by
        ext <;> simp <;> ring
      rw [dist, h3, h4]
      have e1 : B = A - B - t * (A * C - B ^ 2) := by linear_combination hBC
      have e2 : C = B + C - A * B - t * (B * C) := by linear_combination B * hC
      have e3 : (M3.one.add (N.smul B)).add ((N.mul N).smul C) =
          (M3.one.add (N.smul (A - B - t * (A * C - B ^ 2)))).add ((N.mul N).smul (B + C - A * B - t * (B * C))) := by
        rw [← e1, ← e2]
      rw [e3]
      generalize N.mul N = N2
      ext <;> simp <;> ring
    have hneg' : ∀ (M : M3 ℝ) (u : V3 ℝ), M.mulVec u.neg = (M.mulVec u).neg := by
      intro M u; ext <;> simp <;> ring
    simp only [M4.mul, se3Exp, hR, h1, hneg']
    have e : (so3Exp eps w).mulVec (((se3V eps w.neg).mulVec v)) = (se3V eps w).mulVec v := by
      rw [← M3.mul_mulVec, hV]
    rw [e]
    generalize (se3V eps w).mulVec v = u
    ext <;> simp [M4.one]

/-- **C24, the part that fails**: below the threshold the code returns `I + ω̂`, and for every non-zero such `ω` this is not
orthogonal: `R Rᵀ = I - ω̂²`. -/
theorem so3_exp_small_not_rotation (eps : ℝ) (w : V3 ℝ) (hw : vnorm w < eps) :
    (so3Exp eps w).mul (so3Exp eps w).transpose = M3.one.add (((so3Hat w).mul (so3Hat w)).smul (-1)) ∧
    (w ≠ V3.zero → ¬ IsRotation (so3Exp eps w)) := by
  have e : (so3Exp eps w).mul (so3Exp eps w).transpose = M3.one.add (((so3Hat w).mul (so3Hat w)).smul (-1)) := by
    simp only [so3Exp, hw, if_true]
    ext <;> simp [so3Hat] <;> ring
  refine ⟨e, ?_⟩
  intro hne h
  apply hne
  rw [h.1] at e
  have a1 := congrArg (fun A : M3 ℝ => A.r0.x) e
  have a2 := congrArg (fun A : M3 ℝ => A.r1.y) e
  simp [so3Hat] at a1 a2
  have x0 : w.x = 0 := by nlinarith [mul_self_nonneg w.x, mul_self_nonneg w.y, mul_self_nonneg w.z]
  have y0 : w.y = 0 := by nlinarith [mul_self_nonneg w.x, mul_self_nonneg w.y, mul_self_nonneg w.z]
  have z0 : w.z = 0 := by nlinarith [mul_self_nonneg w.x, mul_self_nonneg w.y, mul_self_nonneg w.z]
  ext <;> simp [x0, y0, z0]

/-- **C24 (e)**. The zero twist gives the identity transform. -/
theorem se3_exp_zero (eps : ℝ) (heps : 0 < eps) : se3Exp eps V3.zero V3.zero = M4.one := by
  have h : vnorm (V3.zero : V3 ℝ) < eps := by simpa [vnorm] using heps
  simp only [se3Exp, so3Exp, se3V, h, if_true]
  ext <;> simp [so3Hat, M4.one]

/-- A pure translation twist (ω = 0) translates by `v`. -/
theorem se3_exp_translation (eps : ℝ) (heps : 0 < eps) (v : V3 ℝ) : se3Exp eps v V3.zero = ⟨M3.one, v, V3.zero, 1⟩ := by
  have h : vnorm (V3.zero : V3 ℝ) < eps := by simpa [vnorm] using heps
  simp only [se3Exp, so3Exp, se3V, h, if_true]
  ext <;> simp [so3Hat]

/-- Witness for the hypotheses of the C24 theorems: the code's threshold, and twists on either side of it. -/
example : (0:ℝ) < 1e-6 ∧ (1e-6 : ℝ) ≤ vnorm ⟨3, 0, 4⟩ ∧ vnorm ⟨1e-7, 0, 0⟩ < (1e-6 : ℝ) := by
  have h : vnorm ⟨3, 0, 4⟩ = 5 := by
    simp only [vnorm]
    rw [show (3:ℝ) * 3 + 0 * 0 + 4 * 4 = 5 ^ 2 by norm_num]
    exact Real.sqrt_sq (by norm_num)
  have h' : vnorm ⟨1e-7, 0, 0⟩ = 1e-7 := by
    simp only [vnorm]
    rw [show (1e-7:ℝ) * 1e-7 + 0 * 0 + 0 * 0 = 1e-7 ^ 2 by norm_num]
    exact Real.sqrt_sq (by norm_num)
  rw [h, h']; norm_num
example : (1e-6 : ℝ) ≤ |(1:ℝ)| ∧ (1e-6 : ℝ) ≤ |(2:ℝ)| ∧ (1e-6 : ℝ) ≤ |(1:ℝ) + 2| ∧
    ((⟨0, 3/5, 4/5⟩ : V3 ℝ).x ^ 2 + (⟨0, 3/5, 4/5⟩ : V3 ℝ).y ^ 2 + (⟨0, 3/5, 4/5⟩ : V3 ℝ).z ^ 2 = 1) := by
  norm_num

end Verif.Geom

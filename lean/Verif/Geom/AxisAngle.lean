import Verif.Geom.PropsReal
import Verif.Geom.Props
import Mathlib.Analysis.SpecialFunctions.Complex.Arg
/-!
Model and properties of `quaternion_to_axisangle` (`geometryutils.py`) and of the pixel/camera conversions `cam2pixel`, `pixel2cam`,
`cam2pixel_KF` of the same file.
-/
namespace Verif.Geom
open Real

attribute [local simp] V3.zero V3.add V3.sub V3.neg V3.smul V3.dot V3.cross V3.normSq
  M3.one M3.zero M3.c0 M3.c1 M3.c2 M3.transpose M3.mulVec M3.mul M3.add M3.smul M3.neg M3.outer M3.det

/-- `torch.atan2(y, x)`: the angle of the vector `(x, y)` in `(-π, π]`. -/
noncomputable def atan2 (y x : ℝ) : ℝ := Complex.arg ⟨x, y⟩

/-- `two_theta`, geometryutils.py:106-113. -/
noncomputable def twoTheta (s c : ℝ) : ℝ := 2 * (if c < 0 then atan2 (-s) (-c) else atan2 s c)

/-- `quaternion_to_axisangle`, geometryutils.py:79-124, on one quaternion. -/
noncomputable def quaternionToAxisangle (q : Quat) : V3 ℝ :=
  let ss := q.x * q.x + q.y * q.y + q.z * q.z
  let s := √ss
  let k := if ss > 0 then twoTheta s q.w / s else 2
  ⟨q.x * k, q.y * k, q.z * k⟩

/-- Specification: length of the vector part. -/
noncomputable def Quat.vlen (q : Quat) : ℝ := √(q.x * q.x + q.y * q.y + q.z * q.z)

theorem Quat.vlen_sq (q : Quat) : q.vlen ^ 2 = q.x ^ 2 + q.y ^ 2 + q.z ^ 2 := by
  unfold Quat.vlen
  rw [Real.sq_sqrt (by nlinarith [mul_self_nonneg q.x, mul_self_nonneg q.y, mul_self_nonneg q.z])]; ring

theorem Quat.vlen_nonneg (q : Quat) : 0 ≤ q.vlen := Real.sqrt_nonneg _

theorem Quat.vlen_pos_iff (q : Quat) : 0 < q.x * q.x + q.y * q.y + q.z * q.z ↔ 0 < q.vlen := Real.sqrt_pos.symm

theorem axisangle_pos (q : Quat) (h : 0 < q.vlen) :
    quaternionToAxisangle q = (⟨q.x / q.vlen, q.y / q.vlen, q.z / q.vlen⟩ : V3 ℝ).smul (twoTheta q.vlen q.w) := by
  have h' := (Quat.vlen_pos_iff q).2 h
  have e : √(q.x * q.x + q.y * q.y + q.z * q.z) = q.vlen := rfl
  simp only [quaternionToAxisangle, gt_iff_lt, h', if_true, e]
  ext <;> simp <;> ring

theorem axisangle_zero (q : Quat) (h : q.vlen = 0) : quaternionToAxisangle q = V3.zero := by
  have h2 := q.vlen_sq
  rw [h] at h2
  have hx : q.x = 0 := by nlinarith [sq_nonneg q.x, sq_nonneg q.y, sq_nonneg q.z]
  have hy : q.y = 0 := by nlinarith [sq_nonneg q.x, sq_nonneg q.y, sq_nonneg q.z]
  have hz : q.z = 0 := by nlinarith [sq_nonneg q.x, sq_nonneg q.y, sq_nonneg q.z]
  simp [quaternionToAxisangle, hx, hy, hz, V3.zero]

theorem unit_axis (q : Quat) (h : 0 < q.vlen) :
    (q.x / q.vlen) ^ 2 + (q.y / q.vlen) ^ 2 + (q.z / q.vlen) ^ 2 = 1 := by
  have h2 := q.vlen_sq
  have : q.vlen ≠ 0 := h.ne'
  field_simp
  linarith

/-- The angle is in `[-π, π]`, with the sign of `w`. -/
theorem twoTheta_range (s c : ℝ) (hs : 0 ≤ s) :
    (0 ≤ c → 0 ≤ twoTheta s c ∧ twoTheta s c ≤ π) ∧ (c < 0 → -π < twoTheta s c ∧ twoTheta s c ≤ 0) := by
  constructor
  · intro hc
    have h1 : 0 ≤ atan2 s c := Complex.arg_nonneg_iff.2 hs
    have h2 : atan2 s c ≤ π / 2 := Complex.arg_le_pi_div_two_iff.2 (Or.inl hc)
    simp only [twoTheta, not_lt.2 hc, if_false]
    constructor <;> linarith
  · intro hc
    simp only [twoTheta, hc, if_true]
    have h2 : -(π / 2) < atan2 (-s) (-c) := Complex.neg_pi_div_two_lt_arg_iff.2 (Or.inl (by simpa using hc))
    have h1 : atan2 (-s) (-c) ≤ 0 := by
      rcases hs.lt_or_eq with h | h
      · exact (Complex.arg_neg_iff.2 (by simpa using h)).le
      · subst h
        have : atan2 (-0) (-c) = 0 := by
          unfold atan2
          rw [show (⟨-c, -0⟩ : ℂ) = ((-c : ℝ) : ℂ) by apply Complex.ext <;> simp]
          exact Complex.arg_ofReal_of_nonneg (by linarith)
        rw [this]
    constructor <;> linarith

theorem norm_cs (s c : ℝ) (h : s ^ 2 + c ^ 2 = 1) : ‖(⟨c, s⟩ : ℂ)‖ = 1 := by
  have : ‖(⟨c, s⟩ : ℂ)‖ ^ 2 = 1 := by
    rw [← Complex.normSq_eq_norm_sq, Complex.normSq_mk]; linarith
  have h0 := norm_nonneg (⟨c, s⟩ : ℂ)
  nlinarith

theorem atan2_cos_sin (s c : ℝ) (h : s ^ 2 + c ^ 2 = 1) : cos (atan2 s c) = c ∧ sin (atan2 s c) = s := by
  have hn := norm_cs s c h
  have hne : (⟨c, s⟩ : ℂ) ≠ 0 := by intro e; rw [e] at hn; simp at hn
  unfold atan2
  rw [Complex.cos_arg hne, Complex.sin_arg, hn]; simp

/-- Twice the half angle: `cos = c² - s²`, `sin = 2 s c`. -/
theorem twoTheta_cos_sin (s c : ℝ) (h : s ^ 2 + c ^ 2 = 1) :
    cos (twoTheta s c) = c ^ 2 - s ^ 2 ∧ sin (twoTheta s c) = 2 * s * c := by
  unfold twoTheta
  rw [Real.cos_two_mul, Real.sin_two_mul]
  split
  · obtain ⟨e1, e2⟩ := atan2_cos_sin (-s) (-c) (by linarith)
    rw [e1, e2]; constructor <;> linarith [h]
  · obtain ⟨e1, e2⟩ := atan2_cos_sin s c h
    rw [e1, e2]; constructor <;> linarith [h]

/-- **C64 (a)**. The axis-angle vector of any quaternion has length at most `π`. -/
theorem axisangle_length (q : Quat) : vnorm (quaternionToAxisangle q) ≤ π := by
  rcases q.vlen_nonneg.lt_or_eq with h | h
  · rw [axisangle_pos q h, vnorm_smul_unit _ _ (unit_axis q h), abs_le]
    obtain ⟨h1, h2⟩ := twoTheta_range q.vlen q.w h.le
    rcases lt_or_ge q.w 0 with hw | hw
    · obtain ⟨a, b⟩ := h2 hw
      exact ⟨a.le, b.trans pi_pos.le⟩
    · obtain ⟨a, b⟩ := h1 hw
      exact ⟨(neg_nonpos.2 pi_pos.le).trans a, b⟩
  · rw [axisangle_zero q h.symm]
    simp [vnorm, V3.zero, pi_pos.le]

/-- **C64 (b)**. For a unit quaternion the exponential of its axis-angle vector is the rotation matrix of the quaternion (angles above
the small-angle threshold of `so3_exp`). -/
theorem axisangle_exp (eps : ℝ) (heps : 0 < eps) (q : Quat) (hq : q.x ^ 2 + q.y ^ 2 + q.z ^ 2 + q.w ^ 2 = 1)
    (hlarge : eps ≤ vnorm (quaternionToAxisangle q)) :
    so3Exp eps (quaternionToAxisangle q) = rotOfQuat q := by
  have h2 := q.vlen_sq
  rcases q.vlen_nonneg.lt_or_eq with h | h
  · obtain ⟨hc, hs⟩ := twoTheta_cos_sin q.vlen q.w (by linarith)
    rw [axisangle_pos q h, vnorm_smul_unit _ _ (unit_axis q h)] at hlarge
    rw [axisangle_pos q h, so3_exp_unit eps heps _ hlarge _ (unit_axis q h), hc, hs]
    have hne : q.vlen ≠ 0 := h.ne'
    have e1 : 1 - (q.w ^ 2 - q.vlen ^ 2) = 2 * q.vlen ^ 2 := by linarith
    rw [e1]
    ext <;> simp [so3Hat, rotOfQuat] <;> field_simp <;> ring
  · rw [axisangle_zero q h.symm] at hlarge
    simp [vnorm, V3.zero] at hlarge
    linarith

/-- **C64 (c)**. `q` and `-q` have the same axis-angle vector, except for half turns, where the two answers are opposite (and describe
the same rotation). -/
theorem axisangle_double_cover (q : Quat) :
    (q.w ≠ 0 → quaternionToAxisangle ⟨-q.x, -q.y, -q.z, -q.w⟩ = quaternionToAxisangle q) ∧
    (q.w = 0 → quaternionToAxisangle ⟨-q.x, -q.y, -q.z, -q.w⟩ = (quaternionToAxisangle q).neg) := by
  have e : ∀ k : ℝ, (if (-q.x) * (-q.x) + (-q.y) * (-q.y) + (-q.z) * (-q.z) > 0 then k else 2) =
      if q.x * q.x + q.y * q.y + q.z * q.z > 0 then k else 2 := by intro k; simp
  constructor
  · intro hw
    unfold quaternionToAxisangle
    simp only [e]
    by_cases hp : q.x * q.x + q.y * q.y + q.z * q.z > 0
    · simp only [hp, if_true, neg_mul_neg]
      have : twoTheta √(q.x * q.x + q.y * q.y + q.z * q.z) (-q.w) =
          - twoTheta √(q.x * q.x + q.y * q.y + q.z * q.z) q.w := by
        have hsp : 0 < √(q.x * q.x + q.y * q.y + q.z * q.z) := Real.sqrt_pos.2 hp
        generalize √(q.x * q.x + q.y * q.y + q.z * q.z) = s at hsp
        have key : ∀ c : ℝ, 0 < c → atan2 (-s) c = - atan2 s c := by
          intro c hc
          unfold atan2
          have : (⟨c, -s⟩ : ℂ) = (starRingEnd ℂ) ⟨c, s⟩ := by apply Complex.ext <;> simp
          rw [this, Complex.arg_conj, if_neg]
          intro hpi
          rw [Complex.arg_eq_pi_iff] at hpi
          simp at hpi; linarith [hpi.1]
        rcases lt_or_gt_of_ne hw with h | h
        · have h' : ¬ (-q.w < 0) := by linarith
          simp only [twoTheta, h, h', if_true, if_false, key (-q.w) (by linarith)]; ring
        · have h' : -q.w < 0 := by linarith
          have h'' : ¬ q.w < 0 := by linarith
          simp only [twoTheta, h', h'', if_true, if_false, neg_neg, key q.w h]; ring
      rw [this]
      ext <;> simp <;> ring
    · simp only [hp, if_false]
      have hx : q.x = 0 := by nlinarith [mul_self_nonneg q.x, mul_self_nonneg q.y, mul_self_nonneg q.z]
      have hy : q.y = 0 := by nlinarith [mul_self_nonneg q.x, mul_self_nonneg q.y, mul_self_nonneg q.z]
      have hz : q.z = 0 := by nlinarith [mul_self_nonneg q.x, mul_self_nonneg q.y, mul_self_nonneg q.z]
      simp [hx, hy, hz]
  · intro hw
    unfold quaternionToAxisangle
    simp only [hw, neg_zero, neg_mul_neg]
    ext <;> simp only [V3.neg, neg_mul]

/-- **C64 (d)**. The length of the quaternion does not matter (for a positive factor). -/
theorem axisangle_scale (q : Quat) (r : ℝ) (hr : 0 < r) (h : 0 < q.vlen) :
    quaternionToAxisangle ⟨r * q.x, r * q.y, r * q.z, r * q.w⟩ = quaternionToAxisangle q := by
  have hl : (⟨r * q.x, r * q.y, r * q.z, r * q.w⟩ : Quat).vlen = r * q.vlen := by
    unfold Quat.vlen
    rw [show r * q.x * (r * q.x) + r * q.y * (r * q.y) + r * q.z * (r * q.z) =
      r ^ 2 * (q.x * q.x + q.y * q.y + q.z * q.z) by ring, Real.sqrt_mul (sq_nonneg r), Real.sqrt_sq hr.le]
  have ha : ∀ s c : ℝ, atan2 (r * s) (r * c) = atan2 s c := by
    intro s c
    unfold atan2
    rw [show (⟨r * c, r * s⟩ : ℂ) = (r : ℂ) * ⟨c, s⟩ by apply Complex.ext <;> simp]
    exact Complex.arg_real_mul _ hr
  have ht : twoTheta (r * q.vlen) (r * q.w) = twoTheta q.vlen q.w := by
    unfold twoTheta
    have : r * q.w < 0 ↔ q.w < 0 := by
      constructor
      · intro h; by_contra h'; nlinarith [mul_nonneg hr.le (not_lt.1 h')]
      · intro h; nlinarith
    simp only [this, ← mul_neg, ha]
  rw [axisangle_pos _ (by rw [hl]; positivity), axisangle_pos _ h, hl]
  simp only [ht]
  have : q.vlen ≠ 0 := h.ne'
  have hr' : r ≠ 0 := hr.ne'
  congr 1
  ext <;> dsimp only <;> field_simp

/-- **C64 (e)**. Every rotation vector shorter than `π` is recovered from its quaternion. -/
theorem axisangle_of_halfangle (n : V3 ℝ) (hn : n.x ^ 2 + n.y ^ 2 + n.z ^ 2 = 1) (φ : ℝ) (h0 : 0 ≤ φ) (hφ : φ ≤ π) :
    quaternionToAxisangle ⟨n.x * sin (φ / 2), n.y * sin (φ / 2), n.z * sin (φ / 2), cos (φ / 2)⟩ = n.smul φ := by
  have hs0 : 0 ≤ sin (φ / 2) := Real.sin_nonneg_of_nonneg_of_le_pi (by linarith) (by linarith [pi_pos])
  have hc0 : 0 ≤ cos (φ / 2) := Real.cos_nonneg_of_neg_pi_div_two_le_of_le (by linarith [pi_pos]) (by linarith)
  have hl : (⟨n.x * sin (φ / 2), n.y * sin (φ / 2), n.z * sin (φ / 2), cos (φ / 2)⟩ : Quat).vlen = sin (φ / 2) := by
    unfold Quat.vlen
    rw [show n.x * sin (φ / 2) * (n.x * sin (φ / 2)) + n.y * sin (φ / 2) * (n.y * sin (φ / 2)) +
        n.z * sin (φ / 2) * (n.z * sin (φ / 2)) = sin (φ / 2) ^ 2 * (n.x ^ 2 + n.y ^ 2 + n.z ^ 2) by ring, hn, mul_one,
      Real.sqrt_sq hs0]
  rcases hs0.lt_or_eq with hs | hs
  · rw [axisangle_pos _ (by rw [hl]; exact hs), hl]
    have ht : twoTheta (sin (φ / 2)) (cos (φ / 2)) = φ := by
      unfold twoTheta
      rw [if_neg (not_lt.2 hc0)]
      unfold atan2
      have : (⟨cos (φ / 2), sin (φ / 2)⟩ : ℂ) = Complex.cos (φ / 2 : ℝ) + Complex.sin (φ / 2 : ℝ) * Complex.I := by
        rw [← Complex.ofReal_cos, ← Complex.ofReal_sin]; apply Complex.ext
        · rw [Complex.add_re, Complex.re_ofReal_mul, Complex.I_re, Complex.ofReal_re]; ring
        · rw [Complex.add_im, Complex.im_ofReal_mul, Complex.I_im, Complex.ofReal_im]; ring
      rw [this, Complex.arg_cos_add_sin_mul_I ⟨by linarith [pi_pos], by linarith [pi_pos]⟩]; ring
    rw [ht]
    congr 1
    ext <;> dsimp only <;> field_simp
  · rw [axisangle_zero _ (by rw [hl]; exact hs.symm)]
    have : φ = 0 := by
      by_contra hne
      have h1 : 0 < φ := lt_of_le_of_ne h0 (Ne.symm hne)
      have := Real.sin_pos_of_pos_of_lt_pi (show 0 < φ / 2 by linarith) (by linarith [pi_pos])
      linarith
    rw [this]; ext <;> simp [V3.zero]

/-- A case meeting the hypotheses: a quarter turn about `z`. -/
example : ((0 : ℝ) ^ 2 + 0 ^ 2 + 1 ^ 2 = 1) ∧ (0 : ℝ) ≤ π / 2 ∧ π / 2 ≤ π ∧
    quaternionToAxisangle ⟨0 * sin (π / 2 / 2), 0 * sin (π / 2 / 2), 1 * sin (π / 2 / 2), cos (π / 2 / 2)⟩ =
      (⟨0, 0, 1⟩ : V3 ℝ).smul (π / 2) :=
  ⟨by norm_num, by positivity, by linarith [pi_pos],
    axisangle_of_halfangle ⟨0, 0, 1⟩ (by norm_num) (π / 2) (by positivity) (by linarith [pi_pos])⟩

/-! ### cam2pixel, pixel2cam, cam2pixel_KF -/
section
variable {α : Type*} [Field α] [LinearOrder α] [IsStrictOrderedRing α]

/-- The last three statements of `cam2pixel` and `cam2pixel_KF` on the coordinates of one transformed point, geometryutils.py:646-652
and :728-734. -/
def pixelOf (l : List α) : α × α := (l.getD 0 0 / guardZ (l.getD 2 0), l.getD 1 0 / guardZ (l.getD 2 0))

/-- `cam2pixel`, geometryutils.py:611-652, on the points of a rank-`dim` tensor: the shape unpacking at :644 needs rank 4
(`ValueError` for rank 3); other ranks fail the assertion at :640.  For rank 4 `transform_pts_3d` returns one list of coordinates per
point. -/
def cam2pixel (eps : α) (dim : Nat) (P : M4 α) (pts : List (V3 α)) : Except Err (List (α × α)) :=
  if dim ≠ 3 ∧ dim ≠ 4 then .error .assertion
  else if dim ≠ 4 then .error .valueError
  else match transformPts3d eps dim P pts with
    | .error e => .error e
    | .ok q => .ok (q.map fun c => pixelOf (c.headD []))

/-- `pixel2cam`, geometryutils.py:655-700, for rank-4 `pixel_coords` (the depth image has rank 4). -/
def pixel2cam (eps : α) (Kinv : M4 α) (pts : List (V3 α)) (depths : List α) : Except Err (List (List α)) :=
  match transformPts3d eps 4 Kinv pts with
  | .error e => .error e
  | .ok q => if q.length ≠ depths.length then .error .runtimeError
    else .ok (List.zipWith (fun c d => (c.headD []).map (· * d)) q depths)

/-- `cam2pixel_KF`, geometryutils.py:703-734. -/
def cam2pixelKF (eps : α) (P : M4 α) (pts : List (V3 α)) : List (α × α) := (transformPtsNdKF eps P pts).map pixelOf

/-- **C18 (d)**. `cam2pixel` and `cam2pixel_KF` with an affine matrix (in particular a camera matrix, or camera matrix times pose)
agree with `project_points`. -/
theorem cam2pixel_is_project (eps : α) (heps : eps < 1) (P : M4 α) (hP : P.Affine) (pts : List (V3 α)) :
    cam2pixel eps 4 P pts = .ok (pts.map fun p => projectPoint P (.inl p)) ∧
    cam2pixelKF eps P pts = pts.map fun p => projectPoint P (.inl p) := by
  constructor
  · unfold cam2pixel
    rw [(transform_pts_3d_values eps heps P hP pts).1]
    simp only [ne_eq, not_true_eq_false, and_false, if_false, List.map_map]
    congr 1
    simp only [transformPointcloud, List.map_map]
    apply List.map_congr_left
    intro p _
    simp [pixelOf, projectPoint, V3.toList, M4.mulVec]
  · unfold cam2pixelKF
    rw [transform_pts_nd_eq eps heps P hP pts]
    simp only [transformPointcloud, List.map_map]
    apply List.map_congr_left
    intro p _
    simp [pixelOf, projectPoint, V3.toList, M4.mulVec]

/-- **C18 (e)**. For a general projective matrix the extra division by the fourth coordinate cancels: the pixel is the ratio of the
first two coordinates to the third, wherever the third is not zero. -/
theorem cam2pixel_projective (eps : α) (heps : 0 ≤ eps) (P : M4 α) (pts : List (V3 α)) (i : Nat) (p : V3 α) (hp : pts[i]? = some p)
    (hz : (P.mulVec ⟨p, 1⟩).v.z ≠ 0) :
    (cam2pixelKF eps P pts)[i]? = some
      ((P.mulVec ⟨p, 1⟩).v.x / (P.mulVec ⟨p, 1⟩).v.z, (P.mulVec ⟨p, 1⟩).v.y / (P.mulVec ⟨p, 1⟩).v.z) := by
  unfold cam2pixelKF transformPtsNdKF
  simp only [List.map_map, List.getElem?_map, hp, Option.map_some, Function.comp]
  generalize P.mulVec ⟨p, 1⟩ = q at *
  by_cases hw : eps < |q.w|
  · have h0 : q.w ≠ 0 := by intro h; rw [h, abs_zero] at hw; exact absurd hw (not_lt.2 heps)
    rw [(unhomogenize_value eps _ q.w).1 hw]
    simp only [V3.toList, pixelOf, List.map_cons, List.map_nil, List.getD_cons_zero, List.getD_cons_succ, guardZ]
    have hz2 : q.v.z / q.w ≠ 0 := div_ne_zero hz h0
    simp only [ne_eq, hz2, not_false_eq_true, if_true]
    congr 2 <;> field_simp
  · rw [(unhomogenize_value eps _ q.w).2 (not_lt.1 hw)]
    simp [V3.toList, pixelOf, guardZ, hz]

/-- **C18 (f)**. `pixel2cam` on homogeneous pixels and `cam2pixel` are mutually inverse for a pinhole camera and its exact inverse, at
non-zero depth. -/
theorem cam2pixel_pixel2cam (eps : α) (heps : eps < 1) (fx fy cx cy skew : α) (Kinv : M3 α)
    (hK : (pinhole fx fy cx cy skew).mul Kinv = M3.one) (px : List (α × α)) (depths : List α) (hl : px.length = depths.length)
    (hd : ∀ d ∈ depths, d ≠ 0) :
    ∃ cam : List (V3 α), pixel2cam eps (cameraMatrix Kinv) (px.map fun u => ⟨u.1, u.2, 1⟩) depths = .ok (cam.map V3.toList) ∧
      cam2pixel eps 4 (cameraMatrix (pinhole fx fy cx cy skew)) cam = .ok px := by
  have haff : ∀ K : M3 α, (cameraMatrix K).Affine := fun K => ⟨rfl, rfl⟩
  refine ⟨List.zipWith (fun u d => unprojectPoint Kinv (.inl u) d) px depths, ?_, ?_⟩
  · unfold pixel2cam
    rw [(transform_pts_3d_values eps heps (cameraMatrix Kinv) (haff _) _).1]
    simp only [transformPointcloud, List.map_map, List.length_map]
    rw [if_neg (by simpa using hl)]
    congr 1
    rw [List.zipWith_map_left, List.map_zipWith]
    congr 1
    funext u d
    simp [unprojectPoint, V3.toList, cameraMatrix, V3.zero, mul_comm]
  · rw [(cam2pixel_is_project eps heps _ (haff _) _).1]
    congr 1
    clear haff
    induction px generalizing depths with
    | nil => simp
    | cons u us ih =>
      cases depths with
      | nil => simp at hl
      | cons d ds =>
        simp only [List.zipWith_cons_cons, List.map_cons]
        rw [ih ds (by simpa using hl) (fun x hx => hd x (by simp [hx])),
          project_unproject fx fy cx cy skew Kinv hK u.1 u.2 d (hd d (by simp))]

example : (pinhole (2 : ℚ) 4 1 1 0).mul ⟨⟨1 / 2, 0, -1 / 2⟩, ⟨0, 1 / 4, -1 / 4⟩, ⟨0, 0, 1⟩⟩ = M3.one := by
  ext <;> norm_num [pinhole, M3.one, M3.mul, M3.c0, M3.c1, M3.c2, V3.dot]
end
end Verif.Geom

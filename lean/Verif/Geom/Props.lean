import Verif.Geom.Model
import Mathlib.Tactic.Linarith
import Mathlib.Tactic.Positivity
import Mathlib.Data.Rat.Cast.Order
/-! Property theorems C17, C18, C19, C21, C22, C23 (geometry over an arbitrary ordered field). -/
set_option linter.unusedSectionVars false

namespace Verif.Geom
open Verif

variable {α : Type*} [Field α] [LinearOrder α] [IsStrictOrderedRing α]

attribute [local simp] V3.zero V3.add V3.sub V3.neg V3.smul V3.dot V3.cross V3.normSq
  M3.one M3.zero M3.c0 M3.c1 M3.c2 M3.transpose M3.mulVec M3.mul M3.add M3.smul M3.neg M3.outer M3.det
  M4.one M4.mul M4.mulVec

/-! ### C17 homogeneous coordinates -/

/-- **C17 (a)**. Homogenising then unhomogenising any set of points of any dimension (rank ≥ 2) returns it unchanged, for
every threshold below one (the default is 1e-6). -/
theorem unhomogenize_homogenize (eps : α) (heps : eps < 1) (dim : Nat) (hdim : 2 ≤ dim) (pts : List (List α)) :
    (homogenizePoints dim pts >>= unhomogenizePoints eps dim) = .ok pts := by
  have h1 : ¬ dim < 2 := by omega
  have key : ∀ p : List α, unhomogenize1 eps (homogenize1 p) = p := by
    intro p
    simp [unhomogenize1, homogenize1, heps]
  simp only [homogenizePoints, unhomogenizePoints, h1, if_false, bind, Except.bind, List.map_map]
  congr 1
  conv_rhs => rw [← List.map_id pts]
  exact List.map_congr_left (fun p _ => key p)

/-- **C17 (b)**. Rank-0/1 tensors are rejected by both functions. -/
theorem homogenize_rank_check (eps : α) (dim : Nat) (hdim : dim < 2) (pts : List (List α)) :
    homogenizePoints dim pts = .error .valueError ∧ unhomogenizePoints eps dim pts = .error .valueError := by
  simp [homogenizePoints, unhomogenizePoints, hdim]

/-- **C17 (c)**. The value of `unhomogenize_points` on a homogeneous point `(p, w)`: division by `w` when `|w| > eps`,
the undivided coordinates otherwise (points at infinity stay finite). -/
theorem unhomogenize_value (eps : α) (p : List α) (w : α) :
    (eps < |w| → unhomogenize1 eps (p ++ [w]) = p.map (· / w)) ∧
    (|w| ≤ eps → unhomogenize1 eps (p ++ [w]) = p) := by
  constructor
  · intro h
    simp [unhomogenize1, h, div_eq_inv_mul]
  · intro h
    simp [unhomogenize1, not_lt.mpr h]

/-- **C17 (d)**. A homogeneous point and any rescaling of it denote the same Euclidean point (as long as neither is treated
as a point at infinity). -/
theorem unhomogenize_scale_invariant (eps : α) (heps : 0 ≤ eps) (p : List α) (w c : α) (hw : eps < |w|)
    (hcw : eps < |c * w|) :
    unhomogenize1 eps ((p ++ [w]).map (c * ·)) = unhomogenize1 eps (p ++ [w]) := by
  have hw0 : w ≠ 0 := by rintro rfl; simp at hw; exact absurd hw (not_lt.mpr heps)
  have hc0 : c ≠ 0 := by rintro rfl; simp at hcw; exact absurd hcw (not_lt.mpr heps)
  rw [List.map_append, List.map_singleton, (unhomogenize_value eps _ _).1 hcw, (unhomogenize_value eps _ _).1 hw,
    List.map_map]
  apply List.map_congr_left
  intro x _
  simp only [Function.comp]
  field_simp

example : (1 / 1000000 : ℚ) < 1 ∧ (1 / 1000000 : ℚ) < |2| ∧ (1 / 1000000 : ℚ) < |(3 : ℚ) * 2| ∧
    unhomogenize1 (1 / 1000000 : ℚ) [4, 6, 2] = [2, 3] := by
  refine ⟨by norm_num, by norm_num, by norm_num, ?_⟩
  rw [show ([4, 6, 2] : List ℚ) = [4, 6] ++ [2] from rfl, (unhomogenize_value _ _ _).1 (by norm_num)]
  norm_num

/-! ### C18 projection / unprojection -/

/-- Specification: the 4×4 projection matrix of a pinhole camera with intrinsics `K` (no extrinsics). -/
def cameraMatrix (K : M3 α) : M4 α := ⟨K, V3.zero, V3.zero, 1⟩

/-- Specification: a pinhole intrinsics matrix (possibly with skew). -/
def pinhole (fx fy cx cy skew : α) : M3 α := ⟨⟨fx, skew, cx⟩, ⟨0, fy, cy⟩, ⟨0, 0, 1⟩⟩

theorem project_pinhole (fx fy cx cy skew : α) (X : V3 α) (hz : X.z ≠ 0) :
    projectPoint (cameraMatrix (pinhole fx fy cx cy skew)) (.inl X) =
      ((fx * X.x + skew * X.y + cx * X.z) / X.z, (fy * X.y + cy * X.z) / X.z) := by
  simp [projectPoint, cameraMatrix, pinhole, guardZ, hz]

/-- **C18 (a)**. For every pinhole camera (with skew) and exact inverse `Kinv`, unprojecting the projection of a point with
its depth returns the point. -/
theorem unproject_project (fx fy cx cy skew : α) (Kinv : M3 α)
    (hK : Kinv.mul (pinhole fx fy cx cy skew) = M3.one) (X : V3 α) (hz : X.z ≠ 0) :
    unprojectPoint Kinv (.inl (projectPoint (cameraMatrix (pinhole fx fy cx cy skew)) (.inl X))) X.z = X := by
  rw [project_pinhole _ _ _ _ _ _ hz]
  have hvec : (⟨(fx * X.x + skew * X.y + cx * X.z) / X.z, (fy * X.y + cy * X.z) / X.z, 1⟩ : V3 α) =
      ((pinhole fx fy cx cy skew).mulVec X).smul (1 / X.z) := by
    ext <;> simp [pinhole] <;> field_simp
  simp only [unprojectPoint]
  rw [hvec, M3.mulVec_smul, ← M3.mul_mulVec, hK, M3.one_mulVec]
  ext <;> simp <;> field_simp

/-- **C18 (b)**. Conversely the projection of the unprojection of a pixel at any non-zero depth is that pixel. -/
theorem project_unproject (fx fy cx cy skew : α) (Kinv : M3 α)
    (hK : (pinhole fx fy cx cy skew).mul Kinv = M3.one) (u v d : α) (hd : d ≠ 0) :
    projectPoint (cameraMatrix (pinhole fx fy cx cy skew)) (.inl (unprojectPoint Kinv (.inl (u, v)) d)) = (u, v) := by
  have h1 : (pinhole fx fy cx cy skew).mulVec (unprojectPoint Kinv (.inl (u, v)) d) = (⟨u, v, 1⟩ : V3 α).smul d := by
    simp only [unprojectPoint]
    rw [M3.mulVec_smul, ← M3.mul_mulVec, hK, M3.one_mulVec]
  have hx := congrArg V3.x h1
  have hy := congrArg V3.y h1
  have hz := congrArg V3.z h1
  generalize unprojectPoint Kinv (.inl (u, v)) d = X at *
  simp [pinhole] at hx hy hz
  rw [project_pinhole _ _ _ _ _ _ (by rw [hz]; exact hd)]
  rw [hz] at hx hy ⊢
  rw [hx, hy]
  simp [hd]

/-- **C18 (c)**. Projection only sees the ray: scaling a camera-frame point by any non-zero factor gives the same pixel. -/
theorem project_scale_invariant (K : M3 α) (X : V3 α) (c : α) (hc : c ≠ 0) (hz : (K.mulVec X).z ≠ 0) :
    projectPoint (cameraMatrix K) (.inl (X.smul c)) = projectPoint (cameraMatrix K) (.inl X) := by
  have h := M3.mulVec_smul K c X
  have e1 : ∀ Y : V3 α, (cameraMatrix K).mulVec ⟨Y, 1⟩ = ⟨K.mulVec Y, 1⟩ := by
    intro Y; ext <;> simp [cameraMatrix]
  simp only [projectPoint, e1, h]
  have hz' : ((K.mulVec X).smul c).z ≠ 0 := by
    simp only [V3.smul]; exact mul_ne_zero hc hz
  simp only [guardZ, hz, hz', ne_eq, not_false_eq_true, if_true]
  generalize K.mulVec X = Y at *
  simp only [V3.smul]
  rw [mul_div_mul_left _ _ hc, mul_div_mul_left _ _ hc]

/-- **C18 (d)**. Batched projection pairs matrix `b` with cloud `b`, and different batch sizes are rejected. -/
theorem project_batched (Ps : List (M4 α)) (clouds : List (List (V3 α ⊕ V4 α))) :
    (Ps.length ≠ clouds.length → projectPoints (.inr Ps) clouds = .error .valueError) ∧
    (Ps.length = clouds.length → ∃ out, projectPoints (.inr Ps) clouds = .ok out ∧ out.length = clouds.length ∧
      ∀ b (hP : b < Ps.length) (hc : b < clouds.length) (ho : b < out.length) n (hn : n < clouds[b].length)
        (hon : n < out[b].length), out[b][n] = projectPoint Ps[b] clouds[b][n]) := by
  constructor
  · intro h; simp [projectPoints, h]
  · intro h
    refine ⟨_, by simp only [projectPoints, h, ne_eq, not_true, if_false]; rfl, by simp [h], ?_⟩
    intro b hP hc ho n hn hon
    simp

example : (⟨⟨1/2, 0, -1/2⟩, ⟨0, 1/4, -3/4⟩, ⟨0, 0, 1⟩⟩ : M3 ℚ).mul (pinhole 2 4 1 3 0) = M3.one ∧
    (pinhole 2 4 1 3 0).mul (⟨⟨1/2, 0, -1/2⟩, ⟨0, 1/4, -3/4⟩, ⟨0, 0, 1⟩⟩ : M3 ℚ) = M3.one ∧
    (⟨1, 2, 5⟩ : V3 ℚ).z ≠ 0 := by
  refine ⟨?_, ?_, by norm_num⟩ <;> ext <;> norm_num [pinhole]

/-! ### C19 inverse_intrinsics -/

/-- **C19 (a)**. With `eps = 0` and no skew, `inverse_intrinsics` is the two-sided inverse, for 3×3 and 4×4 input. -/
theorem inverse_intrinsics_exact_partial (fx fy cx cy : α) (hx : fx ≠ 0) (hy : fy ≠ 0) :
    (inverseIntrinsics3 0 (pinhole fx fy cx cy 0)).mul (pinhole fx fy cx cy 0) = M3.one ∧
    (pinhole fx fy cx cy 0).mul (inverseIntrinsics3 0 (pinhole fx fy cx cy 0)) = M3.one ∧
    (inverseIntrinsics4 0 (cameraMatrix (pinhole fx fy cx cy 0))).mul (cameraMatrix (pinhole fx fy cx cy 0)) = M4.one ∧
    (cameraMatrix (pinhole fx fy cx cy 0)).mul (inverseIntrinsics4 0 (cameraMatrix (pinhole fx fy cx cy 0))) = M4.one := by
  refine ⟨?_, ?_, ?_, ?_⟩ <;> ext <;> simp [inverseIntrinsics4, inverseIntrinsics3, pinhole, cameraMatrix, hx, hy] <;>
    field_simp <;> ring

/-- **C19 (b)**. For any `eps` with non-zero denominators the product with `K` is exactly `diag(fx/(fx+eps), fy/(fy+eps), 1)`:
the deviation from the identity is a pure rescaling of the two axes. -/
theorem inverse_intrinsics_mul (eps fx fy cx cy : α) (hx : fx + eps ≠ 0) (hy : fy + eps ≠ 0) :
    (inverseIntrinsics3 eps (pinhole fx fy cx cy 0)).mul (pinhole fx fy cx cy 0) =
      ⟨⟨fx / (fx + eps), 0, 0⟩, ⟨0, fy / (fy + eps), 0⟩, ⟨0, 0, 1⟩⟩ := by
  ext <;> simp [inverseIntrinsics3, pinhole] <;> field_simp <;> ring

/-- **C19 (c)**. Hence for positive focal length the relative error is `eps/(f+eps)`, at most `eps/f`. -/
theorem inverse_intrinsics_error (eps f : α) (heps : 0 ≤ eps) (hf : 0 < f) :
    1 - f / (f + eps) = eps / (f + eps) ∧ 0 ≤ eps / (f + eps) ∧ eps / (f + eps) ≤ eps / f := by
  have h : 0 < f + eps := by linarith
  refine ⟨by field_simp; ring, by positivity, ?_⟩
  apply div_le_div_of_nonneg_left heps hf; linarith

/-- **C19 (d)**. Consequence for back-projection: unprojecting pixel `u` with the eps-perturbed inverse at depth `d ≠ 0` and
projecting again moves the pixel towards the principal point by exactly the factor `f/(f+eps)`. -/
theorem reprojection_error (eps fx fy cx cy u v d : α) (hx : fx + eps ≠ 0) (hy : fy + eps ≠ 0) (hd : d ≠ 0) :
    projectPoint (cameraMatrix (pinhole fx fy cx cy 0))
      (.inl (unprojectPoint (inverseIntrinsics3 eps (pinhole fx fy cx cy 0)) (.inl (u, v)) d)) =
      (cx + (u - cx) * (fx / (fx + eps)), cy + (v - cy) * (fy / (fy + eps))) := by
  have hz : (unprojectPoint (inverseIntrinsics3 eps (pinhole fx fy cx cy 0)) (.inl (u, v)) d).z = d := by
    simp [unprojectPoint, inverseIntrinsics3]
  rw [project_pinhole _ _ _ _ _ _ (by rw [hz]; exact hd), hz]
  simp only [unprojectPoint, inverseIntrinsics3, pinhole, M3.mulVec, V3.smul, V3.dot]
  refine Prod.ext ?_ ?_ <;> simp only <;> field_simp <;> ring

/-- **C19, the part that fails**: with the default `eps` the result is not the inverse (any `eps ≠ 0`), and with skew it is not
the inverse even for `eps = 0`. -/
theorem inverse_intrinsics_not_inverse :
    (∀ eps fx fy cx cy : α, eps ≠ 0 → fx + eps ≠ 0 → fy + eps ≠ 0 →
      (inverseIntrinsics3 eps (pinhole fx fy cx cy 0)).mul (pinhole fx fy cx cy 0) ≠ M3.one) ∧
    (∀ fx fy cx cy skew : α, fx ≠ 0 → skew ≠ 0 →
      (inverseIntrinsics3 0 (pinhole fx fy cx cy skew)).mul (pinhole fx fy cx cy skew) ≠ M3.one) := by
  constructor
  · intro eps fx fy cx cy he hx hy h
    rw [inverse_intrinsics_mul _ _ _ _ _ hx hy] at h
    have := congrArg (fun A : M3 α => A.r0.x) h
    simp [div_eq_iff hx] at this
    exact he this
  · intro fx fy cx cy skew hx hs h
    have := congrArg (fun A : M3 α => A.r0.y) h
    simp [inverseIntrinsics3, pinhole, hx, hs] at this

example : (500 : ℚ) ≠ 0 ∧ (500 : ℚ) + 1 / 1000000 ≠ 0 ∧ (0:ℚ) < 500 ∧ (0 : ℚ) ≤ 1 / 1000000 := by norm_num

/-! ### C21 group laws -/

/-- **C21 (a)**. For a rigid transform `inverse_transfom_3d` gives the two-sided inverse, again rigid. -/
theorem inverse_transform_correct (T : M4 α) (h : T.Rigid) :
    (inverseTransform1 T).mul T = M4.one ∧ T.mul (inverseTransform1 T) = M4.one ∧ (inverseTransform1 T).Rigid := by
  obtain ⟨⟨hb, hs⟩, h1, h2⟩ := h
  have e1 : T.R.mulVec (T.R.transpose.neg.mulVec T.t) = T.t.neg := by
    have hneg : T.R.transpose.neg.mulVec T.t = (T.R.transpose.mulVec T.t).neg := by
      ext <;> simp <;> ring
    have hneg2 : ∀ v : V3 α, T.R.mulVec v.neg = (T.R.mulVec v).neg := by
      intro v; ext <;> simp <;> ring
    rw [hneg, hneg2, ← M3.mul_mulVec, h1, M3.one_mulVec]
  refine ⟨?_, ?_, ⟨⟨rfl, rfl⟩, ?_, ?_⟩⟩
  · simp only [M4.mul, inverseTransform1, hb, hs, h2]
    ext <;> simp <;> ring
  · simp only [M4.mul, inverseTransform1, hb, hs, h1, e1]
    ext <;> simp
  · exact h2
  · exact h1

/-- **C21 (b)**. `compose_transforms_3d` is matrix multiplication on affine transforms; it is associative and has the identity
as unit. -/
theorem compose_is_matrix_product (A B : M4 α) (hA : A.Affine) (hB : B.Affine) :
    composeTransforms1 A B = A.mul B := by
  obtain ⟨a1, a2⟩ := hA; obtain ⟨b1, b2⟩ := hB
  ext <;> simp [composeTransforms1, a1, a2, b1, b2]

theorem compose_monoid (A B C : M4 α) (hA : A.Affine) :
    composeTransforms1 (composeTransforms1 A B) C = composeTransforms1 A (composeTransforms1 B C) ∧
    composeTransforms1 M4.one A = A ∧ composeTransforms1 A M4.one = A := by
  obtain ⟨a1, a2⟩ := hA
  refine ⟨?_, ?_, ?_⟩
  · ext <;> simp [composeTransforms1] <;> ring
  · ext <;> simp [composeTransforms1, a1, a2]
  · ext <;> simp [composeTransforms1, a1, a2]

/-- **C21 (c)**. The relative transform really relates the two frames: `T01 ∘ relative(T01, T02) = T02`, for the unbatched call
of `relative_transform_3d`. -/
theorem relative_transform_law_partial (T01 T02 : M4 α) (h1 : T01.Rigid) (h2 : T02.Rigid) :
    ∃ T12, relativeTransform3d (.single T01) (.single T02) = .ok (.single T12) ∧ T01.mul T12 = T02 ∧ T12.Rigid := by
  obtain ⟨_, hi, hr⟩ := inverse_transform_correct T01 h1
  refine ⟨composeTransforms1 (inverseTransform1 T01) T02, rfl, ?_, ?_⟩
  · rw [compose_is_matrix_product _ _ hr.1 h2.1, ← M4.mul_assoc, hi, M4.one_mul]
  · rw [compose_is_matrix_product _ _ hr.1 h2.1]; exact hr.mul h2

/-- **C21 (d)**. `relative_transformation`: same law, both with `orthogonal_rotations=True` (rigid transforms) and with the
default general inverse (any affine transform with an affine inverse). -/
theorem relative_transformation_law (inv : M4 α → M4 α) (T01 T02 : M4 α) (h2 : T02.Affine) :
    (T01.Rigid → T01.mul (relativeTransformation inv true T01 T02) = T02) ∧
    ((inv T01).Affine → T01.mul (inv T01) = M4.one → T01.mul (relativeTransformation inv false T01 T02) = T02) := by
  constructor
  · intro h1
    obtain ⟨_, hi, hr⟩ := inverse_transform_correct T01 h1
    simp only [relativeTransformation, if_true]
    rw [compose_is_matrix_product _ _ hr.1 h2, ← M4.mul_assoc, hi, M4.one_mul]
  · intro ha hi
    simp only [relativeTransformation, Bool.false_eq_true, if_false]
    rw [compose_is_matrix_product _ _ ha h2, ← M4.mul_assoc, hi, M4.one_mul]

/-- **C21, the part that fails**: the documented batched form (`N×4×4`) of `inverse_transfom_3d` and `relative_transform_3d`
raises for every batch, and of `compose_transforms_3d` too. -/
theorem batched_transforms_raise (As Bs : List (M4 α)) :
    inverseTransform3d (.batch As) = .error .runtimeError ∧
    relativeTransform3d (.batch As) (.batch Bs) = .error .runtimeError ∧
    ∃ e, composeTransforms3d (.batch As) (.batch Bs) = .error e := by
  have hb : ∀ n, batchedMatVec n = .error .runtimeError := by
    intro n
    by_cases h : 3 = n
    · subst h; rfl
    · simp [batchedMatVec, matmulShape, h, bind, Except.bind]
  refine ⟨by simp [inverseTransform3d, hb, bind, Except.bind],
    by simp [relativeTransform3d, inverseTransform3d, hb, bind, Except.bind], ?_⟩
  simp only [composeTransforms3d, hb]
  split
  · exact ⟨_, rfl⟩
  · exact ⟨_, rfl⟩

/-- A concrete rigid transform: rotation by 90° about z, then a translation. -/
def T90 : M4 ℚ := ⟨⟨⟨0, -1, 0⟩, ⟨1, 0, 0⟩, ⟨0, 0, 1⟩⟩, ⟨1, 2, 3⟩, ⟨0, 0, 0⟩, 1⟩
theorem T90_rigid : T90.Rigid := by
  refine ⟨⟨rfl, rfl⟩, ?_, ?_⟩ <;> ext <;> simp [T90]
example : T90.Rigid ∧ T90.Affine ∧ T90 ≠ M4.one := ⟨T90_rigid, T90_rigid.1, by
  intro h; have := congrArg (fun T : M4 ℚ => T.t.x) h; simp [T90] at this⟩

/-! ### C22 transforming pointclouds -/

/-- **C22 (a)**. Row `i` of the result is `R xᵢ + t`; no points are added, lost or reordered. -/
theorem transform_pointcloud_rows (T : M4 α) (pts : List (V3 α)) :
    (transformPointcloud T pts).length = pts.length ∧
    ∀ i (h : i < pts.length) (h' : i < (transformPointcloud T pts).length),
      (transformPointcloud T pts)[i] = (T.R.mulVec pts[i]).add T.t := by
  constructor
  · simp [transformPointcloud]
  · intro i h h'; simp [transformPointcloud]

/-- **C22 (b)**. Transforming by `T1` and then by `T2` is transforming by the matrix product `T2·T1`; the identity does
nothing; the inverse undoes the transform. -/
theorem transform_pointcloud_compose (T1 T2 : M4 α) (h1 : T1.Affine) (pts : List (V3 α)) :
    transformPointcloud T2 (transformPointcloud T1 pts) = transformPointcloud (T2.mul T1) pts ∧
    transformPointcloud M4.one pts = pts := by
  obtain ⟨b1, b2⟩ := h1
  constructor
  · simp only [transformPointcloud, List.map_map]
    apply List.map_congr_left
    intro p _
    ext <;> simp [b1, b2] <;> ring
  · simp only [transformPointcloud]
    conv_rhs => rw [← List.map_id pts]
    apply List.map_congr_left
    intro p _
    ext <;> simp

theorem transform_pointcloud_inverse (T : M4 α) (h : T.Rigid) (pts : List (V3 α)) :
    transformPointcloud (inverseTransform1 T) (transformPointcloud T pts) = pts := by
  rw [(transform_pointcloud_compose T _ h.1 pts).1, (inverse_transform_correct T h).1,
    (transform_pointcloud_compose M4.one M4.one ⟨rfl, rfl⟩ pts).2]

/-- **C22 (c)**. A rigid transform preserves all pairwise (squared) distances of the cloud. -/
theorem transform_pointcloud_isometry (T : M4 α) (h : T.Rigid) (pts : List (V3 α)) (i j : Nat)
    (hi : i < pts.length) (hj : j < pts.length) (hi' : i < (transformPointcloud T pts).length)
    (hj' : j < (transformPointcloud T pts).length) :
    ((transformPointcloud T pts)[i].sub (transformPointcloud T pts)[j]).normSq = (pts[i].sub pts[j]).normSq := by
  have e : (transformPointcloud T pts)[i].sub (transformPointcloud T pts)[j] = T.R.mulVec (pts[i].sub pts[j]) := by
    simp only [transformPointcloud, List.getElem_map]
    rw [M3.mulVec_sub]
    ext <;> simp
  rw [e]; exact M3.dot_orthogonal h.2.2 _ _

/-- **C22 (d)**. `transform_normals` applies only the rotation: it preserves all dot products (lengths and angles) and commutes
with forming differences of transformed points. -/
theorem transform_normals_isometry (T : M4 α) (h : T.Rigid) (ns : List (V3 α)) (i j : Nat)
    (hi : i < ns.length) (hj : j < ns.length) (hi' : i < (transformNormals T ns).length)
    (hj' : j < (transformNormals T ns).length) :
    (transformNormals T ns)[i].dot (transformNormals T ns)[j] = ns[i].dot ns[j] := by
  simp only [transformNormals, List.getElem_map]
  exact M3.dot_orthogonal h.2.2 _ _

/-- Point-to-plane residuals are invariant under transforming points and normals together. -/
theorem transform_preserves_plane_distance (T : M4 α) (h : T.Rigid) (p q n : V3 α) :
    (((T.R.mulVec p).add T.t).sub ((T.R.mulVec q).add T.t)).dot (T.R.mulVec n) = (p.sub q).dot n := by
  have e : ((T.R.mulVec p).add T.t).sub ((T.R.mulVec q).add T.t) = T.R.mulVec (p.sub q) := by
    rw [M3.mulVec_sub]; ext <;> simp
  rw [e]; exact M3.dot_orthogonal h.2.2 _ _

example : T90.Rigid ∧ (transformPointcloud T90 [⟨1, 0, 0⟩, ⟨0, 5, 0⟩]) = [⟨1, 3, 3⟩, ⟨-4, 2, 3⟩] :=
  ⟨T90_rigid, by norm_num [transformPointcloud, T90]⟩

/-- `transform_pts_nd_KF` agrees with `transform_pointcloud` for affine transforms. -/
theorem transform_pts_nd_eq (eps : α) (heps : eps < 1) (T : M4 α) (h : T.Affine) (pts : List (V3 α)) :
    transformPtsNdKF eps T pts = (transformPointcloud T pts).map V3.toList := by
  obtain ⟨b1, b2⟩ := h
  simp only [transformPtsNdKF, transformPointcloud, List.map_map]
  apply List.map_congr_left
  intro p _
  have hw : (T.mulVec ⟨p, 1⟩).w = 1 := by simp [b1, b2]
  rw [hw, (unhomogenize_value eps _ 1).1 (by simpa using heps)]
  simp [V3.toList]

/-- **C22, the part that fails**: `transform_pts_3d` works on rank-4 input, but on its documented `N×3` input (rank 2, also rank
3) it returns no coordinates at all. -/
theorem transform_pts_3d_values (eps : α) (heps : eps < 1) (T : M4 α) (h : T.Affine) (pts : List (V3 α)) :
    transformPts3d eps 4 T pts = .ok ((transformPointcloud T pts).map fun p => [p.toList]) ∧
    ∀ dim, 2 ≤ dim → dim ≠ 4 → transformPts3d eps dim T pts = .ok (pts.map fun _ => [[], [], [], []]) := by
  obtain ⟨b1, b2⟩ := h
  constructor
  · simp only [transformPts3d, transformPointcloud, List.map_map]
    rw [if_neg (by omega)]
    congr 1
    apply List.map_congr_left
    intro p _
    have hw : (T.mulVec ⟨p, 1⟩).w = 1 := by simp [b1, b2]
    simp only [if_true, hw]
    rw [(unhomogenize_value eps _ 1).1 (by simpa using heps)]
    simp [V3.toList]
  · intro dim hd h4
    simp only [transformPts3d]
    rw [if_neg (by omega)]
    congr 1
    apply List.map_congr_left
    intro p _
    simp [h4, unhomogenize1]

/-! ### C23 pixel coordinates -/

/-- **C23 (a)**. Normalising and unnormalising pixel coordinates are mutually inverse for images at least 2×2. -/
theorem pixel_normalize_roundtrip (h w : Nat) (hh : 2 ≤ h) (hw : 2 ≤ w) (p : α × α) :
    unnormalizePixel h w (normalizePixel h w p) = p ∧ normalizePixel h w (unnormalizePixel h w p) = p := by
  have h1 : ((h : α) - 1) ≠ 0 := by
    have : (2 : α) ≤ h := by exact_mod_cast hh
    intro e; linarith
  have h2 : ((w : α) - 1) ≠ 0 := by
    have : (2 : α) ≤ w := by exact_mod_cast hw
    intro e; linarith
  constructor <;> refine Prod.ext ?_ ?_ <;> simp only [normalizePixel, unnormalizePixel] <;> field_simp <;> ring

/-- **C23 (b)**. A pixel lies in the image `[0,h-1]×[0,w-1]` exactly when its normalised coordinates lie in `[-1,1]²`; the four
corners go to the four corners. -/
theorem pixel_normalize_range (h w : Nat) (hh : 2 ≤ h) (hw : 2 ≤ w) (p : α × α) :
    ((0 ≤ p.1 ∧ p.1 ≤ (h : α) - 1 ∧ 0 ≤ p.2 ∧ p.2 ≤ (w : α) - 1) ↔
      (-1 ≤ (normalizePixel h w p).1 ∧ (normalizePixel h w p).1 ≤ 1 ∧
       -1 ≤ (normalizePixel h w p).2 ∧ (normalizePixel h w p).2 ≤ 1)) ∧
    normalizePixel h w ((0 : α), (0 : α)) = (-1, -1) ∧
    normalizePixel h w ((h : α) - 1, (w : α) - 1) = (1, 1) := by
  have h1 : 0 < ((h : α) - 1) := by
    have : (2 : α) ≤ h := by exact_mod_cast hh
    linarith
  have h2 : 0 < ((w : α) - 1) := by
    have : (2 : α) ≤ w := by exact_mod_cast hw
    linarith
  have key : ∀ a b : α, 0 < b → ((0 ≤ a ↔ -1 ≤ 2 / b * a - 1) ∧ (a ≤ b ↔ 2 / b * a - 1 ≤ 1)) := by
    intro a b hb
    have e : 2 / b * a - 1 = (2 * a - b) / b := by field_simp
    rw [e, le_div_iff₀ hb, div_le_iff₀ hb]
    constructor <;> constructor <;> intro _ <;> linarith
  refine ⟨?_, ?_, ?_⟩
  · simp only [normalizePixel]
    rw [(key p.1 _ h1).1, (key p.1 _ h1).2, (key p.2 _ h2).1, (key p.2 _ h2).2]
  · simp [normalizePixel]
  · refine Prod.ext ?_ ?_ <;> simp only [normalizePixel] <;> field_simp <;> ring

/-- **C23 (c)**. `create_meshgrid`: entry `(i,j)` of the pixel grid is `(i,j)` (row first), and the normalised grid is the
normalisation of the pixel grid. -/
theorem meshgrid_entries (h w : Nat) (hh : 2 ≤ h) (hw : 2 ≤ w) (i j : Nat) :
    meshgrid (α := α) h w false i j = ((i : α), (j : α)) ∧
    meshgrid (α := α) h w true i j = normalizePixel h w (meshgrid h w false i j) := by
  have h1 : ((h : α) - 1) ≠ 0 := by
    have : (2 : α) ≤ h := by exact_mod_cast hh
    intro e; linarith
  have h2 : ((w : α) - 1) ≠ 0 := by
    have : (2 : α) ≤ w := by exact_mod_cast hw
    intro e; linarith
  have e1 : h ≠ 1 := by omega
  have e2 : w ≠ 1 := by omega
  have a : meshgrid (α := α) h w false i j = ((i : α), (j : α)) := by
    refine Prod.ext ?_ ?_ <;> simp [meshgrid, linspace, e1, e2, h1, h2]
  refine ⟨a, ?_⟩
  rw [a]
  refine Prod.ext ?_ ?_ <;> simp only [meshgrid, linspace, normalizePixel, e1, e2, if_true, if_false] <;> ring

example : 2 ≤ 480 ∧ 2 ≤ 640 ∧ normalizePixel (α := ℚ) 3 5 (1, 2) = (0, 0) := by
  refine ⟨by norm_num, by norm_num, ?_⟩
  norm_num [normalizePixel]

end Verif.Geom

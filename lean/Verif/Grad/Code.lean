import Verif.Grad.Props
import Verif.Fusion.Alpha
import Verif.Icp.Model
import Verif.Rgbd.Spec
/-!
**C106**, the code: sequences of operations of the differentiable functions of gradslam, with the theorems that they compute what the
models of these functions in `Geom`, `Fusion` and `Icp` compute.
-/
namespace Verif.Grad
open Verif Verif.Nan Classical

/-- The input nodes. -/
noncomputable def inp (l : List ℝ) : ℕ → ℝ := fun k => l.getD k 0

/-- `unhomogenize_points` on `(x, y, z, w)` (nodes 0-3), geometryutils.py:69-76, projutils.py:82-89; `1.0 / w` is `w.reciprocal() * 1.0`
(`Tensor.__rdiv__`).  Results: nodes 8-10. -/
noncomputable def unhomogOps (eps : ℝ) : List Op :=
  [.recip 3, .scale 1 4, .const 1, .sel (.absGt 3 eps) 5 6, .mul 7 0, .mul 7 1, .mul 7 2]

/-- `quaternion_to_axisangle` on `(qx, qy, qz, qw)` (nodes 0-3), geometryutils.py:103-122.  Results: nodes 19-21. -/
noncomputable def axisOps : List Op :=
  [.mul 0 0, .mul 1 1, .mul 2 2, .add 4 5, .add 7 6, .sqrt 8, .neg 9, .neg 3, .atan2 10 11, .atan2 9 3, .sel (.lt0 3) 12 13, .scale 2 14,
   .div 15 9, .const 2, .sel (.gt0 8) 16 17, .mul 0 18, .mul 1 18, .mul 2 18]

/-- `project_points` of one homogeneous point (nodes 12-15) by the first three rows of the matrix (nodes 0-11), projutils.py:222-238.
Results: nodes 39 and 42. -/
noncomputable def projectOps : List Op :=
  [.mul 0 12, .mul 1 13, .mul 2 14, .mul 3 15, .add 16 17, .add 20 18, .add 21 19,
   .mul 4 12, .mul 5 13, .mul 6 14, .mul 7 15, .add 23 24, .add 27 25, .add 28 26,
   .mul 8 12, .mul 9 13, .mul 10 14, .mul 11 15, .add 30 31, .add 34 32, .add 35 33,
   .const 1, .sel (.ne0 36) 36 37, .div 22 38, .const 1, .sel (.ne0 36) 36 40, .div 29 41]

/-- The normal at a pixel from the vertices of the pixel, of its right and of its lower neighbour (nodes 0-8), rgbdimages.py:715-743; `v` is
the entry of `valid_depth_mask`.  (`torch.cross` is taken apart into its products.)  Results: nodes 30-32. -/
noncomputable def normalOps (v : ℝ) : List Op :=
  [.sub 3 0, .sub 4 1, .sub 5 2, .sub 6 0, .sub 7 1, .sub 8 2, .mul 10 14, .mul 11 13, .sub 15 16, .mul 11 12, .mul 9 14, .sub 18 19,
   .mul 9 13, .mul 10 12, .sub 21 22, .norm3 17 20 23, .const 1, .sel (.eq0 24) 25 24, .div 17 26, .div 20 26, .div 23 26,
   .scale v 27, .scale v 28, .scale v 29]

/-- `get_alpha` at one point (nodes 0-2), fusionutils.py:69-72, for `sigma ≠ 0`.  Result: node 11. -/
noncomputable def alphaOps (sigma eps : ℝ) : List Op :=
  [.pow 0 2, .pow 1 2, .pow 2 2, .add 3 4, .add 6 5, .neg 7, .scale (1 / (2 * sigma ^ 2)) 8, .exp 9, .clamp eps (101 / 100) 10]

/-- The merge of one coordinate of a map point (node 2, confidence node 0) with a measurement (node 3, weight node 1),
fusionutils.py:678-697.  Results: coordinate node 12, confidence node 4. -/
noncomputable def mergeOps : List Op :=
  [.add 0 1, .mul 0 2, .mul 1 3, .add 5 6, .const 1, .sel (.eq0 4) 8 4, .recip 9, .scale 1 10, .mul 7 11]

/-- One pixel `(u, v)` of `_compute_vertex_map` (rgbdimages.py:641-679) with `inverse_intrinsics` (projutils.py:439-449): depth (node 0),
`fx, fy, cx, cy` (nodes 1-4).  Results: nodes 23, 24 and 0. -/
noncomputable def vertexOps (eps u v : ℝ) : List Op :=
  [.const eps, .add 1 5, .recip 6, .scale 1 7, .add 2 5, .recip 9, .scale 1 10, .scale (-1) 3, .add 1 5, .div 12 13,
   .scale (-1) 4, .add 2 5, .div 15 16, .scale u 8, .scale v 11, .add 18 14, .add 19 17, .const 0, .mul 20 0, .mul 21 0]

/-- `so3_exp` (nodes 0-2: `omega`) when `omega.norm() >= _eps`, se3utils.py:60-72 (`C` is not used).  Results: nodes 63, 67, …, 95. -/
noncomputable def rotOps : List Op :=
  [.norm3 0 1 2, .sin 3, .cos 3, .const 0, .neg 0, .neg 1, .neg 2, .mul 6 6, .mul 9 2, .mul 1 8, .add 10 11, .add 13 12, .mul 6 9,
   .mul 9 6, .mul 1 0, .add 15 16, .add 18 17, .mul 6 1, .mul 9 7, .mul 1 6, .add 20 21, .add 23 22, .mul 2 6, .mul 6 2, .mul 7 8,
   .add 25 26, .add 28 27, .mul 2 9, .mul 6 6, .mul 7 0, .add 30 31, .add 33 32, .mul 2 1, .mul 6 7, .mul 7 6, .add 35 36, .add 38 37,
   .mul 8 6, .mul 0 2, .mul 6 8, .add 40 41, .add 43 42, .mul 8 9, .mul 0 6, .mul 6 0, .add 45 46, .add 48 47, .mul 8 1, .mul 0 7,
   .mul 6 6, .add 50 51, .add 53 52, .div 4 3, .const 1, .sub 56 5, .pow 3 2, .div 57 58, .mul 55 6, .mul 59 14, .add 56 60, .add 62 61,
   .mul 55 9, .mul 59 19, .add 6 64, .add 66 65, .mul 55 1, .mul 59 24, .add 6 68, .add 70 69, .mul 55 2, .mul 59 29, .add 6 72,
   .add 74 73, .mul 55 6, .mul 59 34, .add 56 76, .add 78 77, .mul 55 7, .mul 59 39, .add 6 80, .add 82 81, .mul 55 8, .mul 59 44,
   .add 6 84, .add 86 85, .mul 55 0, .mul 59 49, .add 6 88, .add 90 89, .mul 55 6, .mul 59 54, .add 56 92, .add 94 93]

/-- `so3_exp` when `omega.norm() < _eps`, se3utils.py:57-58.  Results: nodes 8-16. -/
noncomputable def rotSmallOps : List Op :=
  [.const 1, .const 0, .neg 2, .neg 0, .neg 1, .add 3 4, .add 4 5, .add 4 1, .add 4 2, .add 3 4, .add 4 6, .add 4 7, .add 4 0, .add 3 4]

/-- The damping multiplier and the step weight of one iteration of `point_to_plane_gradICP` from the error after (node 0) and before
(node 1) the step, icputils.py:527-538.  Results: nodes 11 and 18. -/
noncomputable def lmOps (lmax B B2 nu : ℝ) : List Op :=
  [.sub 0 1, .clamp (-70) 70 2, .scale (-B) 3, .exp 4, .const 1, .add 6 5, .recip 7, .scale (lmax - 1 / lmax) 8, .const (1 / lmax),
   .add 10 9, .scale (-B2) 3, .exp 12, .const 1, .add 14 13, .rpow 15 (1 / nu), .recip 16, .scale 1 17]

theorem clamp_eq {lo hi : ℝ} (h : lo ≤ hi) (a : ℝ) : (if a < lo then lo else if hi < a then hi else a) = min (max a lo) hi := by
  split_ifs with h1 h2
  · rw [max_eq_right h1.le, min_eq_left h]
  · rw [max_eq_left (by linarith), min_eq_right h2.le]
  · rw [max_eq_left (not_lt.1 h1), min_eq_left (not_lt.1 h2)]

theorem unhomog_computes (eps x y z w : ℝ) :
    [8, 9, 10].map (runR 4 (unhomogOps eps) (inp [x, y, z, w])) = Geom.unhomogenize1 eps [x, y, z, w] := by
  simp [unhomogOps, runR, Op.evalR, inp, Cond.holds, Geom.unhomogenize1]

theorem axis_computes (q : Geom.Quat) :
    let r := runR 4 axisOps (inp [q.x, q.y, q.z, q.w])
    (⟨r 19, r 20, r 21⟩ : V3 ℝ) = Geom.quaternionToAxisangle q := by
  simp [axisOps, runR, Op.evalR, inp, Cond.holds, Geom.quaternionToAxisangle, Geom.twoTheta]

theorem project_computes (P : M4 ℝ) (h : V4 ℝ) :
    let r := runR 16 projectOps (inp [P.R.r0.x, P.R.r0.y, P.R.r0.z, P.t.x, P.R.r1.x, P.R.r1.y, P.R.r1.z, P.t.y,
      P.R.r2.x, P.R.r2.y, P.R.r2.z, P.t.z, h.v.x, h.v.y, h.v.z, h.w])
    (r 39, r 42) = Geom.projectPoint P (.inr h) := by
  simp [projectOps, runR, Op.evalR, inp, Cond.holds, Geom.projectPoint, Geom.guardZ, M4.mulVec, M3.mulVec, V3.dot, V3.add, V3.smul,
    mul_comm h.w, ite_not]

theorem normal_computes (v : ℝ) (p q r : V3 ℝ) :
    let o := runR 9 (normalOps v) (inp [p.x, p.y, p.z, q.x, q.y, q.z, r.x, r.y, r.z])
    (⟨o 30, o 31, o 32⟩ : V3 ℝ) = (Rgbd.unit Geom.vnorm ((q.sub p).cross (r.sub p))).smul v := by
  by_cases h : Geom.vnorm ((q.sub p).cross (r.sub p)) = 0
  · rw [Rgbd.unit, if_pos h]
    simp only [V3.sub, V3.cross, Geom.vnorm] at h
    simp [normalOps, runR, Op.evalR, inp, Cond.holds, V3.sub, V3.cross, V3.smul, h]
  · rw [Rgbd.unit, if_neg h]
    simp only [V3.sub, V3.cross, Geom.vnorm] at h
    simp [normalOps, runR, Op.evalR, inp, Cond.holds, V3.sub, V3.cross, V3.smul, Geom.vnorm, h]

theorem alpha_computes (sigma eps : ℝ) (he : eps ≤ 101 / 100) (p : V3 ℝ) :
    runR 3 (alphaOps sigma eps) (inp [p.x, p.y, p.z]) 11 = Fusion.getAlpha sigma eps p := by
  have e : (sigma ^ 2)⁻¹ * 2⁻¹ * -(p.x ^ 2 + p.y ^ 2 + p.z ^ 2) = -(p.x ^ 2 + p.y ^ 2 + p.z ^ 2) / (2 * sigma ^ 2) := by
    rw [div_eq_mul_inv, mul_inv]; ring
  rw [Fusion.getAlpha, ← clamp_eq he, ← e]
  simp [alphaOps, runR, Op.evalR, inp]

theorem merge_computes (c a p q : ℝ) :
    let o := runR 4 mergeOps (inp [c, a, p, q])
    o 4 = c + a ∧ o 12 = (c * p + a * q) * (1 / if c + a = 0 then 1 else c + a) := by
  simp [mergeOps, runR, Op.evalR, inp, Cond.holds]

theorem vertex_computes (eps u v : ℝ) (K : M3 ℝ) (d : ℝ) :
    let o := runR 5 (vertexOps eps u v) (inp [d, K.r0.x, K.r1.y, K.r0.z, K.r1.z])
    (⟨o 23, o 24, o 0⟩ : V3 ℝ) = Geom.unprojectPoint (Geom.inverseIntrinsics3 eps K) (.inl (u, v)) d := by
  simp [vertexOps, runR, Op.evalR, inp, Geom.unprojectPoint, Geom.inverseIntrinsics3, M3.mulVec, V3.dot, V3.smul]
  constructor <;> ring

/-- The vector and the matrix in the nodes. -/
def vecOf (x : ℕ → ℝ) : V3 ℝ := ⟨x 0, x 1, x 2⟩
def flat (M : M3 ℝ) : List ℝ := [M.r0.x, M.r0.y, M.r0.z, M.r1.x, M.r1.y, M.r1.z, M.r2.x, M.r2.y, M.r2.z]

theorem rot_computes (eps : ℝ) (x : ℕ → ℝ) (h : ¬ Geom.vnorm (vecOf x) < eps) :
    [63, 67, 71, 75, 79, 83, 87, 91, 95].map (runR 3 rotOps x) = flat (Geom.so3Exp eps (vecOf x)) := by
  have e : √(x 0 * x 0 + x 1 * x 1 + x 2 * x 2) = Geom.vnorm (vecOf x) := rfl
  simp [rotOps, runR, Op.evalR, Geom.so3Exp, h, Geom.so3Hat, M3.add, M3.smul, M3.mul, M3.one, V3.add, V3.smul, V3.dot,
    M3.c0, M3.c1, M3.c2, flat, e]
  simp [vecOf]

theorem rotSmall_computes (eps : ℝ) (x : ℕ → ℝ) (h : Geom.vnorm (vecOf x) < eps) :
    [8, 9, 10, 11, 12, 13, 14, 15, 16].map (runR 3 rotSmallOps x) = flat (Geom.so3Exp eps (vecOf x)) := by
  simp [rotSmallOps, runR, Op.evalR, Geom.so3Exp, h, Geom.so3Hat, M3.add, M3.one, V3.add, flat]
  simp [vecOf]

theorem lm_computes (lmax B B2 nu new old : ℝ) :
    let o := runR 2 (lmOps lmax B B2 nu) (inp [new, old])
    o 11 = Icp.dampFactor lmax B (Icp.clamp70 (new - old)) ∧ o 18 = Icp.stepWeight B2 nu (Icp.clamp70 (new - old)) := by
  rw [Icp.clamp70, ← clamp_eq (by norm_num)]
  simp [lmOps, runR, Op.evalR, inp, Icp.dampFactor, Icp.stepWeight, div_eq_mul_inv]

end Verif.Grad

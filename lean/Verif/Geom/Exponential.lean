import Verif.Geom.PropsReal
import Mathlib.Analysis.SpecialFunctions.Exponential
import Mathlib.Analysis.SpecialFunctions.Trigonometric.Deriv
import Mathlib.Analysis.Matrix.Normed
import Mathlib.Analysis.Normed.Algebra.MatrixExponential
import Mathlib.Analysis.Calculus.MeanValue
/-!
Property C24, stated against Mathlib's matrix exponential: above the small-angle threshold `so3_exp` and `se3_exp` are the matrix
exponentials of `so3_hat` and `se3_hat`, and `so3_hat w` is the cross product with `w`.
-/
namespace Verif.Geom
open Real NormedSpace

/-- In a Banach algebra, the exponential of an element with `X⁴ = -θ²X²`. -/
theorem exp_of_quartic {𝔸 : Type*} [NormedRing 𝔸] [NormedAlgebra ℝ 𝔸] [CompleteSpace 𝔸] (X : 𝔸) (θ : ℝ) (hθ : θ ≠ 0)
    (h : X * (X * (X * X)) = -(θ ^ 2) • (X * X)) :
    exp X = 1 + X + ((1 - cos θ) / θ ^ 2) • (X * X) + ((θ - sin θ) / θ ^ 3) • (X * (X * X)) := by
  let f : ℝ → 𝔸 := fun t => 1 + t • X + ((1 - cos (t * θ)) / θ ^ 2) • (X * X) + ((t * θ - sin (t * θ)) / θ ^ 3) • (X * (X * X))
  have hf : ∀ t, HasDerivAt f (X * f t) t := by
    intro t
    have d0 : HasDerivAt (fun t : ℝ => t * θ) θ t := by simpa using (hasDerivAt_id t).mul_const θ
    have d1 : HasDerivAt (fun t : ℝ => (1 - cos (t * θ)) / θ ^ 2) (sin (t * θ) / θ) t := by
      have := ((d0.cos).const_sub 1).div_const (θ ^ 2)
      convert! this using 1
      field_simp
    have d2 : HasDerivAt (fun t : ℝ => (t * θ - sin (t * θ)) / θ ^ 3) ((1 - cos (t * θ)) / θ ^ 2) t := by
      have := (d0.sub d0.sin).div_const (θ ^ 3)
      convert! this using 1
      field_simp
    have d3 : HasDerivAt (fun t : ℝ => (1 : 𝔸) + t • X) X t := by
      simpa using ((hasDerivAt_id t).smul_const X).const_add 1
    have := (d3.add (d1.smul_const (X * X))).add (d2.smul_const (X * (X * X)))
    convert! this using 1
    simp only [f, mul_add, mul_one, mul_smul_comm, h, smul_smul]
    have e : sin (t * θ) / θ = t + (t * θ - sin (t * θ)) / θ ^ 3 * -θ ^ 2 := by field_simp; ring
    rw [e, add_smul]
    abel
  have hg : ∀ t, HasDerivAt (fun t : ℝ => exp (t • -X) * f t) 0 t := by
    intro t
    have := (hasDerivAt_exp_smul_const (𝕂 := ℝ) (-X) t).mul (hf t)
    convert! this using 1
    rw [mul_neg, neg_mul, mul_assoc]
    simp
  have hc := is_const_of_deriv_eq_zero (fun t => (hg t).differentiableAt) (fun t => (hg t).deriv) 1 0
  simp only [one_smul, zero_smul, NormedSpace.exp_zero, one_mul, mul_one, f, zero_mul, cos_zero, sub_self, zero_div, add_zero, sin_zero] at hc
  have hinv : exp X * exp (-X) = 1 := by
    letI := NormedAlgebra.restrictScalars ℚ ℝ 𝔸
    rw [← exp_add_of_commute (Commute.neg_right (Commute.refl X)), add_neg_cancel, NormedSpace.exp_zero]
  calc exp X = exp X * (exp (-X) * _) := by rw [hc, mul_one]
    _ = _ := by rw [← mul_assoc, hinv, one_mul]

/-- The 3×3 matrix with the entries of `m`. -/
def mat3 (m : M3 ℝ) : Matrix (Fin 3) (Fin 3) ℝ := !![m.r0.x, m.r0.y, m.r0.z; m.r1.x, m.r1.y, m.r1.z; m.r2.x, m.r2.y, m.r2.z]

/-- The 4×4 matrix with the entries of `m`. -/
def mat4 (m : M4 ℝ) : Matrix (Fin 4) (Fin 4) ℝ :=
  !![m.R.r0.x, m.R.r0.y, m.R.r0.z, m.t.x; m.R.r1.x, m.R.r1.y, m.R.r1.z, m.t.y; m.R.r2.x, m.R.r2.y, m.R.r2.z, m.t.z; m.b.x, m.b.y, m.b.z, m.s]

section
attribute [local instance] Matrix.linftyOpNormedRing Matrix.linftyOpNormedAlgebra

theorem exp_of_quartic3 (X : Matrix (Fin 3) (Fin 3) ℝ) (θ : ℝ) (hθ : θ ≠ 0) (h : X * (X * (X * X)) = -(θ ^ 2) • (X * X)) :
    exp X = 1 + X + ((1 - cos θ) / θ ^ 2) • (X * X) + ((θ - sin θ) / θ ^ 3) • (X * (X * X)) := exp_of_quartic X θ hθ h

theorem exp_of_quartic4 (X : Matrix (Fin 4) (Fin 4) ℝ) (θ : ℝ) (hθ : θ ≠ 0) (h : X * (X * (X * X)) = -(θ ^ 2) • (X * X)) :
    exp X = 1 + X + ((1 - cos θ) / θ ^ 2) • (X * X) + ((θ - sin θ) / θ ^ 3) • (X * (X * X)) := exp_of_quartic X θ hθ h
end

attribute [local simp] V3.zero V3.add V3.sub V3.neg V3.smul V3.dot V3.cross V3.normSq
  M3.one M3.zero M3.c0 M3.c1 M3.c2 M3.transpose M3.mulVec M3.mul M3.add M3.smul M3.neg M3.outer M3.det

/-- `so3_hat w` is the matrix of the cross product `w × ·` (right-handed). -/
theorem so3_hat_cross (w u : V3 ℝ) : (so3Hat w).mulVec u = w.cross u := by
  ext <;> simp [so3Hat, V3.cross] <;> ring

set_option maxHeartbeats 1000000 in
/-- **C24 (g)**. For every axis-angle vector of norm at least the threshold, `so3_exp(w)` is the matrix exponential of `so3_hat(w)`. -/
theorem so3_exp_is_exp (eps : ℝ) (heps : 0 < eps) (w : V3 ℝ) (hw : eps ≤ vnorm w) : mat3 (so3Exp eps w) = exp (mat3 (so3Hat w)) := by
  have hθ : vnorm w ≠ 0 := (lt_of_lt_of_le heps hw).ne'
  have h2 := vnorm_sq w
  have h3 : mat3 (so3Hat w) * (mat3 (so3Hat w) * mat3 (so3Hat w)) = -(vnorm w ^ 2) • mat3 (so3Hat w) := by
    ext i j
    fin_cases i <;> fin_cases j <;> simp [mat3, so3Hat, Matrix.mul_apply, Fin.sum_univ_succ, h2] <;> ring
  rw [exp_of_quartic3 _ (vnorm w) hθ (by rw [h3, mul_smul_comm]), h3]
  simp only [so3Exp, not_lt.mpr hw, if_false]
  have e : ((vnorm w - sin (vnorm w)) / vnorm w ^ 3) * -(vnorm w ^ 2) = sin (vnorm w) / vnorm w - 1 := by field_simp; ring
  rw [smul_smul, e]
  generalize sin (vnorm w) / vnorm w = A
  generalize (1 - cos (vnorm w)) / vnorm w ^ 2 = B
  ext i j
  fin_cases i <;> fin_cases j <;> simp [mat3, so3Hat, Matrix.mul_apply, Fin.sum_univ_succ] <;> ring

set_option maxHeartbeats 1000000 in
/-- **C24 (h)**. For every twist whose rotation part has norm at least the threshold, `se3_exp(v, w)` is the matrix exponential of
`se3_hat(v, w)`. -/
theorem se3_exp_is_exp (eps : ℝ) (heps : 0 < eps) (v w : V3 ℝ) (hw : eps ≤ vnorm w) : mat4 (se3Exp eps v w) = exp (mat4 (se3Hat v w)) := by
  have hθ : vnorm w ≠ 0 := (lt_of_lt_of_le heps hw).ne'
  have h2 := vnorm_sq w
  have h4 : mat4 (se3Hat v w) * (mat4 (se3Hat v w) * (mat4 (se3Hat v w) * mat4 (se3Hat v w))) = -(vnorm w ^ 2) • (mat4 (se3Hat v w) * mat4 (se3Hat v w)) := by
    ext i j
    fin_cases i <;> fin_cases j <;> simp [mat4, se3Hat, so3Hat, Matrix.mul_apply, Fin.sum_univ_succ, h2] <;> ring
  rw [exp_of_quartic4 _ (vnorm w) hθ h4]
  simp only [se3Exp, so3Exp, se3V, not_lt.mpr hw, if_false]
  have eA : sin (vnorm w) / vnorm w = 1 - (vnorm w - sin (vnorm w)) / vnorm w ^ 3 * (w.x * w.x + w.y * w.y + w.z * w.z) := by
    have : w.x * w.x + w.y * w.y + w.z * w.z = vnorm w ^ 2 := by rw [h2]; ring
    rw [this]; field_simp; ring
  rw [eA]
  generalize (vnorm w - sin (vnorm w)) / vnorm w ^ 3 = C
  generalize (1 - cos (vnorm w)) / vnorm w ^ 2 = B
  ext i j
  fin_cases i <;> fin_cases j <;> simp [mat4, se3Hat, so3Hat, Matrix.mul_apply, Fin.sum_univ_succ] <;> first | ring1 | (ring_nf; simp)

/-- Twists without rotation: `se3_exp(v, 0)` is the matrix exponential as well. -/
theorem se3_exp_is_exp_translation (eps : ℝ) (heps : 0 < eps) (v : V3 ℝ) : mat4 (se3Exp eps v V3.zero) = exp (mat4 (se3Hat v V3.zero)) := by
  have hz : mat4 (se3Hat v V3.zero) * mat4 (se3Hat v V3.zero) = 0 := by
    ext i j
    fin_cases i <;> fin_cases j <;> simp [mat4, se3Hat, so3Hat, Matrix.mul_apply, Fin.sum_univ_succ]
  rw [exp_of_quartic4 _ 1 one_ne_zero (by rw [hz]; simp), hz]
  have h0 : vnorm V3.zero < eps := by simpa [vnorm] using heps
  simp only [se3Exp, so3Exp, se3V, h0, if_true]
  ext i j
  fin_cases i <;> fin_cases j <;> simp [mat4, se3Hat, so3Hat, Matrix.mul_apply, Fin.sum_univ_succ]

/-- The hypothesis is met: a twist of a quarter turn. -/
theorem se3_exp_is_exp_hypotheses : (1e-6 : ℝ) ≤ vnorm ⟨0, 0, π / 2⟩ := by
  have : vnorm ⟨0, 0, π / 2⟩ = π / 2 := by
    simp only [vnorm, mul_zero, zero_add]
    exact sqrt_mul_self (by positivity)
  rw [this]
  have := two_le_pi
  norm_num; linarith

end Verif.Geom

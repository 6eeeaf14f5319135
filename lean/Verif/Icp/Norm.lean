import Verif.Icp.Loop
import Verif.Geom.Exponential
import Mathlib.Analysis.CStarAlgebra.Matrix
import Mathlib.Analysis.SpecialFunctions.Trigonometric.Bounds
/-!
Euclidean length and operator norm for the vectors and matrices of the model, and second-order bounds for `so3_exp` and `se3_exp`
(used for C95).
-/
namespace Verif.Icp
open Verif Geom
open scoped Matrix.Norms.L2Operator

/-! ### Lengths -/

/-- A vector of the model as a vector of Mathlib's Euclidean space. -/
noncomputable def eu (v : V3 ℝ) : EuclideanSpace ℝ (Fin 3) := WithLp.toLp 2 ![v.x, v.y, v.z]

theorem eu_norm (v : V3 ℝ) : ‖eu v‖ = vnorm v := by
  rw [EuclideanSpace.norm_eq, vnorm]
  simp [eu, Fin.sum_univ_three, sq]

theorem eu_add (v w : V3 ℝ) : eu (v.add w) = eu v + eu w := by
  ext i; fin_cases i <;> simp [eu, V3.add]

theorem eu_neg (v : V3 ℝ) : eu v.neg = -eu v := by
  ext i; fin_cases i <;> simp [eu, V3.neg]

theorem eu_smul (c : ℝ) (v : V3 ℝ) : eu (v.smul c) = c • eu v := by
  ext i; fin_cases i <;> simp [eu, V3.smul]

theorem vnorm_add_le (v w : V3 ℝ) : vnorm (v.add w) ≤ vnorm v + vnorm w := by
  rw [← eu_norm, ← eu_norm, ← eu_norm, eu_add]; exact norm_add_le _ _

theorem vnorm_neg (v : V3 ℝ) : vnorm v.neg = vnorm v := by
  rw [← eu_norm, ← eu_norm, eu_neg, norm_neg]

theorem vnorm_smul (c : ℝ) (v : V3 ℝ) : vnorm (v.smul c) = |c| * vnorm v := by
  rw [← eu_norm, ← eu_norm, eu_smul, norm_smul, Real.norm_eq_abs]

theorem sub_eq_add_neg' (v w : V3 ℝ) : v.sub w = v.add w.neg := by ext <;> simp [V3.sub, V3.add, V3.neg] <;> ring

theorem vnorm_sub_le (v w : V3 ℝ) : vnorm (v.sub w) ≤ vnorm v + vnorm w := by
  rw [sub_eq_add_neg', ← vnorm_neg w]; exact vnorm_add_le _ _

theorem normSq_eq (v : V3 ℝ) : v.normSq = vnorm v ^ 2 := by
  rw [vnorm_sq]; simp [V3.normSq, V3.dot]; ring

theorem dot_le (a b : V3 ℝ) : |a.dot b| ≤ vnorm a * vnorm b := by
  have ha := vnorm_nonneg a
  have hb := vnorm_nonneg b
  refine abs_le_of_sq_le_sq ?_ (mul_nonneg ha hb)
  rw [mul_pow, vnorm_sq, vnorm_sq]
  simp only [V3.dot]
  nlinarith [sq_nonneg (a.x * b.y - a.y * b.x), sq_nonneg (a.y * b.z - a.z * b.y), sq_nonneg (a.z * b.x - a.x * b.z)]

theorem cross_le (a b : V3 ℝ) : vnorm (a.cross b) ≤ vnorm a * vnorm b := by
  have ha := vnorm_nonneg a
  have hb := vnorm_nonneg b
  refine (abs_le_of_sq_le_sq' ?_ (mul_nonneg ha hb)).2
  rw [mul_pow, vnorm_sq, vnorm_sq, vnorm_sq]
  simp only [V3.cross]
  nlinarith [sq_nonneg (a.x * b.x + a.y * b.y + a.z * b.z)]

/-! ### Operator norm -/

/-- The largest factor by which the matrix stretches a vector. -/
noncomputable def nm (A : M3 ℝ) : ℝ := ‖mat3 A‖

theorem nm_nonneg (A : M3 ℝ) : 0 ≤ nm A := norm_nonneg _

theorem mat3_mulVec (A : M3 ℝ) (v : V3 ℝ) : eu (A.mulVec v) = Matrix.toEuclideanCLM (n := Fin 3) (𝕜 := ℝ) (mat3 A) (eu v) := by
  rw [eu, eu, Matrix.toEuclideanCLM_toLp]
  congr 1
  ext i; fin_cases i <;> simp [mat3, M3.mulVec, V3.dot, Matrix.mulVec, dotProduct, Fin.sum_univ_three]

theorem nm_mulVec (A : M3 ℝ) (v : V3 ℝ) : vnorm (A.mulVec v) ≤ nm A * vnorm v := by
  rw [← eu_norm, ← eu_norm, mat3_mulVec]
  exact ContinuousLinearMap.le_opNorm _ _

theorem nm_le {A : M3 ℝ} {c : ℝ} (hc : 0 ≤ c) (h : ∀ v, vnorm (A.mulVec v) ≤ c * vnorm v) : nm A ≤ c := by
  refine ContinuousLinearMap.opNorm_le_bound _ hc fun x => ?_
  have := h ⟨x 0, x 1, x 2⟩
  rw [← eu_norm, ← eu_norm, mat3_mulVec] at this
  have e : eu ⟨x 0, x 1, x 2⟩ = x := by ext i; fin_cases i <;> simp [eu]
  rwa [e] at this

theorem mulVec_add' (A B : M3 ℝ) (v : V3 ℝ) : (A.add B).mulVec v = (A.mulVec v).add (B.mulVec v) := by
  ext <;> simp [M3.add, M3.mulVec, V3.add, V3.dot] <;> ring
theorem mulVec_smul' (A : M3 ℝ) (c : ℝ) (v : V3 ℝ) : (A.smul c).mulVec v = (A.mulVec v).smul c := by
  ext <;> simp [M3.smul, M3.mulVec, V3.smul, V3.dot] <;> ring
theorem mulVec_neg' (A : M3 ℝ) (v : V3 ℝ) : A.neg.mulVec v = (A.mulVec v).neg := by
  ext <;> simp [M3.neg, M3.mulVec, V3.neg, V3.dot] <;> ring

theorem nm_add (A B : M3 ℝ) : nm (A.add B) ≤ nm A + nm B := by
  refine nm_le (add_nonneg (nm_nonneg _) (nm_nonneg _)) fun v => ?_
  rw [mulVec_add', add_mul]
  exact (vnorm_add_le _ _).trans (add_le_add (nm_mulVec _ _) (nm_mulVec _ _))

theorem nm_mul (A B : M3 ℝ) : nm (A.mul B) ≤ nm A * nm B := by
  refine nm_le (mul_nonneg (nm_nonneg _) (nm_nonneg _)) fun v => ?_
  rw [M3.mul_mulVec, mul_assoc]
  exact (nm_mulVec _ _).trans (mul_le_mul_of_nonneg_left (nm_mulVec _ _) (nm_nonneg _))

theorem nm_smul_le (c : ℝ) (A : M3 ℝ) : nm (A.smul c) ≤ |c| * nm A := by
  refine nm_le (mul_nonneg (abs_nonneg _) (nm_nonneg _)) fun v => ?_
  rw [mulVec_smul', vnorm_smul, mul_assoc]
  exact mul_le_mul_of_nonneg_left (nm_mulVec _ _) (abs_nonneg _)

theorem nm_neg_le (A : M3 ℝ) : nm A.neg ≤ nm A := by
  refine nm_le (nm_nonneg _) fun v => ?_
  rw [mulVec_neg', vnorm_neg]; exact nm_mulVec _ _

theorem nm_transpose_le (A : M3 ℝ) : nm A.transpose ≤ nm A := by
  refine nm_le (nm_nonneg _) fun v => ?_
  -- |Aᵀv|² = v · A Aᵀ v
  set u := A.transpose.mulVec v with hu
  have h1 : u.normSq = v.dot (A.mulVec u) := by
    have := M3.dot_mulVec A.transpose v u
    rw [M3.transpose_transpose] at this
    exact this
  have h2 : vnorm u ^ 2 ≤ vnorm v * (nm A * vnorm u) := by
    rw [← normSq_eq, h1]
    exact (le_abs_self _).trans ((dot_le _ _).trans (mul_le_mul_of_nonneg_left (nm_mulVec _ _) (vnorm_nonneg _)))
  rcases (vnorm_nonneg u).eq_or_lt with h | h
  · rw [← h]; exact mul_nonneg (nm_nonneg _) (vnorm_nonneg _)
  · nlinarith [h2]

theorem nm_one : nm M3.one ≤ 1 := nm_le zero_le_one fun v => by rw [M3.one_mulVec, one_mul]

theorem nm_hat (w : V3 ℝ) : nm (so3Hat w) ≤ vnorm w := nm_le (vnorm_nonneg _) fun v => by rw [so3_hat_cross]; exact cross_le _ _

theorem hat_nm (w : V3 ℝ) : vnorm w ≤ nm (so3Hat w) := by
  have key : ∀ v : V3 ℝ, w.dot v = 0 → 0 < vnorm v → vnorm w ≤ nm (so3Hat w) := by
    intro v h0 hv
    have h1 := nm_mulVec (so3Hat w) v
    rw [so3_hat_cross] at h1
    have h2 : vnorm (w.cross v) = vnorm w * vnorm v := by
      have e : vnorm (w.cross v) ^ 2 = (vnorm w * vnorm v) ^ 2 := by
        rw [mul_pow, vnorm_sq, vnorm_sq, vnorm_sq]
        simp only [V3.cross]
        simp only [V3.dot] at h0
        linear_combination -(w.x * v.x + w.y * v.y + w.z * v.z) * h0
      exact (pow_left_inj₀ (vnorm_nonneg _) (mul_nonneg (vnorm_nonneg _) (vnorm_nonneg _)) two_ne_zero).1 e
    rw [h2] at h1
    exact le_of_mul_le_mul_right h1 hv
  have pos : ∀ v : V3 ℝ, 0 < v.x ^ 2 + v.y ^ 2 + v.z ^ 2 → 0 < vnorm v := fun v h => by
    rw [← vnorm_sq] at h
    exact (vnorm_nonneg v).lt_of_ne fun e => by rw [← e] at h; simp at h
  by_cases h : w.x = 0 ∧ w.y = 0
  · exact key ⟨1, 0, 0⟩ (by simp [V3.dot, h.1]) (pos _ (by norm_num))
  · refine key ⟨-w.y, w.x, 0⟩ (by simp [V3.dot]; ring) (pos _ ?_)
    simp only
    rcases not_and_or.1 h with h | h
    · have := pow_pos (abs_pos.2 h) 2; rw [sq_abs] at this; nlinarith [sq_nonneg w.y]
    · have := pow_pos (abs_pos.2 h) 2; rw [sq_abs] at this; nlinarith [sq_nonneg w.x]

/-! ### The exponential to second order -/

theorem exp_coeffs {θ : ℝ} (h0 : 0 < θ) (h1 : θ ≤ 1) :
    |Real.sin θ / θ - 1| * θ ≤ θ ^ 2 / 2 ∧ 0 ≤ (1 - Real.cos θ) / θ ^ 2 ∧ (1 - Real.cos θ) / θ ^ 2 ≤ 1 / 2 ∧
      0 ≤ (θ - Real.sin θ) / θ ^ 3 ∧ (θ - Real.sin θ) / θ ^ 3 ≤ 1 / 4 := by
  have hs1 : Real.sin θ ≤ θ := Real.sin_le h0.le
  have hs2 : θ - θ ^ 3 / 6 < Real.sin θ := Real.sin_gt_sub_cube h0
  have hc1 := Real.cos_le_one θ
  have hc2 : 1 - θ ^ 2 / 2 ≤ Real.cos θ := Real.one_sub_sq_div_two_le_cos
  have h2 : 0 < θ ^ 2 := by positivity
  have h3 : 0 < θ ^ 3 := by positivity
  have h32 : θ ^ 3 ≤ θ ^ 2 := by nlinarith
  refine ⟨?_, div_nonneg (by linarith) h2.le, ?_, div_nonneg (by linarith) h3.le, ?_⟩
  · have : |Real.sin θ / θ - 1| * θ = |Real.sin θ - θ| := by
      rw [show Real.sin θ / θ - 1 = (Real.sin θ - θ) / θ by field_simp, abs_div, abs_of_pos h0]
      field_simp
    rw [this, abs_of_nonpos (by linarith)]
    linarith
  · rw [div_le_iff₀ h2]; linarith
  · rw [div_le_iff₀ h3]; linarith

theorem sq_le_self {θ : ℝ} (h0 : 0 ≤ θ) (h1 : θ ≤ 1) : θ ^ 2 ≤ θ := by nlinarith

/-- `so3_exp w = 1 + [w] + O(|w|²)`, in both branches. -/
theorem so3_second_order {eps : ℝ} {w : V3 ℝ} (h1 : vnorm w ≤ 1) (heps : 0 < eps) :
    ∃ X, so3Exp eps w = (M3.one.add (so3Hat w)).add X ∧ nm X ≤ vnorm w ^ 2 := by
  by_cases h : vnorm w < eps
  · refine ⟨M3.zero, ?_, ?_⟩
    · simp only [so3Exp, if_pos h]
      ext <;> simp [M3.add, M3.zero, V3.add, V3.zero]
    · refine nm_le (by positivity) fun v => ?_
      have : (M3.zero : M3 ℝ).mulVec v = V3.zero := by ext <;> simp [M3.mulVec, M3.zero, V3.zero, V3.dot]
      rw [this]
      have : vnorm (V3.zero : V3 ℝ) = 0 := by simp [vnorm, V3.zero]
      rw [this]; exact mul_nonneg (by positivity) (vnorm_nonneg _)
  · have h0 : 0 < vnorm w := heps.trans_le (not_lt.1 h)
    obtain ⟨a, b, c, _⟩ := exp_coeffs h0 h1
    refine ⟨((so3Hat w).smul (Real.sin (vnorm w) / vnorm w - 1)).add (((so3Hat w).mul (so3Hat w)).smul ((1 - Real.cos (vnorm w)) / vnorm w ^ 2)), ?_, ?_⟩
    · simp only [so3Exp, if_neg h]
      ext <;> simp [M3.add, M3.smul, V3.add, V3.smul] <;> ring
    · refine (nm_add _ _).trans ?_
      have e1 := (nm_smul_le (Real.sin (vnorm w) / vnorm w - 1) (so3Hat w)).trans (mul_le_mul_of_nonneg_left (nm_hat w) (abs_nonneg _))
      have e2 := (nm_smul_le ((1 - Real.cos (vnorm w)) / vnorm w ^ 2) ((so3Hat w).mul (so3Hat w)))
      rw [abs_of_nonneg b] at e2
      have e3 : nm ((so3Hat w).mul (so3Hat w)) ≤ vnorm w ^ 2 := (nm_mul _ _).trans (by
        rw [sq]; exact mul_le_mul (nm_hat w) (nm_hat w) (nm_nonneg _) (vnorm_nonneg _))
      have e4 : (1 - Real.cos (vnorm w)) / vnorm w ^ 2 * nm ((so3Hat w).mul (so3Hat w)) ≤ 1 / 2 * vnorm w ^ 2 :=
        mul_le_mul c e3 (nm_nonneg _) (by norm_num)
      linarith

/-- The matrix `V` of `se3_exp` is `1 + O(|w|)`, in both branches. -/
theorem se3V_first_order {eps : ℝ} {w : V3 ℝ} (h1 : vnorm w ≤ 1) (heps : 0 < eps) :
    ∃ X, se3V eps w = M3.one.add X ∧ nm X ≤ vnorm w := by
  by_cases h : vnorm w < eps
  · exact ⟨so3Hat w, by simp only [se3V, if_pos h], nm_hat w⟩
  · have h0 : 0 < vnorm w := heps.trans_le (not_lt.1 h)
    obtain ⟨_, a, b, c, d⟩ := exp_coeffs h0 h1
    refine ⟨((so3Hat w).smul ((1 - Real.cos (vnorm w)) / vnorm w ^ 2)).add
      (((so3Hat w).mul (so3Hat w)).smul ((vnorm w - Real.sin (vnorm w)) / vnorm w ^ 3)), ?_, ?_⟩
    · simp only [se3V, if_neg h]
      ext <;> simp [M3.add, M3.smul, V3.add, V3.smul] <;> ring
    · refine (nm_add _ _).trans ?_
      have e1 := nm_smul_le ((1 - Real.cos (vnorm w)) / vnorm w ^ 2) (so3Hat w)
      rw [abs_of_nonneg a] at e1
      have e2 := nm_smul_le ((vnorm w - Real.sin (vnorm w)) / vnorm w ^ 3) ((so3Hat w).mul (so3Hat w))
      rw [abs_of_nonneg c] at e2
      have e3 : nm ((so3Hat w).mul (so3Hat w)) ≤ vnorm w ^ 2 := (nm_mul _ _).trans (by
        rw [sq]; exact mul_le_mul (nm_hat w) (nm_hat w) (nm_nonneg _) (vnorm_nonneg _))
      have e4 := mul_le_mul d e3 (nm_nonneg _) (by norm_num)
      have e5 := mul_le_mul b (nm_hat w) (nm_nonneg _) (by norm_num)
      have := sq_le_self h0.le h1
      linarith

/-- How far `so3_exp w` is from orthogonal: not at all, or at most `|w|²` when `|w| < eps`. -/
theorem so3_defect {eps : ℝ} (heps : 0 < eps) (w : V3 ℝ) :
    ∃ D, (so3Exp eps w).transpose.mul (so3Exp eps w) = M3.one.add D ∧ nm D ≤ vnorm w ^ 2 ∧ nm D ≤ eps ^ 2 := by
  by_cases h : vnorm w < eps
  · refine ⟨((so3Hat w).mul (so3Hat w)).neg, ?_, ?_⟩
    · simp only [so3Exp, if_pos h]
      ext <;> simp [M3.add, M3.mul, M3.transpose, M3.neg, M3.one, so3Hat, V3.add, V3.neg, V3.dot, M3.c0, M3.c1, M3.c2] <;> ring
    · have e3 : nm ((so3Hat w).mul (so3Hat w)).neg ≤ vnorm w ^ 2 := (nm_neg_le _).trans ((nm_mul _ _).trans (by
        rw [sq]; exact mul_le_mul (nm_hat w) (nm_hat w) (nm_nonneg _) (vnorm_nonneg _)))
      exact ⟨e3, e3.trans (pow_le_pow_left₀ (vnorm_nonneg _) h.le 2)⟩
  · have hr := (so3_exp_rotation_partial eps heps w (not_lt.1 h)).1.2.1
    have z : nm (M3.zero : M3 ℝ) ≤ 0 := nm_le le_rfl fun v => by
      have : (M3.zero : M3 ℝ).mulVec v = V3.zero := by ext <;> simp [M3.mulVec, M3.zero, V3.zero, V3.dot]
      rw [this]; simp [vnorm, V3.zero]
    exact ⟨M3.zero, by rw [hr]; ext <;> simp [M3.add, M3.zero, M3.one, V3.add, V3.zero], z.trans (by positivity), z.trans (by positivity)⟩
end Verif.Icp

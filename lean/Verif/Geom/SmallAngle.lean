import Verif.Geom.PropsReal
import Mathlib.Analysis.SpecialFunctions.Trigonometric.Bounds
/-!
How far the small-angle branch of `so3_exp` / `se3_exp` (se3utils.py:57-58, :89-91) is from a rotation and from the true exponential.
-/
namespace Verif.Geom
open Real

attribute [local simp] V3.zero V3.add V3.sub V3.neg V3.smul V3.dot V3.cross V3.normSq
  M3.one M3.zero M3.c0 M3.c1 M3.c2 M3.transpose M3.mulVec M3.mul M3.add M3.smul M3.neg M3.outer M3.det

/-- Specification: every entry of `A` is within `δ` of the entry of `B`. -/
def Near (δ : ℝ) (A B : M3 ℝ) : Prop :=
  (|A.r0.x - B.r0.x| ≤ δ ∧ |A.r0.y - B.r0.y| ≤ δ ∧ |A.r0.z - B.r0.z| ≤ δ) ∧
  (|A.r1.x - B.r1.x| ≤ δ ∧ |A.r1.y - B.r1.y| ≤ δ ∧ |A.r1.z - B.r1.z| ≤ δ) ∧
  (|A.r2.x - B.r2.x| ≤ δ ∧ |A.r2.y - B.r2.y| ≤ δ ∧ |A.r2.z - B.r2.z| ≤ δ)

theorem near_self (δ : ℝ) (h : 0 ≤ δ) (A : M3 ℝ) : Near δ A A := by simp [Near, h]

/-- Specification: the rotation by the vector `w` (Rodrigues' formula), the identity for `w = 0`. -/
noncomputable def rodrigues (w : V3 ℝ) : M3 ℝ :=
  (M3.one.add ((so3Hat w).smul (sin (vnorm w) / vnorm w))).add (((so3Hat w).mul (so3Hat w)).smul ((1 - cos (vnorm w)) / vnorm w ^ 2))

theorem comp_le_vnorm (w : V3 ℝ) : |w.x| ≤ vnorm w ∧ |w.y| ≤ vnorm w ∧ |w.z| ≤ vnorm w := by
  have h := vnorm_sq w
  have h0 := vnorm_nonneg w
  refine ⟨?_, ?_, ?_⟩ <;> apply abs_le_of_sq_le_sq _ h0 <;> nlinarith [sq_nonneg w.x, sq_nonneg w.y, sq_nonneg w.z]

theorem abs_mul_le_half (a b t : ℝ) (h : a ^ 2 + b ^ 2 ≤ t) : |a * b| ≤ t / 2 := by
  rw [abs_le]; constructor <;> nlinarith [sq_nonneg (a + b), sq_nonneg (a - b)]

/-- **C24 (e)**. Whatever the branch, the rotation block of `so3_exp` is orthogonal with determinant one up to `eps²` (the code's
`eps` is `1e-6`): the small-angle branch loses at most `‖w‖²`. -/
theorem so3_exp_near_rotation (eps : ℝ) (heps : 0 < eps) (w : V3 ℝ) :
    Near (eps ^ 2) ((so3Exp eps w).mul (so3Exp eps w).transpose) M3.one ∧
    Near (eps ^ 2) ((so3Exp eps w).transpose.mul (so3Exp eps w)) M3.one ∧
    |(so3Exp eps w).det - 1| ≤ eps ^ 2 := by
  have he : (0 : ℝ) ≤ eps ^ 2 := sq_nonneg _
  by_cases hs : vnorm w < eps
  · have h2 := vnorm_sq w
    have h0 := vnorm_nonneg w
    have hlt : vnorm w ^ 2 ≤ eps ^ 2 := by nlinarith
    have b1 : |w.x * w.y| ≤ eps ^ 2 / 2 := abs_mul_le_half _ _ _ (by nlinarith [sq_nonneg w.z])
    have b2 : |w.x * w.z| ≤ eps ^ 2 / 2 := abs_mul_le_half _ _ _ (by nlinarith [sq_nonneg w.y])
    have b3 : |w.y * w.z| ≤ eps ^ 2 / 2 := abs_mul_le_half _ _ _ (by nlinarith [sq_nonneg w.x])
    obtain ⟨c1, d1⟩ := abs_le.1 b1
    obtain ⟨c2, d2⟩ := abs_le.1 b2
    obtain ⟨c3, d3⟩ := abs_le.1 b3
    have q1 := sq_nonneg w.x
    have q2 := sq_nonneg w.y
    have q3 := sq_nonneg w.z
    simp only [so3Exp, hs, if_true]
    refine ⟨?_, ?_, ?_⟩
    · simp only [Near]
      refine ⟨⟨?_, ?_, ?_⟩, ⟨?_, ?_, ?_⟩, ⟨?_, ?_, ?_⟩⟩ <;> rw [abs_le] <;> constructor <;> simp [so3Hat] <;> linarith
    · simp only [Near]
      refine ⟨⟨?_, ?_, ?_⟩, ⟨?_, ?_, ?_⟩, ⟨?_, ?_, ?_⟩⟩ <;> rw [abs_le] <;> constructor <;> simp [so3Hat] <;> linarith
    · rw [abs_le]; constructor <;> simp [so3Hat] <;> linarith
  · obtain ⟨⟨r1, r2, r3⟩, _⟩ := so3_exp_rotation_partial eps heps w (not_lt.1 hs)
    rw [r1, r2, r3]
    exact ⟨near_self _ he _, near_self _ he _, by simpa using he⟩

set_option maxHeartbeats 1000000 in
/-- **C24 (f)**. Whatever the branch, `so3_exp(w)` is the rotation by `w` up to `eps²` in every entry (`eps ≤ 1`); above the threshold
it is that rotation. -/
theorem so3_exp_near_exponential (eps : ℝ) (heps : 0 < eps) (h1 : eps ≤ 1) (w : V3 ℝ) :
    Near (eps ^ 2) (so3Exp eps w) (rodrigues w) ∧ (eps ≤ vnorm w → so3Exp eps w = rodrigues w) := by
  refine ⟨?_, fun h => by simp only [so3Exp, not_lt.2 h, if_false, rodrigues]⟩
  by_cases hs : vnorm w < eps
  · have h2 := vnorm_sq w
    have h0 := vnorm_nonneg w
    have hlt : vnorm w ^ 2 ≤ eps ^ 2 := by nlinarith
    rcases h0.lt_or_eq with hp | hz
    · obtain ⟨a1, a2, a3⟩ := comp_le_vnorm w
      have hA0 : 0 ≤ 1 - sin (vnorm w) / vnorm w := by
        rw [sub_nonneg, div_le_one hp]; exact (Real.sin_lt hp).le
      have hA1 : 1 - sin (vnorm w) / vnorm w ≤ vnorm w ^ 2 / 4 := by
        have := Real.sin_gt_sub_cube hp
        rw [sub_le_iff_le_add, ← sub_le_iff_le_add', le_div_iff₀ hp]
        nlinarith
      have hB0 : 0 ≤ (1 - cos (vnorm w)) / vnorm w ^ 2 := div_nonneg (by linarith [Real.cos_le_one (vnorm w)]) (sq_nonneg _)
      have hB1 : (1 - cos (vnorm w)) / vnorm w ^ 2 ≤ 1 / 2 := by
        rw [div_le_iff₀ (by positivity)]
        have := Real.one_sub_sq_div_two_le_cos (x := vnorm w)
        linarith
      simp only [so3Exp, hs, if_true, rodrigues]
      generalize hAe : sin (vnorm w) / vnorm w = A at *
      generalize hBe : (1 - cos (vnorm w)) / vnorm w ^ 2 = B at *
      -- |(1 - A) c| ≤ eps²/4 for a component, |B m| ≤ eps²/4 or ≤ eps²/2 for a product
      have k1 : ∀ c : ℝ, |c| ≤ vnorm w → |(1 - A) * c| ≤ eps ^ 2 / 4 := by
        intro c hc
        rw [abs_mul, abs_of_nonneg hA0]
        have : |c| ≤ 1 := by linarith
        calc (1 - A) * |c| ≤ (1 - A) * 1 := by apply mul_le_mul_of_nonneg_left this hA0
          _ ≤ eps ^ 2 / 4 := by linarith
      have k2 : ∀ m : ℝ, |m| ≤ eps ^ 2 / 2 → |B * m| ≤ eps ^ 2 / 4 := by
        intro m hm
        rw [abs_mul, abs_of_nonneg hB0]
        calc B * |m| ≤ 1 / 2 * (eps ^ 2 / 2) := mul_le_mul hB1 hm (abs_nonneg _) (by norm_num)
          _ = _ := by ring
      have k3 : ∀ m : ℝ, 0 ≤ m → m ≤ eps ^ 2 → |B * m| ≤ eps ^ 2 / 2 := by
        intro m h0 hm
        rw [abs_of_nonneg (mul_nonneg hB0 h0)]
        calc B * m ≤ 1 / 2 * eps ^ 2 := mul_le_mul hB1 hm h0 (by norm_num)
          _ = _ := by ring
      have x1 := abs_le.1 (k1 w.x a1)
      have x2 := abs_le.1 (k1 w.y a2)
      have x3 := abs_le.1 (k1 w.z a3)
      have p1 := abs_le.1 (k2 (w.x * w.y) (abs_mul_le_half _ _ _ (by nlinarith [sq_nonneg w.z])))
      have p2 := abs_le.1 (k2 (w.x * w.z) (abs_mul_le_half _ _ _ (by nlinarith [sq_nonneg w.y])))
      have p3 := abs_le.1 (k2 (w.y * w.z) (abs_mul_le_half _ _ _ (by nlinarith [sq_nonneg w.x])))
      have s1 := abs_le.1 (k3 (w.x ^ 2 + w.y ^ 2) (by positivity) (by nlinarith [sq_nonneg w.z]))
      have s2 := abs_le.1 (k3 (w.x ^ 2 + w.z ^ 2) (by positivity) (by nlinarith [sq_nonneg w.y]))
      have s3 := abs_le.1 (k3 (w.y ^ 2 + w.z ^ 2) (by positivity) (by nlinarith [sq_nonneg w.x]))
      have he : (0 : ℝ) ≤ eps ^ 2 := sq_nonneg _
      obtain ⟨x1a, x1b⟩ := x1; obtain ⟨x2a, x2b⟩ := x2; obtain ⟨x3a, x3b⟩ := x3
      obtain ⟨p1a, p1b⟩ := p1; obtain ⟨p2a, p2b⟩ := p2; obtain ⟨p3a, p3b⟩ := p3
      obtain ⟨s1a, s1b⟩ := s1; obtain ⟨s2a, s2b⟩ := s2; obtain ⟨s3a, s3b⟩ := s3
      clear k1 k2 k3 hA0 hA1 hB0 hB1 hAe hBe a1 a2 a3 hp h2 h0 hlt hs h1 heps
      simp only [Near]
      refine ⟨⟨?_, ?_, ?_⟩, ⟨?_, ?_, ?_⟩, ⟨?_, ?_, ?_⟩⟩ <;> rw [abs_le] <;> constructor <;> simp [so3Hat] <;> linarith
    · have hw : w.x = 0 ∧ w.y = 0 ∧ w.z = 0 := by
        rw [← hz] at h2
        refine ⟨?_, ?_, ?_⟩ <;> nlinarith [sq_nonneg w.x, sq_nonneg w.y, sq_nonneg w.z]
      have : so3Exp eps w = rodrigues w := by
        simp only [so3Exp, hs, if_true, rodrigues]
        ext <;> simp [so3Hat, hw.1, hw.2.1, hw.2.2]
      rw [this]; exact near_self _ (sq_nonneg _) _
  · rw [show so3Exp eps w = rodrigues w by simp only [so3Exp, hs, if_false, rodrigues]]
    exact near_self _ (sq_nonneg _) _

/-- The bound is not vacuous: a small non-zero vector takes the approximate branch. -/
example : vnorm ⟨1 / 10 ^ 7, 0, 0⟩ < (1 / 10 ^ 6 : ℝ) := by
  have : vnorm ⟨1 / 10 ^ 7, 0, 0⟩ = 1 / 10 ^ 7 := by
    unfold vnorm
    rw [show (1 / 10 ^ 7 : ℝ) * (1 / 10 ^ 7) + 0 * 0 + 0 * 0 = (1 / 10 ^ 7) ^ 2 by ring, Real.sqrt_sq (by positivity)]
  rw [this]; norm_num

end Verif.Geom

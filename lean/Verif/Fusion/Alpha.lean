import Verif.Common.Lin
import Mathlib.Analysis.SpecialFunctions.Exp
/-!
`get_alpha`, the confidence weight of a measurement (C40).
-/
namespace Verif.Fusion
open Verif Real

/-- `get_alpha` at one point, fusionutils.py:69-73: `exp(-|p|² / (2 σ²))` clamped to `[eps, 1.01]` (`torch.clamp` applies the upper bound
last).  The TypeError/ValueError checks of the arguments are left out; a division by `σ = 0` is outside the theorems below. -/
noncomputable def getAlpha (sigma eps : ℝ) (p : V3 ℝ) : ℝ :=
  min (max (exp (-(p.x ^ 2 + p.y ^ 2 + p.z ^ 2) / (2 * sigma ^ 2))) eps) (101 / 100)

theorem exp_le_one (sigma : ℝ) (p : V3 ℝ) : exp (-(p.x ^ 2 + p.y ^ 2 + p.z ^ 2) / (2 * sigma ^ 2)) ≤ 1 := by
  rw [exp_le_one_iff, div_nonpos_iff]
  right
  exact ⟨by nlinarith [sq_nonneg p.x, sq_nonneg p.y, sq_nonneg p.z], by positivity⟩

/-- **C40**.  For `0 < eps ≤ 1` the weight is between `eps` and 1, so it is never zero; it is the Gaussian `exp(-|p|²/(2σ²))` wherever that
is at least `eps` and `eps` elsewhere; the upper bound of the clamp is never active. -/
theorem alpha_range {sigma eps : ℝ} (he : 0 < eps) (he1 : eps ≤ 1) (p : V3 ℝ) :
    eps ≤ getAlpha sigma eps p ∧ 0 < getAlpha sigma eps p ∧ getAlpha sigma eps p ≤ 1 ∧
    (eps ≤ exp (-p.normSq / (2 * sigma ^ 2)) → getAlpha sigma eps p = exp (-p.normSq / (2 * sigma ^ 2))) ∧
    (exp (-p.normSq / (2 * sigma ^ 2)) ≤ eps → getAlpha sigma eps p = eps) := by
  have h1 := exp_le_one sigma p
  have hsq : p.normSq = p.x ^ 2 + p.y ^ 2 + p.z ^ 2 := by simp only [V3.normSq, V3.dot]; ring
  have e : getAlpha sigma eps p = max (exp (-p.normSq / (2 * sigma ^ 2))) eps := by
    rw [getAlpha, hsq, min_eq_left]
    exact (max_le h1 he1).trans (by norm_num)
  rw [e, hsq]
  exact ⟨le_max_right _ _, lt_of_lt_of_le he (le_max_right _ _), max_le h1 he1, fun h => max_eq_left h, fun h => max_eq_right h⟩

/-- **C40**.  The weight does not increase with the distance from the optical centre, is 1 there, and strictly decreases as long as it is
above `eps`. -/
theorem alpha_antitone {sigma eps : ℝ} (hs : sigma ≠ 0) (he : 0 < eps) (he1 : eps ≤ 1) (p q : V3 ℝ) :
    getAlpha sigma eps V3.zero = 1 ∧
    (p.normSq ≤ q.normSq → getAlpha sigma eps q ≤ getAlpha sigma eps p) ∧
    (p.normSq < q.normSq → eps < getAlpha sigma eps p → getAlpha sigma eps q < getAlpha sigma eps p) := by
  have e : ∀ p, getAlpha sigma eps p = max (exp (-p.normSq / (2 * sigma ^ 2))) eps := by
    intro p
    rcases le_total eps (exp (-p.normSq / (2 * sigma ^ 2))) with h | h
    · rw [(alpha_range he he1 p).2.2.2.1 h, max_eq_left h]
    · rw [(alpha_range he he1 p).2.2.2.2 h, max_eq_right h]
  have hpos : 0 < 2 * sigma ^ 2 := by positivity
  refine ⟨?_, ?_, ?_⟩
  · rw [e]; simp [V3.normSq, V3.dot, V3.zero, he1]
  · intro h
    rw [e, e]
    exact max_le_max (exp_le_exp.2 ((div_le_div_iff_of_pos_right hpos).2 (neg_le_neg h))) le_rfl
  · intro h hp
    rw [e, lt_max_iff] at hp
    rw [e, e, lt_max_iff]
    left
    refine max_lt (exp_lt_exp.2 ((div_lt_div_iff_of_pos_right hpos).2 (neg_lt_neg h))) ?_
    rcases hp with hp | hp
    · exact hp
    · exact absurd hp (lt_irrefl _)

/-- The default `eps = 1e-7` meets the hypotheses. -/
example (p : V3 ℝ) : 0 < getAlpha (6 / 10) (1 / 10 ^ 7) p := (alpha_range (by norm_num) (by norm_num) p).2.1
end Verif.Fusion

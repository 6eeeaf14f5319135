import Verif.Grad.Code
import Mathlib.Tactic.IntervalCases
/-! **C106**: the gradients of the differentiable functions of gradslam. -/
namespace Verif.Grad
open Verif Verif.Nan Classical

/-- **C106**, `unhomogenize_points`: away from `w = 0` and `|w| = eps` back-propagation gives the derivative of the function; the gradients
are finite exactly when `w ≠ 0`, although the values are finite for every `w`; at `w = 0` the gradient with respect to `w` is NaN. -/
theorem unhomogenize_grads (eps : ℝ) (he : 0 ≤ eps) (x y z w : ℝ) :
    (w ≠ 0 → |w| ≠ eps → CorrectGrads 4 (unhomogOps eps) {8, 9, 10} (inp [x, y, z, w])) ∧
    (FiniteGrads 4 (unhomogOps eps) {8, 9, 10} (inp [x, y, z, w]) ↔ w ≠ 0) ∧
    (∀ k ∈ [8, 9, 10], run 4 (unhomogOps eps) (fun k => .fin (inp [x, y, z, w] k)) k = .fin (runR 4 (unhomogOps eps) (inp [x, y, z, w]) k)) ∧
    (w = 0 → ∀ s, gradOf (back 4 (unhomogOps eps) (fun k => .fin (inp [x, y, z, w] k)) (seed {8, 9, 10} s)) 3 = .nan) := by
  have hn : w = 0 → ∀ s, gradOf (back 4 (unhomogOps eps) (fun k => .fin (inp [x, y, z, w] k)) (seed {8, 9, 10} s)) 3 = .nan := by
    rintro rfl s
    simp [unhomogOps, back, Op.eval, Op.pulls, Cond.eval, X.div, X.mul, X.add, X.neg, X.lt, absX, inp, seed, acc, gradOf, ex, he.not_gt]
  refine ⟨fun h1 h2 => ?_, ⟨fun h e => ?_, fun h => ?_⟩, ?_, hn⟩
  · exact correct_of_regular _ _ _ (by simp [Closed, unhomogOps, Op.args, Cond.arg])
      (by simp [Regular, unhomogOps, Op.Regular, Cond.Regular, inp, h1, h2]) _ (by simp [unhomogOps])
  · obtain ⟨a, ha⟩ := h (fun _ => 1) 3 (by norm_num)
    rw [hn e] at ha
    cases ha
  · exact finite_of_mild _ _ _ (by simp [Mild, unhomogOps, Op.Mild, inp, h]) _
  · by_cases h : w = 0
    · subst h
      simp [unhomogOps, run, runR, Op.eval, Op.evalR, Cond.eval, Cond.holds, X.div, X.mul, X.lt, absX, inp, ex, he.not_gt]
    · intro k _
      rw [run_mild _ _ _ (by simp [Mild, unhomogOps, Op.Mild, inp, h])]

/-- **C106**, `quaternion_to_axisangle`: if the vector part is not zero and `qw ≠ 0`, back-propagation gives the derivative; the gradients
are finite exactly when the vector part is not zero, although the values are finite everywhere; for a zero vector part (the identity
rotation) all four gradients are NaN. -/
theorem axisangle_grads (x y z w : ℝ) :
    (¬ (x = 0 ∧ y = 0 ∧ z = 0) → w ≠ 0 → CorrectGrads 4 axisOps {19, 20, 21} (inp [x, y, z, w])) ∧
    (FiniteGrads 4 axisOps {19, 20, 21} (inp [x, y, z, w]) ↔ ¬ (x = 0 ∧ y = 0 ∧ z = 0)) ∧
    (∀ k ∈ [19, 20, 21], run 4 axisOps (fun k => .fin (inp [x, y, z, w] k)) k = .fin (runR 4 axisOps (inp [x, y, z, w]) k)) ∧
    (x = 0 → y = 0 → z = 0 → ∀ s, ∀ j < 4,
      gradOf (back 4 axisOps (fun k => .fin (inp [x, y, z, w] k)) (seed {19, 20, 21} s)) j = .nan) := by
  have hp : ¬ (x = 0 ∧ y = 0 ∧ z = 0) → 0 < x * x + y * y + z * z := by
    intro h
    have hx := mul_self_nonneg x; have hy := mul_self_nonneg y; have hz := mul_self_nonneg z
    by_contra hc
    exact h ⟨mul_self_eq_zero.1 (by linarith), mul_self_eq_zero.1 (by linarith), mul_self_eq_zero.1 (by linarith)⟩
  have hm : ¬ (x = 0 ∧ y = 0 ∧ z = 0) → Mild 4 axisOps (inp [x, y, z, w]) := by
    intro h
    have h1 := hp h
    have h2 : √(x * x + y * y + z * z) ≠ 0 := (Real.sqrt_pos.2 h1).ne'
    simp [Mild, axisOps, Op.Mild, inp, Op.evalR, h1, h2]
  have hn : x = 0 → y = 0 → z = 0 → ∀ s, ∀ j < 4,
      gradOf (back 4 axisOps (fun k => .fin (inp [x, y, z, w] k)) (seed {19, 20, 21} s)) j = .nan := by
    rintro rfl rfl rfl s j hj
    have a1 : 0 ≤ w → (⟨w, 0⟩ : ℂ).arg = 0 := fun h => by rw [Complex.arg_eq_zero_iff]; exact ⟨h, rfl⟩
    have a2 : w < 0 → (⟨-w, 0⟩ : ℂ).arg = 0 := fun h => by rw [Complex.arg_eq_zero_iff]; exact ⟨by simpa using h.le, rfl⟩
    rcases lt_trichotomy w 0 with hw | rfl | hw
    · interval_cases j <;>
        simp [axisOps, back, Op.eval, Op.pulls, Cond.eval, X.div, X.mul, X.add, X.neg, X.lt, mapX, atan2X, inp, seed, acc, gradOf, ex, hw,
          Geom.atan2, a2 hw, hw.ne]
    · interval_cases j <;>
        simp [axisOps, back, Op.eval, Op.pulls, Cond.eval, X.div, X.mul, X.add, X.neg, X.lt, mapX, atan2X, inp, seed, acc, gradOf, ex,
          Geom.atan2, a1 le_rfl]
    · interval_cases j <;>
        simp [axisOps, back, Op.eval, Op.pulls, Cond.eval, X.div, X.mul, X.add, X.neg, X.lt, mapX, atan2X, inp, seed, acc, gradOf, ex,
          hw.le.not_gt, Geom.atan2, a1 hw.le, hw.ne']
  refine ⟨fun h1 h2 => ?_, ⟨fun h e => ?_, fun h => finite_of_mild _ _ _ (hm h) _⟩, ?_, hn⟩
  · have h3 := hp h1
    have h4 : √(x * x + y * y + z * z) ≠ 0 := (Real.sqrt_pos.2 h3).ne'
    exact correct_of_regular _ _ _ (by simp [Closed, axisOps, Op.args, Cond.arg])
      (by simp [Regular, axisOps, Op.Regular, Cond.Regular, inp, Op.evalR, h2, h3, h4, h3.ne']) _ (by simp [axisOps])
  · obtain ⟨a, ha⟩ := h (fun _ => 1) 3 (by norm_num)
    rw [hn e.1 e.2.1 e.2.2 _ _ (by norm_num)] at ha
    cases ha
  · by_cases h : x = 0 ∧ y = 0 ∧ z = 0
    · obtain ⟨rfl, rfl, rfl⟩ := h
      simp [axisOps, run, runR, Op.eval, Op.evalR, Cond.eval, Cond.holds, X.div, X.mul, X.add, X.lt, mapX, inp, ex]
    · intro k _
      rw [run_mild _ _ _ (hm h)]

/-- **C106**, `project_points`: the gradients are always finite, and they are the derivative where the projected third coordinate is not 0. -/
theorem project_grads (x : ℕ → ℝ) :
    FiniteGrads 16 projectOps {39, 42} x ∧
    (x 8 * x 12 + x 9 * x 13 + x 10 * x 14 + x 11 * x 15 ≠ 0 → CorrectGrads 16 projectOps {39, 42} x) := by
  constructor
  · refine finite_of_mild _ _ _ ?_ _
    simp [Mild, projectOps, Op.Mild, Op.evalR, Cond.holds]
    split_ifs with h <;> simp [h]
  · intro h
    exact correct_of_regular _ _ _ (by simp [Closed, projectOps, Op.args, Cond.arg])
      (by simp [Regular, projectOps, Op.Regular, Cond.Regular, Op.evalR, Cond.holds, h]) _ (by simp [projectOps])

/-- **C106**, the normal map: the gradients are always finite, and they are the derivative where the two differences of vertices are not
parallel. -/
theorem normal_grads (v : ℝ) (p q r : V3 ℝ) :
    FiniteGrads 9 (normalOps v) {30, 31, 32} (inp [p.x, p.y, p.z, q.x, q.y, q.z, r.x, r.y, r.z]) ∧
    ((q.sub p).cross (r.sub p) ≠ V3.zero →
      CorrectGrads 9 (normalOps v) {30, 31, 32} (inp [p.x, p.y, p.z, q.x, q.y, q.z, r.x, r.y, r.z])) := by
  constructor
  · refine finite_of_mild _ _ _ ?_ _
    simp [Mild, normalOps, Op.Mild, Op.evalR, Cond.holds, inp]
    split_ifs with h <;> simp [h]
  · intro h
    set n := (q.sub p).cross (r.sub p) with hn
    have h1 : 0 < n.x * n.x + n.y * n.y + n.z * n.z := by
      have hx := mul_self_nonneg n.x; have hy := mul_self_nonneg n.y; have hz := mul_self_nonneg n.z
      by_contra hc
      exact h (V3.ext (mul_self_eq_zero.1 (by linarith)) (mul_self_eq_zero.1 (by linarith)) (mul_self_eq_zero.1 (by linarith)))
    have h2 : √(n.x * n.x + n.y * n.y + n.z * n.z) ≠ 0 := (Real.sqrt_pos.2 h1).ne'
    simp only [hn, V3.cross, V3.sub] at h1 h2
    exact correct_of_regular _ _ _ (by simp [Closed, normalOps, Op.args, Cond.arg])
      (by simp [Regular, normalOps, Op.Regular, Cond.Regular, Op.evalR, Cond.holds, inp, h1, h2]) _ (by simp [normalOps])

/-- **C106**, `get_alpha`: the gradients are always finite, and they are the derivative where the Gaussian is not exactly `eps`. -/
theorem alpha_grads (sigma eps : ℝ) (p : V3 ℝ) :
    FiniteGrads 3 (alphaOps sigma eps) {11} (inp [p.x, p.y, p.z]) ∧
    (Real.exp (-(p.x ^ 2 + p.y ^ 2 + p.z ^ 2) / (2 * sigma ^ 2)) ≠ eps →
      CorrectGrads 3 (alphaOps sigma eps) {11} (inp [p.x, p.y, p.z])) := by
  have e : (sigma ^ 2)⁻¹ * 2⁻¹ * -(p.x ^ 2 + p.y ^ 2 + p.z ^ 2) = -(p.x ^ 2 + p.y ^ 2 + p.z ^ 2) / (2 * sigma ^ 2) := by
    rw [div_eq_mul_inv, mul_inv]; ring
  constructor
  · refine finite_of_mild _ _ _ ?_ _
    simp [Mild, alphaOps, Op.Mild]
  · intro h
    rw [← e] at h
    have h1 : Real.exp ((sigma ^ 2)⁻¹ * 2⁻¹ * -(p.x ^ 2 + p.y ^ 2 + p.z ^ 2)) ≠ 101 / 100 := by
      rw [e]; have := Fusion.exp_le_one sigma p; intro k; rw [k] at this; norm_num at this
    exact correct_of_regular _ _ _ (by simp [Closed, alphaOps, Op.args])
      (by simpa [Regular, alphaOps, Op.Regular, Op.evalR, inp] using And.intro h h1) _ (by simp [alphaOps])

/-- **C106**, the merge of a map point with a measurement: the gradients are always finite, and they are the derivative where the new
confidence is not 0. -/
theorem merge_grads (c a p q : ℝ) :
    FiniteGrads 4 mergeOps {12, 4} (inp [c, a, p, q]) ∧ (c + a ≠ 0 → CorrectGrads 4 mergeOps {12, 4} (inp [c, a, p, q])) := by
  constructor
  · refine finite_of_mild _ _ _ ?_ _
    simp [Mild, mergeOps, Op.Mild, Op.evalR, Cond.holds, inp]
    split_ifs with h <;> simp [h]
  · intro h
    exact correct_of_regular _ _ _ (by simp [Closed, mergeOps, Op.args, Cond.arg])
      (by simp [Regular, mergeOps, Op.Regular, Cond.Regular, Op.evalR, Cond.holds, inp, h]) _ (by simp [mergeOps])

/-- **C106**, vertex maps: the gradients with respect to the depth and the intrinsics are the derivative, unless a focal length is `-eps`. -/
theorem vertex_grads (eps u v d fx fy cx cy : ℝ) (hx : fx + eps ≠ 0) (hy : fy + eps ≠ 0) :
    CorrectGrads 5 (vertexOps eps u v) {23, 24, 0} (inp [d, fx, fy, cx, cy]) :=
  correct_of_regular _ _ _ (by simp [Closed, vertexOps, Op.args])
    (by simp [Regular, vertexOps, Op.Regular, Op.evalR, inp, hx, hy]) _ (by simp [vertexOps])

/-- **C106**, the Levenberg–Marquardt blending of gradICP: the gradients are always finite; they are the derivative unless the errors differ
by exactly 70; where they differ by more, no gradient flows back to the errors. -/
theorem lm_grads (lmax B B2 nu new old : ℝ) :
    FiniteGrads 2 (lmOps lmax B B2 nu) {11, 18} (inp [new, old]) ∧
    (|new - old| ≠ 70 → CorrectGrads 2 (lmOps lmax B B2 nu) {11, 18} (inp [new, old])) ∧
    (70 < |new - old| → ∀ s, ∀ j < 2, gradOf (back 2 (lmOps lmax B B2 nu) (fun k => .fin (inp [new, old] k)) (seed {11, 18} s)) j = .fin 0) := by
  have hpos : ∀ a : ℝ, 0 < 1 + Real.exp a := fun a => by positivity
  have hr : ∀ a : ℝ, (1 + Real.exp a) ^ (1 / nu) ≠ 0 := fun a => (Real.rpow_pos_of_pos (hpos a) _).ne'
  have hr' : ∀ a : ℝ, (1 + Real.exp a) ^ nu⁻¹ ≠ 0 := fun a => (Real.rpow_pos_of_pos (hpos a) _).ne'
  refine ⟨?_, fun h => ?_, fun h s j hj => ?_⟩
  · refine finite_of_mild _ _ _ ?_ _
    simp [Mild, lmOps, Op.Mild, Op.evalR, hpos, hr', (hpos _).ne']
  · have h1 : new - old ≠ -70 := by rintro k; rw [k] at h; norm_num at h
    have h2 : new - old ≠ 70 := by rintro k; rw [k] at h; norm_num at h
    exact correct_of_regular _ _ _ (by simp [Closed, lmOps, Op.args])
      (by simp [Regular, lmOps, Op.Regular, Op.evalR, hpos, hr', (hpos _).ne', inp, h1, h2]) _ (by simp [lmOps])
  · have hb : new - old < -70 ∨ 70 < new - old := by
      rcases lt_abs.1 h with k | k
      · exact .inr k
      · exact .inl (by linarith)
    rcases hb with k | k
    · interval_cases j <;>
        simp [lmOps, back, Op.eval, Op.pulls, X.div, X.mul, X.add, X.neg, X.lt, X.exp, X.clamp, mapX, inp, seed, acc, gradOf, ex, k,
          ← sub_eq_add_neg, hpos, (hpos _).ne', hr']
    · interval_cases j <;>
        simp [lmOps, back, Op.eval, Op.pulls, X.div, X.mul, X.add, X.neg, X.lt, X.exp, X.clamp, mapX, inp, seed, acc, gradOf, ex, k,
          ← sub_eq_add_neg, hpos, (hpos _).ne', hr']

theorem vnorm_near (x : ℕ → ℝ) (j : ℕ) : ContinuousAt (fun t => Geom.vnorm (vecOf (Function.update x j t))) (x j) := by
  have hu : ∀ k, Continuous fun t : ℝ => Function.update x j t k := fun k => by
    by_cases e : k = j
    · subst e; simpa using continuous_id'
    · simpa [Function.update_of_ne e] using continuous_const
  unfold Geom.vnorm vecOf
  exact (((((hu 0).mul (hu 0)).add ((hu 1).mul (hu 1))).add ((hu 2).mul (hu 2))).sqrt).continuousAt

/-- **C106**, `so3_exp`: on both branches of `if omega.norm() < _eps` the gradients are finite, and off the boundary they are the derivative
of the sum of the nine entries weighted with `s`. -/
theorem so3_exp_grads (eps : ℝ) (he : 0 < eps) (x : ℕ → ℝ) :
    (Geom.vnorm (vecOf x) < eps →
      FiniteGrads 3 rotSmallOps {8, 9, 10, 11, 12, 13, 14, 15, 16} x ∧
      ∀ (s : ℕ → ℝ), ∀ j < 3, ∃ v : ℝ,
        gradOf (back 3 rotSmallOps (fun k => .fin (x k)) (seed {8, 9, 10, 11, 12, 13, 14, 15, 16} s)) j = .fin v ∧
        HasDerivAt (fun t => (List.zipWith (fun k a => s k * a) [8, 9, 10, 11, 12, 13, 14, 15, 16]
          (flat (Geom.so3Exp eps (vecOf (Function.update x j t))))).sum) v (x j)) ∧
    (¬ Geom.vnorm (vecOf x) < eps → FiniteGrads 3 rotOps {63, 67, 71, 75, 79, 83, 87, 91, 95} x) ∧
    (eps < Geom.vnorm (vecOf x) → ∀ (s : ℕ → ℝ), ∀ j < 3, ∃ v : ℝ,
        gradOf (back 3 rotOps (fun k => .fin (x k)) (seed {63, 67, 71, 75, 79, 83, 87, 91, 95} s)) j = .fin v ∧
        HasDerivAt (fun t => (List.zipWith (fun k a => s k * a) [63, 67, 71, 75, 79, 83, 87, 91, 95]
          (flat (Geom.so3Exp eps (vecOf (Function.update x j t))))).sum) v (x j)) := by
  have zz : ∀ (s : ℕ → ℝ) (r : ℕ → ℝ) (l : List ℕ), (List.zipWith (fun k a => s k * a) l (l.map r)).sum = (l.map fun k => s k * r k).sum := by
    intro s r l
    induction l with
    | nil => rfl
    | cons k l ih => simp [ih]
  have hv : Geom.vnorm (vecOf x) = √(x 0 * x 0 + x 1 * x 1 + x 2 * x 2) := rfl
  refine ⟨fun h => ⟨finite_of_mild _ _ _ (by simp [Mild, rotSmallOps, Op.Mild]) _, fun s j hj => ?_⟩, fun h => ?_, fun h s j hj => ?_⟩
  · obtain ⟨v, h1, h2⟩ := correct_of_regular 3 rotSmallOps x (by simp [Closed, rotSmallOps, Op.args])
      (by simp [Regular, rotSmallOps, Op.Regular]) {8, 9, 10, 11, 12, 13, 14, 15, 16} (by simp [rotSmallOps]) s j hj
    refine ⟨v, h1, h2.congr_of_eventuallyEq ?_⟩
    have hx : Function.update x j (x j) = x := Function.update_eq_self j x
    filter_upwards [(vnorm_near x j).eventually (gt_mem_nhds (a := eps) (by simpa only [hx] using h))] with t ht
    rw [← rotSmall_computes eps _ ht, zz]
    rfl
  · have h1 : 0 < √(x 0 * x 0 + x 1 * x 1 + x 2 * x 2) := by rw [← hv]; linarith
    refine finite_of_mild _ _ _ ?_ _
    simp [Mild, rotOps, Op.Mild, Op.evalR, h1.ne']
  · have h1 : 0 < √(x 0 * x 0 + x 1 * x 1 + x 2 * x 2) := by rw [← hv]; linarith
    obtain ⟨v, h1, h2⟩ := correct_of_regular 3 rotOps x (by simp [Closed, rotOps, Op.args])
      (by simp [Regular, rotOps, Op.Regular, Op.evalR, h1.ne', Real.sqrt_pos.1 h1]) {63, 67, 71, 75, 79, 83, 87, 91, 95}
      (by simp [rotOps]) s j hj
    refine ⟨v, h1, h2.congr_of_eventuallyEq ?_⟩
    have hx : Function.update x j (x j) = x := Function.update_eq_self j x
    filter_upwards [(vnorm_near x j).eventually (lt_mem_nhds (a := eps) (by simpa only [hx] using h))] with t ht
    rw [← rot_computes eps _ ht.le.not_gt, zz]
    rfl

end Verif.Grad

import Verif.Grad.Grads
/-! **C106**, cases. -/
namespace Verif.Grad
open Verif Verif.Nan

/-- A half turn about the x axis, unnormalised: regular. -/
theorem witness_axis : CorrectGrads 4 axisOps {19, 20, 21} (inp [3, 0, 4, 12]) :=
  (axisangle_grads 3 0 4 12).1 (by norm_num) (by norm_num)

/-- The identity quaternion: value 0, gradients NaN. -/
theorem witness_identity :
    (∀ k ∈ [19, 20, 21], run 4 axisOps (fun k => .fin (inp [0, 0, 0, 1] k)) k = .fin 0) ∧
    ¬ FiniteGrads 4 axisOps {19, 20, 21} (inp [0, 0, 0, 1]) := by
  refine ⟨fun k hk => ?_, fun h => (axisangle_grads 0 0 0 1).2.1.1 h (by norm_num)⟩
  rw [(axisangle_grads 0 0 0 1).2.2.1 k hk]
  simp only [List.mem_cons, List.not_mem_nil, or_false] at hk
  rcases hk with rfl | rfl | rfl <;> simp [axisOps, runR, Op.evalR, inp, Cond.holds]

/-- A point at infinity: value `(1, 2, 3)`, gradients not finite; any other point of that direction: the derivative. -/
theorem witness_unhomog :
    [8, 9, 10].map (run 4 (unhomogOps (1 / 100000000)) (fun k => .fin (inp [1, 2, 3, 0] k))) = [.fin 1, .fin 2, .fin 3] ∧
    ¬ FiniteGrads 4 (unhomogOps (1 / 100000000)) {8, 9, 10} (inp [1, 2, 3, 0]) ∧
    CorrectGrads 4 (unhomogOps (1 / 100000000)) {8, 9, 10} (inp [1, 2, 3, 2]) := by
  refine ⟨?_, fun h => (unhomogenize_grads _ (by norm_num) 1 2 3 0).2.1.1 h rfl,
    (unhomogenize_grads _ (by norm_num) 1 2 3 2).1 (by norm_num) (by norm_num)⟩
  norm_num [unhomogOps, run, Op.eval, Cond.eval, X.div, X.mul, X.lt, absX, inp, ex]

/-- The gradient of `x/w` at `(1, 2, 3, 2)`: `1/w` for `x`, `-x/w²` for `w`. -/
theorem witness_value :
    let g := back 4 (unhomogOps (1 / 100000000)) (fun k => .fin (inp [1, 2, 3, 2] k)) (seed {8} fun _ => 1)
    gradOf g 0 = .fin (1 / 2) ∧ gradOf g 1 = .fin 0 ∧ gradOf g 3 = .fin (-1 / 4) := by
  have h : (1 / 100000000 : ℝ) < 2 := by norm_num
  norm_num [unhomogOps, back, Op.eval, Op.pulls, Cond.eval, X.div, X.mul, X.add, X.neg, X.lt, absX, inp, seed, acc, gradOf, ex]

/-- Vertices `(0,0,1)`, `(1,0,1)`, `(0,1,1)`: regular; three equal vertices: finite all the same. -/
theorem witness_normal :
    CorrectGrads 9 (normalOps 1) {30, 31, 32} (inp [0, 0, 1, 1, 0, 1, 0, 1, 1]) ∧
    FiniteGrads 9 (normalOps 1) {30, 31, 32} (inp [0, 0, 1, 0, 0, 1, 0, 0, 1]) :=
  ⟨(normal_grads 1 ⟨0, 0, 1⟩ ⟨1, 0, 1⟩ ⟨0, 1, 1⟩).2 (by simp [V3.sub, V3.cross, V3.zero]),
   (normal_grads 1 ⟨0, 0, 1⟩ ⟨0, 0, 1⟩ ⟨0, 0, 1⟩).1⟩

/-- Errors 1 and 200: no gradient; errors 1 and 2: the derivative. -/
theorem witness_lm :
    (∀ s, ∀ j < 2, gradOf (back 2 (lmOps 2 1 1 200) (fun k => .fin (inp [1, 200] k)) (seed {11, 18} s)) j = .fin 0) ∧
    CorrectGrads 2 (lmOps 2 1 1 200) {11, 18} (inp [1, 2]) :=
  ⟨(lm_grads 2 1 1 200 1 200).2.2 (by norm_num), (lm_grads 2 1 1 200 1 2).2.1 (by norm_num)⟩

/-- The projection of `(1, 2, 4)` by the identity is regular, that of `(1, 2, 0)` has finite gradients. -/
theorem witness_project :
    CorrectGrads 16 projectOps {39, 42} (inp [1, 0, 0, 0, 0, 1, 0, 0, 0, 0, 1, 0, 1, 2, 4, 1]) ∧
    FiniteGrads 16 projectOps {39, 42} (inp [1, 0, 0, 0, 0, 1, 0, 0, 0, 0, 1, 0, 1, 2, 0, 1]) :=
  ⟨(project_grads _).2 (by simp [inp]), (project_grads _).1⟩

/-- A rotation by 5 radians, and one below the threshold. -/
theorem witness_so3 : (1 / 1000000 : ℝ) < Geom.vnorm (vecOf (inp [3, 0, 4])) ∧ Geom.vnorm (vecOf (inp [0, 0, 0])) < (1 / 1000000 : ℝ) := by
  constructor
  · have : Geom.vnorm (vecOf (inp [3, 0, 4])) = 5 := by
      simp only [Geom.vnorm, vecOf, inp]
      rw [show (5 : ℝ) = √(5 ^ 2) by rw [Real.sqrt_sq (by norm_num)]]
      norm_num
    rw [this]; norm_num
  · have : Geom.vnorm (vecOf (inp [0, 0, 0])) = 0 := by simp [Geom.vnorm, vecOf, inp]
    rw [this]; norm_num

end Verif.Grad

import Verif.Icp.Solve
import Mathlib.LinearAlgebra.Matrix.NonsingularInverse
import Mathlib.LinearAlgebra.Matrix.Adjugate
import Mathlib.Analysis.Calculus.Deriv.Mul
import Mathlib.Analysis.Calculus.Deriv.Add
import Mathlib.Analysis.Calculus.Deriv.Pow
import Mathlib.Analysis.Calculus.FDeriv.Mul
import Mathlib.Analysis.Calculus.FDeriv.Add
import Mathlib.Analysis.Calculus.Deriv.Inv
/-!
**C107**: back-propagation through `solve_linear_system` (icputils.py:84-90), on matrices of any size.
-/
namespace Verif.Grad
open Matrix Topology

variable {n k : ℕ}

/-- `solve_linear_system` without its checks, icputils.py:84-90: `inverse(AᵀA + damp·I) (Aᵀ b)`. -/
noncomputable def solve (A : Matrix (Fin n) (Fin k) ℝ) (b : Matrix (Fin n) (Fin 1) ℝ) (damp : ℝ) : Matrix (Fin k) (Fin 1) ℝ :=
  (Aᵀ * A + damp • (1 : Matrix (Fin k) (Fin k) ℝ))⁻¹ * (Aᵀ * b)

/-- The gradients of the three arguments. -/
structure SolveGrads (n k : ℕ) where
  A : Matrix (Fin n) (Fin k) ℝ
  b : Matrix (Fin n) (Fin 1) ℝ
  damp : ℝ

/-- The backward pass of `solve_linear_system` when the solution has gradient `g`, operation by operation (torch: `matmul` sends `g Bᵀ` and
`Aᵀ g`, `inverse` sends `-(R.T @ (g @ R.T))`, a scalar times a matrix sends the sum of the products, `transpose` sends the transpose). -/
noncomputable def solveBack (A : Matrix (Fin n) (Fin k) ℝ) (b : Matrix (Fin n) (Fin 1) ℝ) (damp : ℝ) (g : Matrix (Fin k) (Fin 1) ℝ) :
    SolveGrads n k :=
  let At := Aᵀ
  let N := At * A + damp • (1 : Matrix (Fin k) (Fin k) ℝ)
  let R := N⁻¹
  let v := At * b
  -- matmul(inverse(At_A), matmul(A_t, b))
  let gR := g * vᵀ
  let gv := Rᵀ * g
  -- inverse
  let gN := -(Rᵀ * (gR * Rᵀ))
  -- damp_matrix * damp
  let gDamp := ∑ i, ∑ j, gN i j * (1 : Matrix (Fin k) (Fin k) ℝ) i j
  -- matmul(A_t, A), matmul(A_t, b)
  let gAt := gN * Aᵀ + gv * bᵀ
  let gA := Atᵀ * gN + gAtᵀ
  ⟨gA, Atᵀ * gv, gDamp⟩

/-- Sum of the products of the entries. -/
def inner {p q : Type*} [Fintype p] [Fintype q] (X Y : Matrix p q ℝ) : ℝ := ∑ i, ∑ j, X i j * Y i j

/-- Every entry of `M` has the derivative given by `M'`. -/
def HasD {p q : Type*} (M : ℝ → Matrix p q ℝ) (M' : Matrix p q ℝ) (t₀ : ℝ) : Prop := ∀ i j, HasDerivAt (fun t => M t i j) (M' i j) t₀

section
variable {p q r : Type*} [Fintype p] [Fintype q] [Fintype r] [DecidableEq p]

theorem HasD.mul {M : ℝ → Matrix p q ℝ} {L : ℝ → Matrix q r ℝ} {M' : Matrix p q ℝ} {L' : Matrix q r ℝ} {t₀ : ℝ} (h : HasD M M' t₀)
    (h' : HasD L L' t₀) : HasD (fun t => M t * L t) (M' * L t₀ + M t₀ * L') t₀ := by
  intro i j
  simp only [Matrix.mul_apply, Matrix.add_apply, ← Finset.sum_add_distrib]
  exact HasDerivAt.fun_sum fun l _ => (h i l).mul (h' l j)

theorem det_differentiable {M : ℝ → Matrix p p ℝ} {t₀ : ℝ} (h : ∀ i j, DifferentiableAt ℝ (fun t => M t i j) t₀) :
    DifferentiableAt ℝ (fun t => (M t).det) t₀ := by
  simp only [Matrix.det_apply]
  refine DifferentiableAt.fun_sum fun σ _ => ?_
  exact (DifferentiableAt.fun_finset_prod fun i _ => h _ _).const_smul _

/-- The derivative of the inverse. -/
theorem HasD.inv {M : ℝ → Matrix p p ℝ} {M' : Matrix p p ℝ} {t₀ : ℝ} (h : HasD M M' t₀) (hd : (M t₀).det ≠ 0) :
    HasD (fun t => (M t)⁻¹) (-((M t₀)⁻¹ * (M' * (M t₀)⁻¹))) t₀ := by
  have hdd := det_differentiable fun i j => (h i j).differentiableAt
  have hdiff : ∀ i j, DifferentiableAt ℝ (fun t => (M t)⁻¹ i j) t₀ := by
    intro i j
    have ha : DifferentiableAt ℝ (fun t => (M t).adjugate i j) t₀ := by
      simp only [Matrix.adjugate_apply]
      refine det_differentiable fun a c => ?_
      by_cases e : a = j
      · subst e; simp only [Matrix.updateRow_self]; exact differentiableAt_const _
      · simp only [Matrix.updateRow_ne e]; exact (h a c).differentiableAt
    have := hdd.inv hd
    have h2 := this.mul ha
    refine h2.congr_of_eventuallyEq (Filter.Eventually.of_forall fun t => ?_)
    simp [Matrix.inv_def, Ring.inverse_eq_inv']
  have hD : HasD (fun t => (M t)⁻¹) (Matrix.of fun i j => deriv (fun t => (M t)⁻¹ i j) t₀) t₀ := fun i j => (hdiff i j).hasDerivAt
  set D := Matrix.of fun i j => deriv (fun t => (M t)⁻¹ i j) t₀
  have hprod := h.mul hD
  have hone : M' * (M t₀)⁻¹ + M t₀ * D = 0 := by
    ext i j
    have e1 := hprod i j
    have e2 : HasDerivAt (fun t => (M t * (M t)⁻¹) i j) 0 t₀ := by
      refine (hasDerivAt_const t₀ ((1 : Matrix p p ℝ) i j)).congr_of_eventuallyEq ?_
      filter_upwards [hdd.continuousAt.eventually (isOpen_ne.mem_nhds hd)] with t ht
      rw [Matrix.mul_nonsing_inv _ (isUnit_iff_ne_zero.2 ht)]
    exact e1.unique e2
  have : D = -((M t₀)⁻¹ * (M' * (M t₀)⁻¹)) := by
    have hu : IsUnit (M t₀).det := isUnit_iff_ne_zero.2 hd
    have e : M t₀ * D = -(M' * (M t₀)⁻¹) := by rw [eq_neg_iff_add_eq_zero, add_comm]; exact hone
    rw [← Matrix.mul_neg, ← e, Matrix.nonsing_inv_mul_cancel_left _ _ hu]
  rw [← this]
  exact hD

end

section
variable {p q r : Type*} [Fintype p] [Fintype q] [Fintype r]

theorem inner_mul_left (X : Matrix p r ℝ) (P : Matrix p q ℝ) (Y : Matrix q r ℝ) : inner X (P * Y) = inner (Pᵀ * X) Y := by
  simp only [inner, Matrix.mul_apply, Matrix.transpose_apply, Finset.mul_sum, Finset.sum_mul]
  rw [Finset.sum_comm' (t' := Finset.univ) (s' := fun _ => Finset.univ) (by simp)]
  conv_rhs => rw [Finset.sum_comm]
  refine Finset.sum_congr rfl fun c _ => ?_
  rw [Finset.sum_comm]
  exact Finset.sum_congr rfl fun a _ => Finset.sum_congr rfl fun d _ => by ring

theorem inner_transpose (X : Matrix p q ℝ) (Y : Matrix q p ℝ) : inner X Yᵀ = inner Xᵀ Y := by
  simp only [inner, Matrix.transpose_apply]
  exact Finset.sum_comm

theorem inner_mul_right (X : Matrix p r ℝ) (Y : Matrix p q ℝ) (Q : Matrix q r ℝ) : inner X (Y * Q) = inner (X * Qᵀ) Y := by
  have h := inner_mul_left Xᵀ Qᵀ Yᵀ
  rw [← Matrix.transpose_mul, inner_transpose, inner_transpose, Matrix.transpose_transpose, Matrix.transpose_mul,
    Matrix.transpose_transpose] at h
  simpa using h

theorem inner_add (X Y Z : Matrix p q ℝ) : inner X (Y + Z) = inner X Y + inner X Z := by
  simp only [inner, Matrix.add_apply, mul_add, Finset.sum_add_distrib]

theorem add_inner (X Y Z : Matrix p q ℝ) : inner (X + Y) Z = inner X Z + inner Y Z := by
  simp only [inner, Matrix.add_apply, add_mul, Finset.sum_add_distrib]

theorem inner_neg (X Y : Matrix p q ℝ) : inner X (-Y) = inner (-X) Y := by
  simp only [inner, Matrix.neg_apply, mul_neg, neg_mul]

theorem inner_smul (c : ℝ) (X Y : Matrix p q ℝ) : inner X (c • Y) = inner X Y * c := by
  simp only [inner, Matrix.smul_apply, smul_eq_mul, Finset.sum_mul]
  exact Finset.sum_congr rfl fun i _ => Finset.sum_congr rfl fun j _ => by ring
end

/-- **C107**: whatever the gradient `g` of the solution, along every differentiable path of the arguments through a point where the normal
matrix is invertible, the weighted sum of the solution changes at the rate given by the gradients the backward pass computes. -/
theorem solve_back_correct (A : ℝ → Matrix (Fin n) (Fin k) ℝ) (b : ℝ → Matrix (Fin n) (Fin 1) ℝ) (damp : ℝ → ℝ)
    (A' : Matrix (Fin n) (Fin k) ℝ) (b' : Matrix (Fin n) (Fin 1) ℝ) (damp' t₀ : ℝ) (hA : HasD A A' t₀) (hb : HasD b b' t₀)
    (hdamp : HasDerivAt damp damp' t₀) (hdet : ((A t₀)ᵀ * A t₀ + damp t₀ • (1 : Matrix (Fin k) (Fin k) ℝ)).det ≠ 0)
    (g : Matrix (Fin k) (Fin 1) ℝ) :
    HasDerivAt (fun t => inner g (solve (A t) (b t) (damp t)))
      (inner (solveBack (A t₀) (b t₀) (damp t₀) g).A A' + inner (solveBack (A t₀) (b t₀) (damp t₀) g).b b'
        + (solveBack (A t₀) (b t₀) (damp t₀) g).damp * damp') t₀ := by
  have hT : HasD (fun t => (A t)ᵀ) A'ᵀ t₀ := fun i j => hA j i
  have hN : HasD (fun t => (A t)ᵀ * A t + damp t • (1 : Matrix (Fin k) (Fin k) ℝ)) (A'ᵀ * A t₀ + (A t₀)ᵀ * A' + damp' • 1) t₀ := by
    intro i j
    exact (hT.mul hA i j).add (hdamp.mul_const _)
  have hX := (hN.inv hdet).mul (hT.mul hb)
  have hI : HasDerivAt (fun t => inner g (solve (A t) (b t) (damp t))) (inner g _) t₀ :=
    HasDerivAt.fun_sum fun i _ => HasDerivAt.fun_sum fun j _ => (hX i j).const_mul (g i j)
  refine hI.congr_deriv ?_
  have e1 : ∀ (M : Matrix (Fin k) (Fin k) ℝ) (R : Matrix (Fin k) (Fin k) ℝ) (v : Matrix (Fin k) (Fin 1) ℝ),
      inner g (-(R * (M * R)) * v) = inner (-(Rᵀ * (g * vᵀ * Rᵀ))) M := by
    intro M R v
    rw [inner_mul_right, inner_neg, inner_mul_left, inner_mul_right, Matrix.mul_neg, Matrix.neg_mul, Matrix.mul_assoc]
  simp only [solveBack]
  rw [inner_add, e1, inner_mul_left g]
  set R := ((A t₀)ᵀ * A t₀ + damp t₀ • (1 : Matrix (Fin k) (Fin k) ℝ))⁻¹
  set gN := -(Rᵀ * (g * ((A t₀)ᵀ * b t₀)ᵀ * Rᵀ))
  rw [inner_add, inner_add, inner_smul, inner_mul_right gN, inner_transpose, inner_mul_left gN, inner_add, inner_mul_right (Rᵀ * g),
    inner_transpose, inner_mul_left (Rᵀ * g), add_inner, Matrix.transpose_add, add_inner]
  simp only [inner]
  ring

theorem hasD_const {p q : Type*} (M : Matrix p q ℝ) (t₀ : ℝ) : HasD (fun _ => M) 0 t₀ := fun i j => hasDerivAt_const t₀ (M i j)

theorem hasD_line {p q : Type*} [DecidableEq p] [DecidableEq q] (M D : Matrix p q ℝ) : HasD (fun t => M + t • D) D 0 := by
  intro i j
  have := ((hasDerivAt_id' (0 : ℝ)).mul_const (D i j)).const_add (M i j)
  simpa using this

theorem inner_single {p q : Type*} [Fintype p] [Fintype q] [DecidableEq p] [DecidableEq q] (X : Matrix p q ℝ) (i : p) (j : q) :
    inner X (Matrix.single i j 1) = X i j := by
  rw [inner, Finset.sum_eq_single i, Finset.sum_eq_single j]
  · simp
  · intro c _ hc; simp [Matrix.single_apply, hc.symm]
  · simp
  · intro a _ ha; exact Finset.sum_eq_zero fun c _ => by simp [Matrix.single_apply, ha.symm]
  · simp

theorem inner_zero {p q : Type*} [Fintype p] [Fintype q] (X : Matrix p q ℝ) : inner X 0 = 0 := by simp [inner]

/-- With positive damping the normal matrix is invertible, whatever `A`. -/
theorem damped_invertible (A : Matrix (Fin n) (Fin k) ℝ) (damp : ℝ) (h : 0 < damp) :
    (Aᵀ * A + damp • (1 : Matrix (Fin k) (Fin k) ℝ)).det ≠ 0 := by
  intro hdet
  obtain ⟨v, hv, e⟩ := Matrix.exists_mulVec_eq_zero_iff.2 hdet
  have q : v ⬝ᵥ (Aᵀ * A + damp • (1 : Matrix (Fin k) (Fin k) ℝ)).mulVec v = A.mulVec v ⬝ᵥ A.mulVec v + damp * (v ⬝ᵥ v) := by
    rw [Matrix.add_mulVec, Matrix.smul_mulVec, Matrix.one_mulVec, dotProduct_add, dotProduct_smul, smul_eq_mul, ← Matrix.mulVec_mulVec,
      Matrix.mulVec_transpose, dotProduct_comm v, ← Matrix.dotProduct_mulVec]
  rw [e, dotProduct_zero] at q
  have h1 := Icp.dot_self_nonneg (A.mulVec v)
  have h2 := Icp.dot_self_nonneg v
  have h3 : v ⬝ᵥ v = 0 := by
    by_contra hne
    have := mul_pos h (lt_of_le_of_ne h2 (Ne.symm hne))
    linarith
  exact hv (Icp.dot_self_eq_zero h3)

/-- **C107**: with positive damping, for every matrix `A` and right-hand side `b` (of any size), the gradients computed by the backward pass
are the partial derivatives of the weighted sum of the solution with respect to every entry of `A`, every entry of `b` and the damping. -/
theorem solve_grads (A : Matrix (Fin n) (Fin k) ℝ) (b : Matrix (Fin n) (Fin 1) ℝ) (damp : ℝ) (h : 0 < damp)
    (g : Matrix (Fin k) (Fin 1) ℝ) :
    (∀ i j, HasDerivAt (fun t : ℝ => inner g (solve (A + t • Matrix.single i j 1) b damp)) ((solveBack A b damp g).A i j) 0) ∧
    (∀ i j, HasDerivAt (fun t : ℝ => inner g (solve A (b + t • Matrix.single i j 1) damp)) ((solveBack A b damp g).b i j) 0) ∧
    HasDerivAt (fun t : ℝ => inner g (solve A b (damp + t))) (solveBack A b damp g).damp 0 := by
  have hd := damped_invertible A damp h
  have z : ∀ {p q : Type} (M D : Matrix p q ℝ), M + (0 : ℝ) • D = M := fun M D => by simp
  refine ⟨fun i j => ?_, fun i j => ?_, ?_⟩
  · have := solve_back_correct (fun t => A + t • Matrix.single i j 1) (fun _ => b) (fun _ => damp) _ _ _ 0 (hasD_line A _) (hasD_const b 0)
      (hasDerivAt_const 0 damp) (by simpa only [z] using hd) g
    simpa only [z, inner_single, inner_zero, mul_zero, add_zero] using this
  · have := solve_back_correct (fun _ => A) (fun t => b + t • Matrix.single i j 1) (fun _ => damp) _ _ _ 0 (hasD_const A 0) (hasD_line b _)
      (hasDerivAt_const 0 damp) hd g
    simpa only [z, inner_single, inner_zero, mul_zero, add_zero, zero_add] using this
  · have := solve_back_correct (fun _ => A) (fun _ => b) (fun t => damp + t) _ _ _ 0 (hasD_const A 0) (hasD_const b 0)
      ((hasDerivAt_id' (0 : ℝ)).const_add damp) (by simpa only [add_zero] using hd) g
    simpa only [inner_zero, mul_one, add_zero, zero_add] using this

/-- `solve` is the model of `solve_linear_system`. -/
theorem solve_is_model (A b : Pcs.T2 ℝ) (damp : ℝ) (h : 0 < damp) (h1 : b.cols = 1) (h2 : A.rows.length = b.rows.length) :
    Icp.solveLinearSystem A b damp =
      .ok ⟨List.ofFn fun i => [solve (Icp.toMat A) (Matrix.of fun i _ => Icp.colVec A.rows.length b i) damp i 0], 1⟩ := by
  have hd : (Icp.normalMatrix A damp).det ≠ 0 := damped_invertible (Icp.toMat A) damp h
  rw [Icp.solveLinearSystem, if_neg (by simpa using h1), if_neg (by simpa using h2), if_neg hd]
  rfl

/-- One equation `2 x = 3` with damping 1: `x = 6/5`, with derivatives `-9/25`, `2/5`, `-6/25`. -/
theorem witness_solve :
    solve !![2] !![3] 1 = !![6 / 5] ∧
    (solveBack !![2] !![3] 1 !![1]).A = !![-9 / 25] ∧ (solveBack !![2] !![3] 1 !![1]).b = !![2 / 5] ∧
    (solveBack !![2] !![3] 1 !![1]).damp = -6 / 25 := by
  have e : ((!![2] : Matrix (Fin 1) (Fin 1) ℝ)ᵀ * !![2] + (1 : ℝ) • (1 : Matrix (Fin 1) (Fin 1) ℝ))⁻¹ = !![1 / 5] := by
    refine Matrix.inv_eq_left_inv ?_
    ext i j; fin_cases i; fin_cases j
    norm_num [Matrix.mul_apply]
  refine ⟨?_, ?_, ?_, ?_⟩
  · rw [solve, e]; ext i j; fin_cases i; fin_cases j; norm_num [Matrix.mul_apply]
  · simp only [solveBack, e]; ext i j; fin_cases i; fin_cases j
    simp only [Matrix.mul_apply, Matrix.add_apply, Matrix.neg_apply, Matrix.transpose_apply, Finset.univ_unique, Finset.sum_singleton]
    norm_num
  · simp only [solveBack, e]; ext i j; fin_cases i; fin_cases j; norm_num [Matrix.mul_apply]
  · simp only [solveBack, e, Matrix.mul_apply, Matrix.neg_apply, Matrix.transpose_apply, Finset.univ_unique, Finset.sum_singleton]
    norm_num

end Verif.Grad

import Verif.Icp.Model
import Mathlib.LinearAlgebra.Matrix.ToLinearEquiv
import Mathlib.Algebra.Order.BigOperators.Ring.Finset
import Mathlib.Data.Matrix.Mul
import Mathlib.Data.List.GetD
/-!
C52: the damped normal-equation solver.
-/
namespace Verif.Icp
open Verif Pcs Matrix
set_option linter.unusedSectionVars false

/-! ### Specification -/
section
variable {α : Type*} [Field α]

/-- Inner product of two lists of equal length. -/
def dotL (r x : List α) : α := (List.zipWith (· * ·) r x).sum

/-- `‖A x - b‖² + damp ‖x‖²`. -/
def cost (A : List (List α)) (b : List α) (damp : α) (x : List α) : α :=
  (List.zipWith (fun r c => (dotL r x - c) ^ 2) A b).sum + damp * (x.map (· ^ 2)).sum

/-- `Aᵀ (A x - b) + damp x`, entry `j`: half the gradient of `cost`. -/
def gradAt (A : List (List α)) (b : List α) (damp : α) (x : List α) (j : Nat) : α :=
  (List.zipWith (fun r c => r.getD j 0 * (dotL r x - c)) A b).sum + damp * x.getD j 0

theorem sum_zipWith {β γ : Type*} (f : β → γ → α) (x0 : β) (y0 : γ) : ∀ (n : Nat) (l : List β) (m : List γ), l.length = n → m.length = n →
    (List.zipWith f l m).sum = ∑ i : Fin n, f (l.getD i x0) (m.getD i y0) := by
  intro n
  induction n with
  | zero => intro l m hl hm; obtain rfl := List.eq_nil_of_length_eq_zero hl; simp
  | succ n ih =>
    intro l m hl hm
    match l, m, hl, hm with
    | x :: l, y :: m, hl, hm =>
      rw [List.zipWith_cons_cons, List.sum_cons, Fin.sum_univ_succ]
      rw [ih l m (by simpa using hl) (by simpa using hm)]
      simp

theorem sum_map_fin {β : Type*} (f : β → α) (x0 : β) : ∀ (n : Nat) (l : List β), l.length = n → (l.map f).sum = ∑ i : Fin n, f (l.getD i x0) := by
  intro n
  induction n with
  | zero => intro l hl; obtain rfl := List.eq_nil_of_length_eq_zero hl; simp
  | succ n ih =>
    intro l hl
    match l, hl with
    | x :: l, hl =>
      rw [List.map_cons, List.sum_cons, Fin.sum_univ_succ, ih l (by simpa using hl)]
      simp

/-- A list as a vector. -/
def vecL (n : Nat) (x : List α) : Fin n → α := fun i => x.getD i 0

theorem dotL_eq {n : Nat} {r x : List α} (hr : r.length = n) (hx : x.length = n) : dotL r x = ∑ j : Fin n, r.getD j 0 * x.getD j 0 :=
  sum_zipWith _ 0 0 n r x hr hx

theorem row_len {A : T2 α} (hv : A.Valid) (i : Fin A.rows.length) : (A.rows.getD i []).length = A.cols := by
  rw [List.getD_eq_getElem _ _ i.2]; exact hv _ (List.getElem_mem _)

/-- Entries of the single column. -/
def col (b : T2 α) : List α := b.rows.map fun r => r.getD 0 0

theorem col_length (b : T2 α) : (col b).length = b.rows.length := by simp [col]

theorem col_getD (b : T2 α) {n : Nat} (hn : b.rows.length = n) (i : Fin n) : (col b).getD i 0 = colVec n b i := by
  have hi : (i : Nat) < b.rows.length := hn ▸ i.2
  rw [colVec, List.getD_eq_getElem _ _ (by simpa [col] using hi), List.getD_eq_getElem _ _ hi]
  simp [col]

theorem resid_eq {A b : T2 α} (hv : A.Valid) {x : List α} (hx : x.length = A.cols) (hl : A.rows.length = b.rows.length) (i : Fin A.rows.length) :
    dotL (A.rows.getD i []) x - (col b).getD i 0 = ((toMat A).mulVec (vecL A.cols x) - colVec A.rows.length b) i := by
  rw [dotL_eq (row_len hv i) hx, col_getD b hl.symm]; rfl

theorem cost_eq {A b : T2 α} (hv : A.Valid) (hl : A.rows.length = b.rows.length) (damp : α) {x : List α} (hx : x.length = A.cols) :
    cost A.rows (col b) damp x =
      ((toMat A).mulVec (vecL A.cols x) - colVec A.rows.length b) ⬝ᵥ ((toMat A).mulVec (vecL A.cols x) - colVec A.rows.length b) +
      damp * (vecL A.cols x ⬝ᵥ vecL A.cols x) := by
  rw [cost, sum_zipWith _ [] 0 A.rows.length A.rows (col b) rfl (by rw [col_length]; exact hl.symm), sum_map_fin _ 0 A.cols x hx]
  congr 1
  · simp only [dotProduct]
    refine Finset.sum_congr rfl fun i _ => ?_
    rw [resid_eq hv hx hl, sq]
  · simp only [dotProduct, vecL]
    congr 1
    refine Finset.sum_congr rfl fun i _ => ?_
    rw [sq]

theorem gradAt_eq {A b : T2 α} (hv : A.Valid) (hl : A.rows.length = b.rows.length) (damp : α) {x : List α} (hx : x.length = A.cols)
    (j : Fin A.cols) : gradAt A.rows (col b) damp x j =
      ((normalMatrix A damp).mulVec (vecL A.cols x) - (toMat A).transpose.mulVec (colVec A.rows.length b)) j := by
  rw [gradAt, sum_zipWith _ [] 0 A.rows.length A.rows (col b) rfl (by rw [col_length]; exact hl.symm)]
  have e : (normalMatrix A damp).mulVec (vecL A.cols x) - (toMat A).transpose.mulVec (colVec A.rows.length b) =
      (toMat A).transpose.mulVec ((toMat A).mulVec (vecL A.cols x) - colVec A.rows.length b) + damp • vecL A.cols x := by
    rw [normalMatrix, Matrix.add_mulVec, Matrix.smul_mulVec, Matrix.one_mulVec, ← Matrix.mulVec_mulVec, Matrix.mulVec_sub]
    abel
  rw [e]
  simp only [Pi.add_apply, Pi.smul_apply, smul_eq_mul]
  congr 1
  simp only [Matrix.mulVec, dotProduct]
  refine Finset.sum_congr rfl fun i _ => ?_
  rw [resid_eq hv hx hl]
  rfl
end

section
variable {α : Type*} [Field α] [LinearOrder α] [IsStrictOrderedRing α]

theorem dot_self_nonneg {n : Nat} (v : Fin n → α) : 0 ≤ v ⬝ᵥ v := Finset.sum_nonneg fun _ _ => mul_self_nonneg _

theorem dot_self_eq_zero {n : Nat} {v : Fin n → α} (h : v ⬝ᵥ v = 0) : v = 0 := by
  funext i
  have := (Finset.sum_eq_zero_iff_of_nonneg (fun i _ => mul_self_nonneg (v i))).1 h i (Finset.mem_univ _)
  simpa using this

theorem normal_quad {A : T2 α} {damp : α} (v : Fin A.cols → α) :
    v ⬝ᵥ (normalMatrix A damp).mulVec v = (toMat A).mulVec v ⬝ᵥ (toMat A).mulVec v + damp * (v ⬝ᵥ v) := by
  rw [normalMatrix, Matrix.add_mulVec, Matrix.smul_mulVec, Matrix.one_mulVec, dotProduct_add, dotProduct_smul, smul_eq_mul,
    ← Matrix.mulVec_mulVec, Matrix.mulVec_transpose, dotProduct_comm v, ← Matrix.dotProduct_mulVec]

/-- With positive damping the normal matrix is never singular, however rank-deficient `A` is. -/
theorem normal_det_ne_zero (A : T2 α) {damp : α} (hd : 0 < damp) : (normalMatrix A damp).det ≠ 0 := by
  intro h
  obtain ⟨v, hv, e⟩ := Matrix.exists_mulVec_eq_zero_iff.2 h
  have q := normal_quad (A := A) (damp := damp) v
  rw [e, dotProduct_zero] at q
  have h1 := dot_self_nonneg ((toMat A).mulVec v)
  have h2 := dot_self_nonneg v
  have h3 : v ⬝ᵥ v = 0 := by
    by_contra hne
    have : 0 < v ⬝ᵥ v := lt_of_le_of_ne h2 (Ne.symm hne)
    nlinarith [mul_pos hd this]
  exact hv (dot_self_eq_zero h3)

theorem normal_gap {A : T2 α} {damp : α} {c : Fin A.rows.length → α} {x : Fin A.cols → α}
    (hx : (normalMatrix A damp).mulVec x = (toMat A).transpose.mulVec c) (y : Fin A.cols → α) :
    ((toMat A).mulVec y - c) ⬝ᵥ ((toMat A).mulVec y - c) + damp * (y ⬝ᵥ y) =
      ((toMat A).mulVec x - c) ⬝ᵥ ((toMat A).mulVec x - c) + damp * (x ⬝ᵥ x) +
      ((toMat A).mulVec (y - x) ⬝ᵥ (toMat A).mulVec (y - x) + damp * ((y - x) ⬝ᵥ (y - x))) := by
  have key : ∀ z : Fin A.cols → α, (toMat A).mulVec z ⬝ᵥ ((toMat A).mulVec x - c) + damp * (z ⬝ᵥ x) = 0 := by
    intro z
    have h : z ⬝ᵥ ((normalMatrix A damp).mulVec x - (toMat A).transpose.mulVec c) = 0 := by rw [hx, sub_self, dotProduct_zero]
    rw [normalMatrix, Matrix.add_mulVec, Matrix.smul_mulVec, Matrix.one_mulVec, ← Matrix.mulVec_mulVec,
      Matrix.mulVec_transpose, Matrix.mulVec_transpose, dotProduct_sub, dotProduct_add, dotProduct_smul, smul_eq_mul,
      dotProduct_comm z (vecMul _ _), dotProduct_comm z (vecMul _ _), ← Matrix.dotProduct_mulVec, ← Matrix.dotProduct_mulVec] at h
    rw [dotProduct_sub, dotProduct_comm _ (mulVec _ x), dotProduct_comm _ c]
    linear_combination h
  have ey : (toMat A).mulVec y - c = ((toMat A).mulVec x - c) + (toMat A).mulVec (y - x) := by
    rw [Matrix.mulVec_sub]; abel
  have ey2 : y ⬝ᵥ y = x ⬝ᵥ x + 2 * ((y - x) ⬝ᵥ x) + (y - x) ⬝ᵥ (y - x) := by
    simp only [dotProduct_sub, sub_dotProduct, dotProduct_comm x y]; ring
  rw [ey, ey2, add_dotProduct, dotProduct_add, dotProduct_add, dotProduct_comm ((toMat A).mulVec x - c) ((toMat A).mulVec (y - x))]
  linear_combination 2 * key (y - x)

/-- C52.  For every rectangular `A` (any rank, also without rows), every `b` with one column and as many rows, and every `damp > 0`,
`solve_linear_system` succeeds; its result has one column and one row per column of `A`, solves the normal equations (the gradient of the
damped least-squares cost vanishes) and is the strict global minimiser of the cost. -/
theorem solve_minimises {A b : T2 α} (hv : A.Valid) (hb : b.cols = 1) (hl : A.rows.length = b.rows.length) {damp : α} (hd : 0 < damp) :
    ∃ x, solveLinearSystem A b damp = .ok x ∧ x.cols = 1 ∧ x.Valid ∧ x.rows.length = A.cols ∧
      (∀ j < A.cols, gradAt A.rows (col b) damp (col x) j = 0) ∧
      ∀ y : List α, y.length = A.cols → y ≠ col x → cost A.rows (col b) damp (col x) < cost A.rows (col b) damp y := by
  have hdet := normal_det_ne_zero A hd
  let z := (normalMatrix A damp)⁻¹.mulVec ((toMat A).transpose.mulVec (colVec A.rows.length b))
  have hz : (normalMatrix A damp).mulVec z = (toMat A).transpose.mulVec (colVec A.rows.length b) := by
    show (normalMatrix A damp).mulVec ((normalMatrix A damp)⁻¹.mulVec _) = _
    rw [Matrix.mulVec_mulVec, Matrix.mul_nonsing_inv _ (isUnit_iff_ne_zero.2 hdet), Matrix.one_mulVec]
  have hcol : col (⟨List.ofFn fun i => [z i], 1⟩ : T2 α) = List.ofFn z := by
    simp only [col, List.map_ofFn]; rfl
  have hvec : vecL A.cols (List.ofFn z) = z := by
    funext i; simp [vecL, List.getD_eq_getElem?_getD]
  have hlen : (List.ofFn z).length = A.cols := by simp
  refine ⟨⟨List.ofFn fun i => [z i], 1⟩, ?_, rfl, ?_, by simp, ?_, ?_⟩
  · rw [solveLinearSystem, if_neg (by simpa using hb), if_neg (by simpa using hl), if_neg hdet]
  · intro r hr; simp only [List.mem_ofFn] at hr; obtain ⟨i, rfl⟩ := hr; rfl
  · intro j hj
    rw [hcol, gradAt_eq hv hl damp hlen ⟨j, hj⟩, hvec, hz, sub_self]; rfl
  · intro y hy hne
    rw [hcol] at hne ⊢
    rw [cost_eq hv hl damp hlen, cost_eq hv hl damp hy, hvec, normal_gap hz (vecL A.cols y)]
    have h1 := dot_self_nonneg ((toMat A).mulVec (vecL A.cols y - z))
    have h2 : 0 < (vecL A.cols y - z) ⬝ᵥ (vecL A.cols y - z) := by
      refine lt_of_le_of_ne (dot_self_nonneg _) fun h => hne ?_
      have h0 := dot_self_eq_zero h.symm
      refine List.ext_getElem (by rw [hy, hlen]) fun i h1 h2 => ?_
      have := congrFun h0 ⟨i, hy ▸ h1⟩
      simp only [Pi.sub_apply, Pi.zero_apply, sub_eq_zero] at this
      rw [List.getElem_ofFn]
      simpa [vecL, List.getD_eq_getElem?_getD, h1] using this
    nlinarith [mul_pos hd h2]

/-- The two shape checks. -/
theorem solve_errors (A b : T2 α) (damp : α) (h : b.cols ≠ 1 ∨ A.rows.length ≠ b.rows.length) :
    solveLinearSystem A b damp = .error .valueError := by
  rw [solveLinearSystem]
  by_cases hb : b.cols ≠ 1
  · rw [if_pos hb]
  · rw [if_neg hb, if_pos (h.resolve_left hb)]

/-- Without damping a rank-deficient system raises: here a single equation in two unknowns. -/
theorem solve_undamped_singular : solveLinearSystem (⟨[[1, 1]], 2⟩ : T2 ℚ) ⟨[[1]], 1⟩ 0 = .error .runtimeError := by
  have h : (normalMatrix (⟨[[1, 1]], 2⟩ : T2 ℚ) 0).det = 0 := by
    show Matrix.det (n := Fin 2) (R := ℚ) (normalMatrix (⟨[[1, 1]], 2⟩ : T2 ℚ) 0) = 0
    rw [Matrix.det_fin_two]
    simp [normalMatrix, Matrix.mul_apply, toMat]
  rw [solveLinearSystem, if_neg (by simp), if_neg (by simp), if_pos h]

/-- The same system damped has its minimiser. -/
example : ∃ x, solveLinearSystem (⟨[[1, 1]], 2⟩ : T2 ℚ) ⟨[[1]], 1⟩ 1 = .ok x ∧ x.rows.length = 2 :=
  let ⟨x, h, _, _, hr, _⟩ := solve_minimises (A := (⟨[[1, 1]], 2⟩ : T2 ℚ)) (b := ⟨[[1]], 1⟩) (by intro r hr; simp at hr; subst hr; rfl)
    rfl rfl (damp := 1) one_pos
  ⟨x, h, hr⟩
end
end Verif.Icp

import Verif.Nd.Trans
import Verif.Geom.Model
import Mathlib.Algebra.Order.Field.Rat
/-!
C108: concrete cases (also counterexamples to the documented shapes) and the link to the per-point model of C17-C24.
-/
namespace Verif.Nd
open Verif.Nd Verif.Nd.Tensor Verif.Nd.Spec

/-- The pixel of the specification is the one computed by the per-point model `Verif.Geom.projectPoint` (C18, C34). -/
theorem pixel_is_geom {α : Type*} [Field α] [LinearOrder α] [IsStrictOrderedRing α] (P : M4 α) (M : ℕ → ℕ → α)
    (x y z : α)
    (h0 : M 0 0 = P.R.r0.x ∧ M 0 1 = P.R.r0.y ∧ M 0 2 = P.R.r0.z ∧ M 0 3 = P.t.x)
    (h1 : M 1 0 = P.R.r1.x ∧ M 1 1 = P.R.r1.y ∧ M 1 2 = P.R.r1.z ∧ M 1 3 = P.t.y)
    (h2 : M 2 0 = P.R.r2.x ∧ M 2 1 = P.R.r2.y ∧ M 2 2 = P.R.r2.z ∧ M 2 3 = P.t.z) (p : ℕ → α)
    (hp : p 0 = x ∧ p 1 = y ∧ p 2 = z) :
    (pixel (mul4 M (homog 3 p)) 0, pixel (mul4 M (homog 3 p)) 1) = Geom.projectPoint P (.inl ⟨x, y, z⟩) := by
  simp only [Geom.projectPoint, Geom.guardZ, pixel, mul4, homog, M4.mulVec, M3.mulVec, V3.dot, V3.add, V3.smul]
  simp only [h0, h1, h2, hp, show (0 : ℕ) < 3 by omega, show (1 : ℕ) < 3 by omega, show (2 : ℕ) < 3 by omega,
    show ¬ (3 : ℕ) < 3 by omega, if_true, if_false, mul_one, one_mul]

/-- Points `(2, 10, 3)`: the third coordinate is 1, the others vary. -/
def camB : Tensor ℚ := ⟨[3, 10, 2], fun i => match i with
  | [2, _, _] => 1
  | [k, n, b] => (k + 2 * n + 3 * b : ℕ)
  | _ => 0⟩

/-- Matrices `(2, 4, 4)`: identity for batch element 0, twice the identity in the first row for element 1. -/
def projB : Tensor ℚ := ⟨[4, 4, 2], fun i => match i with
  | [c, r, b] => if c = r then (if r = 0 ∧ b = 1 then 2 else 1) else 0
  | _ => 0⟩

/-- The documented case 6 is accepted, has the documented shape, and batch element 1 uses its own matrix. -/
theorem witness_project : ∃ out, projectPoints camB projB = .ok out ∧ out.dims = [2, 10, 2] ∧
    out.get [0, 5, 0] = 10 ∧ out.get [0, 5, 1] = 26 := by
  obtain ⟨out, ho⟩ := (project_accepts camB projB).2 ⟨3, 10, [2], [2], rfl, .inl rfl, rfl,
    .inr ⟨rfl, List.Forall₂.cons (.inl rfl) List.Forall₂.nil⟩⟩
  obtain ⟨hd, hg⟩ := project_result camB projB out 3 10 [2] [2] rfl rfl ho
  refine ⟨out, ho, by simpa [join] using hd, ?_, ?_⟩
  · rw [hg 0 5 [0] (by decide) (by decide) (by
      simp only [if_neg (show ¬ ([2] : List ℕ) = [] by simp), join]
      exact List.Forall₂.cons (by simp) List.Forall₂.nil)]
    norm_num [pixel, mul4, homog, camB, projB, src]
  · rw [hg 0 5 [1] (by decide) (by decide) (by
      simp only [if_neg (show ¬ ([2] : List ℕ) = [] by simp), join]
      exact List.Forall₂.cons (by simp) List.Forall₂.nil)]
    norm_num [pixel, mul4, homog, camB, projB, src]

/-- A counterexample to the documented output shape: points `(2, 1, 3, 3)` and matrices `(2, 5, 4, 4)` are accepted, and the
result is `(2, 5, 3, 2)`, not `(2, 1, 3, 2)`. -/
theorem project_shape_refuted (f g : List ℕ → ℚ) :
    ∃ out, projectPoints (⟨[3, 3, 1, 2], f⟩ : Tensor ℚ) ⟨[4, 4, 5, 2], g⟩ = .ok out ∧ out.dims = [2, 3, 5, 2] ∧
      out.dims ≠ [2, 3, 1, 2] := by
  obtain ⟨out, ho⟩ := (project_accepts (⟨[3, 3, 1, 2], f⟩ : Tensor ℚ) ⟨[4, 4, 5, 2], g⟩).2
    ⟨3, 3, [1, 2], [5, 2], rfl, .inl rfl, rfl,
      .inr ⟨rfl, List.Forall₂.cons (by simp) (List.Forall₂.cons (by simp) List.Forall₂.nil)⟩⟩
  have hd := (project_result _ _ out 3 3 [1, 2] [5, 2] rfl rfl ho).1
  refine ⟨out, ho, by simpa [join] using hd, ?_⟩
  rw [hd]
  simp [join]

/-- `unproject_points` on an image: pixels `(2, 4, 6, 2)`, inverse intrinsics `(2, 1, 3, 3)`, depths `(2, 4, 6)`. -/
theorem witness_unproject (f g d : List ℕ → ℚ) :
    ∃ out, unprojectPoints (⟨[2, 6, 4, 2], f⟩ : Tensor ℚ) ⟨[3, 3, 1, 2], g⟩ ⟨[6, 4, 2], d⟩ = .ok out ∧
      out.dims = [3, 6, 4, 2] ∧
      out.get [0, 5, 3, 1] =
        (g [0, 0, 0, 1] * f [0, 5, 3, 1] + g [1, 0, 0, 1] * f [1, 5, 3, 1] + g [2, 0, 0, 1]) * d [5, 3, 1] := by
  have hf : Fit [1, 2] [4, 2] := List.Forall₂.cons (by simp) (List.Forall₂.cons (by simp) List.Forall₂.nil)
  obtain ⟨out, ho⟩ := (unproject_accepts (⟨[2, 6, 4, 2], f⟩ : Tensor ℚ) ⟨[3, 3, 1, 2], g⟩ ⟨[6, 4, 2], d⟩).2
    ⟨2, 6, [4, 2], [1, 2], rfl, .inl rfl, rfl, rfl, .inr ⟨rfl, hf⟩⟩
  obtain ⟨hd, hg⟩ := unproject_result _ _ _ out 2 6 [4, 2] [1, 2] rfl rfl ho
  refine ⟨out, ho, by simpa [join] using hd, ?_⟩
  rw [hg 0 5 [3, 1] (by decide) (by decide) (by
    simp only [if_neg (show ¬ ([1, 2] : List ℕ) = [] by simp), join]
    exact List.Forall₂.cons (by simp) (List.Forall₂.cons (by simp) List.Forall₂.nil))]
  simp [mul3, homog, src]

/-- The documented call of `transform_pts_3d` — `N × 3` points — returns no coordinates at all, whatever the points are. -/
theorem transform3d_doc_refuted (eps : ℚ) (N : ℕ) (f g : List ℕ → ℚ) :
    ∃ out, transformPts3d eps (⟨[3, N], f⟩ : Tensor ℚ) ⟨[4, 4], g⟩ = .ok out ∧ out.dims = [0, 4, N] := by
  obtain ⟨out, ho⟩ := (transform3d_result eps (⟨[3, N], f⟩ : Tensor ℚ) ⟨[4, 4], g⟩).1.2
    ⟨rfl, 3, N, [], rfl, .inl rfl⟩
  exact ⟨out, ho, ((transform3d_result eps _ _).2 out 3 N [] ho rfl).2 (by decide)⟩

/-- Transforms `(2, 4, 4)` for `transform_pts_nd_KF`: the identity, and a translation by 10 along the first axis. -/
def shiftB : Tensor ℚ := ⟨[4, 4, 2], fun i => match i with
  | [3, 0, 1] => 10
  | [c, r, _] => if c = r then 1 else 0
  | _ => 0⟩

/-- A counterexample to "each batch element has its own transform" for images: the point of batch element 0 in row 1 is moved
by the transform of batch element 1. -/
theorem kf_images_refuted : ∃ out, transformPtsNdKF (1/1000000) (⟨[3, 1, 2, 2], fun _ => 0⟩ : Tensor ℚ) shiftB = .ok out ∧
    out.get [0, 0, 1, 0] = 10 ∧ out.get [0, 0, 0, 1] = 0 := by
  obtain ⟨h1, -, h3⟩ := kf_images (1/1000000) (⟨[3, 1, 2, 2], fun _ => 0⟩ : Tensor ℚ) shiftB 2 2 1 3 4 rfl rfl
  obtain ⟨out, ho⟩ := h1.2 (.inl rfl)
  obtain ⟨hd, hg⟩ := h3 out ho
  refine ⟨out, ho, ?_, ?_⟩
  · have := hg 0 0 1 0 (by decide) (by decide) (by decide) (by decide)
    rw [this]
    norm_num [Finset.sum_range_succ, shiftB, homog, euclid]
  · have := hg 0 0 0 1 (by decide) (by decide) (by decide) (by decide)
    rw [this]
    norm_num [Finset.sum_range_succ, shiftB, homog, euclid]

/-- `quaternion_to_rotation_matrix` of `(2, 5, 4)` is `(10, 3, 3)`, not the documented `(2, 5, 3, 3)`. -/
theorem quat_doc_refuted (rot : (ℕ → ℚ) → ℕ → ℚ) (f : List ℕ → ℚ) :
    ∃ out, quatToRot rot (⟨[4, 5, 2], f⟩ : Tensor ℚ) = .ok out ∧ out.dims = [3, 3, 10] ∧
      out.get [1, 2, 8] = rot (fun k => f [k, 3, 1]) 7 := by
  obtain ⟨out, ho⟩ := (quat_result rot (⟨[4, 5, 2], f⟩ : Tensor ℚ)).1.2 ⟨[5, 2], rfl⟩
  obtain ⟨-, h, -⟩ := (quat_result rot (⟨[4, 5, 2], f⟩ : Tensor ℚ)).2 out [5, 2] ho rfl
  obtain ⟨hd, hg⟩ := h (by simp)
  refine ⟨out, ho, hd, ?_⟩
  exact hg [3, 1] 2 1 (List.Forall₂.cons (by decide) (List.Forall₂.cons (by decide) List.Forall₂.nil))

end Verif.Nd

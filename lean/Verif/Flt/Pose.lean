import Verif.Flt.ProjectCase
import Verif.Icp.Norm
import Verif.Slam.Props
/-!
**C100**: what rounding does to a chain of poses.  SLAM with odometry composes the transform found for each frame with the pose of the previous
frame (icpslam.py:245-247) and never re-normalises: rounding errors of the compositions add up over the sequence.

`Chain F T n P`: `P 0, …, P n` is what the loop of `forward` computes in the format `F` from the transforms `T 0, …, T (n-1)`.
-/
namespace Verif.Flt
open Verif Geom

/-- `compose_transformations(trans_01, trans_12)` of kornia, called at icpslam.py:245-247, rounded: the rotations are multiplied, the translation
is rotated and added; the bottom row is written. -/
def ComposeF (F : Fmt) (A B C : M4 ℝ) : Prop :=
  MulVecF F A.R B.R.c0 C.R.c0 ∧ MulVecF F A.R B.R.c1 C.R.c1 ∧ MulVecF F A.R B.R.c2 C.R.c2 ∧ WorldF F A B.t C.t ∧ C.b = V3.zero ∧ C.s = 1

/-- The poses the loop of `forward` computes (icpslam.py:124-137, with odometry): each is the transform found for the frame composed with the pose
before. -/
def Chain (F : Fmt) (T : Nat → M4 ℝ) (n : Nat) (P : Nat → M4 ℝ) : Prop := ∀ k < n, ComposeF F (T k) (P k) (P (k + 1))

/-- The same without rounding. -/
noncomputable def running (T : Nat → M4 ℝ) (P0 : M4 ℝ) : Nat → M4 ℝ
  | 0 => P0
  | k + 1 => composeTransforms1 (T k) (running T P0 k)

/-! ### The model is that of the code -/

theorem compose_exact (A B C : M4 ℝ) : ComposeF exact A B C ↔ C = composeTransforms1 A B := by
  rw [ComposeF, mulVec_exact, mulVec_exact, mulVec_exact, world_exact]
  constructor
  · rintro ⟨h0, h1, h2, h3, h4, h5⟩
    refine M4.ext ?_ h3 h4 h5
    have e : ∀ M N : M3 ℝ, M.c0 = N.c0 → M.c1 = N.c1 → M.c2 = N.c2 → M = N := by
      intro M N a b c
      simp only [M3.c0, M3.c1, M3.c2, V3.mk.injEq] at a b c
      ext <;> simp [a, b, c]
    exact e _ _ h0 h1 h2
  · rintro rfl
    exact ⟨rfl, rfl, rfl, rfl, rfl, rfl⟩

/-- Without rounding the chain is the running product. -/
theorem chain_exact (T : Nat → M4 ℝ) (n : Nat) (P : Nat → M4 ℝ) : Chain exact T n P ↔ ∀ k ≤ n, P k = running T (P 0) k := by
  constructor
  · intro h k
    induction k with
    | zero => intro _; rfl
    | succ k ih =>
      intro hk
      rw [(compose_exact _ _ _).1 (h k hk), ih (by omega)]
      rfl
  · intro h k hk
    rw [compose_exact, h (k + 1) hk, h k hk.le]
    rfl

open Slam in
/-- The poses `forward` returns with a provider are such a chain (C48), exactly computed. -/
theorem forward_is_chain {S : Sys ℝ} {frames : Rgbd.Obj ℝ} {i : Rgbd.In ℝ} (hf : SeqOk S frames i) (hs : SysOk S i) {provide}
    (hS : S.odom = .prov provide) {m : Pcs.PC ℝ} {R : Rgbd.TM ℝ} (h : forward S frames = .ok (m, R)) :
    ∃ (Ts : List (Rgbd.TM ℝ)) (ans : Nat → List (M4 ℝ)), (∀ t, t + 1 < i.L → Asked S provide frames i Ts t (ans t)) ∧
      ∀ b < i.B, Chain exact (fun t => (ans t).getD b M4.one) (i.L - 1) (R.at' b) := by
  obtain ⟨Ts, ans, _, _, _, _, _, h1, _⟩ := poses_are_running_products hf hs hS h
  refine ⟨Ts, ans, fun t ht => (h1 t ht).1, fun b _ k hk => ?_⟩
  rw [compose_exact]
  exact (h1 k (by omega)).2.2 b

/-- In every format every sequence of transforms has a chain. -/
theorem chain_exists (F : Fmt) (T : Nat → M4 ℝ) (P0 : M4 ℝ) : ∃ P, P 0 = P0 ∧ ∀ n, Chain F T n P := by
  have mv : ∀ (A : M3 ℝ) (v : V3 ℝ), ∃ w, MulVecF F A v w := by
    intro A v
    obtain ⟨a, ha⟩ := dots_exists F (l := [(A.r0.x, v.x), (A.r0.y, v.y), (A.r0.z, v.z)]) (by simp)
    obtain ⟨b, hb⟩ := dots_exists F (l := [(A.r1.x, v.x), (A.r1.y, v.y), (A.r1.z, v.z)]) (by simp)
    obtain ⟨c, hc⟩ := dots_exists F (l := [(A.r2.x, v.x), (A.r2.y, v.y), (A.r2.z, v.z)]) (by simp)
    exact ⟨⟨a, b, c⟩, ha, hb, hc⟩
  have one : ∀ A B : M4 ℝ, ∃ C, ComposeF F A B C := by
    intro A B
    obtain ⟨a, ha⟩ := mv A.R B.R.c0
    obtain ⟨b, hb⟩ := mv A.R B.R.c1
    obtain ⟨c, hc⟩ := mv A.R B.R.c2
    obtain ⟨t, ht⟩ := mv A.R B.t
    exact ⟨⟨⟨⟨a.x, b.x, c.x⟩, ⟨a.y, b.y, c.y⟩, ⟨a.z, b.z, c.z⟩⟩, ⟨F.rnd (t.x + A.t.x), F.rnd (t.y + A.t.y), F.rnd (t.z + A.t.z)⟩, V3.zero, 1⟩,
      ha, hb, hc, ⟨t, ht, rfl⟩, rfl, rfl⟩
  choose f hf using one
  let P : Nat → M4 ℝ := Nat.rec P0 fun k Q => f (T k) Q
  exact ⟨P, rfl, fun n k _ => hf (T k) (P k)⟩

/-! ### Nearly orthogonal matrices -/

theorem abs_mul_sum (a b : V3 ℝ) : |a.x * b.x| + |a.y * b.y| + |a.z * b.z| ≤ vnorm a * vnorm b := by
  have h := Icp.dot_le ⟨|a.x|, |a.y|, |a.z|⟩ ⟨|b.x|, |b.y|, |b.z|⟩
  have e : ∀ c : V3 ℝ, vnorm ⟨|c.x|, |c.y|, |c.z|⟩ = vnorm c := by intro c; simp [vnorm]
  rw [e, e] at h
  refine le_trans ?_ h
  simp only [V3.dot, abs_mul]
  exact le_abs_self _

theorem sum_abs_le (a : V3 ℝ) : (|a.x| + |a.y| + |a.z|) ^ 2 ≤ 3 * vnorm a ^ 2 := by
  rw [vnorm_sq, ← sq_abs a.x, ← sq_abs a.y, ← sq_abs a.z]
  nlinarith [sq_nonneg (|a.x| - |a.y|), sq_nonneg (|a.x| - |a.z|), sq_nonneg (|a.y| - |a.z|)]

/-- A nearly orthogonal matrix nearly keeps inner products. -/
theorem near_dot {ρ : ℝ} {A : M3 ℝ} (h : NearlyOrthogonal ρ A) (v w : V3 ℝ) :
    |(A.mulVec v).dot (A.mulVec w) - v.dot w| ≤ 3 * ρ * (vnorm v * vnorm w) := by
  obtain ⟨⟨h0, h1, h2⟩, h3, h4, h5⟩ := h
  have ρ0 : 0 ≤ ρ := (abs_nonneg _).trans h0
  have e : (A.mulVec v).dot (A.mulVec w) - v.dot w =
      (A.c0.dot A.c0 - 1) * (v.x * w.x) + (A.c1.dot A.c1 - 1) * (v.y * w.y) + (A.c2.dot A.c2 - 1) * (v.z * w.z) +
      A.c0.dot A.c1 * (v.x * w.y + v.y * w.x) + A.c0.dot A.c2 * (v.x * w.z + v.z * w.x) + A.c1.dot A.c2 * (v.y * w.z + v.z * w.y) := by
    simp only [M3.mulVec, V3.dot, M3.c0, M3.c1, M3.c2]; ring
  have m : ∀ {x y : ℝ}, |x| ≤ ρ → |x * y| ≤ ρ * |y| := fun hx => by rw [abs_mul]; gcongr
  have k : |(A.mulVec v).dot (A.mulVec w) - v.dot w| ≤ ρ * ((|v.x| + |v.y| + |v.z|) * (|w.x| + |w.y| + |w.z|)) := by
    rw [e]
    have a0 := m (y := v.x * w.x) h0
    have a1 := m (y := v.y * w.y) h1
    have a2 := m (y := v.z * w.z) h2
    have a3 := m (y := v.x * w.y + v.y * w.x) h3
    have a4 := m (y := v.x * w.z + v.z * w.x) h4
    have a5 := m (y := v.y * w.z + v.z * w.y) h5
    have t : ∀ p q r s : ℝ, |p * q + r * s| ≤ |p| * |q| + |r| * |s| := fun p q r s => by
      rw [← abs_mul, ← abs_mul]; exact abs_add_le _ _
    have b3 := mul_le_mul_of_nonneg_left (t v.x w.y v.y w.x) ρ0
    have b4 := mul_le_mul_of_nonneg_left (t v.x w.z v.z w.x) ρ0
    have b5 := mul_le_mul_of_nonneg_left (t v.y w.z v.z w.y) ρ0
    rw [abs_mul v.x] at a0
    rw [abs_mul v.y] at a1
    rw [abs_mul v.z] at a2
    refine (abs_add_le _ _).trans ?_
    refine (add_le_add_left (abs_add_le _ _) _).trans ?_
    refine (add_le_add_left (add_le_add_left (abs_add_le _ _) _) _).trans ?_
    refine (add_le_add_left (add_le_add_left (add_le_add_left (abs_add_le _ _) _) _) _).trans ?_
    refine (add_le_add_left (add_le_add_left (add_le_add_left (add_le_add_left (abs_add_le _ _) _) _) _) _).trans ?_
    nlinarith
  refine k.trans ?_
  have s : (|v.x| + |v.y| + |v.z|) * (|w.x| + |w.y| + |w.z|) ≤ 3 * (vnorm v * vnorm w) := by
    refine (abs_le_of_sq_le_sq' ?_ (by have := vnorm_nonneg v; have := vnorm_nonneg w; positivity)).2
    have := mul_le_mul (sum_abs_le v) (sum_abs_le w) (by positivity) (by positivity)
    nlinarith
  nlinarith [mul_le_mul_of_nonneg_left s ρ0]

theorem near_len {ρ : ℝ} {A : M3 ℝ} (h : NearlyOrthogonal ρ A) (v : V3 ℝ) : vnorm (A.mulVec v) ≤ (1 + 3 / 2 * ρ) * vnorm v := by
  have ρ0 : 0 ≤ ρ := (abs_nonneg _).trans h.1.1
  have k := (abs_le.1 (near_dot h v v)).2
  have e : ∀ x : V3 ℝ, x.dot x = vnorm x ^ 2 := fun x => Icp.normSq_eq x
  rw [e, e] at k
  have v0 := vnorm_nonneg v
  refine (abs_le_of_sq_le_sq' ?_ (by positivity)).2
  nlinarith [mul_nonneg (mul_nonneg ρ0 ρ0) (mul_nonneg v0 v0)]

/-- Rounding of one product of a nearly orthogonal matrix and a vector. -/
theorem mulVecF_err {F : Fmt} (hu : F.u ≤ 1 / 1000) {ρ : ℝ} (hρ : ρ ≤ 1 / 100) {A : M3 ℝ} (h : NearlyOrthogonal ρ A) {v w : V3 ℝ}
    (hw : MulVecF F A v w) : vnorm (w.sub (A.mulVec v)) ≤ 27 / 5 * F.u * vnorm v := by
  have u0 := F.u0
  have v0 := vnorm_nonneg v
  have r : ∀ {a : V3 ℝ} {y : ℝ}, Dot3 F a v y → (y - a.dot v) ^ 2 ≤ (31 / 10 * F.u) ^ 2 * vnorm v ^ 2 * vnorm a ^ 2 := by
    intro a y hy
    have := (dot3_near hu hy).trans (mul_le_mul_of_nonneg_left (abs_mul_sum a v) (by positivity))
    calc (y - a.dot v) ^ 2 = |y - a.dot v| ^ 2 := (sq_abs _).symm
      _ ≤ (31 / 10 * F.u * (vnorm a * vnorm v)) ^ 2 := by gcongr
      _ = _ := by ring
  have f : vnorm A.r0 ^ 2 + vnorm A.r1 ^ 2 + vnorm A.r2 ^ 2 ≤ 303 / 100 := by
    obtain ⟨⟨h0, h1, h2⟩, -⟩ := h
    have h0 := (abs_le.1 h0).2
    have h1 := (abs_le.1 h1).2
    have h2 := (abs_le.1 h2).2
    rw [vnorm_sq, vnorm_sq, vnorm_sq]
    simp only [M3.c0, M3.c1, M3.c2, V3.dot] at h0 h1 h2
    nlinarith
  refine (abs_le_of_sq_le_sq' ?_ (by positivity)).2
  rw [vnorm_sq]
  obtain ⟨a, b, c⟩ := hw
  have a := r a
  have b := r b
  have c := r c
  simp only [V3.sub, M3.mulVec]
  have g := mul_le_mul_of_nonneg_left f (by positivity : 0 ≤ (31 / 10 * F.u) ^ 2 * vnorm v ^ 2)
  have z : 0 ≤ F.u ^ 2 * vnorm v ^ 2 := by positivity
  nlinarith
end Verif.Flt

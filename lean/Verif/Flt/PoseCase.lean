import Verif.Flt.PoseDrift
import Mathlib.Algebra.Order.Ring.Pow
/-! **C100**: the drift of a chain of poses in float32 and in float64. -/
namespace Verif.Flt
open Verif Geom

/-- `(1 + x)^n ≤ 1 / (1 - n x)`. -/
theorem pow_le_inv {x : ℝ} (hx : 0 ≤ x) {n : Nat} (h : n * x < 1) : (1 + x) ^ n ≤ 1 / (1 - n * x) := by
  rw [le_div_iff₀ (by linarith)]
  rcases Nat.eq_zero_or_pos n with rfl | hn
  · simp
  have n1 : (1 : ℝ) ≤ n := by exact_mod_cast hn
  have x1 : x < 1 := by nlinarith
  have b := one_add_mul_le_pow (a := -x) (by linarith) n
  calc (1 + x) ^ n * (1 - n * x) ≤ (1 + x) ^ n * (1 + -x) ^ n := by gcongr; linarith
    _ = (1 - x ^ 2) ^ n := by rw [← mul_pow]; ring
    _ ≤ 1 := pow_le_one₀ (by nlinarith) (by nlinarith)

theorem pow_gap {a b : ℝ} (hb : 1 ≤ b) (hab : b ≤ a) (k : Nat) : a ^ k - b ^ k ≤ k * (a - b) * a ^ k := by
  induction k with
  | zero => simp
  | succ k ih =>
    have a1 : 1 ≤ a := hb.trans hab
    have p : b ^ k ≤ a ^ k := by gcongr
    have q : a ^ k ≤ a ^ (k + 1) := pow_le_pow_right₀ a1 (Nat.le_succ k)
    have s := mul_le_mul_of_nonneg_left ih (by linarith : 0 ≤ a)
    push_cast
    calc a ^ (k + 1) - b ^ (k + 1) = a * (a ^ k - b ^ k) + (a - b) * b ^ k := by ring
      _ ≤ a * (k * (a - b) * a ^ k) + (a - b) * a ^ (k + 1) := add_le_add s (mul_le_mul_of_nonneg_left (p.trans q) (by linarith))
      _ = _ := by ring

variable {F : Fmt} {T P : Nat → M4 ℝ} {n : Nat} {ρ ρ₀ : ℝ}

theorem mono_pow_inv {x y : ℝ} (hx : 0 ≤ x) {n N : Nat} (hn : n ≤ N) (h : N * x ≤ y) (hy : y < 1) : (1 + x) ^ n ≤ 1 / (1 - y) := by
  have m : (n : ℝ) * x ≤ N * x := by gcongr
  refine (pow_le_inv hx (by linarith)).trans ?_
  exact one_div_le_one_div_of_le (by linarith) (by linarith)

theorem u53 : (bin 53 (by norm_num)).u = 1 / 9007199254740992 := by show ((1 : ℝ) / 2) ^ 53 = _; norm_num
theorem u24 : f32Fmt.u = 1 / 16777216 := by show ((1 : ℝ) / 2) ^ 24 = _; norm_num

/-- **C100**, float32: over a sequence of up to 1000 frames, with transforms orthonormal up to `5e-7` (8 units of roundoff), every axis of the
camera is within `3.3e-4` (0.02 degrees) of the exactly composed one, relative to the length of the axis of the first pose. -/
theorem single_orientation (hρ : ρ ≤ 1 / 2000000) (hT : ∀ k < n, NearlyOrthogonal ρ (T k).R) (h : Chain f32Fmt T n P) (hn : n ≤ 1000) (j : Fin 3)
    {k : Nat} (hk : k ≤ n) : vnorm ((col j (P k).R).sub (col j (running T (P 0) k).R)) ≤ 33 / 100000 * vnorm (col j (P 0).R) := by
  rcases Nat.eq_zero_or_pos n with rfl | hn0
  · obtain rfl : k = 0 := by omega
    have : (col j (P 0).R).sub (col j (running T (P 0) 0).R) = V3.zero := by ext <;> simp [running, V3.sub, V3.zero]
    rw [this]
    have z : vnorm V3.zero = 0 := by simp [vnorm, V3.zero]
    rw [z]
    exact mul_nonneg (by norm_num) (vnorm_nonneg _)
  have ρ0 : 0 ≤ ρ := (abs_nonneg _).trans (hT 0 hn0).1.1
  have d := orientation_drift (by rw [u24]; norm_num) (by linarith) hT h j hk
  refine d.trans (mul_le_mul_of_nonneg_right ?_ (vnorm_nonneg _))
  rw [u24]
  refine (pow_gap (by linarith) (by linarith) k).trans ?_
  have k1 : (k : ℝ) ≤ 1000 := by exact_mod_cast hk.trans hn
  have p := mono_pow_inv (x := 3 / 2 * ρ + 27 / 5 * (1 / 16777216)) (y := 11 / 10000) (by positivity) (hk.trans hn) (by norm_num; linarith) (by norm_num)
  rw [← add_assoc] at p
  have e : 1 + 3 / 2 * ρ + 27 / 5 * (1 / 16777216) - (1 + 3 / 2 * ρ) = 27 / 5 * (1 / 16777216) := by ring
  rw [e]
  calc _ ≤ (1000 : ℝ) * (27 / 5 * (1 / 16777216)) * (1 / (1 - 11 / 10000)) := by gcongr
    _ ≤ _ := by norm_num

/-- **C100**, float32: the rotation part of the pose loses orthonormality by at most `0.0023` over 1000 frames. -/
theorem single_orthogonality (hρ : ρ ≤ 1 / 2000000) (hT : ∀ k < n, NearlyOrthogonal ρ (T k).R) (h : Chain f32Fmt T n P) (hn : n ≤ 1000)
    (h0 : NearlyOrthogonal ρ (P 0).R) {k : Nat} (hk : k ≤ n) : NearlyOrthogonal (23 / 10000) (P k).R := by
  have ρ0 : 0 ≤ ρ := (abs_nonneg _).trans h0.1.1
  have d := orthogonality_drift (by rw [u24]; norm_num) (by linarith) hT h h0 hk
  rw [nearly_iff] at d ⊢
  intro i j
  refine (d i j).trans ?_
  rw [u24, defect]
  have p := mono_pow_inv (x := 3 * ρ + 11 * (1 / 16777216)) (y := 22 / 10000) (by positivity) (hk.trans hn) (by norm_num; linarith) (by norm_num)
  have q := mul_le_mul (by linarith : 1 + ρ ≤ 1 + 1 / 2000000) p (by positivity) (by norm_num)
  norm_num at q ⊢
  linarith

/-- **C100**, float32: with exact positions within 10 units of the world origin and transforms that move by at most 1 unit, the position is within
4 mm (0.004 units) of the exactly composed one over 1000 frames. -/
theorem single_position (hρ0 : 0 ≤ ρ) (hρ : ρ ≤ 1 / 2000000) (hT : ∀ k < n, NearlyOrthogonal ρ (T k).R) (h : Chain f32Fmt T n P) (hn : n ≤ 1000)
    (hL : ∀ k < n, vnorm (running T (P 0) k).t ≤ 10) (ha : ∀ k < n, vnorm (T k).t ≤ 1) {k : Nat} (hk : k ≤ n) :
    vnorm ((P k).t.sub (running T (P 0) k).t) ≤ 4 / 1000 := by
  have d := position_drift (by rw [u24]; norm_num) hρ0 (by linarith) hT h hL ha hk
  refine d.trans ?_
  rw [u24]
  have k1 : (k : ℝ) ≤ 1000 := by exact_mod_cast hk.trans hn
  have p := mono_pow_inv (x := 3 / 2 * ρ + 13 / 2 * (1 / 16777216)) (y := 12 / 10000) (by positivity) (hk.trans hn) (by norm_num; linarith) (by norm_num)
  rw [← add_assoc] at p
  calc _ ≤ (1000 : ℝ) * (1 / (1 - 12 / 10000)) * ((13 / 2 * 10 + 1) * (1 / 16777216)) := by gcongr
    _ ≤ _ := by norm_num

/-- **C100**, float64: over a million frames the pose stays orthonormal up to `1e-8`, if the transforms and the first pose are orthonormal up to
`1e-15`. -/
theorem double_orthogonality (hρ : ρ ≤ 1 / 1000000000000000) (hT : ∀ k < n, NearlyOrthogonal ρ (T k).R) (h : Chain (bin 53 (by norm_num)) T n P)
    (hn : n ≤ 1000000) (h0 : NearlyOrthogonal ρ (P 0).R) {k : Nat} (hk : k ≤ n) : NearlyOrthogonal (1 / 100000000) (P k).R := by
  have ρ0 : 0 ≤ ρ := (abs_nonneg _).trans h0.1.1
  have d := orthogonality_drift (by rw [u53]; norm_num) (by linarith) hT h h0 hk
  rw [nearly_iff] at d ⊢
  intro i j
  refine (d i j).trans ?_
  rw [u53, defect]
  have p := mono_pow_inv (x := 3 * ρ + 11 * (1 / 9007199254740992)) (y := 5 / 1000000000) (by positivity) (hk.trans hn) (by norm_num; linarith) (by norm_num)
  have q := mul_le_mul (by linarith : 1 + ρ ≤ 1 + 1 / 1000000000000000) p (by positivity) (by norm_num)
  norm_num at q ⊢
  linarith

/-- **C100** with C93: after a million frames in float64, as long as the camera is within 100 units of the world origin, projecting a frame's point
with the pose that was composed for the frame still gives the pixel it came from. -/
theorem double_own_pixel (hρ : ρ ≤ 1 / 1000000000000000) (hT : ∀ k < n, NearlyOrthogonal ρ (T k).R) (h : Chain (bin 53 (by norm_num)) T n P)
    (hn : n ≤ 1000000) (h0 : NearlyOrthogonal ρ (P 0).R) {k : Nat} (hk : k ≤ n) {d Tm τ : ℝ} {v g p c : V3 ℝ} {q : ℝ × ℝ} {y x : Nat}
    (hd : 1 / 10 ≤ d) (ht : Within Tm (P k).t V3.zero) (hTm : Tm ≤ 100) (hτ : τ ≤ 1 / 1000000000) (hy : y < 480) (hx : x < 640)
    (hv : VertexF (bin 53 (by norm_num)) (1 / 1000000) vga ⟨x, y, 1⟩ d v) (hg : WorldF (bin 53 (by norm_num)) (P k) v g) (hp : Within τ p g)
    (hc : CameraF (bin 53 (by norm_num)) (P k) p c) (hq : ProjectF (bin 53 (by norm_num)) vga c q) :
    inFrameF (bin 53 (by norm_num)) 480 640 c q = true ∧ pixelF 480 640 q = (y, x) :=
  vga_double hd (double_orthogonality hρ hT h hn h0 hk) le_rfl ht hTm hτ hy hx hv hg hp hc hq

/-- A camera that turns by a quarter about its
vertical axis and moves one unit forward at every frame. -/
noncomputable def quarter : M4 ℝ := ⟨⟨⟨0, 0, 1⟩, ⟨0, 1, 0⟩, ⟨-1, 0, 0⟩⟩, ⟨0, 0, 1⟩, V3.zero, 1⟩

theorem quarter_near {r : ℝ} (hr : 0 ≤ r) : NearlyOrthogonal r quarter.R := by
  refine ⟨⟨?_, ?_, ?_⟩, ?_, ?_, ?_⟩ <;> simp [quarter, M3.c0, M3.c1, M3.c2, V3.dot, hr]

/-- The hypotheses are met, in both formats: the chain of quarter turns, whose exact positions stay within `3/2` of the origin. -/
theorem pose_case (F : Fmt) : ∃ P, P 0 = M4.one ∧ (∀ n, Chain F (fun _ => quarter) n P) ∧ (∀ k : Nat, k < 1000 → NearlyOrthogonal 0 quarter.R) ∧
    NearlyOrthogonal 0 (P 0).R ∧ ∀ k, vnorm (running (fun _ => quarter) (P 0) k).t ≤ 10 := by
  obtain ⟨P, hP, h⟩ := chain_exists F (fun _ => quarter) M4.one
  refine ⟨P, hP, h, fun _ _ => quarter_near le_rfl, ?_, ?_⟩
  · rw [hP]; refine ⟨⟨?_, ?_, ?_⟩, ?_, ?_, ?_⟩ <;> simp [M4.one, M3.one, M3.c0, M3.c1, M3.c2, V3.dot]
  · rw [hP]
    have inv : ∀ k, (running (fun _ => quarter) M4.one k).t = ⟨0, 0, 0⟩ ∨ (running (fun _ => quarter) M4.one k).t = ⟨0, 0, 1⟩ ∨
        (running (fun _ => quarter) M4.one k).t = ⟨1, 0, 1⟩ ∨ (running (fun _ => quarter) M4.one k).t = ⟨1, 0, 0⟩ := by
      intro k
      induction k with
      | zero => left; rfl
      | succ k ih =>
        have e : (running (fun _ => quarter) M4.one (k + 1)).t = (quarter.R.mulVec (running (fun _ => quarter) M4.one k).t).add quarter.t := rfl
        rcases ih with ih | ih | ih | ih <;> rw [e, ih]
        · right; left; ext <;> simp [quarter, M3.mulVec, V3.dot, V3.add]
        · right; right; left; ext <;> simp [quarter, M3.mulVec, V3.dot, V3.add]
        · right; right; right; ext <;> simp [quarter, M3.mulVec, V3.dot, V3.add]
        · left; ext <;> simp [quarter, M3.mulVec, V3.dot, V3.add]
    intro k
    refine (abs_le_of_sq_le_sq' ?_ (by norm_num)).2
    rw [vnorm_sq]
    rcases inv k with h | h | h | h <;> rw [h] <;> norm_num

/-- **C100**: nothing re-normalises the pose.  However small the defect `r` of the transforms and however large `D`, a long enough chain loses
orthonormality by more than `D`, even without rounding: a bound on the number of frames is needed. -/
theorem no_renormalisation {r : ℝ} (hr : 0 < r) (D : ℝ) : ∃ (T P : Nat → M4 ℝ) (n : Nat), (∀ k < n, NearlyOrthogonal r (T k).R) ∧ P 0 = M4.one ∧
    Chain exact T n P ∧ ¬ NearlyOrthogonal D (P n).R := by
  have sq : Real.sqrt (1 + r) * Real.sqrt (1 + r) = 1 + r := Real.mul_self_sqrt (by linarith)
  generalize Real.sqrt (1 + r) = s at sq
  let A : M4 ℝ := ⟨⟨⟨s, 0, 0⟩, ⟨0, s, 0⟩, ⟨0, 0, s⟩⟩, V3.zero, V3.zero, 1⟩
  have e : ∀ k, (running (fun _ => A) M4.one k).R = ⟨⟨s ^ k, 0, 0⟩, ⟨0, s ^ k, 0⟩, ⟨0, 0, s ^ k⟩⟩ := by
    intro k
    induction k with
    | zero => simp [running, M4.one, M3.one]
    | succ k ih =>
      have : (running (fun _ => A) M4.one (k + 1)).R = A.R.mul (running (fun _ => A) M4.one k).R := rfl
      rw [this, ih]
      ext <;> simp [A, M3.mul, V3.dot, M3.c0, M3.c1, M3.c2, pow_succ'] 
  obtain ⟨n, hn⟩ := pow_unbounded_of_one_lt (D + 1) (by linarith : 1 < 1 + r)
  refine ⟨fun _ => A, running (fun _ => A) M4.one, n, fun _ _ => ?_, rfl, (chain_exact _ _ _).2 fun _ _ => rfl, ?_⟩
  · refine ⟨⟨?_, ?_, ?_⟩, ?_, ?_, ?_⟩ <;> simp [A, M3.c0, M3.c1, M3.c2, V3.dot, sq, abs_of_pos hr, hr.le]
  · rintro ⟨⟨h, -, -⟩, -⟩
    rw [e] at h
    have h := (abs_le.1 h).2
    simp only [M3.c0, V3.dot, mul_zero, add_zero, ← mul_pow, sq] at h
    linarith
end Verif.Flt

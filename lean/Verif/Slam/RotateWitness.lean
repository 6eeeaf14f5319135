import Verif.Slam.Rotate
import Verif.Slam.SmoothTrackWitness
/-!
C80 on a concrete sequence, and why only turns about the world origin are allowed: the damping of the registrations makes them depend on where the
origin is.
-/
namespace Verif.Slam
open Verif Pcs

/-- A quarter turn about the first axis. -/
noncomputable def turnX : M4 ℝ := ⟨⟨⟨1, 0, 0⟩, ⟨0, 0, -1⟩, ⟨0, 1, 0⟩⟩, V3.zero, V3.zero, 1⟩

theorem turnX_turn : Turn turnX := by
  refine ⟨⟨?_, ?_⟩, rfl, rfl, rfl⟩ <;> ext <;> simp [turnX, M3.mul, M3.transpose, M3.one, M3.c0, M3.c1, M3.c2, V3.dot]

noncomputable def poseZ : Rgbd.TM ℝ := ⟨1, 2, fun b t => turnX.mul ((poseY 0).at' b t)⟩
noncomputable def seqZ : Rgbd.Obj ℝ := { seqY 0 with poses := some poseZ }
noncomputable def inZ : Rgbd.In ℝ := Rgbd.inputsOf (rgbY 0) (depthY 0) KY (some poseZ) false none
theorem seqZ_new : Rgbd.new (rgbY 0) (depthY 0) KY (some poseZ) false none = .ok seqZ := rfl

/-- C80 on two frames of a wall that comes nearer: both runs succeed, and the trajectory of the second is the turned one. -/
theorem orientation_example {odom : String} (hodom : odom ∈ ["icp", "gradicp"]) :
    ∃ (S : Sys ℝ) (m m2 : PC ℝ) (R R2 : Rgbd.TM ℝ),
      icpSlam Icp.bruteNN (1 / 10 ^ 6) (1 / 10 ^ 6) Rgbd.nrmR (Fusion.getAlpha (6 / 10) (1 / 10 ^ 7)) paramsY odom = .ok S ∧
      forward S (seqY 0) = .ok (m, R) ∧ forward S seqZ = .ok (m2, R2) ∧ ∀ t < 2, R2.at' 0 t = turnX.mul (R.at' 0 t) := by
  obtain ⟨o, hm, h1, h2, h3, h4, h5, h6⟩ := slam_smooth_hypotheses 0 hodom
  have hne : odom ≠ "gt" := by rintro rfl; simp at hodom
  have hS : icpSlam Icp.bruteNN (1 / 10 ^ 6) (1 / 10 ^ 6) Rgbd.nrmR (Fusion.getAlpha (6 / 10) (1 / 10 ^ 7)) paramsY odom = .ok (sysY o) := by
    rw [icpSlam, (made_cases hm).1]; rfl
  obtain ⟨h7, _⟩ := slam_smooth Icp.bruteNN_nearest (by norm_num) hne hm (by show (1 : Int) ≤ 20; norm_num) (by show (0 : ℝ) < 1 / 10 ^ 8; norm_num)
    (by show (1 : ℝ) < 2; norm_num) (by show (0 : Int) < 2; norm_num) h1 (Filter.Eventually.of_forall h2) h3 h4 h5 (.inr ⟨poseY, fun _ => rfl, h6⟩)
  obtain ⟨m, R, e⟩ := h7.self_of_nhds
  have hB : (inY 0).B = 1 := rfl
  obtain ⟨m2, R2, e2, hR, _⟩ := orientation_free Icp.bruteNN_nearest Icp.brute_byDistance (by norm_num) (by show (0 : ℝ) < 1 / 10 ^ 8; norm_num)
    (by show (1 : ℝ) < 2; norm_num) (by show (0 : Int) < 2; norm_num) hne (.inl hS) (h3 0) (h2 0)
    (frames2 := seqZ) (i2 := inZ) (seqOk_of_hist (S := sysY o) (Rgbd.Hist.new seqZ_new) (.inl rfl) (by show 0 < 1; norm_num) (by show 2 ≤ 2; norm_num) (by show 2 ≤ 2; norm_num))
    (by show 0 < 2; norm_num) ⟨rfl, rfl, rfl, rfl, fun _ _ _ _ => ⟨rfl, rfl, rfl⟩, fun _ _ => rfl⟩ (G := fun _ => turnX) (fun _ _ => turnX_turn)
    (fun _ _ => rfl) e
  exact ⟨sysY o, m, m2, R, R2, hS, e, e2, fun t ht => hR 0 (by rw [hB]; norm_num) t ht⟩
end Verif.Slam

namespace Verif.Icp
open Verif Pcs

/-- The step for one point one unit beside the axis: the damping makes it a mixture of a shift and a turn. -/
theorem beside_step {d : ℝ} (hd : 0 < d) {v w : V3 ℝ}
    (hs : IsStep bruteNN none [⟨1, 0, 0⟩] [⟨0, 0, 1⟩] d [⟨1, 0, 1⟩] v w) : v = ⟨0, 0, -1 / (2 + d)⟩ ∧ w = ⟨0, 1 / (2 + d), 0⟩ := by
  have hcost : ∀ v w : V3 ℝ, linCost bruteNN none [⟨1, 0, 0⟩] [⟨0, 0, 1⟩] d [⟨1, 0, 1⟩] v w = (1 + v.z - w.y) ^ 2 + d * (v.normSq + w.normSq) := by
    intro v w
    have hp : ∀ p, planeDist bruteNN [⟨1, 0, 0⟩] [⟨0, 0, 1⟩] ⟨1, 0, 1⟩ p = p.z := fun p => by simp [planeDist, bruteNN, V3.dot, V3.sub]
    simp [linCost, taking, Close, hp, V3.add, V3.cross]
    ring
  by_contra hne
  have h := hs ⟨0, 0, -1 / (2 + d)⟩ ⟨0, 1 / (2 + d), 0⟩ (fun h => hne ⟨(Prod.mk.inj h).1.symm, (Prod.mk.inj h).2.symm⟩)
  rw [hcost, hcost] at h
  simp only [V3.normSq, V3.dot] at h
  obtain ⟨u, hu⟩ : ∃ u, u = 1 / (2 + d) := ⟨_, rfl⟩
  have hu' : u * (2 + d) = 1 := by rw [hu]; field_simp
  rw [neg_div, ← hu] at h
  have e1 : (1 : ℝ) + v.z - w.y = u * d + ((v.z + u) - (w.y - u)) := by linear_combination -hu'
  have e2 : (1 : ℝ) + -u - u = u * d := by linear_combination -hu'
  rw [e1, e2] at h
  nlinarith [mul_nonneg hd.le (sq_nonneg v.x), mul_nonneg hd.le (sq_nonneg v.y), mul_nonneg hd.le (sq_nonneg (v.z + u)), sq_nonneg ((v.z + u) - (w.y - u)),
    mul_nonneg hd.le (sq_nonneg w.x), mul_nonneg hd.le (sq_nonneg (w.y - u)), mul_nonneg hd.le (sq_nonneg w.z)]

/-- The rotation about the second axis by a small positive angle is not the identity. -/
theorem small_turn {eps x : ℝ} (h0 : 0 < x) (h1 : x < 1) : Geom.so3Exp eps ⟨0, x, 0⟩ ≠ M3.one := by
  have hv : Geom.vnorm ⟨0, x, 0⟩ = x := by
    have : Geom.vnorm ⟨0, x, 0⟩ = √(x * x) := by simp [Geom.vnorm]
    rw [this, Real.sqrt_mul_self h0.le]
  intro h
  have h2 := congrArg (fun M : M3 ℝ => M.r0.z) h
  simp only [Geom.so3Exp, hv] at h2
  split_ifs at h2
  · simp [Geom.so3Hat, M3.add, M3.one, V3.add] at h2
    exact h0.ne' h2
  · simp [Geom.so3Hat, M3.add, M3.one, V3.add, M3.smul, V3.smul, M3.mul, M3.mulVec, M3.transpose, M3.c0, M3.c1, M3.c2, V3.dot] at h2
    have hs : 0 < Real.sin x := Real.sin_pos_of_pos_of_lt_pi h0 (by linarith [Real.two_le_pi])
    rcases h2 with h2 | h2 <;> linarith

/-- The answer of one gradICP iteration with the default parameters. -/
noncomputable def oneStep (src tgt nrm : List (V3 ℝ)) : Except Err (M4 ℝ × List Nat) :=
  pointToPlaneGradICP (1 / 10 ^ 6) 2 1 1 200 bruteNN src tgt nrm (some M4.one) 1 (1 / 10 ^ 8) none

/-- **C80**, why only turns about the origin: moving all clouds by one unit along the first axis (which leaves all distances and directions alone) turns an answer without
rotation into one with a rotation, because the damping penalises rotations about the world origin. -/
theorem registration_depends_on_origin : ∃ T idx T2 idx2, oneStep [⟨0, 0, 1⟩] [⟨0, 0, 0⟩] [⟨0, 0, 1⟩] = .ok (T, idx) ∧
    oneStep [⟨1, 0, 1⟩] [⟨1, 0, 0⟩] [⟨0, 0, 1⟩] = .ok (T2, idx2) ∧ T.R = M3.one ∧ T2.R ≠ M3.one := by
  have heps : (0 : ℝ) < 1 / 10 ^ 6 := by positivity
  obtain ⟨T, d, h0, hd, tr, e⟩ := grad_is_trace (th := none) (tgt := [⟨0, 0, 0⟩]) (nrm := [⟨0, 0, 1⟩]) bruteNN_nearest
    (by simp) rfl (eps := 1 / 10 ^ 6) (lmax := 2) (B := 1) (B2 := 1) (nu := 200) (by norm_num)
    [⟨0, 0, 1⟩] (T0 := M4.one) ⟨rfl, rfl⟩ (damp := 1 / 10 ^ 8) (by positivity) (n := 1) le_rfl
  obtain ⟨U, d2, k0, kd, tr2, e2⟩ := grad_is_trace (th := none) (tgt := [⟨1, 0, 0⟩]) (nrm := [⟨0, 0, 1⟩]) bruteNN_nearest
    (by simp) rfl (eps := 1 / 10 ^ 6) (lmax := 2) (B := 1) (B2 := 1) (nu := 200) (by norm_num)
    [⟨1, 0, 1⟩] (T0 := M4.one) ⟨rfl, rfl⟩ (damp := 1 / 10 ^ 8) (by positivity) (n := 1) le_rfl
  refine ⟨_, _, _, _, e, e2, ?_, ?_⟩
  · obtain ⟨v, w, x, hst, _, hT', _⟩ := tr.step 0 (by simp)
    rw [h0, cloud_one] at hst
    obtain ⟨rfl, rfl⟩ := axis_step (by rw [hd]; positivity) (one_target 1).1 (one_target 1).2 hst
    rw [show (1 : Int).toNat = 0 + 1 by rfl, hT', h0, M4.mul_one, smul_zero, Geom.se3_exp_translation _ heps]
  · obtain ⟨v, w, x, hst, _, hT', _⟩ := tr2.step 0 (by simp)
    rw [k0, cloud_one] at hst
    have hdp : 0 < d2 0 := by rw [kd]; positivity
    obtain ⟨rfl, rfl⟩ := beside_step hdp hst
    rw [show (1 : Int).toNat = 0 + 1 by rfl, hT', k0, M4.mul_one]
    have hw := stepWeight_between (B2 := 1) (nu := 200) (e := x) (by norm_num)
    have ew : (⟨0, 1 / (2 + d2 0), 0⟩ : V3 ℝ).smul (stepWeight 1 200 x) = ⟨0, stepWeight 1 200 x * (1 / (2 + d2 0)), 0⟩ := by
      ext <;> simp [V3.smul]
    show Geom.so3Exp _ ((⟨0, 1 / (2 + d2 0), 0⟩ : V3 ℝ).smul (stepWeight 1 200 x)) ≠ _
    rw [ew]
    have h2 : (1 : ℝ) / (2 + d2 0) < 1 := by rw [div_lt_one (by linarith)]; linarith
    have h3 : (0 : ℝ) < 1 / (2 + d2 0) := by positivity
    exact small_turn (mul_pos hw.1 h3) (by nlinarith [hw.1, hw.2])
end Verif.Icp

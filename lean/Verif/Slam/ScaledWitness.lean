import Verif.Slam.Scaled
import Verif.Slam.BatchWitness
/-!
Concrete cases for C88.
-/
namespace Verif.Slam
open Verif Pcs
set_option maxRecDepth 100000

/-- One sequence of two frames in the unit of C66's example, and the same in a unit a thousand times smaller (metres and millimetres). -/
noncomputable def depthMM : Rgbd.T5 ℝ := ⟨⟨1, 2, 2, 2, 1⟩, fun b l h w c => 1000 * depthR.at' b l h w c⟩
noncomputable def poseMM : Rgbd.TM ℝ := ⟨1, 2, fun b l => { poseR.at' b l with t := V3.smul 1000 (poseR.at' b l).t }⟩
noncomputable def seqMM : Rgbd.Obj ℝ := ⟨false, rgbR, depthMM, KR, some poseMM, none, none, none, none, none, none, rgbR.sh, none, 1, 2, 2, 2⟩
noncomputable def inMM : Rgbd.In ℝ := Rgbd.inputsOf rgbR depthMM KR (some poseMM) false none
theorem seqMM_new : Rgbd.new rgbR depthMM KR (some poseMM) false none = .ok seqMM := rfl

/-- The hypotheses of C88 are met by `PointFusion(odom="gt")` and these two sequences. -/
theorem unit_hypotheses (nn : List (V3 ℝ) → V3 ℝ → Nat) (epsE eps : ℝ) (p : Params) :
    ∃ S S2, MadeScaled nn epsE eps Rgbd.nrmR p 1000 S S2 ∧ S.mapper ≠ .aggregate ∧ Rgbd.IsNorm Rgbd.nrmR ∧
      SeqOk S (seqR poseR) (inR poseR) ∧ SysOk S (inR poseR) ∧ SeqOk S2 seqMM inMM ∧ SysOk S2 inMM ∧
      0 < (inR poseR).L ∧ inMM.B = (inR poseR).B ∧ inMM.L = (inR poseR).L ∧ inMM.H = (inR poseR).H ∧ inMM.W = (inR poseR).W ∧
      (∀ b < (inR poseR).B, ∀ t < (inR poseR).L, inMM.rgb b t = (inR poseR).rgb b t ∧ inMM.pix b t = (inR poseR).pix b t ∧
        ∀ y x, inMM.depth b t y x = 1000 * (inR poseR).depth b t y x) ∧
      (∀ b < (inR poseR).B, Camera ((inR poseR).K b) ∧ inMM.K b = (inR poseR).K b) ∧
      (seqR poseR).poses = some poseR ∧ seqMM.poses = some poseMM ∧
      ∀ b t, (poseMM.at' b t).R = (poseR.at' b t).R ∧
        (poseMM.at' b t).t = ⟨1000 * (poseR.at' b t).t.x, 1000 * (poseR.at' b t).t.y, 1000 * (poseR.at' b t).t.z⟩ ∧
        (poseMM.at' b t).b = (poseR.at' b t).b ∧ (poseMM.at' b t).s = (poseR.at' b t).s := by
  have hgt : odomOf nn epsE p "gt" = .ok .gt := by rw [odomOf, if_pos rfl]
  have al : ∀ sigma q, 0 < Fusion.getAlpha sigma (1 / 10 ^ 7) q := fun sigma q => (Fusion.alpha_range (by norm_num) (by norm_num) q).2.1
  refine ⟨_, _, .inr ⟨5 / 100, 20, 6 / 10, by rw [pointFusion, hgt], by rw [pointFusion, hgt]⟩, by simp, Rgbd.nrmR_isNorm, seqOk_of_hist (Rgbd.Hist.new seqR_new.1) (.inl rfl) ?_ ?_ ?_, ?_,
    seqOk_of_hist (Rgbd.Hist.new seqMM_new) (.inl rfl) ?_ ?_ ?_, ?_, ?_, rfl, rfl, rfl, rfl, fun b _ t _ => ⟨rfl, rfl, fun y x => rfl⟩, fun b _ => ⟨⟨rfl, rfl⟩, rfl⟩, rfl, rfl,
    fun b t => ⟨rfl, rfl, rfl, rfl⟩⟩
  · show 0 < 1; norm_num
  · show 2 ≤ 2; norm_num
  · show 2 ≤ 2; norm_num
  · exact ⟨fun h => (by cases h), fun _ h => (by cases h),
      .inr ⟨fun q => al _ q, by show 1 ≤ _; norm_num, by show 2 ≤ _; norm_num, by show 2 ≤ _; norm_num, by show 2 * (2 * 2) ≤ _; norm_num⟩⟩
  · show 0 < 1; norm_num
  · show 2 ≤ 2; norm_num
  · show 2 ≤ 2; norm_num
  · exact ⟨fun h => (by cases h), fun _ h => (by cases h),
      .inr ⟨fun q => al _ q, by show 1 ≤ _; norm_num, by show 2 ≤ _; norm_num, by show 2 ≤ _; norm_num, by show 2 * (2 * 2) ≤ _; norm_num⟩⟩
  · show 0 < 2; norm_num

/-! ### The parameters have to be converted too -/

/-- A wall at distance 2 and then, from the same pose, at distance 2 1/4, in units `1/s` as long as the first. -/
def depthU (s : ℚ) : Rgbd.T5 ℚ := ⟨⟨1, 2, 2, 2, 1⟩, fun _ l _ _ _ => s * (2 + l / 4)⟩
def poseU : Rgbd.TM ℚ := ⟨1, 2, fun _ _ => M4.one⟩
def seqU (s : ℚ) : Rgbd.Obj ℚ := { Rgbd.obj0 with depth := depthU s, poses := some poseU }
theorem seqU_new (s : ℚ) : Rgbd.new Rgbd.rgb0 (depthU s) Rgbd.K0 (some poseU) false none = .ok (seqU s) := rfl
/-- `PointFusion` with ground-truth odometry and this distance threshold. -/
def fusionU (d : ℚ) : Sys ℚ := ⟨.gt, 1, .fusion d (1 / 2), Rgbd.nrm1, fun _ => 1, 0⟩

/-- With the depth in another unit and the threshold converted, the same four points are merged; with the old threshold nothing is
merged and the map has eight points. -/
theorem threshold_in_old_unit :
    ((results (fusionU 1) (seqU 1)).map fun r => r.2.map List.length) = some [4] ∧
    ((results (fusionU 1000) (seqU 1000)).map fun r => r.2.map List.length) = some [4] ∧
    ((results (fusionU 1) (seqU 1000)).map fun r => r.2.map List.length) = some [8] := by
  refine ⟨by decide +kernel, by decide +kernel, by decide +kernel⟩

end Verif.Slam

import Verif.Warn.Runs
import Verif.Slam.Witness
import Verif.Slam.StaticWitness
/-!
Concrete cases for C113.
-/
namespace Verif.Warn
open Verif Pcs Fusion Slam
set_option maxRecDepth 100000

/-! ### Runs with and without warnings (the hypotheses are those of `slam_hypotheses`) -/

/-- Two frames 100 units apart. -/
def awayW : Rgbd.Obj ℚ := { seqW with poses := some ⟨1, 2, fun _ l => ⟨.one, ⟨100 * l, 0, 0⟩, .zero, 1⟩⟩ }

example : forwardWarn gtSlam seqW = [] ∧ forwardWarn gtFusion seqW = [] ∧
    forwardWarn { gtFusion with mapper := .fusion 0 (1 / 2) } seqW = [.noSimilar 2] ∧
    forwardWarn upFusion seqW = [.noSimilar 1] ∧
    forwardWarn gtFusion awayW = [.noActive] := by decide +kernel

/-- Three frames without poses. -/
def depth3 : Rgbd.T5 ℚ := ⟨⟨1, 3, 2, 2, 1⟩, fun _ l h w _ => if h = 1 ∧ w = 1 then 0 else 2 + l⟩
def rgb3 : Rgbd.T5 ℚ := ⟨⟨1, 3, 2, 2, 3⟩, fun _ l h w c => l + h + w + c⟩
def seq3 : Rgbd.Obj ℚ := ⟨false, rgb3, depth3, Rgbd.K0, none, none, none, none, none, none, none, rgb3.sh, none, 1, 3, 2, 2⟩
theorem seq3_new : Rgbd.new rgb3 depth3 Rgbd.K0 none false none = .ok seq3 := rfl
def in3 : Rgbd.In ℚ := Rgbd.inputsOf rgb3 depth3 Rgbd.K0 none false none
/-- A provider that always answers "100 units up", after which nothing of the map is in view. -/
def far : PC ℚ → PC ℚ → Except Icp.Err (List (M4 ℚ)) := Icp.provide fun _ _ _ _ => .ok (⟨.one, ⟨0, 100, 0⟩, .zero, 1⟩, [])
def farSlam : Sys ℚ := ⟨.prov far, 1, .aggregate, Rgbd.nrm1, fun _ => 1, 0⟩
def farFusion : Sys ℚ := ⟨.prov far, 1, .fusion 2 (1 / 2), Rgbd.nrm1, fun _ => 1, 0⟩

theorem far_hypotheses : (SeqOk farSlam seq3 in3 ∧ SysOk farSlam in3) ∧ SeqOk farFusion seq3 in3 ∧ SysOk farFusion in3 ∧ in3.L = 3 := by
  have hm : ∀ S : Sys ℚ, S.al = (fun _ => 1) → S.mapper = .aggregate ∨
      ((∀ p, 0 < S.al p) ∧ in3.B ≤ 2 ^ 24 ∧ in3.H ≤ 2 ^ 24 ∧ in3.W ≤ 2 ^ 24 ∧ in3.L * (in3.H * in3.W) ≤ 2 ^ 24) := by
    intro S h
    exact .inr ⟨fun p => by rw [h]; exact one_pos, by decide, by decide, by decide, by decide⟩
  have h3 : Rgbd.Hist Rgbd.nrm1 (0 : ℚ) seq3 in3 false := Rgbd.Hist.new seq3_new
  refine ⟨⟨seqOk_of_hist (S := farSlam) h3 (.inl rfl) (by decide) (by decide) (by decide), ⟨fun _ => one_pos, fun provide h maps fr ans c Q hc hQ ha => ?_, hm _ rfl⟩⟩,
    seqOk_of_hist (S := farFusion) h3 (.inl rfl) (by decide) (by decide) (by decide), ⟨fun _ => one_pos, fun provide h maps fr ans c Q hc hQ ha => ?_, hm _ rfl⟩, rfl⟩
  · cases h; exact (provide_answers ha).1 c Q hc hQ
  · cases h; exact (provide_answers ha).1 c Q hc hQ

/-- The warnings at the three frames: nothing at the first; at the second the map is in view of the previous frame, but not of the new one (only
`PointFusion` looks); at the third the points added at the second are in view. -/
example : forwardWarn farSlam seq3 = [] ∧ (itersWarn farFusion seq3 1 = [] ∧ itersWarn farFusion seq3 2 = [.noActive] ∧
    forwardWarn farFusion seq3 = [.noActive, .noActive]) := by decide +kernel

/-! ### Rigid ground truth over ℝ -/

/-- The hypotheses of `forward_gt_no_dots` are met. -/
example : Warn.dots ∉ forwardWarn (sysS .gt) (seqS fun _ _ => true) := by
  obtain ⟨o, h1, h2, h3, h4, h5, _, h6⟩ := still_hypotheses (q := fun _ _ => true) rfl (odom := "gt") (by simp)
  obtain rfl := h2.1 rfl
  refine forward_gt_no_dots h4 (made_sysOk (.inr ⟨_, _, _, h6⟩) (.inl rfl) h3).1 Rgbd.nrmR_isNorm rfl fun G hG b _ t => ?_
  cases hG
  exact turnR_rigid.2.2
end Verif.Warn

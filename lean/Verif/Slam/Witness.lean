import Verif.Slam.Real
import Mathlib.Data.Rat.Floor
/-!
Concrete cases for the SLAM theorems: their hypotheses are met by runs over several frames, and the state in which C50 as first stated
(`step(inplace=False)` leaves the map untouched) is violated.
-/
namespace Verif.Slam
open Verif Pcs
set_option maxRecDepth 100000

/-- One sequence of two frames of 2×2 pixels; pixel (1,1) has no depth; the second frame is at another pose and sees a surface farther
away. -/
def depthW : Rgbd.T5 ℚ := ⟨⟨1, 2, 2, 2, 1⟩, fun _ l h w _ => if h = 1 ∧ w = 1 then 0 else 2 + l⟩
def poseW : Rgbd.TM ℚ := ⟨1, 2, fun _ l => ⟨.one, ⟨-l / 8, 0, 0⟩, .zero, 1⟩⟩
def seqW : Rgbd.Obj ℚ := { Rgbd.obj0 with depth := depthW, poses := some poseW }
theorem seqW_new : Rgbd.new Rgbd.rgb0 depthW Rgbd.K0 (some poseW) false none = .ok seqW := rfl
def inW : Rgbd.In ℚ := Rgbd.inputsOf Rgbd.rgb0 depthW Rgbd.K0 (some poseW) false none
theorem seqW_hist : Rgbd.Hist Rgbd.nrm1 (0 : ℚ) seqW inW false := Rgbd.Hist.new seqW_new

/-- `ICPSLAM(odom="gt")`. -/
def gtSlam : Sys ℚ := ⟨.gt, 1, .aggregate, Rgbd.nrm1, fun _ => 1, 0⟩
/-- `PointFusion(odom="gt")`. -/
def gtFusion : Sys ℚ := ⟨.gt, 1, .fusion 2 (1 / 2), Rgbd.nrm1, fun _ => 1, 0⟩
/-- A provider that always answers "one unit up". -/
def up : PC ℚ → PC ℚ → Except Icp.Err (List (M4 ℚ)) := Icp.provide fun _ _ _ _ => .ok (⟨.one, ⟨0, 1, 0⟩, .zero, 1⟩, [])
/-- `PointFusion` with that provider. -/
def upFusion : Sys ℚ := ⟨.prov up, 1, .fusion 2 (1 / 2), Rgbd.nrm1, fun _ => 1, 0⟩

/-- The hypotheses of C47-C51 are met by these objects and this sequence. -/
theorem slam_hypotheses : (SeqOk gtSlam seqW inW ∧ SysOk gtSlam inW) ∧ (SeqOk gtFusion seqW inW ∧ SysOk gtFusion inW) ∧
    (SeqOk upFusion seqW inW ∧ SysOk upFusion inW ∧ ∀ provide, upFusion.odom = .prov provide → Ext provide) ∧
    seqW.poses = some poseW ∧ inW.L = 2 := by
  have hm : ∀ S : Sys ℚ, S.al = (fun _ => 1) → S.mapper = .aggregate ∨
      ((∀ p, 0 < S.al p) ∧ inW.B ≤ 2 ^ 24 ∧ inW.H ≤ 2 ^ 24 ∧ inW.W ≤ 2 ^ 24 ∧ inW.L * (inW.H * inW.W) ≤ 2 ^ 24) := by
    intro S h
    exact .inr ⟨fun p => by rw [h]; exact one_pos, by decide, by decide, by decide, by decide⟩
  refine ⟨⟨seqOk_of_hist (S := gtSlam) seqW_hist (.inl rfl) (by decide) (by decide) (by decide), ⟨fun h => (by cases h), fun _ h => (by cases h), hm _ rfl⟩⟩,
    ⟨seqOk_of_hist (S := gtFusion) seqW_hist (.inl rfl) (by decide) (by decide) (by decide), ⟨fun h => (by cases h), fun _ h => (by cases h), hm _ rfl⟩⟩,
    ⟨seqOk_of_hist (S := upFusion) seqW_hist (.inl rfl) (by decide) (by decide) (by decide),
      ⟨fun _ => one_pos, fun provide h maps fr ans c Q hc hQ ha => ?_, hm _ rfl⟩, fun provide h => ?_⟩, rfl, rfl⟩
  · cases h; exact (provide_answers ha).1 c Q hc hQ
  · cases h; exact icp_provide_ext _

/-- Poses and map sizes after `forward`. -/
def summary (S : Sys ℚ) (o : Rgbd.Obj ℚ) : Option (List (M4 ℚ) × List Nat) :=
  match forward S o with
  | .error _ => none
  | .ok (m, R) => some ((List.range R.d1).map fun t => R.at' 0 t, ((getList .points m).1.getD []).map fun t => t.rows.length)

/-- The three objects succeed on the sequence: with ground truth the given poses come back, with the provider the second pose is its answer;
`ICPSLAM` has stored the three pixels with depth of both frames, `PointFusion` has merged some of them. -/
theorem slam_runs : summary gtSlam seqW = some ([M4.one, ⟨.one, ⟨-1 / 8, 0, 0⟩, .zero, 1⟩], [6]) ∧
    summary gtFusion seqW = some ([M4.one, ⟨.one, ⟨-1 / 8, 0, 0⟩, .zero, 1⟩], [5]) ∧
    summary upFusion seqW = some ([M4.one, ⟨.one, ⟨0, 1, 0⟩, .zero, 1⟩], [6]) := by
  refine ⟨by decide +kernel, by decide +kernel, by decide +kernel⟩

/-- The map and the second frame when the second frame is added to the map of the first with `step(…, inplace=False)`: the points of the map
given, before and after the call, and of the map returned. -/
def secondStep (S : Sys ℚ) : Option (List (List (List ℚ)) × List (List (List ℚ)) × List (List (List ℚ))) :=
  match iters S seqW 1, frameAt seqW 1 with
  | .ok x, .ok live => match step S x.pc live x.prev false with
    | (.ok (res, _), pc, _) => some (pts x.pc, pts pc, pts res)
    | _ => none
  | _, _ => none
where
  /-- The points of a map. -/
  pts (pc : PC ℚ) : List (List (List ℚ)) := ((getList .points pc).1.getD []).map fun t => t.rows

/-- **C50 is violated** by `PointFusion`: after a run over the first frame, `step(…, inplace=False)` with the second frame moves the third
point of the map it was given. -/
theorem pointfusion_step_mutates_map : ∃ before after res, secondStep gtFusion = some (before, after, res) ∧ before ≠ after ∧
    before = [[[-1, -1, 2], [0, -1, 2], [-1, 0, 2]]] ∧ after = [[[-1, -1, 2], [0, -1, 2], [-21 / 16, 0, 5 / 2]]] :=
  ⟨_, _, [[[-1, -1, 2], [0, -1, 2], [-21 / 16, 0, 5 / 2], [-13 / 8, -3 / 2, 3], [-1 / 8, -3 / 2, 3]]], by decide +kernel, by decide +kernel, rfl, rfl⟩

/-- `ICPSLAM` leaves it as it was. -/
example : ∃ before res, secondStep gtSlam = some (before, before, res) ∧ before ≠ res :=
  ⟨[[[-1, -1, 2], [0, -1, 2], [-1, 0, 2]]],
    [[[-1, -1, 2], [0, -1, 2], [-1, 0, 2], [-13 / 8, -3 / 2, 3], [-1 / 8, -3 / 2, 3], [-13 / 8, 0, 3]]], by decide +kernel, by decide +kernel⟩

end Verif.Slam

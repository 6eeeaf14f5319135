import Verif.Slam.Colour
import Verif.Slam.Witness
/-!
C92: concrete cases.
-/
namespace Verif.Slam
open Verif Pcs
set_option maxRecDepth 100000

/-- The sequence of `Witness.lean` with every colour `c` replaced by `2 c + 1`. -/
def rgbCW : Rgbd.T5 ℚ := ⟨⟨1, 2, 2, 2, 3⟩, fun _ l h w c => 2 * (l + h + w + c) + 1⟩
def seqCW : Rgbd.Obj ℚ := { seqW with rgb := rgbCW }
theorem seqCW_new : Rgbd.new rgbCW depthW Rgbd.K0 (some poseW) false none = .ok seqCW := rfl
def inCW : Rgbd.In ℚ := Rgbd.inputsOf rgbCW depthW Rgbd.K0 (some poseW) false none
theorem seqCW_hist : Rgbd.Hist Rgbd.nrm1 (0 : ℚ) seqCW inCW false := Rgbd.Hist.new seqCW_new

def doubleCW : M3 ℚ := ⟨⟨2, 0, 0⟩, ⟨0, 2, 0⟩, ⟨0, 0, 2⟩⟩

/-- The hypotheses of C92 are met by the two sequences, for `PointFusion` with a provider. -/
theorem colour_hypotheses : SeqOk upFusion seqW inW ∧ SysOk upFusion inW ∧ SeqOk upFusion seqCW inCW ∧ SysOk upFusion inCW ∧
    (∀ provide, upFusion.odom = .prov provide → Blind provide) ∧ SameDepth seqW seqCW inW inCW ∧
    (∀ b < inW.B, ∀ t < inW.L, ∀ y < inW.H, ∀ x < inW.W, Read upFusion inW b t y x → inCW.rgb b t y x = (doubleCW.mulVec (inW.rgb b t y x)).add ⟨1, 1, 1⟩) := by
  obtain ⟨_, _, ⟨h1, h2, _⟩, _⟩ := slam_hypotheses
  refine ⟨h1, h2, seqOk_of_hist (S := upFusion) seqCW_hist (.inl rfl) (by decide) (by decide) (by decide), ⟨h2.ds, h2.prov, h2.map⟩, ?_, ?_, ?_⟩
  · intro provide h; cases h; exact icp_provide_blind _
  · refine ⟨rfl, rfl, rfl, rfl, rfl, fun P P' h h' b _ t _ => ?_, fun _ _ _ _ => rfl, fun _ _ => rfl, fun _ _ _ _ => rfl⟩
    cases h; cases h'; rfl
  · intro b _ t _ y _ x _ _
    refine V3.ext ?_ ?_ ?_ <;> simp [inCW, inW, Rgbd.inputsOf, Rgbd.rgb0, rgbCW, doubleCW, M3.mulVec, V3.dot, V3.add, Rgbd.px3, Rgbd.chan] <;> ring

/-- Points and colours of the first cloud of the map. -/
def shownCW (S : Sys ℚ) (o : Rgbd.Obj ℚ) : Option (List (List ℚ) × List (List ℚ)) :=
  match forward S o with
  | .error _ => none
  | .ok (m, _) => some (((getList .points m).1.getD []).flatMap (·.rows), ((getList .colors m).1.getD []).flatMap (·.rows))

/-- The two maps of `PointFusion(odom="gt")`: the same five points (one of them merged), and the colours of the second are `2 c + 1`. -/
theorem colour_case : ∃ P C C', shownCW gtFusion seqW = some (P, C) ∧ shownCW gtFusion seqCW = some (P, C') ∧ P.length = 5 ∧
    C' = C.map (fun r => r.map fun c => 2 * c + 1) ∧ C[2]? = some [3 / 2, 5 / 2, 7 / 2] := by
  refine ⟨((shownCW gtFusion seqW).getD ([], [])).1, ((shownCW gtFusion seqW).getD ([], [])).2, ((shownCW gtFusion seqCW).getD ([], [])).2, ?_, ?_, ?_, ?_, ?_⟩ <;>
    decide +kernel

end Verif.Slam

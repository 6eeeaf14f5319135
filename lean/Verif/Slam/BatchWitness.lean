import Verif.Slam.Batch
import Verif.Slam.Witness
/-!
Concrete cases for C65 and C66, and the reason why C66 needs a normal threshold of at most 90 degrees.
-/
namespace Verif.Slam
open Verif Pcs
set_option maxRecDepth 100000

/-! ### C65 -/

/-- The odometry of every object the constructors make is of the form C65 asks for. -/
theorem made_provider {nn : List (V3 ℝ) → V3 ℝ → Nat} {epsE eps : ℝ} {nrm : V3 ℝ → ℝ} {p : Params} {odom : String} {S : Sys ℝ}
    (h : Made nn epsE eps nrm p odom S) : ∀ provide, S.odom = .prov provide → ∃ icp, provide = Icp.provide icp := by
  intro provide hp
  rcases odom_cases (made_cases h).1 with ⟨_, hc⟩ | ⟨_, hc⟩ | ⟨_, hc⟩ <;> rw [hc] at hp <;> cases hp <;> exact ⟨_, rfl⟩

/-- Two sequences of two frames: the second is farther away and has missing depth elsewhere. -/
def rgbB : Rgbd.T5 ℚ := ⟨⟨2, 2, 2, 2, 3⟩, fun b l h w c => b + l + h + w + c⟩
def depthB : Rgbd.T5 ℚ := ⟨⟨2, 2, 2, 2, 1⟩, fun b l h w _ => if h = 1 ∧ w = 1 - b then 0 else 2 + b + l⟩
def KB : Rgbd.TM ℚ := ⟨2, 1, fun _ _ => ⟨⟨⟨2, 0, 1⟩, ⟨0, 2, 1⟩, ⟨0, 0, 1⟩⟩, .zero, .zero, 1⟩⟩
def poseB : Rgbd.TM ℚ := ⟨2, 2, fun b l => ⟨.one, ⟨-l / 8, b, 0⟩, .zero, 1⟩⟩
def seqB : Rgbd.Obj ℚ := ⟨false, rgbB, depthB, KB, some poseB, none, none, none, none, none, none, rgbB.sh, none, 2, 2, 2, 2⟩
theorem seqB_new : Rgbd.new rgbB depthB KB (some poseB) false none = .ok seqB := rfl
def inB : Rgbd.In ℚ := Rgbd.inputsOf rgbB depthB KB (some poseB) false none
theorem seqB_hist : Rgbd.Hist Rgbd.nrm1 (0 : ℚ) seqB inB false := Rgbd.Hist.new seqB_new

/-- A registration whose answer depends on the clouds: a shift along `y` by the first coordinate of the first source point. -/
def lean1 : PC ℚ → PC ℚ → Except Icp.Err (List (M4 ℚ)) := Icp.provide fun src _ _ _ => .ok (⟨.one, ⟨0, (src.getD 0 .zero).x, 0⟩, .zero, 1⟩, [])
def lean1Fusion : Sys ℚ := ⟨.prov lean1, 1, .fusion 2 (1 / 2), Rgbd.nrm1, fun _ => 1, 0⟩

/-- The hypotheses of C65 are met by a batch of two sequences. -/
theorem batch_hypotheses : SeqOk lean1Fusion seqB inB ∧ SysOk lean1Fusion inB ∧
    (∀ provide, lean1Fusion.odom = .prov provide → ∃ icp, provide = Icp.provide icp) ∧ 1 < inB.B ∧ 0 < inB.L ∧ ∃ r, forward lean1Fusion seqB = .ok r := by
  have e : (match forward lean1Fusion seqB with | .ok _ => true | .error _ => false) = true := by decide +kernel
  refine ⟨seqOk_of_hist (S := lean1Fusion) seqB_hist (.inl rfl) (by decide) (by decide) (by decide),
    ⟨fun _ => one_pos, fun provide h maps fr ans c Q hc hQ ha => ?_, .inr ⟨fun p => one_pos, by decide, by decide, by decide, by decide⟩⟩,
    fun provide h => ?_, by decide, by decide, ?_⟩
  · cases h; exact (provide_answers ha).1 c Q hc hQ
  · cases h; exact ⟨_, rfl⟩
  · cases h : forward lean1Fusion seqB with
    | ok r => exact ⟨r, rfl⟩
    | error e' => rw [h] at e; cases e

/-- All poses and points `forward` returns. -/
def results (S : Sys ℚ) (o : Rgbd.Obj ℚ) : Option (List (List (M4 ℚ)) × List (List (List ℚ))) :=
  match forward S o with
  | .error _ => none
  | .ok (m, R) => some ((List.range R.d0).map fun b => (List.range R.d1).map fun t => R.at' b t, ((getList .points m).1.getD []).map fun t => t.rows)

/-- The same for `frames[idx]`. -/
def resultsAt (S : Sys ℚ) (o : Rgbd.Obj ℚ) (idx : Rgbd.Index) : Option (List (List (M4 ℚ)) × List (List (List ℚ))) :=
  match Rgbd.getitem idx o with
  | .error _ => none
  | .ok s => results S s

/-- The two sequences give different trajectories and different clouds, and each is what `forward` returns for the sequence alone. -/
example : ∃ T0 T1 c0 c1, results lean1Fusion seqB = some ([T0, T1], [c0, c1]) ∧ T0 ≠ T1 ∧ c0 ≠ c1 ∧ c0.length = 6 ∧
    resultsAt lean1Fusion seqB (.int 0) = some ([T0], [c0]) ∧ resultsAt lean1Fusion seqB (.int 1) = some ([T1], [c1]) := by
  refine ⟨((results lean1Fusion seqB).getD ([], [])).1.getD 0 [], ((results lean1Fusion seqB).getD ([], [])).1.getD 1 [],
    ((results lean1Fusion seqB).getD ([], [])).2.getD 0 [], ((results lean1Fusion seqB).getD ([], [])).2.getD 1 [],
    by decide +kernel, by decide +kernel, by decide +kernel, by decide +kernel, by decide +kernel, by decide +kernel⟩

/-! ### C66 -/

/-- `PointFusion` with a normal threshold above 90 degrees (`dot_th < 0`) and a distance threshold of 3. -/
def wideFusion : Sys ℚ := ⟨.gt, 1, .fusion 3 (-1 / 2), Rgbd.nrm1, fun _ => 1, 0⟩
/-- Two frames of the same surface; in the second, pixel (1,1) has no depth. -/
def depthV : Rgbd.T5 ℚ := ⟨⟨1, 2, 2, 2, 1⟩, fun _ l h w _ => if l = 1 ∧ h = 1 ∧ w = 1 then 0 else 2⟩
/-- Both frames at the pose `x` units along the optical axis. -/
def poseV (x : ℚ) : Rgbd.TM ℚ := ⟨1, 2, fun _ _ => ⟨.one, ⟨0, 0, x⟩, .zero, 1⟩⟩
def seqV (x : ℚ) : Rgbd.Obj ℚ := { Rgbd.obj0 with depth := depthV, poses := some (poseV x) }
theorem seqV_new (x : ℚ) : Rgbd.new Rgbd.rgb0 depthV Rgbd.K0 (some (poseV x)) false none = .ok (seqV x) := rfl

/-- With a normal threshold above 90 degrees C66 fails already for translations: a pixel without depth has global vertex 0 and normal 0, so
it is merged into a map point that is near the *world origin*.  Moving the world 8 units along the optical axis changes the relative
positions of the points (and with a threshold of at most 90 degrees it does not). -/
theorem world_frame_wide_angle :
    (results wideFusion (seqV 0)).map Prod.snd = some [[[-1, -1, 2], [0, -1, 2], [-1, 0, 2], [0, 0, 1]]] ∧
    (results wideFusion (seqV 8)).map Prod.snd = some [[[-1, -1, 10], [0, -1, 10], [-1, 0, 10], [0, 0, 10]]] := by
  refine ⟨by decide +kernel, by decide +kernel⟩

/-- Over ℝ: one sequence of two frames, with the poses given and with the poses in a world turned by 90 degrees about the optical axis and
shifted. -/
noncomputable def turnR : M4 ℝ := ⟨⟨⟨0, -1, 0⟩, ⟨1, 0, 0⟩, ⟨0, 0, 1⟩⟩, ⟨5, 6, 7⟩, .zero, 1⟩
noncomputable def rgbR : Rgbd.T5 ℝ := ⟨⟨1, 2, 2, 2, 3⟩, fun _ l h w c => l + h + w + c⟩
noncomputable def depthR : Rgbd.T5 ℝ := ⟨⟨1, 2, 2, 2, 1⟩, fun _ l h w _ => if h = 1 ∧ w = 1 then 0 else 2 + l⟩
noncomputable def KR : Rgbd.TM ℝ := ⟨1, 1, fun _ _ => ⟨⟨⟨2, 0, 1⟩, ⟨0, 2, 1⟩, ⟨0, 0, 1⟩⟩, .zero, .zero, 1⟩⟩
noncomputable def poseR : Rgbd.TM ℝ := ⟨1, 2, fun _ l => ⟨.one, ⟨-l / 8, 0, 0⟩, .zero, 1⟩⟩
noncomputable def poseR' : Rgbd.TM ℝ := ⟨1, 2, fun b l => turnR.mul (poseR.at' b l)⟩
noncomputable def seqR (p : Rgbd.TM ℝ) : Rgbd.Obj ℝ := ⟨false, rgbR, depthR, KR, some p, none, none, none, none, none, none, rgbR.sh, none, 1, 2, 2, 2⟩
noncomputable def inR (p : Rgbd.TM ℝ) : Rgbd.In ℝ := Rgbd.inputsOf rgbR depthR KR (some p) false none
theorem seqR_new : Rgbd.new rgbR depthR KR (some poseR) false none = .ok (seqR poseR) ∧ Rgbd.new rgbR depthR KR (some poseR') false none = .ok (seqR poseR') :=
  ⟨rfl, rfl⟩
noncomputable def fusionR : Sys ℝ := ⟨.gt, 1, .fusion 2 (1 / 2), Rgbd.nrmR, fun _ => 1, 0⟩

/-- The hypotheses of C66 are met by `PointFusion(odom="gt")` and these two batches. -/
theorem world_hypotheses : SeqOk fusionR (seqR poseR) (inR poseR) ∧ SysOk fusionR (inR poseR) ∧ SeqOk fusionR (seqR poseR') (inR poseR') ∧
    SysOk fusionR (inR poseR') ∧ Rgbd.IsNorm fusionR.nrm ∧ (∀ d t, fusionR.mapper = .fusion d t → 0 ≤ t) ∧ turnR.Rigid ∧ turnR ≠ M4.one ∧
    (∀ b t, (poseR.at' b t).Affine ∧ poseR'.at' b t = turnR.mul (poseR.at' b t)) := by
  have hs : ∀ p : Rgbd.TM ℝ, p.d0 = 1 → p.d1 = 2 → SysOk fusionR (inR p) := fun p _ _ => ⟨fun h => (by cases h), fun _ h => (by cases h),
    .inr ⟨fun p => one_pos, by show 1 ≤ _; norm_num, by show 2 ≤ _; norm_num, by show 2 ≤ _; norm_num, by show 2 * (2 * 2) ≤ _; norm_num⟩⟩
  refine ⟨seqOk_of_hist (S := fusionR) (Rgbd.Hist.new seqR_new.1) (.inl rfl) ?_ ?_ ?_, hs _ rfl rfl,
    seqOk_of_hist (S := fusionR) (Rgbd.Hist.new seqR_new.2) (.inl rfl) ?_ ?_ ?_, hs _ rfl rfl, Rgbd.nrmR_isNorm, fun d t h => ?_, ⟨⟨rfl, rfl⟩, ?_, ?_⟩, ?_, fun b t => ⟨⟨rfl, rfl⟩, rfl⟩⟩
  · show 0 < 1; norm_num
  · show 2 ≤ 2; norm_num
  · show 2 ≤ 2; norm_num
  · show 0 < 1; norm_num
  · show 2 ≤ 2; norm_num
  · show 2 ≤ 2; norm_num
  · cases h; norm_num
  · ext <;> simp [turnR, M3.mul, M3.transpose, M3.one, V3.dot, M3.mulVec, M3.c0, M3.c1, M3.c2]
  · ext <;> simp [turnR, M3.mul, M3.transpose, M3.one, V3.dot, M3.mulVec, M3.c0, M3.c1, M3.c2]
  · intro h
    have := congrArg (fun T : M4 ℝ => T.t.x) h
    simp [turnR, M4.one, V3.zero] at this

end Verif.Slam

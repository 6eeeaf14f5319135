import Verif.Slam.Raise
/-!
Concrete cases for C94: a run in which a step raises and is skipped, the two ways a raise leaves something behind.
-/
namespace Verif.Slam
open Verif Pcs
set_option maxRecDepth 100000

/-- The frame that raises: the second frame of the sequence in channels-first order. -/
theorem bad_case : ∃ bad ib, frameAt seqF 1 = .ok bad ∧ Rgbd.Rep gtFusion.nrm gtFusion.eps bad ib ∧ bad.cf = true ∧ ib.L = 1 ∧ 0 < ib.B ∧
    2 ≤ ib.H ∧ ib.W = 2 := by
  let S' : Sys ℚ := gtSlam
  have ok : SeqOk S' seqF inW := seqOk_of_hist (S := gtSlam) seqF_hist (.inr ⟨rfl, rfl⟩) (by decide) (by decide) (by decide)
  obtain ⟨o, e, h, _⟩ := frameAt_ok ok (t := 1) (by decide)
  refine ⟨o, _, e, h.rep, ?_, h.L, h.B, h.H, rfl⟩
  obtain ⟨o', ho, r, _, hc, _⟩ := Rgbd.selected_rep (is := List.range inW.B) (js := [1]) ok.rep (by decide) (by simp)
  have hall : Rgbd.resolve inW.B (.slice none none none) = .ok (List.range inW.B) := (Rgbd.index_positions inW.B).2.2.1
  have hone : Rgbd.resolve inW.L (.int 1) = .ok [1] := (Rgbd.index_positions inW.L).1 1 (by decide)
  have e' : frameAt seqF 1 = .ok o' := by
    simp [frameAt, Rgbd.getitem, Rgbd.twoIx, ok.rep.hB, ok.rep.hL, hall, hone, Rgbd.bothLists, ho]
  rw [e] at e'; cases e'
  exact hc.trans rfl

/-- The hypotheses of `failed_step_can_be_skipped` are met: `PointFusion` after the first frame, the second frame in the wrong channel order
raises, and then the second frame in the right order gives what it would have given. -/
theorem skip_case : ∃ (x : Loop ℚ) (bad live bad' : Rgbd.Obj ℚ) (pc' : PC ℚ) (e : Err), iters gtFusion seqW 1 = .ok x ∧
    frameAt seqF 1 = .ok bad ∧ frameAt seqW 1 = .ok live ∧
    step gtFusion x.pc bad x.prev true = (.error e, pc', bad') ∧
    SameResult (step gtFusion x.pc live x.prev true).1 (step gtFusion pc' live x.prev true).1 := by
  obtain ⟨-, ⟨hf, hs⟩, -, hp, -⟩ := slam_hypotheses
  rcases iters_spec hf hs 1 (by decide) with ⟨x, Ts, a, ex, r, hl, st⟩ | ⟨e, Ts, a, ex, -⟩
  swap
  · exfalso
    have h : (summary gtFusion seqW).isSome := by rw [slam_runs.2.1]; rfl
    obtain ⟨e', he⟩ := iters_error ⟨e, ex⟩ seqW.L (by decide)
    simp only [summary, forward, he] at h
    cases h
  obtain ⟨bad, ib, eb, rb, cb, bL, bB, bH, bW⟩ := bad_case
  obtain ⟨e, pc', bad', hbad⟩ := fusion_step_needs_channels_last rb cb bL bB bH (by omega) (S := gtFusion) rfl x.pc x.prev true
  obtain ⟨live, el, okl, -⟩ := frameAt_live hf hp (t := 1) (by decide)
  refine ⟨x, bad, live, bad', pc', e, ex, eb, el, hbad, ?_⟩
  exact (failed_step_can_be_skipped (S := gtFusion) (fun _ h => by cases h) hs.prov hs.ds st.map
    (.inr ⟨rb, bH, by omega, .inl ⟨cb, by omega⟩⟩) hbad (i := { snap inW 1 with poses := (given seqW inW 1).map Rgbd.TM.at' }) rfl okl (.inl rfl)
    (fun T => mapCond_of (T := T) (t := 1) hs (n := 1) (by decide) (by simpa [hl] using st.size)) true).2

/-- The map of the first frame with the confidences written three times, as features of width three. -/
def wideMap (x : PC ℚ) : Except Pcs.Err (PC ℚ) :=
  let rd := fun X => ((getList X x).1.getD [])
  newList (fun X => if X = .features then some ((rd X).map fun t => ⟨t.rows.map fun r => [r.headD 0, r.headD 0, r.headD 0], 3⟩) else some (rd X)) (rd .points)

/-- The points before and after a `step` of `PointFusion` that raises on such a map. -/
def wideStep (S : Sys ℚ) : Option (List (List (List ℚ)) × List (List (List ℚ))) :=
  match iters S seqW 1, frameAt seqW 1 with
  | .ok x, .ok live => match wideMap x.pc with
    | .error _ => none
    | .ok m => match step S m live none true with
      | (.error _, pc, _) => some (secondStep.pts m, secondStep.pts pc)
      | _ => none
  | _, _ => none

/-- **C94** (why the width of the features matters).  On a map whose features are three wide the step raises after it has merged: the map has
been changed. -/
theorem wide_features_raise_too_late : ∃ before after, wideStep gtFusion = some (before, after) ∧ before ≠ after ∧
    before = [[[-1, -1, 2], [0, -1, 2], [-1, 0, 2]]] ∧ after = [[[-1, -1, 2], [0, -1, 2], [-21 / 16, 0, 5 / 2]]] :=
  ⟨_, _, by decide +kernel, by decide +kernel, rfl, rfl⟩

/-- `ICPSLAM` with a provider that raises. -/
def brokenSlam : Sys ℚ := ⟨.prov fun _ _ => .error .valueError, 1, .aggregate, Rgbd.nrm1, fun _ => 1, 0⟩

/-- The poses of the second frame before and after a `step` that raises in the provider, and whether the points of the map are the same. -/
def brokenStep (S : Sys ℚ) : Option (List (M4 ℚ) × Bool) :=
  match iters S seqW 1, frameAt seqW 1 with
  | .ok x, .ok live => match step S x.pc live x.prev true with
    | (.error _, pc, live') => some (poses live ++ poses live', secondStep.pts x.pc == secondStep.pts pc)
    | _ => none
  | _, _ => none
where
  /-- The poses of a frame. -/
  poses (o : Rgbd.Obj ℚ) : List (M4 ℚ) := match o.poses with
    | none => []
    | some P => [P.at' 0 0]

/-- **C94** (the trap, a case).  The provider raises: the map is as it was, the caller's second frame now has the poses of the first. -/
theorem broken_provider_moves_frame : brokenStep brokenSlam =
    some ([⟨.one, ⟨-1 / 8, 0, 0⟩, .zero, 1⟩, M4.one], true) := by
  decide +kernel
end Verif.Slam
